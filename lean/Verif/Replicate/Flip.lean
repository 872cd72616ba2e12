import Verif.Replicate.EndToEnd
/-!
Model of the master flip: `MasterFlipController`, `stream/replicator.h:604-769, 818-844` (C30).

Modelled: a master exposed via HTTP, the request of a follower, its validation, the diff, and what the follower does with it.
The chain of flips (a request to a node that itself follows another one, `replicator.h:675-683`): `Replicate/Chain`. Not modelled: the callbacks, ill-formed requests (refused
before anything is read, `replicator.h:627-636`). Publications may happen between the first checks, which take no lock, and the moment the node stops being a master.
-/
namespace Current.Replicate
open Current.Persist Current.Strings Current.Http

variable {E : Type}

/-- `MasterFlipRestrictions`, `replicator.h:497-518`; zero means no restriction. -/
structure Restrictions where
  maxIndexDiff : Nat := 0
  maxDiffSize : Nat := 0
  maxHeadDiff : Int := 0
  maxClockDiff : Int := 0
  deriving DecidableEq, Repr

/-- `ExposedStreamState`, `replicator.h:771-798`; times in microseconds. -/
structure Exposed where
  key : Nat
  delay : Int := 1000000      -- `wrong_key_delay_`
  blockUntil : Int := 0       -- `block_flip_until_`
  r : Restrictions := {}
  deriving DecidableEq, Repr

/-- Whether the node's stream is a master stream, or `borrowed_publisher_` holds its publisher after a flip. -/
inductive Role where
  | master | yielded
  deriving DecidableEq, Repr

structure Node (E : Type) where
  mem : Mem E
  role : Role
  exposed : Option Exposed
  deriving DecidableEq, Repr

/-- The URL parameters of `…/control/flip_to_master`, `replicator.h:94-105`. -/
structure FlipReq where
  head : Int
  i : Option Nat
  key : Nat
  clock : Option Int
  deriving DecidableEq, Repr

/-- Why a flip is refused. -/
inductive Refusal where
  | headAhead | tooManyEntries | headIndexMismatch | unavailable | blocked | clock | wrongKey | indexDiff | headDiff | diffSize
  deriving DecidableEq, Repr

inductive FlipResp where
  | refused (r : Refusal)
  | ok (body : Str)
  deriving DecidableEq, Repr

/-- `client_next_index`, `replicator.h:639`. -/
def FlipReq.next (q : FlipReq) : Nat := match q.i with | some i => i + 1 | none => 0

/-- The checks made before the lock is taken, `replicator.h:642-664`, on the log as it is then. -/
def precheck (m : Mem E) (q : FlipReq) : Option Refusal :=
  let ts := m.entries.map (·.1)
  if q.head > m.head then some .headAhead
  else if q.i ≠ none ∧ (m.entries = [] ∨ q.next > m.entries.length) then some .tooManyEntries
  else if m.entries ≠ [] ∧ min ((indexRange ts (q.head + 1) 0).1.getD m.entries.length) m.entries.length ≠ q.next then some .headIndexMismatch
  else none

/-- The loop that writes the diff, `replicator.h:748-764`: `none` when it gets too large. -/
def diffLoop (maxSize : Nat) : Str → List Str → Option Str
  | acc, [] => some acc
  | acc, l :: ls =>
    let acc := acc ++ l ++ ['\n']
    if maxSize ≠ 0 ∧ acc.length > maxSize then none else diffLoop maxSize acc ls

/-- The head is later than the last entry, `replicator.h:765`. -/
def aboveLast (m : Mem E) : Bool := match m.entries.getLast? with | none => true | some x => decide (m.head > x.1)

/-- The head line at the end of the diff, `replicator.h:765-766`. -/
def headItems (m : Mem E) (clientHead : Int) : List (Item E) :=
  if m.head > clientHead ∧ aboveLast m = true then [.head m.head] else []

/-- `ValidateAndSendDiff`, `replicator.h:728-769`. -/
def sendDiff (k : Wire E) (r : Restrictions) (m : Mem E) (q : FlipReq) : FlipResp :=
  if r.maxIndexDiff ≠ 0 ∧ q.next ≠ 0 ∧ m.entries.length - 1 ≥ q.next + r.maxIndexDiff then .refused .indexDiff
  else if r.maxHeadDiff > 0 ∧ m.head > q.head + r.maxHeadDiff then .refused .headDiff
  else match diffLoop r.maxDiffSize [] ((itemsFrom q.next (m.entries.drop q.next)).map (·.line k)) with
    | none => .refused .diffSize
    | some text => .ok (text ++ textOf ((headItems m q.head).map (·.line k)))

/-- The clock of the client is unknown or too different, `replicator.h:678-684`. -/
def clockBad (q : FlipReq) (now : Int) (r : Restrictions) : Bool :=
  match q.clock with | none => true | some c => decide ((c - now).natAbs > r.maxClockDiff.toNat)

/-- The part of `MasterFlipRequest` under the lock, `replicator.h:666-726`; `n.mem` is the log at the moment the node stops being a master. -/
def lockedPart (k : Wire E) (now : Int) (n : Node E) (q : FlipReq) : Node E × FlipResp :=
  match n.exposed with
  | none => (n, .refused .unavailable)
  | some x =>
    if n.role = .yielded then (n, .refused .unavailable)
    else if now < x.blockUntil then (n, .refused .blocked)
    else if x.r.maxClockDiff > 0 ∧ clockBad q now x.r = true then (n, .refused .clock)
    else if q.key ≠ x.key then
      ({ n with exposed := some { x with blockUntil := now + x.delay, delay := x.delay * 2 } }, .refused .wrongKey)
    else
      match sendDiff k x.r n.mem q with
      | .ok body => ({ n with role := .yielded }, .ok body)
      | .refused r => (n, .refused r)

/-- `MasterFlipRequest`, `replicator.h:627-726`: the first checks see the log `m₁`, the rest sees the node. -/
def handleFlip (k : Wire E) (now : Int) (m₁ : Mem E) (n : Node E) (q : FlipReq) : Node E × FlipResp :=
  match precheck m₁ q with
  | some r => (n, .refused r)
  | none => lockedPart k now n q

/-- `GetFlipToMasterURL`, `replicator.h:94-105`: what a follower with the log `m` asks. -/
def flipRequest (m : Mem E) (key : Nat) (clock : Int) : FlipReq :=
  { head := m.head, i := if m.entries = [] then none else some (m.entries.length - 1), key := key, clock := some clock }

/-- `FlipToMaster` of the remote stream, `replicator.h:409-421`, with the replicator as the subscriber: applying the diff. `false`: an exception, the follower
subscribes again (`replicator.h:838-843`) and stays a follower; otherwise it becomes a master (`replicator.h:611-613`). -/
def applyDiff (k : Wire E) (md : Mode) (m : Mem E) : FlipResp → Mem E × Bool
  | .refused _ => (m, false)
  | .ok body =>
    let r := onChunk k md ⟨m.entries.length, 0, [], m⟩ body
    (r.1.mem, r.2)

/-! ### Properties -/

/-- A log as persisters keep it (C01). -/
structure Sane (m : Mem E) : Prop where
  inc : m.entries.Pairwise fun x y => x.1 < y.1
  low : ∀ x ∈ m.entries, x.1 ≤ m.head
  pos : -1 ≤ m.head

/-- `m₂` is `m₁` after more publications and head updates (C01). -/
structure Later (m₁ m₂ : Mem E) : Prop where
  pre : m₁.entries <+: m₂.entries
  head : m₁.head ≤ m₂.head
  new : ∀ x ∈ m₂.entries.drop m₁.entries.length, m₁.head < x.1

theorem diffLoop_some {maxSize : Nat} {ls : List Str} {acc t : Str} (h : diffLoop maxSize acc ls = some t) : t = acc ++ textOf ls := by
  induction ls generalizing acc with
  | nil => simp only [diffLoop, Option.some.injEq] at h; subst h; simp [textOf]
  | cons l ls ih =>
    simp only [diffLoop] at h
    split at h
    · cases h
    · rw [ih h]; simp [textOf]

theorem diffLoop_size {maxSize : Nat} {ls : List Str} {acc t : Str} (h : diffLoop maxSize acc ls = some t) (h0 : maxSize ≠ 0)
    (ha : acc.length ≤ maxSize) : t.length ≤ maxSize := by
  induction ls generalizing acc with
  | nil => simp only [diffLoop, Option.some.injEq] at h; subst h; exact ha
  | cons l ls ih =>
    simp only [diffLoop] at h
    split at h
    · cases h
    · rename_i hc
      simp only [not_and] at hc
      exact ih h (by have := hc h0; omega)

theorem lastUs_append (h : Int) (xs ys : List (Item E)) : lastUs h (xs ++ ys) = lastUs (lastUs h xs) ys := by
  induction xs generalizing h with
  | nil => rfl
  | cons it xs ih => cases it <;> exact ih _

theorem entriesOf_append (xs ys : List (Item E)) : entriesOf (xs ++ ys) = entriesOf xs ++ entriesOf ys := by
  induction xs with
  | nil => rfl
  | cons it xs ih => cases it <;> simp [entriesOf, ih]

theorem lastUs_items (n : Nat) (l : List (Int × E)) (h : Int) : lastUs h (itemsFrom n l) = (match l.getLast? with | none => h | some x => x.1) := by
  induction l generalizing n h with
  | nil => rfl
  | cons x l ih =>
    simp only [itemsFrom, lastUs, ih]
    cases l with
    | nil => rfl
    | cons y l =>
      have : (x :: y :: l).getLast? = (y :: l).getLast? := by simp [List.getLast?_cons_cons]
      rw [this]
      cases hl : (y :: l).getLast? with
      | none => simp at hl
      | some z => rfl

theorem continues_append {M : List (Int × E)} {n : Nat} {h us : Int} {l : List (Item E)} (hc : Continues M n h l) (hus : us > lastUs h l)
    (hend : M[n + (entriesOf l).length]? = none) : Continues M n h (l ++ [.head us]) := by
  induction l generalizing n h with
  | nil =>
    refine ⟨hus, ?_, trivial⟩
    intro x hx
    simp only [entriesOf, List.length_nil, Nat.add_zero] at hend
    rw [hend] at hx; cases hx
  | cons it l ih =>
    cases it with
    | entry i u e =>
      obtain ⟨a, b, c, d⟩ := hc
      refine ⟨a, b, c, ih d hus ?_⟩
      simp only [entriesOf, List.length_cons] at hend
      rw [← hend]; congr 1; omega
    | head u => exact ⟨hc.1, hc.2.1, ih hc.2.2 hus hend⟩

theorem indexRange_first (ts : List Int) (t : Int) (d : Nat) (hd : d = ts.length) : (indexRange ts t 0).1.getD d = lowerBound ts t := by
  unfold indexRange
  by_cases hq : lowerBound ts t = ts.length
  · simp [hq, hd]
  · simp [hq]

theorem flipRequest_next (f : Mem E) (key : Nat) (clock : Int) : (flipRequest f key clock).next = f.entries.length := by
  unfold flipRequest FlipReq.next
  by_cases h0 : f.entries = []
  · simp [h0]
  · have : f.entries.length ≠ 0 := by simpa using h0
    simp only [h0, if_false]; omega

/-- What the first checks establish about the follower's log. -/
theorem precheck_next {m₁ m f : Mem E} {key : Nat} {clock : Int} (hs₁ : Sane m₁) (hl : Later m₁ m)
    (hpc : precheck m₁ (flipRequest f key clock) = none) :
    f.head ≤ m₁.head ∧ ∀ x, m.entries[f.entries.length]? = some x → f.head < x.1 := by
  have hnext := flipRequest_next f key clock
  -- what the first checks establish
  have hhead : f.head ≤ m₁.head := by
    unfold precheck at hpc
    simp only at hpc
    split at hpc
    · cases hpc
    · rename_i hc; simp only [flipRequest] at hc; omega
  have hge : ∀ x, m.entries[f.entries.length]? = some x → f.head < x.1 := by
    intro x hx
    by_cases hin : f.entries.length < m₁.entries.length
    · -- among the entries the checks saw
      have hx1 : m₁.entries[f.entries.length]? = some x := by
        obtain ⟨t, ht⟩ := hl.pre
        rw [← ht, List.getElem?_append_left hin] at hx; exact hx
      unfold precheck at hpc
      simp only at hpc
      split at hpc
      · cases hpc
      · split at hpc
        · cases hpc
        · split at hpc
          · cases hpc
          · rename_i hc
            have hne : m₁.entries ≠ [] := by intro h0; rw [h0] at hin; simp at hin
            simp only [not_and, ne_eq, Classical.not_not] at hc
            have hc := hc hne
            rw [hnext] at hc
            have hinc : (m₁.entries.map (·.1)).Pairwise (· < ·) := by rw [List.pairwise_map]; exact hs₁.inc
            obtain ⟨l1, l2⟩ := lowerBound_spec (m₁.entries.map (·.1)) hinc (f.head + 1)
            have hlb : lowerBound (m₁.entries.map (·.1)) (f.head + 1) = f.entries.length := by
              replace hc : min ((indexRange (m₁.entries.map (·.1)) (f.head + 1) 0).1.getD m₁.entries.length) m₁.entries.length = f.entries.length := hc
              rw [indexRange_first _ _ _ (by simp)] at hc
              simp only [List.length_map] at l1 hc; omega
            have hlen : f.entries.length < (m₁.entries.map (·.1)).length := by simpa using hin
            have := (l2 f.entries.length hlen)
            rw [hlb] at this
            have hnot : ¬ (m₁.entries.map (·.1))[f.entries.length] < f.head + 1 := by
              intro hc'; have := this.1 hc'; omega
            have hval : (m₁.entries.map (·.1))[f.entries.length] = x.1 := by
              obtain ⟨_, hxe⟩ := List.getElem?_eq_some_iff.1 hx1
              simp [hxe]
            omega
    · have : x ∈ m.entries.drop m₁.entries.length := by
        refine List.mem_of_getElem? (i := f.entries.length - m₁.entries.length) ?_
        rw [List.getElem?_drop, show m₁.entries.length + (f.entries.length - m₁.entries.length) = f.entries.length by omega]
        exact hx
      have := hl.new x this
      omega
  exact ⟨hhead, hge⟩

/-- C30: when a flip succeeds, the old master is one no more and its log stays as it was at that moment; and the follower that asked for the flip, if its log was a prefix of the
master's, can apply the reply, and then has exactly the old master's log: all entries, and the same head. -/
theorem flip_transfers_the_log {k : Wire E} (hk : k.Lawful) (md : Mode) (now clock : Int) (key : Nat) (m₁ : Mem E) (n n' : Node E) (f : Mem E) (body : Str)
    (hs₁ : Sane m₁) (hs : Sane n.mem) (hl : Later m₁ n.mem) (hf : Sane f) (hp : f.entries <+: n.mem.entries)
    (h : handleFlip k now m₁ n (flipRequest f key clock) = (n', .ok body)) :
    n'.role = .yielded ∧ n'.mem = n.mem ∧ n.role = .master ∧ applyDiff k md f (.ok body) = (n.mem, true) := by
  unfold handleFlip at h
  cases hpc : precheck m₁ (flipRequest f key clock) with
  | some r => rw [hpc] at h; simp at h
  | none =>
    rw [hpc] at h
    simp only at h
    have hnext := flipRequest_next f key clock
    obtain ⟨hhead, hge⟩ := precheck_next hs₁ hl hpc
    -- the locked part
    unfold lockedPart at h
    cases hex : n.exposed with
    | none => rw [hex] at h; simp at h
    | some x =>
      rw [hex] at h
      simp only at h
      split at h
      · simp at h
      · rename_i hrole
        split at h
        · simp at h
        · split at h
          · simp at h
          · split at h
            · simp at h
            · split at h
              · rename_i body' hsd
                simp only [Prod.mk.injEq, FlipResp.ok.injEq] at h
                obtain ⟨h1, h2⟩ := h
                subst h1; subst h2
                have hmaster : n.role = .master := by
                  cases hr : n.role with
                  | master => rfl
                  | yielded => exact absurd hr hrole
                refine ⟨rfl, rfl, hmaster, ?_⟩
                -- the diff
                unfold sendDiff at hsd
                split at hsd
                · cases hsd
                · split at hsd
                  · cases hsd
                  · split at hsd
                    · cases hsd
                    · rename_i text hdl
                      simp only [FlipResp.ok.injEq] at hsd
                      have htext := diffLoop_some hdl
                      rw [List.nil_append] at htext
                      rw [hnext] at htext
                      -- the items of the reply
                      let items := itemsFrom f.entries.length (n.mem.entries.drop f.entries.length) ++ headItems n.mem f.head
                      have hbody : body' = textOf (items.map (·.line k)) := by
                        rw [← hsd, htext]
                        show _ = textOf ((itemsFrom f.entries.length (n.mem.entries.drop f.entries.length) ++ headItems n.mem f.head).map (·.line k))
                        have hqh : (flipRequest f key clock).head = f.head := rfl
                        rw [hqh]
                        simp [textOf]
                      have hcont0 := items_continue n.mem.entries hs.inc f.entries.length f.head hge
                      have hM : f.entries ++ n.mem.entries.drop f.entries.length = n.mem.entries := by
                        have := List.prefix_iff_eq_take.1 hp
                        conv => lhs; lhs; rw [this]
                        exact List.take_append_drop _ _
                      have hle : f.entries.length ≤ n.mem.entries.length := hp.length_le
                      have hlast : lastUs f.head (itemsFrom f.entries.length (n.mem.entries.drop f.entries.length)) =
                          (match (n.mem.entries.drop f.entries.length).getLast? with | none => f.head | some x => x.1) := lastUs_items _ _ _
                      have hcont : Continues n.mem.entries f.entries.length f.head items ∧ lastUs f.head items = n.mem.head ∧
                          entriesOf items = n.mem.entries.drop f.entries.length := by
                        show Continues _ _ _ (_ ++ headItems n.mem f.head) ∧ lastUs f.head (_ ++ headItems n.mem f.head) = _ ∧ entriesOf (_ ++ headItems n.mem f.head) = _
                        unfold headItems
                        have hd : (n.mem.entries.drop f.entries.length).getLast? = none ∧ n.mem.entries.length = f.entries.length ∨
                            (∃ x, (n.mem.entries.drop f.entries.length).getLast? = some x ∧ n.mem.entries.getLast? = some x) := by
                          cases hgl : (n.mem.entries.drop f.entries.length).getLast? with
                          | none =>
                            left
                            have := List.getLast?_eq_none_iff.1 hgl
                            have := congrArg List.length this
                            simp only [List.length_drop, List.length_nil] at this
                            exact ⟨rfl, by omega⟩
                          | some x =>
                            right
                            refine ⟨x, rfl, ?_⟩
                            rw [← hM, List.getLast?_append, hgl]; rfl
                        have hhle : f.head ≤ n.mem.head := by have := hl.head; omega
                        split
                        · rename_i hcond
                          have hend : n.mem.entries[f.entries.length + (entriesOf (itemsFrom f.entries.length (n.mem.entries.drop f.entries.length))).length]? = none := by
                            rw [entriesOf_items, List.length_drop, List.getElem?_eq_none_iff]; omega
                          refine ⟨continues_append hcont0 ?_ hend, ?_, ?_⟩
                          · rw [hlast]
                            rcases hd with ⟨h1, _⟩ | ⟨x, h1, h2⟩
                            · rw [h1]; exact hcond.1
                            · rw [h1]; have := hcond.2; simp only [aboveLast, h2, decide_eq_true_eq] at this; exact this
                          · rw [lastUs_append]; rfl
                          · rw [entriesOf_append, entriesOf_items]; simp [entriesOf]
                        · rename_i hcond
                          rw [List.append_nil]
                          refine ⟨hcont0, ?_, entriesOf_items _ _⟩
                          rw [hlast]
                          rcases hd with ⟨h1, hlen⟩ | ⟨x, h1, h2⟩
                          · rw [h1]
                            -- no new entries: the heads must agree
                            have heq : f.entries = n.mem.entries := hp.eq_of_length (by omega)
                            dsimp only
                            apply Classical.byContradiction
                            intro hne
                            apply hcond
                            refine ⟨by omega, ?_⟩
                            unfold aboveLast
                            cases hg : n.mem.entries.getLast? with
                            | none => rfl
                            | some y =>
                              have := hf.low y (by rw [heq]; exact List.mem_of_getLast? hg)
                              simp only [decide_eq_true_eq]
                              omega
                          · rw [h1]
                            have h3 := hs.low x (List.mem_of_getLast? h2)
                            have h4 : f.head < x.1 := by
                              have hmem := List.mem_of_getLast? h1
                              obtain ⟨j, hj⟩ := List.getElem?_of_mem hmem
                              rw [List.getElem?_drop] at hj
                              obtain ⟨hjl, hje⟩ := List.getElem?_eq_some_iff.1 hj
                              have hfl : f.entries.length < n.mem.entries.length := by omega
                              have hfirst := hge _ (List.getElem?_eq_getElem hfl)
                              rcases Nat.eq_zero_or_pos j with h0 | h0
                              · subst h0; simp only [Nat.add_zero] at hje; rw [hje] at hfirst; exact hfirst
                              · have := (List.pairwise_iff_getElem.1 hs.inc) f.entries.length (f.entries.length + j) hfl hjl (by omega)
                                rw [hje] at this; omega
                            dsimp only
                            apply Classical.byContradiction
                            intro hne
                            apply hcond
                            refine ⟨by omega, ?_⟩
                            simp only [aboveLast, h2, decide_eq_true_eq]
                            omega
                      -- applying it
                      have hpass := passLines_continues hk md items ⟨f.entries.length, 0, [], f⟩ rfl (by have := hf.pos; dsimp only; omega) hf.pos hcont.1
                      simp only at hpass
                      have hlines : (passChunk [] body').1 = items.map (·.line k) := by
                        rw [passChunk_eq _ _ (by simp), hbody, readLines_textOf]
                        intro l hl
                        rw [List.mem_map] at hl
                        obtain ⟨it, _, rfl⟩ := hl
                        exact it.line_clean hk
                      simp only [applyDiff, onChunk, hlines]
                      refine Prod.ext ?_ hpass.1
                      show (passLines k md ⟨f.entries.length, 0, [], f⟩ (items.map (·.line k))).1.mem = n.mem
                      rw [hpass.2.1, hcont.2.1, hcont.2.2, hM]
              · simp at h

/-- C30: a refused flip changes nothing: the node stays a master, with its log; the follower stays what it was. -/
theorem refused_flip_changes_nothing (k : Wire E) (md : Mode) (now : Int) (m₁ : Mem E) (n n' : Node E) (q : FlipReq) (r : Refusal) (f : Mem E)
    (h : handleFlip k now m₁ n q = (n', .refused r)) :
    n'.role = n.role ∧ n'.mem = n.mem ∧ applyDiff k md f (.refused r) = (f, false) ∧ (r ≠ .wrongKey → n' = n) := by
  have key : n'.role = n.role ∧ n'.mem = n.mem ∧ (r ≠ .wrongKey → n' = n) := by
    unfold handleFlip lockedPart at h
    repeat' split at h
    all_goals simp only [Prod.mk.injEq, FlipResp.refused.injEq, reduceCtorEq, and_false] at h
    all_goals (obtain ⟨h1, h2⟩ := h; subst h1; subst h2; simp)
  exact ⟨key.1, key.2.1, rfl, key.2.2⟩

/-- C30: the secret is needed: with a wrong key a flip never succeeds, whatever else the request says. -/
theorem wrong_key_never_flips (k : Wire E) (now : Int) (m₁ : Mem E) (n : Node E) (q : FlipReq) (x : Exposed) (hx : n.exposed = some x) (hk : q.key ≠ x.key) :
    ∃ r, (handleFlip k now m₁ n q).2 = .refused r := by
  unfold handleFlip lockedPart
  rw [hx]
  simp only
  repeat' split
  all_goals first | exact ⟨_, rfl⟩ | (rename_i h _ _ _; exact absurd hk h)

/-- C30: while blocked, no flip succeeds, not even with the right key, and nothing changes. -/
theorem blocked_refuses (k : Wire E) (now : Int) (m₁ : Mem E) (n : Node E) (q : FlipReq) (x : Exposed) (hx : n.exposed = some x) (hb : now < x.blockUntil) :
    (handleFlip k now m₁ n q).1 = n ∧ ∃ r, (handleFlip k now m₁ n q).2 = .refused r ∧ r ≠ .wrongKey := by
  unfold handleFlip
  cases hp : precheck m₁ q with
  | some r =>
    refine ⟨rfl, r, rfl, ?_⟩
    unfold precheck at hp
    simp only at hp
    repeat' split at hp
    all_goals simp only [Option.some.injEq, reduceCtorEq] at hp
    all_goals (subst hp; decide)
  | none =>
    simp only [lockedPart, hx]
    by_cases hr : n.role = .yielded
    · rw [if_pos hr]; exact ⟨rfl, _, rfl, by decide⟩
    · rw [if_neg hr, if_pos hb]; exact ⟨rfl, _, rfl, by decide⟩

/-- A run of requests against a node at given moments; the log does not matter here. -/
def attempts (k : Wire E) (m₁ : Mem E) : Node E → List (Int × FlipReq) → Node E × List (Int × FlipResp)
  | n, [] => (n, [])
  | n, (now, q) :: as =>
    let r := handleFlip k now m₁ n q
    let r' := attempts k m₁ r.1 as
    (r'.1, (now, r.2) :: r'.2)

theorem handleFlip_wrongKey {k : Wire E} {now : Int} {m₁ : Mem E} {n : Node E} {q : FlipReq} {x : Exposed} (hx : n.exposed = some x) :
    ((handleFlip k now m₁ n q).2 = .refused .wrongKey → x.blockUntil ≤ now ∧
      (handleFlip k now m₁ n q).1.exposed = some { x with blockUntil := now + x.delay, delay := x.delay * 2 }) ∧
    ((handleFlip k now m₁ n q).2 ≠ .refused .wrongKey → (handleFlip k now m₁ n q).1.exposed = some x) := by
  unfold handleFlip
  cases hp : precheck m₁ q with
  | some r =>
    refine ⟨?_, fun _ => hx⟩
    intro h
    simp only [FlipResp.refused.injEq] at h
    subst h
    unfold precheck at hp
    simp only at hp
    repeat' split at hp
    all_goals simp only [Option.some.injEq, reduceCtorEq] at hp
  | none =>
    simp only [lockedPart, hx]
    by_cases hr : n.role = .yielded
    · rw [if_pos hr]; simp [hx]
    · rw [if_neg hr]
      by_cases hb : now < x.blockUntil
      · rw [if_pos hb]; simp [hx]
      · rw [if_neg hb]
        split
        · simp [hx]
        · split
          · simp; omega
          · split
            · simp [hx]
            · rename_i r hsd
              refine ⟨?_, fun _ => hx⟩
              intro h
              simp only [FlipResp.refused.injEq] at h
              subst h
              unfold sendDiff at hsd
              repeat' split at hsd
              all_goals simp at hsd

/-- How many replies said the key was wrong. -/
def wrongKeys (l : List (Int × FlipResp)) : Nat := (l.filter fun r => decide (r.2 = .refused .wrongKey)).length

/-- C30: every wrong key doubles the delay and blocks for it. So guessing takes exponential time: for `m` guesses to be looked at, the last one cannot be earlier than
`(2^(m-1) - 1) · delay` after the first one could. -/
theorem guessing_takes_exponential_time (k : Wire E) (m₁ : Mem E) (n : Node E) (x : Exposed) (hx : n.exposed = some x) (as : List (Int × FlipReq)) :
    let r := attempts k m₁ n as
    ∃ y, r.1.exposed = some y ∧ y.delay = x.delay * 2 ^ wrongKeys r.2 ∧ x.blockUntil + x.delay * (2 ^ wrongKeys r.2 - 1) ≤ y.blockUntil ∧
      y.key = x.key ∧
      ∀ pre now suf, r.2 = pre ++ (now, .refused .wrongKey) :: suf → x.blockUntil + x.delay * (2 ^ wrongKeys pre - 1) ≤ now := by
  induction as generalizing n x with
  | nil => exact ⟨x, hx, by simp [attempts, wrongKeys], by simp [attempts, wrongKeys], rfl, by simp [attempts]⟩
  | cons a as ih =>
    obtain ⟨now, q⟩ := a
    obtain ⟨h1, h2⟩ := handleFlip_wrongKey (k := k) (now := now) (m₁ := m₁) (q := q) hx
    simp only [attempts]
    by_cases hw : (handleFlip k now m₁ n q).2 = .refused .wrongKey
    · obtain ⟨hb, he⟩ := h1 hw
      obtain ⟨y, y1, y2, y3, y4, y5⟩ := ih _ _ he
      have hcnt : wrongKeys ((now, (handleFlip k now m₁ n q).2) :: (attempts k m₁ (handleFlip k now m₁ n q).1 as).2) =
          wrongKeys (attempts k m₁ (handleFlip k now m₁ n q).1 as).2 + 1 := by simp [wrongKeys, hw]
      have hpow : ∀ w : Nat, x.delay * 2 * 2 ^ w = x.delay * 2 ^ (w + 1) := by intro w; rw [Int.pow_succ, Int.mul_assoc, Int.mul_comm 2]
      have hexp : ∀ w : Nat, (x.delay * 2) * ((2 : Int) ^ w - 1) + x.delay = x.delay * (2 ^ (w + 1) - 1) := by
        intro w; rw [Int.mul_sub, Int.mul_sub, hpow]; omega
      refine ⟨y, y1, ?_, ?_, y4, ?_⟩
      · rw [hcnt, y2, ← hpow]
      · rw [hcnt, ← hexp]
        dsimp only at y3
        omega
      · intro pre now' suf hsplit
        cases pre with
        | nil =>
          simp only [List.nil_append, List.cons.injEq, Prod.mk.injEq] at hsplit
          simp [wrongKeys]; omega
        | cons p pre =>
          simp only [List.cons_append, List.cons.injEq] at hsplit
          have := y5 pre now' suf hsplit.2
          dsimp only at this
          have hp : wrongKeys (p :: pre) = wrongKeys pre + 1 := by rw [← hsplit.1]; simp [wrongKeys, hw]
          rw [hp, ← hexp]
          omega
    · obtain ⟨y, y1, y2, y3, y4, y5⟩ := ih _ _ (h2 hw)
      have hcnt : wrongKeys ((now, (handleFlip k now m₁ n q).2) :: (attempts k m₁ (handleFlip k now m₁ n q).1 as).2) =
          wrongKeys (attempts k m₁ (handleFlip k now m₁ n q).1 as).2 := by simp [wrongKeys, hw]
      refine ⟨y, y1, by rw [hcnt]; exact y2, by rw [hcnt]; exact y3, y4, ?_⟩
      intro pre now' suf hsplit
      cases pre with
      | nil =>
        simp only [List.nil_append, List.cons.injEq, Prod.mk.injEq] at hsplit
        exact absurd hsplit.1.2 hw
      | cons p pre =>
        simp only [List.cons_append, List.cons.injEq] at hsplit
        have := y5 pre now' suf hsplit.2
        have hp : wrongKeys (p :: pre) = wrongKeys pre := by rw [← hsplit.1]; simp [wrongKeys, hw]
        rw [hp]; exact this

/-- C30: the restrictions are respected by a flip that succeeds. -/
theorem restrictions_respected (k : Wire E) (now : Int) (m₁ : Mem E) (n n' : Node E) (q : FlipReq) (x : Exposed) (body : Str) (hx : n.exposed = some x)
    (h : handleFlip k now m₁ n q = (n', .ok body)) :
    (x.r.maxIndexDiff ≠ 0 → q.next ≠ 0 → n.mem.entries.length - q.next ≤ x.r.maxIndexDiff) ∧
    (x.r.maxHeadDiff > 0 → n.mem.head - q.head ≤ x.r.maxHeadDiff) ∧
    (x.r.maxDiffSize ≠ 0 → (textOf ((itemsFrom q.next (n.mem.entries.drop q.next)).map (·.line k))).length ≤ x.r.maxDiffSize) ∧
    (x.r.maxClockDiff > 0 → ∃ c, q.clock = some c ∧ (c - now).natAbs ≤ x.r.maxClockDiff.toNat) ∧ q.key = x.key ∧ x.blockUntil ≤ now := by
  unfold handleFlip at h
  split at h
  · simp at h
  · unfold lockedPart at h
    rw [hx] at h
    simp only at h
    split at h
    · simp at h
    · split at h
      · simp at h
      · rename_i hb
        split at h
        · simp at h
        · rename_i hclk
          split at h
          · simp at h
          · rename_i hkey
            split at h
            · rename_i body' hsd
              unfold sendDiff at hsd
              split at hsd
              · cases hsd
              · rename_i h1
                split at hsd
                · cases hsd
                · rename_i h2
                  split at hsd
                  · cases hsd
                  · rename_i text hdl
                    refine ⟨?_, ?_, ?_, ?_, by simpa using hkey, by omega⟩
                    · intro a b
                      simp only [not_and] at h1
                      have := h1 a b; omega
                    · intro a
                      simp only [not_and] at h2
                      have := h2 a; omega
                    · intro a
                      have e := diffLoop_some hdl
                      rw [List.nil_append] at e
                      rw [← e]
                      exact diffLoop_size hdl a (by simp)
                    · intro a
                      simp only [not_and] at hclk
                      have := hclk a
                      unfold clockBad at this
                      cases hc : q.clock with
                      | none => rw [hc] at this; simp at this
                      | some c => rw [hc] at this; exact ⟨c, rfl, by simpa using this⟩
            · simp at h

/-- Not what the restriction says: a follower without entries is not subject to the maximum number of entries. -/
theorem empty_follower_escapes_index_restriction : ∃ (n : Node Nat) (q : FlipReq) (x : Exposed),
    n.exposed = some x ∧ x.r.maxIndexDiff = 1 ∧ n.mem.entries.length = 3 ∧ q.next = 0 ∧
    (handleFlip natWire 100 n.mem n q).1.role = .yielded :=
  ⟨⟨⟨demoLog, 30⟩, .master, some { key := 7, r := { maxIndexDiff := 1 } }⟩, ⟨-1, none, 7, none⟩, { key := 7, r := { maxIndexDiff := 1 } },
    by decide, by decide, by decide, by decide, by decide +kernel⟩

/-! ### Who is the master -/

/-- The two nodes: the exposed one, and the follower with its role. -/
structure Pair (E : Type) where
  node : Node E
  f : Mem E
  fMaster : Bool
  pending : Option FlipResp     -- a reply on its way
  deriving DecidableEq, Repr

inductive PairStep where
  | request (now clock : Int) (key : Nat)   -- the follower asks, the node handles it
  | deliver                                 -- the reply arrives
  | lose                                    -- the reply is lost
  deriving DecidableEq, Repr

/-- `FlipToMaster`, `replicator.h:604-614`, on both sides. -/
def Pair.step (k : Wire E) (md : Mode) (s : Pair E) : PairStep → Option (Pair E)
  | .request now clock key =>
    if s.fMaster ∨ s.pending ≠ none then none
    else
      let r := handleFlip k now s.node.mem s.node (flipRequest s.f key clock)
      some { s with node := r.1, pending := some r.2 }
  | .deliver =>
    match s.pending with
    | none => none
    | some resp =>
      let r := applyDiff k md s.f resp
      some { s with f := r.1, fMaster := r.2, pending := none }
  | .lose => if s.pending = none then none else some { s with pending := none }

def Pair.run (k : Wire E) (md : Mode) : Pair E → List PairStep → Option (Pair E)
  | s, [] => some s
  | s, a :: as => match s.step k md a with
    | none => none
    | some s' => Pair.run k md s' as

/-- C30: at no moment of any history of requests, deliveries and losses are both nodes masters; and once the follower is one, its log is the old master's. -/
theorem at_most_one_master {k : Wire E} (hk : k.Lawful) (md : Mode) (s s' : Pair E) (as : List PairStep) (h0 : s.fMaster = false) (h1 : s.pending = none)
    (hs : Sane s.node.mem) (hf : Sane s.f) (hp : s.f.entries <+: s.node.mem.entries) (hrun : s.run k md as = some s') :
    (s'.fMaster = true → s'.node.role = .yielded ∧ s'.f = s.node.mem) ∧ s'.node.mem = s.node.mem ∧ (s'.fMaster = false → s'.f = s.f) := by
  -- invariant
  have key : ∀ (as : List PairStep) (t : Pair E), t.run k md as = some s' → t.node.mem = s.node.mem → (t.fMaster = false → t.f = s.f) →
      (t.fMaster = true → t.node.role = .yielded ∧ t.f = s.node.mem ∧ t.pending = none) →
      (∀ body, t.pending = some (.ok body) → t.node.role = .yielded ∧ applyDiff k md s.f (.ok body) = (s.node.mem, true)) →
      (s'.fMaster = true → s'.node.role = .yielded ∧ s'.f = s.node.mem) ∧ s'.node.mem = s.node.mem ∧ (s'.fMaster = false → s'.f = s.f) := by
    intro as
    induction as with
    | nil =>
      intro t hr a b c d
      simp only [Pair.run, Option.some.injEq] at hr
      subst hr
      exact ⟨fun h => ⟨(c h).1, (c h).2.1⟩, a, b⟩
    | cons x as ih =>
      intro t hr a b c d
      simp only [Pair.run] at hr
      cases hst : t.step k md x with
      | none => rw [hst] at hr; cases hr
      | some t' =>
        rw [hst] at hr
        simp only at hr
        cases x with
        | request now clock key =>
          simp only [Pair.step] at hst
          split at hst
          · cases hst
          · rename_i hc
            simp only [not_or, Bool.not_eq_true] at hc
            simp only [Option.some.injEq] at hst
            subst hst
            have htf := b hc.1
            have hcase : (handleFlip k now t.node.mem t.node (flipRequest t.f key clock)).1.mem = s.node.mem ∧
                (∀ body, (handleFlip k now t.node.mem t.node (flipRequest t.f key clock)).2 = .ok body →
                  (handleFlip k now t.node.mem t.node (flipRequest t.f key clock)).1.role = .yielded ∧ applyDiff k md s.f (.ok body) = (s.node.mem, true)) := by
              cases hh : handleFlip k now t.node.mem t.node (flipRequest t.f key clock) with
              | mk n' resp =>
                cases resp with
                | refused r =>
                  obtain ⟨e1, e2, _⟩ := refused_flip_changes_nothing k md now _ _ _ _ _ t.f hh
                  exact ⟨e2.trans a, by simp⟩
                | ok body =>
                  have hlater : Later t.node.mem t.node.mem := ⟨List.prefix_refl _, Int.le_refl _, by simp⟩
                  have hsane : Sane t.node.mem := by rw [a]; exact hs
                  obtain ⟨e1, e2, _, e4⟩ := flip_transfers_the_log hk md now clock key t.node.mem t.node n' t.f body hsane hsane hlater
                    (by rw [htf]; exact hf) (by rw [htf, a]; exact hp) hh
                  refine ⟨e2.trans a, ?_⟩
                  intro body' hb
                  simp only [FlipResp.ok.injEq] at hb
                  subst hb
                  exact ⟨e1, by rw [← htf, ← a]; exact e4⟩
            refine ih _ hr hcase.1 b (fun h => by rw [hc.1] at h; cases h) ?_
            intro body hb
            simp only [Option.some.injEq] at hb
            exact hcase.2 body hb
        | deliver =>
          simp only [Pair.step] at hst
          cases hpend : t.pending with
          | none => rw [hpend] at hst; cases hst
          | some resp =>
            rw [hpend] at hst
            simp only [Option.some.injEq] at hst
            subst hst
            have hnm : t.fMaster = false := by
              cases h : t.fMaster with
              | false => rfl
              | true => have := (c h).2.2; rw [hpend] at this; cases this
            cases resp with
            | refused r =>
              refine ih _ hr a ?_ ?_ (by simp)
              · intro _; exact b hnm
              · intro h; cases h
            | ok body =>
              obtain ⟨d1, d2⟩ := d body hpend
              rw [← b hnm] at d2
              refine ih _ hr a ?_ ?_ (by simp)
              · intro h; dsimp only at h; rw [d2] at h; cases h
              · intro _; exact ⟨d1, by dsimp only; rw [d2], rfl⟩
        | lose =>
          simp only [Pair.step] at hst
          split at hst
          · cases hst
          · simp only [Option.some.injEq] at hst
            subst hst
            refine ih _ hr a b ?_ (by simp)
            intro h; exact ⟨(c h).1, (c h).2.1, rfl⟩
  exact key as s hrun rfl (fun _ => rfl) (fun h => by rw [h0] at h; cases h) (fun body h => by rw [h1] at h; cases h)

/-- Two nodes, before a flip. -/
def demoPair : Pair Nat :=
  { node := ⟨⟨demoLog, 35⟩, .master, some { key := 7 }⟩, f := ⟨[(10, 7)], 12⟩, fMaster := false, pending := none }

theorem demo_sane : Sane demoPair.node.mem ∧ Sane demoPair.f :=
  ⟨⟨by decide, by decide, by decide⟩, ⟨by decide, by decide, by decide⟩⟩

/-- A wrong key, then, later, the right one: the flip succeeds, the new master has the log and the head. -/
example : ((demoPair.run natWire .checked [.request 100 100 6, .deliver, .request 2000000 100 7, .deliver]).map fun s =>
    (s.fMaster, s.node.role, s.f)) = some (true, .yielded, ⟨demoLog, 35⟩) := by
  decide +kernel

/-- Not as one would wish: when the reply is lost, nobody is a master any more, and asking again is refused. -/
theorem lost_reply_leaves_no_master : ∃ s : Pair Nat, demoPair.run natWire .checked [.request 100 100 7, .lose, .request 200 200 7, .deliver] = some s ∧
    s.fMaster = false ∧ s.node.role = .yielded :=
  ⟨_, rfl, by decide +kernel, by decide +kernel⟩

end Current.Replicate
