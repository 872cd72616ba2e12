import Verif.Replicate.Flip
/-!
Model of a chain of flips (C30): a flip request to a node which itself follows another node, `stream/replicator.h:675-693`. The node asked first takes over the mastership
from the node it follows, with the key it was given, then yields to the client.

Modelled: any number of nodes, each following the next, with logs which may grow between the checks made without the lock and the moment the lock is taken.
Not modelled: the callbacks; replies lost between the nodes of the chain (for one hop: `lost_reply_leaves_no_master`).
-/
namespace Current.Replicate
open Current.Persist Current.Strings Current.Http

variable {E : Type}

/-- Master; `borrowed_publisher_` exists; or `remote_follower_` exists. -/
inductive CRole where
  | master | yielded | follows
  deriving DecidableEq, Repr

/-- A node of a chain: the log at the moment of the first checks, the log when the lock is held (and the subscription terminated, `replicator.h:832`), the role and what is exposed. -/
structure CNode (E : Type) where
  seen : Mem E
  mem : Mem E
  role : CRole
  exposed : Option Exposed
  now : Int           -- the clock of this node
  deriving DecidableEq, Repr

/-- Why a flip along a chain is refused. -/
inductive ChainRefusal where
  | own (r : Refusal)
  | upstream            -- "The remote stream refused the flip."
  | exception           -- not caught: the reply could not be applied
  deriving DecidableEq, Repr

inductive ChainResp where
  | refused (r : ChainRefusal)
  | ok (body : Str)
  deriving DecidableEq, Repr

/-- `replicator.h:702-713`, from `BecomeFollowingStream` on: yield if the diff can be sent, otherwise be a master. -/
def yieldTo (k : Wire E) (x : Exposed) (n : CNode E) (q : FlipReq) : CNode E × ChainResp :=
  match sendDiff k x.r n.mem q with
  | .ok body => ({ n with role := .yielded }, .ok body)
  | .refused r => ({ n with role := .master }, .refused (.own r))

/-- `MasterFlipRequest`, `replicator.h:627-726`, of the first node, with the node it follows (if it does) next in the list, `replicator.h:832-843, 409-421`.
A node that follows nobody here has an empty rest: its request upstream is refused (an HTTP error is a refusal or an exception; both leave the roles alone). -/
def handleChain (k : Wire E) (md : Mode) : List (CNode E) → FlipReq → List (CNode E) × ChainResp
  | [], _ => ([], .refused .exception)
  | n :: rest, q =>
    match precheck n.seen q with
    | some r => (n :: rest, .refused (.own r))
    | none =>
      match n.exposed with
      | none => (n :: rest, .refused (.own .unavailable))
      | some x =>
        if n.role = .yielded then (n :: rest, .refused (.own .unavailable))
        else if n.now < x.blockUntil then (n :: rest, .refused (.own .blocked))
        else if x.r.maxClockDiff > 0 ∧ clockBad q n.now x.r = true then (n :: rest, .refused (.own .clock))
        else if n.role = .follows then
          let up := handleChain k md rest (flipRequest n.mem q.key n.now)
          match up.2 with
          | .refused _ => (n :: up.1, .refused .upstream)
          | .ok body =>
            let a := applyDiff k md n.mem (.ok body)
            if a.2 then
              let r := yieldTo k x { n with mem := a.1 } q
              (r.1 :: up.1, r.2)
            else ({ n with mem := a.1 } :: up.1, .refused .exception)
        else if q.key ≠ x.key then
          ({ n with exposed := some { x with blockUntil := n.now + x.delay, delay := x.delay * 2 } } :: rest, .refused (.own .wrongKey))
        else
          let r := yieldTo k x n q
          (r.1 :: rest, r.2)

/-- A chain in which `f` asks the first node: everybody but the last follows the next one, and its log is a prefix of the next one's. The last may be a master or have yielded before. -/
def Chain : Mem E → List (CNode E) → Prop
  | _, [] => False
  | f, [n] => f.entries <+: n.mem.entries ∧ Sane n.seen ∧ Sane n.mem ∧ Later n.seen n.mem ∧ n.role ≠ .follows
  | f, n :: n' :: rest => f.entries <+: n.mem.entries ∧ Sane n.seen ∧ Sane n.mem ∧ Later n.seen n.mem ∧ n.role = .follows ∧ Chain n.mem (n' :: rest)

/-- The log at the end of the chain. -/
def lastLog : List (CNode E) → Option (Mem E)
  | [] => none
  | [n] => some n.mem
  | _ :: n' :: rest => lastLog (n' :: rest)

/-- All nodes have yielded, with the log `M`. -/
def AllYielded (M : Mem E) (cs : List (CNode E)) : Prop := ∀ c ∈ cs, c.role = .yielded ∧ c.mem = M

/-- What a refused flip may leave: the first nodes as they were; then one node that is the master; everything behind it has yielded; and master and yielded nodes have the log `M`. -/
def OneMaster (M : Mem E) (cs cs' : List (CNode E)) : Prop :=
  ∃ pre c post, cs' = pre ++ c :: post ∧ pre = cs.take pre.length ∧ c.role = .master ∧ c.mem = M ∧ AllYielded M post

theorem Later.trans {a b c : Mem E} (h1 : Later a b) (h2 : Later b c) : Later a c := by
  refine ⟨h1.pre.trans h2.pre, Int.le_trans h1.head h2.head, ?_⟩
  intro x hx
  obtain ⟨t, ht⟩ := h1.pre
  obtain ⟨u, hu⟩ := h2.pre
  have e1 : b.entries.drop a.entries.length = t := by rw [← ht]; simp
  have e2 : c.entries.drop b.entries.length = u := by rw [← hu]; simp
  have e3 : c.entries.drop a.entries.length = t ++ u := by rw [← hu, ← ht]; simp
  rw [e3, List.mem_append] at hx
  rcases hx with hx | hx
  · exact h1.new x (by rw [e1]; exact hx)
  · have := h2.new x (by rw [e2]; exact hx)
    have := h1.head
    omega

/-- A request whose first checks pass comes from an earlier state of the same log. -/
theorem precheck_later {m₁ m f : Mem E} {key : Nat} {clock : Int} (hs₁ : Sane m₁) (hs : Sane m) (hl : Later m₁ m) (hp : f.entries <+: m.entries)
    (hpc : precheck m₁ (flipRequest f key clock) = none) : Later f m := by
  obtain ⟨h1, h2⟩ := precheck_next hs₁ hl hpc
  refine ⟨hp, Int.le_trans h1 hl.head, ?_⟩
  intro x hx
  obtain ⟨j, hj⟩ := List.getElem?_of_mem hx
  rw [List.getElem?_drop] at hj
  obtain ⟨hjl, hje⟩ := List.getElem?_eq_some_iff.1 hj
  have hfl : f.entries.length < m.entries.length := by omega
  have hfirst := h2 _ (List.getElem?_eq_getElem hfl)
  rcases Nat.eq_zero_or_pos j with h0 | h0
  · subst h0; simp only [Nat.add_zero] at hje; rw [hje] at hfirst; exact hfirst
  · have := (List.pairwise_iff_getElem.1 hs.inc) f.entries.length (f.entries.length + j) hfl hjl (by omega)
    rw [hje] at this; omega

/-- The last step, for any node with the complete log. -/
theorem yieldTo_ok {k : Wire E} (hk : k.Lawful) (md : Mode) (n n' : CNode E) (f : Mem E) (key : Nat) (clock : Int) (x : Exposed) (body : Str)
    (hs₁ : Sane n.seen) (hs : Sane n.mem) (hl : Later n.seen n.mem) (hf : Sane f) (hp : f.entries <+: n.mem.entries)
    (hpc : precheck n.seen (flipRequest f key clock) = none)
    (h : yieldTo k x n (flipRequest f key clock) = (n', .ok body)) :
    n' = { n with role := .yielded } ∧ applyDiff k md f (.ok body) = (n.mem, true) := by
  unfold yieldTo at h
  cases hsd : sendDiff k x.r n.mem (flipRequest f key clock) with
  | refused r => rw [hsd] at h; simp at h
  | ok b =>
    rw [hsd] at h
    simp only [Prod.mk.injEq, ChainResp.ok.injEq] at h
    obtain ⟨h1, h2⟩ := h
    subst h1; subst h2
    refine ⟨rfl, ?_⟩
    -- the same reply, from a node of the two-node model that knows this key
    have hh : handleFlip k 0 n.seen ⟨n.mem, .master, some ⟨key, 0, 0, { x.r with maxClockDiff := 0 }⟩⟩ (flipRequest f key clock) =
        (⟨n.mem, .yielded, some ⟨key, 0, 0, { x.r with maxClockDiff := 0 }⟩⟩, .ok b) := by
      unfold handleFlip lockedPart
      rw [hpc]
      have hsd' : sendDiff k { x.r with maxClockDiff := 0 } n.mem (flipRequest f key clock) = .ok b := by rw [← hsd]; rfl
      simp [hsd', flipRequest] at *
    exact (flip_transfers_the_log hk md 0 clock key n.seen _ _ f b hs₁ hs hl hf hp hh).2.2.2

theorem yieldTo_refused {k : Wire E} {x : Exposed} {n n' : CNode E} {q : FlipReq} {r : ChainRefusal}
    (h : yieldTo k x n q = (n', .refused r)) : n' = { n with role := .master } := by
  unfold yieldTo at h
  split at h
  · simp at h
  · simp only [Prod.mk.injEq] at h; exact h.1.symm

/-- C30: whatever the length of the chain, when the flip succeeds every node of the chain has yielded, all of them have the complete log of the old master, and so has the client. -/
theorem chain_flip_transfers_the_log {k : Wire E} (hk : k.Lawful) (md : Mode) (cs cs' : List (CNode E)) (f M : Mem E) (key : Nat) (clock : Int) (body : Str)
    (hf : Sane f) (hc : Chain f cs) (hM : lastLog cs = some M) (h : handleChain k md cs (flipRequest f key clock) = (cs', .ok body)) :
    AllYielded M cs' ∧ cs'.length = cs.length ∧ applyDiff k md f (.ok body) = (M, true) ∧ Later f M ∧ Sane M ∧ (∃ n, cs.getLast? = some n ∧ n.role = .master) := by
  induction cs generalizing f cs' key clock body with
  | nil => exact absurd hc (by simp [Chain])
  | cons n rest ih =>
    simp only [handleChain] at h
    cases hpc : precheck n.seen (flipRequest f key clock) with
    | some r => rw [hpc] at h; simp at h
    | none =>
    rw [hpc] at h
    simp only at h
    cases hx : n.exposed with
    | none => rw [hx] at h; simp at h
    | some x =>
    rw [hx] at h
    simp only at h
    by_cases hy : n.role = .yielded
    · rw [if_pos hy] at h; simp at h
    rw [if_neg hy] at h
    split at h
    · simp at h
    split at h
    · simp at h
    cases rest with
    | nil =>
      obtain ⟨hp, s1, s2, hl, hrole⟩ := hc
      simp only [lastLog, Option.some.injEq] at hM
      subst hM
      rw [if_neg hrole] at h
      split at h
      · simp at h
      · simp only [Prod.mk.injEq] at h
        obtain ⟨h1, h2⟩ := h
        cases hyt : yieldTo k x n (flipRequest f key clock) with
        | mk n' resp =>
          rw [hyt] at h1 h2
          simp only at h1 h2
          subst h2
          obtain ⟨e1, e2⟩ := yieldTo_ok hk md n n' f key clock x body s1 s2 hl hf hp hpc hyt
          subst h1
          refine ⟨?_, rfl, e2, precheck_later s1 s2 hl hp hpc, s2, n, rfl, ?_⟩
          · intro c hc
            simp only [List.mem_singleton] at hc
            subst hc; subst e1; exact ⟨rfl, rfl⟩
          · cases hr : n.role with
            | master => rfl
            | yielded => exact absurd hr hy
            | follows => exact absurd hr hrole
    | cons n₂ rest =>
      obtain ⟨hp, s1, s2, hl, hrole, hc'⟩ := hc
      rw [if_pos hrole] at h
      cases hup : handleChain k md (n₂ :: rest) (flipRequest n.mem (flipRequest f key clock).key n.now) with
      | mk rest' resp =>
        rw [hup] at h
        cases resp with
        | refused r => simp at h
        | ok b =>
          simp only at h
          obtain ⟨i1, i2, i3, i4, i5, i6⟩ := ih rest' n.mem _ _ b s2 hc' hM hup
          rw [i3] at h
          simp only [if_true, Prod.mk.injEq] at h
          obtain ⟨h1, h2⟩ := h
          cases hyt : yieldTo k x { n with mem := M, exposed := some x } (flipRequest f key clock) with
          | mk n' resp =>
            rw [hyt] at h1 h2
            simp only at h1 h2
            subst h2
            obtain ⟨e1, e2⟩ := yieldTo_ok hk md { n with mem := M, exposed := some x } n' f key clock x body s1 i5 (hl.trans i4) hf (hp.trans i4.pre) hpc hyt
            subst h1
            refine ⟨?_, by simp [i2], e2, (precheck_later s1 s2 hl hp hpc).trans i4, i5, by simpa using i6⟩
            intro c hc
            rcases List.mem_cons.1 hc with hc | hc
            · subst hc; subst e1; exact ⟨rfl, rfl⟩
            · exact i1 c hc

/-- C30: when the flip along a chain is refused, and the end of the chain was a master, there still is exactly one: either the old one, or a node further down the chain, and that one has the
complete log. The nodes between the client and it are as they were. -/
theorem refused_chain_keeps_one_master {k : Wire E} (hk : k.Lawful) (md : Mode) (cs cs' : List (CNode E)) (f M : Mem E) (key : Nat) (clock : Int) (r : ChainRefusal)
    (hf : Sane f) (hc : Chain f cs) (hM : lastLog cs = some M) (hm : ∃ n, cs.getLast? = some n ∧ n.role = .master)
    (h : handleChain k md cs (flipRequest f key clock) = (cs', .refused r)) :
    OneMaster M cs cs' ∧ cs'.length = cs.length := by
  induction cs generalizing f cs' key clock r with
  | nil => exact absurd hc (by simp [Chain])
  | cons n rest ih =>
    -- nothing happened
    have hsame : ∀ (f : Mem E) (cs : List (CNode E)), Chain f cs → lastLog cs = some M → (∃ n, cs.getLast? = some n ∧ n.role = .master) → OneMaster M cs cs := by
      intro f cs
      induction cs generalizing f with
      | nil => intro hc; exact absurd hc (by simp [Chain])
      | cons a as ih2 =>
        intro hc hM hm
        cases as with
        | nil =>
          obtain ⟨b, hb, hbr⟩ := hm
          simp only [List.getLast?_singleton, Option.some.injEq] at hb
          subst hb
          simp only [lastLog, Option.some.injEq] at hM
          exact ⟨[], a, [], rfl, rfl, hbr, hM, by simp [AllYielded]⟩
        | cons a' as =>
          obtain ⟨_, _, _, _, _, hc'⟩ := hc
          obtain ⟨pre, c, post, e1, e2, e3⟩ := ih2 a.mem hc' hM (by simpa using hm)
          refine ⟨a :: pre, c, post, by rw [e1]; rfl, ?_, e3⟩
          simp only [List.length_cons, List.take_succ_cons]
          rw [← e2]
    have hid := hsame f (n :: rest) hc hM hm
    simp only [handleChain] at h
    cases hpc : precheck n.seen (flipRequest f key clock) with
    | some r =>
      rw [hpc] at h; simp only [Prod.mk.injEq] at h
      rw [← h.1]; exact ⟨hid, rfl⟩
    | none =>
    rw [hpc] at h
    simp only at h
    cases hx : n.exposed with
    | none =>
      rw [hx] at h; simp only [Prod.mk.injEq] at h
      rw [← h.1]; exact ⟨hid, rfl⟩
    | some x =>
    rw [hx] at h
    simp only at h
    by_cases hy : n.role = .yielded
    · rw [if_pos hy] at h; simp only [Prod.mk.injEq] at h
      rw [← h.1]; exact ⟨hid, rfl⟩
    rw [if_neg hy] at h
    split at h
    · simp only [Prod.mk.injEq] at h
      rw [← h.1]; exact ⟨hid, rfl⟩
    split at h
    · simp only [Prod.mk.injEq] at h
      rw [← h.1]; exact ⟨hid, rfl⟩
    cases rest with
    | nil =>
      obtain ⟨hp, s1, s2, hl, hrole⟩ := hc
      simp only [lastLog, Option.some.injEq] at hM
      subst hM
      have hmaster : n.role = .master := by
        cases hr : n.role with
        | master => rfl
        | yielded => exact absurd hr hy
        | follows => exact absurd hr hrole
      rw [if_neg hrole] at h
      split at h
      · simp only [Prod.mk.injEq] at h
        rw [← h.1]
        exact ⟨⟨[], _, [], rfl, rfl, hmaster, rfl, by simp [AllYielded]⟩, rfl⟩
      · simp only [Prod.mk.injEq] at h
        obtain ⟨h1, h2⟩ := h
        cases hyt : yieldTo k x n (flipRequest f key clock) with
        | mk n' resp =>
          rw [hyt] at h1 h2
          simp only at h1 h2
          subst h2
          have e := yieldTo_refused hyt
          subst h1; subst e
          exact ⟨⟨[], _, [], rfl, rfl, rfl, rfl, by simp [AllYielded]⟩, rfl⟩
    | cons n₂ rest =>
      obtain ⟨hp, s1, s2, hl, hrole, hc'⟩ := hc
      have hm' : ∃ m, (n₂ :: rest).getLast? = some m ∧ m.role = .master := by simpa using hm
      rw [if_pos hrole] at h
      cases hup : handleChain k md (n₂ :: rest) (flipRequest n.mem (flipRequest f key clock).key n.now) with
      | mk rest' resp =>
        rw [hup] at h
        cases resp with
        | refused r' =>
          simp only [Prod.mk.injEq] at h
          obtain ⟨⟨pre, c, post, e1, e2, e3⟩, e4⟩ := ih rest' n.mem _ _ r' s2 hc' hM hm' hup
          rw [← h.1]
          refine ⟨⟨n :: pre, c, post, by rw [e1]; rfl, ?_, e3⟩, by simp [e4]⟩
          simp only [List.length_cons, List.take_succ_cons]
          rw [← e2]
        | ok b =>
          simp only at h
          obtain ⟨i1, i2, i3, i4, i5, i6⟩ := chain_flip_transfers_the_log hk md (n₂ :: rest) rest' n.mem M _ _ b s2 hc' hM hup
          rw [i3] at h
          simp only [if_true, Prod.mk.injEq] at h
          obtain ⟨h1, h2⟩ := h
          cases hyt : yieldTo k x { n with mem := M, exposed := some x } (flipRequest f key clock) with
          | mk n' resp =>
            rw [hyt] at h1 h2
            simp only at h1 h2
            subst h2
            have e := yieldTo_refused hyt
            subst h1; subst e
            exact ⟨⟨[], _, rest', rfl, rfl, rfl, rfl, i1⟩, by simp [i2]⟩

/-- How many masters there are in a chain. -/
def masters (cs : List (CNode E)) : Nat := (cs.filter fun c => decide (c.role = .master)).length

theorem masters_before {f : Mem E} {cs : List (CNode E)} (hc : Chain f cs) (j : Nat) (hj : j < cs.length) : masters (cs.take j) = 0 := by
  induction cs generalizing f j with
  | nil => exact absurd hc (by simp [Chain])
  | cons a as ih =>
    cases as with
    | nil =>
      have : j = 0 := by simp at hj; omega
      subst this; rfl
    | cons a' as =>
      obtain ⟨_, _, _, _, hr, hc'⟩ := hc
      cases j with
      | zero => rfl
      | succ j =>
        have := ih hc' j (by simp only [List.length_cons] at hj ⊢; omega)
        unfold masters at this ⊢
        simp only [List.take_succ_cons, List.filter_cons, hr]
        simpa using this

/-- C30: counted: before the request there is one master in the chain; after a flip that succeeds none (the client becomes it), after a refused one still exactly one. -/
theorem chain_masters {k : Wire E} (hk : k.Lawful) (md : Mode) (cs : List (CNode E)) (f M : Mem E) (key : Nat) (clock : Int)
    (hf : Sane f) (hc : Chain f cs) (hM : lastLog cs = some M) (hm : ∃ n, cs.getLast? = some n ∧ n.role = .master) :
    let r := handleChain k md cs (flipRequest f key clock)
    (∀ body, r.2 = .ok body → masters r.1 = 0) ∧ (∀ why, r.2 = .refused why → masters r.1 = 1) := by
  have hnone : ∀ l : List (CNode E), AllYielded M l → masters l = 0 := by
    intro l hl
    unfold masters
    rw [List.length_eq_zero_iff, List.filter_eq_nil_iff]
    intro c hc
    rw [(hl c hc).1]; simp
  cases h : handleChain k md cs (flipRequest f key clock) with
  | mk cs' resp =>
    refine ⟨?_, ?_⟩
    · intro body hb
      simp only at hb
      subst hb
      exact hnone _ (chain_flip_transfers_the_log hk md cs cs' f M key clock body hf hc hM h).1
    · intro why hb
      simp only at hb
      subst hb
      obtain ⟨⟨pre, c, post, e1, e2, e3, _, e5⟩, e6⟩ := refused_chain_keeps_one_master hk md cs cs' f M key clock why hf hc hM hm h
      have hlt : pre.length < cs.length := by rw [← e6, e1]; simp
      have hb := masters_before hc pre.length hlt
      rw [← e2] at hb
      have hp := hnone post e5
      unfold masters at hb hp ⊢
      simp only [e1, List.filter_append, List.length_append, hb, List.filter_cons, e3]
      simp [hp]

theorem diffLoop_unlimited (acc : Str) (ls : List Str) : ∃ t, diffLoop 0 acc ls = some t := by
  induction ls generalizing acc with
  | nil => exact ⟨_, rfl⟩
  | cons l ls ih => simp only [diffLoop, ne_eq, not_true_eq_false, false_and, if_false]; exact ih _

/-- No limit on what is sent. -/
def Restrictions.Free (r : Restrictions) : Prop := r.maxIndexDiff = 0 ∧ r.maxDiffSize = 0 ∧ r.maxHeadDiff ≤ 0

theorem sendDiff_free {k : Wire E} {r : Restrictions} (hr : r.Free) (m : Mem E) (q : FlipReq) : ∃ b, sendDiff k r m q = .ok b := by
  obtain ⟨h1, h2, h3⟩ := hr
  unfold sendDiff
  rw [if_neg (by rw [h1]; simp), if_neg (by omega), h2]
  obtain ⟨t, ht⟩ := diffLoop_unlimited [] ((itemsFrom q.next (m.entries.drop q.next)).map (·.line k))
  rw [ht]
  exact ⟨_, rfl⟩

/-- C30: "if any check fails neither role changes", along a chain whose nodes in the middle put no limits on the diff (the last may): after a refused flip every node has the role and the log it had. -/
theorem refused_chain_changes_nothing {k : Wire E} (hk : k.Lawful) (md : Mode) (cs cs' : List (CNode E)) (f M : Mem E) (key : Nat) (clock : Int) (r : ChainRefusal)
    (hf : Sane f) (hc : Chain f cs) (hM : lastLog cs = some M) (hfree : ∀ n ∈ cs, n.role = .follows → ∀ x, n.exposed = some x → x.r.Free)
    (h : handleChain k md cs (flipRequest f key clock) = (cs', .refused r)) :
    (cs'.map fun n => (n.role, n.mem)) = cs.map fun n => (n.role, n.mem) := by
  induction cs generalizing f cs' key clock r with
  | nil => exact absurd hc (by simp [Chain])
  | cons n rest ih =>
    simp only [handleChain] at h
    cases hpc : precheck n.seen (flipRequest f key clock) with
    | some r => rw [hpc] at h; simp only [Prod.mk.injEq] at h; rw [← h.1]
    | none =>
    rw [hpc] at h
    simp only at h
    cases hx : n.exposed with
    | none => rw [hx] at h; simp only [Prod.mk.injEq] at h; rw [← h.1]
    | some x =>
    rw [hx] at h
    simp only at h
    by_cases hy : n.role = .yielded
    · rw [if_pos hy] at h; simp only [Prod.mk.injEq] at h; rw [← h.1]
    rw [if_neg hy] at h
    split at h
    · simp only [Prod.mk.injEq] at h; rw [← h.1]
    split at h
    · simp only [Prod.mk.injEq] at h; rw [← h.1]
    cases rest with
    | nil =>
      obtain ⟨hp, s1, s2, hl, hrole⟩ := hc
      have hmaster : n.role = .master := by
        cases hr : n.role with
        | master => rfl
        | yielded => exact absurd hr hy
        | follows => exact absurd hr hrole
      rw [if_neg hrole] at h
      split at h
      · simp only [Prod.mk.injEq] at h; rw [← h.1]; simp
      · simp only [Prod.mk.injEq] at h
        obtain ⟨h1, h2⟩ := h
        cases hyt : yieldTo k x n (flipRequest f key clock) with
        | mk n' resp =>
          rw [hyt] at h1 h2
          simp only at h1 h2
          subst h2
          have e := yieldTo_refused hyt
          subst h1; subst e
          simp [hmaster]
    | cons n₂ rest =>
      obtain ⟨hp, s1, s2, hl, hrole, hc'⟩ := hc
      rw [if_pos hrole] at h
      cases hup : handleChain k md (n₂ :: rest) (flipRequest n.mem (flipRequest f key clock).key n.now) with
      | mk rest' resp =>
        rw [hup] at h
        cases resp with
        | refused r' =>
          simp only [Prod.mk.injEq] at h
          have := ih rest' n.mem _ _ r' s2 hc' hM (fun m hm => hfree m (List.mem_cons_of_mem _ hm)) hup
          rw [← h.1, List.map_cons, this]; rfl
        | ok b =>
          simp only at h
          obtain ⟨i1, i2, i3, i4, i5, i6⟩ := chain_flip_transfers_the_log hk md (n₂ :: rest) rest' n.mem M _ _ b s2 hc' hM hup
          rw [i3] at h
          simp only [if_true, Prod.mk.injEq] at h
          obtain ⟨b', hb'⟩ := sendDiff_free (k := k) (hfree n List.mem_cons_self hrole x hx) M (flipRequest f key clock)
          unfold yieldTo at h
          simp only [hb'] at h
          exact absurd h.2 (by simp)

/-! ### Concrete chains -/

/-- A follower with one entry asks a node with two, which follows a master with three. Both keys differ; the middle one allows replies of 30 bytes at most. -/
def demoChain (maxSize : Nat) : List (CNode Nat) :=
  [⟨⟨demoLog.take 2, 20⟩, ⟨demoLog.take 2, 20⟩, .follows, some { key := 5, r := { maxDiffSize := maxSize } }, 100⟩,
   ⟨⟨demoLog, 30⟩, ⟨demoLog, 35⟩, .master, some { key := 7 }, 100⟩]

def demoClient : Mem Nat := ⟨demoLog.take 1, 12⟩

theorem demo_chain (z : Nat) : Chain demoClient (demoChain z) ∧ Sane demoClient ∧ lastLog (demoChain z) = some ⟨demoLog, 35⟩ ∧
    (∃ n, (demoChain z).getLast? = some n ∧ n.role = .master) := by
  have a1 : Sane (⟨demoLog.take 2, 20⟩ : Mem Nat) := ⟨by decide, by decide, by decide⟩
  have a2 : Sane (⟨demoLog, 30⟩ : Mem Nat) := ⟨by decide, by decide, by decide⟩
  have a3 : Sane (⟨demoLog, 35⟩ : Mem Nat) := ⟨by decide, by decide, by decide⟩
  have a4 : Later (⟨demoLog, 30⟩ : Mem Nat) ⟨demoLog, 35⟩ := ⟨by decide, by decide, by decide⟩
  have a5 : Later (⟨demoLog.take 2, 20⟩ : Mem Nat) ⟨demoLog.take 2, 20⟩ := ⟨by decide, by decide, by decide⟩
  have a6 : demoLog.take 1 <+: demoLog.take 2 := by decide
  have a7 : demoLog.take 2 <+: demoLog := by decide
  exact ⟨⟨a6, a1, a1, a5, rfl, a7, a2, a3, a4, fun h => nomatch h⟩, ⟨by decide, by decide, by decide⟩, rfl, _, rfl, rfl⟩

/-- The key of the end of the chain is the one that counts: the flip succeeds though the key is not the one of the node asked. -/
theorem key_of_the_node_asked_is_not_checked :
    ((handleChain natWire .checked (demoChain 0) (flipRequest demoClient 7 100)).1.map fun n => (n.role, n.mem)) =
      [(.yielded, ⟨demoLog, 35⟩), (.yielded, ⟨demoLog, 35⟩)] ∧
    (match (handleChain natWire .checked (demoChain 0) (flipRequest demoClient 7 100)).2 with
      | .ok body => applyDiff natWire .checked demoClient (.ok body)
      | .refused _ => (demoClient, false)) = (⟨demoLog, 35⟩, true) ∧
    (handleChain natWire .checked (demoChain 0) (flipRequest demoClient 5 100)).2 = .refused .upstream := by
  refine ⟨by decide +kernel, by decide +kernel, by decide +kernel⟩

/-- Not what C30 says: the flip is refused because of a restriction of the node in the middle, but the roles have changed: the old master has yielded, and the node in the middle, which nobody asked to become
a master, is the master. -/
theorem refused_chain_changes_roles :
    ((handleChain natWire .checked (demoChain 3) (flipRequest demoClient 7 100)).1.map (·.role)) = [.master, .yielded] ∧
    (handleChain natWire .checked (demoChain 3) (flipRequest demoClient 7 100)).2 = .refused (.own .diffSize) := by
  refine ⟨by decide +kernel, by decide +kernel⟩

end Current.Replicate
