import Verif.Replicate.Model
/-! Replication (C29). -/
namespace Current.Replicate
open Current.Persist Current.Strings

variable {E : Type}

/-- A line of a stream served over HTTP: an entry with its index and timestamp, or a head update. -/
inductive Item (E : Type) where
  | entry (i : Nat) (us : Int) (e : E)
  | head (us : Int)
  deriving DecidableEq, Repr

/-- Its text: `JSON(idxts)`, tab, `JSON(entry)`; or `JSON(ts_only_t)` (`stream/pubsub.h:297-303, 451-453`). -/
def Item.line (k : Wire E) : Item E → Str
  | .entry i us e => k.putIdx ⟨i, us⟩ ++ '\t' :: k.put e
  | .head us => k.putHead us

/-- The item is true of the master's log `M`: it says what entry number `i` is. (Nothing is asked of head updates.) -/
def Item.TrueOf (M : List (Int × E)) : Item E → Prop
  | .entry i us e => M[i]? = some (us, e)
  | .head _ => True

theorem Item.line_clean {k : Wire E} (hk : k.Lawful) (it : Item E) : it.line k ≠ [] ∧ ∀ c ∈ it.line k, isSep c = false := by
  cases it with
  | entry i us e =>
    refine ⟨by simp [Item.line], ?_⟩
    intro c hc
    simp only [Item.line, List.mem_append, List.mem_cons] at hc
    rcases hc with hc | hc | hc
    · exact ((hk.idx_clean _).2 c hc).2
    · subst hc; decide
    · exact ((hk.put_clean _).2 c hc).2
  | head us => exact ⟨(hk.head_clean us).1, fun c hc => ((hk.head_clean us).2 c hc).2⟩

theorem split_entry {k : Wire E} (hk : k.Lawful) (i : Nat) (us : Int) (e : E) :
    (split (matchChar '\t') false (Item.line k (.entry i us e))).1 = [k.putIdx ⟨i, us⟩, k.put e] := by
  have := split_join_skip '\t' [k.putIdx ⟨i, us⟩, k.put e] (by
    simp only [List.mem_cons, List.not_mem_nil, or_false]
    rintro x (rfl | rfl)
    · exact ⟨fun h => ((hk.idx_clean _).2 _ h).1 rfl, (hk.idx_clean _).1⟩
    · exact ⟨fun h => ((hk.put_clean _).2 _ h).1 rfl, (hk.put_clean _).1⟩)
  rw [join_is_joined] at this
  simpa [joined, Item.line] using this

theorem split_head {k : Wire E} (hk : k.Lawful) (us : Int) :
    (split (matchChar '\t') false (Item.line k (.head us))).1 = [k.putHead us] := by
  have := split_join_skip '\t' [k.putHead us] (by
    simp only [List.mem_singleton]
    rintro x rfl
    exact ⟨fun h => ((hk.head_clean _).2 _ h).1 rfl, (hk.head_clean _).1⟩)
  rw [join_is_joined] at this
  simpa [joined, Item.line] using this

theorem splitTab_notab {l : Str} (h : '\t' ∉ l) : splitTab l = none := by
  induction l with
  | nil => rfl
  | cons c l ih =>
    have hc : c ≠ '\t' := by rintro rfl; exact h (List.mem_cons_self ..)
    simp only [splitTab, hc, if_false, ih fun h' => h (List.mem_cons_of_mem _ h')]

/-- What passing one true line does, in either mode. -/
theorem passEntry_item {k : Wire E} (hk : k.Lawful) (md : Mode) (f : Follower E) (hn : f.next = f.mem.entries.length) (it : Item E) :
    ((passEntry k md f (it.line k)).2 = false → (passEntry k md f (it.line k)).1 = f) ∧
    ((passEntry k md f (it.line k)).2 = true → match it with
      | .entry i us e => i = f.next ∧ us > f.mem.head ∧
        (passEntry k md f (it.line k)).1 = { f with next := f.next + 1, from_ := 0, mem := ⟨f.mem.entries ++ [(us, e)], us⟩ }
      | .head us => us > f.mem.head ∧ (passEntry k md f (it.line k)).1 = { f with from_ := us + 1, mem := { f.mem with head := us } }) ∧
    (f.from_ ≤ f.mem.head + 1 → (match it with | .entry i us _ => i = f.next ∧ us > f.mem.head | .head us => us > f.mem.head) →
      (passEntry k md f (it.line k)).2 = true) := by
  cases it with
  | entry i us e =>
    have hget : k.get (k.put e) = some e := hk.base.get_put e
    cases md with
    | checked =>
      simp only [passEntry, passChecked, split_entry hk, hk.getOpt_idx, hget, Mem.publish]
      by_cases h1 : f.from_ > 0 ∧ us < f.from_
      · simp [h1]; intros; omega
      · by_cases h2 : i = f.next
        · by_cases h3 : us > f.mem.head
          · simp [h1, h2, h3, publishTo]
          · simp [h1, h2, h3, publishTo]
        · simp [h1, h2]
    | unchecked =>
      have hst : splitTab (Item.line k (.entry i us e)) = some (k.putIdx ⟨i, us⟩, k.put e) :=
        splitTab_append _ _ fun h => ((hk.idx_clean _).2 _ h).1 rfl
      simp only [passEntry, passUnchecked, hst, Mem.publishUnsafe, hk.base.getIdx_putIdx, hget]
      by_cases h2 : i = f.next
      · subst h2
        by_cases h3 : us > f.mem.head
        · simp [← hn, h3, publishTo]
        · simp [← hn, h3, publishTo]
      · simp [← hn, h2, publishTo]
  | head us =>
    cases md with
    | checked =>
      simp only [passEntry, passChecked, split_head hk, hk.getOpt_head, Mem.updateHead]
      by_cases h1 : f.from_ > 0 ∧ us < f.from_
      · simp [h1]; intros; omega
      · by_cases h3 : us > f.mem.head
        · simp [h1, h3, publishTo]
        · simp [h1, h3, publishTo]
    | unchecked =>
      have hst : splitTab (Item.line k (.head us)) = none := splitTab_notab fun h => ((hk.head_clean _).2 _ h).1 rfl
      have hh : k.getHead (Item.line k (.head us)) = some us := hk.getHead_put us
      simp only [passEntry, passUnchecked, hst, hh, Mem.updateHead]
      by_cases h3 : us > f.mem.head
      · simp [h3, publishTo]
      · simp [h3, publishTo]

/-- The follower is a prefix of the log `M`. -/
structure PrefixOf (M : List (Int × E)) (f : Follower E) : Prop where
  next : f.next = f.mem.entries.length
  entries : f.mem.entries <+: M

theorem passLines_prefix {k : Wire E} (hk : k.Lawful) (md : Mode) {M : List (Int × E)} (items : List (Item E))
    (ht : ∀ it ∈ items, it.TrueOf M) (f : Follower E) (h : PrefixOf M f) :
    PrefixOf M (passLines k md f (items.map (·.line k))).1 ∧
    f.mem.entries <+: (passLines k md f (items.map (·.line k))).1.mem.entries := by
  induction items generalizing f with
  | nil => exact ⟨h, List.prefix_refl _⟩
  | cons it items ih =>
    obtain ⟨h1, h2, _⟩ := passEntry_item hk md f h.next it
    simp only [List.map_cons, passLines]
    split
    · rename_i hok
      have h2 := h2 hok
      have hit := ht it (List.mem_cons_self ..)
      have key : PrefixOf M (passEntry k md f (it.line k)).1 ∧ f.mem.entries <+: (passEntry k md f (it.line k)).1.mem.entries := by
        cases it with
        | entry i us e =>
          obtain ⟨a, b, c⟩ := h2
          rw [c]
          refine ⟨⟨?_, ?_⟩, List.prefix_append _ _⟩
          · simp [h.next]
          · simp only [Item.TrueOf] at hit
            rw [a, h.next] at hit
            obtain ⟨t, ht'⟩ := h.entries
            rw [← ht'] at hit ⊢
            rw [List.getElem?_append_right (Nat.le_refl _), Nat.sub_self] at hit
            cases t with
            | nil => simp at hit
            | cons y t =>
              simp only [List.getElem?_cons_zero, Option.some.injEq] at hit
              subst hit
              exact ⟨t, by simp⟩
        | head us =>
          obtain ⟨a, c⟩ := h2
          rw [c]
          exact ⟨⟨h.next, h.entries⟩, List.prefix_refl _⟩
      obtain ⟨a, b⟩ := ih (fun x hx => ht x (List.mem_cons_of_mem _ hx)) _ key.1
      exact ⟨a, key.2.trans b⟩
    · rename_i hok
      simp only [Bool.not_eq_true] at hok
      rw [h1 hok]
      exact ⟨h, List.prefix_refl _⟩

theorem passLines_append (k : Wire E) (md : Mode) (f : Follower E) (xs ys : List Str) :
    passLines k md f (xs ++ ys) = if (passLines k md f xs).2 then passLines k md (passLines k md f xs).1 ys else passLines k md f xs := by
  induction xs generalizing f with
  | nil => rfl
  | cons x xs ih =>
    simp only [List.cons_append, passLines]
    split
    · rw [ih]
    · rename_i h; simp [h]

theorem passEntry_carry (k : Wire E) (md : Mode) (f : Follower E) (c : Str) (l : Str) :
    passEntry k md { f with carry := c } l = ({ (passEntry k md f l).1 with carry := c }, (passEntry k md f l).2) := by
  cases md with
  | checked =>
    simp only [passEntry, passChecked]
    repeat' split
    all_goals first | rfl | simp_all
  | unchecked =>
    simp only [passEntry, passUnchecked]
    repeat' split
    all_goals first | rfl | simp_all

theorem passLines_carry (k : Wire E) (md : Mode) (f : Follower E) (c : Str) (ls : List Str) :
    passLines k md { f with carry := c } ls = ({ (passLines k md f ls).1 with carry := c }, (passLines k md f ls).2) := by
  induction ls generalizing f with
  | nil => rfl
  | cons l ls ih =>
    simp only [passLines, passEntry_carry]
    split
    · exact ih _
    · rfl

/-- Receiving chunks is passing on the lines of the text received (C28), until an exception. -/
theorem onChunks_eq (k : Wire E) (md : Mode) (f : Follower E) (chunks : List Str) :
    { (onChunks k md f chunks).1 with carry := [] } = { (passLines k md f (passChunks f.carry chunks).1).1 with carry := [] } ∧
    (onChunks k md f chunks).2 = (passLines k md f (passChunks f.carry chunks).1).2 := by
  induction chunks generalizing f with
  | nil => exact ⟨rfl, rfl⟩
  | cons c cs ih =>
    simp only [onChunks, passChunks]
    rw [passLines_append]
    by_cases hok : (onChunk k md f c).2 = true
    · rw [if_pos hok, if_pos (show (passLines k md f (passChunk f.carry c).1).2 = true from hok)]
      obtain ⟨a, b⟩ := ih (onChunk k md f c).1
      have e : (onChunk k md f c).1 = { (passLines k md f (passChunk f.carry c).1).1 with carry := (passChunk f.carry c).2 } := rfl
      rw [e] at a b ⊢
      simp only [passLines_carry] at a b
      exact ⟨a, b⟩
    · rw [if_neg hok, if_neg (show ¬ (passLines k md f (passChunk f.carry c).1).2 = true from hok)]
      exact ⟨rfl, rfl⟩

theorem session_eq (k : Wire E) (md : Mode) (f : Follower E) (hc : f.carry = []) (chunks : List Str) :
    session k md f chunks = { (passLines k md f (readLines [] chunks.flatten).1).1 with carry := [] } := by
  unfold session
  rw [(onChunks_eq k md f chunks).1, hc, lines_do_not_depend_on_chunks]

/-- What a connection delivers: some part, cut off anywhere, of a text whose lines are true of the master's log. -/
def TrueSession (k : Wire E) (M : List (Int × E)) (chunks : List Str) : Prop :=
  ∃ items : List (Item E), (∀ it ∈ items, it.TrueOf M) ∧ chunks.flatten <+: textOf (items.map (·.line k))

theorem prefix_of_map {α β : Type} {g : α → β} {l : List β} {items : List α} (h : l <+: items.map g) : ∃ pre, l = pre.map g ∧ pre <+: items := by
  obtain ⟨t, ht⟩ := h
  obtain ⟨a, b, h1, h2, _⟩ := List.map_eq_append_iff.1 ht.symm
  exact ⟨a, h2.symm, ⟨b, h1.symm⟩⟩

/-- C29: whatever the connections, wherever each is cut off, and however the network splits what they deliver, the follower's log is always a prefix of the
master's log, index by index, with the same timestamps, and never loses an entry; in checked and in unchecked mode. -/
theorem replica_is_prefix {k : Wire E} (hk : k.Lawful) (md : Mode) (M : List (Int × E)) (m : Mem E) (hm : m.entries <+: M)
    (conns : List (List Str)) (hs : ∀ c ∈ conns, TrueSession k M c) :
    let f := sessions k md (Follower.start m) conns
    f.mem.entries <+: M ∧ m.entries <+: f.mem.entries ∧ f.next = f.mem.entries.length := by
  have key : ∀ (conns : List (List Str)) (f : Follower E), (∀ c ∈ conns, TrueSession k M c) → PrefixOf M f → f.carry = [] →
      PrefixOf M (sessions k md f conns) ∧ f.mem.entries <+: (sessions k md f conns).mem.entries := by
    intro conns
    induction conns with
    | nil => intro f _ h _; exact ⟨h, List.prefix_refl _⟩
    | cons c cs ih =>
      intro f hs h hc
      obtain ⟨items, ht, hp⟩ := hs c (List.mem_cons_self ..)
      have hl := lines_of_prefix (items.map (·.line k)) (by
        intro l hl
        rw [List.mem_map] at hl
        obtain ⟨it, _, rfl⟩ := hl
        exact it.line_clean hk) c hp
      rw [lines_do_not_depend_on_chunks] at hl
      obtain ⟨pre, hpre, hsub⟩ := prefix_of_map hl.1
      obtain ⟨a, b⟩ := passLines_prefix hk md pre (fun it hit => ht it (hsub.subset hit)) f h
      simp only [sessions]
      rw [session_eq k md f hc, hpre]
      obtain ⟨a', b'⟩ := ih { (passLines k md f (pre.map (·.line k))).1 with carry := [] } (fun x hx => hs x (List.mem_cons_of_mem _ hx))
        ⟨a.next, a.entries⟩ rfl
      exact ⟨a', b.trans b'⟩
  obtain ⟨a, b⟩ := key conns (Follower.start m) hs ⟨rfl, hm⟩ rfl
  exact ⟨a.entries, b, a.next⟩

/-- Specification: a response that continues a follower which has `n` entries and head `h`: the entries from number `n` on, in order, and head updates, each
later than what is before it, and earlier than the next entry of the log (this is what a subscriber gets: C19, C20). -/
def Continues (M : List (Int × E)) : Nat → Int → List (Item E) → Prop
  | _, _, [] => True
  | n, h, .entry i us e :: r => i = n ∧ M[n]? = some (us, e) ∧ us > h ∧ Continues M (n + 1) us r
  | n, h, .head us :: r => us > h ∧ (∀ x, M[n]? = some x → us < x.1) ∧ Continues M n us r

/-- The entries among the items. -/
def entriesOf : List (Item E) → List (Int × E)
  | [] => []
  | .entry _ us e :: r => (us, e) :: entriesOf r
  | .head _ :: r => entriesOf r

/-- The last moment among the items, `h` if there is none. -/
def lastUs (h : Int) : List (Item E) → Int
  | [] => h
  | .entry _ us _ :: r => lastUs us r
  | .head us :: r => lastUs us r

theorem passLines_continues {k : Wire E} (hk : k.Lawful) (md : Mode) {M : List (Int × E)} (items : List (Item E)) (f : Follower E)
    (hn : f.next = f.mem.entries.length) (hf : f.from_ ≤ f.mem.head + 1) (hpos : -1 ≤ f.mem.head) (h : Continues M f.next f.mem.head items) :
    let r := passLines k md f (items.map (·.line k))
    r.2 = true ∧ r.1.mem = ⟨f.mem.entries ++ entriesOf items, lastUs f.mem.head items⟩ ∧ r.1.next = r.1.mem.entries.length ∧
      r.1.from_ ≤ r.1.mem.head + 1 ∧ -1 ≤ r.1.mem.head := by
  induction items generalizing f with
  | nil => exact ⟨rfl, by simp [passLines, entriesOf, lastUs], hn, hf, hpos⟩
  | cons it items ih =>
    obtain ⟨_, h2, h3⟩ := passEntry_item hk md f hn it
    cases it with
    | entry i us e =>
      obtain ⟨c1, c2, c3, c4⟩ := h
      have hok := h3 hf ⟨c1, c3⟩
      obtain ⟨a, b, c⟩ := h2 hok
      simp only [List.map_cons, passLines, hok, if_true, c]
      have := ih { f with next := f.next + 1, from_ := 0, mem := ⟨f.mem.entries ++ [(us, e)], us⟩ } (by simp [hn]) (by dsimp only; omega)
        (by dsimp only; omega) c4
      simpa [entriesOf, lastUs] using this
    | head us =>
      obtain ⟨c1, c2, c3⟩ := h
      have hok := h3 hf c1
      obtain ⟨a, c⟩ := h2 hok
      simp only [List.map_cons, passLines, hok, if_true, c]
      have := ih { f with from_ := us + 1, mem := { f.mem with head := us } } hn (Int.le_refl _) (by dsimp only; omega) c3
      simpa [entriesOf, lastUs] using this

theorem Continues.of_prefix {M : List (Int × E)} {pre items : List (Item E)} (hp : pre <+: items) : ∀ {n h}, Continues M n h items → Continues M n h pre := by
  obtain ⟨t, rfl⟩ := hp
  induction pre with
  | nil => intros; trivial
  | cons it pre ih =>
    intro n h hc
    cases it with
    | entry i us e => exact ⟨hc.1, hc.2.1, hc.2.2.1, ih hc.2.2.2⟩
    | head us => exact ⟨hc.1, hc.2.1, ih hc.2.2⟩

/-- The follower is ready to continue. -/
structure Ready (f : Follower E) : Prop where
  next : f.next = f.mem.entries.length
  from_ : f.from_ ≤ f.mem.head + 1
  pos : -1 ≤ f.mem.head
  carry : f.carry = []

theorem ready_start (m : Mem E) (h : -1 ≤ m.head) : Ready (Follower.start m) := ⟨rfl, Int.le_refl _, h, rfl⟩

/-- C29: of a response that continues the follower, everything received in full is applied: every completely received line, in order; nothing is refused. -/
theorem session_applies {k : Wire E} (hk : k.Lawful) (md : Mode) (M : List (Int × E)) (f : Follower E) (hr : Ready f) (items : List (Item E))
    (hc : Continues M f.next f.mem.head items) (chunks : List Str) (hp : chunks.flatten <+: textOf (items.map (·.line k))) :
    ∃ pre, pre <+: items ∧ (session k md f chunks).mem = ⟨f.mem.entries ++ entriesOf pre, lastUs f.mem.head pre⟩ ∧ Ready (session k md f chunks) ∧
      (chunks.flatten = textOf (items.map (·.line k)) → pre = items) ∧
      ∀ q, q <+: items → textOf (q.map (·.line k)) <+: chunks.flatten → q <+: pre := by
  have hclean : ∀ l ∈ items.map (·.line k), l ≠ [] ∧ ∀ c ∈ l, isSep c = false := by
    intro l hl
    rw [List.mem_map] at hl
    obtain ⟨it, _, rfl⟩ := hl
    exact it.line_clean hk
  have hl := lines_of_prefix (items.map (·.line k)) hclean chunks hp
  rw [lines_do_not_depend_on_chunks] at hl
  obtain ⟨pre, hpre, hsub⟩ := prefix_of_map hl.1
  refine ⟨pre, hsub, ?_⟩
  rw [session_eq k md f hr.carry, hpre]
  obtain ⟨a, b, c, d, e⟩ := passLines_continues hk md pre f hr.next hr.from_ hr.pos (hc.of_prefix hsub)
  have hinj : ∀ {p q : List (Item E)}, p <+: q → p.length = q.length → p = q := fun h h' => List.IsPrefix.eq_of_length h h'
  have hcleanp : ∀ p : List (Item E), ∀ l ∈ p.map (·.line k), l ≠ [] ∧ ∀ c ∈ l, isSep c = false := by
    intro p l hl
    rw [List.mem_map] at hl
    obtain ⟨it, _, rfl⟩ := hl
    exact it.line_clean hk
  refine ⟨b, ⟨c, d, e, rfl⟩, ?_, ?_⟩
  · intro he
    have := hl.2 he
    rw [hpre] at this
    exact hinj hsub (by simpa using congrArg List.length this)
  · rintro q hq ⟨t, ht⟩
    have h1 := readLines_append [] (textOf (q.map (·.line k))) t
    rw [ht, readLines_textOf _ (hcleanp q)] at h1
    have h2 := congrArg (fun p : List Str × Str => p.1.length) h1
    simp only [hpre, List.length_append, List.length_map] at h2
    exact List.prefix_of_prefix_length_le hq hsub (by omega)

/-- C29: a follower that receives, in full, a response holding all the entries it lacks has the master's log. -/
theorem catches_up {k : Wire E} (hk : k.Lawful) (md : Mode) (M : List (Int × E)) (f : Follower E) (hr : Ready f) (items : List (Item E))
    (hc : Continues M f.next f.mem.head items) (hall : f.mem.entries ++ entriesOf items = M) (chunks : List Str)
    (hp : chunks.flatten = textOf (items.map (·.line k))) :
    (session k md f chunks).mem = ⟨M, lastUs f.mem.head items⟩ ∧ Ready (session k md f chunks) := by
  obtain ⟨pre, _, h2, h3, h4, _⟩ := session_applies hk md M f hr items hc chunks (by rw [hp]; exact List.prefix_refl _)
  rw [h4 hp, hall] at h2
  exact ⟨h2, h3⟩

/-- C29: progress is kept: after any number of connections that each continue the follower and are cut off anywhere, it is ready to continue, and asks for exactly
the first entry it lacks. -/
theorem always_ready {k : Wire E} (hk : k.Lawful) (md : Mode) (M : List (Int × E)) (f : Follower E) (hr : Ready f) (items : List (Item E))
    (hc : Continues M f.next f.mem.head items) (chunks : List Str) (hp : chunks.flatten <+: textOf (items.map (·.line k))) :
    Ready (session k md f chunks) ∧ (session k md f chunks).request.1 = (session k md f chunks).mem.entries.length ∧
    f.mem.entries.length ≤ (session k md f chunks).mem.entries.length := by
  obtain ⟨pre, _, h2, h3, _⟩ := session_applies hk md M f hr items hc chunks hp
  exact ⟨h3, h3.next, by rw [h2]; simp⟩

/-! ### A concrete codec and a concrete run -/

/-- `JSON(ts_only_t)`: `{"us":123}`. -/
def jsonPutHead (us : Int) : Str := ['{', '"', 'u', 's', '"', ':'] ++ decInt us ++ ['}']

def jsonGetHead (s : Str) : Option Int := do
  let s ← stripPrefix ['{', '"', 'u', 's', '"', ':'] s
  let (u, s) ← readInt s
  let s ← stripPrefix ['}'] s
  if s = [] then some u else none

/-- The wire codec for a log of numbers. -/
def natWire : Wire Nat :=
  { natCodec with
    putHead := jsonPutHead
    getHead := jsonGetHead
    getOpt := fun s => match jsonGetIdx s with
      | some x => some (some x.index, x.us)
      | none => (jsonGetHead s).map fun u => (none, u) }

theorem jsonGetHead_put (u : Int) : jsonGetHead (jsonPutHead u) = some u := by
  unfold jsonGetHead jsonPutHead
  simp only [List.append_assoc, stripPrefix_append, Option.bind_eq_bind, Option.bind_some]
  rw [readInt_decInt _ _ (by intro c h; simp at h; subst h; decide)]
  simp only [Option.bind_some]
  have : stripPrefix ['}'] ['}'] = some [] := by decide
  rw [this]
  rfl

theorem json_chars {c : Char} (h : c.isDigit = true ∨ c = '-' ∨ c ∈ ['{', '"', 'i', 'n', 'd', 'e', 'x', ':', ',', 'u', 's', '}']) :
    c ≠ '\t' ∧ isSep c = false := by
  rcases h with h | h | h
  · have : c ≠ '\t' ∧ c ≠ '\n' ∧ c ≠ '\r' := by
      refine ⟨?_, ?_, ?_⟩ <;> (intro he; subst he; revert h; decide)
    exact ⟨this.1, by simp [isSep, this.2.1, this.2.2]⟩
  · subst h; decide
  · revert c; decide

theorem natWire_lawful : natWire.Lawful where
  base := natCodec_lawful
  getOpt_idx := by
    intro x
    have : natWire.getOpt (jsonPutIdx x) = some (some x.index, x.us) := by
      simp only [natWire, jsonGetIdx_jsonPutIdx]
    exact this
  getOpt_head := by
    intro us
    have h0 : jsonGetIdx (jsonPutHead us) = none := by
      simp [jsonGetIdx, jsonPutHead, stripPrefix]
    have : natWire.getOpt (jsonPutHead us) = some (none, us) := by
      simp only [natWire, h0, jsonGetHead_put]; rfl
    exact this
  getHead_put := jsonGetHead_put
  put_clean := by
    intro e
    exact ⟨dec_ne_nil e, fun c hc => json_chars (.inl (dec_isDigit hc))⟩
  idx_clean := by
    intro x
    refine ⟨List.cons_ne_nil _ _, fun c hc => json_chars ?_⟩
    replace hc : c ∈ jsonPutIdx x := hc
    simp only [jsonPutIdx, List.mem_append] at hc
    rcases hc with (((h | h) | h) | h) | h
    · right; right; revert c; decide
    · exact .inl (dec_isDigit h)
    · right; right; revert c; decide
    · rcases decInt_char h with h | h
      · exact .inl h
      · exact .inr (.inl h)
    · right; right; revert c; decide
  head_clean := by
    intro us
    refine ⟨List.cons_ne_nil _ _, fun c hc => json_chars ?_⟩
    replace hc : c ∈ jsonPutHead us := hc
    simp only [jsonPutHead, List.mem_append] at hc
    rcases hc with (h | h) | h
    · right; right; revert c; decide
    · rcases decInt_char h with h | h
      · exact .inl h
      · exact .inr (.inl h)
    · right; right; revert c; decide

/-- A master's log of three entries, a follower that has the first, a response with the rest and a head update in between. -/
def demoLog : List (Int × Nat) := [(10, 7), (20, 8), (30, 9)]
def demoFollower : Follower Nat := Follower.start ⟨[(10, 7)], 10⟩
def demoItems : List (Item Nat) := [.entry 1 20 8, .head 25, .entry 2 30 9]

theorem demo_continues : Continues demoLog 1 10 demoItems := by
  refine ⟨rfl, rfl, by decide, by decide, ?_, rfl, rfl, by decide, trivial⟩
  intro x hx
  cases hx
  decide

/-- The hypotheses of the theorems above, met: ready, continued, all of it, cut off in the middle of the second entry. -/
example : Ready demoFollower ∧ Continues demoLog demoFollower.next demoFollower.mem.head demoItems ∧
    demoFollower.mem.entries ++ entriesOf demoItems = demoLog ∧ demoFollower.mem.entries <+: demoLog ∧ (∀ it ∈ demoItems, it.TrueOf demoLog) :=
  ⟨ready_start _ (by decide), demo_continues, rfl, ⟨_, rfl⟩, by simp [demoItems, Item.TrueOf, demoLog]⟩

example : (sessions natWire .checked demoFollower
    [[(textOf (demoItems.map (·.line natWire))).take 40], [textOf ([.entry 2 30 9].map (Item.line natWire))]]).mem = ⟨demoLog, 30⟩ := by
  decide +kernel

end Current.Replicate
