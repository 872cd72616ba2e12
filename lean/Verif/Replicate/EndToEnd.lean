import Verif.Replicate.Props
import Verif.Http.Array
/-! Following a stream served by the HTTP endpoint of `Verif/Http` (C29, end to end). -/
namespace Current.Replicate
open Current.Persist Current.Strings Current.Http

variable {E : Type}

/-- The entries of a log as the HTTP endpoint serves them to a subscriber: index and timestamp, and the text sent (`checkedText`). -/
def servedFrom (k : Wire E) (p : Params) : Nat → List (Int × E) → List (IdxTs × Str)
  | _, [] => []
  | n, x :: l => (⟨n, x.1⟩, checkedText p (k.putIdx ⟨n, x.1⟩) (k.put x.2)) :: servedFrom k p (n + 1) l

/-- The items of a log from entry `n` on. -/
def itemsFrom : Nat → List (Int × E) → List (Item E)
  | _, [] => []
  | n, x :: l => .entry n x.1 x.2 :: itemsFrom (n + 1) l

/-- What a follower asks for: `GetURLToSubscribe`, `replicator.h:85-88`. -/
def queryOf (f : Follower E) : Query := { i := some f.next, since := f.request.2.map Int.toNat }

/-- The HTTP response of a stream with the log `M`, to a follower, up to the last entry. -/
def response (k : Wire E) (w : Texts) (now : Int) (M : List (Int × E)) (f : Follower E) : Str :=
  let q := queryOf f
  let es := servedFrom k (parse q) 0 M
  ((Ep.init (parse q) now es.length).feed w
    (passes ((es.drop (beginIdx (parse q) now es.length (es.map (·.1.us))).1).map fun x => ((x.1, es.length - 1), x.2)))).1.body

theorem servedFrom_length (k : Wire E) (p : Params) (n : Nat) (l : List (Int × E)) : (servedFrom k p n l).length = l.length := by
  induction l generalizing n with
  | nil => rfl
  | cons x l ih => simp [servedFrom, ih]

theorem servedFrom_get (k : Wire E) (p : Params) (n : Nat) (l : List (Int × E)) (j : Nat) :
    (servedFrom k p n l)[j]? = (l[j]?).map fun x => (⟨n + j, x.1⟩, checkedText p (k.putIdx ⟨n + j, x.1⟩) (k.put x.2)) := by
  induction l generalizing n j with
  | nil => simp [servedFrom]
  | cons x l ih =>
    cases j with
    | zero => simp [servedFrom]
    | succ j => simp only [servedFrom, List.getElem?_cons_succ, ih]; rw [show n + 1 + j = n + (j + 1) by omega]

theorem servedFrom_drop (k : Wire E) (p : Params) (n m : Nat) (l : List (Int × E)) : (servedFrom k p n l).drop m = servedFrom k p (n + m) (l.drop m) := by
  induction m generalizing n l with
  | zero => simp
  | succ m ih =>
    cases l with
    | nil => simp [servedFrom]
    | cons x l => simp only [servedFrom, List.drop_succ_cons, ih]; rw [show n + 1 + m = n + (m + 1) by omega]

theorem streamLike_served (k : Wire E) (p : Params) (M : List (Int × E)) (hinc : M.Pairwise fun x y => x.1 < y.1) (hpos : ∀ x ∈ M, 0 ≤ x.1) :
    StreamLike (servedFrom k p 0 M) := by
  refine ⟨?_, ?_, ?_⟩
  · intro j x h
    rw [servedFrom_get] at h
    cases hm : M[j]? with
    | none => simp [hm] at h
    | some y => simp only [hm, Option.map_some, Option.some.injEq] at h; rw [← h]; simp
  · rw [List.pairwise_iff_getElem] at hinc ⊢
    intro i j hi hj hij
    rw [servedFrom_length] at hi hj
    have h1 := servedFrom_get k p 0 M i
    have h2 := servedFrom_get k p 0 M j
    rw [List.getElem?_eq_getElem (by rw [servedFrom_length]; exact hi), List.getElem?_eq_getElem hi] at h1
    rw [List.getElem?_eq_getElem (by rw [servedFrom_length]; exact hj), List.getElem?_eq_getElem hj] at h2
    simp only [Option.map_some, Option.some.injEq] at h1 h2
    rw [h1, h2]
    exact hinc i j hi hj hij
  · intro x hx
    obtain ⟨j, hj⟩ := List.getElem?_of_mem hx
    rw [servedFrom_get] at hj
    cases hm : M[j]? with
    | none => simp [hm] at hj
    | some y =>
      simp only [hm, Option.map_some, Option.some.injEq] at hj
      rw [← hj]
      exact hpos y (List.mem_of_getElem? hm)

theorem served_text (k : Wire E) (p : Params) (hp : p.entriesOnly = false) (n : Nat) (l : List (Int × E)) :
    ((servedFrom k p n l).map (·.2)).flatten = textOf ((itemsFrom n l).map (·.line k)) := by
  induction l generalizing n with
  | nil => rfl
  | cons x l ih =>
    simp only [servedFrom, itemsFrom, List.map_cons, List.flatten_cons, ih]
    simp [textOf, Item.line, checkedText, hp]

theorem items_continue (M : List (Int × E)) (hinc : M.Pairwise fun x y => x.1 < y.1) (n : Nat) (h : Int)
    (hh : ∀ x, M[n]? = some x → h < x.1) : Continues M n h (itemsFrom n (M.drop n)) := by
  have key : ∀ (l : List (Int × E)) (n : Nat) (h : Int), M.drop n = l → (∀ x, M[n]? = some x → h < x.1) → Continues M n h (itemsFrom n l) := by
    intro l
    induction l with
    | nil => intros; trivial
    | cons x l ih =>
      intro n h hd hh
      have hx : M[n]? = some x := by
        have := congrArg List.head? hd
        simpa [List.head?_drop] using this
      refine ⟨rfl, hx, hh x hx, ?_⟩
      refine ih (n + 1) x.1 ?_ ?_
      · have : M.drop (n + 1) = (M.drop n).drop 1 := by rw [List.drop_drop]
        rw [this, hd]; rfl
      · intro y hy
        obtain ⟨h1, e1⟩ := List.getElem?_eq_some_iff.1 hx
        obtain ⟨h2, e2⟩ := List.getElem?_eq_some_iff.1 hy
        have := (List.pairwise_iff_getElem.1 hinc) n (n + 1) h1 h2 (by omega)
        rw [e1, e2] at this
        exact this
  exact key _ n h rfl hh

theorem entriesOf_items (n : Nat) (l : List (Int × E)) : entriesOf (itemsFrom n l) = l := by
  induction l generalizing n with
  | nil => rfl
  | cons x l ih => simp [itemsFrom, entriesOf, ih]

/-- A follower of the log `M`, between connections: it has a prefix of `M`; its head is not below its entries and is below the first entry it lacks; and it asks from
where it is. -/
structure Following (M : List (Int × E)) (f : Follower E) : Prop where
  pre : f.mem.entries <+: M
  next : f.next = f.mem.entries.length
  from_ : f.from_ = 0 ∨ f.from_ = f.mem.head + 1
  pos : -1 ≤ f.mem.head
  carry : f.carry = []
  low : ∀ x ∈ f.mem.entries, x.1 ≤ f.mem.head
  high : ∀ x, M[f.next]? = some x → f.mem.head < x.1

/-- A fresh follower, on a prefix of the log. -/
theorem following_start {M : List (Int × E)} {m : Mem E} (hp : m.entries <+: M) (hpos : -1 ≤ m.head) (low : ∀ x ∈ m.entries, x.1 ≤ m.head)
    (high : ∀ x, M[m.entries.length]? = some x → m.head < x.1) : Following M (Follower.start m) :=
  ⟨hp, rfl, .inr rfl, hpos, rfl, low, high⟩

theorem passLines_from (k : Wire E) (hk : k.Lawful) (md : Mode) (items : List (Item E)) (f : Follower E) (hn : f.next = f.mem.entries.length)
    (hf : f.from_ = 0 ∨ f.from_ = f.mem.head + 1) :
    let r := (passLines k md f (items.map (·.line k))).1
    r.from_ = 0 ∨ r.from_ = r.mem.head + 1 := by
  induction items generalizing f with
  | nil => exact hf
  | cons it items ih =>
    obtain ⟨h1, h2, _⟩ := passEntry_item hk md f hn it
    simp only [List.map_cons, passLines]
    split
    · rename_i hok
      have h2 := h2 hok
      cases it with
      | entry i us e =>
        rw [h2.2.2]
        exact ih { f with next := f.next + 1, from_ := 0, mem := ⟨f.mem.entries ++ [(us, e)], us⟩ } (by simp [hn]) (.inl rfl)
      | head us =>
        rw [h2.2]
        exact ih { f with from_ := us + 1, mem := { f.mem with head := us } } hn (.inr rfl)
    · rename_i hok
      simp only [Bool.not_eq_true] at hok
      rw [h1 hok]; exact hf

/-- C29, end to end: what the master's HTTP endpoint sends in reply to the follower's request is exactly what continues the follower: the text of the entries it lacks. -/
theorem response_continues {k : Wire E} (w : Texts) (now : Int) (M : List (Int × E)) (hinc : M.Pairwise fun x y => x.1 < y.1)
    (hpos : ∀ x ∈ M, 0 ≤ x.1) (f : Follower E) (h : Following M f) :
    response k w now M f = textOf ((itemsFrom f.next (M.drop f.next)).map (·.line k)) := by
  have hq : (queryOf f).unlimited := ⟨rfl, rfl, rfl⟩
  have hSL := streamLike_served k (parse (queryOf f)) M hinc hpos
  have hsince : ∀ s, (queryOf f).since = some s → 0 < f.from_ ∧ (s : Int) = f.from_ := by
    intro s hs
    simp only [queryOf, Follower.request] at hs
    split at hs
    · simp only [Option.map_some, Option.some.injEq] at hs; omega
    · cases hs
  have hR := response_is_what_was_asked_partial w (queryOf f) now (servedFrom k (parse (queryOf f)) 0 M) hSL hq (.inl rfl) (by simp [queryOf])
    (fun h0 => by have := hsince 0 h0; simp at this; omega) (by simp [queryOf])
  have hB := plain_body w (queryOf f) now (servedFrom k (parse (queryOf f)) 0 M).length
    (((servedFrom k (parse (queryOf f)) 0 M).drop (beginIdx (parse (queryOf f)) now (servedFrom k (parse (queryOf f)) 0 M).length
      ((servedFrom k (parse (queryOf f)) 0 M).map (·.1.us))).1).map fun x => ((x.1, (servedFrom k (parse (queryOf f)) 0 M).length - 1), x.2)) rfl
  simp only at hB
  rw [hR] at hB
  unfold response
  rw [hB]
  have hw : ∀ j x, (servedFrom k (parse (queryOf f)) 0 M)[j]? = some x →
      (Wanted (queryOf f) now (servedFrom k (parse (queryOf f)) 0 M).length x.1 ↔ f.next ≤ j) := by
    intro j x hj
    have hidx := hSL.idx j x hj
    rw [servedFrom_get] at hj
    cases hm : M[j]? with
    | none => simp [hm] at hj
    | some y =>
      simp only [hm, Option.map_some, Option.some.injEq] at hj
      have hus : x.1.us = y.1 := by rw [← hj]
      constructor
      · intro hW
        have := hW.1 f.next rfl
        omega
      · intro hle
        refine ⟨?_, by simp [queryOf], by simp [queryOf], ?_⟩
        · intro i hi
          simp only [queryOf, Option.some.injEq] at hi
          omega
        · intro s hs
          obtain ⟨h1, h2⟩ := hsince s hs
          have h3 : f.from_ = f.mem.head + 1 := by rcases h.from_ with h' | h' <;> omega
          have h4 : f.mem.head < y.1 := by
            obtain ⟨hjl, hje⟩ := List.getElem?_eq_some_iff.1 hm
            have hnl : f.next < M.length := by omega
            have hn := h.high M[f.next] (List.getElem?_eq_getElem hnl)
            rcases Nat.eq_or_lt_of_le hle with he | hl
            · subst he; rw [hje] at hn; exact hn
            · have := (List.pairwise_iff_getElem.1 hinc) f.next j hnl hjl hl
              rw [hje] at this
              omega
          omega
  have hfil : (servedFrom k (parse (queryOf f)) 0 M).filter (fun x => decide (Wanted (queryOf f) now (servedFrom k (parse (queryOf f)) 0 M).length x.1)) =
      (servedFrom k (parse (queryOf f)) 0 M).drop f.next := by
    rw [filter_drop_prefix _ _ f.next]
    · rw [List.filter_eq_self]
      intro x hx
      obtain ⟨j, hj⟩ := List.getElem?_of_mem hx
      rw [List.getElem?_drop] at hj
      simpa using (hw _ x hj).2 (by omega)
    · intro j x hj hlt
      simp only [decide_eq_false_iff_not]
      rw [hw j x hj]; omega
  rw [hfil, servedFrom_drop, served_text _ _ rfl]
  simp

/-- C29, end to end: of the response to its request a follower applies every line it receives in full, however the response is split and wherever it is cut off, and is
a follower again; if it received all of it, it has the master's log. The master's log may grow between connections. -/
theorem follow_end_to_end {k : Wire E} (hk : k.Lawful) (md : Mode) (w : Texts) (now : Int) (M : List (Int × E)) (hinc : M.Pairwise fun x y => x.1 < y.1)
    (hpos : ∀ x ∈ M, 0 ≤ x.1) (f : Follower E) (h : Following M f) (chunks : List Str) (hc : chunks.flatten <+: response k w now M f) :
    Following M (session k md f chunks) ∧ f.mem.entries <+: (session k md f chunks).mem.entries ∧
    (chunks.flatten = response k w now M f → (session k md f chunks).mem.entries = M) := by
  rw [response_continues w now M hinc hpos f h] at hc ⊢
  have hcont := items_continue M hinc f.next f.mem.head h.high
  have hready : Ready f := ⟨h.next, by have := h.pos; rcases h.from_ with h' | h' <;> omega, h.pos, h.carry⟩
  obtain ⟨pre, h1, h2, h3, h4, _⟩ := session_applies hk md M f hready _ hcont chunks hc
  have hM : f.mem.entries ++ entriesOf (itemsFrom f.next (M.drop f.next)) = M := by
    rw [entriesOf_items, h.next]
    have := List.prefix_iff_eq_take.1 h.pre
    conv => lhs; lhs; rw [this]
    exact List.take_append_drop _ _
  have hfrom : (session k md f chunks).from_ = 0 ∨ (session k md f chunks).from_ = (session k md f chunks).mem.head + 1 := by
    rw [session_eq k md f h.carry]
    have hl := lines_of_prefix ((itemsFrom f.next (M.drop f.next)).map (·.line k)) (by
      intro l hl
      rw [List.mem_map] at hl
      obtain ⟨it, _, rfl⟩ := hl
      exact it.line_clean hk) chunks hc
    rw [lines_do_not_depend_on_chunks] at hl
    obtain ⟨pre', hpre', _⟩ := prefix_of_map hl.1
    rw [hpre']
    exact passLines_from k hk md pre' f h.next h.from_
  -- what was applied is a run of entries
  have hpre : ∀ (l : List (Int × E)) (n : Nat) (pre : List (Item E)) (hd : Int), pre <+: itemsFrom n l → entriesOf pre <+: l ∧
      (pre = [] ∨ (entriesOf pre).getLast?.map Prod.fst = some (lastUs hd pre)) := by
    intro l
    induction l with
    | nil => intro n pre hd hp; simp only [itemsFrom, List.prefix_nil] at hp; subst hp; exact ⟨by simp [entriesOf], .inl rfl⟩
    | cons x l ih =>
      intro n pre hd hp
      cases pre with
      | nil => exact ⟨by simp [entriesOf], .inl rfl⟩
      | cons it pre =>
        rw [itemsFrom, List.cons_prefix_cons] at hp
        obtain ⟨rfl, hp⟩ := hp
        obtain ⟨a, b⟩ := ih (n + 1) pre x.1 hp
        refine ⟨?_, .inr ?_⟩
        · simp only [entriesOf]; exact List.cons_prefix_cons.2 ⟨rfl, a⟩
        · simp only [entriesOf, lastUs]
          rcases b with rfl | b
          · simp [entriesOf, lastUs]
          · rw [← b]
            cases he : entriesOf pre with
            | nil => rw [he] at b; simp at b
            | cons y ys => simp
  obtain ⟨hp1, hp2⟩ := hpre (M.drop f.next) f.next pre f.mem.head h1
  have hent : (session k md f chunks).mem.entries = f.mem.entries ++ entriesOf pre := by rw [h2]
  have hhead : (session k md f chunks).mem.head = lastUs f.mem.head pre := by rw [h2]
  have hprefix : (session k md f chunks).mem.entries <+: M := by
    rw [hent]
    rw [entriesOf_items] at hM
    conv => rhs; rw [← hM]
    exact (List.prefix_append_right_inj _).2 hp1
  refine ⟨⟨hprefix, h3.next, hfrom, h3.pos, h3.carry, ?_, ?_⟩, by rw [hent]; exact List.prefix_append _ _, ?_⟩
  · -- the head is not below the entries
    intro x hx
    rcases hp2 with rfl | hp2
    · rw [hhead]; rw [hent] at hx; simpa [entriesOf, lastUs] using h.low x (by simpa [entriesOf] using hx)
    · rw [← hhead] at hp2
      have hlast : ((session k md f chunks).mem.entries).getLast?.map Prod.fst = some (session k md f chunks).mem.head := by
        rw [hent, List.getLast?_append]
        cases he : (entriesOf pre).getLast? with
        | none => rw [he] at hp2; cases hp2
        | some y => rw [he] at hp2; exact hp2
      have hincp : (session k md f chunks).mem.entries.Pairwise fun x y => x.1 < y.1 := hinc.sublist hprefix.sublist
      generalize (session k md f chunks).mem.entries = es at *
      generalize (session k md f chunks).mem.head = hd at *
      rcases List.eq_nil_or_concat es with h0 | ⟨l, y, hy⟩
      · subst h0; cases hx
      · rw [List.concat_eq_append] at hy
        subst hy
        simp only [List.getLast?_append, List.getLast?_singleton, Option.some_or, Option.map_some, Option.some.injEq] at hlast
        rw [List.pairwise_append] at hincp
        rcases List.mem_append.1 hx with hx | hx
        · have := hincp.2.2 x hx y (by simp); omega
        · simp only [List.mem_singleton] at hx; subst hx; omega
  · -- it is below the next entry
    intro x hx
    rw [h3.next, hent] at hx
    rcases hp2 with rfl | hp2
    · rw [hhead]
      simp only [entriesOf, List.append_nil] at hx
      rw [← h.next] at hx
      exact h.high x hx
    · rw [← hhead] at hp2
      cases he : (entriesOf pre).getLast? with
      | none => rw [he] at hp2; cases hp2
      | some y =>
        rw [he] at hp2
        simp only [Option.map_some, Option.some.injEq] at hp2
        rw [← hp2]
        have hy : (f.mem.entries ++ entriesOf pre).getLast? = some y := by rw [List.getLast?_append, he]; rfl
        rw [hent] at hprefix
        generalize f.mem.entries ++ entriesOf pre = es at *
        obtain ⟨t, ht⟩ := hprefix
        rw [← ht, List.pairwise_append] at hinc
        rw [← ht, List.getElem?_append_right (Nat.le_refl _)] at hx
        exact hinc.2.2 y (List.mem_of_getLast? hy) x (List.mem_of_getElem? hx)
  · intro heq
    rw [hent, h4 heq, hM]

/-- Following a growing log: the follower of a log is a follower of any log it grows into, as long as what is added is later than the follower's head. -/
theorem following_grows {M M' : List (Int × E)} {f : Follower E} (h : Following M f) (hp : M <+: M')
    (hl : ∀ x ∈ M'.drop M.length, f.mem.head < x.1) : Following M' f := by
  refine ⟨h.pre.trans hp, h.next, h.from_, h.pos, h.carry, h.low, ?_⟩
  intro x hx
  obtain ⟨t, rfl⟩ := hp
  by_cases hn : f.next < M.length
  · rw [List.getElem?_append_left hn] at hx; exact h.high x hx
  · rw [List.getElem?_append_right (by omega)] at hx
    refine hl x ?_
    rw [List.drop_left]
    exact List.mem_of_getElem? hx

example : Following demoLog demoFollower ∧ (demoLog.Pairwise fun x y => x.1 < y.1) ∧ (∀ x ∈ demoLog, 0 ≤ x.1) :=
  ⟨following_start ⟨_, rfl⟩ (by decide) (by decide) (by intro x hx; cases hx; decide), by decide, by decide⟩

example : response natWire ⟨fun _ => [], []⟩ 100 demoLog demoFollower =
    textOf ([.entry 1 20 8, .entry 2 30 9].map (Item.line natWire)) :=
  response_continues _ _ _ (by decide) (by decide) _ (following_start ⟨_, rfl⟩ (by decide) (by decide) (by intro x hx; cases hx; decide))

end Current.Replicate
