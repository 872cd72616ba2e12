import Verif.TypeLists.Model
set_option linter.unusedSimpArgs false

/-! # Type lists: theorems (C129) -/

namespace Current.TypeLists

variable {τ : Type} [DecidableEq τ]

theorem basesOk_iff (l : List τ) : basesOk l = true ↔ l.Nodup := by
  induction l with
  | nil => simp [basesOk]
  | cons t ts ih => simp [basesOk, ih]

/-- C129 (a): asking whether a type is in a list compiles exactly if the list has no duplicates, and then the answer is right. -/
theorem contains_iff (l : List τ) (t : τ) : (l.Nodup → contains l t = some (decide (t ∈ l))) ∧ (¬ l.Nodup → contains l t = none) := by
  unfold contains
  constructor
  · intro h
    rw [if_pos ((basesOk_iff l).2 h)]
    simp
  · intro h
    rw [if_neg (fun hb => h ((basesOk_iff l).1 hb))]

theorem catFrom_eq (xs : List (List τ)) : ∀ a, xs ≠ [] → catFrom a xs = if (a ++ xs.flatten).Nodup then some (a ++ xs.flatten) else none := by
  induction xs with
  | nil => intro a h; exact absurd rfl h
  | cons x xs ih =>
    intro a _
    simp only [catFrom, catImpl, List.flatten_cons]
    by_cases hb : (a ++ x).Nodup
    · rw [if_pos ((basesOk_iff _).2 hb)]
      simp only [Option.bind_some]
      by_cases hx : xs = []
      · subst hx
        simp only [catFrom, List.flatten_nil, List.append_nil]
        rw [if_pos hb]
      · rw [ih _ hx, List.append_assoc]
    · rw [if_neg (fun h => hb ((basesOk_iff _).1 h))]
      rw [if_neg]
      · rfl
      · intro h
        apply hb
        rw [← List.append_assoc] at h
        exact (List.nodup_append.1 h).1

/-- C129 (b): `TypeListCat` of two or more lists is their concatenation, and compiles exactly if no type is there twice. -/
theorem cat_eq (a b : List τ) (xs : List (List τ)) : cat (a :: b :: xs) = if (a :: b :: xs).flatten.Nodup then some (a :: b :: xs).flatten else none := by
  have := catFrom_eq (b :: xs) a (by simp)
  simpa [cat] using this

theorem filterMap_congr' {α β : Type} {f g : α → Option β} (l : List α) (h : ∀ x ∈ l, f x = g x) : l.filterMap f = l.filterMap g := by
  induction l with
  | nil => rfl
  | cons x xs ih =>
    rw [List.filterMap_cons, List.filterMap_cons, h x (by simp), ih (fun y hy => h y (by simp [hy]))]

/-- Appending a type to a list: it goes to the first occurrences if it is new. -/
theorem firsts_append (l : List τ) (t : τ) : firsts (l ++ [t]) = if t ∈ l then firsts l else firsts l ++ [t] := by
  unfold firsts
  rw [List.length_append, List.length_singleton, List.range_succ, List.filterMap_append]
  have e1 : (List.range l.length).filterMap (newAt (l ++ [t])) = (List.range l.length).filterMap (newAt l) := by
    apply filterMap_congr'
    intro i hi
    rw [List.mem_range] at hi
    unfold newAt
    rw [List.getElem?_append_left hi, List.take_append_of_le_length (by omega)]
  rw [e1]
  have e2 : newAt (l ++ [t]) l.length = if t ∈ l then none else some t := by
    unfold newAt
    have e2 : (l ++ [t])[l.length]? = some t := by simp
    have e3 : (l ++ [t]).take l.length = l := by simp
    rw [e2, e3]
  rw [List.filterMap_cons, List.filterMap_nil, e2]
  by_cases h : t ∈ l
  · simp [h]
  · simp [h]

theorem mem_firsts (l : List τ) (t : τ) : t ∈ firsts l ↔ t ∈ l := by
  have key : ∀ (r l : List τ), l = r.reverse → (t ∈ firsts l ↔ t ∈ l) := by
    intro r
    induction r with
    | nil => intro l h; subst h; simp [firsts]
    | cons u r ih =>
      intro l h
      subst h
      rw [List.reverse_cons, firsts_append]
      have := ih _ rfl
      split
      · rename_i hm
        rw [this]
        simp only [List.mem_append, List.mem_singleton]
        constructor
        · exact Or.inl
        · rintro (h | h)
          · exact h
          · subst h; exact hm
      · simp only [List.mem_append, List.mem_singleton, this]
  exact key l.reverse l (by simp)

theorem nodup_firsts (l : List τ) : (firsts l).Nodup := by
  have key : ∀ (r l : List τ), l = r.reverse → (firsts l).Nodup := by
    intro r
    induction r with
    | nil => intro l h; subst h; simp [firsts]
    | cons u r ih =>
      intro l h
      subst h
      rw [List.reverse_cons, firsts_append]
      have := ih _ rfl
      split
      · exact this
      · rename_i hm
        rw [List.nodup_append]
        refine ⟨this, by simp, ?_⟩
        intro a ha b hb
        simp only [List.mem_singleton] at hb
        subst hb
        intro hab
        subst hab
        exact hm ((mem_firsts _ _).1 ha)
  exact key l.reverse l (by simp)

theorem unionImpl_eq (n : Nat) : ∀ (p a b : List τ), a.length + b.length = n → unionImpl (firsts p) a b = some (firsts (p ++ a ++ b)) := by
  induction n with
  | zero =>
    intro p a b h
    have ha : a = [] := List.length_eq_zero_iff.1 (by omega)
    have hb : b = [] := List.length_eq_zero_iff.1 (by omega)
    subst ha hb
    simp [unionImpl]
  | succ n ih =>
    intro p a b h
    cases a with
    | nil =>
      cases b with
      | nil => simp at h
      | cons t ts =>
        rw [unionImpl, (contains_iff (firsts p) t).1 (nodup_firsts p)]
        simp only [Option.bind_some, mem_firsts, decide_eq_true_eq]
        have hl : ([] : List τ).length + ts.length = n := by simp at h ⊢; omega
        have e : p ++ [] ++ t :: ts = (p ++ [t]) ++ [] ++ ts := by simp
        rw [e]
        have := ih (p ++ [t]) [] ts hl
        rw [firsts_append] at this
        by_cases hm : t ∈ p
        · rw [if_pos hm] at this ⊢; exact this
        · rw [if_neg hm] at this ⊢; exact this
    | cons t ts =>
      rw [unionImpl, (contains_iff (firsts p) t).1 (nodup_firsts p)]
      simp only [Option.bind_some, mem_firsts, decide_eq_true_eq]
      have hl : ts.length + b.length = n := by simp at h ⊢; omega
      have e : p ++ t :: ts ++ b = (p ++ [t]) ++ ts ++ b := by simp
      rw [e]
      have := ih (p ++ [t]) ts b hl
      rw [firsts_append] at this
      by_cases hm : t ∈ p
      · rw [if_pos hm] at this ⊢; exact this
      · rw [if_neg hm] at this ⊢; exact this

theorem unionImpl_nil (a b : List τ) : unionImpl [] a b = some (firsts (a ++ b)) := by
  have := unionImpl_eq (a.length + b.length) ([] : List τ) a b rfl
  simpa [firsts] using this

/-- Deduplicating the beginning first makes no difference. -/
theorem firsts_firsts_append (a b : List τ) : firsts (firsts a ++ b) = firsts (a ++ b) := by
  have key : ∀ (r b : List τ), b = r.reverse → firsts (firsts a ++ b) = firsts (a ++ b) := by
    intro r
    induction r with
    | nil =>
      intro b h
      subst h
      simp only [List.reverse_nil, List.append_nil]
      have : ∀ (r a : List τ), a = r.reverse → firsts (firsts a) = firsts a := by
        intro r
        induction r with
        | nil => intro a h; subst h; simp [firsts]
        | cons u r ih =>
          intro a h
          subst h
          rw [List.reverse_cons, firsts_append]
          have := ih _ rfl
          split
          · exact this
          · rename_i hm
            rw [firsts_append, if_neg (by rw [mem_firsts]; exact hm), this]
      exact this a.reverse a (by simp)
    | cons u r ih =>
      intro b h
      subst h
      rw [List.reverse_cons, ← List.append_assoc, ← List.append_assoc, firsts_append, firsts_append, ih _ rfl]
      simp only [List.mem_append, mem_firsts]
  exact key b.reverse b (by simp)

theorem unionFrom_eq (xs : List (List τ)) : ∀ a, xs ≠ [] → unionFrom a xs = some (firsts (a ++ xs.flatten)) := by
  induction xs with
  | nil => intro a h; exact absurd rfl h
  | cons x xs ih =>
    intro a _
    simp only [unionFrom, unionImpl_nil, Option.bind_some, List.flatten_cons]
    by_cases hx : xs = []
    · subst hx; simp [unionFrom]
    · rw [ih _ hx, firsts_firsts_append, List.append_assoc]

/-- C129 (c): `TypeListUnion` of two or more lists has the first occurrences of all their types, in order; it always compiles. -/
theorem union_eq (a b : List τ) (xs : List (List τ)) : union (a :: b :: xs) = some (firsts (a :: b :: xs).flatten) := by
  have := unionFrom_eq (b :: xs) a (by simp)
  simpa [union] using this

/-- What the first occurrences are: no type twice, the same types, and in the order of the list. -/
theorem firsts_spec (l : List τ) : (firsts l).Nodup ∧ (∀ t, t ∈ firsts l ↔ t ∈ l) ∧ (firsts l).Sublist l := by
  refine ⟨nodup_firsts l, mem_firsts l, ?_⟩
  have key : ∀ (r l : List τ), l = r.reverse → (firsts l).Sublist l := by
    intro r
    induction r with
    | nil => intro l h; subst h; simp [firsts]
    | cons u r ih =>
      intro l h
      subst h
      rw [List.reverse_cons, firsts_append]
      have := ih _ rfl
      split
      · exact this.trans (List.sublist_append_left _ _)
      · exact this.append (List.Sublist.refl _)
  exact key l.reverse l (by simp)

/-- C129 (d): a union of one list is that list; duplicates stay (the code's comment says that the union deduplicates). -/
theorem union_of_one_keeps_duplicates : union [[1, 1]] = some [1, 1] ∧ union [[1, 1], []] = some [1] := by
  refine ⟨rfl, ?_⟩
  rw [union_eq]
  rfl

theorem removeVoidsInner_eq (void : τ) (ts : List τ) : ∀ acc, removeVoidsInner void acc ts = acc ++ ts.filter (fun t => decide (t ≠ void)) := by
  induction ts with
  | nil => intro acc; simp [removeVoidsInner]
  | cons t ts ih =>
    intro acc
    simp only [removeVoidsInner]
    by_cases h : t = void
    · rw [if_pos h, ih]; simp [h]
    · rw [if_neg h, ih]; simp [h]

/-- C129 (e): removing the voids removes just them. -/
theorem removeVoids_eq (void : τ) (ts : List τ) : removeVoids void ts = ts.filter (fun t => decide (t ≠ void)) := by
  simp [removeVoids, removeVoidsInner_eq]

omit [DecidableEq τ] in
theorem leaves_go_append (a b : List (Ty τ)) : leaves.go (a ++ b) = leaves.go a ++ leaves.go b := by
  induction a with
  | nil => rfl
  | cons t ts ih => simp [leaves.go, ih]

omit [DecidableEq τ] in
theorem flattenImpl_eq (n : Nat) : ∀ (acc : List τ) (ts : List (Ty τ)), Ty.nodes.go ts ≤ n → flattenImpl acc ts = acc ++ leaves.go ts := by
  induction n with
  | zero =>
    intro acc ts h
    cases ts with
    | nil => simp [flattenImpl, leaves.go]
    | cons t ts => cases t <;> simp [Ty.nodes.go, Ty.nodes] at h
  | succ n ih =>
    intro acc ts h
    cases ts with
    | nil => simp [flattenImpl, leaves.go]
    | cons t ts =>
      cases t with
      | atom t =>
        simp only [Ty.nodes.go, Ty.nodes] at h
        rw [flattenImpl, ih _ _ (by omega)]
        simp [leaves.go, leaves]
      | list nested =>
        simp only [Ty.nodes.go, Ty.nodes] at h
        rw [flattenImpl, ih _ _ (by rw [nodes_append]; omega), leaves_go_append]
        simp [leaves.go, leaves]

omit [DecidableEq τ] in
/-- C129 (f): flattening gives the types from left to right, however deep they are. -/
theorem flatten_eq (ts : List (Ty τ)) : flatten ts = leaves (.list ts) := by
  unfold flatten
  rw [flattenImpl_eq _ _ _ (Nat.le_refl _)]
  rfl

/-- C129 (g): `SlowTypeList` has the first occurrences of all types in the nested lists; it always compiles. -/
theorem slow_eq (ts : List (Ty τ)) : slow ts = some (firsts (leaves (.list ts))) := by
  unfold slow
  rw [union_eq, flatten_eq]
  simp

/-- C129 (h): `SlowTypeList<SlowTypeList<...>, ...>`: building the list in steps makes no difference. -/
theorem slow_nested (as bs : List (Ty τ)) (r : List τ) (h : slow as = some r) : slow (.list (r.map .atom) :: bs) = slow (as ++ bs) := by
  rw [slow_eq] at h
  injection h with h
  subst h
  rw [slow_eq, slow_eq]
  have e : ∀ l : List τ, leaves.go (l.map Ty.atom) = l := by
    intro l
    induction l with
    | nil => rfl
    | cons t l ih => simp [leaves.go, leaves, ih]
  have e1 : leaves (.list (.list ((firsts (leaves (.list as))).map Ty.atom) :: bs)) = firsts (leaves (.list as)) ++ leaves.go bs := by
    show leaves.go (_ :: bs) = _
    simp only [leaves.go]
    show leaves.go _ ++ _ = _
    rw [e]
  have e2 : leaves (.list (as ++ bs)) = leaves (.list as) ++ leaves.go bs := leaves_go_append as bs
  rw [e1, e2, firsts_firsts_append]

omit [DecidableEq τ] in
theorem evensImpl_get (n : Nat) : ∀ (ts acc : List τ), ts.length ≤ n → ∃ r, evensImpl acc ts = acc ++ r ∧ ∀ i, r[i]? = ts[2 * i]? := by
  induction n using Nat.strongRecOn with
  | _ n ih =>
    intro ts acc h
    match ts, h with
    | [], _ => exact ⟨[], by simp [evensImpl], by simp⟩
    | [g], _ =>
      refine ⟨[g], rfl, ?_⟩
      intro i
      cases i with
      | zero => rfl
      | succ i =>
        rw [show 2 * (i + 1) = 2 * i + 1 + 1 by omega]
        simp
    | g :: b :: u, h =>
      simp only [List.length_cons] at h
      obtain ⟨r, h1, h2⟩ := ih (n - 2) (by omega) u (acc ++ [g]) (by omega)
      refine ⟨g :: r, by simp [evensImpl, h1], ?_⟩
      intro i
      cases i with
      | zero => rfl
      | succ i =>
        rw [show 2 * (i + 1) = 2 * i + 1 + 1 by omega]
        simp [h2]

omit [DecidableEq τ] in
/-- C129 (i): `EvensOnly` has the types at the positions 0, 2, 4, …, and nothing else. -/
theorem evensOnly_get (ts : List τ) (i : Nat) : (evensOnly ts)[i]? = ts[2 * i]? := by
  obtain ⟨r, h1, h2⟩ := evensImpl_get ts.length ts [] (Nat.le_refl _)
  unfold evensOnly
  rw [h1]
  simpa using h2 i

omit [DecidableEq τ] in
theorem element_from (ts : List τ) : ∀ (i n : Nat), i ≤ n → resolve n (overloads i ts) = ts[n - i]? := by
  induction ts with
  | nil =>
    intro i n h
    simp only [resolve, overloads, List.find?_cons, List.find?_nil]
    by_cases hi : i = n
    · simp [hi]
    · simp [hi]
  | cons t ts ih =>
    intro i n h
    simp only [resolve, overloads, List.find?_cons]
    by_cases hi : i = n
    · subst hi; simp
    · simp only [hi, decide_false]
      have := ih (i + 1) n (by omega)
      unfold resolve at this
      rw [this, show n - i = n - (i + 1) + 1 by omega]
      simp

omit [DecidableEq τ] in
/-- C129 (j): `TypeListElement<N, ...>` is the `N`-th type, from zero, and does not compile if there is none. -/
theorem element_eq (n : Nat) (ts : List τ) : element n ts = ts[n]? := by
  have := element_from ts 0 n (Nat.zero_le _)
  simpa [element] using this

omit [DecidableEq τ] in
theorem filterImpl_eq (f : τ → Bool) (ts : List τ) : ∀ acc, filterImpl f acc ts = acc ++ ts.filter f := by
  induction ts with
  | nil => intro acc; simp [filterImpl]
  | cons t ts ih =>
    intro acc
    simp only [filterImpl, ih, List.filter_cons]
    split <;> simp

omit [DecidableEq τ] in
/-- C129 (k): `filter` keeps the order. -/
theorem filter_eq (f : τ → Bool) (ts : List τ) : filter f ts = ts.filter f := by simp [filter, filterImpl_eq]

omit [DecidableEq τ] in
/-- C129 (l): `reduce` folds from the right, and needs a type. -/
theorem reduce_eq (f : τ → τ → τ) (ts : List τ) (t : τ) : reduce f (ts ++ [t]) = some (ts.foldr f t) := by
  induction ts with
  | nil => rfl
  | cons u ts ih =>
    cases ts with
    | nil => rfl
    | cons v vs =>
      have : reduce f (u :: v :: vs ++ [t]) = (reduce f (v :: vs ++ [t])).map (f u) := by
        simp only [List.cons_append]
        cases h : vs ++ [t] with
        | nil => simp at h
        | cons w ws => rfl
      rw [this, ih]
      rfl

theorem ig_eq (n : Nat) : ∀ xs, ig n xs = List.range n ++ xs := by
  induction n with
  | zero => intro xs; simp [ig]
  | succ n ih => intro xs; rw [ig, ih, List.range_succ]; simp

/-- C129 (m): `generate_indexes<N>` is 0, …, N - 1. -/
theorem generateIndexes_eq (n : Nat) : generateIndexes n = List.range n := by simp [generateIndexes, ig_eq]

/-! ### Concrete lists -/

example : slow [.atom 1, .list [.atom 2, .list [.atom 1, .atom 3]], .atom 2, .list [], .atom 4] = some [1, 2, 3, 4] := by rw [slow_eq]; rfl
example : cat [[1, 2], [3], [4]] = some [1, 2, 3, 4] ∧ cat [[1, 2], [3, 1]] = none ∧ cat [[1, 1]] = some [1, 1] := by decide
example : contains [1, 1] 2 = none := rfl
example : evensOnly [1, 2, 3, 4, 5] = [1, 3, 5] ∧ element 1 [7, 8] = some 8 ∧ element 2 [7, 8] = none ∧ removeVoids 0 [0, 1, 0, 2] = [1, 2] ∧ reduce (fun a b => 10 * a + b) [1, 2, 3] = some 33 := by decide

end Current.TypeLists
