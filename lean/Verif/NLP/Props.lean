import Verif.NLP.Model
set_option linter.unusedSimpArgs false
set_option linter.unusedVariables false

/-! # The NLP module: what a schema means, and that evaluating it finds exactly that. -/

namespace Current.NLP
open Current.Persist Current.Strings

/-! ### Specification: what a schema expression matches -/

/-- The components of a value: those of a tuple, if the type of the block is a tuple; otherwise the value itself. -/
def parts : Ty → Val → List Val
  | .tnil, .tup vs => vs
  | .tcons _ _, .tup vs => vs
  | _, v => [v]

/-- Two values together: one flat tuple. -/
def both (ta tb : Ty) (x y : Val) : Val := .tup (parts ta x ++ parts tb y)

/-- How the values of two consecutive parts make the value of the whole: `Unit`s vanish. -/
def joinVal (ta tb : Ty) (x y : Val) : Val :=
  if tb = .unit then x else if ta = .unit then y else both ta tb x y

/-- The points at which a range can be split in two, from left to right. -/
def splits (i j : Nat) : List Nat := List.range' i (j + 1 - i)

/-- The expression `e` matches the terms `[i, j)` of the query, with the value `v`. -/
def Matches (q : List Term) : Expr → Nat → Nat → Val → Prop
  | .none, i, j, v => j = i ∧ v = .unit
  | .keyword w, i, j, v => j = i + 1 ∧ v = .unit ∧ ∃ t, q[i]? = some t ∧ t.norm = w
  | .dict n _, i, j, v => j = i + 1 ∧ ∃ t, q[i]? = some t ∧ t.field n = some v
  | .void e, i, j, v => v = .unit ∧ ∃ w, Matches q e i j w
  | .or a b, i, j, v => Matches q a i j v ∨ Matches q b i j v
  | .and a b, i, j, v => ∃ x y, Matches q a i j x ∧ Matches q b i j y ∧ v = both a.ty b.ty x y
  | .seq a b, i, j, v => ∃ k x y, i ≤ k ∧ k ≤ j ∧ Matches q a i k x ∧ Matches q b k j y ∧ v = joinVal a.ty b.ty x y
  | .rseq a b, i, j, v => ∃ k x y, i ≤ k ∧ k ≤ j ∧ Matches q a i k x ∧ Matches q b k j y ∧ v = joinVal a.ty b.ty x y
  | .map _ f e, i, j, v => ∃ x, Matches q e i j x ∧ v = f x
  | .filter p e, i, j, v => Matches q e i j v ∧ p v = true

/-- The order in which the ways to match are reported: alternatives left to right, shorter left parts first, then the outer operand first (the right one for `<<`).
A yes/no question is answered once. -/
def results (q : List Term) : Expr → Nat → Nat → List Val
  | .none, i, j => if j = i then [.unit] else []
  | .keyword w, i, j => if j = i + 1 ∧ (q[i]?).map (·.norm) = some w then [.unit] else []
  | .dict n _, i, j => if j = i + 1 then ((q[i]?).bind (·.field n)).toList else []
  | .void e, i, j => (results q e i j).head?.toList.map (fun _ => .unit)
  | .or a b, i, j =>
    if a.ty = .unit ∧ b.ty = .unit then (results q a i j ++ results q b i j).head?.toList.map (fun _ => .unit)
    else results q a i j ++ results q b i j
  | .and a b, i, j => (results q a i j).flatMap fun x => (results q b i j).map fun y => both a.ty b.ty x y
  | .seq a b, i, j =>
    if a.ty = .unit ∧ b.ty = .unit then
      (((splits i j).filter fun k => !(results q a i k).isEmpty && !(results q b k j).isEmpty)).head?.toList.map (fun _ => .unit)
    else if b.ty = .unit then (splits i j).flatMap fun k => if (results q b k j).isEmpty then [] else results q a i k
    else if a.ty = .unit then (splits i j).flatMap fun k => if (results q a i k).isEmpty then [] else results q b k j
    else (splits i j).flatMap fun k => (results q a i k).flatMap fun x => (results q b k j).map fun y => both a.ty b.ty x y
  | .rseq a b, i, j =>
    if a.ty = .unit ∧ b.ty = .unit then
      (((splits i j).filter fun k => !(results q a i k).isEmpty && !(results q b k j).isEmpty)).head?.toList.map (fun _ => .unit)
    else if b.ty = .unit then (splits i j).flatMap fun k => if (results q b k j).isEmpty then [] else results q a i k
    else if a.ty = .unit then (splits i j).flatMap fun k => if (results q a i k).isEmpty then [] else results q b k j
    else (splits i j).flatMap fun k => (results q b k j).flatMap fun y => (results q a i k).map fun x => both a.ty b.ty x y
  | .map _ f e, i, j => (results q e i j).map f
  | .filter p e, i, j => (results q e i j).filter p

/-- No `Map` to `Unit`, and no dictionary of `Unit`s: the yes/no blocks are the ones the library makes. -/
def Proper : Expr → Prop
  | .none | .keyword _ => True
  | .dict _ t => t ≠ .unit
  | .void e | .filter _ e => Proper e
  | .or a b | .and a b | .seq a b | .rseq a b => Proper a ∧ Proper b
  | .map out _ e => out ≠ .unit ∧ Proper e

/-- The `Map`s and `Filter`s of an expression: the implementation type of each and its function. -/
def Expr.fns : Expr → List (Shape × Fn)
  | .none | .keyword _ | .dict _ _ => []
  | .void e => e.fns
  | .or a b | .and a b | .seq a b | .rseq a b => a.fns ++ b.fns
  | .map out f e => e.fns ++ [(.map out e.shape, .map f)]
  | .filter p e => e.fns ++ [(.filter e.shape, .filter p)]

/-- No two `Map`s or `Filter`s of a program have the same implementation type and different functions. -/
def Coherent (es : List Expr) : Prop :=
  ∀ e₁ ∈ es, ∀ e₂ ∈ es, ∀ p₁ ∈ e₁.fns, ∀ p₂ ∈ e₂.fns, p₁.1 = p₂.1 → p₁.2 = p₂.2

/-! ### Types -/

theorem addAlt_ne_unit (x t : Ty) (h : t ≠ .unit) : x.addAlt t ≠ .unit := by
  cases t <;> simp [Ty.addAlt] at * <;> split <;> simp

theorem unionAlts_ne_unit (a b : Ty) (h : a ≠ .unit) : a.unionAlts b ≠ .unit := by
  induction b generalizing a with
  | vcons x y _ ih => simp only [Ty.unionAlts]; exact ih _ (addAlt_ne_unit _ _ h)
  | _ => simpa [Ty.unionAlts] using h

theorem or_unit {a b : Ty} : a.or b = .unit ↔ a = .unit ∧ b = .unit := by
  unfold Ty.or
  split
  · rename_i h; subst h; simp
  · rename_i h
    constructor
    · intro h'
      exfalso
      refine unionAlts_ne_unit _ _ ?_ h'
      cases a <;> simp [Ty.alts, Ty.isVariant]
    · rintro ⟨rfl, rfl⟩; exact absurd rfl h

theorem appendTuple_ne_unit (a b : Ty) (h : b ≠ .unit) : a.appendTuple b ≠ .unit := by
  cases a <;> simp [Ty.appendTuple, h]

theorem tupleCat_ne_unit (a b : Ty) : a.tupleCat b ≠ .unit := by
  unfold Ty.tupleCat
  apply appendTuple_ne_unit
  cases b <;> simp [Ty.wrapped, Ty.isTuple]

theorem seq_unit {a b : Ty} : a.seq b = .unit ↔ a = .unit ∧ b = .unit := by
  unfold Ty.seq
  split
  · rename_i h; simp [h]
  · rename_i h
    split
    · rename_i h'; simp [h', h]
    · simp [tupleCat_ne_unit, h]

theorem rseq_ty (a b : Expr) : (Expr.rseq a b).ty = a.ty.seq b.ty := by
  simp only [Expr.ty, Expr.shape]
  split <;> rfl

/-! ### Loops -/

theorem mem_splits {i j k : Nat} : k ∈ splits i j ↔ i ≤ k ∧ k ≤ j := by
  simp only [splits, List.mem_range'_1]
  omega

theorem loop_eq (i j : Nat) : loop i j = splits i j := by
  simp [loop, splits, List.range'_eq_map_range]

theorem catVal_eq (ta tb : Ty) (x y : Val) : catVal ta tb x y = both ta tb x y := by
  have : ∀ t v, wrapVal t v = parts t v := by
    intro t v
    cases t <;> cases v <;> rfl
  simp only [catVal, both, this]

/-! ### Matches and results -/

theorem head_toList_mem {α} {l : List α} : (∃ x, x ∈ l.head?.toList) ↔ ∃ x, x ∈ l := by
  cases l <;> simp

theorem mem_head_unit {α} {l : List α} {v : Val} : v ∈ (l.head?.toList.map (fun _ => Val.unit)) ↔ v = .unit ∧ ∃ x, x ∈ l := by
  cases l <;> simp [eq_comm]

theorem isEmpty_false_iff {α} {l : List α} : l.isEmpty = false ↔ ∃ x, x ∈ l := by
  cases l <;> simp

/-- A `Unit` block matches with the value `Unit()`. -/
theorem Matches.unit_val {q : List Term} {e : Expr} (hp : Proper e) (hu : e.ty = .unit) {i j : Nat} {v : Val} (h : Matches q e i j v) : v = .unit := by
  induction e generalizing i j v with
  | none => exact h.2
  | keyword w => exact h.2.1
  | dict n t => exact absurd hu hp
  | void e => exact h.1
  | or a b iha ihb =>
    have := or_unit.1 hu
    rcases h with h | h
    · exact iha hp.1 this.1 h
    · exact ihb hp.2 this.2 h
  | and a b => exact absurd hu (tupleCat_ne_unit _ _)
  | seq a b iha ihb =>
    have := seq_unit.1 hu
    obtain ⟨k, x, y, _, _, hx, hy, rfl⟩ := h
    simp only [joinVal, Expr.ty, this, if_true]
    exact iha hp.1 this.1 hx
  | rseq a b iha ihb =>
    have := seq_unit.1 (rseq_ty a b ▸ hu)
    obtain ⟨k, x, y, _, _, hx, hy, rfl⟩ := h
    simp only [joinVal, this, if_true]
    exact iha hp.1 this.1 hx
  | map out f e => exact absurd hu hp.1
  | filter p e ih => exact ih hp hu h.1

theorem mem_seq {q : List Term} {a b : Expr} {i j : Nat} {v : Val} (hp : Proper a ∧ Proper b)
    (iha : ∀ {i j v}, v ∈ results q a i j ↔ Matches q a i j v) (ihb : ∀ {i j v}, v ∈ results q b i j ↔ Matches q b i j v) :
    v ∈ results q (.seq a b) i j ↔ Matches q (.seq a b) i j v := by
  simp only [results, Matches]
  by_cases hb : b.ty = .unit
  · by_cases ha : a.ty = .unit
    · simp only [ha, hb, and_self, if_true, mem_head_unit, List.mem_filter, mem_splits, Bool.and_eq_true, Bool.not_eq_true', isEmpty_false_iff, joinVal, iha, ihb]
      constructor
      · rintro ⟨rfl, k, ⟨h1, h2⟩, ⟨x, hx⟩, ⟨y, hy⟩⟩
        exact ⟨k, x, y, h1, h2, hx, hy, (hx.unit_val hp.1 ha).symm⟩
      · rintro ⟨k, x, y, h1, h2, hx, hy, rfl⟩
        exact ⟨hx.unit_val hp.1 ha, k, ⟨h1, h2⟩, ⟨_, hx⟩, ⟨_, hy⟩⟩
    · simp only [ha, hb, false_and, if_false, if_true, List.mem_flatMap, mem_splits, joinVal]
      constructor
      · rintro ⟨k, ⟨h1, h2⟩, h⟩
        split at h
        · cases h
        · rename_i hne
          obtain ⟨y, hy⟩ := isEmpty_false_iff.1 (Bool.not_eq_true _ ▸ hne)
          exact ⟨k, v, y, h1, h2, iha.1 h, ihb.1 hy, rfl⟩
      · rintro ⟨k, x, y, h1, h2, hx, hy, rfl⟩
        refine ⟨k, ⟨h1, h2⟩, ?_⟩
        rw [if_neg (by simp only [Bool.not_eq_true, isEmpty_false_iff]; exact ⟨y, ihb.2 hy⟩)]
        exact iha.2 hx
  · by_cases ha : a.ty = .unit
    · simp only [ha, hb, and_false, if_false, if_true, List.mem_flatMap, mem_splits, joinVal]
      constructor
      · rintro ⟨k, ⟨h1, h2⟩, h⟩
        split at h
        · cases h
        · rename_i hne
          obtain ⟨x, hx⟩ := isEmpty_false_iff.1 (Bool.not_eq_true _ ▸ hne)
          exact ⟨k, x, v, h1, h2, iha.1 hx, ihb.1 h, rfl⟩
      · rintro ⟨k, x, y, h1, h2, hx, hy, rfl⟩
        refine ⟨k, ⟨h1, h2⟩, ?_⟩
        rw [if_neg (by simp only [Bool.not_eq_true, isEmpty_false_iff]; exact ⟨x, iha.2 hx⟩)]
        exact ihb.2 hy
    · simp only [ha, hb, and_false, if_false, List.mem_flatMap, List.mem_map, mem_splits, joinVal]
      constructor
      · rintro ⟨k, ⟨h1, h2⟩, x, hx, y, hy, rfl⟩
        exact ⟨k, x, y, h1, h2, iha.1 hx, ihb.1 hy, rfl⟩
      · rintro ⟨k, x, y, h1, h2, hx, hy, rfl⟩
        exact ⟨k, ⟨h1, h2⟩, x, iha.2 hx, y, ihb.2 hy, rfl⟩

/-- Everything reported is a match, and every match is reported. -/
theorem mem_results {q : List Term} {e : Expr} (hp : Proper e) {i j : Nat} {v : Val} : v ∈ results q e i j ↔ Matches q e i j v := by
  induction e generalizing i j v with
  | none => simp only [results, Matches]; split <;> simp_all
  | keyword w =>
    simp only [results, Matches]
    split
    · rename_i h; simp_all
    · rename_i h
      simp only [List.not_mem_nil, false_iff]
      rintro ⟨h1, h2, t, h3, h4⟩
      exact h ⟨h1, by simp [h3, h4]⟩
  | dict n t =>
    simp only [results, Matches]
    split
    · rename_i h
      cases hq : q[i]? <;> simp_all
    · rename_i h; simp [h]
  | void e ih => simp only [results, Matches, mem_head_unit, ih hp]
  | or a b iha ihb =>
    have hs : (Matches q a i j v ∨ Matches q b i j v) ↔ v ∈ results q a i j ++ results q b i j := by simp [iha hp.1, ihb hp.2]
    simp only [results, Matches]
    split
    · rename_i hu
      rw [mem_head_unit]
      constructor
      · rintro ⟨rfl, x, hx⟩
        rcases List.mem_append.1 hx with hx | hx
        · have := (iha hp.1).1 hx; rw [this.unit_val hp.1 hu.1] at this; exact Or.inl this
        · have := (ihb hp.2).1 hx; rw [this.unit_val hp.2 hu.2] at this; exact Or.inr this
      · intro h
        refine ⟨?_, v, hs.1 h⟩
        rcases h with h | h
        · exact h.unit_val hp.1 hu.1
        · exact h.unit_val hp.2 hu.2
    · exact hs.symm
  | and a b iha ihb =>
    simp only [results, Matches, List.mem_flatMap, List.mem_map]
    constructor
    · rintro ⟨x, hx, y, hy, rfl⟩; exact ⟨x, y, (iha hp.1).1 hx, (ihb hp.2).1 hy, rfl⟩
    · rintro ⟨x, y, hx, hy, rfl⟩; exact ⟨x, (iha hp.1).2 hx, y, (ihb hp.2).2 hy, rfl⟩
  | seq a b iha ihb => exact mem_seq hp (iha hp.1) (ihb hp.2)
  | rseq a b iha ihb =>
    have hm := mem_seq (i := i) (j := j) (v := v) hp (iha hp.1) (ihb hp.2)
    by_cases hu : a.ty = .unit ∨ b.ty = .unit
    · have : results q (.rseq a b) i j = results q (.seq a b) i j := by
        simp only [results]
        rcases hu with hu | hu <;> simp only [hu, if_true, and_true, true_and] <;> (repeat' split) <;> first | rfl | simp_all
      rw [this]
      exact hm
    · simp only [not_or] at hu
      simp only [results, Matches, hu.1, hu.2, and_self, if_false, List.mem_flatMap, List.mem_map, mem_splits, joinVal]
      constructor
      · rintro ⟨k, ⟨h1, h2⟩, y, hy, x, hx, rfl⟩
        exact ⟨k, x, y, h1, h2, (iha hp.1).1 hx, (ihb hp.2).1 hy, rfl⟩
      · rintro ⟨k, x, y, h1, h2, hx, hy, rfl⟩
        exact ⟨k, ⟨h1, h2⟩, y, (ihb hp.2).2 hy, x, (iha hp.1).2 hx, rfl⟩
  | map out f e ih =>
    simp only [results, Matches, List.mem_map]
    constructor
    · rintro ⟨x, hx, rfl⟩; exact ⟨x, (ih hp.2).1 hx, rfl⟩
    · rintro ⟨x, hx, rfl⟩; exact ⟨x, (ih hp.2).2 hx, rfl⟩
  | filter p e ih => simp only [results, Matches, List.mem_filter, ih hp]

theorem head_unit_length {α} (l : List α) : (l.head?.toList.map (fun _ => Val.unit)).length ≤ 1 := by cases l <;> simp

/-- A yes/no block answers at most once. -/
theorem unit_once {q : List Term} {e : Expr} (hp : Proper e) (hu : e.ty = .unit) (i j : Nat) : (results q e i j).length ≤ 1 := by
  induction e generalizing i j with
  | none => simp only [results]; split <;> simp
  | keyword w => simp only [results]; split <;> simp
  | dict n t => exact absurd hu hp
  | void e => exact head_unit_length _
  | or a b iha ihb =>
    simp only [results, or_unit.1 hu, Expr.ty, if_true, and_self]
    exact head_unit_length _
  | and a b => exact absurd hu (tupleCat_ne_unit _ _)
  | seq a b iha ihb =>
    simp only [results, seq_unit.1 hu, Expr.ty, if_true, and_self]
    exact head_unit_length _
  | rseq a b iha ihb =>
    have := seq_unit.1 (rseq_ty a b ▸ hu)
    simp only [results, this, if_true, and_self]
    exact head_unit_length _
  | map out f e => exact absurd hu hp.1
  | filter p e ih => exact Nat.le_trans (List.length_filter_le ..) (ih hp hu i j)

end Current.NLP
