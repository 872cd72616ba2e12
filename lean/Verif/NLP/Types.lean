import Verif.NLP.Thms
set_option linter.unusedSimpArgs false
set_option linter.unusedVariables false

/-! # The NLP module: the emitted types (C123), and that results have them. -/

namespace Current.NLP

/-- The components of a tuple type. -/
def Ty.comps : Ty → List Ty
  | .tcons h t => h :: t.comps
  | _ => []
/-- The alternatives of a variant type. -/
def Ty.options : Ty → List Ty
  | .vcons h t => h :: t.options
  | _ => []
/-- The tuple of some types. -/
def tupleOf : List Ty → Ty
  | [] => .tnil
  | t :: l => .tcons t (tupleOf l)
/-- The variant of some types. -/
def variantOf : List Ty → Ty
  | [] => .vnil
  | t :: l => .vcons t (variantOf l)

theorem comps_tupleOf (l : List Ty) : (tupleOf l).comps = l := by
  induction l with
  | nil => rfl
  | cons t l ih => simp [tupleOf, Ty.comps, ih]
theorem options_variantOf (l : List Ty) : (variantOf l).options = l := by
  induction l with
  | nil => rfl
  | cons t l ih => simp [variantOf, Ty.options, ih]

/-- A C++ type: `Unit`, some other type, a tuple, or a variant of distinct non-variant types. -/
inductive Real : Ty → Prop
  | unit : Real .unit
  | base (n : Nat) : Real (.base n)
  | tuple (l : List Ty) : (∀ t ∈ l, Real t) → Real (tupleOf l)
  | variant (l : List Ty) : l.Nodup → (∀ t ∈ l, Real t) → (∀ t ∈ l, t.isVariant = false) → Real (variantOf l)

theorem isTuple_tupleOf (l : List Ty) : (tupleOf l).isTuple = true := by cases l <;> rfl
theorem isVariant_variantOf (l : List Ty) : (variantOf l).isVariant = true := by cases l <;> rfl
theorem isVariant_tupleOf (l : List Ty) : (tupleOf l).isVariant = false := by cases l <;> rfl
theorem isTuple_variantOf (l : List Ty) : (variantOf l).isTuple = false := by cases l <;> rfl

/-- What `a & b` and `a >> b` (without `Unit`s) put in a tuple for one operand. -/
def flat (t : Ty) : List Ty := if t.isTuple then t.comps else [t]
/-- The alternatives an operand of `|` contributes. -/
def alternatives (t : Ty) : List Ty := if t.isVariant then t.options else [t]

theorem wrapped_eq {t : Ty} (h : Real t) : t.wrapped = tupleOf (flat t) := by
  unfold Ty.wrapped flat
  cases h with
  | unit => rfl
  | base n => rfl
  | tuple l _ => simp [isTuple_tupleOf, comps_tupleOf]
  | variant l _ _ _ => simp [isTuple_variantOf, tupleOf]

theorem appendTuple_eq (l m : List Ty) : (tupleOf l).appendTuple (tupleOf m) = tupleOf (l ++ m) := by
  induction l with
  | nil => rfl
  | cons t l ih => simp only [tupleOf, Ty.appendTuple, ih, List.cons_append]

/-- `a & b` emits the flat tuple of both. -/
theorem tupleCat_eq {a b : Ty} (ha : Real a) (hb : Real b) : a.tupleCat b = tupleOf (flat a ++ flat b) := by
  unfold Ty.tupleCat
  rw [wrapped_eq ha, wrapped_eq hb, appendTuple_eq]

theorem alts_eq {t : Ty} (h : Real t) : t.alts = variantOf (alternatives t) := by
  unfold Ty.alts alternatives
  cases h with
  | unit => rfl
  | base n => rfl
  | tuple l _ => simp [isVariant_tupleOf, variantOf]
  | variant l _ _ _ => simp [isVariant_variantOf, options_variantOf]

theorem addAlt_eq (x : Ty) (l : List Ty) : x.addAlt (variantOf l) = variantOf (if x ∈ l then l else l ++ [x]) := by
  induction l with
  | nil => rfl
  | cons t l ih =>
    simp only [variantOf, Ty.addAlt, ih, List.mem_cons]
    by_cases h : t = x
    · simp [h, variantOf]
    · have h' : ¬ x = t := fun e => h e.symm
      simp only [h, h', if_false, false_or]
      split <;> simp [variantOf]

theorem unionAlts_eq (l m : List Ty) (hm : m.Nodup) : (variantOf l).unionAlts (variantOf m) = variantOf (l ++ m.filter (fun t => !l.contains t)) := by
  induction m generalizing l with
  | nil => simp [variantOf]; cases l <;> rfl
  | cons t m ih =>
    simp only [variantOf, Ty.unionAlts, addAlt_eq]
    rw [ih _ (List.nodup_cons.1 hm).2]
    by_cases h : t ∈ l
    · simp [h]
    · have hnm : t ∉ m := (List.nodup_cons.1 hm).1
      simp only [h, if_false, List.filter_cons, List.contains_eq_mem, decide_false, Bool.not_false, if_true, List.append_assoc, List.singleton_append]
      congr 3
      apply List.filter_congr
      intro x hx
      have : x ≠ t := fun e => hnm (e ▸ hx)
      simp [this]

theorem alternatives_nodup {t : Ty} (h : Real t) : (alternatives t).Nodup := by
  unfold alternatives
  cases h with
  | unit => decide
  | base n => simp [Ty.isVariant]
  | tuple l _ => simp [isVariant_tupleOf]
  | variant l hn _ _ => simpa [isVariant_variantOf, options_variantOf] using hn

/-- `a | b` emits the common type, or else the variant of all alternatives of both, those of `a` first, none of them twice. -/
theorem or_eq {a b : Ty} (ha : Real a) (hb : Real b) :
    a.or b = if a = b then a else variantOf (alternatives a ++ (alternatives b).filter (fun t => !(alternatives a).contains t)) := by
  unfold Ty.or
  split
  · rfl
  · rw [alts_eq ha, alts_eq hb, unionAlts_eq _ _ (alternatives_nodup hb)]

theorem mem_flat_real {t x : Ty} (h : Real t) (hx : x ∈ flat t) : Real x := by
  unfold flat at hx
  cases h with
  | unit => simp [Ty.isTuple] at hx; exact hx ▸ .unit
  | base n => simp [Ty.isTuple] at hx; exact hx ▸ .base n
  | tuple l hl => rw [isTuple_tupleOf, if_pos rfl, comps_tupleOf] at hx; exact hl x hx
  | variant l hn hl hv =>
    rw [isTuple_variantOf] at hx
    simp at hx
    exact hx ▸ .variant l hn hl hv

theorem mem_alternatives_real {t x : Ty} (h : Real t) (hx : x ∈ alternatives t) : Real x ∧ x.isVariant = false := by
  unfold alternatives at hx
  cases h with
  | unit => simp [Ty.isVariant] at hx; exact hx ▸ ⟨.unit, rfl⟩
  | base n => simp [Ty.isVariant] at hx; exact hx ▸ ⟨.base n, rfl⟩
  | tuple l hl =>
    rw [isVariant_tupleOf] at hx
    simp at hx
    exact hx ▸ ⟨.tuple l hl, isVariant_tupleOf l⟩
  | variant l hn hl hv => rw [isVariant_variantOf, if_pos rfl, options_variantOf] at hx; exact ⟨hl x hx, hv x hx⟩

theorem tupleCat_real {a b : Ty} (ha : Real a) (hb : Real b) : Real (a.tupleCat b) := by
  rw [tupleCat_eq ha hb]
  refine .tuple _ fun t ht => ?_
  rcases List.mem_append.1 ht with h | h
  · exact mem_flat_real ha h
  · exact mem_flat_real hb h

theorem seq_real {a b : Ty} (ha : Real a) (hb : Real b) : Real (a.seq b) := by
  unfold Ty.seq
  split
  · exact ha
  · split
    · exact hb
    · exact tupleCat_real ha hb

theorem or_real {a b : Ty} (ha : Real a) (hb : Real b) : Real (a.or b) := by
  rw [or_eq ha hb]
  split
  · exact ha
  · refine .variant _ ?_ (fun t ht => (?_ : Real t ∧ t.isVariant = false).1) (fun t ht => (?_ : Real t ∧ t.isVariant = false).2)
    · rw [List.nodup_append]
      refine ⟨alternatives_nodup ha, (alternatives_nodup hb).sublist List.filter_sublist, ?_⟩
      intro x hx y hy e
      subst e
      have := (List.mem_filter.1 hy).2
      simp [hx] at this
    all_goals
      rcases List.mem_append.1 ht with h | h
      · exact mem_alternatives_real ha h
      · exact mem_alternatives_real hb (List.mem_filter.1 h).1

/-- The types the author of a schema names are C++ types. -/
def Named : Expr → Prop
  | .none | .keyword _ => True
  | .dict _ t => Real t
  | .void e | .filter _ e => Named e
  | .or a b | .and a b | .seq a b | .rseq a b => Named a ∧ Named b
  | .map out _ e => Real out ∧ Named e

/-- So is the type of every block. -/
theorem ty_real {e : Expr} (h : Named e) : Real e.ty := by
  induction e with
  | none | keyword => exact .unit
  | dict n t => exact h
  | void e ih => exact .unit
  | or a b iha ihb => exact or_real (iha h.1) (ihb h.2)
  | and a b iha ihb => exact tupleCat_real (iha h.1) (ihb h.2)
  | seq a b iha ihb => exact seq_real (iha h.1) (ihb h.2)
  | rseq a b iha ihb => rw [rseq_ty]; exact seq_real (iha h.1) (ihb h.2)
  | map out f e ih => exact h.1
  | filter p e ih => exact ih h

/-! ### Values have the types -/

/-- A value is of a type: a `Variant` holds a value of one of its alternatives, a tuple is of values of its components. `base` types hold atoms with their number. -/
inductive Of : Ty → Val → Prop
  | unit : Of .unit .unit
  | base (n : Nat) (s) : Of (.base n) (.atom n s)
  | tnil : Of .tnil (.tup [])
  | tcons {h t : Ty} {v : Val} {vs : List Val} : Of h v → Of t (.tup vs) → Of (.tcons h t) (.tup (v :: vs))
  | here {h t : Ty} {v : Val} : Of h v → Of (.vcons h t) v
  | there {h t : Ty} {v : Val} : Of t v → t.isVariant = true → Of (.vcons h t) v

theorem of_tupleOf_append {l m : List Ty} {vs ws : List Val} (h : Of (tupleOf l) (.tup vs)) (h' : Of (tupleOf m) (.tup ws)) :
    Of (tupleOf (l ++ m)) (.tup (vs ++ ws)) := by
  induction l generalizing vs with
  | nil => cases h; exact h'
  | cons t l ih =>
    cases h with
    | tcons hv hvs => exact .tcons hv (ih hvs)

theorem of_tupleOf_tup {l : List Ty} {v : Val} (h : Of (tupleOf l) v) : ∃ vs, v = .tup vs := by
  cases l with
  | nil => cases h; exact ⟨_, rfl⟩
  | cons t l => cases h; exact ⟨_, rfl⟩

theorem of_parts {t : Ty} (hr : Real t) {v : Val} (h : Of t v) : Of (tupleOf (flat t)) (.tup (parts t v)) := by
  have single : ∀ {t : Ty} {v : Val}, t.isTuple = false → Of t v → parts t v = [v] → Of (tupleOf (flat t)) (.tup (parts t v)) := by
    intro t v ht h hp
    rw [hp]
    simp only [flat, ht, tupleOf, Bool.false_eq_true, if_false]
    exact .tcons h .tnil
  cases hr with
  | unit => exact single rfl h rfl
  | base n => exact single rfl h rfl
  | tuple l _ =>
    simp only [flat, isTuple_tupleOf, comps_tupleOf, if_true]
    obtain ⟨vs, rfl⟩ := of_tupleOf_tup h
    have : parts (tupleOf l) (.tup vs) = vs := by cases l <;> rfl
    rw [this]
    exact h
  | variant l _ _ _ =>
    apply single (isTuple_variantOf l) h
    cases l <;> rfl

theorem of_both {a b : Ty} (ha : Real a) (hb : Real b) {x y : Val} (hx : Of a x) (hy : Of b y) : Of (a.tupleCat b) (both a b x y) := by
  rw [tupleCat_eq ha hb]
  exact of_tupleOf_append (of_parts ha hx) (of_parts hb hy)

theorem of_variantOf {l : List Ty} {v : Val} : Of (variantOf l) v ↔ ∃ t ∈ l, Of t v := by
  induction l with
  | nil => constructor
           · intro h; cases h
           · rintro ⟨t, ht, _⟩; cases ht
  | cons t l ih =>
    constructor
    · intro h
      cases h with
      | here h => exact ⟨t, List.mem_cons_self, h⟩
      | there h _ => obtain ⟨t', ht', h'⟩ := ih.1 h; exact ⟨t', List.mem_cons_of_mem _ ht', h'⟩
    · rintro ⟨t', ht', h⟩
      rcases List.mem_cons.1 ht' with rfl | ht'
      · exact .here h
      · exact .there (ih.2 ⟨t', ht', h⟩) (isVariant_variantOf l)

theorem of_alternatives {t : Ty} (hr : Real t) {v : Val} (h : Of t v) : ∃ t' ∈ alternatives t, Of t' v := by
  unfold alternatives
  cases hr with
  | unit => exact ⟨.unit, by simp [Ty.isVariant], h⟩
  | base n => exact ⟨.base n, by simp [Ty.isVariant], h⟩
  | tuple l _ => exact ⟨tupleOf l, by simp [isVariant_tupleOf], h⟩
  | variant l _ _ _ =>
    rw [isVariant_variantOf, if_pos rfl, options_variantOf]
    exact of_variantOf.1 h

theorem of_or {a b : Ty} (ha : Real a) (hb : Real b) {v : Val} (h : Of a v ∨ Of b v) : Of (a.or b) v := by
  rw [or_eq ha hb]
  split
  · rename_i e; subst e; rcases h with h | h <;> exact h
  · rw [of_variantOf]
    rcases h with h | h
    · obtain ⟨t, ht, h⟩ := of_alternatives ha h
      exact ⟨t, List.mem_append_left _ ht, h⟩
    · obtain ⟨t, ht, h⟩ := of_alternatives hb h
      by_cases hm : t ∈ alternatives a
      · exact ⟨t, List.mem_append_left _ hm, h⟩
      · exact ⟨t, List.mem_append_right _ (List.mem_filter.2 ⟨ht, by simp [hm]⟩), h⟩

/-- The dictionaries hold values of their types, and the functions of `Map` produce values of theirs. -/
def WellTyped (q : List Term) : Expr → Prop
  | .none | .keyword _ => True
  | .dict n t => ∀ x ∈ q, ∀ v, x.field n = some v → Of t v
  | .void e | .filter _ e => WellTyped q e
  | .or a b | .and a b | .seq a b | .rseq a b => WellTyped q a ∧ WellTyped q b
  | .map out f e => (∀ v, Of e.ty v → Of out (f v)) ∧ WellTyped q e

/-- Every match has the emitted type of the schema. -/
theorem matches_typed {q : List Term} {e : Expr} (hn : Named e) (hw : WellTyped q e) {i j : Nat} {v : Val} (h : Matches q e i j v) : Of e.ty v := by
  have hjoin : ∀ {a b : Ty} {x y : Val}, Real a → Real b → Of a x → Of b y → Of (a.seq b) (joinVal a b x y) := by
    intro a b x y ha hb hx hy
    unfold Ty.seq joinVal
    split
    · exact hx
    · split
      · exact hy
      · exact of_both ha hb hx hy
  induction e generalizing i j v with
  | none => rw [h.2]; exact .unit
  | keyword w => rw [h.2.1]; exact .unit
  | dict n t =>
    obtain ⟨_, x, hx, hv⟩ := h
    exact hw x (List.mem_of_getElem? hx) v hv
  | void e ih => rw [h.1]; exact .unit
  | or a b iha ihb => exact of_or (ty_real hn.1) (ty_real hn.2) (h.imp (iha hn.1 hw.1) (ihb hn.2 hw.2))
  | and a b iha ihb =>
    obtain ⟨x, y, hx, hy, rfl⟩ := h
    exact of_both (ty_real hn.1) (ty_real hn.2) (iha hn.1 hw.1 hx) (ihb hn.2 hw.2 hy)
  | seq a b iha ihb =>
    obtain ⟨k, x, y, _, _, hx, hy, rfl⟩ := h
    exact hjoin (ty_real hn.1) (ty_real hn.2) (iha hn.1 hw.1 hx) (ihb hn.2 hw.2 hy)
  | rseq a b iha ihb =>
    rw [rseq_ty]
    obtain ⟨k, x, y, _, _, hx, hy, rfl⟩ := h
    exact hjoin (ty_real hn.1) (ty_real hn.2) (iha hn.1 hw.1 hx) (ihb hn.2 hw.2 hy)
  | map out f e ih =>
    obtain ⟨x, hx, rfl⟩ := h
    exact hw.1 x (ih hn.2 hw.2 hx)
  | filter p e ih => exact ih hn hw h.1

/-- The calculator is well typed on every query. -/
theorem formula_typed (s : Current.Persist.Str) : Named formula ∧ WellTyped ((dictionaries digits).query s) formula := by
  have hk : ∀ d ∈ digits, ∀ e ∈ d.2, ∀ e' ∈ d.2, e.1 = e'.1 → e = e' := by
    intro d hd e he e' he' h
    simp only [digits, List.mem_singleton] at hd
    subst hd
    simp only [List.mem_cons, List.not_mem_nil, or_false] at he he'
    rcases he with rfl | rfl <;> rcases he' with rfl | rfl
    · rfl
    · exact absurd h (by decide)
    · exact absurd h (by decide)
    · rfl
  have hf : ∀ d ∈ digits, ∀ d' ∈ digits, d.1 = d'.1 → d = d' := by
    intro d hd d' hd' _
    simp only [digits, List.mem_singleton] at hd hd'
    rw [hd, hd']
  have hd : ∀ x ∈ (dictionaries digits).query s, ∀ v, x.field 0 = some v → Of (.base 1) v := by
    intro x hx v hv
    obtain ⟨d, hd, _, hm⟩ := ((((annotation digits hk hf s).2 x hx).2 0 v).1 hv)
    simp only [digits, List.mem_singleton] at hd
    subst hd
    simp only [List.mem_cons, Prod.mk.injEq, List.not_mem_nil, or_false] at hm
    rcases hm with ⟨_, rfl⟩ | ⟨_, rfl⟩ <;> exact .base 1 _
  refine ⟨⟨⟨trivial, ⟨⟨trivial, trivial, trivial, trivial⟩, trivial, trivial⟩⟩, ⟨.base 2, .base 1⟩, ⟨.base 2, ⟨.base 1, trivial⟩, .base 1⟩⟩, ?_⟩
  refine ⟨⟨trivial, ⟨⟨trivial, trivial, trivial, trivial⟩, trivial, trivial⟩⟩, ⟨?_, hd⟩, ⟨?_, ⟨hd, trivial⟩, hd⟩⟩
  · intro v hv
    have hv : Of (.base 1) v := hv
    cases hv
    exact .base 2 _
  · intro v hv
    have hv : Of (.tcons (.base 1) (.tcons (.base 1) .tnil)) v := hv
    cases hv with
    | tcons h1 h2 =>
      cases h2 with
      | tcons h3 h4 =>
        cases h4
        cases h1
        cases h3
        exact .base 2 _

/-- The types the tests of the library expect: `a | (b | c)`, `b | (a | b)`, `(a & b) & c`, `Maybe(a)`. -/
theorem types_of_tests : let a : Expr := .dict 0 (.base 0); let b : Expr := .dict 1 (.base 1); let c : Expr := .dict 2 (.base 2)
    (Expr.or a (.or b c)).ty = variantOf [.base 0, .base 1, .base 2] ∧ (Expr.or b (.or a b)).ty = variantOf [.base 1, .base 0] ∧
    (Expr.and (.and a b) (.and b c)).ty = tupleOf [.base 0, .base 1, .base 1, .base 2] ∧ (Expr.maybe a).ty = variantOf [.unit, .base 0] ∧
    (Expr.or a a).ty = .base 0 ∧ (Expr.seq (.keyword []) (.seq a b)).ty = tupleOf [.base 0, .base 1] := by decide

end Current.NLP
