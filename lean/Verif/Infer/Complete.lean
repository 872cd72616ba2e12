import Verif.Infer.Parse
/-! When inference succeeds, and what it says place by place; the order of the lines does not matter. -/
namespace Current.Infer
open Current.Persist (Str dec)
open Current.Json (J find)

/-! ### Specification -/

/-- The values one step down, a missing field or an empty array counting as null. -/
def step : Seg → List J → List J
  | .field k, vs => fieldValues k vs
  | .element, vs => elementValues vs

/-- The values at a place. -/
def valuesAt : List Seg → List J → List J
  | [], vs => vs
  | g :: q, vs => valuesAt q (step g vs)

/-- Not ignored. -/
def kept (keep : Str → Bool) : Str → List Seg → Prop
  | _, [] => True
  | p, .field k :: q => keep (member p k) = true ∧ kept keep (member p k) q
  | p, .element :: q => kept keep (element p 0) q

/-- Null, string, number, boolean, array, object. -/
def kindJ : J → Nat
  | .null => 0
  | .str _ => 1
  | .int _ => 2
  | .dbl _ => 2
  | .bool _ => 3
  | .arr _ => 4
  | .obj _ => 5

/-- Nulls apart, the values are all of one kind. -/
def OneKind (vs : List J) : Prop := ∀ u ∈ vs, ∀ v ∈ vs, u ≠ .null → v ≠ .null → kindJ u = kindJ v

/-- At every place which is not ignored, the values are of one kind. -/
def Consistent (keep : Str → Bool) (p : Str) (vs : List J) : Prop := ∀ q, kept keep p q → OneKind (valuesAt q vs)

mutual
/-- Every object's keys (unless ignored, or with an empty array for a value) are valid identifiers, and every array has
something in it but empty arrays. -/
def Fine (keep : Str → Bool) (p : Str) : J → Prop
  | .obj m => FineMembers keep p m
  | .arr l => (∃ v ∈ l, isEmptyArray v = false) ∧ FineElements keep p l
  | _ => True
def FineMembers (keep : Str → Bool) (p : Str) : List (Str × J) → Prop
  | [] => True
  | (k, v) :: m =>
    (isEmptyArray v = false → keep (member p k) = true → Acceptable k ∧ Fine keep (member p k) v) ∧
      FineMembers keep p m
def FineElements (keep : Str → Bool) (p : Str) : List J → Prop
  | [] => True
  | v :: l => (isEmptyArray v = false → Fine keep (element p 0) v) ∧ FineElements keep p l
end

/-! ### Kinds -/

def kindS : S → Nat
  | .uninit => 0
  | .null _ => 0
  | .str .. => 1
  | .int .. => 2
  | .dbl .. => 2
  | .bool .. => 3
  | .arr .. => 4
  | .obj .. => 5

theorem describes_kind (keep : Str → Bool) (p : Str) (s : S) (vs : List J) (h : Describes keep p s vs) :
    (∀ v ∈ vs, v ≠ .null → kindJ v = kindS s) ∧ (0 < kindS s → ∃ v ∈ vs, v ≠ .null) := by
  have key : ∀ (kind : J → Bool) (i n : Nat), Common kind i n vs → (∀ v, kind v = true → kindJ v = kindS s ∧ v ≠ .null) →
      (∀ v ∈ vs, v ≠ .null → kindJ v = kindS s) ∧ (0 < kindS s → ∃ v ∈ vs, v ≠ .null) := by
    intro kind i n hc hk
    refine ⟨fun v hv hv0 => (hk v ((hc.1 v hv).resolve_left hv0)).1, fun _ => ?_⟩
    have := hc.2.2.1
    rw [hc.2.1] at this
    obtain ⟨v, hv, hkv⟩ := List.countP_pos_iff.1 this
    exact ⟨v, hv, (hk v hkv).2⟩
  cases s with
  | uninit =>
    simp only [Describes] at h
    rw [h]
    exact ⟨by simp, by simp [kindS]⟩
  | null n =>
    simp only [Describes] at h
    exact ⟨fun v hv hv0 => absurd (h.2.2 v hv) hv0, by simp [kindS]⟩
  | str h' i n =>
    simp only [Describes] at h
    exact key isStr i n h.1 (fun v hv => by cases v <;> simp_all [isStr, kindJ, kindS])
  | int _ _ _ i n =>
    simp only [Describes] at h
    exact key isInt i n h.1 (fun v hv => by cases v <;> simp_all [isInt, kindJ, kindS])
  | dbl i n =>
    simp only [Describes] at h
    exact key isNum i n h.1 (fun v hv => by cases v <;> simp_all [isNum, kindJ, kindS])
  | bool f t n =>
    simp only [Describes] at h
    exact key isBool _ n h.1 (fun v hv => by cases v <;> simp_all [isBool, kindJ, kindS])
  | arr e i n =>
    simp only [Describes] at h
    exact key isArr i n h.1 (fun v hv => by cases v <;> simp_all [isArr, kindJ, kindS])
  | obj fs i n =>
    simp only [Describes] at h
    exact key isObj i n h.1 (fun v hv => by cases v <;> simp_all [isObj, kindJ, kindS])

/-! ### What reduces, is consistent -/

theorem valuesAt_null (q : List Seg) : ∀ vs : List J, AllNull vs → AllNull (valuesAt q vs) := by
  induction q with
  | nil => exact fun vs h => h
  | cons g q ih =>
    intro vs h
    cases g with
    | field k =>
      refine ih _ ?_
      simp only [step]
      rw [fieldValues_null k vs h]
      intro v hv
      simp at hv
    | element =>
      refine ih _ ?_
      simp only [step]
      rw [elementValues_null vs h]
      intro v hv
      simp at hv

theorem allNull_nil : AllNull [] := fun v hv => by simp at hv

theorem oneKind_null {vs : List J} (h : AllNull vs) : OneKind vs := fun u hu _ _ hu0 _ => absurd (h u hu) hu0

/-- Values which are neither objects nor arrays have nothing below them. -/
theorem step_flat (g : Seg) (vs : List J) (h : ∀ v ∈ vs, kindJ v < 4) : step g vs = [] := by
  cases g with
  | field k =>
    simp only [step, fieldValues, List.filterMap_eq_nil_iff]
    intro v hv
    have := h v hv
    cases v with
    | obj m => exact absurd this (by simp [kindJ])
    | _ => rfl
  | element =>
    simp only [step, elementValues, List.flatMap_eq_nil_iff]
    intro v hv
    have := h v hv
    cases v with
    | arr m => exact absurd this (by simp [kindJ])
    | _ => rfl

theorem step_other (g : Seg) (vs : List J) (n : Nat) (h : ∀ v ∈ vs, v ≠ .null → kindJ v = n)
    (hg : match g with | .field _ => n ≠ 5 | .element => n ≠ 4) : step g vs = [] := by
  cases g with
  | field k =>
    simp only [step, fieldValues, List.filterMap_eq_nil_iff]
    intro v hv
    cases v with
    | obj m => exact absurd (h _ hv (fun e => nomatch e)).symm hg
    | _ => rfl
  | element =>
    simp only [step, elementValues, List.flatMap_eq_nil_iff]
    intro v hv
    cases v with
    | arr m => exact absurd (h _ hv (fun e => nomatch e)).symm hg
    | _ => rfl

/-- The schema at a place. -/
def schemaAt : List Seg → S → Option S
  | [], s => some s
  | .field k :: q, .obj fs _ _ => (fs.last k).bind (schemaAt q)
  | .element :: q, .arr e _ _ => schemaAt q e
  | _ :: _, _ => none

/-- Where the schema says nothing, there are only nulls (missing fields, empty arrays), if that. -/
theorem describes_at (keep : Str → Bool) (q : List Seg) : ∀ (p : Str) (s : S) (vs : List J), Describes keep p s vs → kept keep p q →
    (∀ t, schemaAt q s = some t → ∃ p', Describes keep p' t (valuesAt q vs)) ∧
    (schemaAt q s = none → AllNull (valuesAt q vs)) := by
  induction q with
  | nil =>
    intro p s vs h _
    refine ⟨fun t ht => ?_, fun ht => nomatch ht⟩
    simp only [schemaAt, Option.some.injEq] at ht
    rw [← ht]
    exact ⟨p, h⟩
  | cons g q ih =>
    intro p s vs h hk
    have hkind := (describes_kind keep p s vs h).1
    cases g with
    | field k =>
      by_cases ho : kindS s = 5
      · cases s with
        | obj fs i n =>
          have h0 := h
          simp only [Describes] at h
          simp only [schemaAt, valuesAt, step]
          cases hl : fs.last k with
          | none =>
            simp only [Option.bind_none]
            refine ⟨fun t ht => (nomatch ht), fun _ => valuesAt_null q _ ?_⟩
            exact (absent_null keep p vs fs i n h0 k hk.1 ((last_none k fs).1 hl)).1
          | some t =>
            exact ih _ t _ (last_describes keep p vs k fs t h.2.2.2.2 hl) hk.2
        | _ => simp [kindS] at ho
      · have hs : schemaAt (.field k :: q) s = none := by
          cases s with
          | obj fs i n => exact absurd rfl ho
          | _ => rfl
        rw [hs]
        refine ⟨fun t ht => (nomatch ht), fun _ => ?_⟩
        simp only [valuesAt]
        rw [step_other (.field k) vs (kindS s) hkind ho]
        exact valuesAt_null q _ allNull_nil
    | element =>
      by_cases ho : kindS s = 4
      · cases s with
        | arr e i n =>
          simp only [Describes] at h
          exact ih _ e _ h.2.2 hk
        | _ => simp [kindS] at ho
      · have hs : schemaAt (.element :: q) s = none := by
          cases s with
          | arr e i n => exact absurd rfl ho
          | _ => rfl
        rw [hs]
        refine ⟨fun t ht => (nomatch ht), fun _ => ?_⟩
        simp only [valuesAt]
        rw [step_other .element vs (kindS s) hkind ho]
        exact valuesAt_null q _ allNull_nil

theorem describes_consistent (keep : Str → Bool) (p : Str) (s : S) (vs : List J) (h : Describes keep p s vs) :
    Consistent keep p vs := by
  intro q hq
  obtain ⟨h1, h2⟩ := describes_at keep q p s vs h hq
  cases hs : schemaAt q s with
  | none => exact oneKind_null (h2 hs)
  | some t =>
    obtain ⟨p', ht⟩ := h1 t hs
    have hk := (describes_kind keep p' t _ ht).1
    intro u hu v hv hu0 hv0
    rw [hk u hu hu0, hk v hv hv0]

/-! ### What is consistent, reduces -/

theorem valuesAt_append (q : List Seg) : ∀ xs ys : List J, valuesAt q (xs ++ ys) = valuesAt q xs ++ valuesAt q ys := by
  induction q with
  | nil => exact fun _ _ => rfl
  | cons g q ih =>
    intro xs ys
    cases g with
    | field k =>
      simp only [valuesAt, step]
      rw [fieldValues_append, ih]
    | element =>
      simp only [valuesAt, step]
      rw [elementValues_append, ih]

theorem valuesAt_perm (q : List Seg) : ∀ xs ys : List J, xs.Perm ys → (valuesAt q xs).Perm (valuesAt q ys) := by
  induction q with
  | nil => exact fun _ _ h => h
  | cons g q ih =>
    intro xs ys h
    cases g with
    | field k => exact ih _ _ (h.filterMap _)
    | element => exact ih _ _ (h.flatMap_right _)

theorem consistent_perm {keep : Str → Bool} {p : Str} {xs ys : List J} (h : Consistent keep p xs) (hp : xs.Perm ys) :
    Consistent keep p ys := fun q hq u hu v hv =>
  h q hq u ((valuesAt_perm q _ _ hp).mem_iff.2 hu) v ((valuesAt_perm q _ _ hp).mem_iff.2 hv)

theorem consistent_left {keep : Str → Bool} {p : Str} {xs ys : List J} (h : Consistent keep p (xs ++ ys)) :
    Consistent keep p xs := fun q hq u hu v hv =>
  h q hq u (by rw [valuesAt_append]; exact List.mem_append_left _ hu) v (by rw [valuesAt_append]; exact List.mem_append_left _ hv)

theorem consistent_right {keep : Str → Bool} {p : Str} {xs ys : List J} (h : Consistent keep p (xs ++ ys)) :
    Consistent keep p ys := consistent_left (consistent_perm h List.perm_append_comm)

theorem consistent_field {keep : Str → Bool} {p : Str} {vs : List J} (h : Consistent keep p vs) (k : Str)
    (hk : keep (member p k) = true) : Consistent keep (member p k) (fieldValues k vs) :=
  fun q hq => h (.field k :: q) ⟨hk, hq⟩

theorem consistent_element {keep : Str → Bool} {p : Str} {vs : List J} (h : Consistent keep p vs) :
    Consistent keep (element p 0) (elementValues vs) :=
  fun q hq => h (.element :: q) hq

theorem kinds_agree {keep : Str → Bool} {p : Str} {a b : S} {xs ys : List J} (ha : Describes keep p a xs)
    (hb : Describes keep p b ys) (hc : Consistent keep p (xs ++ ys)) (h1 : 0 < kindS a) (h2 : 0 < kindS b) : kindS a = kindS b := by
  obtain ⟨a1, a2⟩ := describes_kind keep p a xs ha
  obtain ⟨b1, b2⟩ := describes_kind keep p b ys hb
  obtain ⟨u, hu, hu0⟩ := a2 h1
  obtain ⟨v, hv, hv0⟩ := b2 h2
  rw [← a1 u hu hu0, ← b1 v hv hv0]
  exact hc [] trivial u (List.mem_append_left _ hu) v (List.mem_append_right _ hv) hu0 hv0

theorem sequence_ok : ∀ l : Pending, (∀ ks ∈ l, ∃ s, ks.2 = .ok s) → ∃ fs, sequence l = .ok fs
  | [], _ => ⟨.nil, rfl⟩
  | (k, x) :: r, h => by
    obtain ⟨s, hs⟩ := h (k, x) (by simp)
    obtain ⟨fs, hfs⟩ := sequence_ok r (fun ks hks => h ks (List.mem_cons_of_mem _ hks))
    simp only at hs
    exact ⟨.cons k s fs, by rw [hs]; simp only [sequence, hfs]⟩

theorem onlyRight_ok (ns : List Str) : ∀ gs : Fs, ∀ ks ∈ onlyRight ns gs, ∃ s, ks.2 = .ok s
  | .nil, ks, h => by simp [onlyRight] at h
  | .cons k s r, ks, h => by
    simp only [onlyRight] at h
    split at h
    · exact onlyRight_ok ns r ks h
    · rcases List.mem_cons.1 h with h | h
      · exact ⟨_, by rw [h]⟩
      · exact onlyRight_ok ns r ks h

mutual
theorem reduce_ok (keep : Str → Bool) : ∀ (a b : S) (p : Str) (xs ys : List J), Describes keep p a xs → Describes keep p b ys →
    Consistent keep p (xs ++ ys) → ∃ c, reduce a b = .ok c
  | .uninit, b, p, xs, ys, _, _, _ => ⟨b, by simp only [reduce]⟩
  | .null n, b, p, xs, ys, _, _, _ => ⟨addNulls n b, by simp only [reduce]⟩
  | .str v i n, b, p, xs, ys, ha, hb, hc => by
    have hk := kinds_agree ha hb hc (by simp [kindS])
    cases b <;> simp [kindS] at hk <;> simp only [reduce] <;> exact ⟨_, rfl⟩
  | .int su u c i n, b, p, xs, ys, ha, hb, hc => by
    have hk := kinds_agree ha hb hc (by simp [kindS])
    cases b <;> simp [kindS] at hk <;> simp only [reduce] <;> exact ⟨_, rfl⟩
  | .dbl i n, b, p, xs, ys, ha, hb, hc => by
    have hk := kinds_agree ha hb hc (by simp [kindS])
    cases b <;> simp [kindS] at hk <;> simp only [reduce] <;> exact ⟨_, rfl⟩
  | .bool f t n, b, p, xs, ys, ha, hb, hc => by
    have hk := kinds_agree ha hb hc (by simp [kindS])
    cases b <;> simp [kindS] at hk <;> simp only [reduce] <;> exact ⟨_, rfl⟩
  | .arr e i n, b, p, xs, ys, ha, hb, hc => by
    have hk := kinds_agree ha hb hc (by simp [kindS])
    cases b with
    | arr e' i' n' =>
      simp only [Describes] at ha hb
      have hc' := consistent_element hc
      rw [elementValues_append] at hc'
      obtain ⟨x, hx⟩ := reduce_ok keep e e' _ _ _ ha.2.2 hb.2.2 hc'
      exact ⟨.arr x (i + i') (n + n'), by simp only [reduce, hx]⟩
    | uninit => simp only [reduce]; exact ⟨_, rfl⟩
    | null m => simp only [reduce]; exact ⟨_, rfl⟩
    | _ => simp [kindS] at hk
  | .obj fs i n, b, p, xs, ys, ha, hb, hc => by
    have hk := kinds_agree ha hb hc (by simp [kindS])
    cases b with
    | obj gs i' n' =>
      simp only [Describes] at ha hb
      obtain ⟨a1, a2, a3, a4, a5⟩ := ha
      obtain ⟨b1, b2, b3, b4, b5⟩ := hb
      have hnd : ((reduceFields fs gs ++ onlyRight fs.names gs).map (·.1)).Nodup := by
        rw [List.map_append, names_reduceFields, names_onlyRight, List.nodup_append]
        refine ⟨a2, b2.sublist List.filter_sublist, fun x hx y hy e => ?_⟩
        have := (List.mem_filter.1 hy).2
        simp only [decide_eq_true_eq] at this
        exact this (e ▸ hx)
      obtain ⟨r, hr⟩ := sequence_ok (reduceFields fs gs ++ onlyRight fs.names gs) (fun ks hks => by
        rcases List.mem_append.1 hks with hks | hks
        · exact reduceFields_ok keep fs gs p xs ys a5 (fun k t => last_describes keep p ys k gs t b5)
            (fun k hk => ((a3 k).1 hk).1) hc ks hks
        · exact onlyRight_ok _ gs ks hks)
      refine ⟨.obj r (i + i') (n + n'), ?_⟩
      simp only [reduce]
      rw [settle_nodup _ hnd, hr]
    | uninit => simp only [reduce]; exact ⟨_, rfl⟩
    | null m => simp only [reduce]; exact ⟨_, rfl⟩
    | _ => simp [kindS] at hk
theorem reduceFields_ok (keep : Str → Bool) : ∀ (fs gs : Fs) (p : Str) (xs ys : List J), DescribesFields keep p fs xs →
    (∀ k t, gs.last k = some t → Describes keep (member p k) t (fieldValues k ys)) →
    (∀ k ∈ fs.names, keep (member p k) = true) → Consistent keep p (xs ++ ys) →
    ∀ ks ∈ reduceFields fs gs, ∃ s, ks.2 = .ok s
  | .nil, _, _, _, _, _, _, _, _, ks, h => by simp [reduceFields] at h
  | .cons k t r, gs, p, xs, ys, hd, hg, hkeep, hc, ks, h => by
    simp only [DescribesFields] at hd
    have ih := reduceFields_ok keep r gs p xs ys hd.2 hg (fun k' hk' => hkeep k' (by simp [Fs.names, hk'])) hc
    simp only [reduceFields] at h
    cases hl : gs.last k with
    | none =>
      rw [hl] at h
      rcases List.mem_cons.1 h with h | h
      · exact ⟨_, by rw [h]⟩
      · exact ih ks h
    | some u =>
      rw [hl] at h
      rcases List.mem_cons.1 h with h | h
      · have hc' := consistent_field hc k (hkeep k (by simp [Fs.names]))
        rw [fieldValues_append] at hc'
        obtain ⟨c, hc''⟩ := reduce_ok keep t u _ _ _ hd.1 (hg k u hl) hc'
        exact ⟨c, by rw [h]; exact hc''⟩
      · exact ih ks h
end

end Current.Infer
