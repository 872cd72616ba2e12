import Verif.Json.Overwrite
/-!
`PatchObjectWithJSON`: a member mentioned in the patch is replaced, the others stay — for the types of fields for which this is so.
-/
namespace Current.Json
open Current.Persist (Str)

variable {e : Env} {f fs : Fmt}

/-- The types of fields that stay as they are when the patch does not mention them: all but sets and maps, and but
`Variant`s in the formats that write empty ones as null. -/
def Ty.keepsAbsent (f : Fmt) : Ty → Bool
  | .set _ => false
  | .smap _ => false
  | .map _ _ => false
  | .variant _ => f = .minimalistic || f = .javaScript
  | _ => true

theorem patch_absent (t : Ty) (h : t.keepsAbsent f = true) (d : t.den) : des e ⟨f, true⟩ t none d = .ok d := by
  match t, d with
  | .bool, d | .uint w, d | .int w, d | .enumU w, d | .enumI w, d | .chrono, d | .flt, d | .dbl, d | .str, d
  | .tid, d | .vec t, d | .arr n t, d | .tup r, d | .struct n s o, d => simp only [des, onValue, if_true]
  | .pair a b, d => simp [des, onValue]
  | .opt t, d => simp [des]
  | .variant cs, d =>
    cases f <;> simp [Ty.keepsAbsent] at h <;> simp [des, Fmt.useNulls]

/-- What each field becomes. -/
def PatchedTo (e : Env) (f : Fmt) : (r : Row) → List (Str × J) → r.prod → r.prod → Prop
  | .nil, _, _, _ => True
  | .cons l _ t r, ms, (d : t.den × r.prod), (x : t.den × r.prod) =>
    des e ⟨f, true⟩ t (find l ms) d.1 = .ok x.1 ∧ PatchedTo e f r ms d.2 x.2

theorem desFields_patched (r : Row) (ms : List (Str × J)) (d x : r.prod) (h : desFields e ⟨f, true⟩ r ms d = .ok x) :
    PatchedTo e f r ms d x := by
  match r, d, x with
  | .nil, _, _ => trivial
  | .cons l i t r, d, x =>
    simp only [desFields] at h
    cases h1 : des e ⟨f, true⟩ t (find l ms) d.1 with
    | error er => rw [h1] at h; cases h
    | ok y =>
      rw [h1] at h
      simp only at h
      cases h2 : desFields e ⟨f, true⟩ r ms d.2 with
      | error er => rw [h2] at h; cases h
      | ok z =>
        rw [h2] at h
        cases h
        exact ⟨h1, desFields_patched r ms d.2 z h2⟩

/-- The fields of the row whose names are not among the keys, and whose types keep, hold the same in `x` as in `d`. -/
def Untouched (f : Fmt) (keys : List Str) : (r : Row) → r.prod → r.prod → Prop
  | .nil, _, _ => True
  | .cons l _ t r, (d : t.den × r.prod), (x : t.den × r.prod) =>
    (l ∉ keys → t.keepsAbsent f = true → x.1 = d.1) ∧ Untouched f keys r d.2 x.2

theorem PatchedTo.untouched (r : Row) (ms : List (Str × J)) (d x : r.prod) (h : PatchedTo e f r ms d x) :
    Untouched f (ms.map Prod.fst) r d x := by
  match r, d, x with
  | .nil, _, _ => trivial
  | .cons l i t r, d, x =>
    refine ⟨fun hl hk => ?_, PatchedTo.untouched r ms d.2 x.2 h.2⟩
    have h1 := h.1
    rw [find_none hl, patch_absent t hk] at h1
    exact (Except.ok.inj h1).symm

/-- The fields picked by `pick` from `y`, the rest from `d`. -/
def mix (pick : Str → Bool) : (r : Row) → r.prod → r.prod → r.prod
  | .nil, d, _ => d
  | .cons l _ t r, (d : t.den × r.prod), (y : t.den × r.prod) => (if pick l then y.1 else d.1, mix pick r d.2 y.2)

/-- Every field that is not picked keeps when absent. -/
def RestKeeps (f : Fmt) (pick : Str → Bool) : Row → Prop
  | .nil => True
  | .cons l _ t r => (pick l = false → t.keepsAbsent f = true) ∧ RestKeeps f pick r

theorem find_filter (pick : Str → Bool) (k : Str) (ms : List (Str × J)) :
    find k (ms.filter fun m => pick m.1) = if pick k then find k ms else none := by
  induction ms with
  | nil => simp [find]
  | cons a ms ih =>
    obtain ⟨k', j⟩ := a
    by_cases hk : k' = k
    · subst hk
      cases hp : pick k' with
      | true => simp [List.filter_cons, hp, find]
      | false => simpa [List.filter_cons, hp, find] using ih
    · cases hp : pick k' with
      | true => simp [List.filter_cons, hp, find, hk, ih]
      | false => simp [List.filter_cons, hp, find, hk, ih]

theorem desFields_mix (hw : fs = .current ∨ fs = .javaScript) (hr : Reads fs f) (he : FloatOk e) (pick : Str → Bool)
    (r : Row) (d y : r.prod) (ok : RowOk fs f r) (g : GoodRow e r y) (ms : List (Str × J)) (hf : FieldsIn e fs r y ms)
    (hk : RestKeeps f pick r) :
    desFields e ⟨f, true⟩ r (ms.filter fun m => pick m.1) d = .ok (mix pick r d y) := by
  match r, d, y with
  | .nil, _, _ => rfl
  | .cons l i t r, d, y =>
    have h2 := desFields_mix hw hr he pick r d.2 y.2 ok.2 g.2 ms hf.2 hk.2
    have h1 : des e ⟨f, true⟩ t (find l (ms.filter fun m => pick m.1)) d.1 = .ok (if pick l then y.1 else d.1) := by
      rw [find_filter]
      cases hp : pick l with
      | true =>
        simp only [if_true]
        rw [hf.1]
        exact (rt hr (fun _ => hw) he t y.1 ok.1 g.1).1 d.1
      | false =>
        simp only [Bool.false_eq_true, if_false]
        exact patch_absent t (hk.1 hp) d.1
    simp only [desFields, h1, h2]
    rfl

end Current.Json
