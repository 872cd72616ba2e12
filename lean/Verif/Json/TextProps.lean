import Verif.Json.Writer
import Verif.Json.Props
/-!
`JSON()` and `ParseJSON()` on strings: C62 end to end, C65 (what the reader accepts), C66 (what the writer writes).
-/
namespace Current.Json
open Current.Persist (Str dec decInt)

mutual
/-- Every `double` and `float` in a value is read from JSON as it was written. -/
def FloatsOk (e : Env) (fp : Fp) : (t : Ty) → t.den → Prop
  | .dbl, (d : Dbl) => DblOk fp d
  | .flt, (d : Flt) => DblOk fp (e.f2d d)
  | .vec t, (l : List t.den) => ∀ x ∈ l, FloatsOk e fp t x
  | .arr _ t, v => ∀ i, FloatsOk e fp t (v i)
  | .pair a b, (x : a.den × b.den) => FloatsOk e fp a x.1 ∧ FloatsOk e fp b x.2
  | .tup r, (x : r.prod) => FloatsOkRow e fp r x
  | .set t, (l : List t.den) => ∀ x ∈ l, FloatsOk e fp t x
  | .smap v, (l : List (Str × v.den)) => ∀ x ∈ l, FloatsOk e fp v x.2
  | .map k v, (l : List (k.den × v.den)) => ∀ x ∈ l, FloatsOk e fp k x.1 ∧ FloatsOk e fp v x.2
  | .opt t, (x : Option t.den) => ∀ y, x = some y → FloatsOk e fp t y
  | .struct _ s o, (x : s.prod × o.prod) => FloatsOkRow e fp s x.1 ∧ FloatsOkRow e fp o x.2
  | .variant cs, (x : Option cs.sum) => ∀ y, x = some y → FloatsOkCase e fp cs y
  | _, _ => True
def FloatsOkRow (e : Env) (fp : Fp) : (r : Row) → r.prod → Prop
  | .nil, _ => True
  | .cons _ _ t r, (x : t.den × r.prod) => FloatsOk e fp t x.1 ∧ FloatsOkRow e fp r x.2
def FloatsOkCase (e : Env) (fp : Fp) : (r : Row) → r.sum → Prop
  | .nil, _ => True
  | .cons _ _ t r, (x : t.den ⊕ r.sum) =>
    match x with
    | .inl y => FloatsOk e fp t y
    | .inr z => FloatsOkCase e fp r z
end

theorem jOkAll_iff {fp : Fp} {l : List J} : JOkAll fp l ↔ ∀ j ∈ l, JOk fp j := by
  induction l with
  | nil => simp [JOkAll]
  | cons j l ih => simp [JOkAll, ih]

theorem jOkMembers_iff {fp : Fp} {m : List (Str × J)} : JOkMembers fp m ↔ ∀ p ∈ m, JOk fp p.2 := by
  induction m with
  | nil => simp [JOkMembers]
  | cons p m ih => simp [JOkMembers, ih]

theorem inRange_toNat {w : Nat} (hw : w ≤ 64) (v : BitVec w) : InRange (v.toNat : Int) := by
  have h1 := v.isLt
  have h2 : 2 ^ w ≤ 2 ^ 64 := Nat.pow_le_pow_right (by omega) hw
  unfold InRange
  omega

theorem inRange_toInt {w : Nat} (hw : w ≤ 64) (v : BitVec w) : InRange v.toInt := by
  have h1 := v.isLt
  have h2 : 2 ^ w ≤ 2 ^ 64 := Nat.pow_le_pow_right (by omega) hw
  unfold InRange
  have := v.toInt_lt
  have := v.le_toInt
  have h3 : (2 : Int) ^ (w - 1) ≤ 2 ^ 63 := by
    have : 2 ^ (w - 1) ≤ 2 ^ 63 := Nat.pow_le_pow_right (by omega) (by omega)
    exact_mod_cast this
  omega

theorem getD_ok {fp : Fp} {o : Option J} (h : ∀ j, o = some j → JOk fp j) : JOk fp (o.getD .null) := by
  cases o with
  | none => simp [JOk]
  | some j => exact h j rfl

variable {e : Env} {fp : Fp} {f fs f' : Fmt}

mutual
theorem ser_jok : ∀ (t : Ty) (x : t.den), TyOk fs f' t → FloatsOk e fp t x → ∀ j, ser e f t x = some j → JOk fp j
  | .bool, _, _, _, j, h => by simp only [ser, Option.some.injEq] at h; subst h; simp [JOk]
  | .uint w, v, ok, _, j, h => by
    simp only [ser, Option.some.injEq] at h; subst h; simp only [JOk]; exact inRange_toNat ok v
  | .int w, v, ok, _, j, h => by
    simp only [ser, Option.some.injEq] at h; subst h; simp only [JOk]; exact inRange_toInt ok v
  | .enumU w, v, ok, _, j, h => by
    simp only [ser, Option.some.injEq] at h; subst h; simp only [JOk]; exact inRange_toNat ok v
  | .enumI w, v, ok, _, j, h => by
    simp only [ser, Option.some.injEq] at h; subst h; simp only [JOk]; exact inRange_toInt ok v
  | .chrono, v, _, _, j, h => by
    simp only [ser, Option.some.injEq] at h; subst h; simp only [JOk]; exact inRange_toInt (Nat.le_refl _) v
  | .flt, v, _, hf, j, h => by
    simp only [ser, Option.some.injEq] at h; subst h; simp only [JOk]; exact hf
  | .dbl, v, _, hf, j, h => by
    simp only [ser, Option.some.injEq] at h; subst h; simp only [JOk]; exact hf
  | .str, _, _, _, j, h => by simp only [ser, Option.some.injEq] at h; subst h; simp [JOk]
  | .tid, _, _, _, j, h => by simp only [ser, Option.some.injEq] at h; subst h; simp [JOk]
  | .vec t, l, ok, hf, j, h => by
    simp only [ser, Option.some.injEq] at h; subst h
    simp only [JOk, jOkAll_iff]
    intro j hj
    obtain ⟨x, hx, rfl⟩ := List.mem_map.1 hj
    exact getD_ok (ser_jok t x ok (hf x hx))
  | .arr n t, v, ok, hf, j, h => by
    simp only [ser, Option.some.injEq] at h; subst h
    simp only [JOk, jOkAll_iff]
    intro j hj
    obtain ⟨x, hx, rfl⟩ := List.mem_map.1 hj
    obtain ⟨i, rfl⟩ := List.mem_ofFn.1 hx
    exact getD_ok (ser_jok t _ ok (hf i))
  | .pair a b, x, ok, hf, j, h => by
    have h1 := getD_ok (ser_jok a x.1 ok.1 hf.1)
    have h2 := getD_ok (ser_jok b x.2 ok.2 hf.2)
    simp only [ser] at h
    by_cases hfs : f = .fSharp
    · rw [if_pos hfs] at h; cases h; simp [JOk, JOkMembers, h1, h2]
    · rw [if_neg hfs] at h; cases h; simp [JOk, JOkAll, h1, h2]
  | .tup r, x, ok, hf, j, h => by
    simp only [ser, Option.some.injEq] at h; subst h
    simp only [JOk]
    exact serTuple_jok r x ok hf
  | .set t, l, ok, hf, j, h => by
    simp only [ser, Option.some.injEq] at h; subst h
    simp only [JOk, jOkAll_iff]
    intro j hj
    obtain ⟨x, hx, rfl⟩ := List.mem_map.1 hj
    exact getD_ok (ser_jok t x ok (hf x hx))
  | .smap v, l, ok, hf, j, h => by
    simp only [ser, Option.some.injEq] at h; subst h
    simp only [JOk, jOkMembers_iff]
    intro p hp
    obtain ⟨x, hx, rfl⟩ := List.mem_map.1 hp
    exact getD_ok (ser_jok v x.2 ok (hf x hx))
  | .map k v, l, ok, hf, j, h => by
    simp only [ser, Option.some.injEq] at h; subst h
    simp only [JOk, jOkAll_iff]
    intro p hp
    obtain ⟨x, hx, rfl⟩ := List.mem_map.1 hp
    have h1 := getD_ok (ser_jok k x.1 ok.1 (hf x hx).1)
    have h2 := getD_ok (ser_jok v x.2 ok.2 (hf x hx).2)
    simp [JOk, JOkAll, h1, h2]
  | .opt t, x, ok, hf, j, h => by
    cases x with
    | some y =>
      have h1 := ser_jok t y ok.1 (hf y rfl)
      simp only [ser] at h
      by_cases hfs : f = .fSharp
      · rw [if_pos hfs] at h; cases h
        simp [JOk, JOkMembers, JOkAll, getD_ok h1]
      · rw [if_neg hfs] at h
        exact h1 j h
    | none =>
      simp only [ser] at h
      split at h
      · cases h
      · cases h; simp [JOk]
  | .struct _ s o, x, ok, hf, j, h => by
    simp only [ser, Option.some.injEq] at h; subst h
    have h1 := serFields_jok s x.1 ok.1 hf.1
    have h2 := serFields_jok o x.2 ok.2.1 hf.2
    rw [jOkMembers_iff] at h1 h2
    simp only [JOk, jOkMembers_iff, List.mem_append]
    rintro p (hp | hp)
    · exact h1 p hp
    · exact h2 p hp
  | .variant cs, x, ok, hf, j, h => by
    cases x with
    | some y =>
      simp only [ser, Option.some.injEq] at h; subst h
      simp only [JOk]
      exact serCase_jok cs y ok.1 (hf y rfl)
    | none =>
      simp only [ser] at h
      split at h
      · cases h; simp [JOk]
      · cases h
theorem serFields_jok : ∀ (r : Row) (x : r.prod), RowOk fs f' r → FloatsOkRow e fp r x → JOkMembers fp (serFields e f r x)
  | .nil, _, _, _ => by simp [serFields, JOkMembers]
  | .cons l i t r, x, ok, hf => by
    have h1 := ser_jok t x.1 ok.1 hf.1
    have h2 := serFields_jok r x.2 ok.2 hf.2
    simp only [serFields]
    cases hs : ser e f t x.1 with
    | none => exact h2
    | some j => simp only [JOkMembers]; exact ⟨h1 j hs, h2⟩
theorem serTuple_jok : ∀ (r : Row) (x : r.prod), RowOk fs f' r → FloatsOkRow e fp r x → JOkAll fp (serTuple e f r x)
  | .nil, _, _, _ => by simp [serTuple, JOkAll]
  | .cons l i t r, x, ok, hf => by
    have h1 := ser_jok t x.1 ok.1 hf.1
    have h2 := serTuple_jok r x.2 ok.2 hf.2
    simp only [serTuple, JOkAll]
    exact ⟨getD_ok h1, h2⟩
theorem serCase_jok : ∀ (r : Row) (x : r.sum), RowOk fs f' r → FloatsOkCase e fp r x → JOkMembers fp (serCase e f r x)
  | .nil, x, _, _ => nomatch (x : Empty)
  | .cons l i t r, x, ok, hf => by
    cases x with
    | inl y =>
      have h1 := getD_ok (ser_jok t y ok.1 hf)
      simp only [serCase]
      cases f with
      | current => simp [JOkMembers, JOk, h1]
      | minimalistic => simp [JOkMembers, h1]
      | javaScript => simp [JOkMembers, JOk, h1]
      | fSharp =>
        simp only
        split
        · simp [JOkMembers, JOk]
        · simp [JOkMembers, JOk, JOkAll, h1]
    | inr z =>
      simp only [serCase]
      exact serCase_jok r z ok.2 hf
end

theorem toDoc_jok (t : Ty) (x : t.den) (ok : TyOk fs f' t) (hf : FloatsOk e fp t x) : JOk fp (toDoc e f t x) :=
  getD_ok (ser_jok t x ok hf)

/-! ### C65 -/

/-- **C65.** `ParseJSON` reports a parse error if and only if the text is not JSON by RFC 8259 (or it is, but some number in it is too
big for a `double`). What it looks at ends at the first zero byte. -/
theorem parse_error_iff (fp : Fp) (s : Str) : parseText fp s = none ↔ ∀ j, ¬ IsText fp (cString s) j := by
  constructor
  · intro h j hj
    rw [(parseText_iff fp s j).2 hj] at h
    cases h
  · intro h
    cases hp : parseText fp s with
    | none => rfl
    | some j => exact absurd ((parseText_iff fp s j).1 hp) (h j)

/-- **C65.** White space around a text, and around the separators in it, does not matter: the grammar has it anywhere. -/
theorem parse_ignores_outer_space (fp : Fp) (w s w' : Str) (hw : Ws w) (hw' : Ws w') (hs : '\x00' ∉ s) (j : J)
    (h : parseText fp s = some j) : parseText fp (w ++ (s ++ w')) = some j := by
  rw [parseText_iff, cString_eq hs] at h
  have h0 : ∀ u, Ws u → '\x00' ∉ u := by
    intro u hu hm
    rcases hu _ hm with h | h | h | h <;> revert h <;> decide
  rw [parseText_iff, cString_eq (by simp [hs, h0 w hw, h0 w' hw'])]
  obtain ⟨a, v, b, rfl, ha, hb, hv⟩ := h
  refine ⟨w ++ a, v, b ++ w', by simp, ?_, ?_, hv⟩
  · intro c hc
    rcases List.mem_append.1 hc with h | h
    · exact hw c h
    · exact ha c h
  · intro c hc
    rcases List.mem_append.1 hc with h | h
    · exact hb c h
    · exact hw' c h

/-! ### C66 -/

/-- **C66.** What `JSON()` writes is a JSON text by RFC 8259, that stands for the document. -/
theorem json_is_text (fp : Fp) (j : J) (h : JOk fp j) : IsText fp (resultingJSON fp j) j := by
  rw [resultingJSON_eq h]
  exact ⟨[], _, [], by simp, ws_nil, ws_nil, isValue_text fp j h⟩

/-- **C66.** It has no control characters: no line breaks, no tabs, no zeros. -/
theorem json_is_one_line (fp : Fp) (j : J) (h : JOk fp j) : OneLine (resultingJSON fp j) := by
  rw [resultingJSON_eq h]
  exact text_oneLine fp j h

/-- **C66.** The same for values of every type. -/
theorem toJSON_is_text (e : Env) (fp : Fp) (f : Fmt) (t : Ty) (x : t.den) (ok : TyOk f f t) (hf : FloatsOk e fp t x) :
    IsText fp (toJSON fp e f t x) (toDoc e f t x) ∧ OneLine (toJSON fp e f t x) :=
  ⟨json_is_text fp _ (toDoc_jok t x ok hf), json_is_one_line fp _ (toDoc_jok t x ok hf)⟩

/-- What is written is read as the same document. -/
theorem parseText_resultingJSON (fp : Fp) (j : J) (h : JOk fp j) : parseText fp (resultingJSON fp j) = some j := by
  rw [parseText_iff, cString_eq (oneLine_not_mem (json_is_one_line fp j h) (by decide))]
  exact json_is_text fp j h

/-! ### C62, end to end -/

/-- **C62.** Whatever string `JSON<fs>(x)` returns is read back as `x` by `ParseJSON<T, fp>`. -/
theorem parse_of_json_string (e : Env) (fp : Fp) (he : FloatOk e) {fs f : Fmt} (hr : Reads fs f) (t : Ty) (ok : TyOk fs f t) (x : t.den)
    (g : Good e t x) (hf : FloatsOk e fp t x) (d : t.den) : parseJSON fp e f t (toJSON fp e fs t x) d = .ok x := by
  unfold parseJSON toJSON
  rw [parseText_resultingJSON fp _ (toDoc_jok t x ok hf)]
  simp only [parse_of_json e he hr t ok x g d]

/-- **C62.** Two different values never have the same JSON string. -/
theorem json_string_injective (e : Env) (fp : Fp) (he : FloatOk e) (f : Fmt) (t : Ty) (ok : TyOk f f t) (x y : t.den) (gx : Good e t x)
    (gy : Good e t y) (fx : FloatsOk e fp t x) (fy : FloatsOk e fp t y) (h : toJSON fp e f t x = toJSON fp e f t y) : x = y := by
  have h1 := parse_of_json_string e fp he (.inl rfl) t ok x gx fx x
  have h2 := parse_of_json_string e fp he (.inl rfl) t ok y gy fy x
  rw [h, h2] at h1
  exact (Except.ok.inj h1).symm

end Current.Json
