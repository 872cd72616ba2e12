import Verif.Json.Patch
/-!
Theorems about `JSON()`, `ParseJSON()` and `PatchObjectWithJSON()` on documents: C62 (round trip), C63 (the destination is
overwritten), C64 (patching); and the cases where the behaviour is not what one would expect.
-/
namespace Current.Json
open Current.Persist (Str dec)

/-! ### C62 -/

/-- **C62.** Whatever is written by `JSON<fs>(x)` is read back as `x` by `ParseJSON<T, fp>`, into any object, for every type and every
value that meets the conditions, for the same format on both sides, and for the `Minimalistic` and `JavaScript` parsers on
what any of `Current`, `Minimalistic`, `JavaScript` has written. -/
theorem parse_of_json (e : Env) (he : FloatOk e) {fs fp : Fmt} (hr : Reads fs fp) (t : Ty) (ok : TyOk fs fp t) (x : t.den)
    (g : Good e t x) (d : t.den) : parseDoc e fp t (toDoc e fs t x) d = .ok x :=
  (rt hr (fun h => by cases h) he t x ok g).2.1 d

/-- **C62.** Two different values never have the same JSON. -/
theorem json_injective (e : Env) (he : FloatOk e) (f : Fmt) (t : Ty) (ok : TyOk f f t) (x y : t.den) (gx : Good e t x)
    (gy : Good e t y) (h : toDoc e f t x = toDoc e f t y) : x = y := by
  have h1 := parse_of_json e he (.inl rfl) t ok x gx x
  have h2 := parse_of_json e he (.inl rfl) t ok y gy x
  rw [h, h2] at h1
  exact (Except.ok.inj h1).symm

/-! ### C63 -/

/-- **C63.** In the `Current` and F# formats, the result of `ParseJSON(json, object)` — the value, or the exception — does not depend on
what the object held before. -/
theorem parse_overwrites (e : Env) (f : Fmt) (hf : f = .current ∨ f = .fSharp) (t : Ty) (j : J) (d d' : t.den) :
    parseDoc e f t j d = parseDoc e f t j d' := des_indep hf t (some j) d d'

/-- In the other two it does: a `Variant` left out or null stays as it was. -/
theorem parse_keeps_variant (e : Env) (f : Fmt) (hf : f = .minimalistic ∨ f = .javaScript) (cs : Row) (d : Option cs.sum) :
    parseDoc e f (.variant cs) .null d = .ok d := by
  rcases hf with rfl | rfl <;> simp [parseDoc, des, J.isNull, Fmt.useNulls]

/-! ### C64 -/

/-- **C64.** After a patch that succeeded, every field that the patch does not mention holds what it held (but for the types of fields
excluded by `keepsAbsent`). -/
theorem patch_leaves_unmentioned (e : Env) (f : Fmt) (name : Str) (s o : Row) (d x : s.prod × o.prod) (ms : List (Str × J))
    (h : patchDoc e f (.struct name s o) d (.obj ms) = .ok x) :
    Untouched f (ms.map Prod.fst) s d.1 x.1 ∧ Untouched f (ms.map Prod.fst) o d.2 x.2 := by
  simp only [patchDoc, des, onValue, asObject] at h
  cases h1 : desFields e ⟨f, true⟩ s ms d.1 with
  | error er => rw [h1] at h; cases h
  | ok y =>
    rw [h1] at h
    simp only at h
    cases h2 : desFields e ⟨f, true⟩ o ms d.2 with
    | error er => rw [h2] at h; cases h
    | ok z =>
      rw [h2] at h
      cases h
      exact ⟨(desFields_patched s ms d.1 y h1).untouched, (desFields_patched o ms d.2 z h2).untouched⟩

/-- **C64.** A patch made of some of the fields of `y` changes those fields, to what they are in `y`, and no other. -/
theorem patch_sets_mentioned (e : Env) (he : FloatOk e) {fs f : Fmt} (hw : fs = .current ∨ fs = .javaScript)
    (hr : Reads fs f) (name : Str) (s o : Row) (ok : TyOk fs f (.struct name s o)) (d y : s.prod × o.prod)
    (g : Good e (.struct name s o) y) (pick : Str → Bool) (hs : RestKeeps f pick s) (ho : RestKeeps f pick o)
    (ms : List (Str × J)) (hj : toDoc e fs (.struct name s o) y = .obj ms) :
    patchDoc e f (.struct name s o) d (.obj (ms.filter fun m => pick m.1)) =
      .ok (mix pick s d.1 y.1, mix pick o d.2 y.2) := by
  have hms : ms = serFields e fs s y.1 ++ serFields e fs o y.2 := by
    simp only [toDoc, ser, Option.getD_some] at hj
    injection hj with hj
    exact hj.symm
  have hf := fieldsIn_struct (e := e) (fs := fs) s o y ok.2.2
  rw [← hms] at hf
  have h1 := desFields_mix hw hr he pick s d.1 y.1 ok.1 g.1 ms hf.1 hs
  have h2 := desFields_mix hw hr he pick o d.2 y.2 ok.2.1 g.2 ms hf.2 ho
  simp only [patchDoc, des, onValue, asObject, h1, h2]

/-- **C64.** A patch that is the whole JSON of `y` makes the object equal `y`. -/
theorem patch_with_whole (e : Env) (he : FloatOk e) {fs f : Fmt} (hw : fs = .current ∨ fs = .javaScript)
    (hr : Reads fs f) (t : Ty) (ok : TyOk fs f t) (d y : t.den) (g : Good e t y) :
    patchDoc e f t d (toDoc e fs t y) = .ok y :=
  (rt hr (fun _ => hw) he t y ok g).2.1 d

/-- **C64.** An empty patch changes nothing. -/
theorem patch_empty (e : Env) (f : Fmt) (name : Str) (s o : Row) (d : s.prod × o.prod) (hs : RestKeeps f (fun _ => false) s)
    (ho : RestKeeps f (fun _ => false) o) : patchDoc e f (.struct name s o) d (.obj []) = .ok d := by
  have key : ∀ (r : Row) (d : r.prod), RestKeeps f (fun _ => false) r → desFields e ⟨f, true⟩ r [] d = .ok d := by
    intro r
    induction r using Row.rec (motive_1 := fun _ => True) with
    | nil => intro d _; rfl
    | cons l i t r _ ih =>
      intro d hk
      have h1 := patch_absent (e := e) t (hk.1 rfl) d.1
      have h2 := ih d.2 hk.2
      simp only [desFields, find, h1, h2]
      rfl
    | _ => trivial
  simp only [patchDoc, des, onValue, asObject, key s d.1 hs, key o d.2 ho]

/-! ### What a patch does to the fields it does not mention, for the excluded types -/

/-- A set is emptied. -/
theorem patch_clears_absent_set (e : Env) (f : Fmt) (t : Ty) (d : (Ty.set t).den) :
    des e ⟨f, true⟩ (.set t) none d = .ok ([] : List t.den) := by
  simp [des, onValue]

/-- A map makes the patch fail. -/
theorem patch_fails_on_absent_map (e : Env) (f : Fmt) (k v : Ty) (d : (Ty.smap v).den) (d' : (Ty.map k v).den) :
    des e ⟨f, true⟩ (.smap v) none d = .error .schema ∧ des e ⟨f, true⟩ (.map k v) none d' = .error .schema := by
  simp [des, onValue]

/-- A `Variant` makes the patch fail in the `Current` format. -/
theorem patch_fails_on_absent_variant (e : Env) (cs : Row) (d : (Ty.variant cs).den) :
    des e ⟨.current, true⟩ (.variant cs) none d = .error .uninit := by
  simp [des, Fmt.useNulls]

/-- So a struct with any such field anywhere in it cannot be patched by an object that leaves the field out: the fields before it are
irrelevant. -/
theorem patch_struct_with_map_fails (e : Env) (f : Fmt) (name l : Str) (i : Nat) (v : Ty) (o : Row)
    (d : (Row.cons l i (.smap v) o).prod) :
    patchDoc e f (.struct name .nil (.cons l i (.smap v) o)) ((), d) (.obj []) = .error .schema := by
  simp [patchDoc, des, onValue, asObject, desFields, find]

/-! ### What is lost -/

/-- An `Optional` inside an `Optional`: no value, and a value that is no value, have the same JSON (not in the F# format). -/
theorem nested_optional_lost (e : Env) (f : Fmt) (hf : f ≠ .fSharp) (t : Ty) :
    toDoc e f (.opt (.opt t)) (some none) = toDoc e f (.opt (.opt t)) none := by
  cases f <;> simp [toDoc, ser] at hf ⊢

/-- F# format: a case with inherited fields only is written with no fields, and comes back default-constructed. -/
theorem fsharp_inherited_fields_lost (e : Env) (name l n : Str) (i : Nat) (s rest : Row) (x : s.prod)
    (hl : l ∉ rest.labels) (d : (Ty.variant (.cons l i (.struct n s .nil) rest)).den) :
    parseDoc e .fSharp (.variant (.cons l i (.struct n s .nil) rest))
      (toDoc e .fSharp (.variant (.cons l i (.struct n s .nil) rest)) (some (.inl (x, ())))) d =
      .ok (some (.inl (e.dflt (.struct n s .nil)))) := by
  have hm : desCase e ⟨.fSharp, false⟩ rest (.name l) [(kCase, .str l)] = none := desCase_miss _ _ _ hl
  have h1 : toDoc e .fSharp (.variant (.cons l i (.struct n s .nil) rest)) (some (.inl (x, ()))) =
      .obj [(kCase, .str l)] := rfl
  rw [h1, parseDoc]
  simp only [des, J.isNull, Bool.false_eq_true, if_false, asObject, find, if_true, asString, desCase, hm, Key.hits,
    decide_true, Ty.isEmptyStruct]
  simp [kCase, kFields]

/-- A `Variant` holding nothing is written as null and not read back: `JSONUninitializedVariantObjectException`. -/
theorem uninitialized_variant_unreadable (e : Env) (f : Fmt) (hf : f = .current ∨ f = .fSharp) (cs : Row)
    (d : (Ty.variant cs).den) :
    parseDoc e f (.variant cs) (toDoc e f (.variant cs) none) d = .error .uninit := by
  rcases hf with rfl | rfl <;> simp [parseDoc, toDoc, ser, des, J.isNull, Fmt.useNulls]

/-! ### Input that does not fit the type -/

/-- A number too large for a narrow unsigned field is accepted, and its low bits kept. -/
theorem parse_truncates (e : Env) (f : Fmt) (w n : Nat) (hn : n < 2 ^ 64) (d : BitVec w) :
    parseDoc e f (.uint w) (.int n) d = .ok (BitVec.ofNat w n) := by
  have h : asUint64 (.int n) = some n := by
    simp only [asUint64]
    rw [if_pos (by omega)]
    simp
  simp only [parseDoc, des]
  exact onValue_some (α := BitVec w) false asUint64 d _ h

/-- A negative number is never accepted for an unsigned field. -/
theorem parse_rejects_negative (e : Env) (f : Fmt) (w : Nat) (i : Int) (hi : i < 0) (d : BitVec w) :
    parseDoc e f (.uint w) (.int i) d = .error .schema := by
  have h : asUint64 (.int i) = none := by
    simp only [asUint64]
    rw [if_neg (by omega)]
  simp [parseDoc, des, onValue, h]

/-- A JSON array shorter than the `std::array` makes RapidJSON's assertion fail, whatever its elements, if they parse. -/
theorem parse_short_array (e : Env) (f : Fmt) (n : Nat) (t : Ty) (js : List J) (hl : js.length < n)
    (hp : ∀ j ∈ js, ∀ d, ∃ x, des e ⟨f, false⟩ t (some j) d = .ok x) (d : Fin n → t.den) :
    parseDoc e f (.arr n t) (.arr js) d = .error .assertion := by
  have key : ∀ (n : Nat) (js : List J), js.length < n → (∀ j ∈ js, ∀ d, ∃ x, des e ⟨f, false⟩ t (some j) d = .ok x) →
      ∀ d, desFin (fun j x => des e ⟨f, false⟩ t (some j) x) n js d = .error .assertion := by
    intro n
    induction n with
    | zero => intro js h; omega
    | succ n ih =>
      intro js h hp d
      cases js with
      | nil => rfl
      | cons j js =>
        obtain ⟨x, hx⟩ := hp j (List.mem_cons_self ..) (d 0)
        simp only [List.length_cons] at h
        have := ih js (by omega) (fun j hj => hp j (List.mem_cons_of_mem _ hj)) (fun i => d i.succ)
        simp only [desFin, hx, this]
  simp only [parseDoc, des]
  exact (onValue_some (α := Fin n → t.den) false asArray d _ rfl).trans (key n js hl hp d)

/-- Elements of a JSON array past the size of the `std::array` are ignored. -/
theorem parse_long_array (e : Env) (f : Fmt) (n : Nat) (t : Ty) (js extra : List J) (hl : js.length = n) (d : Fin n → t.den) :
    parseDoc e f (.arr n t) (.arr (js ++ extra)) d = parseDoc e f (.arr n t) (.arr js) d := by
  have key : ∀ (n : Nat) (js : List J), js.length = n →
      ∀ d, desFin (fun j x => des e ⟨f, false⟩ t (some j) x) n (js ++ extra) d =
        desFin (fun j x => des e ⟨f, false⟩ t (some j) x) n js d := by
    intro n
    induction n with
    | zero => intro js h d; rfl
    | succ n ih =>
      intro js h d
      cases js with
      | nil => simp at h
      | cons j js =>
        simp only [List.length_cons] at h
        have := ih js (by omega) (fun i => d i.succ)
        simp only [List.cons_append, desFin, this]
  simp only [parseDoc, des, onValue, asArray]
  exact key n js hl d

/-- Patching an `Optional` struct resets the fields that the patch does not mention: the patch is applied to a default-constructed
object, not to the one held. -/
theorem patch_optional_restarts (e : Env) (f : Fmt) (t : Ty) (j : J) (hj : j.isNull = false) (d d' : Option t.den) :
    patchDoc e f (.opt t) d j = patchDoc e f (.opt t) d' j := by
  simp [patchDoc, des, hj]

/-- Patching a `std::map<std::string, V>`: the entries share one `V`, so what one entry does not mention is taken from what
was left, after a move, of the entry before it. Here `V` has the fields `x` and `y`, and the patch is
`{"a":{"x":1,"y":2},"b":{"x":3}}`: `b.y` is what remains of `a.y`. -/
theorem patch_map_leaks (e : Env) (f : Fmt) (hlt : e.lt .str ['a'] ['b'] = true) (d : List (Str × (Unit × (BitVec 8 × BitVec 8 × Unit)))) :
    let v : Ty := .struct ['V'] .nil (.cons ['x'] 0 (.uint 8) (.cons ['y'] 0 (.uint 8) .nil))
    patchDoc e f (.smap v) d (.obj [(['a'], .obj [(['x'], .int 1), (['y'], .int 2)]), (['b'], .obj [(['x'], .int 3)])]) =
      .ok [(['a'], ((), (1 : BitVec 8), (2 : BitVec 8), ())), (['b'], ((), (3 : BitVec 8), (e.moved v ((), (1 : BitVec 8), (2 : BitVec 8), ())).2.2.1, ()))] := by
  intro v
  simp only [v, patchDoc, des, onValue, asObject, desSMap, desFields, find, asUint64, insertOrd, hlt]
  rfl

/-! ### The hypotheses are met -/

mutual
def Ty.zero : (t : Ty) → t.den
  | .bool => false
  | .uint w => (0 : BitVec w)
  | .int w => (0 : BitVec w)
  | .enumU w => (0 : BitVec w)
  | .enumI w => (0 : BitVec w)
  | .chrono => (0 : BitVec 64)
  | .flt => (⟨0⟩ : Flt)
  | .dbl => (⟨0⟩ : Dbl)
  | .str => ([] : Str)
  | .tid => (0 : BitVec 64)
  | .vec t => ([] : List t.den)
  | .arr n t => fun _ : Fin n => Ty.zero t
  | .pair a b => (Ty.zero a, Ty.zero b)
  | .tup r => Row.zero r
  | .set t => ([] : List t.den)
  | .smap v => ([] : List (Str × v.den))
  | .map k v => ([] : List (k.den × v.den))
  | .opt t => (none : Option t.den)
  | .struct _ s o => (Row.zero s, Row.zero o)
  | .variant cs => (none : Option cs.sum)
def Row.zero : (r : Row) → r.prod
  | .nil => ()
  | .cons _ _ t r => (Ty.zero t, Row.zero r)
end

def ltStr : Str → Str → Bool
  | [], [] => false
  | [], _ :: _ => true
  | _ :: _, [] => false
  | a :: s, b :: t => if a = b then ltStr s t else a.toNat < b.toNat

/-- An environment for the examples. -/
def demoEnv : Env where
  dflt := Ty.zero
  moved := fun _ x => x
  lt := fun t a b =>
    match t, a, b with
    | .str, a, b => ltStr a b
    | .uint w, (a : BitVec w), (b : BitVec w) => a.toNat < b.toNat
    | _, _, _ => false
  i2d := fun i => ⟨BitVec.ofInt 64 i⟩
  f2d := fun x => ⟨x.bits.zeroExtend 64⟩
  d2f := fun x => ⟨x.bits.truncate 32⟩

theorem demoEnv_float : FloatOk demoEnv := by
  intro ⟨x⟩
  show Flt.mk ((x.zeroExtend 64).truncate 32) = _
  congr 1
  simp

/-- `struct Base { uint8_t n; }; struct Derived : Base { std::vector<Optional<std::string>> v; std::map<std::string, int64_t> m;
Variant<A, B> w; std::set<uint16_t> s; };` -/
def demoTy : Ty :=
  .struct ['D'] (.cons ['n'] 0 (.uint 8) .nil)
    (.cons ['v'] 0 (.vec (.opt .str))
      (.cons ['m'] 0 (.smap (.int 64))
        (.cons ['w'] 0 (.variant (.cons ['A'] 7 (.struct ['A'] .nil (.cons ['x'] 0 .bool .nil))
            (.cons ['B'] 8 (.struct ['B'] .nil .nil) .nil)))
          (.cons ['s'] 0 (.set (.uint 16)) .nil))))

def demoVal : demoTy.den :=
  (((200 : BitVec 8), ()), ([some ['h', 'i'], none], [(['a'], (-5 : BitVec 64)), (['b'], (6 : BitVec 64))],
    some (.inl ((), (true, ()))), [(3 : BitVec 16), (700 : BitVec 16)], ()))

theorem demo_ok (fs fp : Fmt) : TyOk fs fp demoTy := by
  simp [demoTy, TyOk, RowOk, Row.labels, Row.ids, Row.noneOnlyInherits, Ty.onlyInherits, Ty.isOpt]

theorem demo_good : Good demoEnv demoTy demoVal := by
  refine ⟨⟨trivial, trivial⟩, ?_, ?_, ?_, ?_, trivial⟩
  · intro x hx y hy; trivial
  · exact ⟨by simp [demoVal, demoEnv, ltStr], fun x _ => trivial⟩
  · exact ⟨_, rfl, trivial, trivial, trivial⟩
  · refine ⟨?_, fun x _ => trivial⟩
    simp only [demoVal, demoEnv]
    exact List.Pairwise.cons (fun b hb => by cases hb with | head => rfl | tail _ h => cases h) (List.pairwise_singleton _ _)

/-- The JSON of the example, in two formats: `{"n":200,"v":["hi",null],"m":{"a":-5,"b":6},"w":{"A":{"x":true},"":"T7"},"s":[3,700]}`… -/
example : toDoc demoEnv .current demoTy demoVal = .obj [(['n'], .int 200), (['v'], .arr [.str ['h', 'i'], .null]),
    (['m'], .obj [(['a'], .int (-5)), (['b'], .int 6)]),
    (['w'], .obj [(['A'], .obj [(['x'], .bool true)]), ([], .str ['T', '7'])]), (['s'], .arr [.int 3, .int 700])] := rfl

/-- … and it is read back by two parsers. -/
example (d : demoTy.den) : parseDoc demoEnv .current demoTy (toDoc demoEnv .current demoTy demoVal) d = .ok demoVal :=
  parse_of_json demoEnv demoEnv_float (.inl rfl) demoTy (demo_ok _ _) demoVal demo_good d
example (d : demoTy.den) : parseDoc demoEnv .minimalistic demoTy (toDoc demoEnv .current demoTy demoVal) d = .ok demoVal :=
  parse_of_json demoEnv demoEnv_float (.inr ⟨.inl rfl, by decide⟩) demoTy (demo_ok _ _) demoVal demo_good d

/-- The patch hypotheses are met: patch only `n` and `v` and the set. -/
example (d : demoTy.den) (ms : List (Str × J)) (h : toDoc demoEnv .current demoTy demoVal = .obj ms) :
    ∃ x, patchDoc demoEnv .current demoTy d (.obj (ms.filter fun m => m.1 != ['n'])) = .ok x ∧ x.1.1 = d.1.1 ∧
      x.2 = demoVal.2 := by
  refine ⟨_, patch_sets_mentioned demoEnv demoEnv_float (.inl rfl) (.inl rfl) _ _ _ (demo_ok _ _) d demoVal demo_good
    (fun l => l != ['n']) ?_ ?_ ms h, rfl, rfl⟩
  · exact ⟨fun _ => rfl, trivial⟩
  · refine ⟨?_, ?_, ?_, ?_, trivial⟩ <;> intro h <;> simp at h

end Current.Json
