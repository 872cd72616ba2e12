import Verif.Json.TextProps
import Verif.Replicate.Props
/-!
The file format and the replication protocol with the JSON of the model, in place of a codec that is only assumed to be lawful: the facts
`Codec.Lawful` and `Wire.Lawful`, on which the theorems about the log file and about replication rest, hold for `JSON()` and `ParseJSON()`.
-/
namespace Current.Json
open Current.Persist (Str dec decInt IdxTs Codec jsonPutIdx jsonGetIdx jsonGetIdx_jsonPutIdx)
open Current.Replicate (Wire jsonPutHead jsonGetHead jsonGetHead_put)

def kIndex : Str := ['i', 'n', 'd', 'e', 'x']
def kUs : Str := ['u', 's']

/-- `CURRENT_STRUCT(IndexAndTimestamp)` (`blocks/ss/idx_ts.h:48-54`). -/
def idxTy : Ty := .struct [] .nil (.cons kIndex 0 (.uint 64) (.cons kUs 0 .chrono .nil))
/-- `CURRENT_STRUCT(TimestampUsOnly)` (`blocks/ss/idx_ts.h:69-74`). -/
def headTy : Ty := .struct [] .nil (.cons kUs 0 .chrono .nil)
/-- `CURRENT_STRUCT(TimestampAndOptionalIndex)` (`blocks/ss/idx_ts.h:58-66`). -/
def optTy : Ty := .struct [] .nil (.cons kUs 0 .chrono (.cons kIndex 0 (.opt (.uint 64)) .nil))

def idxVal (x : IdxTs) : idxTy.den := ((), (BitVec.ofNat 64 x.index, BitVec.ofInt 64 x.us, ()))
def headVal (us : Int) : headTy.den := ((), (BitVec.ofInt 64 us, ()))

/-- What an `IndexAndTimestamp` of the C++ program can hold: a `uint64_t` and an `int64_t`. -/
def UsFits (us : Int) : Prop := -2 ^ 63 ≤ us ∧ us < 2 ^ 63
def Fits (x : IdxTs) : Prop := x.index < 2 ^ 64 ∧ UsFits x.us
instance (us : Int) : Decidable (UsFits us) := inferInstanceAs (Decidable (_ ∧ _))
instance (x : IdxTs) : Decidable (Fits x) := inferInstanceAs (Decidable (_ ∧ _))

theorem toInt_ofInt {us : Int} (h : UsFits us) : (BitVec.ofInt 64 us).toInt = us := by
  obtain ⟨h1, h2⟩ := h
  rw [BitVec.toInt_ofInt]
  simp only [Int.bmod_def]
  omega

theorem toNat_ofNat64 {n : Nat} (h : n < 2 ^ 64) : (BitVec.ofNat 64 n).toNat = n := by
  rw [BitVec.toNat_ofNat]; exact Nat.mod_eq_of_lt h

theorem idxDoc_eq (e : Env) (x : IdxTs) (h : Fits x) :
    toDoc e .current idxTy (idxVal x) = .obj [(kIndex, .int x.index), (kUs, .int x.us)] := by
  have h1 := toNat_ofNat64 h.1
  have h2 := toInt_ofInt h.2
  show J.obj [(kIndex, .int ((BitVec.ofNat 64 x.index).toNat : Int)), (kUs, .int (BitVec.ofInt 64 x.us).toInt)] = _
  rw [h1, h2]

theorem headDoc_eq (e : Env) (us : Int) (h : UsFits us) : toDoc e .current headTy (headVal us) = .obj [(kUs, .int us)] := by
  have h2 := toInt_ofInt h
  show J.obj [(kUs, .int (BitVec.ofInt 64 us).toInt)] = _
  rw [h2]

theorem usFits_inRange {us : Int} (h : UsFits us) : InRange us := by
  obtain ⟨h1, h2⟩ := h
  unfold InRange; omega

theorem idx_jok (fp : Fp) (x : IdxTs) (h : Fits x) : JOk fp (.obj [(kIndex, .int x.index), (kUs, .int x.us)]) := by
  obtain ⟨h1, h2⟩ := h
  simp only [JOk, JOkMembers, and_true]
  refine ⟨?_, usFits_inRange h2⟩
  unfold InRange; omega

theorem head_jok (fp : Fp) (us : Int) (h : UsFits us) : JOk fp (.obj [(kUs, .int us)]) := by
  simp only [JOk, JOkMembers, and_true]
  exact usFits_inRange h

theorem wIndex : writeString kIndex = ['"', 'i', 'n', 'd', 'e', 'x', '"'] := by decide
theorem wUs : writeString kUs = ['"', 'u', 's', '"'] := by decide

/-- `JSON(idxts_t)` of the model is the text the file format was modelled with. -/
theorem json_idx (fp : Fp) (e : Env) (x : IdxTs) (h : Fits x) : toJSON fp e .current idxTy (idxVal x) = jsonPutIdx x := by
  unfold toJSON
  rw [idxDoc_eq e x h, resultingJSON_eq (idx_jok fp x h)]
  simp only [text, textMembers, wIndex, wUs, jsonPutIdx, if_true]
  simp [decInt]

theorem json_head (fp : Fp) (e : Env) (us : Int) (h : UsFits us) : toJSON fp e .current headTy (headVal us) = jsonPutHead us := by
  unfold toJSON
  rw [headDoc_eq e us h, resultingJSON_eq (head_jok fp us h)]
  simp only [text, textMembers, wUs, jsonPutHead, if_true]
  simp

def idxOf (v : idxTy.den) : IdxTs :=
  let w : Unit × (BitVec 64 × BitVec 64 × Unit) := v
  ⟨w.2.1.toNat, w.2.2.1.toInt⟩
def headOf (v : headTy.den) : Int :=
  let w : Unit × (BitVec 64 × Unit) := v
  w.2.1.toInt
def optOf (v : optTy.den) : Option Nat × Int :=
  let w : Unit × (BitVec 64 × Option (BitVec 64) × Unit) := v
  (w.2.2.1.map BitVec.toNat, w.2.1.toInt)

/-- A thrown exception is `none`. -/
def okMap {α β ε : Type} (g : α → β) : Except ε α → Option β
  | .ok v => some (g v)
  | .error _ => none

theorem okMap_parse {fp : Fp} {e : Env} {f : Fmt} {t : Ty} {s : Str} {j : J} {d x : t.den} {β : Type} (g : t.den → β)
    (h1 : parseText fp s = some j) (h2 : parseDoc e f t j d = .ok x) : okMap g (parseJSON fp e f t s d) = some (g x) := by
  have : parseJSON fp e f t s d = .ok x := by
    unfold parseJSON
    rw [h1]
    simp only [h2]
  rw [this]; rfl

/-- `ParseJSON<idxts_t>`. -/
def realGetIdx (fp : Fp) (e : Env) (s : Str) : Option IdxTs :=
  okMap idxOf (parseJSON fp e .current idxTy s (e.dflt idxTy))
/-- `ParseJSON<ts_only_t>`. -/
def realGetHead (fp : Fp) (e : Env) (s : Str) : Option Int :=
  okMap headOf (parseJSON fp e .current headTy s (e.dflt headTy))
/-- `ParseJSON<ts_optidx_t>`. -/
def realGetOpt (fp : Fp) (e : Env) (s : Str) : Option (Option Nat × Int) :=
  okMap optOf (parseJSON fp e .current optTy s (e.dflt optTy))

theorem parse_idx_text (fp : Fp) (x : IdxTs) (h : Fits x) :
    parseText fp (jsonPutIdx x) = some (.obj [(kIndex, .int x.index), (kUs, .int x.us)]) := by
  have := parseText_resultingJSON fp _ (idx_jok fp x h)
  rwa [← idxDoc_eq demoEnv x h, show resultingJSON fp (toDoc demoEnv .current idxTy (idxVal x)) = jsonPutIdx x from json_idx fp demoEnv x h,
    idxDoc_eq demoEnv x h] at this

theorem parse_head_text (fp : Fp) (us : Int) (h : UsFits us) : parseText fp (jsonPutHead us) = some (.obj [(kUs, .int us)]) := by
  have := parseText_resultingJSON fp _ (head_jok fp us h)
  rwa [← headDoc_eq demoEnv us h, show resultingJSON fp (toDoc demoEnv .current headTy (headVal us)) = jsonPutHead us from json_head fp demoEnv us h,
    headDoc_eq demoEnv us h] at this

theorem asUint64_nat {n : Nat} (h : n < 2 ^ 64) : asUint64 (.int n) = some n := by
  simp only [asUint64]
  rw [if_pos (by omega)]
  simp

theorem asInt64_int {i : Int} (h : UsFits i) : asInt64 (.int i) = some i := by
  unfold UsFits at h
  simp only [asInt64]
  rw [if_pos h]

theorem idxOf_idxVal (x : IdxTs) (h : Fits x) : idxOf (idxVal x) = x := by
  have h1 := toNat_ofNat64 h.1
  have h2 := toInt_ofInt h.2
  show IdxTs.mk (BitVec.ofNat 64 x.index).toNat (BitVec.ofInt 64 x.us).toInt = x
  rw [h1, h2]

theorem headOf_headVal (us : Int) (h : UsFits us) : headOf (headVal us) = us := toInt_ofInt h

/-- The value of the third struct. -/
def optVal (o : Option Nat) (us : Int) : optTy.den := ((), (BitVec.ofInt 64 us, (o.map (BitVec.ofNat 64), ())))

theorem optOf_some (n : Nat) (hn : n < 2 ^ 64) (us : Int) (h : UsFits us) : optOf (optVal (some n) us) = (some n, us) := by
  have h1 := toNat_ofNat64 hn
  have h2 := toInt_ofInt h
  show (some (BitVec.ofNat 64 n).toNat, (BitVec.ofInt 64 us).toInt) = _
  rw [h1, h2]

theorem optOf_none (us : Int) (h : UsFits us) : optOf (optVal none us) = (none, us) := by
  have h2 := toInt_ofInt h
  show (none, (BitVec.ofInt 64 us).toInt) = _
  rw [h2]

theorem des_us (e : Env) (us : Int) (h : UsFits us) (d : (Ty.chrono).den) :
    des e ⟨.current, false⟩ .chrono (some (.int us)) d = .ok (BitVec.ofInt 64 us) := by
  simp only [des]
  exact onValue_some (α := BitVec 64) false asInt64 d _ (asInt64_int h)

theorem des_index (e : Env) (n : Nat) (h : n < 2 ^ 64) (d : (Ty.uint 64).den) :
    des e ⟨.current, false⟩ (.uint 64) (some (.int n)) d = .ok (BitVec.ofNat 64 n) := by
  simp only [des]
  exact onValue_some (α := BitVec 64) false asUint64 d _ (asUint64_nat h)

theorem des_opt {e : Env} {t : Ty} {j : J} {x : t.den} (h : des e ⟨.current, false⟩ t (some j) (e.dflt t) = .ok x) (hj : j.isNull = false)
    (d : (Ty.opt t).den) : des e ⟨.current, false⟩ (.opt t) (some j) d = .ok (some x) := by
  simp [des, hj, h]

theorem des_opt_none {e : Env} {t : Ty} (d : (Ty.opt t).den) : des e ⟨.current, false⟩ (.opt t) none d = .ok (none : Option t.den) := by
  simp [des]

theorem desFields_cons {e : Env} {m : Mode} {l : Str} {i : Nat} {t : Ty} {r : Row} {ms : List (Str × J)} {d : (Row.cons l i t r).prod} {x : t.den} {y : r.prod}
    (h1 : des e m t (find l ms) d.1 = .ok x) (h2 : desFields e m r ms d.2 = .ok y) : desFields e m (.cons l i t r) ms d = .ok (x, y) := by
  simp only [desFields, h1, h2]

theorem parseDoc_struct {e : Env} {o : Row} {ms : List (Str × J)} {d : (Ty.struct [] .nil o).den} {y : o.prod}
    (h : desFields e ⟨.current, false⟩ o ms d.2 = .ok y) : parseDoc e .current (.struct [] .nil o) (.obj ms) d = .ok ((), y) := by
  have h0 : desFields e ⟨.current, false⟩ .nil ms d.1 = .ok () := rfl
  simp only [parseDoc, des, onValue, asObject, h0, h]

theorem realGetIdx_put (fp : Fp) (e : Env) (x : IdxTs) (h : Fits x) : realGetIdx fp e (jsonPutIdx x) = some x := by
  have h1 : find kIndex [(kIndex, .int x.index), (kUs, J.int x.us)] = some (.int x.index) := by simp [find]
  have h2 : find kUs [(kIndex, .int x.index), (kUs, J.int x.us)] = some (.int x.us) := by simp [find, kIndex, kUs]
  have hp : parseDoc e .current idxTy (.obj [(kIndex, .int x.index), (kUs, .int x.us)]) (e.dflt idxTy) = .ok (idxVal x) :=
    parseDoc_struct (desFields_cons (by rw [h1]; exact des_index e _ h.1 _) (desFields_cons (by rw [h2]; exact des_us e _ h.2 _) rfl))
  exact (okMap_parse idxOf (parse_idx_text fp x h) hp).trans (congrArg some (idxOf_idxVal x h))

theorem realGetHead_put (fp : Fp) (e : Env) (us : Int) (h : UsFits us) : realGetHead fp e (jsonPutHead us) = some us := by
  have h2 : find kUs [(kUs, J.int us)] = some (.int us) := by simp [find]
  have hp : parseDoc e .current headTy (.obj [(kUs, .int us)]) (e.dflt headTy) = .ok (headVal us) :=
    parseDoc_struct (desFields_cons (by rw [h2]; exact des_us e _ h _) rfl)
  exact (okMap_parse headOf (parse_head_text fp us h) hp).trans (congrArg some (headOf_headVal us h))

theorem realGetOpt_idx (fp : Fp) (e : Env) (x : IdxTs) (h : Fits x) : realGetOpt fp e (jsonPutIdx x) = some (some x.index, x.us) := by
  have h1 : find kIndex [(kIndex, .int x.index), (kUs, J.int x.us)] = some (.int x.index) := by simp [find]
  have h2 : find kUs [(kIndex, .int x.index), (kUs, J.int x.us)] = some (.int x.us) := by simp [find, kIndex, kUs]
  have ho : ∀ d, des e ⟨.current, false⟩ (.opt (.uint 64)) (some (.int x.index)) d = .ok (some (BitVec.ofNat 64 x.index)) :=
    fun d => des_opt (des_index e x.index h.1 _) rfl d
  have hp : parseDoc e .current optTy (.obj [(kIndex, .int x.index), (kUs, .int x.us)]) (e.dflt optTy) = .ok (optVal (some x.index) x.us) :=
    parseDoc_struct (desFields_cons (by rw [h2]; exact des_us e _ h.2 _) (desFields_cons (by rw [h1]; exact ho _) rfl))
  exact (okMap_parse optOf (parse_idx_text fp x h) hp).trans (congrArg some (optOf_some x.index h.1 x.us h.2))

theorem realGetOpt_head (fp : Fp) (e : Env) (us : Int) (h : UsFits us) : realGetOpt fp e (jsonPutHead us) = some (none, us) := by
  have h1 : find kIndex [(kUs, J.int us)] = none := by simp [find, kIndex, kUs]
  have h2 : find kUs [(kUs, J.int us)] = some (.int us) := by simp [find]
  have ho : ∀ d : (Ty.opt (.uint 64)).den, des e ⟨.current, false⟩ (.opt (.uint 64)) none d = .ok (none : Option (BitVec 64)) := by
    exact fun d => des_opt_none d
  have hp : parseDoc e .current optTy (.obj [(kUs, .int us)]) (e.dflt optTy) = .ok (optVal none us) :=
    parseDoc_struct (desFields_cons (by rw [h2]; exact des_us e _ h _) (desFields_cons (by rw [h1]; exact ho _) rfl))
  exact (okMap_parse optOf (parse_head_text fp us h) hp).trans (congrArg some (optOf_none us h))

/-! ### Unbounded numbers

The models of the log and of replication have unbounded indexes and timestamps. The codec below is the one of the program for all that
fits 64 bits, and reads back what does not by other means. -/

/-- Entries of a type: the values that JSON keeps. -/
def Entry (e : Env) (fp : Fp) (t : Ty) : Type := { x : t.den // Good e t x ∧ FloatsOk e fp t x }

open Classical in
noncomputable def asEntry (e : Env) (fp : Fp) (t : Ty) (x : t.den) : Option (Entry e fp t) :=
  if h : Good e t x ∧ FloatsOk e fp t x then some ⟨x, h⟩ else none

def extGetIdx (fp : Fp) (e : Env) (s : Str) : Option IdxTs :=
  match jsonGetIdx s with
  | some x => if Fits x then realGetIdx fp e s else some x
  | none => realGetIdx fp e s
def extGetHead (fp : Fp) (e : Env) (s : Str) : Option Int :=
  match jsonGetHead s with
  | some us => if UsFits us then realGetHead fp e s else some us
  | none => realGetHead fp e s
def extGetOpt (fp : Fp) (e : Env) (s : Str) : Option (Option Nat × Int) :=
  match jsonGetIdx s with
  | some x => if Fits x then realGetOpt fp e s else some (some x.index, x.us)
  | none =>
    match jsonGetHead s with
    | some us => if UsFits us then realGetOpt fp e s else some (none, us)
    | none => realGetOpt fp e s

/-- `JSON()` and `ParseJSON()` as the log file and the replication use them. -/
noncomputable def realWire (fp : Fp) (e : Env) (t : Ty) : Wire (Entry e fp t) where
  putIdx x := if Fits x then toJSON fp e .current idxTy (idxVal x) else jsonPutIdx x
  getIdx := extGetIdx fp e
  put x := toJSON fp e .current t x.1
  get s :=
    match parseJSON fp e .current t s (e.dflt t) with
    | .ok x => asEntry e fp t x
    | .error _ => none
  putHead us := if UsFits us then toJSON fp e .current headTy (headVal us) else jsonPutHead us
  getHead := extGetHead fp e
  getOpt := extGetOpt fp e

/-- It is the codec of the program wherever the numbers fit. -/
theorem realWire_is_real (fp : Fp) (e : Env) (t : Ty) :
    (∀ x, Fits x → (realWire fp e t).putIdx x = toJSON fp e .current idxTy (idxVal x)) ∧
    (∀ us, UsFits us → (realWire fp e t).putHead us = toJSON fp e .current headTy (headVal us)) ∧
    (∀ s, (∀ x, jsonGetIdx s = some x → Fits x) → (realWire fp e t).getIdx s = realGetIdx fp e s) ∧
    (∀ s, (∀ us, jsonGetHead s = some us → UsFits us) → (realWire fp e t).getHead s = realGetHead fp e s) := by
  refine ⟨fun x h => if_pos h, fun us h => if_pos h, ?_, ?_⟩
  · intro s h
    show extGetIdx fp e s = _
    unfold extGetIdx
    cases hj : jsonGetIdx s with
    | none => rfl
    | some x => exact if_pos (h x hj)
  · intro s h
    show extGetHead fp e s = _
    unfold extGetHead
    cases hj : jsonGetHead s with
    | none => rfl
    | some x => exact if_pos (h x hj)

theorem realWire_putIdx (fp : Fp) (e : Env) (t : Ty) (x : IdxTs) : (realWire fp e t).putIdx x = jsonPutIdx x := by
  show (if Fits x then _ else _) = _
  by_cases h : Fits x
  · rw [if_pos h, json_idx fp e x h]
  · rw [if_neg h]

theorem realWire_putHead (fp : Fp) (e : Env) (t : Ty) (us : Int) : (realWire fp e t).putHead us = jsonPutHead us := by
  show (if UsFits us then _ else _) = _
  by_cases h : UsFits us
  · rw [if_pos h, json_head fp e us h]
  · rw [if_neg h]

theorem entry_oneLine {fp : Fp} {e : Env} {t : Ty} (ok : TyOk .current .current t) (x : Entry e fp t) : OneLine ((realWire fp e t).put x) :=
  (toJSON_is_text e fp .current t x.1 ok x.2.2).2

theorem oneLine_clean {s : Str} (h : OneLine s) : ∀ c ∈ s, c ≠ '\t' ∧ Current.Replicate.isSep c = false := by
  intro c hc
  have := h c hc
  have h1 : c ≠ '\t' := by rintro rfl; revert this; decide
  have h2 : c ≠ '\n' := by rintro rfl; revert this; decide
  have h3 : c ≠ '\r' := by rintro rfl; revert this; decide
  exact ⟨h1, by simp [Current.Replicate.isSep, h2, h3]⟩

theorem jsonPutIdx_oneLine (x : IdxTs) : OneLine (jsonPutIdx x) := by
  intro c hc
  simp only [jsonPutIdx, List.mem_append] at hc
  rcases hc with (((h | h) | h) | h) | h
  · revert c; decide
  · have := digit_bounds (Current.Persist.dec_isDigit h); omega
  · revert c; decide
  · rcases Current.Persist.decInt_char h with h | h
    · have := digit_bounds h; omega
    · rw [h]; decide
  · revert c; decide

theorem jsonPutHead_oneLine (us : Int) : OneLine (jsonPutHead us) := by
  intro c hc
  simp only [jsonPutHead, List.mem_append] at hc
  rcases hc with (h | h) | h
  · revert c; decide
  · rcases Current.Persist.decInt_char h with h | h
    · have := digit_bounds h; omega
    · rw [h]; decide
  · revert c; decide

theorem parseText_hash (fp : Fp) (s : Str) : parseText fp ('#' :: s) = none := by
  have e : cString ('#' :: s) = '#' :: cString s := by
    unfold cString
    rw [List.takeWhile_cons_of_pos (by decide)]
  unfold parseText
  simp only [e, skipWs_cons (show ¬ isWs '#' by decide)]
  have : ∀ n, parseValue fp (n + 1) ('#' :: cString s) = none := by
    intro n
    simp only [parseValue]
    simp [parseNumber, takeMinus, parseIntPart]
  rw [this]

/-- **The facts about JSON that the theorems on the log file rest on hold for the JSON of the model.** -/
theorem realCodec_lawful (fp : Fp) (e : Env) (he : FloatOk e) (t : Ty) (ok : TyOk .current .current t) :
    (realWire fp e t).toCodec.Lawful where
  getIdx_putIdx := by
    intro x
    rw [realWire_putIdx]
    show extGetIdx fp e _ = _
    unfold extGetIdx
    rw [jsonGetIdx_jsonPutIdx]
    by_cases h : Fits x
    · simp only [h, if_true, realGetIdx_put fp e x h]
    · simp only [h, if_false]
  putIdx_head := by intro x; rw [realWire_putIdx]; exact ⟨_, rfl⟩
  putIdx_tab := by intro x; rw [realWire_putIdx]; exact oneLine_not_mem (jsonPutIdx_oneLine x) (by decide)
  putIdx_nl := by intro x; rw [realWire_putIdx]; exact oneLine_not_mem (jsonPutIdx_oneLine x) (by decide)
  getIdx_hash := by
    intro s
    show extGetIdx fp e ('#' :: s) = none
    have h1 : jsonGetIdx ('#' :: s) = none := by simp [jsonGetIdx, Current.Persist.stripPrefix]
    unfold extGetIdx realGetIdx parseJSON
    rw [h1, parseText_hash]
    rfl
  get_put := by
    intro x
    show (match parseJSON fp e .current t (toJSON fp e .current t x.1) (e.dflt t) with
      | .ok x => asEntry e fp t x
      | .error _ => none) = some x
    rw [parse_of_json_string e fp he (.inl rfl) t ok x.1 x.2.1 x.2.2]
    exact dif_pos x.2
  put_nl := fun x => oneLine_not_mem (entry_oneLine ok x) (by decide)

/-- **So do those that the theorems on replication rest on.** -/
theorem realWire_lawful (fp : Fp) (e : Env) (he : FloatOk e) (t : Ty) (ok : TyOk .current .current t) : (realWire fp e t).Lawful where
  base := realCodec_lawful fp e he t ok
  getOpt_idx := by
    intro x
    rw [realWire_putIdx]
    show extGetOpt fp e _ = _
    unfold extGetOpt
    rw [jsonGetIdx_jsonPutIdx]
    by_cases h : Fits x
    · simp only [h, if_true, realGetOpt_idx fp e x h]
    · simp only [h, if_false]
  getOpt_head := by
    intro us
    rw [realWire_putHead]
    show extGetOpt fp e (jsonPutHead us) = some (none, us)
    have h0 : jsonGetIdx (jsonPutHead us) = none := by simp [jsonGetIdx, jsonPutHead, Current.Persist.stripPrefix]
    unfold extGetOpt
    rw [h0, jsonGetHead_put]
    by_cases h : UsFits us
    · simp only [h, if_true, realGetOpt_head fp e us h]
    · simp only [h, if_false]
  getHead_put := by
    intro us
    rw [realWire_putHead]
    show extGetHead fp e _ = _
    unfold extGetHead
    rw [jsonGetHead_put]
    by_cases h : UsFits us
    · simp only [h, if_true, realGetHead_put fp e us h]
    · simp only [h, if_false]
  put_clean := by
    intro x
    refine ⟨?_, oneLine_clean (entry_oneLine ok x)⟩
    intro h
    have h1 := parse_of_json_string e fp he (.inl rfl) t ok x.1 x.2.1 x.2.2 (e.dflt t)
    have h2 : toJSON fp e .current t x.1 = [] := h
    rw [h2] at h1
    simp [parseJSON, parseText, cString, skipWs] at h1
  idx_clean := by
    intro x
    rw [realWire_putIdx]
    exact ⟨List.cons_ne_nil _ _, oneLine_clean (jsonPutIdx_oneLine x)⟩
  head_clean := by
    intro us
    rw [realWire_putHead]
    exact ⟨List.cons_ne_nil _ _, oneLine_clean (jsonPutHead_oneLine us)⟩

end Current.Json
