import Verif.Persist.FileModel
import Verif.Persist.Codec
import Mathlib.Data.List.TakeWhile
/-!
`bricks/strings/util.h`: `ToString`, `FromString` (C68); `bricks/strings/fixed_size_serializer.h` (C69).

Characters are bytes; `std::istringstream >> x` is modelled after libstdc++ (`num_get::_M_extract_int`, decimal, "C" locale).
-/
namespace Current.Strings
open Current.Persist

/-! ### Model -/

/-- An integer type. -/
structure IntTy where
  signed : Bool
  bits : Nat
  deriving DecidableEq, Repr

/-- The values of the type. -/
def IntTy.Fits (t : IntTy) (x : Int) : Prop :=
  if t.signed then -(2 ^ (t.bits - 1) : Int) ≤ x ∧ x < 2 ^ (t.bits - 1) else 0 ≤ x ∧ x < 2 ^ t.bits
instance (t : IntTy) (x : Int) : Decidable (t.Fits x) := by unfold IntTy.Fits; infer_instance

def int8 : IntTy := ⟨true, 8⟩
def uint8 : IntTy := ⟨false, 8⟩
def int16 : IntTy := ⟨true, 16⟩
def uint16 : IntTy := ⟨false, 16⟩
def int32 : IntTy := ⟨true, 32⟩
def uint32 : IntTy := ⟨false, 32⟩
def int64 : IntTy := ⟨true, 64⟩
def uint64 : IntTy := ⟨false, 64⟩

/-- What `stream >> x` does to the variable `x` of an integer type: nothing (the stream has nothing but white space), a value and `failbit`, or
a value. -/
inductive Extracted where
  | untouched
  | failed (x : Int)
  | ok (x : Int)
  deriving DecidableEq, Repr

/-- An optional sign; is it a minus? -/
def takeSign : Str → Bool × Str
  | '-' :: s => (true, s)
  | '+' :: s => (false, s)
  | s => (false, s)

/-- `static_cast<T>(x)` of an integer. -/
def IntTy.wrap (t : IntTy) (x : Int) : Int :=
  let r := x % 2 ^ t.bits
  if t.signed ∧ 2 ^ (t.bits - 1) ≤ r then r - 2 ^ t.bits else r

/-- `std::istringstream(s) >> x` for an integer of more than one byte. A number with a minus is negated modulo `2^bits` for unsigned types; a number
out of range sets the nearest limit and `failbit`. -/
def extract (t : IntTy) (s : Str) : Extracted :=
  match s.dropWhile isSpace with
  | [] => .untouched
  | s' =>
    let (neg, r) := takeSign s'
    let ds := r.takeWhile Char.isDigit
    if ds = [] then .failed 0
    else
      let n := Nat.ofDigitChars 10 ds 0
      if t.signed then
        let v : Int := if neg then -(n : Int) else n
        if t.Fits v then .ok v
        else .failed (if neg then -(2 ^ (t.bits - 1)) else 2 ^ (t.bits - 1) - 1)
      else
        if n < 2 ^ t.bits then .ok (if neg then t.wrap (-(n : Int)) else n) else .failed (2 ^ t.bits - 1)

/-- `std::to_string` of an integer (`util.h:69-75`, `util.h:90-95`). -/
def toStringInt (x : Int) : Str := decInt x

/-- `FromString` for integers of more than one byte, enums with such an underlying type (`util.h:158-183`), `std::chrono::milliseconds` and
`microseconds` (`int64`, `util.h:218-243`). -/
def fromStringInt (t : IntTy) (s : Str) : Int :=
  match extract t s with
  | .ok x => x
  | _ => 0

/-- `FromString<int8_t>` and `FromString<uint8_t>`, `util.h:194-216`: an `int` is extracted, without looking at the state of the stream, and cast.
`none`: the value of an uninitialized variable. -/
def fromStringByte (t : IntTy) (s : Str) : Option Int :=
  match extract int32 s with
  | .ok x => some (t.wrap x)
  | .failed x => some (t.wrap x)
  | .untouched => none

/-- `ToString(bool)`, `util.h:78-81`. -/
def toStringBool (b : Bool) : Str := if b then ['t', 'r', 'u', 'e'] else ['f', 'a', 'l', 's', 'e']

/-- `FromString<bool>`, `util.h:185-191`. -/
def fromStringBool (s : Str) : Bool :=
  !(s == []) && !(s == ['0']) && !(s == ['f', 'a', 'l', 's', 'e']) && !(s == ['F', 'a', 'l', 's', 'e']) && !(s == ['F', 'A', 'L', 'S', 'E'])

/-- `FromString<E>` for an `enum E : uint8_t` (`util.h:170-183`): `stream >> underlying_output` with an `unsigned char`, that is, the first character
that is not white space. (`ToString` of it is `std::to_string` of the number.) -/
def fromStringByteEnum (s : Str) : Nat :=
  match s.dropWhile isSpace with
  | [] => 0
  | c :: _ => c.toNat

/-- `ToString(char)`, `util.h:120-123`. -/
def toStringChar (c : Char) : Str := [c]
/-- `FromString<char>`, `util.h:158-168`. -/
def fromStringChar (s : Str) : Char :=
  match s.dropWhile isSpace with
  | [] => '\x00'
  | c :: _ => c

/-- `std::numeric_limits<T>::digits10` of an unsigned type (`__glibcxx_digits10`). -/
def digits10 (bits : Nat) : Nat := bits * 643 / 2136

/-- `PackToString`, `fixed_size_serializer.h:48-52`. -/
def packToString (bits x : Nat) : Str := List.replicate (digits10 bits + 1 - (dec x).length) '0' ++ dec x

/-- `UnpackFromString`, `fixed_size_serializer.h:53-58`. `none`: an uninitialized variable is returned. -/
def unpackFromString (bits : Nat) (s : Str) : Option Int :=
  match extract ⟨false, bits⟩ s with
  | .ok x => some x
  | .failed x => some x
  | .untouched => none

/-! ### Numerals -/

theorem dec_head (n : Nat) : ∃ c r, dec n = c :: r ∧ c.isDigit = true := by
  cases h : dec n with
  | nil => exact absurd h (dec_ne_nil n)
  | cons c r => exact ⟨c, r, rfl, dec_isDigit (n := n) (by simp [h])⟩

theorem digit_not_space {c : Char} (h : c.isDigit = true) : isSpace c = false := by
  cases hs : isSpace c with
  | false => rfl
  | true =>
    simp only [isSpace, Bool.or_eq_true, decide_eq_true_eq] at hs
    rcases hs with ((((rfl | rfl) | rfl) | rfl) | rfl) | rfl <;> revert h <;> decide

theorem dropWhile_space {w s : Str} (hw : ∀ c ∈ w, isSpace c = true) (hs : ∀ c, s.head? = some c → isSpace c = false) :
    (w ++ s).dropWhile isSpace = s := by
  induction w with
  | nil =>
    cases s with
    | nil => rfl
    | cons c s => exact List.dropWhile_cons_of_neg (by rw [hs c rfl]; simp)
  | cons a w ih =>
    rw [List.cons_append, List.dropWhile_cons_of_pos (hw a (by simp))]
    exact ih fun c hc => hw c (by simp [hc])

theorem takeSign_digit {c : Char} {s : Str} (h : c.isDigit = true) : takeSign (c :: s) = (false, c :: s) := by
  unfold takeSign
  split
  · rename_i e; simp at e; rw [e.1] at h; exact absurd h (by decide)
  · rename_i e; simp at e; rw [e.1] at h; exact absurd h (by decide)
  · rfl

/-- A number with anything that is not a digit after it, white space before it, reads as that number. -/
theorem extract_dec {t : IntTy} {w rest : Str} {x : Int} (hx : t.Fits x) (hw : ∀ c ∈ w, isSpace c = true)
    (hr : ∀ c, rest.head? = some c → c.isDigit = false) : extract t (w ++ (decInt x ++ rest)) = .ok x := by
  cases x with
  | ofNat n =>
    obtain ⟨c, r, e, hc⟩ := dec_head n
    obtain ⟨h1, h2⟩ := takeWhile_dec n rest hr
    have hd : (w ++ (decInt (.ofNat n) ++ rest)).dropWhile isSpace = dec n ++ rest :=
      dropWhile_space hw (by rw [decInt, e]; intro c' h'; simp at h'; rw [← h']; exact digit_not_space hc)
    have hts : takeSign (dec n ++ rest) = (false, dec n ++ rest) := by rw [e]; exact takeSign_digit hc
    unfold extract
    rw [hd]
    split
    · rename_i h; rw [e] at h; cases h
    · rw [hts]
      simp only [h1, dec_ne_nil, if_false]
      have hv : Nat.ofDigitChars 10 (dec n) 0 = n := by simp [dec]
      rw [hv]
      by_cases hsg : t.signed
      · rw [if_pos hsg]
        simp only [Bool.false_eq_true, if_false]
        rw [if_pos (by simpa using hx)]; rfl
      · rw [if_neg hsg]
        simp only [IntTy.Fits, hsg] at hx
        rw [if_pos (by have := hx.2; simp at this; exact_mod_cast this)]
        simp
  | negSucc n =>
    obtain ⟨h1, h2⟩ := takeWhile_dec (n + 1) rest hr
    have hd : (w ++ (decInt (.negSucc n) ++ rest)).dropWhile isSpace = '-' :: (dec (n + 1) ++ rest) :=
      dropWhile_space hw (by intro c' h'; simp [decInt] at h'; rw [← h']; decide)
    have hsg : t.signed = true := by
      cases hs : t.signed with
      | true => rfl
      | false => simp [IntTy.Fits, hs] at hx
    unfold extract
    rw [hd]
    have hv : Nat.ofDigitChars 10 (dec (n + 1)) 0 = n + 1 := by simp [dec]
    simp only [takeSign, h1, dec_ne_nil, if_false, hsg, if_true, hv]
    have hneg : -((n + 1 : Nat) : Int) = Int.negSucc n := by rw [Int.negSucc_eq]; rfl
    rw [hneg, if_pos hx]

/-! ### Theorems about `ToString` and `FromString` -/

/-- **C68.** `FromString<T>(ToString(x)) == x` for every integer `x` of a type of more than one byte. -/
theorem fromString_toString (t : IntTy) (x : Int) (hx : t.Fits x) : fromStringInt t (toStringInt x) = x := by
  have := extract_dec (t := t) (w := []) (rest := []) hx (by simp) (by simp)
  simp only [List.nil_append, List.append_nil] at this
  rw [fromStringInt, toStringInt, this]

/-- **C68.** White space before and anything but digits after a number are ignored. -/
theorem fromString_around (t : IntTy) (x : Int) (hx : t.Fits x) (w rest : Str) (hw : ∀ c ∈ w, isSpace c = true)
    (hr : ∀ c, rest.head? = some c → c.isDigit = false) : fromStringInt t (w ++ (toStringInt x ++ rest)) = x := by
  rw [fromStringInt, toStringInt, extract_dec hx hw hr]

theorem wrap_fits (t : IntTy) (ht : 1 ≤ t.bits) (x : Int) : t.Fits (t.wrap x) := by
  have h1 := Int.emod_nonneg x (b := 2 ^ t.bits) (by have := Int.pow_pos (n := 2) (m := t.bits) (by decide); omega)
  have h2 := Int.emod_lt_of_pos x (b := 2 ^ t.bits) (Int.pow_pos (by decide))
  have h3 : (2 : Int) ^ t.bits = 2 * 2 ^ (t.bits - 1) := by
    obtain ⟨b, hb⟩ : ∃ b, t.bits = b + 1 := ⟨t.bits - 1, by omega⟩
    rw [hb]; simp [Int.pow_succ]; omega
  unfold IntTy.wrap IntTy.Fits
  generalize x % 2 ^ t.bits = r at *
  rw [h3] at *
  generalize (2 : Int) ^ (t.bits - 1) = h at *
  cases t.signed <;> simp <;> (try split) <;> omega

theorem wrap_of_fits (t : IntTy) (ht : 1 ≤ t.bits) (x : Int) (hx : t.Fits x) : t.wrap x = x := by
  have h3 : (2 : Int) ^ t.bits = 2 * 2 ^ (t.bits - 1) := by
    obtain ⟨b, hb⟩ : ∃ b, t.bits = b + 1 := ⟨t.bits - 1, by omega⟩
    rw [hb]; simp [Int.pow_succ]; omega
  have hp : (0 : Int) < 2 ^ (t.bits - 1) := Int.pow_pos (by decide)
  unfold IntTy.Fits at hx
  unfold IntTy.wrap
  by_cases hneg : x < 0
  · have e : x % 2 ^ t.bits = x + 2 ^ t.bits := by
      rw [← Int.add_emod_right, Int.emod_eq_of_lt]
      · cases hs : t.signed <;> simp [hs] at hx <;> omega
      · omega
    simp only [e]
    rw [h3] at *
    generalize (2 : Int) ^ (t.bits - 1) = h at *
    cases hs : t.signed <;> simp [hs] at hx ⊢ <;> omega
  · have e : x % 2 ^ t.bits = x := by
      apply Int.emod_eq_of_lt (by omega)
      cases hs : t.signed <;> simp [hs] at hx <;> omega
    simp only [e]
    rw [h3] at *
    generalize (2 : Int) ^ (t.bits - 1) = h at *
    cases hs : t.signed <;> simp [hs] at hx ⊢ <;> omega

/-- **C68.** What `FromString` returns is a value of the type, whatever the text. -/
theorem fromString_fits (t : IntTy) (ht : 1 ≤ t.bits) (s : Str) : t.Fits (fromStringInt t s) := by
  have h0 : t.Fits 0 := by
    unfold IntTy.Fits
    have h1 : (0 : Int) < 2 ^ (t.bits - 1) := Int.pow_pos (by decide)
    have h2 : (0 : Int) < 2 ^ t.bits := Int.pow_pos (by decide)
    split <;> omega
  unfold fromStringInt
  split
  · rename_i x h
    unfold extract at h
    split at h
    · cases h
    · simp only at h
      split at h
      · cases h
      · split at h
        · by_cases hf : t.Fits (if (takeSign (List.dropWhile isSpace s)).fst = true then
              -((Nat.ofDigitChars 10 (List.takeWhile Char.isDigit (takeSign (List.dropWhile isSpace s)).snd) 0 : Nat) : Int)
              else (Nat.ofDigitChars 10 (List.takeWhile Char.isDigit (takeSign (List.dropWhile isSpace s)).snd) 0 : Nat))
          · rw [if_pos hf] at h; cases h; exact hf
          · rw [if_neg hf] at h; cases h
        · rename_i hsg
          split at h
          · rename_i hlt
            cases h
            split
            · exact wrap_fits t ht _
            · simp only [IntTy.Fits, hsg]
              simp
              exact_mod_cast hlt
          · cases h
  · exact h0

/-- **C68.** A text that does not begin with a number, after white space and a sign, gives zero, as does a number that does not fit. -/
theorem fromString_zero (t : IntTy) (w s : Str) (hw : ∀ c ∈ w, isSpace c = true) (hs : ∀ c, s.head? = some c → isSpace c = false)
    (hd : ∀ c, (takeSign s).2.head? = some c → c.isDigit = false) : fromStringInt t (w ++ s) = 0 := by
  have : (takeSign s).2.takeWhile Char.isDigit = [] := by
    cases h : (takeSign s).2 with
    | nil => rfl
    | cons c r => exact List.takeWhile_cons_of_neg (by rw [hd c (by rw [h]; rfl)]; simp)
  unfold fromStringInt extract
  rw [dropWhile_space hw hs]
  cases s with
  | nil => rfl
  | cons c r => simp only [this, if_true]

theorem fromString_too_large (t : IntTy) (n : Nat) (hn : ¬ t.Fits n) : fromStringInt t (toStringInt n) = 0 := by
  obtain ⟨c, r, e, hc⟩ := dec_head n
  obtain ⟨h1, h2⟩ := takeWhile_dec n [] (by simp)
  rw [List.append_nil] at h1
  have hd : (decInt (n : Int)).dropWhile isSpace = dec n := by
    show (dec n).dropWhile isSpace = dec n
    rw [e]; exact List.dropWhile_cons_of_neg (by rw [digit_not_space hc]; simp)
  have hts : takeSign (dec n) = (false, dec n) := by rw [e]; exact takeSign_digit hc
  have hv : Nat.ofDigitChars 10 (dec n) 0 = n := by simp [dec]
  unfold fromStringInt extract toStringInt
  rw [hd]
  split
  · rename_i x h
    split at h
    · cases h
    · simp only [hts, h1, dec_ne_nil, if_false, hv] at h
      split at h
      · simp only [Bool.false_eq_true, if_false, hn] at h
        cases h
      · rename_i hsg
        have : ¬ n < 2 ^ t.bits := by
          intro hlt
          apply hn
          simp only [IntTy.Fits, hsg]
          simp
          exact_mod_cast hlt
        simp only [this, if_false] at h
        cases h
  · rfl

/-- **C68.** One byte integers round-trip. -/
theorem fromStringByte_toString (t : IntTy) (ht : t = int8 ∨ t = uint8) (x : Int) (hx : t.Fits x) :
    fromStringByte t (toStringInt x) = some x := by
  have h32 : int32.Fits x := by
    rcases ht with rfl | rfl <;> simp [IntTy.Fits, int8, uint8, int32] at * <;> omega
  have := extract_dec (t := int32) (w := []) (rest := []) h32 (by simp) (by simp)
  simp only [List.nil_append, List.append_nil] at this
  rw [fromStringByte, toStringInt, this]
  show some (t.wrap x) = some x
  rw [wrap_of_fits t (by rcases ht with rfl | rfl <;> decide) x hx]

/-- The code returns an uninitialized variable for an empty text, or one of white space only. -/
theorem fromStringByte_uninitialized (t : IntTy) (w : Str) (hw : ∀ c ∈ w, isSpace c = true) : fromStringByte t w = none := by
  have := dropWhile_space (w := w) (s := []) hw (by simp)
  rw [List.append_nil] at this
  simp [fromStringByte, extract, this]

/-- Larger types give zero for a number that does not fit; one byte types some other number. -/
theorem fromStringByte_too_large : fromStringByte uint8 ['2', '5', '6'] = some 0 ∧ fromStringByte uint8 ['3', '0', '0'] = some 44 ∧
    fromStringByte int8 ['9', '9', '9', '9', '9', '9', '9', '9', '9', '9'] = some (-1) := by decide +kernel

/-- A minus sign before an unsigned number is accepted: the number is negated modulo `2^bits`. -/
theorem fromString_negative_unsigned : fromStringInt uint64 ['-', '1'] = 2 ^ 64 - 1 ∧ fromStringInt uint16 ['-', '1'] = 65535 := by
  decide +kernel

/-- **C68.** Booleans round-trip. -/
theorem fromStringBool_toString (b : Bool) : fromStringBool (toStringBool b) = b := by cases b <;> decide

/-- **C68.** Exactly five texts are false. -/
theorem fromStringBool_false_iff (s : Str) : fromStringBool s = false ↔
    s = [] ∨ s = ['0'] ∨ s = ['f', 'a', 'l', 's', 'e'] ∨ s = ['F', 'a', 'l', 's', 'e'] ∨ s = ['F', 'A', 'L', 'S', 'E'] := by
  unfold fromStringBool
  by_cases h1 : s = [] <;> by_cases h2 : s = ['0'] <;> by_cases h3 : s = ['f', 'a', 'l', 's', 'e'] <;>
    by_cases h4 : s = ['F', 'a', 'l', 's', 'e'] <;> by_cases h5 : s = ['F', 'A', 'L', 'S', 'E'] <;> simp_all

/-- An enum stored in a byte does not survive `FromString(ToString(e))`, but for a single value: the first digit is taken for the value. -/
theorem byteEnum_not_read : ∀ v : Fin 256, fromStringByteEnum (toStringInt (v.val : Int)) = v.val ↔ v = 53 := by decide +kernel

/-- A character survives `FromString(ToString(c))` unless it is white space. -/
theorem char_read_iff (c : Char) : fromStringChar (toStringChar c) = c ↔ isSpace c = false := by
  unfold fromStringChar toStringChar
  cases h : isSpace c with
  | true =>
    rw [List.dropWhile_cons_of_pos h]
    simp only [List.dropWhile_nil]
    constructor
    · intro e; rw [← e] at h; revert h; decide
    · intro e; cases e
  | false =>
    rw [List.dropWhile_cons_of_neg (by rw [h]; simp)]
    simp

/-! ### Theorems about `PackToString` -/

/-- The types the serializer is enabled for: `static_assert`ed to be unsigned and larger than a byte. -/
def Packable (bits : Nat) : Prop := bits = 16 ∨ bits = 32 ∨ bits = 64

theorem dec_length_le {k n : Nat} (hk : 0 < k) (h : n < 10 ^ k) : (dec n).length ≤ k := by
  rw [dec]; exact (Nat.length_toDigits_le_iff (by decide) hk).2 h

theorem pack_fits {bits x : Nat} (hb : Packable bits) (hx : x < 2 ^ bits) : x < 10 ^ (digits10 bits + 1) := by
  rcases hb with rfl | rfl | rfl <;> simp [digits10] <;> omega

/-- **C69.** All values of a type take the same number of characters. -/
theorem pack_length {bits x : Nat} (hb : Packable bits) (hx : x < 2 ^ bits) :
    (packToString bits x).length = digits10 bits + 1 := by
  have := dec_length_le (k := digits10 bits + 1) (by omega) (pack_fits hb hx)
  simp [packToString]; omega

theorem pack_digits {bits x : Nat} : ∀ c ∈ packToString bits x, c.isDigit = true := by
  intro c hc
  simp only [packToString, List.mem_append] at hc
  rcases hc with hc | hc
  · rw [List.eq_of_mem_replicate hc]; decide
  · exact dec_isDigit hc

theorem pack_value {bits x : Nat} : Nat.ofDigitChars 10 (packToString bits x) 0 = x := by
  rw [packToString, Nat.ofDigitChars_append, Nat.ofDigitChars_replicate_zero]
  simp [dec]

/-- **C69.** `UnpackFromString(PackToString(x)) == x`. -/
theorem unpack_pack {bits x : Nat} (hx : x < 2 ^ bits) :
    unpackFromString bits (packToString bits x) = some (x : Int) := by
  have hne : packToString bits x ≠ [] := by simp [packToString, dec_ne_nil]
  have hdig := pack_digits (bits := bits) (x := x)
  have hval := pack_value (bits := bits) (x := x)
  generalize packToString bits x = p at *
  cases p with
  | nil => exact absurd rfl hne
  | cons c r =>
    have hc := hdig c (by simp)
    have htw : (c :: r).takeWhile Char.isDigit = c :: r := by
      exact List.takeWhile_eq_self_iff.2 hdig
    unfold unpackFromString extract
    rw [List.dropWhile_cons_of_neg (by rw [digit_not_space hc]; simp)]
    simp only [takeSign_digit hc, htw, hval]
    simp [hx]

/-- Digit strings of the same length are ordered like their values. -/
theorem digits_lt_iff : ∀ (u v : Str) (m n : Nat), u.length = v.length → (∀ c ∈ u, c.isDigit = true) → (∀ c ∈ v, c.isDigit = true) →
    (Nat.ofDigitChars 10 u m < Nat.ofDigitChars 10 v n ↔ m < n ∨ m = n ∧ u < v)
  | [], [], m, n, _, _, _ => by simp [Nat.ofDigitChars]
  | c :: u, d :: v, m, n, hl, hu, hv => by
    have hc := hu c (by simp)
    have hd := hv d (by simp)
    simp only [Char.isDigit, Bool.and_eq_true, decide_eq_true_eq, UInt32.le_iff_toNat_le] at hc hd
    rw [Nat.ofDigitChars_cons, Nat.ofDigitChars_cons,
      digits_lt_iff u v _ _ (by simpa using hl) (fun c hc => hu c (by simp [hc])) (fun c hc => hv c (by simp [hc]))]
    have e0 : '0'.toNat = 48 := rfl
    have hcn : c.toNat = c.val.toNat := rfl
    have hdn : d.toNat = d.val.toNat := rfl
    have h48 : '0'.val.toNat = 48 := rfl
    have h57 : '9'.val.toNat = 57 := rfl
    rw [List.cons_lt_cons_iff]
    have hlt : c < d ↔ c.toNat < d.toNat := Char.lt_def.trans UInt32.lt_iff_toNat_lt
    have heq : c = d ↔ c.toNat = d.toNat := by
      constructor
      · intro h; rw [h]
      · intro h; exact Char.ext (UInt32.toNat_inj.1 h)
    rw [hlt, heq]
    generalize (u < v) = P
    by_cases hP : P <;> simp [hP] <;> omega

/-- **C69.** Packed values are ordered, as strings, like the numbers. -/
theorem pack_lt_iff {bits x y : Nat} (hb : Packable bits) (hx : x < 2 ^ bits) (hy : y < 2 ^ bits) :
    packToString bits x < packToString bits y ↔ x < y := by
  have := digits_lt_iff (packToString bits x) (packToString bits y) 0 0
    (by rw [pack_length hb hx, pack_length hb hy]) pack_digits pack_digits
  rw [pack_value, pack_value] at this
  simpa using this.symm

/-! ### Examples -/

example : fromStringInt int64 (toStringInt (-9223372036854775808)) = -9223372036854775808 :=
  fromString_toString _ _ (by decide)
example : packToString 16 42 = ['0', '0', '0', '4', '2'] ∧ packToString 16 42 < packToString 16 1000 := by decide +kernel
example : fromStringInt int32 [' ', '-', '1', '2', ' ', 'x'] = -12 :=
  fromString_around int32 (Int.negSucc 11) (by decide) [' '] [' ', 'x'] (by decide) (by decide)
example : fromStringInt int32 ['a', '1'] = 0 := fromString_zero int32 [] ['a', '1'] (by decide) (by decide) (by decide)
example : fromStringInt uint16 (toStringInt (65536 : Nat)) = 0 := fromString_too_large _ _ (by decide)

end Current.Strings
