import Verif.Json.Reader
import Mathlib.Data.Rat.Defs
import Mathlib.Algebra.Order.Field.Rat
import Mathlib.Tactic.Ring
import Mathlib.Tactic.FieldSimp
/-!
The writer produces texts of the grammar.
-/
namespace Current.Json
open Current.Persist (Str dec decInt dec_isDigit dec_ne_nil)

/-! ### Numbers -/

/-- What is assumed here of `Grisu2` (proved of it in `Json/GrisuText.lean`), for a positive finite number: between 1 and 17 decimal digits, the first of which is
not zero, and an exponent in the range of a `double`. -/
structure GrisuOk (ds : Str) (k : Int) : Prop where
  digits : Digits ds
  head : ∀ c t, ds = c :: t → c ≠ '0'
  ne : ds ≠ []
  len : ds.length ≤ 17
  lo : -324 ≤ ds.length + k
  hi : ds.length + k ≤ 310

/-- `[ exp ]` of an exponent. -/
def expText : Option Int → Str
  | none => []
  | some x => 'e' :: decInt x

/-- `[ frac ]` of digits. -/
def fracText (fr : Str) : Str := if fr = [] then [] else '.' :: fr

/-- The number that a token with the digits `ip`, the fraction digits `fr` and the exponent `ex` denotes. -/
def decimal (ip fr : Str) (ex : Option Int) : ℚ :=
  (Nat.ofDigitChars 10 (ip ++ fr) 0 : ℚ) * 10 ^ (ex.getD 0 - fr.length)

theorem writeExponent_eq (K : Int) (h : K.natAbs < 1000) : writeExponent K = decInt K := by
  have key : ∀ k : Fin 1000, writeExponent (k.1 : Int) = dec k.1 ∧ (k.1 ≠ 0 → writeExponent (-(k.1 : Int)) = '-' :: dec k.1) := by
    decide +kernel
  obtain ⟨n, rfl | rfl⟩ := Int.eq_nat_or_neg K
  · have := (key ⟨n, by omega⟩).1
    rw [this]; rfl
  · cases n with
    | zero => exact (key ⟨0, by omega⟩).1
    | succ n =>
      have := (key ⟨n + 1, by omega⟩).2 (by simp)
      simp only at this
      rw [this]; rfl

theorem dec_head {n : Nat} (hn : 0 < n) : ∀ t, dec n ≠ '0' :: t := by
  unfold dec
  induction n using Nat.strongRecOn with
  | ind n ih =>
    intro t h
    by_cases hb : n < 10
    · rw [Nat.toDigits_of_lt_base hb] at h
      simp only [List.cons.injEq] at h
      have key : ∀ k : Fin 10, 0 < k.1 → Nat.digitChar k.1 ≠ '0' := by decide
      exact key ⟨n, hb⟩ hn h.1
    · rw [Nat.toDigits_of_base_le (by omega) (by omega)] at h
      cases hd : Nat.toDigits 10 (n / 10) with
      | nil => exact Nat.toDigits_ne_nil hd
      | cons c l =>
        rw [hd] at h
        simp only [List.cons_append, List.cons.injEq] at h
        rw [h.1] at hd
        exact ih (n / 10) (by omega) (by omega) l hd

theorem intText_dec (n : Nat) : IntText (dec n) := by
  refine ⟨fun c h => dec_isDigit h, dec_ne_nil n, ?_⟩
  intro h
  by_cases hn : n = 0
  · subst hn; rfl
  · cases hd : dec n with
    | nil => rw [hd] at h; cases h
    | cons c t =>
      rw [hd] at h
      simp only [List.head?_cons, Option.some.injEq] at h
      rw [h] at hd
      exact absurd hd (dec_head (by omega) t)

/-- Integers are written as integers of the grammar. -/
theorem isNumber_decInt (fp : Fp) (i : Int) (h : InRange i) : IsNumber fp (decInt i) (.int i) := by
  have hv : ∀ n, Nat.ofDigitChars 10 (dec n) 0 = n := fun n => Nat.ofDigitChars_ten_toDigits
  cases i with
  | ofNat n =>
    have e : intValue false (dec n) = (n : Int) := by simp [intValue, hv]
    have := IsNumber.int (fp := fp) false (dec n) (intText_dec n) (by rw [e]; exact h)
    rw [e] at this
    exact this
  | negSucc n =>
    have e : intValue true (dec (n + 1)) = Int.negSucc n := by simp [intValue, hv]; omega
    have := IsNumber.int (fp := fp) true (dec (n + 1)) (intText_dec _) (by rw [e]; exact h)
    rw [e] at this
    exact this

theorem digits_append {a b : Str} (ha : Digits a) (hb : Digits b) : Digits (a ++ b) := by
  intro c hc
  rcases List.mem_append.1 hc with h | h
  · exact ha c h
  · exact hb c h

theorem digits_zeros (n : Nat) : Digits (List.replicate n '0') := by
  intro c hc
  rw [List.eq_of_mem_replicate hc]; decide

theorem digits_take {a : Str} (n : Nat) (ha : Digits a) : Digits (a.take n) := fun c hc => ha c (List.mem_of_mem_take hc)
theorem digits_drop {a : Str} (n : Nat) (ha : Digits a) : Digits (a.drop n) := fun c hc => ha c (List.mem_of_mem_drop hc)

theorem val_append (a b : Str) (i : Nat) : Nat.ofDigitChars 10 (a ++ b) i = Nat.ofDigitChars 10 b (Nat.ofDigitChars 10 a i) :=
  Nat.ofDigitChars_append i

theorem val_zeros (n i : Nat) : Nat.ofDigitChars 10 (List.replicate n '0') i = 10 ^ n * i := Nat.ofDigitChars_replicate_zero

theorem intText_of_head {a : Str} (hd : Digits a) (hne : a ≠ []) (hh : ∀ c t, a = c :: t → c ≠ '0') : IntText a := by
  refine ⟨hd, hne, ?_⟩
  intro h
  cases a with
  | nil => exact absurd rfl hne
  | cons c t =>
    simp only [List.head?_cons, Option.some.injEq] at h
    exact absurd h (hh c t rfl)

/-- `Prettify` writes a number of the grammar, with a fraction or an exponent, that denotes exactly the decimal number that `Grisu2`
has produced. -/
theorem prettify_spec {ds : Str} {k : Int} (g : GrisuOk ds k) : ∃ ip fr ex,
    prettify ds k = ip ++ (fracText fr ++ expText ex) ∧ IntText ip ∧ Digits fr ∧ (fr = [] → ex ≠ none) ∧
      decimal ip fr ex = (Nat.ofDigitChars 10 ds 0 : ℚ) * 10 ^ k := by
  obtain ⟨hd, hh, hne, hlen, hlo, hhi⟩ := g
  have hten : (10 : ℚ) ≠ 0 := by norm_num
  unfold prettify
  simp only
  by_cases c1 : 0 ≤ k ∧ (ds.length : Int) + k ≤ 21
  · rw [if_pos c1]
    refine ⟨ds ++ List.replicate k.toNat '0', ['0'], none, by simp [fracText, expText], ?_, by intro c hc; simp at hc; subst hc; decide,
      by simp, ?_⟩
    · refine intText_of_head (digits_append hd (digits_zeros _)) (by simp [hne]) ?_
      intro c t h
      cases ds with
      | nil => exact absurd rfl hne
      | cons a ds =>
        simp only [List.cons_append, List.cons.injEq] at h
        rw [← h.1]; exact hh a ds rfl
    · have e : Nat.ofDigitChars 10 (ds ++ List.replicate k.toNat '0' ++ ['0']) 0 = 10 ^ (k.toNat + 1) * Nat.ofDigitChars 10 ds 0 := by
        rw [List.append_assoc, val_append]
        have : List.replicate k.toNat '0' ++ ['0'] = List.replicate (k.toNat + 1) '0' := by
          rw [List.replicate_succ']
        rw [this, val_zeros]
      simp only [decimal, e]
      obtain ⟨n, rfl⟩ := Int.eq_ofNat_of_zero_le c1.1
      simp only [Int.toNat_natCast, Option.getD_none, List.length_singleton]
      push_cast
      have e1 : (10 : ℚ) ^ (-1 : Int) = 1 / 10 := by norm_num
      rw [zpow_natCast, pow_succ]
      simp only [zero_sub, e1]
      ring
  rw [if_neg c1]
  by_cases c2 : 0 < (ds.length : Int) + k ∧ (ds.length : Int) + k ≤ 21
  · rw [if_pos c2]
    have hk : k < 0 := by omega
    have hlt : ((ds.length : Int) + k).toNat < ds.length := by omega
    refine ⟨ds.take ((ds.length : Int) + k).toNat, ds.drop ((ds.length : Int) + k).toNat, none, ?_, ?_, digits_drop _ hd, ?_, ?_⟩
    · rw [fracText, if_neg (by rw [List.drop_eq_nil_iff]; omega)]
      simp [expText]
    · refine intText_of_head (digits_take _ hd) ?_ ?_
      · intro h
        rw [List.take_eq_nil_iff] at h
        rcases h with h | h
        · omega
        · exact hne h
      · intro c t h
        cases ds with
        | nil => exact absurd rfl hne
        | cons a ds =>
          have : (((a :: ds).length : Int) + k).toNat = ((((a :: ds).length : Int) + k).toNat - 1) + 1 := by omega
          rw [this, List.take_succ_cons] at h
          simp only [List.cons.injEq] at h
          rw [← h.1]; exact hh a ds rfl
    · intro h
      rw [List.drop_eq_nil_iff] at h; omega
    · simp only [decimal, List.take_append_drop, Option.getD_none, List.length_drop]
      congr 2
      omega
  rw [if_neg c2]
  by_cases c3 : -6 < (ds.length : Int) + k ∧ (ds.length : Int) + k ≤ 0
  · rw [if_pos c3]
    refine ⟨['0'], List.replicate (-((ds.length : Int) + k)).toNat '0' ++ ds, none, ?_, ?_, digits_append (digits_zeros _) hd, by simp [hne], ?_⟩
    · rw [fracText, if_neg (by simp [hne])]
      simp [expText]
    · exact ⟨by intro c hc; simp at hc; subst hc; decide, by simp, by simp⟩
    · simp only [decimal, Option.getD_none, List.length_append, List.length_replicate]
      rw [← List.append_assoc, val_append]
      have : ['0'] ++ List.replicate (-((ds.length : Int) + k)).toNat '0' = List.replicate ((-((ds.length : Int) + k)).toNat + 1) '0' := by
        rw [List.replicate_succ]; rfl
      rw [this, val_zeros, Nat.mul_zero]
      congr 2
      omega
  rw [if_neg c3, if_neg (by omega)]
  cases ds with
  | nil => exact absurd rfl hne
  | cons c cs =>
    have he : writeExponent (((c :: cs).length : Int) + k - 1) = decInt (((c :: cs).length : Int) + k - 1) :=
      writeExponent_eq _ (by omega)
    have hi : IntText [c] := intText_of_head (by intro x hx; exact hd x (by simp at hx; simp [hx])) (by simp)
      (by intro x t h; simp only [List.cons.injEq] at h; rw [← h.1]; exact hh c cs rfl)
    have hval : decimal [c] cs (some (((c :: cs).length : Int) + k - 1)) = (Nat.ofDigitChars 10 (c :: cs) 0 : ℚ) * 10 ^ k := by
      simp only [decimal, List.singleton_append, Option.getD_some, List.length_cons]
      congr 2
      push_cast
      omega
    cases cs with
    | nil =>
      refine ⟨[c], [], some (([c].length : Int) + k - 1), ?_, hi, digits_nil, by simp, hval⟩
      simp only [fracText, expText, if_true, List.nil_append, ← he]
      rfl
    | cons c' cs =>
      refine ⟨[c], c' :: cs, some (((c :: c' :: cs).length : Int) + k - 1), ?_, hi, fun x hx => hd x (by simp at hx ⊢; tauto), by simp, hval⟩
      simp only [fracText, expText, ← he]
      simp

/-- Nothing is cut: `WriteDouble` reserves 25 bytes (`writer.h:566`). -/
theorem prettify_length {ds : Str} {k : Int} (g : GrisuOk ds k) : (prettify ds k).length ≤ 24 := by
  obtain ⟨hd, hh, hne, hlen, hlo, hhi⟩ := g
  have hw : (writeExponent ((ds.length : Int) + k - 1)).length ≤ 4 := by
    unfold writeExponent
    simp only
    split
    · split <;> simp
    · split
      · split <;> simp
      · split <;> simp
  unfold prettify
  simp only
  by_cases c1 : 0 ≤ k ∧ (ds.length : Int) + k ≤ 21
  · rw [if_pos c1]; simp; omega
  rw [if_neg c1]
  by_cases c2 : 0 < (ds.length : Int) + k ∧ (ds.length : Int) + k ≤ 21
  · rw [if_pos c2]; simp; omega
  rw [if_neg c2]
  by_cases c3 : -6 < (ds.length : Int) + k ∧ (ds.length : Int) + k ≤ 0
  · rw [if_pos c3]; simp; omega
  rw [if_neg c3, if_neg (by omega)]
  match ds, hne with
  | [c], _ => simp at hw ⊢; omega
  | c :: c' :: cs, _ => simp at hw hlen ⊢; omega


theorem isNumber_prettify {fp : Fp} {ds : Str} {k : Int} {neg : Bool} {d : Dbl} (g : GrisuOk ds k)
    (h : fp.strtod (minusText neg ++ prettify ds k) = some d) : IsNumber fp (minusText neg ++ prettify ds k) (.dbl d) := by
  obtain ⟨ip, fr, ex, e, h1, h2, h3, -⟩ := prettify_spec g
  have hf : FracText (fracText fr) := by
    unfold fracText
    by_cases hn : fr = []
    · rw [if_pos hn]; exact .inl rfl
    · rw [if_neg hn]; exact .inr ⟨fr, rfl, hn, h2⟩
  have he : ExpText (expText ex) := by
    cases ex with
    | none => exact .inl rfl
    | some x =>
      cases x with
      | ofNat n => exact .inr ⟨'e', [], dec n, rfl, .inl rfl, .inl rfl, dec_ne_nil n, fun c hc => dec_isDigit hc⟩
      | negSucc n => exact .inr ⟨'e', ['-'], dec (n + 1), rfl, .inl rfl, .inr (.inr rfl), dec_ne_nil _, fun c hc => dec_isDigit hc⟩
  have e' : minusText neg ++ prettify ds k = minusText neg ++ ip ++ fracText fr ++ expText ex := by rw [e]; simp
  rw [e'] at h ⊢
  refine .real neg ip _ _ d h1 hf he ?_ h
  intro a b
  unfold fracText at a
  by_cases hn : fr = []
  · cases ex with
    | none => exact absurd rfl (h3 hn)
    | some x => cases b
  · rw [if_neg hn] at a; cases a

/-- What is assumed of floating point for a number to be read as it was written: the digits are as `Grisu2` promises, and the
text is converted to the same number. (`ParseJSON` does not ask RapidJSON for full precision, so this is not so for every
number: the last bit may differ.) -/
structure DblOk (fp : Fp) (d : Dbl) : Prop where
  finite : d.isNanOrInf = false
  grisu : d.isZero = false → GrisuOk (fp.grisu (if d.sign then d.abs else d)).1 (fp.grisu (if d.sign then d.abs else d)).2
  strtod : fp.strtod (dtoa fp d) = some d

theorem isNumber_dtoa {fp : Fp} {d : Dbl} (h : DblOk fp d) : IsNumber fp (dtoa fp d) (.dbl d) := by
  obtain ⟨-, hg, hs⟩ := h
  unfold dtoa at hs ⊢
  by_cases hz : d.isZero = true
  · rw [if_pos hz] at hs ⊢
    have h0 : IntText ['0'] := ⟨by intro c hc; simp at hc; subst hc; decide, by simp, by simp⟩
    have hf : FracText ['.', '0'] := .inr ⟨['0'], rfl, by simp, h0.1⟩
    have e : (if d.sign = true then ['-'] else []) ++ ['0', '.', '0'] = minusText d.sign ++ ['0'] ++ ['.', '0'] ++ [] := by
      unfold minusText; simp
    rw [e] at hs ⊢
    exact .real d.sign ['0'] ['.', '0'] [] d h0 hf (.inl rfl) (by intro h; cases h) hs
  · rw [if_neg hz] at hs ⊢
    have hg := hg (by simpa using hz)
    by_cases hsg : d.sign = true
    · rw [if_pos hsg] at hs hg ⊢
      exact isNumber_prettify (neg := true) hg hs
    · rw [if_neg hsg] at hs hg ⊢
      exact isNumber_prettify (neg := false) hg hs

/-- `WriteDouble` never writes more than the 25 bytes it reserves (`writer.h:566-568`). -/
theorem dtoa_length {fp : Fp} {d : Dbl} (h : DblOk fp d) : (dtoa fp d).length ≤ 25 := by
  obtain ⟨-, hg, -⟩ := h
  unfold dtoa
  by_cases hz : d.isZero = true
  · rw [if_pos hz]; split <;> simp
  · rw [if_neg hz]
    have hg := hg (by simpa using hz)
    by_cases hsg : d.sign = true
    · rw [if_pos hsg] at hg ⊢
      have := prettify_length hg
      simp; omega
    · rw [if_neg hsg] at hg ⊢
      have := prettify_length hg
      omega

/-! ### Strings -/

theorem isHex_hexDigit {n : Nat} (h : n < 16) : IsHex (hexDigit n) n := by
  have key : ∀ n : Fin 16, hexDigit n.1 = Nat.digitChar n.1 ∨ hexDigit n.1 = (Nat.digitChar n.1).toUpper := by decide
  exact ⟨h, key ⟨n, h⟩⟩

theorem utf8_ascii (c : Char) (h : c.toNat < 0x20) : utf8 c = [c] := by
  rw [← encodeUtf8_eq, encodeUtf8, if_pos (by omega)]
  have : c.toNat &&& 0xFF = c.toNat := by
    rw [show (0xFF : Nat) = 2 ^ 8 - 1 by rfl, Nat.and_two_pow_sub_one_eq_mod]; omega
  rw [this, Char.ofNat_toNat]

theorem isChars_escaped (s : Str) : IsChars (escaped s) s := by
  induction s with
  | nil => exact .nil
  | cons c s ih =>
    unfold escaped
    by_cases h1 : ∃ x, (x, c) ∈ shortEscapes ∧ escapeOf c = some x ∧ x ≠ 'u'
    · obtain ⟨x, h1, h2, h3⟩ := h1
      rw [h2]
      split
      · rename_i h; exact absurd (Option.some.inj h) h3
      · rename_i h; cases h; exact .short x c _ _ h1 ih
      · rename_i h; cases h
    · have hno : ∀ x, (x, c) ∈ shortEscapes → escapeOf c = some x → x = 'u' := by
        intro x hx hy
        by_cases hu : x = 'u'
        · exact hu
        · exact absurd ⟨x, hx, hy, hu⟩ h1
      have n1 : c ≠ '\x08' := by rintro rfl; have := hno 'b' (by decide) (by decide); revert this; decide
      have n2 : c ≠ '\t' := by rintro rfl; have := hno 't' (by decide) (by decide); revert this; decide
      have n3 : c ≠ '\n' := by rintro rfl; have := hno 'n' (by decide) (by decide); revert this; decide
      have n4 : c ≠ '\x0c' := by rintro rfl; have := hno 'f' (by decide) (by decide); revert this; decide
      have n5 : c ≠ '\r' := by rintro rfl; have := hno 'r' (by decide) (by decide); revert this; decide
      have n6 : c ≠ '"' := by rintro rfl; have := hno '"' (by decide) (by decide); revert this; decide
      have n7 : c ≠ '\\' := by rintro rfl; have := hno '\\' (by decide) (by decide); revert this; decide
      by_cases hc : c.toNat < 0x20
      · have he : escapeOf c = some 'u' := by simp [escapeOf, n1, n2, n3, n4, n5, n6, n7, hc]
        rw [he]
        have h4 : IsHex4 ['0', '0', hexDigit (c.toNat / 16), hexDigit (c.toNat % 16)] c.toNat :=
          ⟨_, _, _, _, 0, 0, c.toNat / 16, c.toNat % 16, rfl, ⟨by omega, by decide⟩, ⟨by omega, by decide⟩,
            isHex_hexDigit (by omega), isHex_hexDigit (by omega), by omega⟩
        have := IsChars.unicode _ c _ _ h4 ih
        rw [utf8_ascii c hc] at this
        exact this
      · have he : escapeOf c = none := by simp [escapeOf, n1, n2, n3, n4, n5, n6, n7, hc]
        rw [he]
        exact .plain c _ _ (by omega) n6 n7 ih

theorem isString_writeString (s : Str) : IsString (writeString s) s := .mk _ _ (isChars_escaped s)


/-! ### Documents -/

mutual
/-- The text of a document, by recursion on it, with no stack of levels. -/
def text (fp : Fp) : J → Str
  | .null => ['n', 'u', 'l', 'l']
  | .bool b => if b then ['t', 'r', 'u', 'e'] else ['f', 'a', 'l', 's', 'e']
  | .int i => decInt i
  | .dbl d => dtoa fp d
  | .str s => writeString s
  | .arr l => '[' :: (textAll fp true l ++ [']'])
  | .obj m => '{' :: (textMembers fp true m ++ ['}'])
def textAll (fp : Fp) : Bool → List J → Str
  | _, [] => []
  | first, j :: js => (if first then [] else [',']) ++ (text fp j ++ textAll fp false js)
def textMembers (fp : Fp) : Bool → List (Str × J) → Str
  | _, [] => []
  | first, (k, j) :: m => (if first then [] else [',']) ++ (writeString k ++ ':' :: (text fp j ++ textMembers fp false m))
end

mutual
/-- Every number of the document can be read back as it is written. -/
def JOk (fp : Fp) : J → Prop
  | .int i => InRange i
  | .dbl d => DblOk fp d
  | .arr l => JOkAll fp l
  | .obj m => JOkMembers fp m
  | _ => True
def JOkAll (fp : Fp) : List J → Prop
  | [] => True
  | j :: js => JOk fp j ∧ JOkAll fp js
def JOkMembers (fp : Fp) : List (Str × J) → Prop
  | [] => True
  | (_, j) :: m => JOk fp j ∧ JOkMembers fp m
end

theorem put_put (w : Writer) (a b : Str) : (w.put a).put b = w.put (a ++ b) := by simp [Writer.put]

mutual
theorem accept_eq (fp : Fp) : ∀ (j : J), JOk fp j → ∀ w, accept fp j w = (true, w.pre.put (text fp j))
  | .null, _, w => by simp [accept, text]
  | .bool b, _, w => by simp [accept, text]
  | .int i, _, w => by simp [accept, text]
  | .dbl d, h, w => by
    simp only [JOk] at h
    simp [accept, text, h.finite]
  | .str s, _, w => by simp [accept, text]
  | .arr l, h, w => by
    simp only [JOk] at h
    have := acceptAll_eq fp l h w.pre.levels 0 (w.pre.out ++ ['['])
    have e : w.startArray = ⟨w.pre.out ++ ['['], ⟨0, true⟩ :: w.pre.levels⟩ := rfl
    simp only [accept, text, e, this, decide_true]
    simp [Writer.endArray, Writer.put]
  | .obj m, h, w => by
    simp only [JOk] at h
    have := acceptMembers_eq fp m h w.pre.levels 0 (w.pre.out ++ ['{'])
    have e : w.startObject = ⟨w.pre.out ++ ['{'], ⟨2 * 0, false⟩ :: w.pre.levels⟩ := rfl
    simp only [accept, text, e, this, decide_true]
    simp [Writer.endObject, Writer.put]
theorem acceptAll_eq (fp : Fp) : ∀ (l : List J), JOkAll fp l → ∀ ls n out,
    acceptAll fp l ⟨out, ⟨n, true⟩ :: ls⟩ = (true, ⟨out ++ textAll fp (decide (n = 0)) l, ⟨n + l.length, true⟩ :: ls⟩)
  | [], _, ls, n, out => by simp [acceptAll, textAll]
  | j :: js, h, ls, n, out => by
    simp only [JOkAll] at h
    have h1 := accept_eq fp j h.1 ⟨out, ⟨n, true⟩ :: ls⟩
    have h2 := acceptAll_eq fp js h.2 ls (n + 1)
    simp only [acceptAll, h1, textAll]
    by_cases hn : n = 0
    · subst hn
      simp only [Writer.pre, Writer.put, Nat.lt_irrefl, if_false, h2, gt_iff_lt]
      simp
      omega
    · have : 0 < n := by omega
      simp only [Writer.pre, Writer.put, this, gt_iff_lt, if_true, h2]
      simp [hn]
      omega
theorem acceptMembers_eq (fp : Fp) : ∀ (m : List (Str × J)), JOkMembers fp m → ∀ ls n out,
    acceptMembers fp m ⟨out, ⟨2 * n, false⟩ :: ls⟩ =
      (true, ⟨out ++ textMembers fp (decide (n = 0)) m, ⟨2 * (n + m.length), false⟩ :: ls⟩)
  | [], _, ls, n, out => by simp [acceptMembers, textMembers]
  | (k, j) :: m, h, ls, n, out => by
    simp only [JOkMembers] at h
    have h1 := fun w => accept_eq fp j h.1 w
    have h2 := acceptMembers_eq fp m h.2 ls (n + 1)
    simp only [acceptMembers, h1, textMembers]
    by_cases hn : n = 0
    · subst hn
      simp only [Writer.pre, Writer.put, Nat.mul_zero, Nat.lt_irrefl, if_false, gt_iff_lt, Nat.zero_add, Nat.lt_add_one,
        if_true, Bool.false_eq_true, show ¬ (1 % 2 = 0) by decide]
      have := h2 (out ++ writeString k ++ [':'] ++ text fp j)
      simp only [Nat.zero_add, Nat.mul_one] at this
      rw [this]
      simp
      omega
    · have h0 : 0 < 2 * n := by omega
      simp only [Writer.pre, Writer.put, h0, gt_iff_lt, if_true, Bool.false_eq_true, if_false, show 2 * n % 2 = 0 by omega,
        show 0 < 2 * n + 1 by omega, show ¬ ((2 * n + 1) % 2 = 0) by omega]
      have := h2 (out ++ [','] ++ writeString k ++ [':'] ++ text fp j)
      simp only [Nat.mul_add, Nat.mul_one] at this
      rw [this]
      simp [hn]
      omega
end

theorem ws_nil : Ws [] := fun _ h => nomatch h

mutual
theorem isValue_text (fp : Fp) : ∀ (j : J), JOk fp j → IsValue fp (text fp j) j
  | .null, _ => .null
  | .bool true, _ => .true
  | .bool false, _ => .false
  | .int i, h => .number _ _ (isNumber_decInt fp i (by simpa only [JOk] using h))
  | .dbl d, h => .number _ _ (isNumber_dtoa (by simpa only [JOk] using h))
  | .str s, _ => .string _ _ (isString_writeString s)
  | .arr [], _ => by simpa [text, textAll] using IsValue.emptyArray (fp := fp) [] ws_nil
  | .arr (j :: js), h => by
    simp only [JOk] at h
    exact .array _ _ (isElements_text fp (j :: js) h (by simp))
  | .obj [], _ => by simpa [text, textMembers] using IsValue.emptyObject (fp := fp) [] ws_nil
  | .obj ((k, j) :: m), h => by
    simp only [JOk] at h
    exact .object _ _ (isMembers_text fp ((k, j) :: m) h (by simp))
theorem isElements_text (fp : Fp) : ∀ (l : List J), JOkAll fp l → l ≠ [] → IsElements fp (textAll fp true l) l
  | [], _, hne => absurd rfl hne
  | [j], h, _ => by
    simp only [JOkAll] at h
    simpa [textAll] using IsElements.last [] _ [] j ws_nil (isValue_text fp j h.1) ws_nil
  | j :: (j' :: js), h, _ => by
    have h' := h
    simp only [JOkAll] at h
    have := isElements_text fp (j' :: js) (by simp only [JOkAll]; exact h.2) (by simp)
    simpa [textAll] using IsElements.more [] _ [] _ j _ ws_nil (isValue_text fp j h.1) ws_nil this
theorem isMembers_text (fp : Fp) : ∀ (m : List (Str × J)), JOkMembers fp m → m ≠ [] → IsMembers fp (textMembers fp true m) m
  | [], _, hne => absurd rfl hne
  | [(k, j)], h, _ => by
    simp only [JOkMembers] at h
    simpa [textMembers] using IsMembers.last [] _ [] [] _ [] k j ws_nil (isString_writeString k) ws_nil ws_nil (isValue_text fp j h.1) ws_nil
  | (k, j) :: ((k', j') :: m), h, _ => by
    simp only [JOkMembers] at h
    have := isMembers_text fp ((k', j') :: m) (by simp only [JOkMembers]; exact h.2) (by simp)
    simpa [textMembers] using IsMembers.more [] _ [] [] _ [] _ k j _ ws_nil (isString_writeString k) ws_nil ws_nil
      (isValue_text fp j h.1) ws_nil this
end

/-! ### No control characters -/

/-- No control characters: in particular no line breaks, tabs or zeros. -/
def OneLine (s : Str) : Prop := ∀ c ∈ s, 0x20 ≤ c.toNat

theorem oneLine_append {a b : Str} (ha : OneLine a) (hb : OneLine b) : OneLine (a ++ b) := by
  intro c hc
  rcases List.mem_append.1 hc with h | h
  · exact ha c h
  · exact hb c h

theorem oneLine_cons {c : Char} {a : Str} (hc : 0x20 ≤ c.toNat) (ha : OneLine a) : OneLine (c :: a) := by
  intro x hx
  rcases List.mem_cons.1 hx with rfl | h
  · exact hc
  · exact ha x h

theorem oneLine_nil : OneLine [] := fun _ h => nomatch h

theorem oneLine_digits {a : Str} (h : Digits a) : OneLine a := by
  intro c hc
  have := digit_bounds (h c hc)
  omega

theorem isHex_oneLine {c : Char} {v : Nat} (h : IsHex c v) : 0x20 ≤ c.toNat := by
  obtain ⟨hv, h⟩ := h
  have key : ∀ v : Fin 16, 0x20 ≤ (Nat.digitChar v.1).toNat ∧ 0x20 ≤ (Nat.digitChar v.1).toUpper.toNat := by decide
  rcases h with rfl | rfl
  · exact (key ⟨v, hv⟩).1
  · exact (key ⟨v, hv⟩).2

theorem isHex4_oneLine {s : Str} {n : Nat} (h : IsHex4 s n) : OneLine s := by
  obtain ⟨a, b, c, d, x, y, z, w, rfl, h1, h2, h3, h4, -⟩ := h
  exact oneLine_cons (isHex_oneLine h1) (oneLine_cons (isHex_oneLine h2) (oneLine_cons (isHex_oneLine h3)
    (oneLine_cons (isHex_oneLine h4) oneLine_nil)))

theorem isChars_oneLine {s v : Str} (h : IsChars s v) : OneLine s := by
  induction h with
  | nil => exact oneLine_nil
  | plain c s v h1 _ _ _ ih => exact oneLine_cons h1 ih
  | short x y s v h _ ih =>
    refine oneLine_cons (by decide) (oneLine_cons ?_ ih)
    simp only [shortEscapes, List.mem_cons, Prod.mk.injEq, List.not_mem_nil, or_false] at h
    rcases h with h | h | h | h | h | h | h | h <;> rw [h.1] <;> decide
  | unicode h c s v hh _ ih =>
    exact oneLine_cons (by decide) (oneLine_cons (by decide) (oneLine_append (isHex4_oneLine hh) ih))
  | surrogates h l x y c s v _ _ hh hl _ _ ih =>
    exact oneLine_cons (by decide) (oneLine_cons (by decide) (oneLine_append (isHex4_oneLine hh)
      (oneLine_cons (by decide) (oneLine_cons (by decide) (oneLine_append (isHex4_oneLine hl) ih)))))

theorem writeString_oneLine (s : Str) : OneLine (writeString s) :=
  oneLine_cons (by decide) (oneLine_append (isChars_oneLine (isChars_escaped s)) (oneLine_cons (by decide) oneLine_nil))

theorem isNumber_oneLine {fp : Fp} {s : Str} {j : J} (h : IsNumber fp s j) : OneLine s := by
  have hm : ∀ neg, OneLine (minusText neg) := by intro neg; cases neg; exact oneLine_nil; exact oneLine_cons (by decide) oneLine_nil
  cases h with
  | int neg ds hi _ => exact oneLine_append (hm neg) (oneLine_digits hi.1)
  | real neg ds fr ex d hi hf he _ _ =>
    refine oneLine_append (oneLine_append (oneLine_append (hm neg) (oneLine_digits hi.1)) ?_) ?_
    · rcases hf with rfl | ⟨ds, rfl, -, h⟩
      · exact oneLine_nil
      · exact oneLine_cons (by decide) (oneLine_digits h)
    · rcases he with rfl | ⟨x, sg, ds, rfl, hx, hs, -, h⟩
      · exact oneLine_nil
      · refine oneLine_cons (by rcases hx with rfl | rfl <;> decide) (oneLine_append ?_ (oneLine_digits h))
        rcases hs with rfl | rfl | rfl
        · exact oneLine_nil
        · exact oneLine_cons (by decide) oneLine_nil
        · exact oneLine_cons (by decide) oneLine_nil

mutual
theorem text_oneLine (fp : Fp) : ∀ (j : J), JOk fp j → OneLine (text fp j)
  | .null, _ => by simp [OneLine, text]
  | .bool b, _ => by cases b <;> simp [OneLine, text]
  | .int i, h => isNumber_oneLine (isNumber_decInt fp i (by simpa only [JOk] using h))
  | .dbl d, h => isNumber_oneLine (isNumber_dtoa (by simpa only [JOk] using h))
  | .str s, _ => writeString_oneLine s
  | .arr l, h => by
    simp only [JOk] at h
    exact oneLine_cons (by decide) (oneLine_append (textAll_oneLine fp true l h) (oneLine_cons (by decide) oneLine_nil))
  | .obj m, h => by
    simp only [JOk] at h
    exact oneLine_cons (by decide) (oneLine_append (textMembers_oneLine fp true m h) (oneLine_cons (by decide) oneLine_nil))
theorem textAll_oneLine (fp : Fp) : ∀ (b : Bool) (l : List J), JOkAll fp l → OneLine (textAll fp b l)
  | _, [], _ => oneLine_nil
  | b, j :: js, h => by
    simp only [JOkAll] at h
    refine oneLine_append ?_ (oneLine_append (text_oneLine fp j h.1) (textAll_oneLine fp false js h.2))
    cases b
    · exact oneLine_cons (by decide) oneLine_nil
    · exact oneLine_nil
theorem textMembers_oneLine (fp : Fp) : ∀ (b : Bool) (l : List (Str × J)), JOkMembers fp l → OneLine (textMembers fp b l)
  | _, [], _ => oneLine_nil
  | b, (k, j) :: m, h => by
    simp only [JOkMembers] at h
    refine oneLine_append ?_ (oneLine_append (writeString_oneLine k) (oneLine_cons (by decide)
      (oneLine_append (text_oneLine fp j h.1) (textMembers_oneLine fp false m h.2))))
    cases b
    · exact oneLine_cons (by decide) oneLine_nil
    · exact oneLine_nil
end

theorem oneLine_not_mem {s : Str} (h : OneLine s) {c : Char} (hc : c.toNat < 0x20) : c ∉ s := by
  intro hm
  have := h c hm
  omega

/-- The whole of what is written. -/
theorem resultingJSON_eq {fp : Fp} {j : J} (h : JOk fp j) : resultingJSON fp j = text fp j := by
  have e := accept_eq fp j h ⟨[], []⟩
  unfold resultingJSON
  rw [e]
  simp only [Writer.pre, Writer.put, List.nil_append]
  exact cString_eq (oneLine_not_mem (text_oneLine fp j h) (by decide))

end Current.Json
