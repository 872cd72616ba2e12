import Verif.Json.GrisuValue
import Mathlib.Data.Int.Log
import Mathlib.Algebra.Order.Round
/-!
C154: from the digits to the text that `JSON()` prints for a `double`, and back to the `double`.
-/
set_option linter.unusedSimpArgs false
set_option linter.unusedVariables false
namespace Current.Json.Grisu
open Current.Persist (Str dec decInt readInt readInt_decInt)

/-! ### what a text denotes -/

/-- The number that a JSON text denotes (RFC 8259, section 6). -/
def Denotes (s : Str) (x : ℚ) : Prop :=
  ∃ neg ip fr ex, s = minusText neg ++ (ip ++ (fracText fr ++ expText ex)) ∧ IntText ip ∧ Digits fr ∧ x = (if neg then -1 else 1) * decimal ip fr ex

theorem span_unique (a b r r' : Str) (ha : Digits a) (hb : Digits b) (hr : ∀ c, r.head? = some c → c.isDigit = false)
    (hr' : ∀ c, r'.head? = some c → c.isDigit = false) (h : a ++ r = b ++ r') : a = b ∧ r = r' := by
  induction a generalizing b with
  | nil =>
    cases b with
    | nil => exact ⟨rfl, by simpa using h⟩
    | cons c b =>
      have h1 := hb c (by simp)
      simp only [List.nil_append, List.cons_append] at h
      have h2 := hr c (by rw [h]; rfl)
      rw [h1] at h2; cases h2
  | cons c a ih =>
    cases b with
    | nil =>
      have h1 := ha c (by simp)
      simp only [List.nil_append, List.cons_append] at h
      have h2 := hr' c (by rw [← h]; rfl)
      rw [h1] at h2; cases h2
    | cons c' b =>
      simp only [List.cons_append, List.cons.injEq] at h
      obtain ⟨e1, e2⟩ := ih b (fun x hx => ha x (by simp [hx])) (fun x hx => hb x (by simp [hx])) h.2
      exact ⟨by rw [h.1, e1], e2⟩

theorem expText_head (ex : Option Int) : ∀ c, (expText ex).head? = some c → c = 'e' := by
  intro c h
  cases ex <;> simp [expText] at h
  exact h.symm

theorem fracExp_head (fr : Str) (ex : Option Int) : ∀ c, (fracText fr ++ expText ex).head? = some c → c.isDigit = false := by
  intro c h
  unfold fracText at h
  split at h
  · rw [List.nil_append] at h
    rw [expText_head ex c h]; rfl
  · simp only [List.cons_append, List.head?_cons, Option.some.injEq] at h
    rw [← h]; rfl

theorem decInt_inj {a b : Int} (h : decInt a = decInt b) : a = b := by
  have h1 := readInt_decInt a [] (by simp)
  have h2 := readInt_decInt b [] (by simp)
  rw [h, h2] at h1
  simpa using h1.symm

theorem expText_inj {a b : Option Int} (h : expText a = expText b) : a = b := by
  cases a <;> cases b <;> simp [expText] at h ⊢
  exact decInt_inj h

theorem fracExp_inj {fr fr' : Str} {ex ex' : Option Int} (h1 : Digits fr) (h2 : Digits fr')
    (h : fracText fr ++ expText ex = fracText fr' ++ expText ex') : fr = fr' ∧ ex = ex' := by
  unfold fracText at h
  by_cases c1 : fr = [] <;> by_cases c2 : fr' = []
  · rw [if_pos c1, if_pos c2] at h
    exact ⟨by rw [c1, c2], expText_inj (by simpa using h)⟩
  · rw [if_pos c1, if_neg c2] at h
    have := expText_head ex '.' (by rw [show expText ex = _ from h]; rfl)
    cases this
  · rw [if_neg c1, if_pos c2] at h
    have := expText_head ex' '.' (by rw [show expText ex' = _ from h.symm]; rfl)
    cases this
  · rw [if_neg c1, if_neg c2] at h
    simp only [List.cons_append, List.cons.injEq, true_and] at h
    have he : ∀ x : Option Int, ∀ c, (expText x).head? = some c → c.isDigit = false := by
      intro x c hc
      rw [expText_head x c hc]; rfl
    obtain ⟨e1, e2⟩ := span_unique _ _ _ _ h1 h2 (he ex) (he ex') h
    exact ⟨e1, expText_inj e2⟩

theorem text_inj {neg neg' : Bool} {ip ip' fr fr' : Str} {ex ex' : Option Int} (i1 : IntText ip) (i2 : IntText ip') (h1 : Digits fr) (h2 : Digits fr')
    (h : minusText neg ++ (ip ++ (fracText fr ++ expText ex)) = minusText neg' ++ (ip' ++ (fracText fr' ++ expText ex'))) :
    neg = neg' ∧ ip = ip' ∧ fr = fr' ∧ ex = ex' := by
  have hd : ∀ (i : Str) (r : Str), IntText i → ∀ t, i ++ r ≠ '-' :: t := by
    intro i r hi t he
    obtain ⟨hdg, hne, -⟩ := hi
    cases i with
    | nil => exact hne rfl
    | cons c i =>
      simp only [List.cons_append, List.cons.injEq] at he
      have := hdg c (by simp)
      rw [he.1] at this
      revert this; decide
  have hn : neg = neg' := by
    cases neg <;> cases neg' <;> simp only [minusText, if_true, if_false, Bool.false_eq_true, List.nil_append, List.cons_append, List.singleton_append] at h ⊢
    · exact absurd h (hd _ _ i1 _)
    · exact absurd h.symm (hd _ _ i2 _)
  subst hn
  have h := List.append_cancel_left h
  obtain ⟨e1, e2⟩ := span_unique _ _ _ _ i1.1 i2.1 (fracExp_head fr ex) (fracExp_head fr' ex') h
  obtain ⟨e3, e4⟩ := fracExp_inj h1 h2 e2
  exact ⟨rfl, e1, e3, e4⟩

/-- A text denotes one number. -/
theorem denotes_unique {s : Str} {x y : ℚ} (hx : Denotes s x) (hy : Denotes s y) : x = y := by
  obtain ⟨n, ip, fr, ex, e, h1, h2, rfl⟩ := hx
  obtain ⟨n', ip', fr', ex', e', h1', h2', rfl⟩ := hy
  obtain ⟨rfl, rfl, rfl, rfl⟩ := text_inj h1 h1' h2 h2' (e.symm.trans e')
  rfl

/-! ### doubles -/

/-- The value of a `double`; that of an infinity is taken to be `2^1024` with its sign. -/
def value (d : Dbl) : ℚ := (if 2 ^ 63 ≤ d.bits.toNat then -1 else 1) * ieee (d.bits.toNat % 2 ^ 63)

/-- Not a NaN and not an infinity. -/
def Finite (d : Dbl) : Prop := d.bits.toNat % 2 ^ 63 < infinity

/-- Not a NaN. -/
def Number (d : Dbl) : Prop := d.bits.toNat % 2 ^ 63 ≤ infinity

theorem and_pow_sub (n k : Nat) : n &&& (2 ^ k - 1) = n % 2 ^ k := Nat.and_two_pow_sub_one_eq_mod n k

theorem toNat_abs (d : Dbl) : d.abs.bits.toNat = d.bits.toNat % 2 ^ 63 := by
  unfold Dbl.abs
  rw [BitVec.toNat_and]
  exact and_pow_sub _ 63

theorem isZero_iff (d : Dbl) : d.isZero = true ↔ d.bits.toNat % 2 ^ 63 = 0 := by
  unfold Dbl.isZero
  rw [beq_iff_eq, ← BitVec.toNat_inj, BitVec.toNat_and]
  show d.bits.toNat &&& (2 ^ 63 - 1) = 0 ↔ _
  rw [and_pow_sub]

theorem and_shift (n m k : Nat) : n &&& (m <<< k) = ((n >>> k) &&& m) <<< k := by
  apply Nat.eq_of_testBit_eq
  intro i
  simp only [Nat.testBit_and, Nat.testBit_shiftLeft, Nat.testBit_shiftRight]
  by_cases h : k ≤ i
  · simp [h, Nat.add_sub_cancel' h]
  · simp [h]

theorem sign_iff (d : Dbl) : d.sign = true ↔ 2 ^ 63 ≤ d.bits.toNat := by
  unfold Dbl.sign
  rw [bne_iff_ne, ne_eq, ← BitVec.toNat_inj, BitVec.toNat_and]
  show ¬ (d.bits.toNat &&& ((2 ^ 1 - 1) <<< 63) = 0) ↔ _
  have := d.bits.isLt
  rw [and_shift, and_pow_sub, Nat.shiftLeft_eq, Nat.shiftRight_eq_div_pow]
  omega

theorem isNanOrInf_iff (d : Dbl) : d.isNanOrInf = false ↔ Finite d := by
  unfold Dbl.isNanOrInf Finite infinity
  rw [beq_eq_false_iff_ne, ne_eq, ← BitVec.toNat_inj, BitVec.toNat_and]
  show ¬ (d.bits.toNat &&& ((2 ^ 11 - 1) <<< 52) = 2047 * 2 ^ 52) ↔ _
  have := d.bits.isLt
  rw [and_shift, and_pow_sub, Nat.shiftLeft_eq, Nat.shiftRight_eq_div_pow]
  omega

/-- RapidJSON's floating point: `Grisu2` as modelled; reading is not modelled. -/
def realFp (rnd : ℚ → ℚ) (strtod : Str → Option Dbl) : Fp := ⟨fun d => (grisu2 rnd d.bits.toNat).getD ([], 0), strtod⟩

theorem realFp_grisu {rnd : ℚ → ℚ} (R : Rounding rnd) (st : Str → Option Dbl) (d : Dbl) (hf : Finite d) (h0 : d.isZero = false) :
    GrisuOk ((realFp rnd st).grisu (if d.sign then d.abs else d)).1 ((realFp rnd st).grisu (if d.sign then d.abs else d)).2 ∧
    ∀ b ≤ infinity, b ≠ d.bits.toNat % 2 ^ 63 →
      |(Nat.ofDigitChars 10 ((realFp rnd st).grisu (if d.sign then d.abs else d)).1 0 : ℚ) * 10 ^ ((realFp rnd st).grisu (if d.sign then d.abs else d)).2 -
        ieee (d.bits.toNat % 2 ^ 63)| <
      |(Nat.ofDigitChars 10 ((realFp rnd st).grisu (if d.sign then d.abs else d)).1 0 : ℚ) * 10 ^ ((realFp rnd st).grisu (if d.sign then d.abs else d)).2 - ieee b| := by
  have hz : 0 < d.bits.toNat % 2 ^ 63 := by
    rw [Nat.pos_iff_ne_zero]
    intro h
    rw [← isZero_iff, h0] at h
    cases h
  obtain ⟨u, hu, hu64, hum⟩ : ∃ u, u = (if d.sign then d.abs else d).bits.toNat ∧ u < 2 ^ 64 ∧ u % 2 ^ 63 = d.bits.toNat % 2 ^ 63 := by
    refine ⟨_, rfl, BitVec.isLt _, ?_⟩
    split
    · rw [toNat_abs, Nat.mod_mod]
    · rfl
  have hfin : u % 2 ^ 63 < infinity := by rw [hum]; exact hf
  obtain ⟨ds, k, hg, hok, hn⟩ := grisu_nearest R u hu64 (by rw [hum]; exact hz) hfin
  have e : (realFp rnd st).grisu (if d.sign then d.abs else d) = (ds, k) := by
    unfold realFp
    simp only
    rw [← hu, hg]; rfl
  rw [e]
  rw [hum] at hn
  exact ⟨hok, hn⟩

theorem minus_dtoa (fp : Fp) (d : Dbl) (h0 : d.isZero = false) :
    dtoa fp d = minusText d.sign ++ prettify (fp.grisu (if d.sign then d.abs else d)).1 (fp.grisu (if d.sign then d.abs else d)).2 := by
  unfold dtoa minusText
  rw [if_neg (by rw [h0]; simp)]
  by_cases hs : d.sign = true
  · rw [if_pos hs, if_pos hs, if_pos hs]; rfl
  · rw [if_neg hs, if_neg hs, if_neg hs]; rfl

theorem ieee_zero : ieee 0 = 0 := by unfold ieee; simp

theorem ieee_nonneg (a : Nat) : 0 ≤ ieee a := by
  rw [← ieee_zero]; exact ieee_strictMono.monotone (Nat.zero_le _)

/-- The text of a finite `double` denotes a number, with the sign of the `double`, nearer to it than to any other. -/
theorem dtoa_spec {rnd : ℚ → ℚ} (R : Rounding rnd) (st : Str → Option Dbl) (d : Dbl) (hf : Finite d) :
    ∃ ip fr ex, dtoa (realFp rnd st) d = minusText d.sign ++ (ip ++ (fracText fr ++ expText ex)) ∧ IntText ip ∧ Digits fr ∧
      0 ≤ decimal ip fr ex ∧
      ∀ b ≤ infinity, b ≠ d.bits.toNat % 2 ^ 63 → |decimal ip fr ex - ieee (d.bits.toNat % 2 ^ 63)| < |decimal ip fr ex - ieee b| := by
  by_cases hz : d.isZero = true
  · refine ⟨['0'], ['0'], none, ?_, ⟨by intro c hc; simp at hc; subst hc; decide, by simp, by simp⟩, by intro c hc; simp at hc; subst hc; decide, ?_, ?_⟩
    · unfold dtoa minusText
      rw [if_pos hz]; rfl
    · simp [decimal, Nat.ofDigitChars]
    · intro b _ hb
      rw [(isZero_iff d).1 hz] at hb ⊢
      have : ieee 0 < ieee b := ieee_strictMono (by omega)
      rw [ieee_zero] at this ⊢
      have e : decimal ['0'] ['0'] none = 0 := by simp [decimal, Nat.ofDigitChars]
      rw [e]
      simp only [sub_self, abs_zero, zero_sub, abs_neg]
      rw [abs_of_pos this]; exact this
  · have hz : d.isZero = false := by simpa using hz
    obtain ⟨hok, hn⟩ := realFp_grisu R st d hf hz
    obtain ⟨ip, fr, ex, e, h1, h2, h3, h4⟩ := prettify_spec hok
    refine ⟨ip, fr, ex, by rw [minus_dtoa _ _ hz, e], h1, h2, ?_, ?_⟩
    · rw [h4]
      exact mul_nonneg (Nat.cast_nonneg _) (le_of_lt (zpow_pos (by norm_num) _))
    · rw [h4]; exact hn

/-- **C154.** What `JSON()` prints for a finite `double` is a number of the JSON grammar that is nearer to this `double` than to every
`double` of another value (an infinity counts as `2^1024`): a reader that rounds correctly gets this value back. -/
theorem double_text_nearest {rnd : ℚ → ℚ} (R : Rounding rnd) (st : Str → Option Dbl) (d : Dbl) (hf : Finite d) :
    ∃ x, Denotes (dtoa (realFp rnd st) d) x ∧ ∀ d', Number d' → value d' ≠ value d → |x - value d| < |x - value d'| := by
  obtain ⟨ip, fr, ex, e, h1, h2, h0, hn⟩ := dtoa_spec R st d hf
  refine ⟨_, ⟨d.sign, ip, fr, ex, e, h1, h2, rfl⟩, ?_⟩
  intro d' hd' hne
  unfold value at hne ⊢
  generalize hx : decimal ip fr ex = x at *
  obtain ⟨b, hb⟩ : ∃ b, b = d'.bits.toNat % 2 ^ 63 := ⟨_, rfl⟩
  obtain ⟨a, ha⟩ : ∃ a, a = d.bits.toNat % 2 ^ 63 := ⟨_, rfl⟩
  unfold Number at hd'
  rw [← hb] at hne hd' ⊢
  rw [← ha] at hn hne ⊢
  have hb0 := ieee_nonneg b
  have ha0 := ieee_nonneg a
  have same : (a = b → False) → |x - ieee a| < |x - ieee b| := fun h => hn b hd' (fun h' => h h'.symm)
  have opp : ieee a ≠ -ieee b → |x - ieee a| < |x + ieee b| := by
    intro h
    rw [abs_of_nonneg (show 0 ≤ x + ieee b by linarith)]
    by_cases h00 : a = 0
    · subst h00
      rw [ieee_zero] at h ⊢
      have : 0 < ieee b := lt_of_le_of_ne hb0 (fun h' => h (by rw [← h']; simp))
      rw [sub_zero, abs_of_nonneg h0]; linarith
    · have := hn 0 (Nat.zero_le _) (fun h' => h00 h'.symm)
      rw [ieee_zero, sub_zero, abs_of_nonneg h0] at this
      linarith
  by_cases hs : 2 ^ 63 ≤ d.bits.toNat <;> by_cases hs' : 2 ^ 63 ≤ d'.bits.toNat
  · rw [if_pos hs, if_pos hs'] at hne ⊢
    rw [if_pos ((sign_iff d).2 hs)]
    have := same (fun h => hne (by rw [h]))
    rw [show -1 * x - -1 * ieee a = -(x - ieee a) by ring, show -1 * x - -1 * ieee b = -(x - ieee b) by ring, abs_neg, abs_neg]
    exact this
  · rw [if_pos hs, if_neg hs'] at hne ⊢
    rw [if_pos ((sign_iff d).2 hs)]
    have := opp (fun h => hne (by rw [h]; ring))
    rw [show -1 * x - -1 * ieee a = -(x - ieee a) by ring, show -1 * x - 1 * ieee b = -(x + ieee b) by ring, abs_neg, abs_neg]
    exact this
  · rw [if_neg hs, if_pos hs'] at hne ⊢
    rw [if_neg (fun h => hs ((sign_iff d).1 h))]
    have := opp (fun h => hne (by rw [h]; ring))
    rw [show 1 * x - 1 * ieee a = x - ieee a by ring, show 1 * x - -1 * ieee b = x + ieee b by ring]
    exact this
  · rw [if_neg hs, if_neg hs'] at hne ⊢
    rw [if_neg (fun h => hs ((sign_iff d).1 h))]
    have := same (fun h => hne (by rw [h]))
    rw [one_mul, one_mul, one_mul]
    exact this

/-- **C154.** Two different finite `double`s are never printed the same, zero and minus zero included. -/
theorem double_text_injective {rnd : ℚ → ℚ} (R : Rounding rnd) (st : Str → Option Dbl) (d d' : Dbl) (hf : Finite d) (hf' : Finite d')
    (h : dtoa (realFp rnd st) d = dtoa (realFp rnd st) d') : d = d' := by
  obtain ⟨ip, fr, ex, e, h1, h2, h0, hn⟩ := dtoa_spec R st d hf
  obtain ⟨ip', fr', ex', e', h1', h2', h0', hn'⟩ := dtoa_spec R st d' hf'
  obtain ⟨hs, rfl, rfl, rfl⟩ := text_inj h1 h1' h2 h2' (e.symm.trans (h.trans e'))
  have hab : d.bits.toNat % 2 ^ 63 = d'.bits.toNat % 2 ^ 63 := by
    by_contra hne
    have a1 := hn _ (le_of_lt hf') (fun h => hne h.symm)
    have a2 := hn' _ (le_of_lt hf) hne
    exact lt_asymm a1 a2
  have hsg : (2 ^ 63 ≤ d.bits.toNat) ↔ (2 ^ 63 ≤ d'.bits.toNat) := by
    rw [← sign_iff, ← sign_iff, hs]
  have l1 := d.bits.isLt
  have l2 := d'.bits.isLt
  have : d.bits = d'.bits := by
    apply BitVec.eq_of_toNat_eq
    omega
  cases d; cases d'
  exact congrArg Dbl.mk this

/-- What was assumed of `Grisu2` in the theorems on JSON texts (`DblOk`) holds. -/
theorem real_dblOk {rnd : ℚ → ℚ} (R : Rounding rnd) (st : Str → Option Dbl) (d : Dbl) (hf : Finite d)
    (hs : st (dtoa (realFp rnd st) d) = some d) : DblOk (realFp rnd st) d :=
  ⟨(isNanOrInf_iff d).2 hf, fun h0 => (realFp_grisu R st d hf h0).1, hs⟩

/-! ### rounding to the nearest is a rounding, and examples -/

/-- Rounding to 53 binary digits. -/
def nearest53 (x : ℚ) : ℚ := _root_.round (x * 2 ^ (52 - Int.log 2 |x|)) * 2 ^ (Int.log 2 |x| - 52)

theorem nearest53_rounding : Rounding nearest53 := by
  constructor
  · intro x
    by_cases hx : x = 0
    · subst hx; simp [nearest53]
    · have hpos : 0 < |x| := abs_pos.2 hx
      have hlog := Int.zpow_log_le_self (b := 2) (by norm_num) hpos
      push_cast at hlog
      unfold nearest53
      generalize Int.log 2 |x| = l at *
      have e1 : (2 : ℚ) ^ (52 - l) * 2 ^ (l - 52) = 1 := by
        rw [← zpow_add₀ (by norm_num), show 52 - l + (l - 52) = 0 by ring, zpow_zero]
      have hp : (0 : ℚ) < 2 ^ (l - 52) := zpow_pos (by norm_num) _
      have e2 : (_root_.round (x * 2 ^ (52 - l)) : ℚ) * 2 ^ (l - 52) - x = ((_root_.round (x * 2 ^ (52 - l)) : ℚ) - x * 2 ^ (52 - l)) * 2 ^ (l - 52) := by
        rw [sub_mul, mul_assoc x, e1, mul_one]
      rw [e2, abs_mul, abs_of_pos hp, abs_sub_comm]
      have h1 := abs_sub_round (x * 2 ^ (52 - l))
      have e3 : (2 : ℚ) ^ (l - 52) = 2 ^ l * (1 / 2 ^ 52) := by
        rw [zpow_sub₀ (by norm_num)]; norm_num; ring
      calc _ ≤ 1 / 2 * (2 : ℚ) ^ (l - 52) := mul_le_mul_of_nonneg_right h1 (le_of_lt hp)
        _ = 2 ^ l * (1 / 2 ^ 53) := by rw [e3]; ring
        _ ≤ |x| * (1 / 2 ^ 53) := mul_le_mul_of_nonneg_right hlog (by norm_num)
  · intro n hn
    by_cases h0 : n = 0
    · subst h0; simp [nearest53]
    · unfold nearest53
      have hpos : (0 : ℚ) < |(n : ℚ)| := abs_pos.2 (by exact_mod_cast h0)
      have hnq : |(n : ℚ)| ≤ 2 ^ 53 := by exact_mod_cast hn
      have hlog := Int.zpow_log_le_self (b := 2) (by norm_num) hpos
      push_cast at hlog
      have hlog' : Int.log 2 |(n : ℚ)| ≤ 53 := by
        have : (2 : ℚ) ^ (Int.log 2 |(n : ℚ)|) ≤ 2 ^ (53 : Int) := le_trans hlog (by exact_mod_cast hnq)
        exact (zpow_le_zpow_iff_right₀ (by norm_num)).1 this
      obtain ⟨l, hl⟩ : ∃ l, l = Int.log 2 |(n : ℚ)| := ⟨_, rfl⟩
      rw [← hl] at hlog hlog' ⊢
      have e1 : (2 : ℚ) ^ (52 - l) * 2 ^ (l - 52) = 1 := by
        rw [← zpow_add₀ (by norm_num), show 52 - l + (l - 52) = 0 by ring, zpow_zero]
      have hint : ∃ m : Int, (n : ℚ) * 2 ^ (52 - l) = m := by
        rcases Int.lt_or_le 52 l with h | h
        · have hl53 : l = 53 := by omega
          subst hl53
          have : |(n : ℚ)| = 2 ^ 53 := le_antisymm hnq (by exact_mod_cast hlog)
          rcases abs_eq (by norm_num) |>.1 this with h | h
          · exact ⟨2 ^ 52, by rw [h]; norm_num⟩
          · exact ⟨-2 ^ 52, by rw [h]; norm_num⟩
        · refine ⟨n * 2 ^ (52 - l).toNat, ?_⟩
          push_cast
          congr 1
          rw [← zpow_natCast]
          congr 1
          omega
      obtain ⟨m, hm⟩ := hint
      rw [hm, round_intCast, ← hm, mul_assoc, e1, mul_one]

/-- `grisu2` with the index found in exact arithmetic. -/
def grisu2Exact (u : Nat) : Option (Str × Int) :=
  let v := ofBits u
  let (wm, wp) := boundaries v
  let index := (kOf wp.e / 8 + 1).toNat
  let c := cached index
  let W := mul (normalize v) c
  let Wp := mul wp c
  let Wm := mul wm c
  let Wm : DiyFp := ⟨u64 (Wm.f + 1), Wm.e⟩
  let Wp : DiyFp := ⟨sub64 Wp.f 1, Wp.e⟩
  (digitGen W Wp (sub64 Wp.f Wm.f) (348 - 8 * (index : Int))).map fun (b, K) => (b.reverse.map Char.ofNat, K)

theorem grisu2_exact {rnd : ℚ → ℚ} (R : Rounding rnd) (u : Nat) (h1 : -1137 ≤ (boundaries (ofBits u)).2.e) (h2 : (boundaries (ofBits u)).2.e ≤ 960) :
    grisu2 rnd u = grisu2Exact u := by
  unfold grisu2 grisu2Exact
  simp only
  rw [cachedIndex_spec R _ h1 h2]

/-- 0.1, the greatest number, the smallest, -1.5. -/
example {rnd : ℚ → ℚ} (R : Rounding rnd) :
    grisu2 rnd 0x3FB999999999999A = some (['1'], -1) ∧
    grisu2 rnd 0x7FEFFFFFFFFFFFFF = some ("17976931348623157".toList, 292) ∧
    grisu2 rnd 1 = some (['5'], -324) ∧
    grisu2 rnd 0xBFF8000000000000 = some (['1', '5'], -1) := by
  refine ⟨?_, ?_, ?_, ?_⟩ <;> rw [grisu2_exact R _ (by decide +kernel) (by decide +kernel)] <;> decide +kernel

theorem nearest_of_between {x : ℚ} {p : Nat} (h1 : (ieee p + ieee (p + 1)) / 2 < x) (h2 : x < (ieee (p + 1) + ieee (p + 2)) / 2) (b : Nat)
    (hb : b ≠ p + 1) : |x - ieee (p + 1)| < |x - ieee b| := by
  have hup0 : ieee (p + 1) < ieee (p + 2) := ieee_strictMono (Nat.lt_succ_self _)
  have hdown0 : ieee p < ieee (p + 1) := ieee_strictMono (Nat.lt_succ_self _)
  rcases Nat.lt_or_gt_of_ne hb with hlt | hgt
  · have hb' : ieee b ≤ ieee p := ieee_strictMono.monotone (by omega)
    rw [abs_of_pos (show 0 < x - ieee b by linarith), abs_lt]
    constructor <;> linarith
  · have hb' : ieee (p + 2) ≤ ieee b := ieee_strictMono.monotone (by omega)
    rw [abs_of_neg (show x - ieee b < 0 by linarith), abs_lt]
    constructor <;> linarith

set_option exponentiation.threshold 1000 in
/-- The digits are not always the fewest: 8.5586854847507779e189 is printed with 17 digits, although the 16 digits 8.558685484750778e189 would identify it too. -/
theorem not_always_shortest {rnd : ℚ → ℚ} (R : Rounding rnd) :
    grisu2 rnd 0x675EBC190638C253 = some ("85586854847507779".toList, 173) ∧
    ∀ b, b ≠ 0x675EBC190638C253 → |(8558685484750778 : ℚ) * 10 ^ 174 - ieee 0x675EBC190638C253| < |(8558685484750778 : ℚ) * 10 ^ 174 - ieee b| := by
  constructor
  · rw [grisu2_exact R _ (by decide +kernel) (by decide +kernel)]
    decide +kernel
  · intro b hb
    exact nearest_of_between (p := 0x675EBC190638C252) (by unfold ieee; norm_num) (by unfold ieee; norm_num) b hb

example : Finite ⟨0x3FB999999999999A⟩ ∧ Number ⟨0x7FF0000000000000⟩ ∧ ¬ Finite ⟨0x7FF0000000000000⟩ ∧ ¬ Number ⟨0x7FF8000000000000⟩ ∧
    value ⟨0xBFF8000000000000⟩ = -3 / 2 := by
  refine ⟨by unfold Finite infinity; decide, by unfold Number infinity; decide, by unfold Finite infinity; decide, by unfold Number infinity; decide, ?_⟩
  unfold value ieee
  rw [show (⟨0xBFF8000000000000⟩ : Dbl).bits.toNat = 0xBFF8000000000000 from rfl]
  norm_num

end Current.Json.Grisu
