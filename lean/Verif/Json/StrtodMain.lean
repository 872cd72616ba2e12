import Verif.Json.StrtodProps
/-!
C155: which `double`s are read from the text that was printed for them.
-/
set_option linter.unusedSimpArgs false
set_option linter.unusedVariables false
namespace Current.Json.Strtod
open Current.Persist (Str dec decInt dec_isDigit dec_ne_nil)
open Current.Json.Grisu

/-- The `double` read from a number, if the number is read as a finite `double`. -/
noncomputable def read (rnd : ℚ → ℚ) (t : Str) : Option Dbl :=
  open Classical in
  match parse rnd t with
  | .dbl neg q [] => if h : Repr q then some ⟨BitVec.ofNat 64 (h.choose + if neg then 2 ^ 63 else 0)⟩ else none
  | _ => none

theorem read_eq {rnd : ℚ → ℚ} {t : Str} {neg : Bool} {a : Nat} (h : parse rnd t = .dbl neg (ieee a) []) (ha : a < infinity) :
    read rnd t = some ⟨BitVec.ofNat 64 (a + if neg then 2 ^ 63 else 0)⟩ := by
  have hr : Repr (ieee a) := ⟨a, ha, rfl⟩
  unfold read
  rw [h]
  simp only
  rw [dif_pos hr]
  have := hr.choose_spec
  rw [ieee_strictMono.injective this.2]

/-- A number that is nearer to one finite `double` than to all others is rounded to this `double`. -/
theorem Correct.unique {rnd : ℚ → ℚ} (R : Correct rnd) {x : ℚ} (h0 : 0 ≤ x) (h1 : x < overflow) {a : Nat} (ha : a < infinity)
    (hn : ∀ b ≤ infinity, b ≠ a → |x - ieee a| < |x - ieee b|) : rnd x = ieee a := by
  obtain ⟨b, hb, e, hm⟩ := R.nearest x h0 h1
  by_cases hab : b = a
  · rw [e, hab]
  · have h2 := hn b (le_of_lt hb) hab
    have h3 := hm a (le_of_lt ha)
    exact absurd h2 (not_lt.2 h3)

/-- The parts of a printed number. -/
theorem dtoa_parts {rnd : ℚ → ℚ} (R : Rounding rnd) (st : Str → Option Dbl) (d : Dbl) (hf : Finite d) {neg : Bool} {ip fr : Str} {ex : Option Int}
    (he : dtoa (realFp rnd st) d = minusText neg ++ (ip ++ (fracText fr ++ expText ex))) (hi : IntText ip) (hd : Digits fr) :
    (fr = [] → ex ≠ none) ∧ fr.length ≤ 24 := by
  by_cases hz : d.isZero = true
  · have e : dtoa (realFp rnd st) d = minusText d.sign ++ (['0'] ++ (fracText ['0'] ++ expText none)) := by
      unfold dtoa minusText
      rw [if_pos hz]; rfl
    obtain ⟨-, rfl, rfl, rfl⟩ := text_inj hi ⟨by intro c hc; simp at hc; subst hc; decide, by simp, by simp⟩ hd
      (by intro c hc; simp at hc; subst hc; decide) (he.symm.trans e)
    simp
  · have hz : d.isZero = false := by simpa using hz
    obtain ⟨hok, -⟩ := realFp_grisu R st d hf hz
    obtain ⟨ip', fr', ex', e, i1, i2, i3, -⟩ := prettify_spec hok
    have hl := prettify_length hok
    have e' : dtoa (realFp rnd st) d = minusText d.sign ++ (ip' ++ (fracText fr' ++ expText ex')) := by rw [minus_dtoa _ _ hz, e]
    obtain ⟨-, rfl, rfl, rfl⟩ := text_inj hi i1 hd i2 (he.symm.trans e')
    refine ⟨i3, ?_⟩
    rw [e] at hl
    unfold fracText at hl
    split at hl
    · rename_i h; rw [h]; simp
    · simp only [List.length_append, List.length_cons] at hl
      omega

/-- **C155.** A `double` is read from its text with all its bits if the text has no more digits than make a number below 2^53 (fifteen
always do), or below 10^16 when the last is zero (as it is of integers), and the power of ten it is scaled by is at most 22, up or down. -/
theorem short_round_trip {rnd rnd' : ℚ → ℚ} (R : Rounding rnd') (S : Correct rnd) (st : Str → Option Dbl) (d : Dbl) (hf : Finite d)
    (neg : Bool) (ip fr : Str) (ex : Option Int) (he : dtoa (realFp rnd' st) d = minusText neg ++ (ip ++ (fracText fr ++ expText ex)))
    (hi : IntText ip) (hd : Digits fr)
    (hN : num (ip ++ fr) 0 < 2 ^ 53 ∨ num (ip ++ fr) 0 < 10 ^ 16 ∧ num (ip ++ fr) 0 % 10 = 0)
    (h1 : -22 ≤ ex.getD 0 - (fr.length : Int)) (h2 : ex.getD 0 - (fr.length : Int) ≤ 22) :
    read rnd (dtoa (realFp rnd' st) d) = some d := by
  obtain ⟨ip', fr', ex', e', hi', hd', h0, hn⟩ := dtoa_spec R st d hf
  obtain ⟨rfl, rfl, rfl, rfl⟩ := text_inj hi hi' hd hd' (he.symm.trans e')
  have hrep : Repr (num (ip ++ fr) 0 : ℚ) := by
    rcases hN with h | h
    · exact repr_nat _ h
    · exact repr_even _ (by omega) (by omega)
  have hN2 : num (ip ++ fr) 0 < 10 ^ 16 := by omega
  obtain ⟨hreal, hlen⟩ := dtoa_parts R st d hf he hi hd
  have hx : ∀ x, ex = some x → -308 ≤ x ∧ x ≤ 308 := by
    rintro x rfl
    simp only [Option.getD_some] at h1 h2
    omega
  have hp := parse_short S d.sign ip fr ex hi hd hreal hrep hN2 (by omega) hx h1 h2
  have hlt : decimal ip fr ex < overflow := short_lt hN2 h2
  rw [S.unique h0 hlt hf hn, ← he] at hp
  rw [read_eq hp hf]
  have l1 := d.bits.isLt
  have hs := sign_iff d
  have : BitVec.ofNat 64 (d.bits.toNat % 2 ^ 63 + if d.sign then 2 ^ 63 else 0) = d.bits := by
    apply BitVec.eq_of_toNat_eq
    rw [BitVec.toNat_ofNat]
    by_cases h : d.sign = true
    · have := hs.1 h
      rw [if_pos h]; omega
    · have : ¬ 2 ^ 63 ≤ d.bits.toNat := fun h' => h (hs.2 h')
      rw [if_neg h]; omega
  rw [this]

/-- What was assumed of floating point in the theorems on JSON texts (`DblOk`) holds of these numbers. -/
theorem short_dblOk {rnd rnd' : ℚ → ℚ} (R : Rounding rnd') (S : Correct rnd) (d : Dbl) (hf : Finite d)
    (neg : Bool) (ip fr : Str) (ex : Option Int) (he : dtoa (realFp rnd' (read rnd)) d = minusText neg ++ (ip ++ (fracText fr ++ expText ex)))
    (hi : IntText ip) (hd : Digits fr)
    (hN : num (ip ++ fr) 0 < 2 ^ 53 ∨ num (ip ++ fr) 0 < 10 ^ 16 ∧ num (ip ++ fr) 0 % 10 = 0)
    (h1 : -22 ≤ ex.getD 0 - (fr.length : Int)) (h2 : ex.getD 0 - (fr.length : Int) ≤ 22) : DblOk (realFp rnd' (read rnd)) d :=
  real_dblOk R _ d hf (short_round_trip R S _ d hf neg ip fr ex he hi hd hN h1 h2)

/-! ### a number that is not read back -/

theorem Correct.between {rnd : ℚ → ℚ} (R : Correct rnd) {x : ℚ} {p : Nat} (h0 : 0 ≤ x) (ho : x < overflow) (hp : p + 1 < infinity)
    (h1 : (ieee p + ieee (p + 1)) / 2 < x) (h2 : x < (ieee (p + 1) + ieee (p + 2)) / 2) : rnd x = ieee (p + 1) :=
  R.unique h0 ho hp fun b _ hb => nearest_of_between h1 h2 b hb

theorem small_lt_overflow {x : ℚ} (h : x < 2 ^ 100) : x < overflow := by
  refine lt_trans h ?_
  unfold overflow
  have e1 : (2 : ℚ) ^ 1024 = 2 ^ 54 * 2 ^ 970 := by rw [← pow_add]
  have e2 : (2 : ℚ) ^ 970 = 2 ^ 870 * 2 ^ 100 := by rw [← pow_add]
  have h0 : (1 : ℚ) ≤ 2 ^ 870 := one_le_pow₀ (by norm_num)
  have h3 : (2 : ℚ) ^ 100 ≤ 2 ^ 970 := by
    rw [e2]; exact le_mul_of_one_le_left (by positivity) h0
  have h4 : (0 : ℚ) < 2 ^ 970 := by positivity
  rw [e1]
  clear e1 e2 h0
  generalize (2 : ℚ) ^ 970 = t at *
  generalize (2 : ℚ) ^ 100 = w at *
  norm_num
  linarith

/-- **C155.** An integer below 2^53 is printed exactly, and read as the integer below: `8562898463574399.0` is taken for the fraction
85628984635743990 / 10, and both the numerator and the quotient are rounded. -/
theorem not_round_trip {rnd rnd' : ℚ → ℚ} (R : Rounding rnd') (S : Correct rnd) (st : Str → Option Dbl) :
    value ⟨0x433E6BE9292B497F⟩ = 8562898463574399 ∧
    dtoa (realFp rnd' st) ⟨0x433E6BE9292B497F⟩ = "8562898463574399.0".toList ∧
    parse rnd "8562898463574399.0".toList = .dbl false 8562898463574398 [] := by
  have r0 : ieee 0x433E6BE9292B497E = 8562898463574398 := by unfold ieee; norm_num
  have r1 : ieee 0x43730371B9BB0DEF = 85628984635743984 := by unfold ieee; norm_num
  refine ⟨?_, ?_, ?_⟩
  · unfold value ieee
    rw [show (⟨0x433E6BE9292B497F⟩ : Dbl).bits.toNat = 0x433E6BE9292B497F from rfl]
    norm_num
  · have hg : grisu2 rnd' 0x433E6BE9292B497F = some ("8562898463574399".toList, 0) := by
      rw [grisu2_exact R _ (by decide +kernel) (by decide +kernel)]; decide +kernel
    have hz : (⟨0x433E6BE9292B497F⟩ : Dbl).isZero = false := by decide +kernel
    have hs : (⟨0x433E6BE9292B497F⟩ : Dbl).sign = false := by decide +kernel
    rw [minus_dtoa _ _ hz, hs]
    simp only [Bool.false_eq_true, if_false]
    have e : (realFp rnd' st).grisu ⟨0x433E6BE9292B497F⟩ = ("8562898463574399".toList, 0) := by
      unfold realFp
      simp only
      rw [show (⟨0x433E6BE9292B497F⟩ : Dbl).bits.toNat = 0x433E6BE9292B497F from rfl, hg]
      rfl
    rw [e]
    decide +kernel
  · have e0 : takeMinus "8562898463574399.0".toList = (false, "8562898463574399.0".toList) := by decide +kernel
    have e1 : intDigits false "8562898463574399.0".toList = some (8562898463574399, false, 15, ['.', '0']) := by decide +kernel
    have e2 : frac64 8562898463574399 0 15 ['0'] = (85628984635743990, -1, 16, []) := by decide +kernel
    have f1 : fl rnd ((85628984635743990 : Nat) : ℚ) = .fin 85628984635743984 := by
      have ho : ((85628984635743990 : Nat) : ℚ) < overflow := small_lt_overflow (by norm_num)
      unfold fl
      rw [if_neg (not_le.2 ho), S.between (p := 0x43730371B9BB0DEE) (by norm_num) ho (by decide) (by unfold ieee; norm_num) (by unfold ieee; norm_num), r1]
    have f2 : fl rnd ((85628984635743984 : ℚ) / 10) = .fin 8562898463574398 := by
      have ho : (85628984635743984 : ℚ) / 10 < overflow := small_lt_overflow (by norm_num)
      unfold fl
      rw [if_neg (not_le.2 ho), S.between (p := 0x433E6BE9292B497D) (by norm_num) ho (by decide) (by unfold ieee; norm_num) (by unfold ieee; norm_num), r0]
    have f3 : fl rnd (10 : ℚ) = .fin 10 := by
      have := fl_exact S (repr_pow10 1 (by decide))
      rwa [pow_one] at this
    have h0 : isDigit '0' = true := by decide
    unfold parse
    rw [e0]
    simp only [e1, Bool.false_eq_true, if_false, h0, if_true, e2]
    rw [f1]
    simp only [fracD, afterFrac, finish, strtodNormal, fastPath, pow10]
    norm_num
    rw [f3]
    simp only [divF, f2]

/-- It is not read as it was. -/
theorem not_round_trip_read {rnd rnd' : ℚ → ℚ} (R : Rounding rnd') (S : Correct rnd) (st : Str → Option Dbl) :
    read rnd (dtoa (realFp rnd' st) ⟨0x433E6BE9292B497F⟩) = some ⟨0x433E6BE9292B497E⟩ := by
  obtain ⟨-, e1, e2⟩ := not_round_trip R S st
  have r0 : ieee 0x433E6BE9292B497E = 8562898463574398 := by unfold ieee; norm_num
  rw [e1]
  rw [← r0] at e2
  rw [read_eq e2 (by decide)]
  rfl

/-! ### such a rounding exists -/

theorem exists_min (f : Nat → ℚ) (n : Nat) : ∃ a ≤ n, ∀ b ≤ n, f a ≤ f b := by
  induction n with
  | zero => exact ⟨0, le_refl _, fun b hb => by rw [Nat.le_zero.1 hb]⟩
  | succ n ih =>
    obtain ⟨a, ha, hm⟩ := ih
    rcases le_total (f a) (f (n + 1)) with h | h
    · refine ⟨a, by omega, fun b hb => ?_⟩
      rcases Nat.lt_or_ge n b with h' | h'
      · rw [show b = n + 1 by omega]; exact h
      · exact hm b h'
    · refine ⟨n + 1, le_refl _, fun b hb => ?_⟩
      rcases Nat.lt_or_ge n b with h' | h'
      · rw [show b = n + 1 by omega]
      · exact le_trans h (hm b h')

theorem overflow_eq : overflow = (ieee (infinity - 1) + ieee infinity) / 2 := by
  have e : ieee infinity = ((2 ^ 52 : Nat) : ℚ) * 2 ^ (972 : Int) := by
    unfold ieee infinity
    rw [if_neg (by decide)]
    rfl
  have e' : ieee (infinity - 1) = ((2 ^ 53 - 1 : Nat) : ℚ) * 2 ^ (971 : Int) := by
    unfold ieee infinity
    rw [if_neg (by decide)]
    rfl
  rw [e, e', show (972 : Int) = ((972 : Nat) : Int) from rfl, zpow_natCast, show (971 : Int) = ((971 : Nat) : Int) from rfl, zpow_natCast]
  unfold overflow
  have e1 : (2 : ℚ) ^ 1024 = 2 ^ 54 * 2 ^ 970 := by rw [← pow_add]
  have e2 : (2 : ℚ) ^ 972 = 4 * 2 ^ 970 := by rw [show 972 = 2 + 970 from rfl, pow_add]; norm_num
  have e3 : (2 : ℚ) ^ 971 = 2 * 2 ^ 970 := by rw [← pow_succ']
  rw [e1, e2, e3]
  clear e e' e1 e2 e3
  generalize (2 : ℚ) ^ 970 = t at *
  norm_num
  ring

theorem exists_nearest (x : ℚ) (h0 : 0 ≤ x) (h : x < overflow) : ∃ a < infinity, ∀ b ≤ infinity, |x - ieee a| ≤ |x - ieee b| := by
  obtain ⟨a, ha, hm⟩ := exists_min (fun a => |x - ieee a|) infinity
  by_cases hi : a = infinity
  · exfalso
    have h1 : |x - ieee a| ≤ |x - ieee (infinity - 1)| := hm (infinity - 1) (Nat.sub_le _ _)
    have h2 : ieee (infinity - 1) < ieee infinity := ieee_strictMono (by decide)
    rw [overflow_eq] at h
    rw [hi, abs_of_neg (show x - ieee infinity < 0 by linarith)] at h1
    rcases le_total (ieee (infinity - 1)) x with h3 | h3
    · rw [abs_of_nonneg (by linarith)] at h1; linarith
    · rw [abs_of_nonpos (by linarith)] at h1; linarith
  · exact ⟨a, by omega, hm⟩

/-- There are correct roundings. -/
theorem exists_correct : ∃ rnd, Correct rnd := by
  classical
  refine ⟨fun x => if h : 0 ≤ x ∧ x < overflow then ieee (exists_nearest x h.1 h.2).choose else 0, ⟨fun x h0 h => ?_⟩⟩
  obtain ⟨s1, s2⟩ := (exists_nearest x h0 h).choose_spec
  exact ⟨_, s1, dif_pos ⟨h0, h⟩, s2⟩

/-- 0.1 and -123456789012345: what is asked of the text holds. -/
example {rnd rnd' : ℚ → ℚ} (R : Rounding rnd') (S : Correct rnd) :
    read rnd (dtoa (realFp rnd' (read rnd)) ⟨0x3FB999999999999A⟩) = some ⟨0x3FB999999999999A⟩ ∧
    dtoa (realFp rnd' (read rnd)) ⟨0xC2DC12218377DE40⟩ = "-123456789012345.0".toList ∧
    read rnd (dtoa (realFp rnd' (read rnd)) ⟨0xC2DC12218377DE40⟩) = some ⟨0xC2DC12218377DE40⟩ := by
  have key : ∀ (d : Dbl) (ds : Str) (k : Int) (neg : Bool) (ip fr : Str), d.isZero = false → d.sign = neg →
      grisu2 rnd' (if d.sign then d.abs else d).bits.toNat = some (ds, k) → prettify ds k = ip ++ (fracText fr ++ expText none) →
      dtoa (realFp rnd' (read rnd)) d = minusText neg ++ (ip ++ (fracText fr ++ expText none)) := by
    intro d ds k neg ip fr hz hs hg hp
    rw [minus_dtoa _ _ hz]
    have e : (realFp rnd' (read rnd)).grisu (if d.sign then d.abs else d) = (ds, k) := by
      unfold realFp
      simp only
      rw [hg]; rfl
    rw [e, hp, hs]
  have t1 := key ⟨0x3FB999999999999A⟩ ['1'] (-1) false ['0'] ['1'] (by decide +kernel) (by decide +kernel)
    (by rw [show (if (⟨0x3FB999999999999A⟩ : Dbl).sign = true then (⟨0x3FB999999999999A⟩ : Dbl).abs else ⟨0x3FB999999999999A⟩).bits.toNat = 0x3FB999999999999A by decide +kernel,
          grisu2_exact R _ (by decide +kernel) (by decide +kernel)]; decide +kernel)
    (by decide +kernel)
  have t2 := key ⟨0xC2DC12218377DE40⟩ "123456789012345".toList 0 true "123456789012345".toList ['0'] (by decide +kernel) (by decide +kernel)
    (by rw [show (if (⟨0xC2DC12218377DE40⟩ : Dbl).sign = true then (⟨0xC2DC12218377DE40⟩ : Dbl).abs else ⟨0xC2DC12218377DE40⟩).bits.toNat = 0x42DC12218377DE40 by decide +kernel,
          grisu2_exact R _ (by decide +kernel) (by decide +kernel)]; decide +kernel)
    (by decide +kernel)
  have dg : ∀ s : Str, s.all (·.isDigit) = true → Digits s := fun s h c hc => List.all_eq_true.1 h c hc
  refine ⟨?_, by rw [t2]; decide +kernel, ?_⟩
  · exact short_round_trip R S _ _ (by unfold Finite infinity; decide) _ _ _ _ t1 ⟨dg _ (by decide +kernel), by decide +kernel, by decide +kernel⟩ (dg _ (by decide +kernel))
      (.inl (by decide +kernel)) (by decide) (by decide)
  · exact short_round_trip R S _ _ (by unfold Finite infinity; decide) _ _ _ _ t2 ⟨dg _ (by decide +kernel), by decide +kernel, by decide +kernel⟩ (dg _ (by decide +kernel))
      (.inl (by decide +kernel)) (by decide) (by decide)

end Current.Json.Strtod
