import Verif.Json.GrisuDigits
import Mathlib.Tactic.NormNum
import Mathlib.Tactic.FieldSimp
/-!
C154: the boundaries, the powers of ten, the index of the power.
-/
set_option linter.unusedSimpArgs false
set_option linter.unusedVariables false
namespace Current.Json.Grisu

theorem normLoop_spec (n f : Nat) (e : Int) (h0 : 0 < f) (h1 : f < 2 ^ 54) (hn : 2 ^ 53 ≤ f * 2 ^ n) :
    ∃ t : Nat, normLoop n ⟨f, e⟩ = ⟨f * 2 ^ t, e - t⟩ ∧ 2 ^ 53 ≤ f * 2 ^ t ∧ f * 2 ^ t < 2 ^ 54 := by
  induction n generalizing f e with
  | zero => exact ⟨0, by simp [normLoop], by simpa using hn, by simpa using h1⟩
  | succ n ih =>
    rw [normLoop]
    split
    · rename_i hc
      simp only at hc
      have hc' : f < 2 ^ 53 := by omega
      simp only
      rw [u64_of_lt (show f * 2 < 2 ^ 64 by omega)]
      obtain ⟨t, ht, h2, h3⟩ := ih (f * 2) (e - 1) (by omega) (by omega) (by rw [mul_assoc, ← pow_succ']; exact hn)
      rw [mul_assoc, ← pow_succ'] at ht h2 h3
      refine ⟨t + 1, ?_, h2, h3⟩
      rw [ht]
      congr 1
      push_cast
      ring
    · rename_i hc
      simp only at hc
      exact ⟨0, by simp, by omega, by omega⟩

/-- The boundaries: twice the number plus one, and minus one (or four times the number, minus one, with the exponent less by one). -/
theorem boundaries_spec (f : Nat) (e : Int) (h0 : 0 < f) (h1 : f < 2 ^ 53) :
    ∃ s : Nat, 10 ≤ s ∧ s ≤ 62 ∧ 2 ^ 63 ≤ (2 * f + 1) * 2 ^ s ∧ (2 * f + 1) * 2 ^ s < 2 ^ 64 ∧
      boundaries ⟨f, e⟩ = (⟨if f = 2 ^ 52 then (4 * f - 1) * 2 ^ (s - 1) else (2 * f - 1) * 2 ^ s, e - 1 - s⟩, ⟨(2 * f + 1) * 2 ^ s, e - 1 - s⟩) := by
  have hn : 2 ^ 53 ≤ (2 * f + 1) * 2 ^ 64 := by omega
  obtain ⟨t, ht, h2, h3⟩ := normLoop_spec 64 (2 * f + 1) (e - 1) (by omega) (by omega) hn
  have ht53 : t ≤ 52 := by
    by_contra h
    have : 2 ^ 53 ≤ 2 ^ t := Nat.pow_le_pow_right (by decide) (by omega)
    have := Nat.mul_le_mul (show 3 ≤ 2 * f + 1 by omega) this
    omega
  have e10 : (2 * f + 1) * 2 ^ (t + 10) = (2 * f + 1) * 2 ^ t * 2 ^ 10 := by rw [pow_add, mul_assoc]
  refine ⟨t + 10, by omega, by omega, by rw [e10]; omega, by rw [e10]; omega, ?_⟩
  unfold boundaries normalizeBoundary
  simp only
  rw [u64_of_lt (show f * 2 < 2 ^ 64 by omega), u64_of_lt (show f * 2 + 1 < 2 ^ 64 by omega), u64_of_lt (show f * 4 < 2 ^ 64 by omega),
    show f * 2 + 1 = 2 * f + 1 by omega, ht]
  simp only
  rw [u64_of_lt (show (2 * f + 1) * 2 ^ t * 2 ^ 10 < 2 ^ 64 by omega), ← e10]
  have he : e - 1 - (t : Int) - 10 = e - 1 - ((t + 10 : Nat) : Int) := by push_cast; ring
  rw [he]
  congr 2
  · split
    · rename_i hc
      simp only
      rw [show (e - 2 - (e - 1 - ((t + 10 : Nat) : Int))).toNat = t + 10 - 1 by omega, sub64_of_le (by omega) (by omega), show f * 4 = 4 * f by omega]
      apply u64_of_lt
      have : (2 * f + 1) * 2 ^ (t + 10) = (4 * f + 2) * 2 ^ (t + 10 - 1) := by
        rw [show t + 10 = (t + 9) + 1 from rfl, pow_succ, Nat.add_sub_cancel]; ring
      have : (4 * f - 1) * 2 ^ (t + 10 - 1) ≤ (4 * f + 2) * 2 ^ (t + 10 - 1) := Nat.mul_le_mul_right _ (by omega)
      omega
    · rename_i hc
      simp only
      rw [show (e - 1 - (e - 1 - ((t + 10 : Nat) : Int))).toNat = t + 10 by omega, sub64_of_le (by omega) (by omega), show f * 2 = 2 * f by omega]
      apply u64_of_lt
      have : (2 * f - 1) * 2 ^ (t + 10) ≤ (2 * f + 1) * 2 ^ (t + 10) := Nat.mul_le_mul_right _ (by omega)
      omega

/-- The product, to the nearest. -/
theorem mul_spec (x y : DiyFp) (hx : x.f < 2 ^ 64) (hy : y.f < 2 ^ 64) :
    (mul x y).e = x.e + y.e + 64 ∧ (mul x y).f < 2 ^ 64 ∧ (mul x y).f * 2 ^ 64 ≤ x.f * y.f + 2 ^ 63 ∧ x.f * y.f < (mul x y).f * 2 ^ 64 + 2 ^ 63 := by
  have hp : x.f * y.f ≤ (2 ^ 64 - 1) * (2 ^ 64 - 1) := Nat.mul_le_mul (by omega) (by omega)
  unfold mul
  simp only
  refine ⟨trivial, ?_⟩
  generalize x.f * y.f = p at hp
  have h1 : p / 2 ^ 64 ≤ 2 ^ 64 - 2 := by omega
  split
  · rw [u64_of_lt (by omega)]; omega
  · rw [u64_of_lt (by omega)]; omega

/-! ### the index -/

/-- What `cachedIndex` finds before the division by 8, in exact arithmetic. -/
def kOf (e : Int) : Int := if e = -61 then 347 else ((-61 - e) * 30102999566398114 + 347 * 100000000000000000) / 100000000000000000 + 1

/-- All that is needed of the index found for the exponent `e`. -/
def check (e : Int) : Bool :=
  let x := (-61 - e) * 30102999566398114 + 347 * 100000000000000000
  let i := (kOf e / 8 + 1).toNat
  let sh := -(e + cachedE.getD i 0 + 64)
  (e == -61 || (decide (100000000000 ≤ x % 100000000000000000) && decide (x % 100000000000000000 ≤ 100000000000000000 - 100000000000) && decide (0 ≤ x))) &&
  decide (i < 87) && decide (0 ≤ sh) && decide (sh ≤ 60) && decide ((2 ^ 64 - 1) * cachedF.getD i 0 < 10 ^ 9 * 2 ^ sh.toNat * 2 ^ 64)

theorem check_all : ((List.range 2098).all fun j => check ((j : Int) - 1137)) = true := by decide +kernel

theorem check_of (e : Int) (h1 : -1137 ≤ e) (h2 : e ≤ 960) : check e = true := by
  have := List.all_eq_true.1 check_all (e + 1137).toNat (List.mem_range.2 (by omega))
  rwa [show (((e + 1137).toNat : Nat) : Int) - 1137 = e by omega] at this

theorem rnd_pos {rnd : ℚ → ℚ} (R : Rounding rnd) {y : ℚ} (hy : 0 < y) : 0 < rnd y := by
  have h := R.error y
  rw [abs_of_pos hy, abs_le] at h
  have : y * (1 / 2 ^ 53) < y := by
    rw [mul_lt_iff_lt_one_right hy]; norm_num
  linarith [h.1]

theorem cachedIndex_spec {rnd : ℚ → ℚ} (R : Rounding rnd) (e : Int) (h1 : -1137 ≤ e) (h2 : e ≤ 960) :
    cachedIndex rnd e = ((kOf e / 8 + 1).toNat, 348 - 8 * ((kOf e / 8 + 1).toNat : Int)) := by
  suffices h : (if rnd (rnd (rnd (((-61 - e : Int) : ℚ) * rnd (30102999566398114 / 100000000000000000)) + 347) -
      (toInt (rnd (rnd (((-61 - e : Int) : ℚ) * rnd (30102999566398114 / 100000000000000000)) + 347)) : Int)) > 0
      then toInt (rnd (rnd (((-61 - e : Int) : ℚ) * rnd (30102999566398114 / 100000000000000000)) + 347)) + 1
      else toInt (rnd (rnd (((-61 - e : Int) : ℚ) * rnd (30102999566398114 / 100000000000000000)) + 347))) = kOf e by
    unfold cachedIndex
    simp only
    rw [h]
    congr 1
    ring
  by_cases he : e = -61
  · subst he
    have h0 : rnd 0 = 0 := by simpa using R.int 0 (by norm_num)
    have h347 : rnd 347 = 347 := by simpa using R.int 347 (by norm_num)
    have ht : toInt 347 = 347 := by
      unfold toInt
      rw [if_pos (by norm_num)]
      rw [Int.floor_eq_iff]; norm_num
    norm_num [h0, h347, ht, kOf]
  · have hc := check_of e h1 h2
    unfold check at hc
    simp only [Bool.and_eq_true, Bool.or_eq_true, beq_iff_eq, he, false_or, decide_eq_true_eq] at hc
    obtain ⟨⟨⟨⟨⟨⟨c1, c2⟩, c3⟩, -⟩, -⟩, -⟩, -⟩ := hc
    have hk : kOf e = ((-61 - e) * 30102999566398114 + 347 * 100000000000000000) / 100000000000000000 + 1 := by
      unfold kOf; rw [if_neg he]
    rw [hk]
    have hdm := Int.mul_ediv_add_emod ((-61 - e) * 30102999566398114 + 347 * 100000000000000000) 100000000000000000
    have hm0 := Int.ediv_nonneg c3 (show (0 : Int) ≤ 100000000000000000 by norm_num)
    generalize hm : ((-61 - e) * 30102999566398114 + 347 * 100000000000000000) / 100000000000000000 = m at *
    generalize hr : ((-61 - e) * 30102999566398114 + 347 * 100000000000000000) % 100000000000000000 = r at *
    obtain ⟨n, hn⟩ : ∃ n : ℚ, n = ((-61 - e : Int) : ℚ) := ⟨_, rfl⟩
    rw [← hn]
    have hx : n * 30102999566398114 + 347 * 100000000000000000 = 100000000000000000 * (m : ℚ) + r := by
      rw [hn]
      exact_mod_cast hdm.symm
    have c1' : (100000000000 : ℚ) ≤ r := by exact_mod_cast c1
    have c2' : (r : ℚ) ≤ 100000000000000000 - 100000000000 := by exact_mod_cast c2
    have hm0' : (0 : ℚ) ≤ m := by exact_mod_cast hm0
    have hn1 : n ≤ 1200 := by rw [hn]; exact_mod_cast (by omega : -61 - e ≤ 1200)
    have hn2 : -1200 ≤ n := by rw [hn]; exact_mod_cast (by omega : -1200 ≤ -61 - e)
    obtain ⟨c, hc⟩ : ∃ c, c = rnd (30102999566398114 / 100000000000000000) := ⟨_, rfl⟩
    have ec := R.error (30102999566398114 / 100000000000000000)
    rw [← hc, abs_of_pos (show (0 : ℚ) < 30102999566398114 / 100000000000000000 by norm_num)] at ec
    rw [← hc]
    have ec' : |c - 30102999566398114 / 100000000000000000| ≤ 1 / 2 ^ 54 := le_trans ec (by norm_num)
    have en : |n| ≤ 1200 := abs_le.2 ⟨hn2, hn1⟩
    have e1 : |n * c - n * (30102999566398114 / 100000000000000000)| ≤ 1200 * (1 / 2 ^ 54) := by
      rw [← mul_sub, abs_mul]
      exact mul_le_mul en ec' (abs_nonneg _) (by norm_num)
    have e2 : |n * c| ≤ 600 := by
      rw [abs_mul]
      have hc1 : |c| ≤ 1 / 2 := by
        rw [abs_le] at ec' ⊢
        constructor <;> norm_num at ec' ⊢ <;> linarith [ec'.1, ec'.2]
      calc |n| * |c| ≤ 1200 * (1 / 2) := mul_le_mul en hc1 (abs_nonneg _) (by norm_num)
        _ = 600 := by norm_num
    obtain ⟨a, ha⟩ : ∃ a, a = rnd (n * c) := ⟨_, rfl⟩
    have ea := R.error (n * c)
    rw [← ha] at ea ⊢
    have ea' : |a - n * c| ≤ 600 * (1 / 2 ^ 53) := le_trans ea (mul_le_mul_of_nonneg_right e2 (by norm_num))
    have ea2 : |a + 347| ≤ 1000 := by
      rw [abs_le] at ea' e2 ⊢
      constructor <;> norm_num at ea' e2 ⊢ <;> linarith [ea'.1, ea'.2, e2.1, e2.2]
    obtain ⟨b, hb⟩ : ∃ b, b = rnd (a + 347) := ⟨_, rfl⟩
    have eb := R.error (a + 347)
    rw [← hb] at eb ⊢
    have eb' : |b - (a + 347)| ≤ 1000 * (1 / 2 ^ 53) := le_trans eb (mul_le_mul_of_nonneg_right ea2 (by norm_num))
    have hb1 : (m : ℚ) < b ∧ b < m + 1 := by
      rw [abs_le] at eb' ea' e1
      norm_num at eb' ea' e1
      constructor <;> linarith [ea'.1, ea'.2, e1.1, e1.2, eb'.1, eb'.2]
    have ht : toInt b = m := by
      unfold toInt
      rw [if_pos (by linarith [hb1.1]), Int.floor_eq_iff]
      exact ⟨le_of_lt hb1.1, hb1.2⟩
    rw [ht, if_pos (rnd_pos R (by linarith [hb1.1]))]

/-- An entry of the table is a power of ten, to the nearest. -/
def exactPower (i : Nat) : Bool :=
  let F := cachedF.getD i 0
  let E := cachedE.getD i 0
  let Q := 2 ^ (E + 1220).toNat * 10 ^ 348
  let P := 10 ^ (8 * i) * 2 ^ 1220
  decide (-1220 ≤ E) && decide (2 * F * Q ≤ 2 * P + Q) && decide (2 * P ≤ 2 * F * Q + Q) && decide (2 ^ 63 ≤ F) && decide (F < 2 ^ 64)

theorem exactPower_all : ((List.range 87).all exactPower) = true := by decide +kernel

end Current.Json.Grisu
