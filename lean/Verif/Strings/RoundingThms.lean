import Verif.Strings.RoundingProps
import Mathlib.Analysis.Complex.ExponentialBounds
/-!
C118: theorems.
-/

set_option linter.unusedSimpArgs false
set_option linter.unusedTactic false

namespace Current.Rounding

/-- What is printed before and after the digits of the loop. -/
def whole (k m : Nat) (di : Int) (x : Nat) : List Char :=
  (if di < 0 then '0' :: '.' :: List.replicate di.natAbs '0' else if di = 0 then ['0'] else []) ++ (emit k di (10 ^ m) x).1 ++ List.replicate (emit k di (10 ^ m) x).2.toNat '0'

theorem whole_denotes {k m : Nat} {di : Int} {x : Nat} (hk : k ≤ m) (hx : x < 10 ^ m) (hd : 10 ^ (m - k) ∣ x) : readInt 0 (whole k m di x) = x * (10 : Rat) ^ (di - m) := by
  have h0 : ('0' : Char) ≠ '.' := by decide
  have hz : digitVal '0' = 0 := by decide
  have hp : (10 : Rat) ≠ 0 := by norm_num
  simp only [whole]
  by_cases h1 : di < 0
  · obtain ⟨j, rfl⟩ : ∃ j : Nat, di = -(j : Int) := ⟨di.natAbs, by omega⟩
    obtain ⟨i1, i2⟩ := emit_frac k m (-(j : Int)) x 0 (1 / 10 ^ j) h1 hk hx hd
    have e5 : (emit k (-(j : Int)) (10 ^ m) x).2.toNat = 0 := by omega
    have e6 : (-(j : Int)).natAbs = j := by omega
    rw [if_pos h1, e5, e6, List.replicate_zero, List.append_nil]
    simp only [List.cons_append, readInt, h0, if_false, if_true, hz, Nat.cast_zero, zero_mul, add_zero]
    rw [read_frac_zeros, i1, zpow_sub₀ hp, zpow_neg, zpow_natCast, zpow_natCast]
    field_simp; ring
  · rw [if_neg h1]
    by_cases h2 : di = 0
    · subst h2
      obtain ⟨i1, i2⟩ := emit_point k m x 0 hk hx hd
      have e5 : (emit k 0 (10 ^ m) x).2.toNat = 0 := by omega
      rw [if_pos rfl, e5, List.replicate_zero, List.append_nil]
      simp only [List.cons_append, List.nil_append, readInt, h0, if_false, hz, Nat.cast_zero, zero_mul, add_zero]
      rw [i1, zero_sub, zpow_neg, zpow_natCast]
      field_simp; ring
    · obtain ⟨j, rfl⟩ : ∃ j : Nat, di = (j : Int) := ⟨di.toNat, by omega⟩
      rw [if_neg h2, List.nil_append, emit_int k m j x 0 (by omega) hk hx hd, zpow_sub₀ hp, zpow_natCast, zpow_natCast]
      ring

theorem digits_eq {n : Nat} {dim : Int} {x : Nat} : digits n dim x = if 10 ^ n ≤ x then whole n (n + 1) (dim + 1) x else whole n n dim x := by
  simp only [digits, whole]
  split <;> simp [Nat.pow_succ]

/-- C118. The digits printed denote `integerized`, scaled back. -/
theorem digits_denote {n : Nat} {dim : Int} {x : Nat} (hn : 1 ≤ n) (hx : x ≤ 10 ^ n) : readInt 0 (digits n dim x) = x * (10 : Rat) ^ (dim - n) := by
  rw [digits_eq]
  split
  · have : x = 10 ^ n := by omega
    subst this
    rw [whole_denotes (by omega) (Nat.pow_lt_pow_right (by decide) (by omega)) (by rw [show n + 1 - n = 1 by omega]; exact Nat.pow_dvd_pow 10 hn)]
    congr 2; push_cast; ring
  · rw [whole_denotes (le_refl _) (by omega) (by simp)]

theorem integerized_le {v : Rat} {n : Nat} {dim : Int} (h0 : 0 ≤ v) (h1 : v < 10 ^ dim) : integerized v n dim ≤ 10 ^ n := by
  have hp : (10 : Rat) ≠ 0 := by norm_num
  have hlt : v * 10 ^ ((n : Int) - dim) < 10 ^ n := by
    have : v * (10 : Rat) ^ ((n : Int) - dim) < 10 ^ dim * 10 ^ ((n : Int) - dim) := mul_lt_mul_of_pos_right h1 (by positivity)
    rwa [← zpow_add₀ hp, show dim + ((n : Int) - dim) = n by ring, zpow_natCast] at this
  have hf : ⌊v * (10 : Rat) ^ ((n : Int) - dim) + 1 / 2⌋ < 10 ^ n + 1 := by
    rw [Int.floor_lt]; push_cast; linarith
  have hnn : 0 ≤ ⌊v * (10 : Rat) ^ ((n : Int) - dim) + 1 / 2⌋ := Int.floor_nonneg.mpr (by positivity)
  simp only [integerized]
  zify
  rw [Int.toNat_of_nonneg hnn]
  omega

theorem integerized_near {v : Rat} {n : Nat} {dim : Int} (h0 : 0 ≤ v) : |(integerized v n dim : Rat) * 10 ^ (dim - n) - v| ≤ 10 ^ (dim - n) / 2 := by
  have hp : (10 : Rat) ≠ 0 := by norm_num
  have hnn : 0 ≤ ⌊v * (10 : Rat) ^ ((n : Int) - dim) + 1 / 2⌋ := Int.floor_nonneg.mpr (by positivity)
  have hc : (integerized v n dim : Rat) = (⌊v * (10 : Rat) ^ ((n : Int) - dim) + 1 / 2⌋ : Int) := by
    simp only [integerized]
    exact_mod_cast Int.toNat_of_nonneg hnn
  have h1 := Int.floor_le (v * (10 : Rat) ^ ((n : Int) - dim) + 1 / 2)
  have h2 := Int.lt_floor_add_one (v * (10 : Rat) ^ ((n : Int) - dim) + 1 / 2)
  rw [← hc] at h1 h2
  have hw : (0 : Rat) < 10 ^ (dim - n) := by positivity
  have hv : v = v * (10 : Rat) ^ ((n : Int) - dim) * 10 ^ (dim - (n : Int)) := by
    rw [mul_assoc, ← zpow_add₀ hp, show (n : Int) - dim + (dim - n) = 0 by ring, zpow_zero, mul_one]
  generalize (integerized v n dim : Rat) = x at *
  generalize v * (10 : Rat) ^ ((n : Int) - dim) = y at *
  rw [hv, ← sub_mul, abs_mul, abs_of_pos hw, div_eq_mul_one_div, mul_comm]
  refine mul_le_mul_of_nonneg_left ?_ hw.le
  rw [abs_le]; constructor <;> linarith

/-! ### The number of digits before the point -/

theorem log10_pos : 0 < Real.log 10 := Real.log_pos (by norm_num)

/-- `dim` is large enough, whatever the number. -/
theorem lt_pow_dimOf {v : Rat} (hv : 0 < v) : v < 10 ^ dimOf v := by
  have hr : (0 : Real) < v := by exact_mod_cast hv
  have h1 : Real.log v / Real.log 10 < (dimOf v : Real) := by
    have := Int.le_ceil (Real.log v / Real.log 10 + 1 / 10 ^ 10)
    have h2 : (0 : Real) < 1 / 10 ^ 10 := by positivity
    simp only [dimOf]; linarith
  have h2 : Real.log v < dimOf v * Real.log 10 := by rwa [div_lt_iff₀ log10_pos] at h1
  have h3 : (v : Real) < 10 ^ (dimOf v) := by
    rw [← Real.log_zpow] at h2
    exact (Real.log_lt_log_iff hr (by positivity)).mp h2
  have h4 : ((v : Rat) : Real) < (((10 : Rat) ^ dimOf v : Rat) : Real) := by push_cast; exact h3
  exact Rat.cast_lt.mp h4

/-- And as small as possible, unless the number is just below a power of ten: closer than two billionths of it. -/
theorem pow_dimOf_le {v : Rat} (hv : 0 < v) {e : Int} (h1 : (10 : Rat) ^ (e - 1) ≤ v) (h2 : (v : Real) ≤ 10 ^ ((e : Real) - 1 / 10 ^ 10)) : dimOf v = e := by
  have hr : (0 : Real) < v := by exact_mod_cast hv
  have hlt : (10 : Rat) ^ (e - 1) < 10 ^ dimOf v := lt_of_le_of_lt h1 (lt_pow_dimOf hv)
  have hle : e - 1 < dimOf v := (zpow_lt_zpow_iff_right₀ (by norm_num)).mp hlt
  have hge : dimOf v ≤ e := by
    simp only [dimOf]
    rw [Int.ceil_le]
    have h3 : Real.log v ≤ ((e : Real) - 1 / 10 ^ 10) * Real.log 10 := by
      rw [← Real.log_rpow (by norm_num)]
      exact Real.log_le_log hr h2
    have : Real.log v / Real.log 10 ≤ (e : Real) - 1 / 10 ^ 10 := by rwa [div_le_iff₀ log10_pos]
    linarith
  omega

/-! ### What is printed -/

/-- How a number is written: digits without superfluous zeros in front, and after the point, if there is one, at least one digit, the last of which is not zero. -/
def Tidy (s : List Char) : Prop :=
  ∃ ip fp : List Char, (∀ c ∈ ip, c.isDigit = true) ∧ (∀ c ∈ fp, c.isDigit = true) ∧ ip ≠ [] ∧ (ip = ['0'] ∨ ip.head? ≠ some '0') ∧
    ((fp = [] ∧ s = ip) ∨ (fp ≠ [] ∧ fp.getLast? ≠ some '0' ∧ s = ip ++ '.' :: fp))

theorem digitChar_isDigit {d : Nat} (h : d < 10) : (Nat.digitChar d).isDigit = true ∧ (Nat.digitChar d = '0' ↔ d = 0) := by
  match d, h with
  | 0, _ | 1, _ | 2, _ | 3, _ | 4, _ | 5, _ | 6, _ | 7, _ | 8, _ | 9, _ => decide

theorem tidy_frac : ∀ (k m : Nat) (di : Int) (x : Nat), di < 0 → k ≤ m → x < 10 ^ m → 10 ^ (m - k) ∣ x → 0 < x →
    (∀ c ∈ (emit k di (10 ^ m) x).1, c.isDigit = true) ∧ (emit k di (10 ^ m) x).1 ≠ [] ∧ (emit k di (10 ^ m) x).1.getLast? ≠ some '0' := by
  intro k
  induction k with
  | zero =>
    intro m di x _ _ hx hd h0
    have := Nat.le_of_dvd h0 hd; simp at this; omega
  | succ k ih =>
    intro m di x hd hk hx hdvd h0
    obtain ⟨m, rfl⟩ : ∃ m', m = m' + 1 := ⟨m - 1, by omega⟩
    obtain ⟨h1, h2, h3⟩ := lead hx
    obtain ⟨d1, d2⟩ := digitChar_isDigit h1
    have hne : di ≠ 0 := by omega
    simp only [emit, pow_div_ten, hne, if_false, List.nil_append, h2]
    split
    · rename_i hs
      refine ⟨by simp [d1], by simp, ?_⟩
      simp only [List.getLast?_singleton, ne_eq, Option.some.injEq, d2]
      intro hz; rw [hz, hs.2] at h3; omega
    · rename_i hs
      have hd' : 10 ^ (m - k) ∣ x % 10 ^ m := by
        rw [show m + 1 - (k + 1) = m - k by omega] at hdvd
        exact (Nat.dvd_mod_iff (Nat.pow_dvd_pow 10 (Nat.sub_le m k))).mpr hdvd
      obtain ⟨i1, i2, i3⟩ := ih m (di - 1) (x % 10 ^ m) (by omega) (by omega) (Nat.mod_lt _ (by positivity)) hd' (by omega)
      refine ⟨?_, by simp, ?_⟩
      · intro c hc
        simp only [List.mem_cons] at hc
        rcases hc with rfl | hc
        · exact d1
        · exact i1 c hc
      · rw [List.getLast?_cons_of_ne_nil i2]; exact i3

theorem tidy_point {k m x : Nat} (hk : k ≤ m) (hx : x < 10 ^ m) (hdvd : 10 ^ (m - k) ∣ x) (h0 : 0 < x) :
    ∃ fp, (emit k 0 (10 ^ m) x).1 = '.' :: fp ∧ (∀ c ∈ fp, c.isDigit = true) ∧ fp ≠ [] ∧ fp.getLast? ≠ some '0' := by
  cases k with
  | zero => have := Nat.le_of_dvd h0 hdvd; simp at this; omega
  | succ k =>
    have hf := tidy_frac (k + 1) m (-1) x (by omega) hk hx hdvd h0
    obtain ⟨m, rfl⟩ : ∃ m', m = m' + 1 := ⟨m - 1, by omega⟩
    obtain ⟨h1, h2, h3⟩ := lead hx
    obtain ⟨d1, d2⟩ := digitChar_isDigit h1
    simp only [emit, pow_div_ten, if_true, h2]
    split
    · rename_i hs
      refine ⟨[Nat.digitChar (x / 10 ^ m)], rfl, by simp [d1], by simp, ?_⟩
      simp only [List.getLast?_singleton, ne_eq, Option.some.injEq, d2]
      intro hz; rw [hz, hs.2] at h3; omega
    · rename_i hs
      have hd' : 10 ^ (m - k) ∣ x % 10 ^ m := by
        rw [show m + 1 - (k + 1) = m - k by omega] at hdvd
        exact (Nat.dvd_mod_iff (Nat.pow_dvd_pow 10 (Nat.sub_le m k))).mpr hdvd
      obtain ⟨i1, i2, i3⟩ := tidy_frac k m (0 - 1) (x % 10 ^ m) (by omega) (by omega) (Nat.mod_lt _ (by positivity)) hd' (by omega)
      refine ⟨Nat.digitChar (x / 10 ^ m) :: (emit k (0 - 1) (10 ^ m) (x % 10 ^ m)).1, rfl, ?_, by simp, ?_⟩
      · intro c hc
        simp only [List.mem_cons] at hc
        rcases hc with rfl | hc
        · exact d1
        · exact i1 c hc
      · rw [List.getLast?_cons_of_ne_nil i2]; exact i3

theorem tidy_int : ∀ (k m di x : Nat), 0 < di → k ≤ m → x < 10 ^ m → 10 ^ (m - k) ∣ x →
    ∃ ip fp, (∀ c ∈ ip, c.isDigit = true) ∧ (∀ c ∈ fp, c.isDigit = true) ∧ ip ≠ [] ∧
      (0 < k → ip.head? = some (Nat.digitChar (x / 10 ^ (m - 1)))) ∧
      ((fp = [] ∧ (emit k di (10 ^ m) x).1 ++ List.replicate (emit k di (10 ^ m) x).2.toNat '0' = ip) ∨
        (fp ≠ [] ∧ fp.getLast? ≠ some '0' ∧ (emit k di (10 ^ m) x).1 ++ List.replicate (emit k di (10 ^ m) x).2.toNat '0' = ip ++ '.' :: fp)) := by
  intro k
  induction k with
  | zero =>
    intro m di x hd _ hx hdvd
    refine ⟨List.replicate di '0', [], ?_, by simp, ?_, by omega, Or.inl ⟨rfl, by simp [emit]⟩⟩
    · intro c hc; rw [List.eq_of_mem_replicate hc]; decide
    · intro h; have := congrArg List.length h; simp at this; omega
  | succ k ih =>
    intro m di x hd hk hx hdvd
    obtain ⟨m, rfl⟩ : ∃ m', m = m' + 1 := ⟨m - 1, by omega⟩
    obtain ⟨h1, h2, h3⟩ := lead hx
    obtain ⟨d1, d2⟩ := digitChar_isDigit h1
    have hne : (di : Int) ≠ 0 := by omega
    simp only [emit, pow_div_ten, hne, if_false, List.nil_append, h2]
    obtain ⟨di, rfl⟩ : ∃ d, di = d + 1 := ⟨di - 1, by omega⟩
    have e4 : ((di + 1 : Nat) : Int) - 1 = di := by omega
    rw [e4, Nat.add_sub_cancel]
    split
    · rename_i hs
      have h0 : di = 0 := by omega
      subst h0
      exact ⟨[Nat.digitChar (x / 10 ^ m)], [], by simp [d1], by simp, by simp, by simp, Or.inl ⟨rfl, by simp⟩⟩
    · rename_i hs
      have hd' : 10 ^ (m - k) ∣ x % 10 ^ m := by
        rw [show m + 1 - (k + 1) = m - k by omega] at hdvd
        exact (Nat.dvd_mod_iff (Nat.pow_dvd_pow 10 (Nat.sub_le m k))).mpr hdvd
      have hmod : x % 10 ^ m < 10 ^ m := Nat.mod_lt _ (by positivity)
      rcases Nat.eq_zero_or_pos di with h0 | h0
      · subst h0
        have hx0 : 0 < x % 10 ^ m := by
          rcases Nat.eq_zero_or_pos (x % 10 ^ m) with h | h
          · exact absurd ⟨by simp, h⟩ hs
          · exact h
        obtain ⟨fp, f1, f2, f3, f4⟩ := tidy_point (by omega : k ≤ m) hmod hd' hx0
        have e5 : (emit k ((0 : Nat) : Int) (10 ^ m) (x % 10 ^ m)).2.toNat = 0 := by
          have : (emit k ((0 : Nat) : Int) (10 ^ m) (x % 10 ^ m)).2 ≤ 0 := (emit_point k m (x % 10 ^ m) 0 (by omega) hmod hd').2
          omega
        have f1 : (emit k ((0 : Nat) : Int) (10 ^ m) (x % 10 ^ m)).1 = '.' :: fp := f1
        refine ⟨[Nat.digitChar (x / 10 ^ m)], fp, by simp [d1], f2, by simp, by simp, Or.inr ⟨f3, f4, ?_⟩⟩
        rw [e5, f1]; simp
      · obtain ⟨ip, fp, g1, g2, g3, _, g5⟩ := ih m di (x % 10 ^ m) h0 (by omega) hmod hd'
        refine ⟨Nat.digitChar (x / 10 ^ m) :: ip, fp, ?_, g2, by simp, by simp, ?_⟩
        · intro c hc
          simp only [List.mem_cons] at hc
          rcases hc with rfl | hc
          · exact d1
          · exact g1 c hc
        · rcases g5 with ⟨a, b⟩ | ⟨a, b, c⟩
          · exact Or.inl ⟨a, by rw [List.cons_append, b]⟩
          · exact Or.inr ⟨a, b, by rw [List.cons_append, c]; rfl⟩

theorem whole_tidy {k m : Nat} {di : Int} {x : Nat} (hk : k ≤ m) (hk0 : 0 < k) (hx : x < 10 ^ m) (hd : 10 ^ (m - k) ∣ x) (h0 : 10 ^ (m - 1) ≤ x) : Tidy (whole k m di x) := by
  have hx0 : 0 < x := lt_of_lt_of_le (by positivity) h0
  simp only [whole]
  by_cases h1 : di < 0
  · obtain ⟨i1, i2, i3⟩ := tidy_frac k m di x h1 hk hx hd hx0
    have e5 : (emit k di (10 ^ m) x).2.toNat = 0 := by have := (emit_frac k m di x 0 0 h1 hk hx hd).2; omega
    rw [if_pos h1, e5, List.replicate_zero, List.append_nil]
    refine ⟨['0'], List.replicate di.natAbs '0' ++ (emit k di (10 ^ m) x).1, by decide, ?_, by simp, Or.inl rfl, Or.inr ⟨by simp [i2], ?_, by simp⟩⟩
    · intro c hc
      simp only [List.mem_append] at hc
      rcases hc with hc | hc
      · rw [List.eq_of_mem_replicate hc]; decide
      · exact i1 c hc
    · rw [List.getLast?_append_of_ne_nil _ i2]; exact i3
  · rw [if_neg h1]
    by_cases h2 : di = 0
    · subst h2
      obtain ⟨fp, f1, f2, f3, f4⟩ := tidy_point hk hx hd hx0
      have e5 : (emit k 0 (10 ^ m) x).2.toNat = 0 := by have := (emit_point k m x 0 hk hx hd).2; omega
      rw [if_pos rfl, e5, f1, List.replicate_zero, List.append_nil]
      exact ⟨['0'], fp, by decide, f2, by simp, Or.inl rfl, Or.inr ⟨f3, f4, rfl⟩⟩
    · obtain ⟨j, rfl⟩ : ∃ j : Nat, di = (j : Int) := ⟨di.toNat, by omega⟩
      obtain ⟨ip, fp, g1, g2, g3, g4, g5⟩ := tidy_int k m j x (by omega) hk hx hd
      rw [if_neg h2, List.nil_append]
      refine ⟨ip, fp, g1, g2, g3, Or.inr ?_, g5⟩
      rw [g4 hk0]
      obtain ⟨m, rfl⟩ : ∃ m', m = m' + 1 := ⟨m - 1, by omega⟩
      obtain ⟨d1, d2⟩ := digitChar_isDigit (lead hx).1
      simp only [Nat.add_sub_cancel, ne_eq, Option.some.injEq] at *
      rw [d2]
      have : 0 < x / 10 ^ m := Nat.div_pos h0 (by positivity)
      omega

theorem whole_head {k m : Nat} {di : Int} {x : Nat} (hk : k ≤ m) (hx : x < 10 ^ m) (hd : 10 ^ (m - k) ∣ x) : ∃ c s, whole k m di x = c :: s ∧ c.isDigit = true := by
  simp only [whole]
  by_cases h1 : di < 0
  · rw [if_pos h1]; exact ⟨_, _, rfl, by decide⟩
  · rw [if_neg h1]
    by_cases h2 : di = 0
    · rw [if_pos h2]; exact ⟨_, _, rfl, by decide⟩
    · obtain ⟨j, rfl⟩ : ∃ j : Nat, di = (j : Int) := ⟨di.toNat, by omega⟩
      obtain ⟨ip, fp, g1, g2, g3, g4, g5⟩ := tidy_int k m j x (by omega) hk hx hd
      rw [if_neg h2, List.nil_append]
      obtain ⟨c, s, rfl⟩ := List.exists_cons_of_ne_nil g3
      rcases g5 with ⟨_, b⟩ | ⟨_, _, b⟩
      · exact ⟨c, s, b, g1 c (by simp)⟩
      · exact ⟨c, _, b, g1 c (by simp)⟩

theorem corner_facts {n x : Nat} (hn : 1 ≤ n) (hx : x ≤ 10 ^ n) (h : 10 ^ n ≤ x) : n ≤ n + 1 ∧ x < 10 ^ (n + 1) ∧ 10 ^ (n + 1 - n) ∣ x := by
  have : x = 10 ^ n := by omega
  subst this
  exact ⟨by omega, Nat.pow_lt_pow_right (by decide) (by omega), by rw [show n + 1 - n = 1 by omega]; exact Nat.pow_dvd_pow 10 hn⟩

theorem digits_head {n : Nat} {dim : Int} {x : Nat} (hn : 1 ≤ n) (hx : x ≤ 10 ^ n) : ∃ c s, digits n dim x = c :: s ∧ c.isDigit = true := by
  rw [digits_eq]
  split
  · rename_i h
    obtain ⟨a, b, c⟩ := corner_facts hn hx h
    exact whole_head a b c
  · exact whole_head (le_refl _) (by omega) (by simp)

theorem denotes_sign {s : List Char} (c : Char) (t : List Char) (hs : s = c :: t) (hc : c.isDigit = true) : denotes s = readInt 0 s ∧ denotes ('-' :: s) = -readInt 0 s ∧ denotes ('+' :: s) = readInt 0 s := by
  refine ⟨?_, rfl, rfl⟩
  subst hs
  unfold denotes
  split
  · rename_i h; injection h with h _; subst h; exact absurd hc (by decide)
  · rename_i h; injection h with h _; subst h; exact absurd hc (by decide)
  · rfl

/-- C118. The number printed is the nearest multiple of the unit of the last of the `n` digits: off by at most half of it. Numbers below `1e-16` are printed as zero. -/
theorem round_near {v : Rat} {n : Nat} {plus : Bool} (hn : 1 ≤ n) (hv : 1 / 10 ^ 16 ≤ |v|) : |denotes (round v n (dimOf |v|) plus) - v| ≤ 10 ^ (dimOf |v| - n) / 2 := by
  have ha : (if v < 0 then -v else v) = |v| := by
    split
    · rename_i h; rw [abs_of_neg h]
    · rename_i h; rw [abs_of_nonneg (not_lt.mp h)]
  have hpos : 0 < |v| := lt_of_lt_of_le (by positivity) hv
  have hle := integerized_le (n := n) hpos.le (lt_pow_dimOf hpos)
  have hnear := integerized_near (n := n) (dim := dimOf |v|) hpos.le
  obtain ⟨c, t, hs, hc⟩ := digits_head (dim := dimOf |v|) hn hle
  obtain ⟨s1, s2, s3⟩ := denotes_sign c t hs hc
  have hden := digits_denote (dim := dimOf |v|) hn hle
  simp only [round, ha, not_lt.mpr hv, if_false]
  by_cases h : v < 0
  · rw [if_pos h, List.singleton_append, s2, hden]
    rw [abs_of_neg h] at hnear ⊢
    rw [← abs_neg]
    convert hnear using 2
    ring
  · rw [if_neg h]
    rw [abs_of_nonneg (not_lt.mp h)] at hnear hden s1 s3 ⊢
    split
    · rw [List.singleton_append, s3, hden]; exact hnear
    · rw [List.nil_append, s1, hden]; exact hnear

/-- C118. A number that is not just below a power of ten is printed without superfluous zeros, and with `n` significant digits: the error is below half a unit of the `n`-th digit. -/
theorem round_tidy {v : Rat} {n : Nat} {e : Int} (hn : 1 ≤ n) (hv : 1 / 10 ^ 16 ≤ v) (h1 : (10 : Rat) ^ (e - 1) ≤ v) (h2 : (v : Real) ≤ 10 ^ ((e : Real) - 1 / 10 ^ 10)) :
    dimOf v = e ∧ Tidy (round v n (dimOf v) false) := by
  have hpos : 0 < v := lt_of_lt_of_le (by positivity) hv
  have he := pow_dimOf_le hpos h1 h2
  refine ⟨he, ?_⟩
  have hlt := lt_pow_dimOf hpos
  rw [he] at hlt ⊢
  have hle := integerized_le (n := n) hpos.le hlt
  have hge : 10 ^ (n - 1) ≤ integerized v n e := by
    have hp : (10 : Rat) ≠ 0 := by norm_num
    have hm : (10 : Rat) ^ (n - 1) ≤ v * 10 ^ ((n : Int) - e) := by
      have : (10 : Rat) ^ (e - 1) * 10 ^ ((n : Int) - e) ≤ v * 10 ^ ((n : Int) - e) := mul_le_mul_of_nonneg_right h1 (by positivity)
      rwa [← zpow_add₀ hp, show e - 1 + ((n : Int) - e) = ((n - 1 : Nat) : Int) by omega, zpow_natCast] at this
    simp only [integerized]
    have hf : ((10 ^ (n - 1) : Nat) : Int) ≤ ⌊v * (10 : Rat) ^ ((n : Int) - e) + 1 / 2⌋ := by
      rw [Int.le_floor]; push_cast; linarith
    omega
  simp only [round, not_lt.mpr hpos.le, if_false, not_lt.mpr hv, Bool.false_eq_true, and_false, List.nil_append, digits_eq]
  split
  · rename_i h
    obtain ⟨a, b, c⟩ := corner_facts hn hle h
    exact whole_tidy a hn b c (by simpa using h)
  · exact whole_tidy (le_refl _) hn (by omega) (by simp) hge

/-- C118. The sign: `-` exactly if the number is negative, `+` if asked for. -/
theorem round_sign {v : Rat} {n : Nat} {dim : Int} {plus : Bool} (hv : 1 / 10 ^ 16 ≤ |v|) (hx : 0 < integerized |v| n dim) :
    round v n dim plus = (if v < 0 then ['-'] else if plus then ['+'] else []) ++ round |v| n dim false := by
  have hpos : 0 < |v| := lt_of_lt_of_le (by positivity) hv
  have ha : (if v < 0 then -v else v) = |v| := by
    split
    · rename_i h; rw [abs_of_neg h]
    · rename_i h; rw [abs_of_nonneg (not_lt.mp h)]
  simp only [round, ha, not_lt.mpr hv, not_lt.mpr hpos.le, if_false, Bool.false_eq_true, and_false, List.nil_append, hx, true_and]

/-! ### Examples -/

example : round 1234567 3 7 false = "1230000".toList := by decide +kernel
example : round (314159 / 100000) 3 1 true = "+3.14".toList := by decide +kernel
example : round (-(999999 / 10000000)) 2 0 false = "-0.1".toList := by decide +kernel
example : round (123 / 1000000) 2 (-3) false = "0.00012".toList := by decide +kernel

/-- An ordinary number meets the hypotheses of `round_tidy`. -/
example : dimOf (314159 / 100000) = 1 ∧ Tidy (round (314159 / 100000) 3 (dimOf (314159 / 100000)) false) := by
  refine round_tidy (e := 1) (by norm_num) (by norm_num) (by norm_num) ?_
  have h1 : ((314159 / 100000 : Rat) : Real) ≤ Real.sqrt 10 := by
    apply Real.le_sqrt_of_sq_le
    push_cast; norm_num
  rw [Real.sqrt_eq_rpow] at h1
  refine le_trans h1 (Real.rpow_le_rpow_of_exponent_le (by norm_num) ?_)
  push_cast; norm_num

theorem dimOf_leading_zero : dimOf (999999999991 / 100000000000) = 2 := by
  have h10 : (1 : Real) < Real.log 10 := by
    rw [Real.lt_log_iff_exp_lt (by norm_num)]
    exact lt_trans Real.exp_one_lt_d9 (by norm_num)
  have hv : ((999999999991 / 100000000000 : Rat) : Real) = 10 * (999999999991 / 1000000000000) := by push_cast; norm_num
  have hl : Real.log ((999999999991 / 100000000000 : Rat) : Real) = Real.log 10 + Real.log (999999999991 / 1000000000000) := by
    rw [hv, Real.log_mul (by norm_num) (by norm_num)]
  have h1 := Real.one_sub_inv_le_log_of_pos (x := 999999999991 / 1000000000000) (by norm_num)
  have h2 : Real.log (999999999991 / 1000000000000) < 0 := Real.log_neg (by norm_num) (by norm_num)
  have h3 : (-(1 / 10 ^ 11) : Real) < 1 - (999999999991 / 1000000000000)⁻¹ := by norm_num
  simp only [dimOf]
  rw [Int.ceil_eq_iff, hl, add_div, div_self (by linarith)]
  have h4 : Real.log (999999999991 / 1000000000000) / Real.log 10 < 0 := div_neg_of_neg_of_pos h2 (by linarith)
  have h5 : -(1 / 10 ^ 11) < Real.log (999999999991 / 1000000000000) / Real.log 10 := by
    rw [lt_div_iff₀ (by linarith)]
    have : -(1 / 10 ^ 11) * Real.log 10 ≤ -(1 / 10 ^ 11) := by nlinarith
    linarith
  push_cast
  constructor <;> norm_num at * <;> linarith

/-- Just below a power of ten the logarithm plus `1e-10` is too large: a zero too many is printed in front, and a digit too few after it. -/
theorem leading_zero : round (999999999991 / 100000000000) 15 (dimOf (999999999991 / 100000000000)) false = "09.99999999991".toList ∧ ¬ Tidy "09.99999999991".toList := by
  refine ⟨by rw [dimOf_leading_zero]; decide +kernel, ?_⟩
  rintro ⟨ip, fp, h1, h2, h3, h4, h5⟩
  have hh : ip.head? = some '0' := by
    obtain ⟨c, s, rfl⟩ := List.exists_cons_of_ne_nil h3
    rcases h5 with ⟨_, b⟩ | ⟨_, _, b⟩ <;> (injection b with b _; rw [← b]; rfl)
  rcases h4 with rfl | h4
  · rcases h5 with ⟨_, b⟩ | ⟨_, _, b⟩ <;> revert b <;> simp
  · exact h4 hh

end Current.Rounding
