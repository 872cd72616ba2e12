import Verif.Json.GrisuMain
import Mathlib.Order.Monotone.Basic
/-!
C154: among all `double`s, the one whose digits were printed is the nearest to what was printed.
-/
set_option linter.unusedSimpArgs false
set_option linter.unusedVariables false
namespace Current.Json.Grisu
open Current.Persist (Str)

/-! ### IEEE 754, independently -/

/-- The value of a nonnegative binary64 with the bits `a` (IEEE 754-2019, 3.4): bits 0-51 are the fraction, bits 52-62 the biased exponent.
Applied to the bits of infinity this is `2^1024`. -/
def ieee (a : Nat) : ℚ :=
  if a / 2 ^ 52 = 0 then ((a % 2 ^ 52 : Nat) : ℚ) * 2 ^ (-1074 : Int)
  else ((2 ^ 52 + a % 2 ^ 52 : Nat) : ℚ) * 2 ^ (((a / 2 ^ 52 : Nat) : Int) - 1075)

/-- The bits of infinity. All smaller numbers are the bits of finite nonnegative numbers. -/
def infinity : Nat := 2047 * 2 ^ 52

/-- The exponent of the last bit. -/
def expo (a : Nat) : Int := if a / 2 ^ 52 = 0 then -1074 else ((a / 2 ^ 52 : Nat) : Int) - 1075

theorem ieee_succ (a : Nat) : ieee (a + 1) = ieee a + 2 ^ expo a := by
  unfold ieee expo
  by_cases hm : a % 2 ^ 52 + 1 < 2 ^ 52
  · have h1 : (a + 1) / 2 ^ 52 = a / 2 ^ 52 := by omega
    have h2 : (a + 1) % 2 ^ 52 = a % 2 ^ 52 + 1 := by omega
    rw [h1, h2]
    split
    · push_cast; ring
    · push_cast; ring
  · have h1 : (a + 1) / 2 ^ 52 = a / 2 ^ 52 + 1 := by omega
    have h2 : (a + 1) % 2 ^ 52 = 0 := by omega
    have h3 : a % 2 ^ 52 = 2 ^ 52 - 1 := by omega
    rw [h1, h2, h3, if_neg (by omega)]
    split
    · rename_i h
      rw [h, show (((0 + 1 : Nat) : Int) - 1075) = -1074 from rfl]
      generalize (2 : ℚ) ^ (-1074 : Int) = t
      norm_num
      ring
    · rename_i h
      rw [show (((a / 2 ^ 52 + 1 : Nat) : Int) - 1075) = (((a / 2 ^ 52 : Nat) : Int) - 1075) + 1 by push_cast; ring, zpow_add_one₀ (by norm_num)]
      norm_num
      ring

theorem ieee_strictMono : StrictMono ieee :=
  strictMono_nat_of_lt_succ fun n => by
    rw [ieee_succ]
    have : (0 : ℚ) < 2 ^ expo n := zpow_pos (by norm_num) _
    linarith

theorem ofBits_spec (u : Nat) (hu : u < 2 ^ 64) (h1 : u % 2 ^ 63 < infinity) (h0 : 0 < u % 2 ^ 63) :
    ∃ f : Nat, ofBits u = ⟨f, expo (u % 2 ^ 63)⟩ ∧ 0 < f ∧ f < 2 ^ 53 ∧ -1074 ≤ expo (u % 2 ^ 63) ∧ expo (u % 2 ^ 63) ≤ 971 ∧
      ieee (u % 2 ^ 63) = (f : ℚ) * 2 ^ expo (u % 2 ^ 63) ∧
      (f ≠ 2 ^ 52 → expo (u % 2 ^ 63 - 1) = expo (u % 2 ^ 63)) ∧ expo (u % 2 ^ 63) - 1 ≤ expo (u % 2 ^ 63 - 1) := by
  unfold infinity at h1
  have e1 : u / 2 ^ 52 % 2 ^ 11 = (u % 2 ^ 63) / 2 ^ 52 := by omega
  have e2 : u % 2 ^ 52 = (u % 2 ^ 63) % 2 ^ 52 := by omega
  unfold ofBits
  simp only
  rw [e1, e2]
  generalize u % 2 ^ 63 = a at *
  unfold ieee expo
  by_cases h : a / 2 ^ 52 = 0
  · refine ⟨a % 2 ^ 52, by rw [if_neg (by simpa using h), if_pos h]; rfl, by omega, by omega, by rw [if_pos h], by rw [if_pos h]; omega, by rw [if_pos h, if_pos h], ?_, ?_⟩
    · intro _; rw [if_pos h, if_pos (by omega)]
    · rw [if_pos h, if_pos (by omega)]; omega
  · refine ⟨a % 2 ^ 52 + 2 ^ 52, by rw [if_pos h, if_neg h], by omega, by omega, by rw [if_neg h]; omega, by rw [if_neg h]; omega,
      by rw [if_neg h, if_neg h]; push_cast; ring, ?_, ?_⟩
    · intro hf
      rw [if_neg h, if_neg (by omega)]
      congr 2
      omega
    · rw [if_neg h]
      split <;> omega

/-! ### digits -/

theorem toNat_ofNat {c : Nat} (h : c ≤ 57) : (Char.ofNat c).toNat = c := by
  have : ∀ c : Fin 58, (Char.ofNat c.1).toNat = c.1 := by decide
  exact this ⟨c, by omega⟩

theorem ofDigitChars_rev (buf : List Nat) (h : ∀ c ∈ buf, 48 ≤ c ∧ c ≤ 57) : Nat.ofDigitChars 10 (buf.reverse.map Char.ofNat) 0 = val buf := by
  induction buf with
  | nil => simp [val]
  | cons c t ih =>
    have hc := h c (by simp)
    rw [List.reverse_cons, List.map_append, Nat.ofDigitChars_append, ih (fun x hx => h x (by simp [hx]))]
    simp only [List.map_cons, List.map_nil, Nat.ofDigitChars_cons, Nat.ofDigitChars_nil, val]
    rw [toNat_ofNat hc.2, show '0'.toNat = 48 from rfl]
    omega

theorem val_lt (buf : List Nat) (h : ∀ c ∈ buf, 48 ≤ c ∧ c ≤ 57) : val buf < 10 ^ buf.length := by
  induction buf with
  | nil => simp [val]
  | cons c t ih =>
    have hc := h c (by simp)
    have := ih (fun x hx => h x (by simp [hx]))
    simp only [val, List.length_cons, pow_succ]
    omega

theorem digits_of_good (buf : List Nat) (h : ∀ c ∈ buf, 48 ≤ c ∧ c ≤ 57) : Digits (buf.reverse.map Char.ofNat) := by
  intro c hc
  obtain ⟨x, hx, rfl⟩ := List.mem_map.1 hc
  have hx := h x (List.mem_reverse.1 hx)
  have : ∀ c : Fin 58, 48 ≤ c.1 → (Char.ofNat c.1).isDigit = true := by decide
  exact this ⟨x, by omega⟩ hx.1

theorem nat_lt {m n : Nat} (h : 2 ^ m < 10 ^ n) : (2 : ℚ) ^ m < 10 ^ n := by exact_mod_cast h

/-! ### the theorem -/

/-- **C154.** For every `double` other than zero, an infinity and a NaN, `Grisu2` terminates, and the decimal number it produces is nearer to
that number (to its absolute value) than to any other `double`, infinity counted as `2^1024`. The digits are as `Prettify` expects. -/
theorem grisu_nearest {rnd : ℚ → ℚ} (R : Rounding rnd) (u : Nat) (hu : u < 2 ^ 64) (h0 : 0 < u % 2 ^ 63) (h1 : u % 2 ^ 63 < infinity) :
    ∃ ds k, grisu2 rnd u = some (ds, k) ∧ GrisuOk ds k ∧
      ∀ b ≤ infinity, b ≠ u % 2 ^ 63 →
        |(Nat.ofDigitChars 10 ds 0 : ℚ) * 10 ^ k - ieee (u % 2 ^ 63)| < |(Nat.ofDigitChars 10 ds 0 : ℚ) * 10 ^ k - ieee b| := by
  obtain ⟨f, hof, f0, f1, e1, e2, hv, hp1, hp2⟩ := ofBits_spec u hu h1 h0
  obtain ⟨⟨buf, k⟩, hg, good, hpos, h17, hlo, hhi⟩ := main_bounds R u f _ hof f0 f1 e1 e2
  simp only at hg good hpos h17 hlo hhi
  have hval := ofDigitChars_rev buf good.1
  refine ⟨buf.reverse.map Char.ofNat, k, hg, ?_, ?_⟩
  · have hne : buf ≠ [] := by rintro rfl; simp [val] at hpos
    have hlen1 := good.2 hne
    have hl1 : 1 ≤ buf.length := by cases buf <;> simp at hne ⊢
    have hlt := val_lt buf good.1
    refine ⟨digits_of_good buf good.1, ?_, by simpa using hne, ?_, ?_, ?_⟩
    · intro c t h hc
      have hval' := hval
      rw [h, hc, Nat.ofDigitChars_cons] at hval'
      simp only [Nat.mul_zero, Nat.sub_self, Nat.zero_add] at hval'
      have hd : ∀ x ∈ t, x.isDigit = true := by
        intro x hx
        exact digits_of_good buf good.1 x (by rw [h]; simp [hx])
      have ht : t.length = buf.length - 1 := by
        have := congrArg List.length h
        simp at this
        omega
      -- the rest is a number of less digits
      have key : ∀ (s : List Char) (i : Nat), (∀ x ∈ s, x.isDigit = true) → Nat.ofDigitChars 10 s i < (i + 1) * 10 ^ s.length := by
        intro s
        induction s with
        | nil => intro i _; simp
        | cons x s ih =>
          intro i hs
          rw [Nat.ofDigitChars_cons]
          have hx := hs x (by simp)
          have hx9 : x.toNat - '0'.toNat ≤ 9 := by
            simp only [Char.isDigit, Bool.and_eq_true, decide_eq_true_eq] at hx
            have h2 := hx.2
            have : x.toNat ≤ 57 := UInt32.le_iff_toNat_le.1 h2
            show x.toNat - 48 ≤ 9
            omega
          have := ih (10 * i + (x.toNat - '0'.toNat)) (fun y hy => hs y (by simp [hy]))
          refine lt_of_lt_of_le this ?_
          rw [List.length_cons, pow_succ', ← mul_assoc]
          exact Nat.mul_le_mul_right _ (by omega)
      have := key t 0 hd
      rw [show Nat.ofDigitChars 10 t 0 = val buf from hval', ht] at this
      omega
    · rw [List.length_map, List.length_reverse]
      by_contra h
      have : 10 ^ 17 ≤ 10 ^ (buf.length - 1) := Nat.pow_le_pow_right (by decide) (by omega)
      exact absurd (lt_of_lt_of_le h17 (le_trans this hlen1)) (lt_irrefl _)
    · rw [List.length_map, List.length_reverse]
      by_contra h
      have a1 : (val buf : ℚ) < 10 ^ (buf.length : Int) := by rw [zpow_natCast]; exact_mod_cast hlt
      have a2 : (val buf : ℚ) * 10 ^ k < 10 ^ (buf.length : Int) * 10 ^ k := mul_lt_mul_of_pos_right a1 (zpow_pos (by norm_num) _)
      rw [← zpow_add₀ (by norm_num)] at a2
      have a3 : (10 : ℚ) ^ ((buf.length : Int) + k) ≤ 10 ^ (-325 : Int) := zpow_le_zpow_right₀ (by norm_num) (by omega)
      have a4 : (1 : ℚ) * 2 ^ (-1075 : Int) ≤ (val buf : ℚ) * 10 ^ k := by
        refine le_trans ?_ (le_of_lt hlo)
        have hfq : (1 : ℚ) ≤ f := by exact_mod_cast f0
        split
        · rename_i hc
          have : (2 : ℚ) ^ (-1076 : Int) ≤ 2 ^ (expo (u % 2 ^ 63) - 2) := zpow_le_zpow_right₀ (by norm_num) (by omega)
          have h2 : (2 : ℚ) * 2 ^ (-1076 : Int) ≤ (4 * (f : ℚ) - 1) * 2 ^ (expo (u % 2 ^ 63) - 2) :=
            mul_le_mul (by linarith) this (le_of_lt (zpow_pos (by norm_num) _)) (by linarith)
          rw [show (-1075 : Int) = 1 + -1076 by norm_num, zpow_add₀ (by norm_num), one_mul, zpow_one]
          exact h2
        · have : (2 : ℚ) ^ (-1075 : Int) ≤ 2 ^ (expo (u % 2 ^ 63) - 1) := zpow_le_zpow_right₀ (by norm_num) (by omega)
          exact mul_le_mul (by linarith) this (le_of_lt (zpow_pos (by norm_num) _)) (by linarith)
      have a5 : (10 : ℚ) ^ (-325 : Int) < 1 * 2 ^ (-1075 : Int) := by
        rw [one_mul, zpow_neg, zpow_neg]
        apply inv_strictAnti₀ (zpow_pos (by norm_num) _)
        rw [show (1075 : Int) = ((1075 : Nat) : Int) from rfl, show (325 : Int) = ((325 : Nat) : Int) from rfl, zpow_natCast, zpow_natCast]
        exact nat_lt (by decide +kernel : (2 : Nat) ^ 1075 < 10 ^ 325)
      exact absurd (lt_of_lt_of_le (lt_of_lt_of_le a5 a4) (le_trans (le_of_lt a2) a3)) (lt_irrefl _)
    · rw [List.length_map, List.length_reverse]
      by_contra h
      have a1 : (10 : ℚ) ^ ((buf.length : Int) - 1) ≤ (val buf : ℚ) := by
        rw [show (buf.length : Int) - 1 = ((buf.length - 1 : Nat) : Int) by omega, zpow_natCast]
        exact_mod_cast hlen1
      have a2 : (10 : ℚ) ^ ((buf.length : Int) - 1) * 10 ^ k ≤ (val buf : ℚ) * 10 ^ k := mul_le_mul_of_nonneg_right a1 (le_of_lt (zpow_pos (by norm_num) _))
      rw [← zpow_add₀ (by norm_num)] at a2
      have a3 : (10 : ℚ) ^ (310 : Int) ≤ 10 ^ ((buf.length : Int) - 1 + k) := zpow_le_zpow_right₀ (by norm_num) (by omega)
      have a4 : (2 * (f : ℚ) + 1) * 2 ^ (expo (u % 2 ^ 63) - 1) ≤ 2 ^ (55 : Int) * 2 ^ (970 : Int) := by
        apply mul_le_mul
        · have : ((2 * f + 1 : Nat) : ℚ) ≤ ((2 ^ 55 : Nat) : ℚ) := Nat.cast_le.2 (by omega)
          push_cast at this
          exact_mod_cast this
        · exact zpow_le_zpow_right₀ (by norm_num) (by omega)
        · exact le_of_lt (zpow_pos (by norm_num) _)
        · positivity
      have a5 : (2 : ℚ) ^ (55 : Int) * 2 ^ (970 : Int) < 10 ^ (310 : Int) := by
        rw [← zpow_add₀ (by norm_num), show (55 : Int) + 970 = ((1025 : Nat) : Int) from rfl, show (310 : Int) = ((310 : Nat) : Int) from rfl, zpow_natCast, zpow_natCast]
        exact nat_lt (by decide +kernel : (2 : Nat) ^ 1025 < 10 ^ 310)
      exact absurd (lt_of_le_of_lt (le_trans a3 a2) (lt_of_lt_of_le (lt_of_lt_of_le hhi a4) (le_of_lt a5))) (lt_irrefl _)
  · intro b hb hne
    rw [hval]
    generalize (val buf : ℚ) * 10 ^ k = x at *
    generalize ha : u % 2 ^ 63 = a at *
    -- above
    have hsucc := ieee_succ a
    have hE : (0 : ℚ) < 2 ^ expo a := zpow_pos (by norm_num) _
    have hhalf : (2 : ℚ) ^ (expo a - 1) * 2 = 2 ^ expo a := by
      rw [← zpow_add_one₀ (by norm_num)]; congr 1; ring
    have hquarter : (2 : ℚ) ^ (expo a - 2) * 2 = 2 ^ (expo a - 1) := by
      rw [← zpow_add_one₀ (by norm_num)]; congr 1; ring
    have hup : x < (ieee a + ieee (a + 1)) / 2 := by
      rw [hsucc, hv, ← hhalf]
      linarith [hhi]
    -- below
    obtain ⟨p, rfl⟩ : ∃ p, a = p + 1 := ⟨a - 1, by omega⟩
    rw [Nat.add_sub_cancel] at hp1 hp2
    have hpred := ieee_succ p
    have hdown : (ieee p + ieee (p + 1)) / 2 < x := by
      have : ieee p = ieee (p + 1) - 2 ^ expo p := by rw [hpred]; ring
      rw [this, hv]
      split at hlo
      · have h1 : (2 : ℚ) ^ (expo (p + 1) - 1) ≤ 2 ^ expo p := zpow_le_zpow_right₀ (by norm_num) hp2
        rw [← hquarter] at h1
        rw [← hhalf, ← hquarter]
        linarith [hlo]
      · rename_i hc
        rw [hp1 hc, ← hhalf]
        linarith [hlo]
    have hup0 : ieee (p + 1) < ieee (p + 1 + 1) := ieee_strictMono (Nat.lt_succ_self _)
    have hdown0 : ieee p < ieee (p + 1) := ieee_strictMono (Nat.lt_succ_self _)
    rcases Nat.lt_or_gt_of_ne hne with hlt | hgt
    · have hb' : ieee b ≤ ieee p := ieee_strictMono.monotone (by omega)
      have hxb : ieee b < x := by linarith
      rw [abs_of_pos (show 0 < x - ieee b by linarith), abs_lt]
      constructor <;> linarith
    · have hb' : ieee (p + 1 + 1) ≤ ieee b := ieee_strictMono.monotone (by omega)
      have hxb : x < ieee b := by linarith
      rw [abs_of_neg (show x - ieee b < 0 by linarith), abs_lt]
      constructor <;> linarith

end Current.Json.Grisu
