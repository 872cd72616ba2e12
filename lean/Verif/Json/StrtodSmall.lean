import Verif.Json.StrtodError
import Verif.Json.StrtodMain
/-!
C156, continued: the accuracy of reading without the restriction to results above `2^-1022`: subnormal results are off by at most another
`2^-1074`, the distance of subnormal numbers.
-/
set_option linter.unusedSimpArgs false
set_option linter.unusedVariables false
set_option exponentiation.threshold 2000
namespace Current.Json.Strtod
open Current.Persist (Str dec decInt)
open Current.Json.Grisu (ieee infinity ieee_strictMono ieee_nonneg ieee_zero ieee_succ expo)

/-- Half the distance of subnormal numbers. -/
theorem rnd_near {rnd : ℚ → ℚ} (R : Correct rnd) {x : ℚ} (h0 : 0 ≤ x) (h : x < overflow) :
    (2 ^ (-1022 : Int) ≤ x ∧ Within 1 (rnd x) x) ∨ (x < 2 ^ (-1022 : Int) ∧ |rnd x - x| ≤ 2 ^ (-1075 : Int)) := by
  rcases le_or_gt ((2 : ℚ) ^ (-1022 : Int)) x with hm | hm
  · exact .inl ⟨hm, R.within hm h⟩
  · refine .inr ⟨hm, ?_⟩
    rw [← ieee_min] at hm
    obtain ⟨p, hp, h1, h2⟩ := floor_exists h0 _ hm
    obtain ⟨a, ha, e, hn⟩ := R.nearest x h0 h
    have pi : p + 1 ≤ infinity := le_trans hp (by decide)
    have m1 := hn p (by omega)
    have m2 := hn (p + 1) pi
    have hs := ieee_succ p
    rw [show expo p = -1074 by unfold expo; rw [if_pos (by omega)]] at hs
    rw [e, abs_sub_comm]
    rw [abs_of_nonneg (show 0 ≤ x - ieee p by linarith)] at m1
    rw [abs_of_neg (show x - ieee (p + 1) < 0 by linarith)] at m2
    have e2 : (2 : ℚ) ^ (-1074 : Int) = 2 * 2 ^ (-1075 : Int) := by
      rw [show (-1074 : Int) = 1 + -1075 by decide, zpow_add₀ (by norm_num), zpow_one]
    linarith

/-- Off by a factor, and by `ε`. -/
def Near (k : Nat) (ε q y : ℚ) : Prop := ∃ z, 0 ≤ z ∧ Within k z y ∧ |q - z| ≤ ε

theorem near_abs {k : Nat} {ε q y : ℚ} (hy : 0 ≤ y) (h : Near k ε q y) : |q - y| ≤ y * ((1 + 1 / 2 ^ 53) ^ k - 1) + ε := by
  obtain ⟨z, hz, w, a⟩ := h
  have := abs_sub_le q z y
  linarith [within_abs hy w]

theorem tiny_pos : (0 : ℚ) < 2 ^ (-1075 : Int) := zpow_pos (by norm_num) _

theorem near_rnd {rnd : ℚ → ℚ} (R : Correct rnd) {k : Nat} {z y : ℚ} (h0 : 0 ≤ z) (h : z < overflow) (hy : 0 ≤ y) (w : Within k z y) :
    Near (k + 1) (2 ^ (-1075 : Int)) (rnd z) y := by
  rcases rnd_near R h0 h with ⟨hm, w'⟩ | ⟨-, h'⟩
  · refine ⟨rnd z, ?_, ?_, by rw [sub_self, abs_zero]; exact le_of_lt tiny_pos⟩
    · have := R.ge h0 h (c := 0) (Nat.zero_le _) (by rw [ieee_zero]; exact h0)
      rwa [ieee_zero] at this
    · rw [Nat.add_comm]; exact w'.trans w
  · exact ⟨z, h0, w.mono (Nat.le_succ k) h0 hy, h'⟩

/-- The operation of `FastPath`. -/
theorem fastPath_op {rnd : ℚ → ℚ} (R : Correct rnd) {a : ℚ} {e : Int} {q : ℚ} (he : -308 ≤ e) (h : fastPath rnd (.fin a) e = some (.fin q)) :
    (0 ≤ e ∧ ∃ pw : ℚ, 1 ≤ pw ∧ Within 1 pw (10 ^ e) ∧ q = rnd (a * pw) ∧ a * pw < overflow) ∨
    (e < 0 ∧ ∃ pw : ℚ, 9 ≤ pw ∧ Within 1 pw (10 ^ (-e)) ∧ q = rnd (a / pw) ∧ a / pw < overflow) := by
  unfold fastPath at h
  rw [if_neg (by omega)] at h
  split at h
  · rename_i h0
    obtain ⟨n, rfl⟩ := Int.eq_ofNat_of_zero_le h0
    by_cases hn : n ≤ 308
    · obtain ⟨pw, hp, h1, w1⟩ := pow10_spec R n hn
      rw [hp] at h
      simp only [Option.map_some, Option.some.injEq, mulF] at h
      obtain ⟨a1, a2⟩ := fl_fin h
      exact .inl ⟨h0, pw, h1, by rw [zpow_natCast]; exact w1, a1, a2⟩
    · unfold pow10 at h
      rw [if_neg (by omega)] at h
      cases h
  · rename_i h0
    obtain ⟨n, hn⟩ := Int.eq_ofNat_of_zero_le (show 0 ≤ -e by omega)
    obtain ⟨pw, hp, h1, w1⟩ := pow10_spec R n (by omega)
    rw [hn, hp] at h
    simp only [Option.map_some, Option.some.injEq, divF] at h
    obtain ⟨a1, a2⟩ := fl_fin h
    refine .inr ⟨by omega, pw, ?_, by rw [hn, zpow_natCast]; exact w1, a1, a2⟩
    have h10 : (10 : ℚ) ≤ 10 ^ n := by
      have := pow_le_pow_right₀ (show (1 : ℚ) ≤ 10 by norm_num) (show 1 ≤ n by omega)
      rwa [pow_one] at this
    have := w1.1
    rw [pow_one] at this
    norm_num at this
    linarith

theorem fastPath_near {rnd : ℚ → ℚ} (R : Correct rnd) {k : Nat} {a X : ℚ} (ha : 0 ≤ a) (hX : 0 ≤ X) (w : Within k a X) {e : Int} {q : ℚ} (he : -308 ≤ e)
    (h : fastPath rnd (.fin a) e = some (.fin q)) : ∃ z, 0 ≤ z ∧ z < overflow ∧ q = rnd z ∧ Within (k + 1) z (X * 10 ^ e) := by
  rcases fastPath_op R he h with ⟨h0, pw, h1, w1, e1, e2⟩ | ⟨h0, pw, h1, w1, e1, e2⟩
  · exact ⟨_, mul_nonneg ha (by linarith), e2, e1, w.mul ha hX (by linarith) (le_of_lt (zpow_pos (by norm_num) _)) w1⟩
  · refine ⟨_, div_nonneg ha (by linarith), e2, e1, ?_⟩
    have := w.div ha hX (by linarith) (zpow_pos (by norm_num) _) w1
    rwa [zpow_neg, div_inv_eq_mul] at this

theorem strtodNormal_near {rnd : ℚ → ℚ} (R : Correct rnd) {k I : Nat} {d : F} (a : Approx k d I) {p : Int} {q : ℚ}
    (hI : (I : ℚ) * (1 + 1 / 2 ^ 53) ^ k < overflow) (hI2 : (I : ℚ) ≤ 10 ^ 190) (h : strtodNormal rnd d p = some (.fin q)) :
    Near (k + 4) (2 ^ (-1074 : Int)) q (I * 10 ^ p) := by
  have hI0 : (0 : ℚ) ≤ I := Nat.cast_nonneg I
  have hY : (0 : ℚ) ≤ I * 10 ^ p := mul_nonneg hI0 (le_of_lt (zpow_pos (by norm_num) _))
  have e2 : (2 : ℚ) ^ (-1074 : Int) = 2 * 2 ^ (-1075 : Int) := by
    rw [show (-1074 : Int) = 1 + -1075 by decide, zpow_add₀ (by norm_num), zpow_one]
  have tp := tiny_pos
  rcases a with ⟨-, ho⟩ | ⟨a, rfl, hz⟩
  · exact absurd hI (not_lt.2 ho)
  have ha0 : 0 ≤ a := by
    rcases hz with ⟨-, h⟩ | ⟨-, h, -⟩ <;> linarith
  have w : Within k a I := by
    rcases hz with ⟨h1, h2⟩ | ⟨-, -, h⟩
    · rw [h1, h2, Nat.cast_zero]; exact within_self k (le_refl 0)
    · exact h
  have weaken : ∀ {l : Nat}, l ≤ k + 4 → Near l (2 ^ (-1075 : Int)) q (I * 10 ^ p) → Near (k + 4) (2 ^ (-1074 : Int)) q (I * 10 ^ p) := by
    rintro l hl ⟨z, z0, zw, za⟩
    exact ⟨z, z0, zw.mono hl z0 hY, by linarith⟩
  unfold strtodNormal at h
  split at h
  · rename_i hp
    cases hf : fastPath rnd (.fin a) (-308) with
    | none => rw [hf] at h; cases h
    | some x =>
      rw [hf] at h
      simp only [Option.bind_some] at h
      obtain ⟨x, rfl⟩ : ∃ x', x = .fin x' := by
        cases x with
        | fin x => exact ⟨x, rfl⟩
        | inf =>
          exfalso
          have hle : a ≤ I * (1 + 1 / 2 ^ 53) ^ k := w.2
          unfold fastPath at hf
          rw [if_neg (by omega), if_neg (by omega)] at hf
          obtain ⟨pw, hpw, h1, -⟩ := pow10_spec R 308 (le_refl _)
          rw [show -(-308 : Int) = ((308 : Nat) : Int) from rfl, hpw] at hf
          simp only [Option.map_some, Option.some.injEq, divF] at hf
          rcases fl_cases rnd (a / pw) with ⟨-, ho⟩ | ⟨h', -⟩
          · have : a / pw ≤ a := div_le_self ha0 h1
            linarith
          · rw [h'] at hf; cases hf
      by_cases h616 : p < -616
      · unfold fastPath at h
        rw [if_pos (by omega)] at h
        simp only [Option.some.injEq, F.fin.injEq] at h
        refine ⟨I * 10 ^ p, hY, within_self _ hY, ?_⟩
        rw [← h, zero_sub, abs_neg, abs_of_nonneg hY]
        have a1 : (10 : ℚ) ^ p ≤ 10 ^ (-617 : Int) := zpow_le_zpow_right₀ (by norm_num) (by omega)
        have a2 := mul_le_mul hI2 a1 (le_of_lt (zpow_pos (by norm_num) _)) (by positivity)
        have a3 : (10 : ℚ) ^ 190 * 10 ^ (-617 : Int) = 10 ^ (-427 : Int) := by
          rw [← zpow_natCast, ← zpow_add₀ (by norm_num)]; rfl
        have a4 : (10 : ℚ) ^ (-427 : Int) < 2 ^ (-1074 : Int) := by
          have h4 : (2 : ℕ) ^ 1074 < 10 ^ 427 := by decide +kernel
          have h5 : ((2 ^ 1074 : ℕ) : ℚ) < ((10 ^ 427 : ℕ) : ℚ) := Nat.cast_lt.2 h4
          rw [Nat.cast_pow, Nat.cast_pow] at h5
          rw [zpow_neg, zpow_neg, show (427 : Int) = ((427 : Nat) : Int) from rfl, show (1074 : Int) = ((1074 : Nat) : Int) from rfl, zpow_natCast, zpow_natCast]
          exact inv_strictAnti₀ (by positivity) h5
        rw [a3] at a2
        exact le_trans a2 (le_of_lt a4)
      · obtain ⟨z, z0, zo, rfl, zw⟩ := fastPath_near R ha0 hI0 w (by omega) hf
        have x0 : 0 ≤ rnd z := by
          have := R.ge z0 zo (c := 0) (Nat.zero_le _) (by rw [ieee_zero]; exact z0)
          rwa [ieee_zero] at this
        have hz0 : (0 : ℚ) ≤ I * 10 ^ (-308 : Int) := mul_nonneg hI0 (le_of_lt (zpow_pos (by norm_num) _))
        have ee : (I : ℚ) * 10 ^ (-308 : Int) * 10 ^ (p + 308) = I * 10 ^ p := by
          rw [mul_assoc, ← zpow_add₀ (by norm_num), show -308 + (p + 308) = p by ring]
        rcases rnd_near R z0 zo with ⟨hm, w'⟩ | ⟨hm, h'⟩
        · have wx : Within (k + 2) (rnd z) (I * 10 ^ (-308 : Int)) := by
            rw [show k + 2 = 1 + (k + 1) by omega]; exact w'.trans zw
          obtain ⟨y, y0, yo, rfl, yw⟩ := fastPath_near R x0 hz0 wx (by omega) h
          rw [ee] at yw
          exact weaken (by omega) (near_rnd R y0 yo hY yw)
        · obtain ⟨h0, pw, h9, wp, rfl, yo⟩ := (fastPath_op R (by omega) h).resolve_left (by omega)
          have y0 : 0 ≤ rnd z / pw := div_nonneg x0 (by linarith)
          have xm : rnd z ≤ 2 ^ (-1022 : Int) := by
            rw [← ieee_min] at hm ⊢
            exact R.le z0 zo (by decide) (le_of_lt hm)
          rcases rnd_near R y0 yo with ⟨hm2, -⟩ | ⟨-, h''⟩
          · exfalso
            rw [le_div_iff₀ (by linarith)] at hm2
            have := min_pos
            have h3 : 2 ^ (-1022 : Int) * 9 ≤ 2 ^ (-1022 : Int) * pw := mul_le_mul_of_nonneg_left h9 (le_of_lt this)
            linarith
          · have zw2 : Within (k + 2) (z / pw) (I * 10 ^ p) := by
              have := zw.div z0 hz0 (by linarith) (zpow_pos (by norm_num) _) wp
              rw [show (10:ℚ) ^ (-(p + 308)) = ((10:ℚ) ^ (p + 308))⁻¹ from zpow_neg _ _, div_inv_eq_mul, ee] at this
              exact this
            refine ⟨z / pw, div_nonneg z0 (by linarith), zw2.mono (by omega) (div_nonneg z0 (by linarith)) hY, ?_⟩
            have t1 := abs_sub_le (rnd (rnd z / pw)) (rnd z / pw) (z / pw)
            have t2 : |rnd z / pw - z / pw| ≤ 2 ^ (-1075 : Int) := by
              rw [← sub_div, abs_div, abs_of_pos (show 0 < pw by linarith), div_le_iff₀ (by linarith)]
              have : 2 ^ (-1075 : Int) * 1 ≤ 2 ^ (-1075 : Int) * pw := mul_le_mul_of_nonneg_left (by linarith) (le_of_lt tp)
              linarith
            linarith
  · obtain ⟨z, z0, zo, rfl, zw⟩ := fastPath_near R ha0 hI0 w (by omega) h
    exact weaken (by omega) (near_rnd R z0 zo hY zw)

theorem afterFrac_near {rnd : ℚ → ℚ} (R : Correct rnd) {neg m : Bool} {i k I : Nat} {d : Option F} {e : Int} (he : -100000000 ≤ e) (he0 : e ≤ 0) {es : Str} {x : Int}
    (hx : ExpOf es x) (hx0 : -100000000 ≤ x) (hx308 : x ≤ 308) (a : Approx k (d.getD (fl rnd (i : ℚ))) I)
    (hI : (I : ℚ) * (1 + 1 / 2 ^ 53) ^ k < overflow) (hI2 : (I : ℚ) ≤ 10 ^ 190) {q : ℚ} {r : Str} (h : afterFrac rnd neg i d e es = .dbl m q r) :
    m = neg ∧ r = [] ∧ Near (k + 4) (2 ^ (-1074 : Int)) q (I * 10 ^ (x + e)) := by
  have fin : ∀ (f : F) (p : Int), Approx k f I → finish rnd neg f p [] = .dbl m q r → m = neg ∧ r = [] ∧ Near (k + 4) (2 ^ (-1074 : Int)) q (I * 10 ^ p) := by
    intro f p a h
    unfold finish at h
    split at h
    · cases h
    · cases h
    · rename_i hs
      injection h with h1 h2 h3
      subst h1 h2 h3
      exact ⟨rfl, rfl, strtodNormal_near R a hI hI2 hs⟩
  rcases hx with ⟨rfl, rfl⟩ | ⟨c, sg, ds, rfl, hc, hs, hne, hd, hxe⟩
  · cases d with
    | none => cases h
    | some f =>
      rw [zero_add]
      exact fin f e a h
  · unfold afterFrac at h
    simp only at h
    rw [if_pos hc, expPart_complete he he0 hs hne hd hxe hx0 hx308] at h
    exact fin _ _ a h

/-- **C156.** Every `double` that is read of a text of at most 190 digits, whether subnormal, zero, or not: it is off by at most six roundings and two
more for every digit from the seventeenth on, and by `2^-1074`, the smallest positive number. -/
theorem read_any {rnd : ℚ → ℚ} (R : Correct rnd) (neg : Bool) {ip fr es : Str} {x : Int} {n : Nat} (hi : IntText ip) (hf : Digits fr)
    (hl : fr.length ≤ 100000000) (hx : ExpOf es x) (hx0 : -100000000 ≤ x) (hx308 : x ≤ 308) (hn : num (ip ++ fr) 0 < 10 ^ n) (hn190 : n ≤ 190)
    {m : Bool} {q : ℚ} {r : Str} (h : parse rnd (minusText neg ++ (ip ++ (fracText fr ++ es))) = .dbl m q r) :
    m = neg ∧ r = [] ∧ |q - (num (ip ++ fr) 0 : ℚ) * 10 ^ (x - fr.length)| ≤
      (num (ip ++ fr) 0 : ℚ) * 10 ^ (x - fr.length) * ((1 + 1 / 2 ^ 53) ^ (6 + 2 * (n - 16)) - 1) + 2 ^ (-1074 : Int) := by
  obtain ⟨w, v, i, d, j, e1, e2, e3, e4, e5, e6, e7⟩ := parse_split R neg hi hf hx
  have hv : Digits v := by
    intro y hy
    have : y ∈ ip ++ fr := by rw [e1]; simp [hy]
    rcases List.mem_append.1 this with h | h
    · exact hi.1 y h
    · exact hf y h
  have hw : num w 0 ≤ num (ip ++ fr) 0 := by rw [e1, num_append]; exact le_num v _
  have hj : j ≤ n - 16 := by
    rcases e5 with h | h
    · omega
    · have : 10 ^ (15 + j) < 10 ^ n := by
        rw [pow_add]
        refine lt_of_le_of_lt (Nat.mul_le_mul_right _ (show 10 ^ 15 ≤ 2 ^ 53 by decide)) (by omega)
      have := (Nat.pow_lt_pow_iff_right (show 1 < 10 by decide)).1 this
      omega
  have hdrop := dropped_within hv e6 (x - fr.length)
  rw [← e1, show x - (fr.length : Int) + v.length = x + -((fr.length : Int) - v.length) by ring] at hdrop
  have h1 : (num w 0 : ℚ) ≤ 10 ^ 190 := by
    have h2 : 10 ^ n ≤ 10 ^ 190 := Nat.pow_le_pow_right (by decide) hn190
    have : (num w 0 : ℚ) ≤ ((10 ^ 190 : Nat) : ℚ) := Nat.cast_le.2 (by omega)
    rwa [Nat.cast_pow] at this
  have hI : (num w 0 : ℚ) * (1 + 1 / 2 ^ 53) ^ (1 + 2 * j) < overflow := by
    have h2 : (1 + 1 / 2 ^ 53 : ℚ) ^ (1 + 2 * j) ≤ 2 ^ 349 :=
      le_trans (pow_le_pow_right₀ (by norm_num) (by omega)) (e_le_two 349)
    have h3 : (10 : ℚ) ^ 190 * 2 ^ 349 ≤ 10 ^ 308 := by
      have h4 : (2 : ℕ) ^ 349 ≤ 10 ^ 118 := by decide +kernel
      have h5 : ((2 ^ 349 : ℕ) : ℚ) ≤ ((10 ^ 118 : ℕ) : ℚ) := Nat.cast_le.2 h4
      rw [Nat.cast_pow, Nat.cast_pow] at h5
      rw [show 308 = 190 + 118 from rfl, pow_add]
      exact mul_le_mul_of_nonneg_left h5 (by positivity)
    exact lt_of_le_of_lt (le_trans (mul_le_mul h1 h2 (le_trans zero_le_one (one_le_e _)) (by positivity)) h3) ten308
  rw [e3] at h
  obtain ⟨a1, a2, z, z0, zw, za⟩ := afterFrac_near R (by omega) (by omega) hx hx0 hx308 e4 hI h1 h
  have hX : (0 : ℚ) ≤ (num (ip ++ fr) 0 : ℚ) * 10 ^ (x - fr.length) := mul_nonneg (Nat.cast_nonneg _) (le_of_lt (zpow_pos (by norm_num) _))
  exact ⟨a1, a2, near_abs hX ⟨z, z0, (zw.trans hdrop).mono (by omega) z0 hX, za⟩⟩

/-- **C156.** Of at most seventeen digits: off by at most `9 / 2^53` of the number and `2^-1074`. -/
theorem read_any_17 {rnd : ℚ → ℚ} (R : Correct rnd) (neg : Bool) {ip fr es : Str} {x : Int} (hi : IntText ip) (hf : Digits fr)
    (hl : fr.length ≤ 100000000) (hx : ExpOf es x) (hx0 : -100000000 ≤ x) (hx308 : x ≤ 308) (hn : num (ip ++ fr) 0 < 10 ^ 17)
    {m : Bool} {q : ℚ} {r : Str} (h : parse rnd (minusText neg ++ (ip ++ (fracText fr ++ es))) = .dbl m q r) :
    |q - (num (ip ++ fr) 0 : ℚ) * 10 ^ (x - fr.length)| ≤ (num (ip ++ fr) 0 : ℚ) * 10 ^ (x - fr.length) * (9 / 2 ^ 53) + 2 ^ (-1074 : Int) := by
  have w := (read_any R neg hi hf hl hx hx0 hx308 hn (by decide) h).2.2
  have hy : (0 : ℚ) ≤ (num (ip ++ fr) 0 : ℚ) * 10 ^ (x - fr.length) := mul_nonneg (Nat.cast_nonneg _) (le_of_lt (zpow_pos (by norm_num) _))
  refine le_trans w (add_le_add (mul_le_mul_of_nonneg_left ?_ hy) (le_refl _))
  norm_num

/-- The hypotheses are met, and the text is read: `1.5e-310`, a subnormal number. -/
example : ∃ rnd, Correct rnd ∧ ∃ q : ℚ, parse rnd "1.5e-310".toList = .dbl false q [] ∧ |q - 15 * 10 ^ (-311 : Int)| ≤ 15 * 10 ^ (-311 : Int) * (9 / 2 ^ 53) + 2 ^ (-1074 : Int) := by
  obtain ⟨rnd, R⟩ := exists_correct
  have hi : IntText ['1'] := ⟨by intro c hc; simp at hc; subst hc; decide, by decide, by decide⟩
  have hf : Digits ['5'] := by intro c hc; simp at hc; subst hc; decide
  have hx : ExpOf ['e', '-', '3', '1', '0'] (-310) :=
    .inr ⟨'e', ['-'], ['3', '1', '0'], rfl, .inl rfl, .inr (.inr rfl), by decide, by intro c hc; simp at hc; rcases hc with rfl | rfl | rfl <;> decide, by decide⟩
  have ht : "1.5e-310".toList = minusText false ++ (['1'] ++ (fracText ['5'] ++ ['e', '-', '3', '1', '0'])) := by decide
  have e15 : num (['1'] ++ ['5']) 0 = 15 := by decide
  obtain ⟨q, hq, -⟩ := read_accepts R false (n := 2) hi hf (by decide) hx (by decide) (by decide) (by simp) (by decide) (by decide) (by
    rw [e15]
    refine lt_trans ?_ ten308
    have h1 : (10 : ℚ) ^ (-310 - ((['5'] : Str).length : Int)) ≤ 1 := zpow_le_one_of_nonpos₀ (by norm_num) (by decide)
    have h2 : (1 + 1 / 2 ^ 53 : ℚ) ^ (2 + 2 * (2 - 16)) ≤ 2 := by norm_num
    have h3 := mul_le_mul (mul_le_mul_of_nonneg_left h1 (show (0 : ℚ) ≤ (15 : Nat) by norm_num)) h2 (le_trans zero_le_one (one_le_e _)) (by norm_num)
    refine lt_of_le_of_lt h3 ?_
    have : (10 : ℚ) ^ 2 ≤ 10 ^ 308 := pow_le_pow_right₀ (by norm_num) (by decide)
    generalize (10 : ℚ) ^ 308 = t at *
    norm_num at *
    linarith)
  refine ⟨rnd, R, q, by rw [ht]; exact hq, ?_⟩
  have := read_any_17 R false hi hf (by decide) hx (by decide) (by decide) (by decide) hq
  rw [e15] at this
  exact_mod_cast this

end Current.Json.Strtod
