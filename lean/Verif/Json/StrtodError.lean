import Verif.Json.StrtodMain
/-!
C156: how far the `double` that is read may be from the number in the text.
-/
set_option linter.unusedSimpArgs false
set_option linter.unusedVariables false
namespace Current.Json.Strtod
open Current.Persist (Str dec decInt dec_isDigit dec_ne_nil)
open Current.Json.Grisu

/-- `x` and `y` differ by at most `n` roundings. -/
def Within (n : Nat) (x y : ℚ) : Prop := y ≤ x * (1 + 1 / 2 ^ 53) ^ n ∧ x ≤ y * (1 + 1 / 2 ^ 53) ^ n

theorem one_le_e (n : Nat) : (1 : ℚ) ≤ (1 + 1 / 2 ^ 53) ^ n := one_le_pow₀ (by norm_num)

theorem within_self (n : Nat) {x : ℚ} (h : 0 ≤ x) : Within n x x := ⟨le_mul_of_one_le_right h (one_le_e n), le_mul_of_one_le_right h (one_le_e n)⟩

theorem Within.mono {n m : Nat} (hnm : n ≤ m) {x y : ℚ} (hx : 0 ≤ x) (hy : 0 ≤ y) (h : Within n x y) : Within m x y := by
  have := pow_le_pow_right₀ (show (1 : ℚ) ≤ 1 + 1 / 2 ^ 53 by norm_num) hnm
  exact ⟨le_trans h.1 (mul_le_mul_of_nonneg_left this hx), le_trans h.2 (mul_le_mul_of_nonneg_left this hy)⟩

theorem Within.symm {n : Nat} {x y : ℚ} (h : Within n x y) : Within n y x := ⟨h.2, h.1⟩

theorem Within.trans {n m : Nat} {x y z : ℚ} (h : Within n x y) (h' : Within m y z) : Within (n + m) x z := by
  have h1 : (0 : ℚ) ≤ (1 + 1 / 2 ^ 53) ^ n := le_trans zero_le_one (one_le_e n)
  have h2 : (0 : ℚ) ≤ (1 + 1 / 2 ^ 53) ^ m := le_trans zero_le_one (one_le_e m)
  unfold Within at *
  rw [pow_add]
  generalize (1 + 1 / 2 ^ 53 : ℚ) ^ n = a at *
  generalize (1 + 1 / 2 ^ 53 : ℚ) ^ m = b at *
  have e1 := mul_le_mul_of_nonneg_right h.1 h2
  have e2 := mul_le_mul_of_nonneg_right h'.2 h1
  constructor
  · linarith [h'.1]
  · linarith [h.2]

theorem Within.mul {n m : Nat} {x y p q : ℚ} (hx : 0 ≤ x) (hy : 0 ≤ y) (hp : 0 ≤ p) (hq : 0 ≤ q) (h : Within n x y) (h' : Within m p q) :
    Within (n + m) (x * p) (y * q) := by
  unfold Within at *
  rw [pow_add]
  have := mul_le_mul h.1 h'.1 hq (le_trans hy h.1)
  have := mul_le_mul h.2 h'.2 hp (le_trans hx h.2)
  constructor <;> linarith

theorem Within.div {n m : Nat} {x y p q : ℚ} (hx : 0 ≤ x) (hy : 0 ≤ y) (hp : 0 < p) (hq : 0 < q) (h : Within n x y) (h' : Within m p q) :
    Within (n + m) (x / p) (y / q) := by
  have key : Within m p⁻¹ q⁻¹ := by
    unfold Within at *
    generalize (1 + 1 / 2 ^ 53 : ℚ) ^ m = b at *
    constructor
    · rw [inv_mul_eq_div, le_div_iff₀ hp, inv_mul_le_iff₀ hq]; exact h'.2
    · rw [inv_mul_eq_div, le_div_iff₀ hq, inv_mul_le_iff₀ hp]; exact h'.1
  rw [div_eq_mul_inv, div_eq_mul_inv]
  exact h.mul hx hy (le_of_lt (inv_pos.2 hp)) (le_of_lt (inv_pos.2 hq)) key

theorem Within.add {n : Nat} {x y k : ℚ} (hk : 0 ≤ k) (h : Within n x y) : Within n (x + k) (y + k) := by
  have := le_mul_of_one_le_right hk (one_le_e n)
  unfold Within at *
  rw [add_mul, add_mul]
  exact ⟨add_le_add h.1 this, add_le_add h.2 this⟩

/-! ### one rounding -/

theorem floor_exists {x : ℚ} (h0 : 0 ≤ x) : ∀ n, x < ieee n → ∃ p < n, ieee p ≤ x ∧ x < ieee (p + 1) := by
  intro n
  induction n with
  | zero => intro h; rw [ieee_zero] at h; linarith
  | succ n ih =>
    intro h
    rcases lt_or_ge x (ieee n) with h' | h'
    · obtain ⟨p, hp, h1⟩ := ih h'
      exact ⟨p, by omega, h1⟩
    · exact ⟨n, by omega, h', h⟩

theorem Correct.ge {rnd : ℚ → ℚ} (R : Correct rnd) {x : ℚ} (h0 : 0 ≤ x) (h : x < overflow) {c : Nat} (hc : c ≤ infinity) (hx : ieee c ≤ x) : ieee c ≤ rnd x := by
  obtain ⟨a, ha, e, hm⟩ := R.nearest x h0 h
  rw [e]
  by_contra hlt
  have := hm c hc
  rw [abs_of_nonneg (by linarith), abs_of_nonneg (by linarith)] at this
  linarith

theorem Correct.le {rnd : ℚ → ℚ} (R : Correct rnd) {x : ℚ} (h0 : 0 ≤ x) (h : x < overflow) {c : Nat} (hc : c ≤ infinity) (hx : x ≤ ieee c) : rnd x ≤ ieee c := by
  obtain ⟨a, ha, e, hm⟩ := R.nearest x h0 h
  rw [e]
  by_contra hlt
  have := hm c hc
  rw [abs_of_nonpos (by linarith), abs_of_nonpos (by linarith)] at this
  linarith

theorem ieee_min : ieee (2 ^ 52) = 2 ^ (-1022 : Int) := by
  unfold ieee
  rw [if_neg (by decide), show ((2 ^ 52 / 2 ^ 52 : Nat) : Int) - 1075 = -1074 by decide, show (2 ^ 52 + 2 ^ 52 % 2 ^ 52 : Nat) = 2 ^ 52 by decide,
    show (-1022 : Int) = 52 + -1074 by rfl, zpow_add₀ (by norm_num)]
  norm_num

theorem expo_le (p : Nat) (hp : 2 ^ 52 ≤ p) : (2 : ℚ) ^ expo p * 2 ^ 52 ≤ ieee p := by
  unfold expo ieee
  rw [if_neg (by omega), if_neg (by omega), mul_comm]
  refine mul_le_mul_of_nonneg_right ?_ (le_of_lt (zpow_pos (by norm_num) _))
  push_cast
  have : (0 : ℚ) ≤ ((p % 2 ^ 52 : Nat) : ℚ) := Nat.cast_nonneg _
  push_cast at this
  linarith

theorem Correct.within {rnd : ℚ → ℚ} (R : Correct rnd) {x : ℚ} (h0 : (2 : ℚ) ^ (-1022 : Int) ≤ x) (h : x < overflow) : Within 1 (rnd x) x := by
  rw [← ieee_min] at h0
  have hx : 0 ≤ x := le_trans (ieee_nonneg _) h0
  have hi : x < ieee infinity := by
    refine lt_trans h ?_
    rw [overflow_eq]
    have : ieee (infinity - 1) < ieee infinity := ieee_strictMono (by decide)
    linarith
  obtain ⟨p, hp, h1, h2⟩ := floor_exists hx infinity hi
  have hp2 : 2 ^ 52 ≤ p := by
    by_contra hlt
    have : ieee (p + 1) ≤ ieee (2 ^ 52) := ieee_strictMono.monotone (by omega)
    linarith
  have hge := R.ge hx h (le_of_lt hp) h1
  obtain ⟨a, ha, e, hm⟩ := R.nearest x hx h
  have m1 := hm p (le_of_lt hp)
  have m2 := hm (p + 1) hp
  have hs := ieee_succ p
  have he := expo_le p hp2
  rw [e] at hge ⊢
  rw [abs_of_nonneg (show 0 ≤ x - ieee p by linarith)] at m1
  rw [abs_of_neg (show x - ieee (p + 1) < 0 by linarith)] at m2
  have b : |x - ieee a| ≤ ieee p / 2 ^ 53 := by
    generalize (2 : ℚ) ^ expo p = t at *
    norm_num at he ⊢
    linarith
  obtain ⟨b1, b2⟩ := abs_le.1 b
  unfold Within
  rw [pow_one]
  have c1 : ieee p / 2 ^ 53 ≤ x / 2 ^ 53 := div_le_div_of_nonneg_right h1 (by norm_num)
  have c2 : ieee p / 2 ^ 53 ≤ ieee a / 2 ^ 53 := div_le_div_of_nonneg_right hge (by norm_num)
  constructor
  · rw [mul_add, mul_one, mul_one_div]; linarith
  · rw [mul_add, mul_one, mul_one_div]; linarith

theorem ieee_one : ieee (1023 * 2 ^ 52) = 1 := by unfold ieee; norm_num

theorem min_le_one : (2 : ℚ) ^ (-1022 : Int) ≤ 1 := by
  have := zpow_le_zpow_right₀ (show (1 : ℚ) ≤ 2 by norm_num) (show (-1022 : Int) ≤ 0 by decide)
  rwa [zpow_zero] at this

theorem Correct.one_le {rnd : ℚ → ℚ} (R : Correct rnd) {x : ℚ} (h1 : 1 ≤ x) (h : x < overflow) : 1 ≤ rnd x := by
  have := R.ge (le_trans zero_le_one h1) h (c := 1023 * 2 ^ 52) (by decide) (by rw [ieee_one]; exact h1)
  rwa [ieee_one] at this

/-! ### the digits -/

/-- `d` was computed for `I` with at most `k` roundings; or it is too big. -/
def Approx (k : Nat) (d : F) (I : Nat) : Prop :=
  (d = .inf ∧ overflow ≤ I * (1 + 1 / 2 ^ 53) ^ k) ∨ ∃ q : ℚ, d = .fin q ∧ ((I = 0 ∧ q = 0) ∨ (1 ≤ I ∧ 1 ≤ q ∧ Within k q I))

theorem Approx.mono {k l : Nat} (h : k ≤ l) {d : F} {I : Nat} (a : Approx k d I) : Approx l d I := by
  rcases a with ⟨a, b⟩ | ⟨q, e, a | ⟨a, b, c⟩⟩
  · have := pow_le_pow_right₀ (show (1 : ℚ) ≤ 1 + 1 / 2 ^ 53 by norm_num) h
    exact .inl ⟨a, le_trans b (mul_le_mul_of_nonneg_left this (Nat.cast_nonneg _))⟩
  · exact .inr ⟨q, e, .inl a⟩
  · exact .inr ⟨q, e, .inr ⟨a, b, c.mono h (by linarith) (Nat.cast_nonneg _)⟩⟩

theorem fl_cases (rnd : ℚ → ℚ) (x : ℚ) : (fl rnd x = .inf ∧ overflow ≤ x) ∨ (fl rnd x = .fin (rnd x) ∧ x < overflow) := by
  unfold fl
  split
  · rename_i h; exact .inl ⟨rfl, h⟩
  · rename_i h; exact .inr ⟨rfl, not_le.1 h⟩

theorem approx_fl {rnd : ℚ → ℚ} (R : Correct rnd) (I : Nat) : Approx 1 (fl rnd (I : ℚ)) I := by
  rcases fl_cases rnd I with ⟨h, ho⟩ | ⟨h, ho⟩
  · exact .inl ⟨h, le_trans ho (le_mul_of_one_le_right (Nat.cast_nonneg _) (one_le_e 1))⟩
  · refine .inr ⟨_, h, ?_⟩
    by_cases h0 : I = 0
    · subst h0
      exact .inl ⟨rfl, by rw [Nat.cast_zero]; exact R.exact ⟨0, by decide, ieee_zero⟩⟩
    · have h1 : (1 : ℚ) ≤ I := by exact_mod_cast Nat.pos_of_ne_zero h0
      exact .inr ⟨by omega, R.one_le h1 ho, R.within (le_trans min_le_one h1) ho⟩

theorem approx_madd {rnd : ℚ → ℚ} (R : Correct rnd) {k I : Nat} {d : F} (hI : 1 ≤ I) (a : Approx k d I) (c : Nat) :
    Approx (k + 2) (madd rnd d c) (I * 10 + c) := by
  have hc : (0 : ℚ) ≤ c := Nat.cast_nonneg c
  have grow : ∀ y z : ℚ, ∀ l, l ≤ k + 2 → y ≤ z * (1 + 1 / 2 ^ 53) ^ l → 0 ≤ z → z ≤ (I : ℚ) * 10 + c → y ≤ ((I * 10 + c : Nat) : ℚ) * (1 + 1 / 2 ^ 53) ^ (k + 2) := by
    intro y z l hl hy hz hzi
    have h1 := pow_le_pow_right₀ (show (1 : ℚ) ≤ 1 + 1 / 2 ^ 53 by norm_num) hl
    push_cast
    exact le_trans hy (mul_le_mul hzi h1 (le_trans zero_le_one (one_le_e l)) (by linarith))
  have hI0 : (0 : ℚ) ≤ I := Nat.cast_nonneg I
  rcases a with ⟨rfl, ho⟩ | ⟨q, rfl, a | ⟨-, b, w⟩⟩
  · exact .inl ⟨rfl, grow _ _ k (by omega) ho hI0 (by linarith)⟩
  · omega
  · unfold madd
    simp only
    rcases fl_cases rnd (q * 10) with ⟨h, ho⟩ | ⟨h, ho⟩
    · rw [h]
      refine .inl ⟨rfl, grow _ (I * 10) k (by omega) (le_trans ho ?_) (by linarith) (by linarith)⟩
      linarith [w.2]
    · rw [h]
      simp only
      have o1 := R.one_le (show 1 ≤ q * 10 by linarith) ho
      have w1 := R.within (le_trans min_le_one (show 1 ≤ q * 10 by linarith)) ho
      have w3 : Within k (q * 10) (I * 10) := by
        have := w.mul (by linarith) (Nat.cast_nonneg I) (show (0 : ℚ) ≤ 10 by norm_num) (by norm_num) (within_self 0 (by norm_num))
        exact this
      rcases fl_cases rnd (rnd (q * 10) + c) with ⟨h', ho'⟩ | ⟨h', ho'⟩
      · exact .inl ⟨h', grow _ (I * 10 + c) (1 + k) (by omega) (le_trans ho' ((w1.trans w3).add hc).2) (by linarith) (le_refl _)⟩
      · refine .inr ⟨_, h', .inr ⟨by omega, R.one_le (by linarith) ho', ?_⟩⟩
        have w2 := R.within (le_trans min_le_one (show 1 ≤ rnd (q * 10) + c by linarith)) ho'
        have w4 := w2.trans ((w1.trans w3).add hc)
        push_cast
        rw [show k + 2 = 1 + (1 + k) by omega]
        exact w4

theorem num_ge (t : Str) (i : Nat) : i * 10 ^ t.length ≤ num t i := by
  induction t generalizing i with
  | nil => simp [num_nil]
  | cons c t ih =>
    rw [num_cons, List.length_cons, pow_succ]
    have := ih (i * 10 + (c.toNat - 48))
    have h : i * (10 ^ t.length * 10) ≤ (i * 10 + (c.toNat - 48)) * 10 ^ t.length := by
      calc i * (10 ^ t.length * 10) = i * 10 * 10 ^ t.length := by ring
        _ ≤ _ := Nat.mul_le_mul_right _ (by omega)
    omega

theorem num_lt {t : Str} (hd : Digits t) (i : Nat) : num t i < (i + 1) * 10 ^ t.length := by
  induction t generalizing i with
  | nil => simp [num_nil]
  | cons c t ih =>
    have hb := digit_bounds (hd c (by simp))
    rw [num_cons, List.length_cons, pow_succ]
    have := ih (fun x hx => hd x (by simp [hx])) (i * 10 + (c.toNat - 48))
    have h : (i * 10 + (c.toNat - 48) + 1) * 10 ^ t.length ≤ (i + 1) * (10 ^ t.length * 10) := by
      have : i * 10 + (c.toNat - 48) + 1 ≤ (i + 1) * 10 := by omega
      calc _ ≤ ((i + 1) * 10) * 10 ^ t.length := Nat.mul_le_mul_right _ this
        _ = _ := by ring
    omega

/-- The digits after 2^64. -/
theorem doubleDigits_spec {rnd : ℚ → ℚ} (R : Correct rnd) {t r : Str} (hd : Digits t) (hr : NoDigit r) : ∀ (k I : Nat) (d : F), 1 ≤ I → Approx k d I →
    (doubleDigits rnd d (t ++ r)).2 = r ∧ Approx (k + 2 * t.length) (doubleDigits rnd d (t ++ r)).1 (num t I) := by
  induction t with
  | nil =>
    intro k I d _ a
    cases r with
    | nil => exact ⟨rfl, a⟩
    | cons c r =>
      have := hr c r rfl
      rw [← isDigit_eq] at this
      rw [List.nil_append, doubleDigits, if_neg (by rw [this]; simp)]
      exact ⟨rfl, a⟩
  | cons c t ih =>
    intro k I d hI a
    have hc := hd c (by simp)
    rw [List.cons_append, doubleDigits, if_pos (by rw [isDigit_eq]; exact hc), num_cons]
    have := ih (fun x hx => hd x (by simp [hx])) (k + 2) (I * 10 + (c.toNat - 48)) _ (by omega) (approx_madd R hI a _)
    rw [List.length_cons, show k + 2 * (t.length + 1) = k + 2 + 2 * t.length by ring]
    exact this

/-- The fraction in 64 bits. -/
theorem frac64_any {fr r : Str} (hd : Digits fr) (hr : NoDigit r) : ∀ (i : Nat) (e : Int) (g : Nat), (g = 0 ∨ 10 ^ (g - 1) ≤ i) →
    ∃ u v g', fr = u ++ v ∧ frac64 i e g (fr ++ r) = (num u i, e - u.length, g', v ++ r) ∧ (v = [] ∨ 2 ^ 53 ≤ num u i) ∧ (g' = 0 ∨ 10 ^ (g' - 1) ≤ num u i) := by
  induction fr with
  | nil =>
    intro i e g hg
    refine ⟨[], [], g, rfl, ?_, .inl rfl, hg⟩
    cases r with
    | nil => simp [frac64, num_nil]
    | cons c r =>
      have := hr c r rfl
      rw [← isDigit_eq] at this
      rw [List.nil_append, frac64, if_neg (by rw [this]; simp)]
      simp [num_nil]
  | cons c fr ih =>
    intro i e g hg
    have hc := hd c (by simp)
    rw [List.cons_append, frac64, if_pos (by rw [isDigit_eq]; exact hc)]
    by_cases hi : i > 0x1FFFFFFFFFFFFF
    · rw [if_pos hi]
      exact ⟨[], c :: fr, g, rfl, by simp [num_nil], .inr (by rw [num_nil]; omega), hg⟩
    · rw [if_neg hi]
      simp only
      have hg' : (if i * 10 + (c.toNat - 48) ≠ 0 then g + 1 else g) = 0 ∨
          10 ^ ((if i * 10 + (c.toNat - 48) ≠ 0 then g + 1 else g) - 1) ≤ i * 10 + (c.toNat - 48) := by
        by_cases h0 : i * 10 + (c.toNat - 48) ≠ 0
        · rw [if_pos h0]
          right
          rw [Nat.add_sub_cancel]
          rcases hg with rfl | hg
          · omega
          · cases g with
            | zero => simp; omega
            | succ g => rw [Nat.add_sub_cancel] at hg; rw [pow_succ]; omega
        · rw [if_neg h0]
          rcases hg with rfl | hg
          · exact .inl rfl
          · right; omega
      obtain ⟨u, v, g', e1, e2, e3, e4⟩ := ih (fun x hx => hd x (by simp [hx])) _ (e - 1) _ hg'
      refine ⟨c :: u, v, g', by rw [e1]; rfl, ?_, ?_, ?_⟩
      · rw [e2, num_cons]
        congr 2
        push_cast [List.length_cons]
        ring
      · rw [num_cons]; exact e3
      · rw [num_cons]; exact e4

/-- The rest of the fraction: what is left out comes after seventeen digits. -/
theorem fracD_any {rnd : ℚ → ℚ} (R : Correct rnd) {t r : Str} (hd : Digits t) (hr : NoDigit r) : ∀ (k I : Nat) (d : F) (e : Int) (g : Nat),
    1 ≤ I ∨ t = [] → Approx k d I → (g = 0 ∨ 10 ^ (g - 1) ≤ I) →
    ∃ u v d', t = u ++ v ∧ fracD rnd d e g (t ++ r) = (d', e - u.length, r) ∧ Approx (k + 2 * u.length) d' (num u I) ∧
      (v = [] ∨ 10 ^ 16 ≤ num u I) := by
  induction t with
  | nil =>
    intro k I d e g _ a _
    exact ⟨[], [], d, rfl, by rw [List.nil_append, fracD_stop rnd _ _ _ hr]; simp, a, .inl rfl⟩
  | cons c t ih =>
    intro k I d e g hI a hg
    have hI : 1 ≤ I := by rcases hI with h | h; exact h; cases h
    have hc := hd c (by simp)
    have hds : Digits t := fun x hx => hd x (by simp [hx])
    by_cases h17 : g < 17
    · rw [List.cons_append, fracD, if_pos (by rw [isDigit_eq]; exact hc), if_pos h17]
      simp only
      have a' := approx_madd R hI a (c.toNat - 48)
      have hp : (madd rnd d (c.toNat - 48)).pos = true := by
        rcases a' with ⟨h, -⟩ | ⟨q, h, h' | ⟨-, h', -⟩⟩
        · rw [h]; rfl
        · omega
        · rw [h]; simp [F.pos]; linarith
      rw [if_pos hp]
      obtain ⟨u, v, d', e1, e2, e3, e4⟩ := ih hds (k + 2) (I * 10 + (c.toNat - 48)) _ (e - 1) (g + 1) (.inl (by omega)) a'
        (.inr (by
          rw [Nat.add_sub_cancel]
          rcases hg with rfl | hg
          · rw [pow_zero]; omega
          · cases g with
            | zero => rw [pow_zero]; omega
            | succ g => rw [Nat.add_sub_cancel] at hg; rw [pow_succ]; omega))
      refine ⟨c :: u, v, d', by rw [e1]; rfl, ?_, ?_, by rw [num_cons]; exact e4⟩
      · rw [e2]
        congr 2
        push_cast [List.length_cons]
        ring
      · rw [num_cons, List.length_cons, show k + 2 * (u.length + 1) = k + 2 + 2 * u.length by ring]
        exact e3
    · have skip : ∀ t : Str, Digits t → fracD rnd d e g (t ++ r) = (d, e, r) := by
        intro t ht
        induction t with
        | nil => exact fracD_stop rnd _ _ _ hr
        | cons c t ih' =>
          rw [List.cons_append, fracD, if_pos (by rw [isDigit_eq]; exact ht c (by simp)), if_neg h17]
          exact ih' (fun x hx => ht x (by simp [hx]))
      refine ⟨[], c :: t, d, rfl, ?_, a, .inr ?_⟩
      · rw [skip _ hd]; simp
      · rw [num_nil]
        rcases hg with hg | hg
        · omega
        · exact le_trans (Nat.pow_le_pow_right (by decide) (by omega)) hg

theorem prefix_digits {a x cs r : Str} (ha : Digits a) (hr : NoDigit r) (h : cs ++ r = a ++ x) : ∃ t, cs = a ++ t ∧ x = t ++ r := by
  rcases List.append_eq_append_iff.1 h with ⟨t, h1, h2⟩ | ⟨t, h1, h2⟩
  · cases t with
    | nil => exact ⟨[], by simpa using h1.symm, by simpa using h2.symm⟩
    | cons c t =>
      have := hr c (t ++ x) h2
      rw [ha c (by rw [h1]; simp)] at this
      cases this
  · exact ⟨t, h1, h2⟩

theorem noDigit_nil_of {t r : Str} (hd : Digits t) (h : NoDigit (t ++ r)) : t = [] := by
  cases t with
  | nil => rfl
  | cons c t =>
    have := h c (t ++ r) rfl
    rw [hd c (by simp)] at this
    cases this

/-- The integral part. -/
theorem intDigits_any (m : Bool) {ds r : Str} (hi : IntText ds) (hr : NoDigit r) :
    ∃ i over g t, intDigits m (ds ++ r) = some (i, over, g, t ++ r) ∧ Digits t ∧ num t i = num ds 0 ∧ (over = false → t = []) ∧
      (over = true → 2 ^ 53 ≤ i) ∧ (g = 0 ∨ 10 ^ g ≤ i) := by
  obtain ⟨hd, hne, hz⟩ := hi
  cases ds with
  | nil => exact absurd rfl hne
  | cons c cs =>
    have hcd := hd c (by simp)
    have hcb := digit_bounds hcd
    by_cases h0 : c = '0'
    · subst h0
      have := hz rfl
      simp only [List.cons.injEq, true_and] at this
      subst this
      exact ⟨0, false, 0, [], by simp [intDigits], digits_nil, rfl, fun _ => rfl, by simp, .inl rfl⟩
    · have h19 : '1' ≤ c ∧ c ≤ '9' := by
        refine ⟨le_char.2 ?_, le_char.2 ?_⟩
        · show 49 ≤ c.toNat
          have : c.toNat ≠ 48 := fun h => h0 (Char.ext (UInt32.toNat_inj.1 h))
          omega
        · show c.toNat ≤ 57
          omega
      have h1 : 1 ≤ c.toNat - 48 := by
        have : c.toNat ≠ 48 := fun h => h0 (Char.ext (UInt32.toNat_inj.1 h))
        omega
      have hds : Digits cs := fun x hx => hd x (by simp [hx])
      have hn : ∀ t, num (c :: t) 0 = num t (c.toNat - 48) := by intro t; rw [num_cons, Nat.zero_mul, Nat.zero_add]
      simp only [List.cons_append, intDigits, h0, if_false, if_pos h19]
      generalize hL : (if m = true then 214748364 else 429496729) = L
      generalize hl : (if m = true then '8' else '5') = l
      generalize hL' : (if m = true then 0x0CCCCCCCCCCCCCCC else 0x1999999999999999) = L'
      have hld : l.isDigit = true := by cases m <;> (subst hl; decide)
      have hL2 : 0x0CCCCCCCCCCCCCCC ≤ L' := by cases m <;> (subst hL'; decide)
      obtain ⟨d1, a1, a2, a3, a4, a5⟩ := accumulate_spec L l hld (c.toNat - 48) (cs ++ r)
      generalize accumulate L l (c.toNat - 48) (cs ++ r) = A at *
      obtain ⟨A1, A2, A3⟩ := A
      simp only at a1 a3 a4 a5 ⊢
      obtain ⟨t1, b1, b2⟩ := prefix_digits a2 hr a1
      have ht1 : Digits t1 := fun x hx => hds x (by rw [b1]; simp [hx])
      have pw : ∀ u : Str, 10 ^ u.length ≤ num u (c.toNat - 48) := fun u => le_trans (Nat.le_mul_of_pos_left _ h1) (num_ge u _)
      cases A3 with
      | false =>
        simp only [Bool.false_eq_true, if_false]
        have : t1 = [] := noDigit_nil_of ht1 (by rw [← b2]; exact (a4 rfl).1)
        subst this
        rw [List.append_nil] at b1
        rw [List.nil_append] at b2
        refine ⟨A1, false, _, [], by rw [b2]; rfl, digits_nil, ?_, fun _ => rfl, by simp, .inr ?_⟩
        · rw [num_nil, a3, hn, b1]
        · rw [List.length_append, Nat.add_sub_cancel, a3, b1]; exact pw _
      | true =>
        simp only [if_true]
        obtain ⟨d2, c1, c2, c3, c4, c5⟩ := accumulate_spec L' l hld A1 A2
        generalize accumulate L' l A1 A2 = B at *
        obtain ⟨B1, B2, B3⟩ := B
        simp only at c1 c3 c4 c5 ⊢
        rw [b2] at c1
        obtain ⟨t2, e1, e2⟩ := prefix_digits c2 hr c1
        have ht2 : Digits t2 := fun x hx => ht1 x (by rw [e1]; simp [hx])
        have hcs : cs = (d1 ++ d2) ++ t2 := by rw [b1, e1, List.append_assoc]
        have hB : B1 = num (d1 ++ d2) (c.toNat - 48) := by rw [c3, a3, num_append]
        refine ⟨B1, B3, _, t2, by rw [e2], ht2, ?_, ?_, ?_, .inr ?_⟩
        · rw [hn, hcs, num_append (d1 ++ d2), hB]
        · intro h
          exact noDigit_nil_of ht2 (by rw [← e2]; exact (c4 h).1)
        · intro h
          obtain ⟨x, t, -, hx, hlt⟩ := c5 h
          have hxb := digit_bounds hx
          rw [num_append, ← c3, num_cons, num_nil] at hlt
          omega
        · rw [hcs, hB]
          simp only [List.length_append]
          rw [show d1.length + d2.length + t2.length + r.length - (t2.length + r.length) = d1.length + d2.length by omega]
          have := pw (d1 ++ d2)
          rwa [List.length_append] at this

/-! ### the exponent -/

theorem skipDigits_all {ds : Str} (hd : Digits ds) : skipDigits ds = [] := by
  induction ds with
  | nil => rfl
  | cons c ds ih =>
    rw [skipDigits, if_pos (by rw [isDigit_eq]; exact hd c (by simp))]
    exact ih fun x hx => hd x (by simp [hx])

theorem expPos_sound (m : Int) {ds : Str} (hd : Digits ds) : ∀ (x : Nat) (y : Int) (r : Str), expPos m x ds = some (y, r) → y = num ds x ∧ r = [] := by
  induction ds with
  | nil => intro x y r h; simp [expPos] at h; exact ⟨by rw [num_nil]; exact h.1.symm, h.2⟩
  | cons c ds ih =>
    intro x y r h
    have hb := digit_bounds (hd c (by simp))
    rw [expPos, if_pos (by rw [isDigit_eq]; exact hd c (by simp))] at h
    have e : (x : Int) * 10 + ((c.toNat : Int) - 48) = ((x * 10 + (c.toNat - 48) : Nat) : Int) := by omega
    simp only [e] at h
    split at h
    · cases h
    · rw [num_cons]; exact ih (fun y hy => hd y (by simp [hy])) _ _ _ h

theorem expNeg_sound (m : Int) {ds : Str} (hd : Digits ds) : ∀ (x : Nat) (y : Int) (r : Str), expNeg m x ds = (y, r) → (y = num ds x ∨ m < y) ∧ r = [] := by
  induction ds with
  | nil => intro x y r h; simp [expNeg] at h; exact ⟨.inl (by rw [num_nil]; exact h.1.symm), h.2⟩
  | cons c ds ih =>
    intro x y r h
    have hb := digit_bounds (hd c (by simp))
    have hds : Digits ds := fun y hy => hd y (by simp [hy])
    rw [expNeg, if_pos (by rw [isDigit_eq]; exact hd c (by simp))] at h
    have e : (x : Int) * 10 + ((c.toNat : Int) - 48) = ((x * 10 + (c.toNat - 48) : Nat) : Int) := by omega
    simp only [e] at h
    split at h
    · rename_i hgt
      simp only [Prod.mk.injEq] at h
      rw [skipDigits_all hds] at h
      exact ⟨.inr (by omega), h.2.symm⟩
    · rw [num_cons]; exact ih hds _ _ _ h

/-- An exponent part and its value. -/
def ExpOf (s : Str) (x : Int) : Prop :=
  (s = [] ∧ x = 0) ∨ ∃ c sg ds, s = c :: (sg ++ ds) ∧ (c = 'e' ∨ c = 'E') ∧ (sg = [] ∨ sg = ['+'] ∨ sg = ['-']) ∧ ds ≠ [] ∧ Digits ds ∧
    x = if sg = ['-'] then -(num ds 0 : Int) else num ds 0

theorem expPart_sound {e : Int} (he : -100000000 ≤ e) (he0 : e ≤ 0) {sg ds : Str} (hs : sg = [] ∨ sg = ['+'] ∨ sg = ['-']) (hne : ds ≠ []) (hd : Digits ds) {y : Int} {r : Str}
    (h : expPart e (sg ++ ds) = .ok (y, r)) : r = [] ∧ (y = (if sg = ['-'] then -(num ds 0 : Int) else num ds 0) ∨ y + e < -616) := by
  cases ds with
  | nil => exact absurd rfl hne
  | cons c cs =>
    have hc := hd c (by simp)
    have hb := digit_bounds hc
    have hcs : Digits cs := fun y hy => hd y (by simp [hy])
    have hn : num (c :: cs) 0 = num cs (c.toNat - 48) := by rw [num_cons, Nat.zero_mul, Nat.zero_add]
    have e3 : ((c.toNat : Int) - 48) = ((c.toNat - 48 : Nat) : Int) := by omega
    have pos : expPart.pos e c cs = .ok (y, r) → r = [] ∧ y = num (c :: cs) 0 := by
      intro h
      unfold expPart.pos at h
      rw [if_pos (by rw [isDigit_eq]; exact hc), e3] at h
      split at h
      · rename_i h'
        injection h with h
        injection h with h1 h2
        subst h1 h2
        obtain ⟨a, b⟩ := expPos_sound _ hcs _ _ _ h'
        exact ⟨b, by rw [hn]; exact a⟩
      · cases h
    rcases hs with rfl | rfl | rfl
    · have hm : c ≠ '-' := by rintro rfl; revert hc; decide
      have hp : c ≠ '+' := by rintro rfl; revert hc; decide
      have e2 : expPart e (c :: cs) = expPart.pos e c cs := by
        unfold expPart
        split
        · rename_i h; injection h with h _; exact absurd h hm
        · rename_i h; injection h with h _; exact absurd h hp
        · rename_i h; injection h with h h'; rw [h, h']
        · rename_i h; cases h
      rw [List.nil_append, e2] at h
      obtain ⟨a, b⟩ := pos h
      exact ⟨a, .inl (by simpa using b)⟩
    · have e2 : expPart e (['+'] ++ c :: cs) = expPart.pos e c cs := by
        unfold expPart; rfl
      rw [e2] at h
      obtain ⟨a, b⟩ := pos h
      exact ⟨a, .inl (by simpa using b)⟩
    · unfold expPart at h
      simp only [List.cons_append, List.nil_append] at h
      rw [if_pos (by rw [isDigit_eq]; exact hc), e3] at h
      generalize hg : expNeg _ _ _ = z at h
      obtain ⟨z1, z2⟩ := z
      simp only at h
      injection h with h
      injection h with h1 h2
      subst h1 h2
      obtain ⟨a, b⟩ := expNeg_sound _ hcs _ _ _ hg
      refine ⟨b, ?_⟩
      rw [if_pos rfl, hn]
      rcases a with a | a
      · left; rw [a]
      · right; omega

/-! ### scaling -/

theorem ten308 : (10 : ℚ) ^ 308 < overflow := by
  unfold overflow
  have h : (10 : ℕ) ^ 308 + 2 ^ 970 < 2 ^ 1024 := by decide +kernel
  have h' : (((10 : ℕ) ^ 308 + 2 ^ 970 : ℕ) : ℚ) < ((2 ^ 1024 : ℕ) : ℚ) := Nat.cast_lt.2 h
  rw [Nat.cast_add, Nat.cast_pow, Nat.cast_pow, Nat.cast_pow] at h'
  have e : ((10 : ℕ) : ℚ) = 10 := rfl
  have e2 : ((2 : ℕ) : ℚ) = 2 := rfl
  rw [e, e2] at h'
  exact lt_sub_iff_add_lt.2 h'

theorem pow10_spec {rnd : ℚ → ℚ} (R : Correct rnd) (n : Nat) (h : n ≤ 308) :
    ∃ pw : ℚ, pow10 rnd n = some (.fin pw) ∧ 1 ≤ pw ∧ Within 1 pw (10 ^ n) := by
  have h1 : (1 : ℚ) ≤ 10 ^ n := one_le_pow₀ (by norm_num)
  have h2 : (10 : ℚ) ^ n < overflow := lt_of_le_of_lt (pow_le_pow_right₀ (by norm_num) h) ten308
  refine ⟨rnd (10 ^ n), ?_, R.one_le h1 h2, R.within (le_trans min_le_one h1) h2⟩
  unfold pow10
  rw [if_pos (by omega), Int.toNat_natCast]
  unfold fl
  rw [if_neg (not_le.2 h2)]

theorem fl_fin {rnd : ℚ → ℚ} {x q : ℚ} (h : fl rnd x = .fin q) : q = rnd x ∧ x < overflow := by
  rcases fl_cases rnd x with ⟨h', -⟩ | ⟨h', ho⟩
  · rw [h'] at h; cases h
  · rw [h'] at h; injection h with h; exact ⟨h.symm, ho⟩

theorem fl_small {rnd : ℚ → ℚ} (R : Correct rnd) {x q : ℚ} (h0 : 0 ≤ x) (h : fl rnd x = .fin q) (hx : x ≤ 2 ^ (-1022 : Int)) : q ≤ 2 ^ (-1022 : Int) := by
  obtain ⟨rfl, ho⟩ := fl_fin h
  rw [← ieee_min] at hx ⊢
  exact R.le h0 ho (by decide) hx

theorem fl_within {rnd : ℚ → ℚ} (R : Correct rnd) {x q : ℚ} (h0 : 0 ≤ x) (h : fl rnd x = .fin q) (hq : 2 ^ (-1022 : Int) < q) : Within 1 q x := by
  have hx : ¬ x ≤ 2 ^ (-1022 : Int) := fun hx => not_lt.2 (fl_small R h0 h hx) hq
  obtain ⟨rfl, ho⟩ := fl_fin h
  exact R.within (le_of_lt (not_le.1 hx)) ho

theorem min_pos : (0 : ℚ) < 2 ^ (-1022 : Int) := zpow_pos (by norm_num) _

theorem fastPath_inf {rnd : ℚ → ℚ} (R : Correct rnd) {e : Int} {q : ℚ} (h : fastPath rnd .inf e = some (.fin q)) : q = 0 := by
  unfold fastPath at h
  split at h
  · simp at h; exact h.symm
  · split at h
    · obtain ⟨x, hx⟩ | hx : (∃ x, pow10 rnd e = some x) ∨ pow10 rnd e = none := by cases pow10 rnd e <;> simp
      · rw [hx] at h; simp [mulF] at h
      · rw [hx] at h; cases h
    · obtain ⟨x, hx⟩ | hx : (∃ x, pow10 rnd (-e) = some x) ∨ pow10 rnd (-e) = none := by cases pow10 rnd (-e) <;> simp
      · rw [hx] at h; simp [divF] at h
      · rw [hx] at h; cases h

theorem fastPath_within {rnd : ℚ → ℚ} (R : Correct rnd) {k : Nat} {a X : ℚ} (ha : 0 ≤ a) (hX : 0 ≤ X) (w : Within k a X) {e : Int} {q : ℚ}
    (h : fastPath rnd (.fin a) e = some (.fin q)) (hq : 2 ^ (-1022 : Int) < q) : Within (k + 2) q (X * 10 ^ e) ∧ (e < 0 → 2 ^ (-1022 : Int) < a) := by
  unfold fastPath at h
  split at h
  · simp at h
    subst h
    exact absurd hq (not_lt.2 (le_of_lt min_pos))
  · split at h
    · rename_i he
      obtain ⟨n, rfl⟩ := Int.eq_ofNat_of_zero_le he
      by_cases hn : n ≤ 308
      · obtain ⟨pw, hp, h1, w1⟩ := pow10_spec R n hn
        rw [hp] at h
        simp only [Option.map_some, Option.some.injEq, mulF] at h
        refine ⟨?_, fun h => by omega⟩
        have w2 := fl_within R (mul_nonneg ha (by linarith)) h hq
        have w3 := w.mul ha hX (by linarith) (by positivity) w1
        rw [zpow_natCast, show k + 2 = 1 + (k + 1) by omega]
        exact w2.trans w3
      · unfold pow10 at h
        rw [if_neg (by omega)] at h
        cases h
    · rename_i h308 he
      obtain ⟨n, hn⟩ := Int.eq_ofNat_of_zero_le (show 0 ≤ -e by omega)
      obtain ⟨pw, hp, h1, w1⟩ := pow10_spec R n (by omega)
      rw [hn, hp] at h
      simp only [Option.map_some, Option.some.injEq, divF] at h
      have hnn : 0 ≤ a / pw := div_nonneg ha (by linarith)
      have w2 := fl_within R hnn h hq
      have w3 := w.div ha hX (by linarith) (by positivity) w1
      refine ⟨?_, fun _ => ?_⟩
      · rw [show e = -(n : Int) by omega, zpow_neg, zpow_natCast, ← div_eq_mul_inv, show k + 2 = 1 + (k + 1) by omega]
        exact w2.trans w3
      · by_contra hle
        have : a / pw ≤ a := div_le_self ha h1
        exact absurd hq (not_lt.2 (fl_small R hnn h (by linarith)))

theorem strtodNormal_within {rnd : ℚ → ℚ} (R : Correct rnd) {k I : Nat} {d : F} (a : Approx k d I) {p : Int} {q : ℚ}
    (h : strtodNormal rnd d p = some (.fin q)) (hq : 2 ^ (-1022 : Int) < q) : 1 ≤ I ∧ -616 ≤ p ∧ Within (k + 4) q (I * 10 ^ p) := by
  have hI0 : (0 : ℚ) ≤ I := Nat.cast_nonneg I
  have h616 : -616 ≤ p := by
    by_contra hlt
    unfold strtodNormal at h
    rw [if_pos (by omega)] at h
    cases hf : fastPath rnd d (-308) with
    | none => rw [hf] at h; cases h
    | some x =>
      rw [hf] at h
      simp only [Option.bind_some] at h
      unfold fastPath at h
      rw [if_pos (by omega)] at h
      simp at h
      subst h
      exact absurd hq (not_lt.2 (le_of_lt min_pos))
  rcases a with ⟨rfl, -⟩ | ⟨a, rfl, hz⟩
  · exfalso
    unfold strtodNormal at h
    split at h
    · cases hf : fastPath rnd .inf (-308) with
      | none => rw [hf] at h; cases h
      | some x =>
        rw [hf] at h
        simp only [Option.bind_some] at h
        cases x with
        | inf =>
          rw [fastPath_inf R h] at hq
          exact absurd hq (not_lt.2 (le_of_lt min_pos))
        | fin x =>
          rw [fastPath_inf R hf] at h
          have := (fastPath_within R (le_refl 0) (le_refl 0) (within_self 0 (le_refl 0)) h hq).1.2
          rw [zero_mul, zero_mul] at this
          linarith [min_pos]
    · rw [fastPath_inf R h] at hq
      exact absurd hq (not_lt.2 (le_of_lt min_pos))
  · have ha0 : 0 ≤ a := by
      rcases hz with ⟨-, h⟩ | ⟨-, h, -⟩ <;> linarith
    have w : Within k a I := by
      rcases hz with ⟨h1, h2⟩ | ⟨-, -, h⟩
      · rw [h1, h2, Nat.cast_zero]; exact within_self k (le_refl 0)
      · exact h
    have main : Within (k + 4) q (I * 10 ^ p) := by
      unfold strtodNormal at h
      split at h
      · cases hf : fastPath rnd (.fin a) (-308) with
        | none => rw [hf] at h; cases h
        | some x =>
          rw [hf] at h
          simp only [Option.bind_some] at h
          cases x with
          | inf =>
            rw [fastPath_inf R h] at hq
            exact absurd hq (not_lt.2 (le_of_lt min_pos))
          | fin x =>
            have hx0 : 0 ≤ x := by
              unfold fastPath at hf
              rw [if_neg (by omega), if_neg (by omega)] at hf
              obtain ⟨pw, hp, h1, -⟩ := pow10_spec R 308 (le_refl _)
              rw [show -(-308 : Int) = ((308 : Nat) : Int) from rfl, hp] at hf
              simp only [Option.map_some, Option.some.injEq, divF] at hf
              obtain ⟨rfl, ho⟩ := fl_fin hf
              have := R.ge (div_nonneg ha0 (by linarith)) ho (c := 0) (Nat.zero_le _) (by rw [ieee_zero]; exact div_nonneg ha0 (by linarith))
              rwa [ieee_zero] at this
            have hxm := (fastPath_within R hx0 hx0 (within_self 0 hx0) h hq).2 (by omega)
            obtain ⟨w1, -⟩ := fastPath_within R ha0 hI0 w hf hxm
            obtain ⟨w2, -⟩ := fastPath_within R hx0 (mul_nonneg hI0 (le_of_lt (zpow_pos (by norm_num) _))) w1 h hq
            rw [mul_assoc, ← zpow_add₀ (by norm_num), show -308 + (p + 308) = p by ring] at w2
            exact w2
      · obtain ⟨w1, -⟩ := fastPath_within R ha0 hI0 w h hq
        exact w1.mono (by omega) (by linarith [min_pos]) (mul_nonneg hI0 (le_of_lt (zpow_pos (by norm_num) _)))
    refine ⟨?_, h616, main⟩
    by_contra hI
    rw [show I = 0 by omega, Nat.cast_zero, zero_mul] at main
    have := main.2
    rw [zero_mul] at this
    linarith [min_pos]

theorem expPart_err {e : Int} {s : Str} {r : Res} (h : expPart e s = .error r) (m : Bool) (q : ℚ) (t : Str) : r ≠ .dbl m q t := by
  have hpos : ∀ c t', expPart.pos e c t' = .error r → r ≠ .dbl m q t := by
    intro c t' h
    unfold expPart.pos at h
    split at h
    · split at h
      · cases h
      · injection h with h; subst h; simp
    · injection h with h; subst h; simp
  unfold expPart at h
  split at h
  · split at h
    · cases h
    · injection h with h; subst h; simp
  · exact hpos _ _ h
  · exact hpos _ _ h
  · injection h with h; subst h; simp

theorem afterFrac_within {rnd : ℚ → ℚ} (R : Correct rnd) {neg m : Bool} {i k I : Nat} {d : Option F} {e : Int} (he : -100000000 ≤ e) (he0 : e ≤ 0) {es : Str} {x : Int}
    (hx : ExpOf es x) (a : Approx k (d.getD (fl rnd (i : ℚ))) I) {q : ℚ} {r : Str} (h : afterFrac rnd neg i d e es = .dbl m q r) (hq : 2 ^ (-1022 : Int) < q) :
    m = neg ∧ r = [] ∧ 1 ≤ I ∧ Within (k + 4) q (I * 10 ^ (x + e)) := by
  have fin : ∀ (f : F) (p : Int) (rest : Str), Approx k f I → finish rnd neg f p rest = .dbl m q r → m = neg ∧ r = rest ∧ 1 ≤ I ∧ -616 ≤ p ∧ Within (k + 4) q (I * 10 ^ p) := by
    intro f p rest a h
    unfold finish at h
    split at h
    · cases h
    · cases h
    · rename_i hs
      injection h with h1 h2 h3
      subst h1 h2 h3
      exact ⟨rfl, rfl, strtodNormal_within R a hs hq⟩
  rcases hx with ⟨rfl, rfl⟩ | ⟨c, sg, ds, rfl, hc, hs, hne, hd, rfl⟩
  · cases d with
    | none => cases h
    | some f =>
      obtain ⟨h1, h2, h3, -, h5⟩ := fin f e [] a h
      exact ⟨h1, h2, h3, by rw [zero_add]; exact h5⟩
  · unfold afterFrac at h
    simp only at h
    rw [if_pos hc] at h
    split at h
    · rename_i r' hr
      exact absurd hr (by
        intro hr
        have := expPart_err hr
        exact this _ _ _ h)
    · rename_i y r' hr
      obtain ⟨rfl, hy⟩ := expPart_sound he he0 hs hne hd hr
      obtain ⟨h1, h2, h3, h4, h5⟩ := fin _ _ _ a h
      rcases hy with rfl | hy
      · exact ⟨h1, h2, h3, h5⟩
      · omega

/-! ### the theorem -/

theorem expOf_head {es : Str} {x : Int} (h : ExpOf es x) : ∀ c t, es = c :: t → c = 'e' ∨ c = 'E' := by
  intro c t e
  rcases h with ⟨rfl, -⟩ | ⟨c', sg, ds, rfl, hc, -⟩
  · cases e
  · injection e with e; rw [← e]; exact hc

/-- The digits that count, the digits that are left out, and the roundings. -/
theorem parse_split {rnd : ℚ → ℚ} (R : Correct rnd) (neg : Bool) {ip fr es : Str} {x : Int} (hi : IntText ip) (hf : Digits fr) (hx : ExpOf es x) :
    ∃ w v i d j, ip ++ fr = w ++ v ∧ v.length ≤ fr.length ∧
      parse rnd (minusText neg ++ (ip ++ (fracText fr ++ es))) = afterFrac rnd neg i d (-((fr.length : Int) - v.length)) es ∧
      Approx (1 + 2 * j) (d.getD (fl rnd (i : ℚ))) (num w 0) ∧ (j = 0 ∨ 2 ^ 53 * 10 ^ j ≤ num w 0) ∧ (v = [] ∨ 10 ^ 16 ≤ num w 0) ∧
      (fr ≠ [] → d.isSome = true) := by
  have hes : NoDigit es := by
    intro c t h
    rcases expOf_head hx c t h with rfl | rfl <;> rfl
  have hrest : NoDigit (fracText fr ++ es) := by
    intro c t h
    unfold fracText at h
    split at h
    · exact hes c t (by simpa using h)
    · simp only [List.cons_append, List.cons.injEq] at h
      rw [← h.1]; rfl
  obtain ⟨i, over, g, t, h1, ht, h2, h3, h4, h5⟩ := intDigits_any neg hi hrest
  have hg : g = 0 ∨ 10 ^ (g - 1) ≤ i := by
    rcases h5 with h | h
    · exact .inl h
    · exact .inr (le_trans (Nat.pow_le_pow_right (by decide) (Nat.sub_le _ _)) h)
  unfold parse
  rw [takeMinus_text neg hi]
  simp only [h1]
  cases over with
  | false =>
    have := h3 rfl
    subst this
    rw [num_nil] at h2
    simp only [Bool.false_eq_true, if_false, List.nil_append]
    cases fr with
    | nil =>
      refine ⟨ip, [], i, none, 0, by simp, by simp, ?_, ?_, .inl rfl, .inl rfl, fun h => absurd rfl h⟩
      · rw [show fracText [] ++ es = es from rfl]
        simp only [List.length_nil, Nat.cast_zero, sub_zero, neg_zero]
        cases es with
        | nil => rfl
        | cons c t => rcases expOf_head hx c t rfl with rfl | rfl <;> rfl
      · rw [← h2]; exact approx_fl R i
    | cons c fr =>
      have e0 : fracText (c :: fr) ++ es = '.' :: c :: (fr ++ es) := by simp [fracText]
      rw [e0]
      simp only
      rw [if_pos (by rw [isDigit_eq]; exact hf c (by simp))]
      obtain ⟨u1, v1, g', e1, e2, e3, e4⟩ := frac64_any hf hes i 0 g hg
      rw [List.cons_append] at e2
      rw [e2]
      simp only
      have hv1 : Digits v1 := fun y hy => hf y (by rw [e1]; simp [hy])
      obtain ⟨u2, v2, d', f1, f2, f3, f4⟩ := fracD_any R hv1 hes 1 (num u1 i) (fl rnd (num u1 i : ℚ)) (0 - u1.length) g'
        (by rcases e3 with h | h; exact .inr h; exact .inl (by omega)) (approx_fl R _) e4
      rw [f2]
      simp only
      have hw : num (ip ++ u1 ++ u2) 0 = num u2 (num u1 i) := by rw [num_append, num_append, h2]
      refine ⟨ip ++ u1 ++ u2, v2, i, some d', u2.length, by rw [e1, f1]; simp, by rw [e1, f1]; simp only [List.length_append]; omega, ?_, ?_, ?_, ?_, fun _ => rfl⟩
      · congr 1
        rw [e1, f1]
        simp only [List.length_append]
        push_cast
        ring
      · rw [hw]; exact f3
      · rw [hw]
        rcases e3 with h | h
        · left
          rw [h] at f1
          have := congrArg List.length f1
          simp only [List.length_append, List.length_nil] at this
          omega
        · right
          exact le_trans (Nat.mul_le_mul_right _ h) (num_ge u2 _)
      · rw [hw]; exact f4
  | true =>
    simp only [if_true]
    have hi1 : 2 ^ 53 ≤ i := h4 rfl
    obtain ⟨d1, d2⟩ := doubleDigits_spec R ht hrest 1 i (fl rnd (i : ℚ)) (by omega) (approx_fl R i)
    generalize hD : doubleDigits rnd (fl rnd (i : ℚ)) (t ++ (fracText fr ++ es)) = D at *
    obtain ⟨D1, D2⟩ := D
    simp only at d1 d2 ⊢
    subst d1
    rw [h2] at d2
    have hbig : 2 ^ 53 * 10 ^ t.length ≤ num ip 0 := by
      rw [← h2]
      exact le_trans (Nat.mul_le_mul_right _ hi1) (num_ge t i)
    cases fr with
    | nil =>
      refine ⟨ip, [], i, some D1, t.length, by simp, by simp, ?_, d2, .inr hbig, .inl rfl, fun _ => rfl⟩
      rw [show fracText [] ++ es = es from rfl]
      simp only [List.length_nil, Nat.cast_zero, sub_zero, neg_zero]
      cases es with
      | nil => rfl
      | cons c t => rcases expOf_head hx c t rfl with rfl | rfl <;> rfl
    | cons c fr =>
      have e0 : fracText (c :: fr) ++ es = '.' :: c :: (fr ++ es) := by simp [fracText]
      rw [e0]
      simp only
      rw [if_pos (by rw [isDigit_eq]; exact hf c (by simp))]
      have hle : i ≤ num ip 0 := by rw [← h2]; exact le_num t i
      obtain ⟨u2, v2, d', f1, f2, f3, f4⟩ := fracD_any R hf hes (1 + 2 * t.length) (num ip 0) D1 0 g (.inl (by omega)) d2
        (by rcases hg with h | h; exact .inl h; exact .inr (le_trans h hle))
      rw [List.cons_append] at f2
      rw [f2]
      simp only
      have hw : num (ip ++ u2) 0 = num u2 (num ip 0) := num_append _ _ _
      refine ⟨ip ++ u2, v2, i, some d', t.length + u2.length, by rw [f1]; simp, by rw [f1]; simp only [List.length_append]; omega, ?_, ?_, .inr ?_, ?_, fun _ => rfl⟩
      · congr 1
        rw [f1]
        simp only [List.length_append]
        push_cast
        ring
      · rw [hw, show 1 + 2 * (t.length + u2.length) = 1 + 2 * t.length + 2 * u2.length by ring]; exact f3
      · rw [hw, pow_add, ← Nat.mul_assoc]
        exact le_trans (Nat.mul_le_mul_right _ hbig) (num_ge u2 _)
      · rw [hw]; exact f4

/-- What is left out counts for less than a rounding. -/
theorem dropped_within {w v : Str} (hv : Digits v) (h : v = [] ∨ 10 ^ 16 ≤ num w 0) (x : Int) :
    Within 1 ((num w 0 : ℚ) * 10 ^ (x + v.length)) ((num (w ++ v) 0 : ℚ) * 10 ^ x) := by
  have hp : (0 : ℚ) < 10 ^ x := zpow_pos (by norm_num) _
  rw [zpow_add₀ (by norm_num), zpow_natCast, num_append]
  have h1 := num_ge v (num w 0)
  have h2 := num_lt hv (num w 0)
  have hP : (0 : ℚ) < 10 ^ v.length := by positivity
  generalize num w 0 = I at *
  have h1q : (I : ℚ) * 10 ^ v.length ≤ (num v I : ℚ) := by
    have : ((I * 10 ^ v.length : Nat) : ℚ) ≤ (num v I : ℚ) := Nat.cast_le.2 h1
    push_cast at this; exact this
  have h2q : (num v I : ℚ) ≤ ((I : ℚ) + 1) * 10 ^ v.length := by
    have : (num v I : ℚ) ≤ (((I + 1) * 10 ^ v.length : Nat) : ℚ) := Nat.cast_le.2 (le_of_lt h2)
    push_cast at this; exact this
  have key : (num v I : ℚ) ≤ (I : ℚ) * 10 ^ v.length * (1 + 1 / 2 ^ 53) := by
    rcases h with rfl | h
    · rw [num_nil]
      have : (0 : ℚ) ≤ I := Nat.cast_nonneg I
      simp
      linarith
    · have hI : (10 : ℚ) ^ 16 ≤ I := by
        have : ((10 ^ 16 : Nat) : ℚ) ≤ (I : ℚ) := Nat.cast_le.2 h
        push_cast at this; exact this
      refine le_trans h2q ?_
      rw [mul_right_comm]
      refine mul_le_mul_of_nonneg_right ?_ (le_of_lt hP)
      rw [mul_add, mul_one]
      have h7 := mul_le_mul_of_nonneg_right hI (show (0 : ℚ) ≤ 1 / 2 ^ 53 by norm_num)
      have h8 : (1 : ℚ) ≤ 10 ^ 16 * (1 / 2 ^ 53) := by norm_num
      exact add_le_add (le_refl _) (le_trans h8 h7)
  constructor
  · rw [pow_one]
    calc (num v I : ℚ) * 10 ^ x ≤ ((I : ℚ) * 10 ^ v.length * (1 + 1 / 2 ^ 53)) * 10 ^ x := mul_le_mul_of_nonneg_right key (le_of_lt hp)
      _ = _ := by ring
  · rw [pow_one]
    have h0 : (0 : ℚ) ≤ (num v I : ℚ) * 10 ^ x := mul_nonneg (Nat.cast_nonneg _) (le_of_lt hp)
    calc (I : ℚ) * (10 ^ x * 10 ^ v.length) = ((I : ℚ) * 10 ^ v.length) * 10 ^ x := by ring
      _ ≤ (num v I : ℚ) * 10 ^ x := mul_le_mul_of_nonneg_right h1q (le_of_lt hp)
      _ ≤ _ := by rw [mul_add, mul_one]; linarith

/-- **C156.** Whatever number is in the text, of `n` digits (not counting zeros in front), the `double` that is read for it, if it is above
`2^-1022`, is off by at most six roundings and two more for every digit from the seventeenth on; and it has the sign of the text. -/
theorem read_accuracy {rnd : ℚ → ℚ} (R : Correct rnd) (neg : Bool) {ip fr es : Str} {x : Int} {n : Nat} (hi : IntText ip) (hf : Digits fr)
    (hl : fr.length ≤ 100000000) (hx : ExpOf es x) (hn : num (ip ++ fr) 0 < 10 ^ n) {m : Bool} {q : ℚ} {r : Str}
    (h : parse rnd (minusText neg ++ (ip ++ (fracText fr ++ es))) = .dbl m q r) (hq : 2 ^ (-1022 : Int) < q) :
    m = neg ∧ r = [] ∧ Within (6 + 2 * (n - 16)) q ((num (ip ++ fr) 0 : ℚ) * 10 ^ (x - fr.length)) := by
  obtain ⟨w, v, i, d, j, e1, e2, e3, e4, e5, e6, -⟩ := parse_split R neg hi hf hx
  rw [e3] at h
  obtain ⟨h1, h2, h3, h4⟩ := afterFrac_within R (by omega) (by omega) hx e4 h hq
  have hv : Digits v := by
    intro y hy
    have : y ∈ ip ++ fr := by rw [e1]; simp [hy]
    rcases List.mem_append.1 this with h | h
    · exact hi.1 y h
    · exact hf y h
  have h5 := dropped_within hv e6 (x - fr.length)
  rw [← e1, show x - (fr.length : Int) + v.length = x + -((fr.length : Int) - v.length) by ring] at h5
  have h6 := h4.trans h5
  refine ⟨h1, h2, h6.mono ?_ (by linarith [min_pos]) (mul_nonneg (Nat.cast_nonneg _) (le_of_lt (zpow_pos (by norm_num) _)))⟩
  rcases e5 with h | h
  · omega
  · have hw : num w 0 ≤ num (ip ++ fr) 0 := by rw [e1, num_append]; exact le_num v _
    have : 10 ^ (15 + j) < 10 ^ n := by
      rw [pow_add]
      refine lt_of_le_of_lt (Nat.mul_le_mul_right _ (show 10 ^ 15 ≤ 2 ^ 53 by decide)) (by omega)
    have := (Nat.pow_lt_pow_iff_right (show 1 < 10 by decide)).1 this
    omega

theorem within_abs {n : Nat} {x y : ℚ} (hy : 0 ≤ y) (h : Within n x y) : |x - y| ≤ y * ((1 + 1 / 2 ^ 53) ^ n - 1) := by
  have he := one_le_e n
  unfold Within at h
  generalize (1 + 1 / 2 ^ 53 : ℚ) ^ n = a at *
  rw [abs_le]
  constructor
  · by_cases hx : x ≤ y
    · have : (y - x) ≤ y * (a - 1) := by
        have h1 : x * (a - 1) ≤ y * (a - 1) := mul_le_mul_of_nonneg_right hx (by linarith)
        linarith [h.1]
      linarith
    · have : 0 ≤ y * (a - 1) := mul_nonneg hy (by linarith)
      linarith
  · linarith [h.2]

/-- **C156.** Of at most seventeen digits: the error is at most `9 / 2^53` of the number, four and a half units in the last place of a number just above a power of two. -/
theorem read_accuracy_17 {rnd : ℚ → ℚ} (R : Correct rnd) (neg : Bool) {ip fr es : Str} {x : Int} (hi : IntText ip) (hf : Digits fr)
    (hl : fr.length ≤ 100000000) (hx : ExpOf es x) (hn : num (ip ++ fr) 0 < 10 ^ 17) {m : Bool} {q : ℚ} {r : Str}
    (h : parse rnd (minusText neg ++ (ip ++ (fracText fr ++ es))) = .dbl m q r) (hq : 2 ^ (-1022 : Int) < q) :
    |q - (num (ip ++ fr) 0 : ℚ) * 10 ^ (x - fr.length)| ≤ (num (ip ++ fr) 0 : ℚ) * 10 ^ (x - fr.length) * (9 / 2 ^ 53) := by
  have w := (read_accuracy R neg hi hf hl hx hn h hq).2.2
  have hy : (0 : ℚ) ≤ (num (ip ++ fr) 0 : ℚ) * 10 ^ (x - fr.length) := mul_nonneg (Nat.cast_nonneg _) (le_of_lt (zpow_pos (by norm_num) _))
  refine le_trans (within_abs hy w) (mul_le_mul_of_nonneg_left ?_ hy)
  norm_num

/-! ### what is accepted -/

theorem fl_bounds {rnd : ℚ → ℚ} (R : Correct rnd) {x : ℚ} (h0 : 0 ≤ x) (h : x < overflow) : ∃ q : ℚ, fl rnd x = .fin q ∧ 0 ≤ q ∧ q < overflow ∧
    (∀ c ≤ infinity, ieee c ≤ x → ieee c ≤ q) := by
  obtain ⟨a, ha, e, -⟩ := R.nearest x h0 h
  have hr : Repr (rnd x) := ⟨a, ha, e.symm⟩
  refine ⟨rnd x, ?_, (repr_lt hr).2, (repr_lt hr).1, fun c hc hx => R.ge h0 h hc hx⟩
  unfold fl
  rw [if_neg (not_le.2 h)]

theorem ieee_two_min : ieee (2 * 2 ^ 52) = 2 * 2 ^ (-1022 : Int) := by
  unfold ieee
  rw [if_neg (by decide), show ((2 * 2 ^ 52 / 2 ^ 52 : Nat) : Int) - 1075 = -1073 by decide, show (2 ^ 52 + 2 * 2 ^ 52 % 2 ^ 52 : Nat) = 2 ^ 52 by decide,
    show (-1022 : Int) = 51 + -1073 by rfl, zpow_add₀ (by norm_num)]
  generalize (2 : ℚ) ^ (-1073 : Int) = t
  norm_num
  ring

/-- One scaling does not overflow, and does not lose the number. -/
theorem fastPath_ok {rnd : ℚ → ℚ} (R : Correct rnd) {k : Nat} {a X : ℚ} (ha : 0 ≤ a) (hao : a < overflow) (hX : 0 ≤ X) (w : Within k a X) {e : Int} (he1 : -308 ≤ e)
    (he : e ≤ 308) (hu : 0 ≤ e → X * 10 ^ e * (1 + 1 / 2 ^ 53) ^ (k + 1) < overflow) :
    ∃ q : ℚ, fastPath rnd (.fin a) e = some (.fin q) ∧ 0 ≤ q ∧ q < overflow ∧
      (2 * 2 ^ (-1022 : Int) * (1 + 1 / 2 ^ 53) ^ (k + 1) ≤ X * 10 ^ e → 2 ^ (-1022 : Int) < q) := by
  have low : ∀ x q : ℚ, Within (k + 1) x (X * 10 ^ e) → (∀ c ≤ infinity, ieee c ≤ x → ieee c ≤ q) →
      2 * 2 ^ (-1022 : Int) * (1 + 1 / 2 ^ 53) ^ (k + 1) ≤ X * 10 ^ e → 2 ^ (-1022 : Int) < q := by
    intro x q w hc h
    have h1 : 2 * 2 ^ (-1022 : Int) ≤ x := le_of_mul_le_mul_right (le_trans h w.1) (lt_of_lt_of_le one_pos (one_le_e _))
    have h2 := hc (2 * 2 ^ 52) (by decide) (by rw [ieee_two_min]; exact h1)
    rw [ieee_two_min] at h2
    linarith [min_pos]
  unfold fastPath
  rw [if_neg (by omega)]
  by_cases h : e ≥ 0
  · rw [if_pos h]
    obtain ⟨n, rfl⟩ := Int.eq_ofNat_of_zero_le h
    obtain ⟨pw, hp, h1, w1⟩ := pow10_spec R n (by omega)
    rw [hp]
    have w3 := w.mul ha hX (by linarith) (by positivity) w1
    rw [zpow_natCast] at hu low ⊢
    have ho : a * pw < overflow := lt_of_le_of_lt w3.2 (hu h)
    obtain ⟨q, hq, q0, q1, q2⟩ := fl_bounds R (mul_nonneg ha (by linarith)) ho
    exact ⟨q, by simp only [Option.map_some, mulF, hq], q0, q1, low _ _ w3 q2⟩
  · rw [if_neg h]
    obtain ⟨n, hn⟩ := Int.eq_ofNat_of_zero_le (show 0 ≤ -e by omega)
    obtain ⟨pw, hp, h1, w1⟩ := pow10_spec R n (by omega)
    rw [hn, hp]
    have w3 := w.div ha hX (by linarith) (by positivity) w1
    rw [div_eq_mul_inv X, ← zpow_natCast, ← zpow_neg, ← hn, neg_neg] at w3
    have ho : a / pw < overflow := lt_of_le_of_lt (div_le_self ha h1) hao
    obtain ⟨q, hq, q0, q1, q2⟩ := fl_bounds R (div_nonneg ha (by linarith)) ho
    exact ⟨q, by simp only [Option.map_some, divF, hq], q0, q1, low _ _ w3 q2⟩

theorem strtodNormal_ok {rnd : ℚ → ℚ} (R : Correct rnd) {k I : Nat} {d : F} (a : Approx k d I) {p : Int} (hp : p ≤ 308)
    (h1 : (I : ℚ) * (1 + 1 / 2 ^ 53) ^ k < overflow) (h2 : 0 ≤ p → (I : ℚ) * 10 ^ p * (1 + 1 / 2 ^ 53) ^ (k + 1) < overflow) :
    ∃ q : ℚ, strtodNormal rnd d p = some (.fin q) ∧
      (-616 ≤ p → 2 * 2 ^ (-1022 : Int) * (1 + 1 / 2 ^ 53) ^ (k + 3) ≤ (I : ℚ) * 10 ^ p → 2 ^ (-1022 : Int) < q) := by
  have hI0 : (0 : ℚ) ≤ I := Nat.cast_nonneg I
  have mono : ∀ (l : Nat) (y : ℚ), l ≤ k + 3 → 2 * 2 ^ (-1022 : Int) * (1 + 1 / 2 ^ 53) ^ (k + 3) ≤ y → 2 * 2 ^ (-1022 : Int) * (1 + 1 / 2 ^ 53) ^ l ≤ y := by
    intro l y hl hy
    have := pow_le_pow_right₀ (show (1 : ℚ) ≤ 1 + 1 / 2 ^ 53 by norm_num) hl
    exact le_trans (mul_le_mul_of_nonneg_left this (by linarith [min_pos])) hy
  rcases a with ⟨-, ho⟩ | ⟨a, rfl, hz⟩
  · linarith
  · have ha0 : 0 ≤ a := by
      rcases hz with ⟨-, h⟩ | ⟨-, h, -⟩ <;> linarith
    have w : Within k a I := by
      rcases hz with ⟨h1, h2⟩ | ⟨-, -, h⟩
      · rw [h1, h2, Nat.cast_zero]; exact within_self k (le_refl 0)
      · exact h
    have hao : a < overflow := lt_of_le_of_lt w.2 h1
    unfold strtodNormal
    by_cases hc : p < -308
    · rw [if_pos hc]
      obtain ⟨b, hb, b0, b1, b2⟩ := fastPath_ok R ha0 hao hI0 w (e := -308) (by omega) (by omega) (by omega)
      rw [hb]
      simp only [Option.bind_some]
      by_cases hc2 : p + 308 < -308
      · refine ⟨0, ?_, fun h => by omega⟩
        unfold fastPath
        rw [if_pos hc2]
      · have hX0 : (0 : ℚ) ≤ I * 10 ^ (-308 : Int) := mul_nonneg hI0 (le_of_lt (zpow_pos (by norm_num) _))
        obtain ⟨q, hq, -, -, -⟩ := fastPath_ok R b0 b1 b0 (within_self 0 b0) (e := p + 308) (by omega) (by omega) (by omega)
        refine ⟨q, hq, fun _ hlow => ?_⟩
        have h308 : (I : ℚ) * 10 ^ p ≤ I * 10 ^ (-308 : Int) := mul_le_mul_of_nonneg_left (zpow_le_zpow_right₀ (by norm_num) (by omega)) hI0
        have hbm := b2 (mono (k + 1) _ (by omega) (le_trans hlow h308))
        have wb := (fastPath_within R ha0 hI0 w hb hbm).1
        obtain ⟨q', hq', -, -, q2⟩ := fastPath_ok R b0 b1 hX0 wb (e := p + 308) (by omega) (by omega) (by omega)
        rw [hq] at hq'
        simp only [Option.some.injEq, F.fin.injEq] at hq'
        rw [hq']
        apply q2
        rw [mul_assoc (I : ℚ), ← zpow_add₀ (by norm_num), show -308 + (p + 308) = p by ring]
        exact hlow
    · rw [if_neg hc]
      obtain ⟨q, hq, -, -, q2⟩ := fastPath_ok R ha0 hao hI0 w (e := p) (by omega) hp h2
      exact ⟨q, hq, fun _ hlow => q2 (mono (k + 1) _ (by omega) hlow)⟩

theorem expPart_complete {e : Int} (he : -100000000 ≤ e) (he0 : e ≤ 0) {sg ds : Str} (hs : sg = [] ∨ sg = ['+'] ∨ sg = ['-']) (hne : ds ≠ []) (hd : Digits ds)
    {x : Int} (hx : x = if sg = ['-'] then -(num ds 0 : Int) else num ds 0) (h1 : -100000000 ≤ x) (h2 : x ≤ 308) : expPart e (sg ++ ds) = .ok (x, []) := by
  cases ds with
  | nil => exact absurd rfl hne
  | cons c cs =>
    have hc := hd c (by simp)
    have hb := digit_bounds hc
    have hcs : Digits cs := fun y hy => hd y (by simp [hy])
    have hn : num (c :: cs) 0 = num cs (c.toNat - 48) := by rw [num_cons, Nat.zero_mul, Nat.zero_add]
    have e3 : ((c.toNat : Int) - 48) = ((c.toNat - 48 : Nat) : Int) := by omega
    rw [hn] at hx
    have pos : x = (num cs (c.toNat - 48) : Int) → expPart.pos e c cs = .ok (x, []) := by
      intro hx
      unfold expPart.pos
      rw [if_pos (by rw [isDigit_eq]; exact hc), e3, expPos_spec (308 - e) hcs (c.toNat - 48) (by omega), hx]
    rcases hs with rfl | rfl | rfl
    · have hm : c ≠ '-' := by rintro rfl; revert hc; decide
      have hp : c ≠ '+' := by rintro rfl; revert hc; decide
      have e2 : expPart e (c :: cs) = expPart.pos e c cs := by
        unfold expPart
        split
        · rename_i h; injection h with h _; exact absurd h hm
        · rename_i h; injection h with h _; exact absurd h hp
        · rename_i h; injection h with h h'; rw [h, h']
        · rename_i h; cases h
      rw [List.nil_append, e2]
      exact pos (by simpa using hx)
    · have e2 : expPart e (['+'] ++ c :: cs) = expPart.pos e c cs := by
        unfold expPart; rfl
      rw [e2]
      exact pos (by simpa using hx)
    · rw [if_pos rfl] at hx
      unfold expPart
      simp only [List.cons_append, List.nil_append]
      rw [if_pos (by rw [isDigit_eq]; exact hc), e3, expNeg_spec _ hcs (c.toNat - 48) (by omega), hx]

theorem afterFrac_complete {rnd : ℚ → ℚ} (R : Correct rnd) {neg : Bool} {i k I : Nat} {d : Option F} {e : Int} (he : -100000000 ≤ e) (he0 : e ≤ 0) {es : Str} {x : Int}
    (hx : ExpOf es x) (hx0 : -100000000 ≤ x) (hx308 : x ≤ 308) (hd : es = [] → d.isSome = true) (a : Approx k (d.getD (fl rnd (i : ℚ))) I)
    (h1 : (I : ℚ) * (1 + 1 / 2 ^ 53) ^ k < overflow) (h2 : 0 ≤ x + e → (I : ℚ) * 10 ^ (x + e) * (1 + 1 / 2 ^ 53) ^ (k + 1) < overflow) :
    ∃ q : ℚ, afterFrac rnd neg i d e es = .dbl neg q [] ∧
      (-616 ≤ x + e → 2 * 2 ^ (-1022 : Int) * (1 + 1 / 2 ^ 53) ^ (k + 3) ≤ (I : ℚ) * 10 ^ (x + e) → 2 ^ (-1022 : Int) < q) := by
  obtain ⟨q, hq, hl⟩ := strtodNormal_ok R a (p := x + e) (by omega) h1 h2
  have hfin : finish rnd neg (d.getD (fl rnd (i : ℚ))) (x + e) [] = .dbl neg q [] := by unfold finish; rw [hq]
  refine ⟨q, ?_, hl⟩
  rcases hx with ⟨rfl, rfl⟩ | ⟨c, sg, ds, rfl, hc, hs, hne, hds, hxe⟩
  · cases d with
    | none => have := hd rfl; cases this
    | some f =>
      rw [zero_add] at hfin
      exact hfin
  · unfold afterFrac
    simp only
    rw [if_pos hc, expPart_complete he he0 hs hne hds hxe hx0 hx308]
    exact hfin

theorem e_le_two (k : Nat) : (1 + 1 / 2 ^ 53 : ℚ) ^ k ≤ 2 ^ k := pow_le_pow_left₀ (by norm_num) (by norm_num) k

/-- **C156.** A number with a fraction or an exponent, of at most 190 digits and not too big, is accepted. -/
theorem read_accepts {rnd : ℚ → ℚ} (R : Correct rnd) (neg : Bool) {ip fr es : Str} {x : Int} {n : Nat} (hi : IntText ip) (hf : Digits fr)
    (hl : fr.length ≤ 100000000) (hx : ExpOf es x) (hx0 : -100000000 ≤ x) (hx308 : x ≤ 308) (hreal : fr = [] → es ≠ []) (hn : num (ip ++ fr) 0 < 10 ^ n) (hn190 : n ≤ 190)
    (hbig : (num (ip ++ fr) 0 : ℚ) * 10 ^ (x - fr.length) * (1 + 1 / 2 ^ 53) ^ (2 + 2 * (n - 16)) < overflow) :
    ∃ q : ℚ, parse rnd (minusText neg ++ (ip ++ (fracText fr ++ es))) = .dbl neg q [] ∧
      (2 * 2 ^ (-1022 : Int) * (1 + 1 / 2 ^ 53) ^ (5 + 2 * (n - 16)) ≤ (num (ip ++ fr) 0 : ℚ) * 10 ^ (x - fr.length) → 2 ^ (-1022 : Int) < q) := by
  obtain ⟨w, v, i, d, j, e1, e2, e3, e4, e5, e6, e7⟩ := parse_split R neg hi hf hx
  have hv : Digits v := by
    intro y hy
    have : y ∈ ip ++ fr := by rw [e1]; simp [hy]
    rcases List.mem_append.1 this with h | h
    · exact hi.1 y h
    · exact hf y h
  have hj : j ≤ n - 16 := by
    rcases e5 with h | h
    · omega
    · have hw : num w 0 ≤ num (ip ++ fr) 0 := by rw [e1, num_append]; exact le_num v _
      have : 10 ^ (15 + j) < 10 ^ n := by
        rw [pow_add]
        refine lt_of_le_of_lt (Nat.mul_le_mul_right _ (show 10 ^ 15 ≤ 2 ^ 53 by decide)) (by omega)
      have := (Nat.pow_lt_pow_iff_right (show 1 < 10 by decide)).1 this
      omega
  have hdrop := dropped_within hv e6 (x - fr.length)
  rw [← e1, show x - (fr.length : Int) + v.length = x + -((fr.length : Int) - v.length) by ring] at hdrop
  have hle : (num w 0 : ℚ) * 10 ^ (x + -((fr.length : Int) - v.length)) ≤ (num (ip ++ fr) 0 : ℚ) * 10 ^ (x - fr.length) := by
    rw [show x + -((fr.length : Int) - v.length) = (x - fr.length) + v.length by ring, zpow_add₀ (by norm_num), zpow_natCast, e1, num_append]
    have h1 := num_ge v (num w 0)
    have h1q : (num w 0 : ℚ) * 10 ^ v.length ≤ (num v (num w 0) : ℚ) := by
      have : ((num w 0 * 10 ^ v.length : Nat) : ℚ) ≤ (num v (num w 0) : ℚ) := Nat.cast_le.2 h1
      push_cast at this; exact this
    have := mul_le_mul_of_nonneg_right h1q (le_of_lt (zpow_pos (show (0 : ℚ) < 10 by norm_num) (x - fr.length)))
    linarith
  have hw0 : (0 : ℚ) ≤ num w 0 := Nat.cast_nonneg _
  have hpos : (0 : ℚ) ≤ (num w 0 : ℚ) * 10 ^ (x + -((fr.length : Int) - v.length)) := mul_nonneg hw0 (le_of_lt (zpow_pos (by norm_num) _))
  have h1 : (num w 0 : ℚ) ≤ 10 ^ 190 := by
    have hw : num w 0 ≤ num (ip ++ fr) 0 := by rw [e1, num_append]; exact le_num v _
    have h2 : 10 ^ n ≤ 10 ^ 190 := Nat.pow_le_pow_right (by decide) hn190
    have : (num w 0 : ℚ) ≤ ((10 ^ 190 : Nat) : ℚ) := Nat.cast_le.2 (by omega)
    rwa [Nat.cast_pow] at this
  have hI : (num w 0 : ℚ) * (1 + 1 / 2 ^ 53) ^ (1 + 2 * j) < overflow := by
    have h2 : (1 + 1 / 2 ^ 53 : ℚ) ^ (1 + 2 * j) ≤ 2 ^ 349 :=
      le_trans (pow_le_pow_right₀ (by norm_num) (by omega)) (e_le_two 349)
    have h3 : (10 : ℚ) ^ 190 * 2 ^ 349 ≤ 10 ^ 308 := by
      have h4 : (2 : ℕ) ^ 349 ≤ 10 ^ 118 := by decide +kernel
      have h5 : ((2 ^ 349 : ℕ) : ℚ) ≤ ((10 ^ 118 : ℕ) : ℚ) := Nat.cast_le.2 h4
      rw [Nat.cast_pow, Nat.cast_pow] at h5
      rw [show 308 = 190 + 118 from rfl, pow_add]
      exact mul_le_mul_of_nonneg_left h5 (by positivity)
    exact lt_of_le_of_lt (le_trans (mul_le_mul h1 h2 (le_trans zero_le_one (one_le_e _)) (by positivity)) h3) ten308
  have hes : es = [] → d.isSome = true := fun h => e7 fun h' => hreal h' h
  have hb' : 0 ≤ x + -((fr.length : Int) - v.length) →
      (num w 0 : ℚ) * 10 ^ (x + -((fr.length : Int) - v.length)) * (1 + 1 / 2 ^ 53) ^ (1 + 2 * j + 1) < overflow := by
    intro _
    refine lt_of_le_of_lt ?_ hbig
    exact mul_le_mul hle (pow_le_pow_right₀ (by norm_num) (by omega)) (le_trans zero_le_one (one_le_e _)) (le_trans hpos hle)
  obtain ⟨q, hq, hlow⟩ := afterFrac_complete R (neg := neg) (by omega) (by omega) hx hx0 hx308 hes e4 hI hb'
  have h8 : (num (ip ++ fr) 0 : ℚ) * 10 ^ (x - fr.length) ≤ (num w 0 : ℚ) * 10 ^ (x + -((fr.length : Int) - v.length)) * (1 + 1 / 2 ^ 53) ^ 1 := hdrop.1
  refine ⟨q, by rw [e3]; exact hq, fun h => hlow ?_ ?_⟩
  · by_contra hlt
    have a1 : (10 : ℚ) ^ (x + -((fr.length : Int) - v.length)) ≤ 10 ^ (-617 : Int) := zpow_le_zpow_right₀ (by norm_num) (by omega)
    have a2 := mul_le_mul h1 a1 (le_of_lt (zpow_pos (by norm_num) _)) (by positivity)
    have a3 : (10 : ℚ) ^ 190 * 10 ^ (-617 : Int) = 10 ^ (-427 : Int) := by
      rw [← zpow_natCast, ← zpow_add₀ (by norm_num)]; rfl
    have a4 : (10 : ℚ) ^ (-427 : Int) < 2 ^ (-1022 : Int) := by
      have h4 : (2 : ℕ) ^ 1022 < 10 ^ 427 := by decide +kernel
      have h5 : ((2 ^ 1022 : ℕ) : ℚ) < ((10 ^ 427 : ℕ) : ℚ) := Nat.cast_lt.2 h4
      rw [Nat.cast_pow, Nat.cast_pow] at h5
      rw [zpow_neg, zpow_neg, show (427 : Int) = ((427 : Nat) : Int) from rfl, show (1022 : Int) = ((1022 : Nat) : Int) from rfl, zpow_natCast, zpow_natCast]
      exact inv_strictAnti₀ (by positivity) h5
    have a5 : 2 * 2 ^ (-1022 : Int) * 1 ≤ 2 * 2 ^ (-1022 : Int) * (1 + 1 / 2 ^ 53 : ℚ) ^ (5 + 2 * (n - 16)) :=
      mul_le_mul_of_nonneg_left (one_le_e _) (by linarith [min_pos])
    have a6 := le_trans a5 (le_trans h h8)
    rw [a3] at a2
    have a7 := mul_le_mul_of_nonneg_right (le_trans a2 (le_of_lt a4)) (show (0 : ℚ) ≤ (1 + 1 / 2 ^ 53) ^ 1 by norm_num)
    have a8 := le_trans a6 a7
    have a9 := min_pos
    clear a1 a2 a3 a4 a5 a6 a7
    generalize (2 : ℚ) ^ (-1022 : Int) = t at *
    norm_num at a8
    linarith
  · have h9 : (1 + 1 / 2 ^ 53 : ℚ) ^ (1 + 2 * j + 3) * (1 + 1 / 2 ^ 53) ^ 1 ≤ (1 + 1 / 2 ^ 53) ^ (5 + 2 * (n - 16)) := by
      rw [← pow_add]; exact pow_le_pow_right₀ (by norm_num) (by omega)
    have h10 := mul_le_mul_of_nonneg_left h9 (show (0 : ℚ) ≤ 2 * 2 ^ (-1022 : Int) by linarith [min_pos])
    rw [← mul_assoc] at h10
    exact le_of_mul_le_mul_right (le_trans h10 (le_trans h h8)) (by norm_num)

theorem expOf_expText (ex : Option Int) : ExpOf (expText ex) (ex.getD 0) := by
  cases ex with
  | none => exact .inl ⟨rfl, rfl⟩
  | some x =>
    right
    cases x with
    | ofNat n => exact ⟨'e', [], dec n, rfl, .inl rfl, .inl rfl, dec_ne_nil n, digits_dec n, by rw [if_neg (by decide), num_dec]; rfl⟩
    | negSucc n => exact ⟨'e', ['-'], dec (n + 1), rfl, .inl rfl, .inr (.inr rfl), dec_ne_nil _, digits_dec _, by rw [if_pos rfl, num_dec]; rfl⟩

/-- A correct rounding of the printed number is the `double`; hence they are within one rounding. -/
theorem printed_within {rnd : ℚ → ℚ} (S : Correct rnd) {y : ℚ} {a : Nat} (hy : 0 ≤ y) (ha : a < infinity)
    (hn : ∀ b ≤ infinity, b ≠ a → |y - ieee a| < |y - ieee b|) (hm : 2 ^ (-1022 : Int) < ieee a) : y < overflow ∧ Within 1 (ieee a) y := by
  have ho : y < overflow := by
    have h1 := hn infinity (le_refl _) (by omega)
    have h2 : ieee a ≤ ieee (infinity - 1) := ieee_strictMono.monotone (by omega)
    have h3 : ieee (infinity - 1) < ieee infinity := ieee_strictMono (by decide)
    rw [overflow_eq]
    by_contra hge
    push Not at hge
    rw [abs_of_nonneg (by linarith)] at h1
    rcases le_total (ieee infinity) y with h4 | h4
    · rw [abs_of_nonneg (by linarith)] at h1; linarith
    · rw [abs_of_nonpos (by linarith)] at h1; linarith
  have he := S.unique hy ho ha hn
  refine ⟨ho, ?_⟩
  rw [← he]
  refine S.within ?_ ho
  by_contra hlt
  rw [← ieee_min] at hlt hm
  have := S.le hy ho (show 2 ^ 52 ≤ infinity by decide) (le_of_lt (not_le.1 hlt))
  rw [he] at this
  linarith

/-- The exponent that `Prettify` writes. -/
theorem prettify_exp {ds : Str} {k : Int} (g : GrisuOk ds k) : ∃ ip fr ex,
    prettify ds k = ip ++ (fracText fr ++ expText ex) ∧ IntText ip ∧ Digits fr ∧ (fr = [] → ex ≠ none) ∧
      (∀ x, ex = some x → x = (ds.length : Int) + k - 1 ∧ 1 ≤ num ip 0) := by
  obtain ⟨hd, hh, hne, hlen, hlo, hhi⟩ := g
  unfold prettify
  simp only
  by_cases c1 : 0 ≤ k ∧ (ds.length : Int) + k ≤ 21
  · rw [if_pos c1]
    refine ⟨ds ++ List.replicate k.toNat '0', ['0'], none, by simp [fracText, expText], ?_, by intro c hc; simp at hc; subst hc; decide,
      by simp, by simp⟩
    · refine intText_of_head (digits_append hd (digits_zeros _)) (by simp [hne]) ?_
      intro c t h
      cases ds with
      | nil => exact absurd rfl hne
      | cons a ds =>
        simp only [List.cons_append, List.cons.injEq] at h
        rw [← h.1]; exact hh a ds rfl
  rw [if_neg c1]
  by_cases c2 : 0 < (ds.length : Int) + k ∧ (ds.length : Int) + k ≤ 21
  · rw [if_pos c2]
    have hk : k < 0 := by omega
    have hlt : ((ds.length : Int) + k).toNat < ds.length := by omega
    refine ⟨ds.take ((ds.length : Int) + k).toNat, ds.drop ((ds.length : Int) + k).toNat, none, ?_, ?_, digits_drop _ hd, ?_, by simp⟩
    · rw [fracText, if_neg (by rw [List.drop_eq_nil_iff]; omega)]
      simp [expText]
    · refine intText_of_head (digits_take _ hd) ?_ ?_
      · intro h
        rw [List.take_eq_nil_iff] at h
        rcases h with h | h
        · omega
        · exact hne h
      · intro c t h
        cases ds with
        | nil => exact absurd rfl hne
        | cons a ds =>
          have : (((a :: ds).length : Int) + k).toNat = ((((a :: ds).length : Int) + k).toNat - 1) + 1 := by omega
          rw [this, List.take_succ_cons] at h
          simp only [List.cons.injEq] at h
          rw [← h.1]; exact hh a ds rfl
    · intro h
      rw [List.drop_eq_nil_iff] at h; omega
  rw [if_neg c2]
  by_cases c3 : -6 < (ds.length : Int) + k ∧ (ds.length : Int) + k ≤ 0
  · rw [if_pos c3]
    refine ⟨['0'], List.replicate (-((ds.length : Int) + k)).toNat '0' ++ ds, none, ?_, ?_, digits_append (digits_zeros _) hd, by simp [hne], by simp⟩
    · rw [fracText, if_neg (by simp [hne])]
      simp [expText]
    · exact ⟨by intro c hc; simp at hc; subst hc; decide, by simp, by simp⟩
  rw [if_neg c3, if_neg (by omega)]
  cases ds with
  | nil => exact absurd rfl hne
  | cons c cs =>
    have he : writeExponent (((c :: cs).length : Int) + k - 1) = decInt (((c :: cs).length : Int) + k - 1) :=
      writeExponent_eq _ (by omega)
    have hi : IntText [c] := intText_of_head (by intro x hx; exact hd x (by simp at hx; simp [hx])) (by simp)
      (by intro x t h; simp only [List.cons.injEq] at h; rw [← h.1]; exact hh c cs rfl)
    have hval : 1 ≤ num [c] 0 := by
      have hb := digit_bounds (hd c (by simp))
      have : c.toNat ≠ 48 := fun h => hh c cs rfl (Char.ext (UInt32.toNat_inj.1 h))
      rw [num_cons, num_nil]; omega
    cases cs with
    | nil =>
      refine ⟨[c], [], some (([c].length : Int) + k - 1), ?_, hi, digits_nil, by simp, fun x h => ⟨by simpa using h.symm, hval⟩⟩
      simp only [fracText, expText, if_true, List.nil_append, ← he]
      rfl
    | cons c' cs =>
      refine ⟨[c], c' :: cs, some (((c :: c' :: cs).length : Int) + k - 1), ?_, hi, fun x hx => hd x (by simp at hx ⊢; tauto), by simp, fun x h => ⟨by simpa using h.symm, hval⟩⟩
      simp only [fracText, expText, ← he]
      simp

theorem dtoa_exp {rnd : ℚ → ℚ} (R : Rounding rnd) (st : Str → Option Dbl) (d : Dbl) (hf : Finite d) {neg : Bool} {ip fr : Str} {x : Int}
    (he : dtoa (realFp rnd st) d = minusText neg ++ (ip ++ (fracText fr ++ expText (some x)))) (hi : IntText ip) (hd : Digits fr) :
    -325 ≤ x ∧ x ≤ 309 ∧ 1 ≤ num ip 0 := by
  by_cases hz : d.isZero = true
  · have e : dtoa (realFp rnd st) d = minusText d.sign ++ (['0'] ++ (fracText ['0'] ++ expText none)) := by
      unfold dtoa minusText
      rw [if_pos hz]; rfl
    obtain ⟨-, -, -, h⟩ := text_inj hi ⟨by intro c hc; simp at hc; subst hc; decide, by simp, by simp⟩ hd
      (by intro c hc; simp at hc; subst hc; decide) (he.symm.trans e)
    cases h
  · have hz : d.isZero = false := by simpa using hz
    obtain ⟨hok, -⟩ := realFp_grisu R st d hf hz
    obtain ⟨ip', fr', ex', e, i1, i2, -, i4⟩ := prettify_exp hok
    have e' : dtoa (realFp rnd st) d = minusText d.sign ++ (ip' ++ (fracText fr' ++ expText ex')) := by rw [minus_dtoa _ _ hz, e]
    obtain ⟨-, rfl, rfl, rfl⟩ := text_inj hi i1 hd i2 (he.symm.trans e')
    obtain ⟨h1, h2⟩ := i4 x rfl
    have := hok.lo
    have := hok.hi
    exact ⟨by omega, by omega, h2⟩

theorem e_small {k : Nat} (h : k ≤ 360) : (1 + 1 / 2 ^ 53 : ℚ) ^ k ≤ 17 / 10 := by
  have h1 : (1 + 1 / 2 ^ 53 : ℚ) ^ k ≤ (1 + 1 / 2 ^ 53) ^ 360 := pow_le_pow_right₀ (by norm_num) h
  have h2 : (1 + 1 / 2 ^ 53 : ℚ) ^ 360 ≤ (1025 / 1024) ^ 360 := pow_le_pow_left₀ (by norm_num) (by norm_num) 360
  have h3 : (1025 / 1024 : ℚ) ^ 360 ≤ 17 / 10 := by
    have h4 : 1025 ^ 360 * 10 ≤ 17 * 1024 ^ 360 := by decide +kernel
    have h5 : ((1025 ^ 360 * 10 : ℕ) : ℚ) ≤ ((17 * 1024 ^ 360 : ℕ) : ℚ) := Nat.cast_le.2 h4
    rw [Nat.cast_mul, Nat.cast_mul, Nat.cast_pow, Nat.cast_pow] at h5
    rw [div_pow, div_le_div_iff₀ (by positivity) (by norm_num)]
    exact h5
  exact le_trans h1 (le_trans h2 h3)

theorem huge_lt : (17 / 10 : ℚ) * 10 ^ 308 < overflow := by
  unfold overflow
  have h : 17 * (10 : ℕ) ^ 307 + 2 ^ 970 < 2 ^ 1024 := by decide +kernel
  have h' : ((17 * (10 : ℕ) ^ 307 + 2 ^ 970 : ℕ) : ℚ) < ((2 ^ 1024 : ℕ) : ℚ) := Nat.cast_lt.2 h
  rw [Nat.cast_add, Nat.cast_mul, Nat.cast_pow, Nat.cast_pow, Nat.cast_pow] at h'
  have e : (17 / 10 : ℚ) * 10 ^ 308 = 17 * 10 ^ 307 := by
    rw [show 308 = 307 + 1 from rfl, pow_succ]
    generalize (10 : ℚ) ^ 307 = t
    ring
  rw [e]
  exact lt_sub_iff_add_lt.2 h'

/-- **C156.** Every finite `double` that is not tiny or huge (`2^-1000` to `10^308`) is accepted when it is read from what was printed for it, with its sign and an error of
at most nine roundings if there are at most seventeen digits (there can be up to 22 when it is a large integer: two more for each). -/
theorem printed_read {rnd rnd' : ℚ → ℚ} (R : Rounding rnd') (S : Correct rnd) (st : Str → Option Dbl) (d : Dbl) (hf : Finite d)
    (neg : Bool) (ip fr : Str) (ex : Option Int) (he : dtoa (realFp rnd' st) d = minusText neg ++ (ip ++ (fracText fr ++ expText ex)))
    (hi : IntText ip) (hd : Digits fr) {n : Nat} (hn : num (ip ++ fr) 0 < 10 ^ n) (hn190 : n ≤ 190)
    (hmin : 2 ^ (-1000 : Int) ≤ |value d|) (hmax : |value d| ≤ 10 ^ 308) :
    ∃ q : ℚ, parse rnd (dtoa (realFp rnd' st) d) = .dbl d.sign q [] ∧ Within (7 + 2 * (n - 16)) q |value d| := by
  obtain ⟨ip', fr', ex', e', hi', hd', h0, hnear⟩ := dtoa_spec R st d hf
  obtain ⟨rfl, rfl, rfl, rfl⟩ := text_inj hi hi' hd hd' (he.symm.trans e')
  obtain ⟨hreal, hlen⟩ := dtoa_parts R st d hf he hi hd
  have hval : |value d| = ieee (d.bits.toNat % 2 ^ 63) := by
    unfold value
    have := ieee_nonneg (d.bits.toNat % 2 ^ 63)
    split
    · rw [neg_one_mul, abs_neg, abs_of_nonneg this]
    · rw [one_mul, abs_of_nonneg this]
  rw [hval] at hmin hmax ⊢
  unfold Finite at hf
  have hdec : decimal ip fr ex = (num (ip ++ fr) 0 : ℚ) * 10 ^ (ex.getD 0 - fr.length) := rfl
  have hm : (2 : ℚ) ^ (-1022 : Int) < ieee (d.bits.toNat % 2 ^ 63) := lt_of_lt_of_le (zpow_lt_zpow_right₀ (by norm_num) (by decide)) hmin
  obtain ⟨ho, hw⟩ := printed_within S h0 hf hnear hm
  have hE : ∀ k, k ≤ 360 → (1 + 1 / 2 ^ 53 : ℚ) ^ k ≤ 17 / 10 := fun k h => e_small h
  have hx : -100000000 ≤ ex.getD 0 ∧ ex.getD 0 ≤ 308 := by
    cases hex : ex with
    | none => simp
    | some x =>
      rw [hex] at he
      obtain ⟨x1, x2, x3⟩ := dtoa_exp R st d hf he hi hd
      refine ⟨by simp; omega, ?_⟩
      simp only [Option.getD_some]
      by_contra hgt
      have hx : x = 309 := by omega
      have y1 : (10 : ℚ) ^ 309 ≤ decimal ip fr ex := by
        rw [hdec, hex, Option.getD_some, hx, zpow_sub₀ (by norm_num), zpow_natCast]
        have h2 : 10 ^ fr.length ≤ num (ip ++ fr) 0 := by
          rw [num_append]
          exact le_trans (Nat.le_mul_of_pos_left _ x3) (num_ge fr _)
        have h3 : (10 : ℚ) ^ fr.length ≤ (num (ip ++ fr) 0 : ℚ) := by
          have : ((10 ^ fr.length : Nat) : ℚ) ≤ (num (ip ++ fr) 0 : ℚ) := Nat.cast_le.2 h2
          rwa [Nat.cast_pow] at this
        have hP : (0 : ℚ) < 10 ^ fr.length := by positivity
        rw [← mul_div_assoc, le_div_iff₀ hP, mul_comm, show (309 : Int) = ((309 : Nat) : Int) from rfl, zpow_natCast]
        exact mul_le_mul_of_nonneg_right h3 (by positivity)
      have y2 := hw.1
      have y3 := mul_le_mul hmax (hE 1 (by decide)) (le_trans zero_le_one (one_le_e 1)) (by positivity)
      have y4 : (10 : ℚ) ^ 309 = 10 * 10 ^ 308 := by rw [← pow_succ']
      have y5 : (0 : ℚ) < 10 ^ 308 := by positivity
      have y6 := le_trans y1 (le_trans y2 y3)
      rw [y4] at y6
      clear y1 y2 y3 y4 ho hw hmax hnear h0
      generalize (10 : ℚ) ^ 308 = t at *
      linarith
  have hbig : (num (ip ++ fr) 0 : ℚ) * 10 ^ (ex.getD 0 - fr.length) * (1 + 1 / 2 ^ 53) ^ (2 + 2 * (n - 16)) < overflow := by
    rw [← hdec]
    refine lt_of_le_of_lt ?_ huge_lt
    have y1 := mul_le_mul_of_nonneg_right hw.1 (le_trans zero_le_one (one_le_e (2 + 2 * (n - 16))))
    refine le_trans y1 ?_
    rw [mul_assoc, ← pow_add, mul_comm]
    exact mul_le_mul (hE _ (by omega)) hmax (ieee_nonneg _) (by norm_num)
  obtain ⟨q, hq, hlow⟩ := read_accepts S d.sign hi hd (by omega) (expOf_expText ex) hx.1 hx.2
    (by intro h h'; cases ex with | none => exact hreal h rfl | some x => cases h') hn hn190 hbig
  have hqm : 2 ^ (-1022 : Int) < q := by
    apply hlow
    rw [← hdec]
    have y1 : 2 * 2 ^ (-1022 : Int) * (1 + 1 / 2 ^ 53 : ℚ) ^ (5 + 2 * (n - 16)) * (1 + 1 / 2 ^ 53) ^ 1 ≤ 2 ^ (-1000 : Int) := by
      rw [mul_assoc, ← pow_add]
      have y2 := mul_le_mul_of_nonneg_left (hE (5 + 2 * (n - 16) + 1) (by omega)) (show (0 : ℚ) ≤ 2 * 2 ^ (-1022 : Int) by linarith [min_pos])
      refine le_trans y2 ?_
      rw [show (-1000 : Int) = -1022 + 22 by rfl, zpow_add₀ (by norm_num)]
      have := min_pos
      generalize (2 : ℚ) ^ (-1022 : Int) = t at *
      norm_num
      linarith
    exact le_of_mul_le_mul_right (le_trans y1 (le_trans hmin hw.2)) (lt_of_lt_of_le one_pos (one_le_e 1))
  refine ⟨q, by rw [he]; exact hq, ?_⟩
  have h1 := (read_accuracy S d.sign hi hd (by omega) (expOf_expText ex) hn hq hqm).2.2
  rw [← hdec] at h1
  have := h1.trans hw.symm
  rw [show 7 + 2 * (n - 16) = 6 + 2 * (n - 16) + 1 by omega]
  exact this

/-- The number that is not read back as it was is within the bound. -/
example {rnd rnd' : ℚ → ℚ} (R : Rounding rnd') (S : Correct rnd) (st : Str → Option Dbl) :
    ∃ q : ℚ, parse rnd (dtoa (realFp rnd' st) ⟨0x433E6BE9292B497F⟩) = .dbl false q [] ∧ Within 9 q 8562898463574399 := by
  obtain ⟨hv, ht, -⟩ := not_round_trip R S st
  have dg : ∀ s : Str, s.all (·.isDigit) = true → Digits s := fun s h c hc => List.all_eq_true.1 h c hc
  have := printed_read R S st ⟨0x433E6BE9292B497F⟩ (by unfold Finite infinity; decide) false "8562898463574399".toList ['0'] none
    (by rw [ht]; decide +kernel) ⟨dg _ (by decide +kernel), by decide +kernel, by decide +kernel⟩ (dg _ (by decide +kernel)) (n := 17) (by decide +kernel) (by decide)
    (by rw [hv, abs_of_nonneg (by norm_num)]
        have := zpow_le_zpow_right₀ (show (1 : ℚ) ≤ 2 by norm_num) (show (-1000 : Int) ≤ 0 by decide)
        rw [zpow_zero] at this
        linarith)
    (by rw [hv, abs_of_nonneg (by norm_num)]
        have : (10 : ℚ) ^ 16 ≤ 10 ^ 308 := pow_le_pow_right₀ (by norm_num) (by decide)
        refine le_trans ?_ this
        norm_num)
  rw [hv, abs_of_nonneg (by norm_num)] at this
  rw [show (⟨0x433E6BE9292B497F⟩ : Dbl).sign = false by decide +kernel] at this
  exact this

end Current.Json.Strtod
