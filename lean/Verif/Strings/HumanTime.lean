import Verif.Json.StrtodError
/-!
C157: time intervals for people: `TimeIntervalAsHumanReadableString` and `TimeDifferenceAsHumanReadableString`
(`bricks/strings/time.h`). `std::chrono::microseconds` are integers; `-us` overflows for `-2^63`, which is left out.
-/
set_option linter.unusedSimpArgs false
set_option linter.unusedVariables false
namespace Current.Strings.HumanTime
open Current.Persist (Str dec decInt)
open Current.Json (Digits num num_cons)
open Current.Json.Grisu (ieee infinity ieee_strictMono ieee_nonneg ieee_zero ieee_succ expo)
open Current.Json.Strtod

/-- `static_cast<size_t>`: towards zero. -/
def trunc : F → Nat
  | .fin q => ⌊q⌋₊
  | .inf => 0

/-- `static_cast<size_t>(us.count() * 1e-6)` (`time.h:37`): the integer and the literal are rounded to `double`, and so is the product. -/
def seconds (rnd : ℚ → ℚ) (us : Nat) : Nat := trunc (mulF rnd (fl rnd us) (fl rnd (1 / 10 ^ 6)))

/-- The text of a number of seconds (`time.h:38-56`). -/
def units (s : Nat) : Str :=
  if s < 60 then dec s ++ ['s']
  else
    let m := s / 60
    let s := s % 60
    if m < 60 then dec m ++ ['m', ' '] ++ dec s ++ ['s']
    else
      let h := m / 60
      let m := m % 60
      if h < 24 then dec h ++ ['h', ' '] ++ dec m ++ ['m', ' '] ++ dec s ++ ['s']
      else
        let d := h / 24
        let h := h % 24
        dec d ++ ['d', ' '] ++ dec h ++ ['h', ' '] ++ dec m ++ ['m', ' '] ++ dec s ++ ['s']

/-- `TimeIntervalAsHumanReadableString` (`time.h:33-57`): a negative interval is printed as `-` and the opposite one. -/
def interval (rnd : ℚ → ℚ) (us : Int) : Str :=
  if us < 0 then '-' :: units (seconds rnd (-us).toNat) else units (seconds rnd us.toNat)

/-- `TimeDifferenceAsHumanReadableString` (`time.h:59-67`). -/
def difference (rnd : ℚ → ℚ) (dt : Int) : Str :=
  if dt.natAbs < 50 * 1000 then "just now".toList
  else if dt < 0 then interval rnd (-dt) ++ " ago".toList
  else interval rnd dt ++ " into the future".toList

/-! ### the literal -/

/-- The bits of `1e-6`. -/
def micro : Nat := 1003 * 2 ^ 52 + 218766855499149

theorem ieee_micro : ieee micro = 4722366482869645 / 2 ^ 72 := by
  unfold ieee micro
  rw [if_neg (by decide), show ((1003 * 2 ^ 52 + 218766855499149) / 2 ^ 52 : Nat) = 1003 by decide,
    show (2 ^ 52 + (1003 * 2 ^ 52 + 218766855499149) % 2 ^ 52 : Nat) = 4722366482869645 by decide]
  norm_num

theorem big : (2 : ℚ) ^ 65 ≤ 10 ^ 308 := by
  have : (2 : Nat) ^ 65 ≤ 10 ^ 308 := by decide +kernel
  have := (Nat.cast_le (α := ℚ)).2 this
  rwa [Nat.cast_pow, Nat.cast_pow] at this

theorem no_overflow {x : ℚ} (h : x ≤ 2 ^ 65) : x < overflow := lt_of_le_of_lt (le_trans h big) ten308

theorem rnd_micro {rnd : ℚ → ℚ} (R : Correct rnd) : rnd (1 / 10 ^ 6) = 4722366482869645 / 2 ^ 72 := by
  obtain ⟨a, ha, e, hm⟩ := R.nearest (1 / 10 ^ 6) (by norm_num) (no_overflow (by norm_num))
  have h := hm micro (by decide)
  have s1 : ieee (micro + 1) = ieee micro + 2 ^ expo micro := ieee_succ micro
  have s2 : ieee micro = ieee (micro - 1) + 2 ^ expo (micro - 1) := ieee_succ (micro - 1)
  rw [show expo micro = -72 by decide] at s1
  rw [show expo (micro - 1) = -72 by decide] at s2
  rw [ieee_micro] at h s1 s2
  rw [e]
  have hc : a = micro := by
    rcases Nat.lt_trichotomy a micro with hl | he | hg
    · exfalso
      have : ieee a ≤ ieee (micro - 1) := ieee_strictMono.monotone (by omega)
      rw [abs_of_nonneg (by norm_num at s2 ⊢; linarith), abs_of_nonneg (by norm_num)] at h
      norm_num at s2 h
      linarith
    · exact he
    · exfalso
      have : ieee (micro + 1) ≤ ieee a := ieee_strictMono.monotone (by omega)
      rw [abs_of_nonpos (by norm_num at s1 ⊢; linarith), abs_of_nonneg (by norm_num)] at h
      norm_num at s1 h
      linarith
  rw [hc, ieee_micro]

/-! ### the seconds -/

/-- Just below a `double` there is none. -/
theorem gap {a b : Nat} (h : a < b) (hb : 2 ^ 52 < b) : ieee a ≤ ieee b * (1 - 1 / 2 ^ 53) := by
  have h1 : ieee a ≤ ieee (b - 1) := ieee_strictMono.monotone (by omega)
  have h2 := ieee_succ (b - 1)
  rw [Nat.sub_add_cancel (by omega)] at h2
  have h3 : ieee (b - 1) ≤ (2 ^ 53 - 1) * 2 ^ expo (b - 1) := by
    unfold ieee expo
    rw [if_neg (by omega), if_neg (by omega)]
    refine mul_le_mul_of_nonneg_right ?_ (le_of_lt (zpow_pos (by norm_num) _))
    have : (2 ^ 52 + (b - 1) % 2 ^ 52 : Nat) ≤ 2 ^ 53 - 1 := by omega
    have := (Nat.cast_le (α := ℚ)).2 this
    rwa [Nat.cast_sub (by decide), Nat.cast_pow] at this
  generalize (2 : ℚ) ^ expo (b - 1) = t at *
  norm_num at h3 ⊢
  linarith

theorem seconds_eq {rnd : ℚ → ℚ} (R : Correct rnd) (us : Nat) (h : us < 2 ^ 64) :
    seconds rnd us = ⌊rnd (rnd us * (4722366482869645 / 2 ^ 72))⌋₊ := by
  have hu : (us : ℚ) < 2 ^ 64 := by
    have := (Nat.cast_lt (α := ℚ)).2 h
    rwa [Nat.cast_pow] at this
  have e64 : Current.Json.Strtod.Repr ((2 : ℚ) ^ 64) := by simpa using repr_scaled 1 (by decide) 64 (by decide)
  have hr : rnd us ≤ 2 ^ 64 := by
    obtain ⟨c, hc, e⟩ := e64
    rw [← e] at hu ⊢
    refine R.le (Nat.cast_nonneg _) ?_ (le_of_lt hc) (le_of_lt hu)
    rw [e] at hu
    exact no_overflow (by linarith)
  unfold seconds mulF fl
  rw [if_neg (not_le.2 (no_overflow (by linarith))), if_neg (not_le.2 (no_overflow (by norm_num)))]
  simp only
  rw [rnd_micro R, if_neg (not_le.2 (no_overflow ?_))]
  · rfl
  · norm_num at hr ⊢
    linarith

/-- Up to 285 years the seconds are exact. -/
theorem seconds_exact {rnd : ℚ → ℚ} (R : Correct rnd) (us : Nat) (h : us < 2 ^ 53) : seconds rnd us = us / 10 ^ 6 := by
  rw [seconds_eq R us (by omega), R.exact (repr_nat us h)]
  obtain ⟨n, hn⟩ : ∃ n, n = us / 10 ^ 6 := ⟨_, rfl⟩
  rw [← hn]
  have n1 : n * 10 ^ 6 ≤ us := by omega
  have n2 : us ≤ n * 10 ^ 6 + 999999 := by omega
  have n3 : n ≤ 9007199254 := by omega
  have q1 : (n : ℚ) * 10 ^ 6 ≤ us := by exact_mod_cast n1
  have q2 : (us : ℚ) ≤ n * 10 ^ 6 + 999999 := by exact_mod_cast n2
  have q3 : (n : ℚ) ≤ 9007199254 := by exact_mod_cast n3
  have q0 : (0 : ℚ) ≤ n := Nat.cast_nonneg _
  have u0 : (0 : ℚ) ≤ us := Nat.cast_nonneg _
  generalize (us : ℚ) = u at *
  obtain ⟨x, hx⟩ : ∃ x, x = u * (4722366482869645 / 2 ^ 72) := ⟨_, rfl⟩
  rw [← hx]
  have x0 : 0 ≤ x := by rw [hx]; positivity
  have x1 : (n : ℚ) * (1 - 41 / 100 / 2 ^ 53) ≤ x := by rw [hx]; norm_num at q1 ⊢; linarith
  have x2 : x ≤ ((n : ℚ) + 1 - 1 / 10 ^ 6) * (1 - 40 / 100 / 2 ^ 53) := by rw [hx]; norm_num at q2 ⊢; linarith
  have xo : x < overflow := no_overflow (by norm_num at x2 ⊢; linarith)
  clear hx
  rw [Nat.floor_eq_iff (by
    obtain ⟨a, _, e, _⟩ := R.nearest x x0 xo
    rw [e]; exact ieee_nonneg a)]
  constructor
  · obtain ⟨b, hb, e⟩ := repr_nat n (by omega)
    rcases Nat.eq_zero_or_pos n with h0 | hp
    · obtain ⟨a, _, e, _⟩ := R.nearest x x0 xo
      rw [e, h0]; exact_mod_cast ieee_nonneg a
    rcases le_or_gt (n : ℚ) x with hge | hlt
    · rw [← e] at hge ⊢
      exact R.ge x0 xo (le_of_lt hb) hge
    · obtain ⟨a, ha, e', hm⟩ := R.nearest x x0 xo
      by_contra hc
      rw [e', ← e] at hc
      have hab : a < b := ieee_strictMono.lt_iff_lt.1 (not_le.1 hc)
      have b52 : 2 ^ 52 < b := by
        have : ieee (2 ^ 52) < ieee b := by
          rw [ieee_min, e]
          have h1 : (1 : ℚ) ≤ n := by exact_mod_cast hp
          have := zpow_lt_zpow_right₀ (show (1 : ℚ) < 2 by norm_num) (show (-1022 : Int) < 0 by decide)
          rw [zpow_zero] at this
          linarith
        exact ieee_strictMono.lt_iff_lt.1 this
      have g := gap hab b52
      have m := hm b (le_of_lt hb)
      rw [e] at m g
      have p0 : (1 : ℚ) ≤ n := by exact_mod_cast hp
      rw [abs_of_nonneg (by norm_num at g x1 ⊢; linarith), abs_of_nonpos (by linarith)] at m
      norm_num at g x1 m
      linarith
  · by_cases hm : x ≤ 1 / 2
    · have : rnd x ≤ ieee (1022 * 2 ^ 52) := by
        refine R.le x0 xo (by decide) ?_
        have : ieee (1022 * 2 ^ 52) = 1 / 2 := by unfold ieee; norm_num
        rw [this]; exact hm
      have e : ieee (1022 * 2 ^ 52) = 1 / 2 := by unfold ieee; norm_num
      rw [e] at this
      linarith
    · have hmin : (2 : ℚ) ^ (-1022 : Int) ≤ x := by
        have := zpow_le_zpow_right₀ (show (1 : ℚ) ≤ 2 by norm_num) (show (-1022 : Int) ≤ -1 by decide)
        rw [show (2 : ℚ) ^ (-1 : Int) = 1 / 2 by norm_num] at this
        linarith
      have w := (R.within hmin xo).2
      have w' := (R.within hmin xo).1
      rw [pow_one] at w w'
      norm_num at w w' x2 ⊢
      linarith

/-- Beyond, they are at most one off. -/
theorem seconds_near {rnd : ℚ → ℚ} (R : Correct rnd) (us : Nat) (h : us < 2 ^ 63) :
    us / 10 ^ 6 ≤ seconds rnd us + 1 ∧ seconds rnd us ≤ us / 10 ^ 6 + 1 := by
  rcases Nat.lt_or_ge us (2 ^ 53) with hs | hs
  · rw [seconds_exact R us hs]; omega
  rw [seconds_eq R us (by omega)]
  obtain ⟨n, hn⟩ : ∃ n, n = us / 10 ^ 6 := ⟨_, rfl⟩
  rw [← hn]
  have n1 : n * 10 ^ 6 ≤ us := by omega
  have n2 : us ≤ n * 10 ^ 6 + 999999 := by omega
  have n3 : n ≤ 10 ^ 13 := by omega
  have n4 : 9007199254 ≤ n := by omega
  have q1 : (n : ℚ) * 10 ^ 6 ≤ us := by exact_mod_cast n1
  have q2 : (us : ℚ) ≤ n * 10 ^ 6 + 999999 := by exact_mod_cast n2
  have q3 : (n : ℚ) ≤ 10000000000000 := by exact_mod_cast n3
  have q4 : (9007199254 : ℚ) ≤ n := by exact_mod_cast n4
  generalize (us : ℚ) = u at *
  have hmin : ∀ x : ℚ, 1 ≤ x → (2 : ℚ) ^ (-1022 : Int) ≤ x := fun x hx => le_trans min_le_one hx
  have wu := R.within (hmin u (by norm_num at q1; linarith)) (no_overflow (by norm_num at q2 ⊢; linarith))
  unfold Within at wu
  rw [pow_one] at wu
  generalize rnd u = v at *
  obtain ⟨w1, w2⟩ := wu
  have v1 : (n : ℚ) * 10 ^ 6 * (1 - 1 / 2 ^ 53) ≤ v := by norm_num at w1 w2 q1 ⊢; linarith
  have v2 : v ≤ ((n : ℚ) * 10 ^ 6 + 999999) * (1 + 1 / 2 ^ 53) := by norm_num at w1 w2 q2 ⊢; linarith
  obtain ⟨x, hx⟩ : ∃ x, x = v * (4722366482869645 / 2 ^ 72) := ⟨_, rfl⟩
  rw [← hx]
  have x1 : (n : ℚ) * (1 - 2 / 2 ^ 53) ≤ x := by rw [hx]; norm_num at v1 ⊢; linarith
  have x2 : x ≤ ((n : ℚ) + 1 - 1 / 10 ^ 6) * (1 + 1 / 2 ^ 53) := by rw [hx]; norm_num at v2 ⊢; linarith
  have wx := R.within (hmin x (by norm_num at x1; linarith)) (no_overflow (by norm_num at x2 ⊢; linarith))
  unfold Within at wx
  rw [pow_one] at wx
  generalize rnd x = r at *
  obtain ⟨y1, y2⟩ := wx
  have r1 : (n : ℚ) - 1 ≤ r := by norm_num at y1 y2 x1 ⊢; linarith
  have r2 : r < (n : ℚ) + 2 := by norm_num at y1 y2 x2 ⊢; linarith
  have r0 : 0 ≤ r := by linarith
  constructor
  · have : n - 1 ≤ ⌊r⌋₊ := by
      refine Nat.le_floor ?_
      rw [Nat.cast_sub (by omega)]; simpa using r1
    omega
  · have : ⌊r⌋₊ < n + 2 := by
      rw [Nat.floor_lt r0]; push_cast; linarith
    omega

/-- After 278 thousand years a microsecond less than a whole second may count as one. -/
theorem seconds_not_exact {rnd : ℚ → ℚ} (R : Correct rnd) : seconds rnd (2 ^ 43 * 10 ^ 6 - 1) = 2 ^ 43 ∧ (2 ^ 43 * 10 ^ 6 - 1) / 10 ^ 6 = 2 ^ 43 - 1 := by
  refine ⟨?_, by decide⟩
  rw [seconds_eq R _ (by decide)]
  obtain ⟨c, hc, e⟩ := repr_scaled (10 ^ 6) (by decide) 43 (by decide)
  have e1 : ieee c = 8796093022208000000 := by rw [e]; norm_num
  have e2 : (((2 ^ 43 * 10 ^ 6 - 1 : Nat)) : ℚ) = 8796093022207999999 := by norm_num
  rw [e2]
  have r1 : rnd 8796093022207999999 = 8796093022208000000 := by
    obtain ⟨a, ha, ea, hm⟩ := R.nearest 8796093022207999999 (by norm_num) (no_overflow (by norm_num))
    have h := hm c (le_of_lt hc)
    rw [e1] at h
    rw [ea]
    rcases Nat.lt_trichotomy a c with hl | he | hg
    · exfalso
      have b52 : 2 ^ 52 < c := by
        have : ieee (2 ^ 52) < ieee c := by
          rw [ieee_min, e1]
          have := min_le_one
          linarith
        exact ieee_strictMono.lt_iff_lt.1 this
      have g := gap hl b52
      rw [e1] at g
      rw [abs_of_nonneg (by norm_num at g ⊢; linarith), abs_of_nonpos (by norm_num)] at h
      norm_num at g h
      linarith
    · rw [he, e1]
    · exfalso
      have := ieee_strictMono hg
      rw [e1] at this
      rw [abs_of_nonpos (by linarith), abs_of_nonpos (by norm_num)] at h
      norm_num at h
      linarith
  rw [r1]
  obtain ⟨c', hc', e'⟩ := repr_scaled 1 (by decide) 43 (by decide)
  have e1' : ieee c' = 8796093022208 := by rw [e']; norm_num
  have r2 : rnd (8796093022208000000 * (4722366482869645 / 2 ^ 72)) = 8796093022208 := by
    obtain ⟨a, ha, ea, hm⟩ := R.nearest (8796093022208000000 * (4722366482869645 / 2 ^ 72)) (by norm_num) (no_overflow (by norm_num))
    have h := hm c' (le_of_lt hc')
    rw [e1'] at h
    rw [ea]
    rcases Nat.lt_trichotomy a c' with hl | he | hg
    · exfalso
      have b52 : 2 ^ 52 < c' := by
        have : ieee (2 ^ 52) < ieee c' := by
          rw [ieee_min, e1']
          have := min_le_one
          linarith
        exact ieee_strictMono.lt_iff_lt.1 this
      have g := gap hl b52
      rw [e1'] at g
      rw [abs_of_nonneg (by norm_num at g ⊢; linarith), abs_of_nonpos (by norm_num)] at h
      norm_num at g h
      linarith
    · rw [he, e1']
    · exfalso
      have := ieee_strictMono hg
      rw [e1'] at this
      rw [abs_of_nonpos (by norm_num; linarith), abs_of_nonpos (by norm_num)] at h
      norm_num at h
      linarith
  rw [r2]
  norm_num

/-! ### the text -/

/-- Reading a text back, independently of how it is printed: the sum of its numbers, each multiplied by the length of its unit. -/
def step : Nat × Nat → Char → Nat × Nat
  | (total, n), c =>
    if c.isDigit then (total, n * 10 + (c.toNat - 48))
    else if c = 'd' then (total + n * 86400, 0)
    else if c = 'h' then (total + n * 3600, 0)
    else if c = 'm' then (total + n * 60, 0)
    else if c = 's' then (total + n, 0)
    else (total, n)

def readBack (t : Str) : Nat := (t.foldl step (0, 0)).1

theorem fold_dec (n total : Nat) : (dec n).foldl step (total, 0) = (total, n) := by
  have h : ∀ (t : Str), Digits t → ∀ k, t.foldl step (total, k) = (total, num t k) := by
    intro t ht
    induction t with
    | nil => intro k; rfl
    | cons c t ih =>
      intro k
      have hc : c.isDigit = true := ht c (by simp)
      rw [List.foldl_cons]
      rw [show step (total, k) c = (total, k * 10 + (c.toNat - 48)) by unfold step; simp only [hc, if_true]]
      rw [ih (fun x hx => ht x (by simp [hx])), num_cons]
  rw [h _ (digits_dec n), num_dec]

theorem readBack_units (s : Nat) : readBack (units s) = s := by
  have e1 : ∀ a b, step (a, b) 'd' = (a + b * 86400, 0) := fun _ _ => rfl
  have e2 : ∀ a b, step (a, b) 'h' = (a + b * 3600, 0) := fun _ _ => rfl
  have e3 : ∀ a b, step (a, b) 'm' = (a + b * 60, 0) := fun _ _ => rfl
  have e4 : ∀ a b, step (a, b) 's' = (a + b, 0) := fun _ _ => rfl
  have e5 : ∀ a b, step (a, b) ' ' = (a, b) := fun _ _ => rfl
  unfold readBack units
  simp only
  split
  · simp only [List.foldl_append, fold_dec, List.foldl_cons, List.foldl_nil, e1, e2, e3, e4, e5]; omega
  · split
    · simp only [List.foldl_append, fold_dec, List.foldl_cons, List.foldl_nil, e1, e2, e3, e4, e5]; omega
    · split
      · simp only [List.foldl_append, fold_dec, List.foldl_cons, List.foldl_nil, e1, e2, e3, e4, e5]; omega
      · simp only [List.foldl_append, fold_dec, List.foldl_cons, List.foldl_nil, e1, e2, e3, e4, e5]; omega

/-- The normal form: seconds and minutes below sixty, hours below twenty-four, no unit greater than needed. -/
def Normal (t : Str) (s : Nat) : Prop :=
  (∃ S < 60, t = dec S ++ "s".toList ∧ s = S) ∨
  (∃ M < 60, ∃ S < 60, 0 < M ∧ t = dec M ++ "m ".toList ++ dec S ++ "s".toList ∧ s = M * 60 + S) ∨
  (∃ H < 24, ∃ M < 60, ∃ S < 60, 0 < H ∧ t = dec H ++ "h ".toList ++ dec M ++ "m ".toList ++ dec S ++ "s".toList ∧ s = H * 3600 + M * 60 + S) ∨
  (∃ D, ∃ H < 24, ∃ M < 60, ∃ S < 60, 0 < D ∧
    t = dec D ++ "d ".toList ++ dec H ++ "h ".toList ++ dec M ++ "m ".toList ++ dec S ++ "s".toList ∧ s = D * 86400 + H * 3600 + M * 60 + S)

theorem units_normal (s : Nat) : Normal (units s) s := by
  unfold Normal units
  simp only
  by_cases h1 : s < 60
  · rw [if_pos h1]; exact .inl ⟨s, h1, rfl, rfl⟩
  rw [if_neg h1]
  by_cases h2 : s / 60 < 60
  · rw [if_pos h2]; exact .inr (.inl ⟨s / 60, h2, s % 60, by omega, by omega, rfl, by omega⟩)
  rw [if_neg h2]
  by_cases h3 : s / 60 / 60 < 24
  · rw [if_pos h3]; exact .inr (.inr (.inl ⟨s / 60 / 60, h3, s / 60 % 60, by omega, s % 60, by omega, by omega, rfl, by omega⟩))
  rw [if_neg h3]
  exact .inr (.inr (.inr ⟨s / 60 / 60 / 24, s / 60 / 60 % 24, by omega, s / 60 % 60, by omega, s % 60, by omega, by omega, rfl, by omega⟩))

theorem units_inj {s s' : Nat} (h : units s = units s') : s = s' := by
  rw [← readBack_units s, h, readBack_units]

theorem units_head (s : Nat) : ∃ c t, units s = c :: t ∧ c.isDigit = true := by
  have hd : ∀ n r, ∃ c t, dec n ++ r = c :: t ∧ c.isDigit = true := by
    intro n r
    obtain ⟨c, t, e⟩ := List.exists_cons_of_ne_nil (Current.Persist.dec_ne_nil n)
    refine ⟨c, t ++ r, by rw [e]; rfl, digits_dec n c (by rw [e]; simp)⟩
  unfold units
  simp only [List.append_assoc]
  split
  · exact hd _ _
  · split
    · exact hd _ _
    · split <;> exact hd _ _

/-- What is printed for an interval: its sign and its whole seconds, in the normal form. -/
theorem interval_spec {rnd : ℚ → ℚ} (R : Correct rnd) (us : Int) (h : us.natAbs < 2 ^ 53) :
    ∃ t, Normal t (us.natAbs / 10 ^ 6) ∧ readBack t = us.natAbs / 10 ^ 6 ∧ interval rnd us = if us < 0 then '-' :: t else t := by
  refine ⟨units (us.natAbs / 10 ^ 6), units_normal _, readBack_units _, ?_⟩
  unfold interval
  by_cases hn : us < 0
  · rw [if_pos hn, if_pos hn, show (-us).toNat = us.natAbs by omega, seconds_exact R _ h]
  · rw [if_neg hn, if_neg hn, show us.toNat = us.natAbs by omega, seconds_exact R _ h]

/-- Without a bound, too, but the seconds may be one off. -/
theorem interval_any {rnd : ℚ → ℚ} (R : Correct rnd) (us : Int) (h : us.natAbs < 2 ^ 63) :
    ∃ s t, Normal t s ∧ readBack t = s ∧ us.natAbs / 10 ^ 6 ≤ s + 1 ∧ s ≤ us.natAbs / 10 ^ 6 + 1 ∧ interval rnd us = if us < 0 then '-' :: t else t := by
  have n := seconds_near R us.natAbs h
  refine ⟨seconds rnd us.natAbs, units (seconds rnd us.natAbs), units_normal _, readBack_units _, n.1, n.2, ?_⟩
  unfold interval
  by_cases hn : us < 0
  · rw [if_pos hn, if_pos hn, show (-us).toNat = us.natAbs by omega]
  · rw [if_neg hn, if_neg hn, show us.toNat = us.natAbs by omega]

/-- Two intervals are printed alike only if they have the same sign and the same whole seconds. -/
theorem interval_eq_iff {rnd : ℚ → ℚ} (R : Correct rnd) (us us' : Int) (h : us.natAbs < 2 ^ 53) (h' : us'.natAbs < 2 ^ 53) :
    interval rnd us = interval rnd us' ↔ (us < 0 ↔ us' < 0) ∧ us.natAbs / 10 ^ 6 = us'.natAbs / 10 ^ 6 := by
  obtain ⟨c, t, e, hc⟩ := units_head (us.natAbs / 10 ^ 6)
  obtain ⟨c', t', e', hc'⟩ := units_head (us'.natAbs / 10 ^ 6)
  have nd : ∀ {c : Char}, c.isDigit = true → c ≠ '-' := by rintro c h rfl; revert h; decide
  have f : ∀ us : Int, us.natAbs < 2 ^ 53 → interval rnd us = if us < 0 then '-' :: units (us.natAbs / 10 ^ 6) else units (us.natAbs / 10 ^ 6) := by
    intro us h
    unfold interval
    by_cases hn : us < 0
    · rw [if_pos hn, if_pos hn, show (-us).toNat = us.natAbs by omega, seconds_exact R _ h]
    · rw [if_neg hn, if_neg hn, show us.toNat = us.natAbs by omega, seconds_exact R _ h]
  rw [f us h, f us' h']
  by_cases hn : us < 0 <;> by_cases hn' : us' < 0
  · rw [if_pos hn, if_pos hn']
    refine ⟨fun q => ⟨⟨fun _ => hn', fun _ => hn⟩, units_inj (List.cons.inj q).2⟩, fun q => by rw [q.2]⟩
  · rw [if_pos hn, if_neg hn', e']
    refine ⟨fun q => absurd (List.cons.inj q).1.symm (nd hc'), fun q => absurd (q.1.1 hn) hn'⟩
  · rw [if_neg hn, if_pos hn', e]
    refine ⟨fun q => absurd (List.cons.inj q).1 (nd hc), fun q => absurd (q.1.2 hn') hn⟩
  · rw [if_neg hn, if_neg hn']
    refine ⟨fun q => ⟨⟨fun x => absurd x hn, fun x => absurd x hn'⟩, units_inj q⟩, fun q => by rw [q.2]⟩

/-- A difference: closer than fifty milliseconds is now; otherwise its whole seconds, without a sign, and which way. -/
theorem difference_spec {rnd : ℚ → ℚ} (R : Correct rnd) (dt : Int) (h : dt.natAbs < 2 ^ 53) :
    (dt.natAbs < 50000 → difference rnd dt = "just now".toList) ∧
    (50000 ≤ dt.natAbs → ∃ t, Normal t (dt.natAbs / 10 ^ 6) ∧ readBack t = dt.natAbs / 10 ^ 6 ∧
      difference rnd dt = t ++ if dt < 0 then " ago".toList else " into the future".toList) := by
  refine ⟨fun hs => by unfold difference; rw [if_pos hs], fun hs => ⟨units (dt.natAbs / 10 ^ 6), units_normal _, readBack_units _, ?_⟩⟩
  unfold difference interval
  rw [if_neg (by omega)]
  by_cases hn : dt < 0
  · rw [if_pos hn, if_pos hn, if_neg (by omega), show (-dt).toNat = dt.natAbs by omega, seconds_exact R _ h]
  · rw [if_neg hn, if_neg hn, if_neg hn, show dt.toNat = dt.natAbs by omega, seconds_exact R _ h]

/-- A day, an hour, a minute and a second; half a second ago has a minus sign and no seconds. -/
example {rnd : ℚ → ℚ} (R : Correct rnd) :
    interval rnd 90061999999 = "1d 1h 1m 1s".toList ∧ interval rnd (-500000) = "-0s".toList ∧ difference rnd (-90061000000) = "1d 1h 1m 1s ago".toList ∧
    difference rnd 49999 = "just now".toList ∧ interval rnd 3600000000 = "1h 0m 0s".toList := by
  have a : interval rnd 90061999999 = units 90061 := by
    unfold interval; rw [if_neg (by decide), seconds_exact R _ (by decide)]; rfl
  have b : interval rnd (-500000) = '-' :: units 0 := by
    unfold interval; rw [if_pos (by decide), seconds_exact R _ (by decide)]; rfl
  have c : interval rnd 90061000000 = units 90061 := by
    unfold interval; rw [if_neg (by decide), seconds_exact R _ (by decide)]; rfl
  have d : interval rnd 3600000000 = units 3600 := by
    unfold interval; rw [if_neg (by decide), seconds_exact R _ (by decide)]; rfl
  refine ⟨by rw [a]; decide +kernel, by rw [b]; decide +kernel, ?_, by unfold difference; rw [if_pos (by decide)], by rw [d]; decide +kernel⟩
  unfold difference
  rw [if_neg (by decide), if_pos (by decide), show (- -90061000000 : Int) = 90061000000 by decide, c]
  decide +kernel

end Current.Strings.HumanTime
