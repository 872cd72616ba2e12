import Verif.Json.Strtod
/-!
C155: short numbers are read as they were written; others may not be.
-/
set_option linter.unusedSimpArgs false
set_option linter.unusedVariables false
namespace Current.Json.Strtod
open Current.Persist (Str dec decInt dec_isDigit dec_ne_nil)
open Current.Json.Grisu (ieee infinity ieee_strictMono ieee_nonneg ieee_zero)

/-! ### the assertion -/

theorem pow10_some (rnd : ℚ → ℚ) (n : Int) (h1 : 0 ≤ n) (h2 : n ≤ 308) : ∃ x, pow10 rnd n = some x :=
  ⟨_, if_pos ⟨h1, h2⟩⟩

theorem fastPath_some (rnd : ℚ → ℚ) (d : F) (e : Int) (h : e ≤ 308) : ∃ x, fastPath rnd d e = some x := by
  unfold fastPath
  split
  · exact ⟨_, rfl⟩
  · split
    · obtain ⟨x, hx⟩ := pow10_some rnd e (by omega) h
      exact ⟨_, by rw [hx]; rfl⟩
    · obtain ⟨x, hx⟩ := pow10_some rnd (-e) (by omega) (by omega)
      exact ⟨_, by rw [hx]; rfl⟩

theorem strtodNormal_some (rnd : ℚ → ℚ) (d : F) (p : Int) (h : p ≤ 308) : ∃ x, strtodNormal rnd d p = some x := by
  unfold strtodNormal
  split
  · obtain ⟨x, hx⟩ := fastPath_some rnd d (-308) (by omega)
    obtain ⟨y, hy⟩ := fastPath_some rnd x (p + 308) (by omega)
    exact ⟨y, by rw [hx]; exact hy⟩
  · exact fastPath_some rnd d p h

theorem finish_ok (rnd : ℚ → ℚ) (m : Bool) (d : F) (p : Int) (r : Str) (h : p ≤ 308) : finish rnd m d p r ≠ .assertion := by
  unfold finish
  obtain ⟨x, hx⟩ := strtodNormal_some rnd d p h
  rw [hx]
  cases x <;> simp

theorem expPos_le (m : Int) : ∀ (s : Str) (x y : Int) (r : Str), expPos m x s = some (y, r) → y = x ∨ y ≤ m := by
  intro s
  induction s with
  | nil => intro x y r h; simp [expPos] at h; exact .inl h.1.symm
  | cons c s ih =>
    intro x y r h
    rw [expPos] at h
    split at h
    · simp only at h
      split at h
      · cases h
      · rename_i hc
        rcases ih _ _ _ h with e | e
        · right; omega
        · exact .inr e
    · simp at h; exact .inl h.1.symm

theorem digit_range {c : Char} (h : isDigit c = true) : 0 ≤ (c.toNat : Int) - 48 ∧ (c.toNat : Int) - 48 ≤ 9 := by
  rw [isDigit_eq] at h
  have := digit_bounds h
  omega

theorem expNeg_nonneg (m : Int) : ∀ (s : Str) (x : Int), 0 ≤ x → 0 ≤ (expNeg m x s).1 := by
  intro s
  induction s with
  | nil => intro x h; exact h
  | cons c s ih =>
    intro x h
    rw [expNeg]
    split
    · rename_i hc
      have := digit_range hc
      simp only
      split
      · show 0 ≤ x * 10 + ((c.toNat : Int) - 48); omega
      · exact ih _ (by omega)
    · exact h

theorem expPart_le (e : Int) (he : e ≤ 0) (s : Str) (x : Int) (r : Str) (h : expPart e s = .ok (x, r)) : x + e ≤ 308 := by
  have hpos : ∀ c t, expPart.pos e c t = .ok (x, r) → x + e ≤ 308 := by
    intro c t h
    unfold expPart.pos at h
    split at h
    · rename_i hc
      split at h
      · rename_i h'
        injection h with h
        injection h with h1 h2
        subst h1 h2
        have := digit_range hc
        rcases expPos_le _ _ _ _ _ h' with e1 | e1 <;> omega
      · cases h
    · cases h
  unfold expPart at h
  split at h
  · split at h
    · rename_i hc
      injection h with h
      injection h with h1 h2
      rename_i c t
      have := expNeg_nonneg ((e + 2147483639) / 10) t ((c.toNat : Int) - 48) (digit_range hc).1
      omega
    · cases h
  · exact hpos _ _ h
  · exact hpos _ _ h
  · cases h

theorem expPart_ne (e : Int) (s : Str) (r : Res) (h : expPart e s = .error r) : r ≠ .assertion := by
  have hpos : ∀ c t, expPart.pos e c t = .error r → r ≠ .assertion := by
    intro c t h
    unfold expPart.pos at h
    split at h
    · split at h
      · cases h
      · injection h with h; subst h; simp
    · injection h with h; subst h; simp
  unfold expPart at h
  split at h
  · split at h
    · cases h
    · injection h with h; subst h; simp
  · exact hpos _ _ h
  · exact hpos _ _ h
  · injection h with h; subst h; simp

theorem afterFrac_ok (rnd : ℚ → ℚ) (m : Bool) (i : Nat) (d : Option F) (e : Int) (s : Str) (he : e ≤ 0) : afterFrac rnd m i d e s ≠ .assertion := by
  unfold afterFrac
  split
  · split
    · split
      · rename_i h; exact expPart_ne _ _ _ h
      · rename_i h; exact finish_ok _ _ _ _ _ (expPart_le e he _ _ _ h)
    · split
      · exact finish_ok _ _ _ _ _ (by omega)
      · simp
  · split
    · exact finish_ok _ _ _ _ _ (by omega)
    · simp

theorem frac64_le (s : Str) : ∀ i e g, (frac64 i e g s).2.1 ≤ e := by
  induction s with
  | nil => intro i e g; exact le_refl _
  | cons c s ih =>
    intro i e g
    rw [frac64]
    split
    · split
      · exact le_refl _
      · exact le_trans (ih _ _ _) (by omega)
    · exact le_refl _

theorem fracD_le (rnd : ℚ → ℚ) (s : Str) : ∀ d e g, (fracD rnd d e g s).2.1 ≤ e := by
  induction s with
  | nil => intro d e g; exact le_refl _
  | cons c s ih =>
    intro d e g
    rw [fracD]
    split
    · split
      · exact le_trans (ih _ _ _) (by omega)
      · exact ih _ _ _
    · exact le_refl _

/-- The table of powers is never read out of its bounds, whatever the text. -/
theorem pow10_in_bounds (rnd : ℚ → ℚ) (s : Str) : parse rnd s ≠ .assertion := by
  unfold parse
  simp only
  split
  · simp
  · rename_i i over sig s' h
    generalize hds : (if over = true then _ else _ : Option F × Str) = ds
    obtain ⟨d, t⟩ := ds
    simp only
    split
    · split
      · rename_i c t' hc
        cases d with
        | some d =>
          simp only
          exact afterFrac_ok _ _ _ _ _ _ (fracD_le rnd _ _ _ _)
        | none =>
          simp only
          exact afterFrac_ok _ _ _ _ _ _ (le_trans (fracD_le rnd _ _ _ _) (frac64_le _ _ _ _))
      · simp
    · simp
    · exact afterFrac_ok _ _ _ _ _ _ (le_refl _)

/-! ### representable numbers -/

/-- Some finite `double` is this number. -/
def Repr (q : ℚ) : Prop := ∃ a < infinity, ieee a = q

theorem repr_lt {q : ℚ} (h : Repr q) : q < overflow ∧ 0 ≤ q := by
  obtain ⟨a, ha, rfl⟩ := h
  refine ⟨?_, ieee_nonneg a⟩
  have h1 : ieee a ≤ ieee (infinity - 1) := ieee_strictMono.monotone (by omega)
  have h2 : ieee (infinity - 1) < overflow := by
    have e : ieee (infinity - 1) = ((2 ^ 53 - 1 : Nat) : ℚ) * 2 ^ (971 : Int) := by
      unfold ieee infinity
      rw [if_neg (by decide)]
      rfl
    rw [e, show (971 : Int) = ((971 : Nat) : Int) from rfl, zpow_natCast]
    unfold overflow
    have e1 : (2 : ℚ) ^ 1024 = 2 ^ 54 * 2 ^ 970 := by rw [← pow_add]
    have e2 : (2 : ℚ) ^ 971 = 2 * 2 ^ 970 := by rw [← pow_succ']
    rw [e1, e2]
    have h0 : (0 : ℚ) < 2 ^ 970 := by positivity
    clear e e1 e2 h1 ha
    generalize (2 : ℚ) ^ 970 = t at *
    norm_num
    linarith
  exact lt_of_le_of_lt h1 h2

theorem Correct.exact {rnd : ℚ → ℚ} (R : Correct rnd) {q : ℚ} (h : Repr q) : rnd q = q := by
  obtain ⟨h1, h2⟩ := repr_lt h
  obtain ⟨a, ha, rfl⟩ := h
  obtain ⟨b, _, hb, hn⟩ := R.nearest _ h2 h1
  have := hn a (le_of_lt ha)
  rw [sub_self, abs_zero] at this
  have := abs_eq_zero.1 (le_antisymm this (abs_nonneg _))
  rw [hb]; linarith

theorem fl_exact {rnd : ℚ → ℚ} (R : Correct rnd) {q : ℚ} (h : Repr q) : fl rnd q = .fin q := by
  unfold fl
  rw [if_neg (not_le.2 (repr_lt h).1), R.exact h]

/-- Fifty-three bits and an exponent in range are representable. -/
theorem repr_scaled (m : Nat) (hm : m < 2 ^ 53) (e : Nat) (he : e ≤ 971) : Repr ((m : ℚ) * 2 ^ e) := by
  by_cases h0 : m = 0
  · subst h0; exact ⟨0, by decide, by rw [ieee_zero]; simp⟩
  · obtain ⟨l, hl⟩ : ∃ l, l = Nat.log2 m := ⟨_, rfl⟩
    have l1 : 2 ^ l ≤ m := by rw [hl]; exact Nat.log2_self_le h0
    have l2 : m < 2 ^ (l + 1) := by rw [hl]; exact Nat.lt_log2_self
    have l52 : l ≤ 52 := by
      by_contra h
      have : 2 ^ 53 ≤ 2 ^ l := Nat.pow_le_pow_right (by decide) (by omega)
      omega
    have hs1 : 2 ^ 52 ≤ m * 2 ^ (52 - l) := by
      have := Nat.mul_le_mul_right (2 ^ (52 - l)) l1
      rwa [← pow_add, Nat.add_sub_cancel' l52] at this
    have hs2 : m * 2 ^ (52 - l) < 2 ^ 53 := by
      have := Nat.mul_lt_mul_of_pos_right l2 (show 0 < 2 ^ (52 - l) by positivity)
      rwa [← pow_add, show l + 1 + (52 - l) = 53 by omega] at this
    refine ⟨(e + 1075 - (52 - l)) * 2 ^ 52 + (m * 2 ^ (52 - l) - 2 ^ 52), by unfold infinity; omega, ?_⟩
    unfold ieee
    have d1 : ((e + 1075 - (52 - l)) * 2 ^ 52 + (m * 2 ^ (52 - l) - 2 ^ 52)) / 2 ^ 52 = e + 1075 - (52 - l) := by omega
    have d2 : ((e + 1075 - (52 - l)) * 2 ^ 52 + (m * 2 ^ (52 - l) - 2 ^ 52)) % 2 ^ 52 = m * 2 ^ (52 - l) - 2 ^ 52 := by omega
    rw [d1, d2, if_neg (by omega), show 2 ^ 52 + (m * 2 ^ (52 - l) - 2 ^ 52) = m * 2 ^ (52 - l) by omega]
    have d3 : (((e + 1075 - (52 - l) : Nat) : Int) - 1075) = (e : Int) - ((52 - l : Nat) : Int) := by omega
    rw [d3, zpow_sub₀ (by norm_num), zpow_natCast, zpow_natCast]
    push_cast
    field_simp

theorem repr_nat (n : Nat) (h : n < 2 ^ 53) : Repr (n : ℚ) := by
  have := repr_scaled n h 0 (by omega)
  simpa using this

theorem repr_even (n : Nat) (h : n < 2 ^ 54) (h2 : n % 2 = 0) : Repr (n : ℚ) := by
  have := repr_scaled (n / 2) (by omega) 1 (by omega)
  have e : ((n / 2 : Nat) : ℚ) * 2 ^ 1 = (n : ℚ) := by
    have : n = n / 2 * 2 := by omega
    calc ((n / 2 : Nat) : ℚ) * 2 ^ 1 = ((n / 2 * 2 : Nat) : ℚ) := by push_cast; ring
      _ = n := by rw [← this]
  rwa [e] at this

/-- The powers of ten up to 10^22. -/
theorem repr_pow10 (n : Nat) (h : n ≤ 22) : Repr ((10 : ℚ) ^ n) := by
  have h5 : 5 ^ n < 2 ^ 53 := lt_of_le_of_lt (Nat.pow_le_pow_right (by decide) h) (by decide)
  have := repr_scaled (5 ^ n) h5 n (by omega)
  have e : ((5 ^ n : Nat) : ℚ) * 2 ^ n = 10 ^ n := by
    push_cast
    rw [← mul_pow]; norm_num
  rwa [e] at this

/-! ### reading short numbers -/

theorem intDigits_eq (m : Bool) (s : Str) :
    parseIntPart m s = (intDigits m s).map fun x => if x.2.1 then (none, skipDigits x.2.2.2) else (some x.1, x.2.2.2) := by
  cases s with
  | nil => rfl
  | cons c s =>
    by_cases h0 : c = '0'
    · simp [parseIntPart, intDigits, h0]
    · by_cases h1 : '1' ≤ c ∧ c ≤ '9'
      · simp only [parseIntPart, intDigits, h0, if_false, if_pos h1]
        generalize accumulate (if m = true then 214748364 else 429496729) _ _ _ = x
        obtain ⟨i, r, more⟩ := x
        cases more
        · simp
        · simp only [if_true]
          generalize accumulate _ _ i r = y
          obtain ⟨i64, r', over⟩ := y
          cases over <;> simp
      · simp only [parseIntPart, intDigits, h0, if_false, if_neg h1, Option.map_none]

theorem intDigits_complete (m : Bool) {ds r : Str} (hi : IntText ds) (hr : NoDigit r) (h : num ds 0 ≤ maxAbs m) :
    ∃ g, intDigits m (ds ++ r) = some (num ds 0, false, g, r) := by
  have h1 := parseIntPart_complete m hi hr
  rw [if_pos h, intDigits_eq] at h1
  cases hd : intDigits m (ds ++ r) with
  | none => rw [hd] at h1; cases h1
  | some x =>
    obtain ⟨i, o, g, r'⟩ := x
    rw [hd] at h1
    simp only [Option.map_some, Option.some.injEq] at h1
    cases o
    · simp only [Bool.false_eq_true, if_false, Prod.mk.injEq, Option.some.injEq] at h1
      obtain ⟨rfl, rfl⟩ := h1
      exact ⟨g, rfl⟩
    · simp at h1

theorem frac64_spec {fr r : Str} (hd : Digits fr) (hr : NoDigit r) : ∀ i e g, num fr i < 10 ^ 16 →
    ∃ g', frac64 i e g (fr ++ r) = (num fr i, e - fr.length, g', r) := by
  induction fr with
  | nil =>
    intro i e g _
    refine ⟨g, ?_⟩
    cases r with
    | nil => simp [frac64, num_nil]
    | cons c r =>
      have := hr c r rfl
      rw [← isDigit_eq] at this
      rw [List.nil_append, frac64, if_neg (by rw [this]; simp)]
      simp [num_nil]
  | cons c fr ih =>
    intro i e g hN
    have hc := hd c (by simp)
    rw [num_cons] at hN
    have hle := le_num fr (i * 10 + (c.toNat - 48))
    rw [List.cons_append, frac64, if_pos (by rw [isDigit_eq]; exact hc), if_neg (by omega)]
    simp only
    obtain ⟨g', hg'⟩ := ih (fun x hx => hd x (by simp [hx])) (i * 10 + (c.toNat - 48)) (e - 1) (if i * 10 + (c.toNat - 48) ≠ 0 then g + 1 else g) hN
    refine ⟨g', ?_⟩
    rw [hg', num_cons]
    congr 2
    push_cast [List.length_cons]
    ring

theorem fracD_stop (rnd : ℚ → ℚ) (d : F) (e : Int) (g : Nat) {r : Str} (hr : NoDigit r) : fracD rnd d e g r = (d, e, r) := by
  cases r with
  | nil => rfl
  | cons c r =>
    have := hr c r rfl
    rw [← isDigit_eq] at this
    rw [fracD, if_neg (by rw [this]; simp)]

theorem expPos_spec (m : Int) {ds : Str} (hd : Digits ds) : ∀ x : Nat, (num ds x : Int) ≤ m → expPos m x ds = some ((num ds x : Int), []) := by
  induction ds with
  | nil => intro x _; rfl
  | cons c ds ih =>
    intro x h
    have hc := hd c (by simp)
    have hb := digit_bounds hc
    rw [num_cons] at h
    have hle := le_num ds (x * 10 + (c.toNat - 48))
    rw [expPos, if_pos (by rw [isDigit_eq]; exact hc)]
    have e : (x : Int) * 10 + ((c.toNat : Int) - 48) = ((x * 10 + (c.toNat - 48) : Nat) : Int) := by omega
    simp only [e]
    rw [if_neg (by omega), num_cons]
    exact ih (fun y hy => hd y (by simp [hy])) _ h

theorem expNeg_spec (m : Int) {ds : Str} (hd : Digits ds) : ∀ x : Nat, (num ds x : Int) ≤ m → expNeg m x ds = ((num ds x : Int), []) := by
  induction ds with
  | nil => intro x _; rfl
  | cons c ds ih =>
    intro x h
    have hc := hd c (by simp)
    have hb := digit_bounds hc
    rw [num_cons] at h
    have hle := le_num ds (x * 10 + (c.toNat - 48))
    rw [expNeg, if_pos (by rw [isDigit_eq]; exact hc)]
    have e : (x : Int) * 10 + ((c.toNat : Int) - 48) = ((x * 10 + (c.toNat - 48) : Nat) : Int) := by omega
    simp only [e]
    rw [if_neg (by omega), num_cons]
    exact ih (fun y hy => hd y (by simp [hy])) _ h

theorem num_dec (n : Nat) : num (dec n) 0 = n := Nat.ofDigitChars_ten_toDigits

theorem digits_dec (n : Nat) : Digits (dec n) := fun c hc => dec_isDigit hc

theorem expPart_spec (e : Int) (he : e ≤ 0) (hel : -1000 ≤ e) (x : Int) (h1 : -308 ≤ x) (h2 : x ≤ 308) : expPart e (decInt x) = .ok (x, []) := by
  have first : ∀ n : Nat, ∃ c cs, dec n = c :: cs ∧ c.isDigit = true ∧ num cs (c.toNat - 48) = n ∧ Digits cs := by
    intro n
    cases hd : dec n with
    | nil => exact absurd hd (dec_ne_nil n)
    | cons c cs =>
      have h1 := digits_dec n c (by rw [hd]; simp)
      refine ⟨c, cs, rfl, h1, ?_, fun y hy => digits_dec n y (by rw [hd]; simp [hy])⟩
      have := num_dec n
      rw [hd, num_cons] at this
      simpa using this
  cases x with
  | ofNat n =>
    obtain ⟨c, cs, hd, hc, hn, hcs⟩ := first n
    have e1 : decInt (Int.ofNat n) = c :: cs := by rw [← hd]; rfl
    have hb := digit_bounds hc
    have hm : c ≠ '-' := by rintro rfl; revert hc; decide
    have hp : c ≠ '+' := by rintro rfl; revert hc; decide
    have e2 : expPart e (c :: cs) = expPart.pos e c cs := by
      unfold expPart
      split
      · rename_i h; injection h with h _; exact absurd h hm
      · rename_i h; injection h with h _; exact absurd h hp
      · rename_i h; injection h with h h'; rw [h, h']
      · rename_i h; cases h
    rw [e1, e2]
    unfold expPart.pos
    rw [if_pos (by rw [isDigit_eq]; exact hc)]
    have e3 : ((c.toNat : Int) - 48) = ((c.toNat - 48 : Nat) : Int) := by omega
    rw [e3, expPos_spec (308 - e) hcs (c.toNat - 48) (by rw [hn]; simp at h2; omega), hn]
    rfl
  | negSucc n =>
    obtain ⟨c, cs, hd, hc, hn, hcs⟩ := first (n + 1)
    have e1 : decInt (Int.negSucc n) = '-' :: c :: cs := by rw [← hd]; rfl
    have hb := digit_bounds hc
    rw [e1]
    have e3 : ((c.toNat : Int) - 48) = ((c.toNat - 48 : Nat) : Int) := by omega
    unfold expPart
    simp only
    rw [if_pos (by rw [isDigit_eq]; exact hc), e3, expNeg_spec _ hcs (c.toNat - 48) (by rw [hn]; omega), hn]
    rfl

theorem short_lt {N : Nat} (hN2 : N < 10 ^ 16) {p : Int} (h2 : p ≤ 22) : (N : ℚ) * 10 ^ p < overflow := by
  have a1 : (N : ℚ) ≤ 10 ^ 16 := by exact_mod_cast le_of_lt hN2
  have a2 : (10 : ℚ) ^ p ≤ 10 ^ (22 : Int) := zpow_le_zpow_right₀ (by norm_num) h2
  have a3 : (N : ℚ) * 10 ^ p ≤ 10 ^ 16 * 10 ^ (22 : Int) := mul_le_mul a1 a2 (le_of_lt (zpow_pos (by norm_num) _)) (by norm_num)
  have a4 : (10 : ℚ) ^ 16 * 10 ^ (22 : Int) < 2 ^ 130 := by norm_num
  have a5 : (2 : ℚ) ^ 130 < overflow := by
    unfold overflow
    have e1 : (2 : ℚ) ^ 1024 = 2 ^ 54 * 2 ^ 970 := by rw [← pow_add]
    have e2 : (2 : ℚ) ^ 970 = 2 ^ 840 * 2 ^ 130 := by rw [← pow_add]
    have h0 : (1 : ℚ) ≤ 2 ^ 840 := one_le_pow₀ (by norm_num)
    have h3 : (2 : ℚ) ^ 130 ≤ 2 ^ 970 := by
      rw [e2]; exact le_mul_of_one_le_left (by positivity) h0
    have h4 : (0 : ℚ) < 2 ^ 970 := by positivity
    rw [e1]
    clear e1 e2 h0 a1 a2 a3 a4
    generalize (2 : ℚ) ^ 970 = t at *
    generalize (2 : ℚ) ^ 130 = w at *
    norm_num
    linarith
  linarith

theorem strtodNormal_short {rnd : ℚ → ℚ} (R : Correct rnd) (N : Nat) (hN : Repr (N : ℚ)) (hN2 : N < 10 ^ 16) (p : Int) (h1 : -22 ≤ p) (h2 : p ≤ 22) :
    strtodNormal rnd (fl rnd N) p = some (.fin (rnd ((N : ℚ) * 10 ^ p))) := by
  have hlt := short_lt hN2 h2
  rw [fl_exact R hN]
  unfold strtodNormal
  rw [if_neg (by omega)]
  unfold fastPath
  rw [if_neg (by omega)]
  have hfl : fl rnd ((N : ℚ) * 10 ^ p) = .fin (rnd ((N : ℚ) * 10 ^ p)) := by
    unfold fl; rw [if_neg (not_le.2 hlt)]
  split
  · obtain ⟨n, rfl⟩ := Int.eq_ofNat_of_zero_le (show 0 ≤ p by omega)
    unfold pow10
    rw [if_pos (by omega), Int.toNat_natCast, fl_exact R (repr_pow10 n (by omega))]
    rw [← hfl, zpow_natCast]; rfl
  · obtain ⟨n, hn⟩ := Int.eq_ofNat_of_zero_le (show 0 ≤ -p by omega)
    unfold pow10
    rw [hn, if_pos (by omega), Int.toNat_natCast, fl_exact R (repr_pow10 n (by omega))]
    rw [← hfl, show p = -(n : Int) by omega, zpow_neg, zpow_natCast, ← div_eq_mul_inv]; rfl

/-- A number of few digits and a small exponent is rounded once: to the nearest `double`. -/
theorem parse_short {rnd : ℚ → ℚ} (R : Correct rnd) (neg : Bool) (ip fr : Str) (ex : Option Int) (hi : IntText ip) (hf : Digits fr)
    (hreal : fr = [] → ex ≠ none) (hN : Repr (num (ip ++ fr) 0 : ℚ)) (hN2 : num (ip ++ fr) 0 < 10 ^ 16) (hl : fr.length ≤ 1000)
    (hx : ∀ x, ex = some x → -308 ≤ x ∧ x ≤ 308) (h1 : -22 ≤ ex.getD 0 - fr.length) (h2 : ex.getD 0 - (fr.length : Int) ≤ 22) :
    parse rnd (minusText neg ++ (ip ++ (fracText fr ++ expText ex))) = .dbl neg (rnd (decimal ip fr ex)) [] := by
  have hsplit : num (ip ++ fr) 0 = num fr (num ip 0) := num_append _ _ _
  have hipN : num ip 0 ≤ num (ip ++ fr) 0 := by rw [hsplit]; exact le_num _ _
  have hmax : num ip 0 ≤ maxAbs neg := by
    unfold maxAbs
    split <;> omega
  have hexp : NoDigit (expText ex) := by
    intro c t h
    cases ex <;> simp [expText] at h
    rw [← h.1]; rfl
  have hrest : NoDigit (fracText fr ++ expText ex) := by
    intro c t h
    unfold fracText at h
    split at h
    · exact hexp c t (by simpa using h)
    · simp only [List.cons_append, List.cons.injEq] at h
      rw [← h.1]; rfl
  obtain ⟨g, hg⟩ := intDigits_complete neg hi hrest hmax
  have key : ∀ d : Option F, d.getD (fl rnd (num ip 0 : ℚ)) = fl rnd (num (ip ++ fr) 0 : ℚ) → (d = none → ex ≠ none) →
      afterFrac rnd neg (num ip 0) d (-(fr.length : Int)) (expText ex) = .dbl neg (rnd (decimal ip fr ex)) [] := by
    intro d hd hne
    have hfin : ∀ x : Int, x = ex.getD 0 → finish rnd neg (fl rnd (num (ip ++ fr) 0 : ℚ)) (x + -(fr.length : Int)) [] = .dbl neg (rnd (decimal ip fr ex)) [] := by
      intro x hx
      unfold finish
      rw [strtodNormal_short R _ hN hN2 _ (by omega) (by omega), hx]
      rfl
    cases ex with
    | none =>
      cases d with
      | none => exact absurd rfl (hne rfl)
      | some d =>
        simp only [Option.getD_some] at hd
        have := hfin 0 rfl
        rw [zero_add] at this
        unfold afterFrac
        simp only [expText]
        rw [hd]; exact this
    | some x =>
      obtain ⟨x1, x2⟩ := hx x rfl
      unfold afterFrac
      simp only [expText, true_or, if_true]
      rw [expPart_spec _ (by omega) (by omega) x x1 x2]
      simp only
      rw [hd]
      exact hfin x rfl
  unfold parse
  rw [takeMinus_text neg hi]
  simp only [hg, Bool.false_eq_true, if_false]
  by_cases hfr : fr = []
  · subst hfr
    have e0 : fracText [] ++ expText ex = expText ex := rfl
    rw [e0]
    have := key none (by simp) (fun _ => hreal rfl)
    simp only [List.length_nil, Nat.cast_zero, neg_zero] at this
    cases hex : ex with
    | none => exact absurd hex (hreal rfl)
    | some x =>
      rw [hex] at this
      simp only [expText] at this ⊢
      exact this
  · cases fr with
    | nil => exact absurd rfl hfr
    | cons c fr =>
      have e0 : fracText (c :: fr) ++ expText ex = '.' :: c :: (fr ++ expText ex) := by simp [fracText]
      rw [e0]
      simp only
      rw [if_pos (by rw [isDigit_eq]; exact hf c (by simp))]
      obtain ⟨g', hg'⟩ := frac64_spec hf hexp (num ip 0) 0 g (by rw [← hsplit]; exact hN2)
      rw [List.cons_append] at hg'
      rw [hg']
      simp only
      rw [fracD_stop rnd _ _ _ hexp]
      simp only
      rw [← hsplit, zero_sub]
      exact key (some _) rfl (by simp)

end Current.Json.Strtod
