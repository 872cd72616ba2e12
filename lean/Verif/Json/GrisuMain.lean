import Verif.Json.GrisuPowers
/-!
C154: the digits lie strictly between the two half-way points.
-/
set_option linter.unusedSimpArgs false
set_option linter.unusedVariables false
namespace Current.Json.Grisu

theorem exactPower_spec (i : Nat) (hi : i < 87) :
    2 ^ 63 ≤ (cached i).f ∧ (cached i).f < 2 ^ 64 ∧
    ((cached i).f : ℚ) ≤ (10 : ℚ) ^ (8 * (i : Int) - 348) * (2 : ℚ) ^ (-(cached i).e) + 1 / 2 ∧
    (10 : ℚ) ^ (8 * (i : Int) - 348) * (2 : ℚ) ^ (-(cached i).e) ≤ ((cached i).f : ℚ) + 1 / 2 := by
  have h := List.all_eq_true.1 exactPower_all i (List.mem_range.2 hi)
  unfold exactPower at h
  simp only [Bool.and_eq_true, decide_eq_true_eq] at h
  obtain ⟨⟨⟨⟨h1, h2⟩, h3⟩, h4⟩, h5⟩ := h
  have eF : (cached i).f = cachedF.getD i 0 := rfl
  have eE : (cached i).e = cachedE.getD i 0 := rfl
  rw [← eF] at h2 h3 h4 h5
  rw [← eE] at h1 h2 h3
  generalize (cached i).f = F at *
  generalize (cached i).e = E at *
  obtain ⟨q, hq⟩ : ∃ q : Nat, E = q - 1220 := ⟨(E + 1220).toNat, by omega⟩
  subst hq
  rw [show ((q : Int) - 1220 + 1220).toNat = q by omega] at h2 h3
  have e1 : (10 : ℚ) ^ (8 * (i : Int) - 348) * (2 : ℚ) ^ (-((q : Int) - 1220)) = (10 ^ (8 * i) * 2 ^ 1220) / (2 ^ q * 10 ^ 348) := by
    rw [show -((q : Int) - 1220) = ((1220 : Nat) : Int) - (q : Int) by push_cast; ring,
      show 8 * (i : Int) - 348 = ((8 * i : Nat) : Int) - ((348 : Nat) : Int) by push_cast; ring,
      zpow_sub₀ (by norm_num), zpow_sub₀ (by norm_num), zpow_natCast, zpow_natCast, zpow_natCast, zpow_natCast]
    rw [div_mul_div_comm, mul_comm ((10 : ℚ) ^ 348)]
  refine ⟨h4, h5, ?_, ?_⟩
  · have h2' : (2 : ℚ) * F * (2 ^ q * 10 ^ 348) ≤ 2 * (10 ^ (8 * i) * 2 ^ 1220) + 2 ^ q * 10 ^ 348 := by exact_mod_cast h2
    rw [e1]
    have hQ : (0 : ℚ) < 2 ^ q * 10 ^ 348 := by positivity
    generalize (2 : ℚ) ^ q * 10 ^ 348 = Q at *
    generalize (10 : ℚ) ^ (8 * i) * 2 ^ 1220 = P at *
    have : (F : ℚ) - 1 / 2 ≤ P / Q := by
      rw [le_div_iff₀ hQ]; linarith
    linarith
  · have h3' : 2 * (10 ^ (8 * i) * 2 ^ 1220) ≤ (2 : ℚ) * F * (2 ^ q * 10 ^ 348) + 2 ^ q * 10 ^ 348 := by exact_mod_cast h3
    rw [e1]
    have hQ : (0 : ℚ) < 2 ^ q * 10 ^ 348 := by positivity
    generalize (2 : ℚ) ^ q * 10 ^ 348 = Q at *
    generalize (10 : ℚ) ^ (8 * i) * 2 ^ 1220 = P at *
    rw [div_le_iff₀ hQ]
    linarith

/-- Rounding of the product, and of the power: less than one in total. -/
theorem scaled_spec (f F h : Nat) (ρ : ℚ) (hf : f < 2 ^ 64) (h1 : h * 2 ^ 64 ≤ f * F + 2 ^ 63) (h2 : f * F < h * 2 ^ 64 + 2 ^ 63)
    (r1 : (F : ℚ) ≤ ρ + 1 / 2) (r2 : ρ ≤ (F : ℚ) + 1 / 2) : (h : ℚ) < f * ρ / 2 ^ 64 + 1 ∧ f * ρ / 2 ^ 64 < (h : ℚ) + 1 := by
  have hf' : (f : ℚ) < 2 ^ 64 := by exact_mod_cast hf
  have hf0 : (0 : ℚ) ≤ f := Nat.cast_nonneg f
  have h1' : (h : ℚ) * 2 ^ 64 ≤ f * F + 2 ^ 63 := by exact_mod_cast h1
  have h2' : (f : ℚ) * F < h * 2 ^ 64 + 2 ^ 63 := by exact_mod_cast h2
  have a1 : (f : ℚ) * F ≤ f * ρ + f * (1 / 2) := by rw [← mul_add]; exact mul_le_mul_of_nonneg_left r1 hf0
  have a2 : (f : ℚ) * ρ ≤ f * F + f * (1 / 2) := by rw [← mul_add]; exact mul_le_mul_of_nonneg_left r2 hf0
  generalize (f : ℚ) * ρ = x at *
  generalize (f : ℚ) * F = y at *
  clear hf h1 h2 r1 r2
  generalize (f : ℚ) = fq at *
  generalize (h : ℚ) = hq at *
  norm_num at *
  constructor <;> linarith

theorem main_bounds {rnd : ℚ → ℚ} (R : Rounding rnd) (u f : Nat) (e : Int) (hof : ofBits u = ⟨f, e⟩) (h0 : 0 < f) (h1 : f < 2 ^ 53)
    (he1 : -1074 ≤ e) (he2 : e ≤ 971) :
    ∃ r : List Nat × Int, grisu2 rnd u = some (r.1.reverse.map Char.ofNat, r.2) ∧ Good r.1 ∧ 0 < val r.1 ∧ val r.1 < 10 ^ 17 ∧
      (if f = 2 ^ 52 then (4 * (f : ℚ) - 1) * 2 ^ (e - 2) else (2 * (f : ℚ) - 1) * 2 ^ (e - 1)) < (val r.1 : ℚ) * 10 ^ r.2 ∧
      (val r.1 : ℚ) * 10 ^ r.2 < (2 * (f : ℚ) + 1) * 2 ^ (e - 1) := by
  obtain ⟨s, s1, s2, p1, p2, hb⟩ := boundaries_spec f e h0 h1
  obtain ⟨fm, hfm⟩ : ∃ fm, fm = (if f = 2 ^ 52 then (4 * f - 1) * 2 ^ (s - 1) else (2 * f - 1) * 2 ^ s) := ⟨_, rfl⟩
  obtain ⟨fp, hfp⟩ : ∃ fp, fp = (2 * f + 1) * 2 ^ s := ⟨_, rfl⟩
  obtain ⟨ep, hep⟩ : ∃ ep, ep = e - 1 - (s : Int) := ⟨_, rfl⟩
  rw [← hfm, ← hfp, ← hep] at hb
  rw [← hfp] at p1 p2
  -- the gap
  have hs2 : 2 ^ s = 2 * 2 ^ (s - 1) := by rw [← pow_succ']; congr 1; omega
  have hs9 : 2 ^ 9 ≤ 2 ^ (s - 1) := Nat.pow_le_pow_right (by decide) (by omega)
  have gap : fm + 1536 ≤ fp ∧ fp ≤ 2 ^ 53 * (fp - fm) ∧ fm < fp := by
    rw [hfm, hfp, hs2]
    generalize 2 ^ (s - 1) = t at *
    split
    · rename_i hc
      subst hc
      have e1 : (2 * 2 ^ 52 + 1) * (2 * t) = (4 * 2 ^ 52 - 1) * t + 3 * t := by omega
      omega
    · have e1 : (2 * f + 1) * (2 * t) = (2 * f - 1) * (2 * t) + 4 * t := by
        obtain ⟨g, rfl⟩ : ∃ g, f = g + 1 := ⟨f - 1, by omega⟩
        rw [show 2 * (g + 1) - 1 = 2 * g + 1 by omega]; ring
      have e2 : (2 * f + 1) * (2 * t) ≤ (2 ^ 54) * (2 * t) := Nat.mul_le_mul_right _ (by omega)
      omega
  -- the power
  have hep1 : -1137 ≤ ep := by omega
  have hep2 : ep ≤ 960 := by omega
  have hci := cachedIndex_spec R ep hep1 hep2
  have hc := check_of ep hep1 hep2
  unfold check at hc
  simp only [Bool.and_eq_true, decide_eq_true_eq] at hc
  obtain ⟨⟨⟨⟨-, c1⟩, c2⟩, c3⟩, c4⟩ := hc
  obtain ⟨i, hi⟩ : ∃ i, i = (kOf ep / 8 + 1).toNat := ⟨_, rfl⟩
  rw [← hi] at hci c1 c2 c3 c4
  obtain ⟨x1, x2, x3, x4⟩ := exactPower_spec i c1
  have eF : (cached i).f = cachedF.getD i 0 := rfl
  have eE : (cached i).e = cachedE.getD i 0 := rfl
  rw [← eF] at c4
  rw [← eE] at c2 c3 c4
  obtain ⟨sh, hsh⟩ : ∃ sh : Nat, (sh : Int) = -(ep + (cached i).e + 64) := ⟨(-(ep + (cached i).e + 64)).toNat, by omega⟩
  rw [show (-(ep + (cached i).e + 64)).toNat = sh by omega] at c4
  rw [← hsh] at c2 c3
  obtain ⟨mp1, mp2, mp3, mp4⟩ := mul_spec ⟨fp, ep⟩ (cached i) p2 x2
  obtain ⟨mm1, mm2, mm3, mm4⟩ := mul_spec ⟨fm, ep⟩ (cached i) (by show fm < 2 ^ 64; omega) x2
  obtain ⟨hp, hhp⟩ : ∃ h, h = (mul ⟨fp, ep⟩ (cached i)).f := ⟨_, rfl⟩
  obtain ⟨hm, hhm⟩ : ∃ h, h = (mul ⟨fm, ep⟩ (cached i)).f := ⟨_, rfl⟩
  rw [← hhp] at mp2 mp3 mp4
  rw [← hhm] at mm2 mm3 mm4
  simp only at mp1 mp3 mp4 mm1 mm3 mm4
  obtain ⟨ρ, hρ⟩ : ∃ ρ : ℚ, ρ = (10 : ℚ) ^ (8 * (i : Int) - 348) * (2 : ℚ) ^ (-(cached i).e) := ⟨_, rfl⟩
  rw [← hρ] at x3 x4
  obtain ⟨y1, y2⟩ := scaled_spec fp (cached i).f hp ρ p2 mp3 mp4 x3 x4
  obtain ⟨z1, z2⟩ := scaled_spec fm (cached i).f hm ρ (by omega) mm3 mm4 x3 x4
  -- the gap, scaled
  have x1' : (2 : ℚ) ^ 63 ≤ (cached i).f := by exact_mod_cast x1
  have hρ63 : (2 : ℚ) ^ 63 - 1 / 2 ≤ ρ := by linarith
  have gcast : ((fp - fm : Nat) : ℚ) = fp - fm := by rw [Nat.cast_sub (le_of_lt gap.2.2)]
  have g1 : (1536 : ℚ) ≤ fp - fm := by
    have : ((fm + 1536 : Nat) : ℚ) ≤ (fp : ℚ) := Nat.cast_le.2 gap.1
    push_cast at this
    linarith
  have g2 : (fp : ℚ) ≤ 2 ^ 53 * (fp - fm) := by
    rw [← gcast]; exact_mod_cast gap.2.1
  have hρ0 : (0 : ℚ) < ρ := by
    have : (0 : ℚ) < 2 ^ 63 - 1 / 2 := by norm_num
    linarith
  have G1 : (767 : ℚ) ≤ fp * ρ / 2 ^ 64 - fm * ρ / 2 ^ 64 := by
    have : (1536 : ℚ) * (2 ^ 63 - 1 / 2) ≤ (fp - fm) * ρ := mul_le_mul g1 hρ63 (by norm_num) (by linarith)
    have e : fp * ρ / 2 ^ 64 - fm * ρ / 2 ^ 64 = (fp - fm) * ρ / 2 ^ 64 := by ring
    rw [e, le_div_iff₀ (by norm_num)]
    norm_num at this ⊢
    linarith
  have G2 : fp * ρ / 2 ^ 64 ≤ 2 ^ 53 * (fp * ρ / 2 ^ 64 - fm * ρ / 2 ^ 64) := by
    have := mul_le_mul_of_nonneg_right g2 (le_of_lt hρ0)
    have e : 2 ^ 53 * (fp * ρ / 2 ^ 64 - fm * ρ / 2 ^ 64) = (2 ^ 53 * (fp - fm) * ρ) / 2 ^ 64 := by ring
    rw [e]
    exact div_le_div_of_nonneg_right this (by norm_num)
  have hgap : hm + 765 ≤ hp := by
    have : ((hm + 764 : Nat) : ℚ) < (hp : ℚ) := by push_cast; linarith
    have := Nat.cast_lt.1 this
    omega
  -- DigitGen
  have hu64 : u64 (hm + 1) = hm + 1 := u64_of_lt (by omega)
  have hsub1 : sub64 hp 1 = hp - 1 := sub64_of_le mp2 (by omega)
  have hsub2 : sub64 (hp - 1) (hm + 1) = hp - hm - 2 := by
    rw [sub64_of_le (by omega) (by omega)]; omega
  have h9 : hp - 1 < 10 ^ 9 * 2 ^ sh := by
    have := Nat.mul_le_mul_right (cached i).f (show fp ≤ 2 ^ 64 - 1 by omega)
    omega
  obtain ⟨r, hr, hg, hpos, hres⟩ := digitGen_spec (mul (normalize ⟨f, e⟩) (cached i)) ⟨hp - 1, ep + (cached i).e + 64⟩ (hp - hm - 2) (348 - 8 * (i : Int)) sh
    (by simp only; omega) (by omega) (by simp only; omega) (by simpa using h9) (by omega) (by simp only; omega)
  simp only at hres
  have hgr : grisu2 rnd u = some (r.1.reverse.map Char.ofNat, r.2) := by
    unfold grisu2
    simp only [hof, hb, hci, mp1, ← hhp, ← hhm, hu64, hsub1, hsub2, hr, Option.map_some]
  -- the length
  have hdq : ((hp - hm - 2 : Nat) : ℚ) = (hp : ℚ) - hm - 2 := by
    rw [Nat.cast_sub (by omega), Nat.cast_sub (by omega)]; norm_num
  have hlen16 : hp - 1 < 10 ^ 16 * (hp - hm - 2) := by
    have : (((hp - 1 : Nat)) : ℚ) < ((10 ^ 16 * (hp - hm - 2) : Nat) : ℚ) := by
      rw [Nat.cast_mul, hdq, Nat.cast_sub (by omega)]
      push_cast
      norm_num at G2 ⊢
      linarith
    exact Nat.cast_lt.1 this
  have hS : 0 < 2 ^ sh := by positivity
  have hlen : val r.1 < 10 ^ 17 := by
    rcases hres with ⟨a, -, -, hb⟩ | ⟨b, b1, -, -, hb, hb'⟩
    · have h10 : 1 ≤ 10 ^ a := Nat.one_le_pow _ _ (by norm_num)
      have : val r.1 * 1 ≤ val r.1 * 10 ^ a := Nat.mul_le_mul_left _ h10
      have : val r.1 * 2 ^ sh ≤ val r.1 * 10 ^ a * 2 ^ sh := Nat.mul_le_mul_right _ (by omega)
      have : val r.1 * 2 ^ sh < 10 ^ 9 * 2 ^ sh := by omega
      have := Nat.lt_of_mul_lt_mul_right this
      omega
    · have e1 : 10 ^ b = 10 * 10 ^ (b - 1) := by rw [← pow_succ', Nat.sub_add_cancel b1]
      have h2 : (hp - 1) * 10 ^ b < 10 ^ 16 * (hp - hm - 2) * 10 ^ b := Nat.mul_lt_mul_of_pos_right hlen16 (by positivity)
      have e2 : 10 ^ 16 * (hp - hm - 2) * 10 ^ b = 10 ^ 17 * ((hp - hm - 2) * 10 ^ (b - 1)) := by rw [e1]; ring
      have : val r.1 * 2 ^ sh < 10 ^ 17 * 2 ^ sh := by
        have : 10 ^ 17 * ((hp - hm - 2) * 10 ^ (b - 1)) ≤ 10 ^ 17 * 2 ^ sh := Nat.mul_le_mul_left _ (le_of_lt hb')
        omega
      exact Nat.lt_of_mul_lt_mul_right this
  -- between the scaled boundaries
  obtain ⟨κ, hκ, k1, k2⟩ : ∃ κ : Int, r.2 = 348 - 8 * (i : Int) + κ ∧ ((hm : ℚ) + 1) ≤ (val r.1 : ℚ) * 10 ^ κ * 2 ^ sh ∧
      (val r.1 : ℚ) * 10 ^ κ * 2 ^ sh ≤ (hp : ℚ) - 1 := by
    have hpq : ((hp - 1 : Nat) : ℚ) = (hp : ℚ) - 1 := by rw [Nat.cast_sub (by omega)]; norm_num
    rcases hres with ⟨a, ha, h3, h4⟩ | ⟨b, b1, hb0, h3, h4, -⟩
    · refine ⟨a, ha, ?_, ?_⟩
      · have : (((hp - 1 : Nat)) : ℚ) ≤ ((val r.1 * 10 ^ a * 2 ^ sh + (hp - hm - 2) : Nat) : ℚ) := Nat.cast_le.2 h3
        rw [Nat.cast_add, hpq, hdq] at this
        push_cast at this
        rw [zpow_natCast]
        linarith
      · have : ((val r.1 * 10 ^ a * 2 ^ sh : Nat) : ℚ) ≤ ((hp - 1 : Nat) : ℚ) := Nat.cast_le.2 h4
        rw [hpq] at this
        push_cast at this
        rw [zpow_natCast]
        exact this
    · have h10 : (0 : ℚ) < 10 ^ b := by positivity
      refine ⟨-b, by omega, ?_, ?_⟩
      · have : (((hp - 1) * 10 ^ b : Nat) : ℚ) ≤ ((val r.1 * 2 ^ sh + (hp - hm - 2) * 10 ^ b : Nat) : ℚ) := Nat.cast_le.2 h3
        rw [Nat.cast_add, Nat.cast_mul, Nat.cast_mul (hp - hm - 2), hpq, hdq] at this
        push_cast at this
        rw [zpow_neg, zpow_natCast, mul_assoc, mul_comm _ ((2 : ℚ) ^ sh), ← mul_assoc, ← div_eq_mul_inv, le_div_iff₀ h10]
        linarith
      · have : ((val r.1 * 2 ^ sh : Nat) : ℚ) ≤ (((hp - 1) * 10 ^ b : Nat) : ℚ) := Nat.cast_le.2 h4
        rw [Nat.cast_mul (hp - 1), hpq] at this
        push_cast at this
        rw [zpow_neg, zpow_natCast, mul_assoc, mul_comm _ ((2 : ℚ) ^ sh), ← mul_assoc, ← div_eq_mul_inv, div_le_iff₀ h10]
        linarith
  -- back to the scale of the number
  have hscale : (val r.1 : ℚ) * 10 ^ r.2 = (val r.1 : ℚ) * 10 ^ κ * 2 ^ sh * (10 ^ (348 - 8 * (i : Int)) * 2 ^ (-(sh : Int))) := by
    rw [hκ, zpow_add₀ (by norm_num), zpow_neg, zpow_natCast]
    field_simp
  have hpow : (0 : ℚ) < 10 ^ (348 - 8 * (i : Int)) * 2 ^ (-(sh : Int)) := mul_pos (zpow_pos (by norm_num) _) (zpow_pos (by norm_num) _)
  have hback : ∀ g : ℚ, g * ρ / 2 ^ 64 * (10 ^ (348 - 8 * (i : Int)) * 2 ^ (-(sh : Int))) = g * 2 ^ ep := by
    intro g
    have e1 : (10 : ℚ) ^ (8 * (i : Int) - 348) * 10 ^ (348 - 8 * (i : Int)) = 1 := by
      rw [← zpow_add₀ (by norm_num), show 8 * (i : Int) - 348 + (348 - 8 * (i : Int)) = 0 by ring, zpow_zero]
    have e2 : (2 : ℚ) ^ (-(cached i).e) * 2 ^ (-(sh : Int)) = 2 ^ ep * 2 ^ 64 := by
      rw [← zpow_add₀ (by norm_num), ← zpow_natCast (2 : ℚ) 64, ← zpow_add₀ (by norm_num),
        show -(cached i).e + -(sh : Int) = ep + ((64 : Nat) : Int) by omega]
    rw [hρ]
    calc _ = g * ((10 : ℚ) ^ (8 * (i : Int) - 348) * 10 ^ (348 - 8 * (i : Int))) * ((2 : ℚ) ^ (-(cached i).e) * 2 ^ (-(sh : Int))) / 2 ^ 64 := by ring
      _ = g * 2 ^ ep := by rw [e1, e2]; field_simp
  have hlow : (fm : ℚ) * 2 ^ ep < (val r.1 : ℚ) * 10 ^ r.2 := by
    rw [hscale, ← hback]
    exact mul_lt_mul_of_pos_right (by linarith) hpow
  have hhigh : (val r.1 : ℚ) * 10 ^ r.2 < (fp : ℚ) * 2 ^ ep := by
    rw [hscale, ← hback]
    exact mul_lt_mul_of_pos_right (by linarith) hpow
  refine ⟨r, hgr, hg, hpos, hlen, ?_, ?_⟩
  · convert hlow using 1
    rw [hfm, hep]
    split
    · rw [Nat.cast_mul, Nat.cast_sub (by omega), show e - 2 = ((s - 1 : Nat) : Int) + (e - 1 - (s : Int)) by omega, zpow_add₀ (by norm_num), zpow_natCast]
      push_cast
      ring
    · rw [Nat.cast_mul, Nat.cast_sub (by omega), show e - 1 = (s : Int) + (e - 1 - (s : Int)) by omega, zpow_add₀ (by norm_num), zpow_natCast]
      push_cast
      rw [show (s : Int) + (e - 1 - (s : Int)) - (s : Int) = e - 1 - (s : Int) by ring]
      ring
  · convert hhigh using 1
    rw [hfp, hep, Nat.cast_mul]
    rw [show e - 1 = (s : Int) + (e - 1 - (s : Int)) by omega, zpow_add₀ (by norm_num), zpow_natCast]
    push_cast
    rw [show (s : Int) + (e - 1 - (s : Int)) - (s : Int) = e - 1 - (s : Int) by ring]
    ring

end Current.Json.Grisu
