import Verif.Json.Grisu
import Mathlib.Tactic.Ring
import Mathlib.Tactic.Linarith
/-!
C154: what `DigitGen` and `GrisuRound` produce.
-/
set_option linter.unusedSimpArgs false
set_option linter.unusedVariables false
namespace Current.Json.Grisu

/-- The number written by a reversed buffer. -/
def val : List Nat → Nat
  | [] => 0
  | c :: t => (c - 48) + 10 * val t

/-- Decimal digits, the first one (the last of the reversed buffer) not zero. -/
def Good (buf : List Nat) : Prop :=
  (∀ c ∈ buf, 48 ≤ c ∧ c ≤ 57) ∧ (buf ≠ [] → 10 ^ (buf.length - 1) ≤ val buf)

theorem u64_of_lt {x : Nat} (h : x < 2 ^ 64) : u64 x = x := Nat.mod_eq_of_lt h
theorem sub64_of_le {x y : Nat} (hx : x < 2 ^ 64) (h : y ≤ x) : sub64 x y = x - y := by
  unfold sub64; omega

theorem good_cons {c : Nat} {t : List Nat} (ht : Good t) (h1 : 48 ≤ c) (h2 : c ≤ 57) (hv : 0 < val (c :: t)) : Good (c :: t) := by
  refine ⟨?_, fun _ => ?_⟩
  · intro x hx
    rcases List.mem_cons.1 hx with rfl | hx
    · exact ⟨h1, h2⟩
    · exact ht.1 x hx
  · cases t with
    | nil => exact hv
    | cons a t =>
      have := ht.2 (by simp)
      simp only [val, List.length_cons, Nat.add_sub_cancel] at this ⊢
      rw [pow_succ]
      omega

theorem val_push (d : Nat) (buf : List Nat) (hd : d ≤ 9) : val (push d buf) = 10 * val buf + d := by
  unfold push
  split
  · simp only [val]
    rw [Nat.mod_eq_of_lt (by omega)]
    omega
  · rename_i h
    have : d = 0 ∧ buf = [] := by
      constructor
      · by_contra h'; exact h (Or.inl h')
      · by_contra h'; exact h (Or.inr h')
    rw [this.1, this.2]; rfl

theorem val_pos {buf : List Nat} (h : Good buf) (hb : buf ≠ []) : 0 < val buf :=
  lt_of_lt_of_le (by positivity) (h.2 hb)

theorem good_push (d : Nat) (buf : List Nat) (hd : d ≤ 9) (h : Good buf) : Good (push d buf) := by
  have hv := val_push d buf hd
  unfold push at hv ⊢
  split
  · rename_i hc
    rw [if_pos hc] at hv
    rw [Nat.mod_eq_of_lt (by omega)] at hv ⊢
    apply good_cons h (by omega) (by omega)
    rw [hv]
    rcases hc with hc | hc
    · omega
    · have := val_pos h hc; omega
  · exact h

theorem push_cons {d : Nat} {buf : List Nat} (hd : d ≤ 9) (h : d ≠ 0 ∨ buf ≠ []) : push d buf = (48 + d) :: buf := by
  unfold push
  rw [if_pos h, Nat.mod_eq_of_lt (by omega)]

/-- `GrisuRound` takes `j` from the last digit, and stays within `delta`. -/
theorem round_spec (n d : Nat) (t : List Nat) (delta rest ten wpw : Nat) (hn : d < n) (hd : d ≤ 9) (hr : rest ≤ delta) (hD : delta < 2 ^ 64)
    (ht : 0 < ten) (h : delta ≤ rest + d * ten) :
    ∃ j, j ≤ d ∧ rest + j * ten ≤ delta ∧ round n ((48 + d) :: t) delta rest ten wpw = some ((48 + (d - j)) :: t) := by
  induction n generalizing d rest with
  | zero => omega
  | succ n ih =>
    rw [round]
    split
    · rename_i hc
      rw [sub64_of_le hD hr] at hc
      have h1 : rest + ten ≤ delta := by omega
      have hd0 : d ≠ 0 := by
        rintro rfl
        omega
      obtain ⟨d, rfl⟩ := Nat.exists_eq_succ_of_ne_zero hd0
      have e : d.succ * ten = d * ten + ten := Nat.succ_mul _ _
      rw [u64_of_lt (by omega)]
      have : decLast ((48 + d.succ) :: t) = (48 + d) :: t := by
        simp only [decLast]
        congr 1
        omega
      rw [this]
      obtain ⟨j, h2, h3, h4⟩ := ih d (rest + ten) (by omega) (by omega) h1 (by omega)
      refine ⟨j + 1, by omega, ?_, ?_⟩
      · rw [Nat.succ_mul]; omega
      · rw [h4]
        congr 3
        omega
    · exact ⟨0, by omega, by omega, by simp⟩

/-- The result: digits `r.1` (reversed) and the exponent `r.2`, with the number within `delta` below `M`. -/
def Result (M delta sh : Nat) (K : Int) (r : List Nat × Int) : Prop :=
  Good r.1 ∧ 0 < val r.1 ∧
  ((∃ a : Nat, r.2 = K + a ∧ M ≤ val r.1 * 10 ^ a * 2 ^ sh + delta ∧ val r.1 * 10 ^ a * 2 ^ sh ≤ M) ∨
   (∃ b : Nat, 1 ≤ b ∧ r.2 = K - b ∧ M * 10 ^ b ≤ val r.1 * 2 ^ sh + delta * 10 ^ b ∧ val r.1 * 2 ^ sh ≤ M * 10 ^ b ∧ delta * 10 ^ (b - 1) < 2 ^ sh))

theorem loop2_spec (sh wpw M delta0 : Nat) (K : Int) (hsh : sh ≤ 60) (hd0 : 0 < delta0) (hM : delta0 < M) :
    ∀ n m p2 delta buf, n + m = 20 → Good buf → delta = delta0 * 10 ^ m → M * 10 ^ m = val buf * 2 ^ sh + p2 → p2 < 2 ^ sh → delta ≤ p2 →
    ∃ r, loop2 sh wpw n p2 delta buf m K = some r ∧ Result M delta0 sh K r := by
  have h60 : 2 ^ sh ≤ 2 ^ 60 := Nat.pow_le_pow_right (by decide) hsh
  intro n
  induction n with
  | zero =>
    intro m p2 delta buf hm _ he _ h2 h3
    exfalso
    obtain rfl : m = 20 := by omega
    have : 1 * 10 ^ 20 ≤ delta0 * 10 ^ 20 := Nat.mul_le_mul_right _ hd0
    rw [← he] at this
    have : (1 : Nat) * 10 ^ 20 < 2 ^ 60 := by omega
    revert this; decide
  | succ n ih =>
    intro m p2 delta buf hm hg he hM' h2 h3
    rw [loop2]
    have hS : 0 < 2 ^ sh := by positivity
    rw [u64_of_lt (show p2 * 10 < 2 ^ 64 by omega), u64_of_lt (show delta * 10 < 2 ^ 64 by omega), u64_of_lt (show 2 ^ sh < 2 ^ 64 by omega)]
    have hdiv := Nat.div_add_mod (p2 * 10) (2 ^ sh)
    have hlt := Nat.mod_lt (p2 * 10) hS
    have hq : p2 * 10 / 2 ^ sh ≤ 9 := by
      have : p2 * 10 / 2 ^ sh < 10 := by
        rw [Nat.div_lt_iff_lt_mul hS]
        omega
      omega
    obtain ⟨d, hd⟩ : ∃ d, d = p2 * 10 / 2 ^ sh := ⟨_, rfl⟩
    obtain ⟨q, hq'⟩ : ∃ q, q = p2 * 10 % 2 ^ sh := ⟨_, rfl⟩
    rw [← hd] at hq
    rw [← hd, ← hq', Nat.mod_eq_of_lt (show d < 256 by omega)]
    rw [← hd, ← hq'] at hdiv
    rw [← hq'] at hlt
    have hM2 : M * 10 ^ (m + 1) = (10 * val buf + d) * 2 ^ sh + q := by
      rw [pow_succ, ← mul_assoc, hM']
      nlinarith [hdiv]
    have he2 : delta * 10 = delta0 * 10 ^ (m + 1) := by rw [he, pow_succ, mul_assoc]
    have hv := val_push d buf hq
    split
    · rename_i hc
      have hcons : d ≠ 0 ∨ buf ≠ [] := by
        by_contra h
        have hd0 : d = 0 := by by_contra h'; exact h (Or.inl h')
        rw [hd0] at hdiv
        omega
      rw [push_cons hq hcons]
      obtain ⟨j, h4, h5, h6⟩ := round_spec 20 d buf (delta * 10) q (2 ^ sh) (u64 (wpw * (if m + 1 < 9 then 10 ^ (m + 1) else 0)))
        (by omega) hq (le_of_lt hc) (by omega) hS (by rw [mul_comm d]; omega)
      refine ⟨_, by rw [h6]; rfl, ?_⟩
      have e : val ((48 + (d - j)) :: buf) = 10 * val buf + (d - j) := by simp only [val]; omega
      have key : (10 * val buf + d) * 2 ^ sh = (10 * val buf + (d - j)) * 2 ^ sh + j * 2 ^ sh := by
        rw [← add_mul]; congr 1; omega
      have hlow : M * 10 ^ (m + 1) ≤ (10 * val buf + (d - j)) * 2 ^ sh + delta0 * 10 ^ (m + 1) := by
        rw [hM2, key]; omega
      have hpos : 0 < 10 * val buf + (d - j) := by
        by_contra h
        have h0 : 10 * val buf + (d - j) = 0 := by omega
        rw [h0, Nat.zero_mul, Nat.zero_add] at hlow
        have : delta0 * 10 ^ (m + 1) < M * 10 ^ (m + 1) := Nat.mul_lt_mul_of_pos_right hM (by positivity)
        omega
      refine ⟨good_cons hg (by omega) (by omega) (by rw [e]; exact hpos), by simp only; rw [e]; exact hpos, Or.inr ⟨m + 1, by omega, by push_cast; rfl, ?_, ?_, ?_⟩⟩
      · simp only; rw [e]; exact hlow
      · simp only; rw [e, hM2, key]; omega
      · rw [Nat.add_sub_cancel, ← he]; omega
    · rename_i hc
      exact ih (m + 1) q (delta * 10) (push d buf) (by omega) (good_push d buf hq hg) he2 (by rw [hv]; exact hM2) hlt (by omega)

theorem loop1_spec (sh wpw M delta p2 : Nat) (K : Int) (hsh : sh ≤ 60) (hd0 : 0 < delta) (hM : delta < M) (hM64 : M < 2 ^ 64) (h2 : p2 < 2 ^ sh) :
    ∀ kappa p1 buf, Good buf → M = (val buf * 10 ^ kappa + p1) * 2 ^ sh + p2 → p1 < 10 ^ kappa → delta < p1 * 2 ^ sh + p2 →
    ∃ r, loop1 sh wpw delta p2 kappa p1 buf K = some r ∧ Result M delta sh K r := by
  intro kappa
  have hS : 0 < 2 ^ sh := by positivity
  induction kappa with
  | zero =>
    intro p1 buf hg he h1 h3
    rw [loop1]
    have : p1 = 0 := by simpa using h1
    subst this
    exact loop2_spec sh wpw M delta K hsh hd0 hM 20 0 p2 delta buf rfl hg (by simp) (by simpa using he) h2 (by omega)
  | succ kappa ih =>
    intro p1 buf hg he h1 h3
    rw [loop1]
    have hT : 0 < 10 ^ kappa := by positivity
    obtain ⟨d, hd⟩ : ∃ d, d = p1 / 10 ^ kappa := ⟨_, rfl⟩
    obtain ⟨q, hq'⟩ : ∃ q, q = p1 % 10 ^ kappa := ⟨_, rfl⟩
    have hdiv := Nat.div_add_mod p1 (10 ^ kappa)
    have hlt := Nat.mod_lt p1 hT
    have hq : d ≤ 9 := by
      have : p1 / 10 ^ kappa < 10 := by
        rw [Nat.div_lt_iff_lt_mul hT, mul_comm, ← pow_succ]
        exact h1
      omega
    rw [← hd, ← hq'] at hdiv ⊢
    rw [← hq'] at hlt
    have hp1 : p1 * 2 ^ sh = d * (10 ^ kappa * 2 ^ sh) + q * 2 ^ sh := by rw [← hdiv]; ring
    have hle : p1 * 2 ^ sh + p2 ≤ M := by
      rw [he, add_mul]; omega
    have htmp : u64 (u64 (q * 2 ^ sh) + p2) = q * 2 ^ sh + p2 := by
      rw [u64_of_lt (show q * 2 ^ sh < 2 ^ 64 by omega), u64_of_lt (by omega)]
    rw [htmp]
    have hM2 : M = (10 * val buf + d) * (10 ^ kappa * 2 ^ sh) + (q * 2 ^ sh + p2) := by
      rw [he, pow_succ, add_mul, hp1]; ring
    have hv := val_push d buf hq
    split
    · rename_i hc
      have hd1 : d ≠ 0 := by
        rintro h0
        rw [h0] at hp1
        omega
      have hten : 10 ^ kappa * 2 ^ sh ≤ d * (10 ^ kappa * 2 ^ sh) := Nat.le_mul_of_pos_left _ (Nat.pos_of_ne_zero hd1)
      rw [u64_of_lt (show 10 ^ kappa * 2 ^ sh < 2 ^ 64 by omega), push_cons hq (Or.inl hd1)]
      obtain ⟨j, h4, h5, h6⟩ := round_spec 20 d buf delta (q * 2 ^ sh + p2) (10 ^ kappa * 2 ^ sh) wpw (by omega) hq hc (by omega) (by positivity) (by omega)
      refine ⟨_, by rw [h6]; rfl, ?_⟩
      have e : val ((48 + (d - j)) :: buf) = 10 * val buf + (d - j) := by simp only [val]; omega
      have key : (10 * val buf + d) * (10 ^ kappa * 2 ^ sh) = (10 * val buf + (d - j)) * (10 ^ kappa * 2 ^ sh) + j * (10 ^ kappa * 2 ^ sh) := by
        rw [← add_mul]; congr 1; omega
      have hlow : M ≤ (10 * val buf + (d - j)) * (10 ^ kappa * 2 ^ sh) + delta := by
        rw [hM2, key]; omega
      have hpos : 0 < 10 * val buf + (d - j) := by
        by_contra h
        have h0 : 10 * val buf + (d - j) = 0 := by omega
        rw [h0, Nat.zero_mul, Nat.zero_add] at hlow
        omega
      refine ⟨good_cons hg (by omega) (by omega) (by rw [e]; exact hpos), by simp only; rw [e]; exact hpos, Or.inl ⟨kappa, rfl, ?_, ?_⟩⟩
      · simp only; rw [e, mul_assoc]; exact hlow
      · simp only; rw [e, mul_assoc]; omega
    · rename_i hc
      exact ih q (push d buf) (good_push d buf hq hg) (by rw [hv, hM2]; ring) hlt (by omega)

theorem countDigits_spec (n : Nat) (h : n < 10 ^ 9) : n < 10 ^ countDigits n := by
  unfold countDigits
  split_ifs <;> norm_num at * <;> assumption

/-- `DigitGen`: the digits and the exponent, for whatever `W`. -/
theorem digitGen_spec (W Mp : DiyFp) (delta : Nat) (K : Int) (sh : Nat) (he : Mp.e = -(sh : Int)) (hsh : sh ≤ 60) (h64 : Mp.f < 2 ^ 64)
    (h9 : Mp.f < 10 ^ 9 * 2 ^ sh) (hd : 0 < delta) (hdM : delta < Mp.f) :
    ∃ r, digitGen W Mp delta K = some r ∧ Result Mp.f delta sh K r := by
  unfold digitGen
  have hS : 0 < 2 ^ sh := by positivity
  have hsh' : (-Mp.e).toNat = sh := by rw [he]; omega
  simp only [hsh']
  have hp1 : Mp.f / 2 ^ sh < 10 ^ 9 := by
    rw [Nat.div_lt_iff_lt_mul hS]; exact h9
  rw [Nat.mod_eq_of_lt (show Mp.f / 2 ^ sh < 2 ^ 32 from lt_trans hp1 (by norm_num))]
  have hdm := Nat.div_add_mod Mp.f (2 ^ sh)
  apply loop1_spec sh _ Mp.f delta (Mp.f % 2 ^ sh) K hsh hd hdM h64 (Nat.mod_lt _ hS)
  · exact ⟨by simp, by simp⟩
  · simp only [val, Nat.zero_mul, Nat.zero_add]
    rw [mul_comm]; exact hdm.symm
  · exact countDigits_spec _ hp1
  · rw [mul_comm, hdm]; exact hdM

end Current.Json.Grisu
