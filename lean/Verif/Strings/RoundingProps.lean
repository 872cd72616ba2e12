import Verif.Strings.Rounding
/-!
C118: `RoundDoubleToString` prints the nearest number with the given number of significant digits.
-/

set_option linter.unusedSimpArgs false
set_option linter.unusedTactic false

namespace Current.Rounding

/-! ### Specification: the number a text denotes -/

def digitVal (c : Char) : Nat := c.toNat - '0'.toNat

/-- After the decimal point: `w` is the weight of the digit before. -/
def readFrac : Rat → Rat → List Char → Rat
  | acc, _, [] => acc
  | acc, w, c :: s => readFrac (acc + digitVal c * (w / 10)) (w / 10) s

/-- Before the decimal point. -/
def readInt : Rat → List Char → Rat
  | acc, [] => acc
  | acc, c :: s => if c = '.' then readFrac acc 1 s else readInt (acc * 10 + digitVal c) s

/-- The number a text denotes. -/
def denotes : List Char → Rat
  | '-' :: s => -readInt 0 s
  | '+' :: s => readInt 0 s
  | s => readInt 0 s

/-! ### Proofs -/

theorem digitVal_digitChar {d : Nat} (h : d < 10) : digitVal (Nat.digitChar d) = d ∧ Nat.digitChar d ≠ '.' ∧ Nat.digitChar d ≠ '-' ∧ Nat.digitChar d ≠ '+' := by
  match d, h with
  | 0, _ | 1, _ | 2, _ | 3, _ | 4, _ | 5, _ | 6, _ | 7, _ | 8, _ | 9, _ => decide

theorem pow_div_ten {m : Nat} : 10 ^ (m + 1) / 10 = 10 ^ m := by rw [Nat.pow_succ]; exact Nat.mul_div_cancel _ (by decide)

/-- The leading digit. -/
theorem lead {m x : Nat} (hx : x < 10 ^ (m + 1)) : x / 10 ^ m < 10 ∧ x / 10 ^ m % 10 = x / 10 ^ m ∧ x = x / 10 ^ m * 10 ^ m + x % 10 ^ m := by
  have h1 : x / 10 ^ m < 10 := by rw [Nat.div_lt_iff_lt_mul (by positivity)]; rw [Nat.pow_succ] at hx; omega
  refine ⟨h1, Nat.mod_eq_of_lt h1, ?_⟩
  have := Nat.div_add_mod x (10 ^ m)
  rw [Nat.mul_comm] at this; omega

theorem emit_frac : ∀ (k m : Nat) (di : Int) (x : Nat) (acc w : Rat), di < 0 → k ≤ m → x < 10 ^ m → 10 ^ (m - k) ∣ x →
    readFrac acc w (emit k di (10 ^ m) x).1 = acc + w * (x / 10 ^ m) ∧ (emit k di (10 ^ m) x).2 ≤ 0 := by
  intro k
  induction k with
  | zero =>
    intro m di x acc w hd _ hx hdvd
    have : x = 0 := by
      rcases Nat.eq_zero_or_pos x with h | h
      · exact h
      · have := Nat.le_of_dvd h hdvd; simp at this; omega
    subst this
    simp [emit, readFrac]; omega
  | succ k ih =>
    intro m di x acc w hd hk hx hdvd
    obtain ⟨m, rfl⟩ : ∃ m', m = m' + 1 := ⟨m - 1, by omega⟩
    obtain ⟨h1, h2, h3⟩ := lead hx
    have hdv := digitVal_digitChar h1
    have hne : di ≠ 0 := by omega
    have hp : (10 : Rat) ^ m ≠ 0 := by positivity
    simp only [emit, pow_div_ten, hne, if_false, List.nil_append, h2]
    have e3 : (x : Rat) = (x / 10 ^ m : Nat) * 10 ^ m + (x % 10 ^ m : Nat) := by exact_mod_cast h3
    split
    · rename_i hs
      simp only [readFrac, hdv.1]
      refine ⟨?_, by omega⟩
      rw [hs.2] at e3
      rw [e3, pow_succ]; push_cast; field_simp; ring
    · have hd' : 10 ^ (m - k) ∣ x % 10 ^ m := by
        rw [show m + 1 - (k + 1) = m - k by omega] at hdvd
        exact (Nat.dvd_mod_iff (Nat.pow_dvd_pow 10 (Nat.sub_le m k))).mpr hdvd
      obtain ⟨i1, i2⟩ := ih m (di - 1) (x % 10 ^ m) (acc + digitVal (Nat.digitChar (x / 10 ^ m)) * (w / 10)) (w / 10) (by omega) (by omega) (Nat.mod_lt _ (by positivity)) hd'
      refine ⟨?_, i2⟩
      simp only [readFrac]
      rw [i1, hdv.1]
      rw [e3, pow_succ]; push_cast; field_simp; ring

theorem emit_point : ∀ (k m : Nat) (x : Nat) (acc : Rat), k ≤ m → x < 10 ^ m → 10 ^ (m - k) ∣ x →
    readInt acc (emit k 0 (10 ^ m) x).1 = acc + x / 10 ^ m ∧ (emit k 0 (10 ^ m) x).2 ≤ 0 := by
  intro k m x acc hk hx hdvd
  cases k with
  | zero =>
    have : x = 0 := by
      rcases Nat.eq_zero_or_pos x with h | h
      · exact h
      · have := Nat.le_of_dvd h hdvd; simp at this; omega
    subst this
    simp [emit, readInt]
  | succ k =>
    obtain ⟨m, rfl⟩ : ∃ m', m = m' + 1 := ⟨m - 1, by omega⟩
    obtain ⟨h1, h2, h3⟩ := lead hx
    have hdv := digitVal_digitChar h1
    have hp : (10 : Rat) ^ m ≠ 0 := by positivity
    simp only [emit, pow_div_ten, if_true, h2]
    have e3 : (x : Rat) = (x / 10 ^ m : Nat) * 10 ^ m + (x % 10 ^ m : Nat) := by exact_mod_cast h3
    split
    · rename_i hs
      simp only [List.cons_append, List.nil_append, readInt, if_true, readFrac, hdv.1]
      refine ⟨?_, by omega⟩
      rw [hs.2] at e3
      rw [e3, pow_succ]; push_cast; field_simp; ring
    · have hd' : 10 ^ (m - k) ∣ x % 10 ^ m := by
        rw [show m + 1 - (k + 1) = m - k by omega] at hdvd
        exact (Nat.dvd_mod_iff (Nat.pow_dvd_pow 10 (Nat.sub_le m k))).mpr hdvd
      obtain ⟨i1, i2⟩ := emit_frac k m (0 - 1) (x % 10 ^ m) (acc + digitVal (Nat.digitChar (x / 10 ^ m)) * (1 / 10)) (1 / 10) (by omega) (by omega) (Nat.mod_lt _ (by positivity)) hd'
      refine ⟨?_, i2⟩
      simp only [List.cons_append, List.nil_append, readInt, if_true, readFrac]
      rw [i1, hdv.1]
      rw [e3, pow_succ]; push_cast; field_simp; ring

theorem read_zeros (acc : Rat) (n : Nat) : readInt acc (List.replicate n '0') = acc * 10 ^ n := by
  induction n generalizing acc with
  | zero => simp [readInt]
  | succ n ih =>
    have h : ('0' : Char) ≠ '.' := by decide
    have h0 : digitVal '0' = 0 := by decide
    rw [List.replicate_succ, readInt, if_neg h, ih, h0, pow_succ]; push_cast; ring

theorem read_frac_zeros (w : Rat) (n : Nat) (s : List Char) : readFrac 0 w (List.replicate n '0' ++ s) = readFrac 0 (w / 10 ^ n) s := by
  induction n generalizing w with
  | zero => simp
  | succ n ih =>
    have h0 : digitVal '0' = 0 := by decide
    rw [List.replicate_succ, List.cons_append, readFrac, h0]
    simp only [Nat.cast_zero, zero_mul, add_zero]
    rw [ih, pow_succ]
    congr 1
    field_simp

theorem emit_int : ∀ (k m di : Nat) (x : Nat) (acc : Rat), 0 < di → k ≤ m → x < 10 ^ m → 10 ^ (m - k) ∣ x →
    readInt acc ((emit k di (10 ^ m) x).1 ++ List.replicate (emit k di (10 ^ m) x).2.toNat '0') = acc * 10 ^ di + x * 10 ^ di / 10 ^ m := by
  intro k
  induction k with
  | zero =>
    intro m di x acc hd _ hx hdvd
    have : x = 0 := by
      rcases Nat.eq_zero_or_pos x with h | h
      · exact h
      · have := Nat.le_of_dvd h hdvd; simp at this; omega
    subst this
    simp [emit, read_zeros]
  | succ k ih =>
    intro m di x acc hd hk hx hdvd
    obtain ⟨m, rfl⟩ : ∃ m', m = m' + 1 := ⟨m - 1, by omega⟩
    obtain ⟨h1, h2, h3⟩ := lead hx
    have hdv := digitVal_digitChar h1
    have hne : (di : Int) ≠ 0 := by omega
    have hp : (10 : Rat) ^ m ≠ 0 := by positivity
    simp only [emit, pow_div_ten, hne, if_false, List.nil_append, h2]
    have e3 : (x : Rat) = (x / 10 ^ m : Nat) * 10 ^ m + (x % 10 ^ m : Nat) := by exact_mod_cast h3
    obtain ⟨di, rfl⟩ : ∃ d, di = d + 1 := ⟨di - 1, by omega⟩
    have e4 : ((di + 1 : Nat) : Int) - 1 = di := by omega
    rw [e4]
    split
    · rename_i hs
      have h0 : di = 0 := by omega
      subst h0
      have e5 : (((0 : Nat) : Int)).toNat = 0 := rfl
      rw [e5, List.replicate_zero, List.append_nil, readInt, if_neg hdv.2.1, readInt, hdv.1]
      rw [hs.2] at e3
      rw [e3, pow_succ]; push_cast; field_simp; ring
    · have hd' : 10 ^ (m - k) ∣ x % 10 ^ m := by
        rw [show m + 1 - (k + 1) = m - k by omega] at hdvd
        exact (Nat.dvd_mod_iff (Nat.pow_dvd_pow 10 (Nat.sub_le m k))).mpr hdvd
      rw [List.cons_append, readInt, if_neg hdv.2.1, hdv.1]
      rcases Nat.eq_zero_or_pos di with h0 | h0
      · subst h0
        obtain ⟨i1, i2⟩ := emit_point k m (x % 10 ^ m) (acc * 10 + (x / 10 ^ m : Nat)) (by omega) (Nat.mod_lt _ (by positivity)) hd'
        have e5 : (emit k ((0 : Nat) : Int) (10 ^ m) (x % 10 ^ m)).2.toNat = 0 := by
          have : (emit k ((0 : Nat) : Int) (10 ^ m) (x % 10 ^ m)).2 ≤ 0 := i2
          omega
        rw [e5, List.replicate_zero, List.append_nil]
        have : readInt (acc * 10 + (x / 10 ^ m : Nat)) (emit k ((0 : Nat) : Int) (10 ^ m) (x % 10 ^ m)).1 = _ := i1
        rw [this, e3, pow_succ]; push_cast; field_simp; ring
      · rw [ih m di (x % 10 ^ m) _ h0 (by omega) (Nat.mod_lt _ (by positivity)) hd']
        rw [e3, pow_succ, pow_succ]; push_cast; field_simp; ring

end Current.Rounding
