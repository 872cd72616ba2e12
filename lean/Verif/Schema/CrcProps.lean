import Verif.Schema.Crc
import Mathlib.Data.Nat.Bitwise
/-!
The table-driven CRC-32 is the bitwise one, can be continued, and any change within one byte is noticed.
-/
namespace Current.Schema

theorem bitStep_xor (a b : UInt32) : bitStep (a ^^^ b) = bitStep a ^^^ bitStep b := by
  have hs : (a ^^^ b) >>> 1 = (a >>> 1) ^^^ (b >>> 1) := UInt32.shiftRight_xor
  have hm : ∀ x : UInt32, x % 2 = 1 ↔ x.toNat % 2 = 1 := by
    intro x
    rw [← UInt32.toNat_inj]
    simp
  have hx : (a ^^^ b).toNat % 2 = (a.toNat + b.toNat) % 2 := by
    rw [UInt32.toNat_xor, Nat.xor_mod_two_eq]
  have ra := Nat.mod_two_eq_zero_or_one a.toNat
  have rb := Nat.mod_two_eq_zero_or_one b.toNat
  have h1 : ∀ x y p : UInt32, x ^^^ y ^^^ p = (x ^^^ p) ^^^ y := by
    intro x y p; rw [UInt32.xor_assoc, UInt32.xor_comm y p, ← UInt32.xor_assoc]
  have h2 : ∀ x y p : UInt32, x ^^^ y = (x ^^^ p) ^^^ (y ^^^ p) := by
    intro x y p
    rw [UInt32.xor_assoc, UInt32.xor_comm p (y ^^^ p), UInt32.xor_assoc y p p, UInt32.xor_self, UInt32.xor_zero]
  unfold bitStep
  by_cases ha : a % 2 = 1 <;> by_cases hb : b % 2 = 1
  · have : ¬ (a ^^^ b) % 2 = 1 := by rw [hm, hx]; rw [hm] at ha hb; omega
    rw [if_neg this, if_pos ha, if_pos hb, hs]; exact h2 _ _ _
  · have : (a ^^^ b) % 2 = 1 := by rw [hm, hx]; rw [hm] at ha hb; omega
    rw [if_pos this, if_pos ha, if_neg hb, hs]; exact h1 _ _ _
  · have : (a ^^^ b) % 2 = 1 := by rw [hm, hx]; rw [hm] at ha hb; omega
    rw [if_pos this, if_neg ha, if_pos hb, hs, UInt32.xor_assoc]
  · have : ¬ (a ^^^ b) % 2 = 1 := by rw [hm, hx]; rw [hm] at ha hb; omega
    rw [if_neg this, if_neg ha, if_neg hb, hs]

theorem bitSteps_xor (n : Nat) (a b : UInt32) : bitSteps n (a ^^^ b) = bitSteps n a ^^^ bitSteps n b := by
  induction n generalizing a b with
  | zero => rfl
  | succ n ih => simp only [bitSteps, bitStep_xor, ih]

theorem bitStep_even (c : UInt32) (h : c.toNat % 2 = 0) : bitStep c = c >>> 1 := by
  unfold bitStep
  rw [if_neg]
  intro hc
  rw [← UInt32.toNat_inj] at hc
  simp at hc
  omega

theorem toNat_shr (c : UInt32) (k : Nat) (hk : k < 32) : (c >>> UInt32.ofNat k).toNat = c.toNat / 2 ^ k := by
  rw [UInt32.toNat_shiftRight, UInt32.toNat_ofNat']
  rw [Nat.mod_eq_of_lt (by omega), Nat.mod_eq_of_lt (by omega), Nat.shiftRight_eq_div_pow]

/-- A register whose low byte is empty is only shifted. -/
theorem bitSteps_shift (n : Nat) (hn : n ≤ 8) (c : UInt32) (h : c.toNat % 2 ^ n = 0) : (bitSteps n c).toNat = c.toNat / 2 ^ n := by
  induction n generalizing c with
  | zero => simp [bitSteps]
  | succ n ih =>
    have h2 : c.toNat % 2 = 0 := by
      have : 2 ∣ 2 ^ (n + 1) := ⟨2 ^ n, by rw [Nat.pow_succ, Nat.mul_comm]⟩
      exact Nat.mod_eq_zero_of_dvd (Nat.dvd_trans this (Nat.dvd_of_mod_eq_zero h))
    have hsh : (c >>> 1).toNat = c.toNat / 2 := by have := toNat_shr c 1 (by omega); simpa using this
    simp only [bitSteps]
    rw [bitStep_even c h2, ih (by omega)]
    · rw [hsh, Nat.div_div_eq_div_mul, Nat.pow_succ, Nat.mul_comm]
    · rw [hsh]
      obtain ⟨d, hd⟩ := Nat.dvd_of_mod_eq_zero h
      rw [hd, Nat.pow_succ, Nat.mul_comm (2 ^ n) 2, Nat.mul_assoc, Nat.mul_div_cancel_left _ (by decide)]
      exact Nat.mul_mod_right _ _

theorem crcTable_spec : ∀ i < 256, crcTable.getD i 0 = bitSteps 8 (UInt32.ofNat i) := by
  decide +kernel

/-- The top byte of a table entry tells which one it is. -/
theorem crcTable_top : ∀ i < 256, ∀ j < 256, (crcTable.getD i 0).toNat / 2 ^ 24 = (crcTable.getD j 0).toNat / 2 ^ 24 → i = j := by
  have h : ∀ i < 256, crcTable.findIdx (fun x => x.toNat / 2 ^ 24 == (crcTable.getD i 0).toNat / 2 ^ 24) = i := by decide +kernel
  intro i hi j hj he
  rw [← h i hi, ← h j hj, he]

attribute [local irreducible] crcTable

theorem and_ff (c : UInt32) : (c &&& 0xFF).toNat = c.toNat % 256 := by
  rw [UInt32.toNat_and]
  exact Nat.and_two_pow_sub_one_eq_mod c.toNat 8

/-- C96: one step of the table-driven algorithm is eight bits of the definition. -/
theorem crcStep_spec (c : UInt32) (b : UInt8) : crcStep c b = bitSteps 8 (c ^^^ b.toUInt32) := by
  -- split the register into its low byte and the rest
  have hsplit : ∀ x : UInt32, bitSteps 8 x = crcTable.getD (x &&& 0xFF).toNat 0 ^^^ (x >>> 8) := by
    intro x
    have hlow : (x &&& 0xFF).toNat < 256 := by rw [and_ff]; omega
    have hx : x = (x &&& (0xFF : UInt32)) ^^^ ((x >>> (8 : UInt32)) <<< (8 : UInt32)) := by
      apply UInt32.toBitVec_inj.1
      simp only [UInt32.toBitVec_xor, UInt32.toBitVec_and, UInt32.toBitVec_shiftLeft, UInt32.toBitVec_shiftRight]
      ext i hi
      have h8 : (UInt32.toBitVec 8 % 32).toNat = 8 := by decide
      have hff : ∀ i, i < 32 → (UInt32.toBitVec 0xFF)[i]! = decide (i < 8) := by decide +kernel
      have hff' : (UInt32.toBitVec 0xFF)[i] = decide (i < 8) := by
        have := hff i hi
        rw [getElem!_pos _ i hi] at this; exact this
      simp only [BitVec.getElem_xor, BitVec.getElem_and, hff', BitVec.shiftLeft_eq', BitVec.ushiftRight_eq', h8, BitVec.getElem_shiftLeft,
        BitVec.getElem_ushiftRight]
      by_cases h : i < 8
      · simp [h]
      · simp only [h, decide_false, Bool.and_false, Bool.false_xor]
        simp
        rw [show 8 + (i - 8) = i by omega]
        simp [BitVec.getLsbD_eq_getElem hi]
    have hhi : ((x >>> 8) <<< 8).toNat = x.toNat / 256 * 256 := by
      have h1 : (x >>> 8).toNat = x.toNat / 256 := toNat_shr x 8 (by omega)
      rw [UInt32.toNat_shiftLeft, h1]
      have hlt := x.toNat_lt
      simp only [Nat.shiftLeft_eq]
      have : (8 : UInt32).toNat % 32 = 8 := by decide
      rw [this, Nat.mod_eq_of_lt (by omega)]
    have e1 : bitSteps 8 (x &&& 0xFF) = crcTable.getD (x &&& 0xFF).toNat 0 := by
      rw [crcTable_spec _ hlow, UInt32.ofNat_toNat]
    have e2 : bitSteps 8 ((x >>> 8) <<< 8) = x >>> 8 := by
      apply UInt32.toNat_inj.1
      rw [bitSteps_shift 8 (by omega) _ (by rw [hhi]; omega), hhi]
      have h1 : (x >>> 8).toNat = x.toNat / 256 := toNat_shr x 8 (by omega)
      rw [h1]; omega
    conv => lhs; rw [hx]
    rw [bitSteps_xor, e1, e2]
  rw [hsplit]
  unfold crcStep
  have hb : b.toUInt32 >>> 8 = 0 := by
    apply UInt32.toNat_inj.1
    have h1 : (b.toUInt32 >>> 8).toNat = b.toUInt32.toNat / 256 := toNat_shr _ 8 (by omega)
    rw [h1, UInt8.toNat_toUInt32]
    have := b.toNat_lt
    simp; omega
  rw [UInt32.shiftRight_xor, hb, UInt32.xor_zero]

/-- C96: `CRC32` is CRC-32, for every string. -/
theorem crc32_is_crc32 (bytes : List UInt8) : crc32 bytes = crcSpec bytes := by
  unfold crc32 crc32From crcSpec
  have : (crcStep : UInt32 → UInt8 → UInt32) = fun c b => bitSteps 8 (c ^^^ b.toUInt32) := by
    funext c b; exact crcStep_spec c b
  rw [this]
  rfl

/-- The check value of the standard: the CRC of "123456789". -/
example : crc32 [0x31, 0x32, 0x33, 0x34, 0x35, 0x36, 0x37, 0x38, 0x39] = 0xCBF43926 := by decide +kernel

/-- C96: it can be computed piece by piece. -/
theorem crc32_continues (a b : List UInt8) : crc32From (crc32 a) b = crc32 (a ++ b) := by
  unfold crc32 crc32From
  rw [List.foldl_append, UInt32.xor_assoc, UInt32.xor_self, UInt32.xor_zero]

theorem xor_top {a b : UInt32} (hb : b.toNat < 2 ^ 24) : (a ^^^ b).toNat / 2 ^ 24 = a.toNat / 2 ^ 24 := by
  rw [UInt32.toNat_xor, ← Nat.shiftRight_eq_div_pow, Nat.shiftRight_xor_distrib, Nat.shiftRight_eq_div_pow, Nat.shiftRight_eq_div_pow]
  rw [Nat.div_eq_of_lt hb, Nat.xor_zero]

theorem xor_cancel {a b c : UInt32} (h : a ^^^ b = a ^^^ c) : b = c := by
  have : a ^^^ (a ^^^ b) = a ^^^ (a ^^^ c) := by rw [h]
  rwa [← UInt32.xor_assoc, ← UInt32.xor_assoc, UInt32.xor_self, UInt32.zero_xor, UInt32.zero_xor] at this

/-- From the register after a step: which table entry was used, and the upper bits before it. -/
theorem crcStep_inj {c c' : UInt32} {b b' : UInt8} (h : crcStep c b = crcStep c' b') :
    (c ^^^ b.toUInt32) &&& 0xFF = (c' ^^^ b'.toUInt32) &&& 0xFF ∧ c >>> 8 = c' >>> 8 := by
  unfold crcStep at h
  have hs : ∀ x : UInt32, (x >>> 8).toNat < 2 ^ 24 := by
    intro x
    have h1 : (x >>> 8).toNat = x.toNat / 256 := toNat_shr x 8 (by omega)
    have := x.toNat_lt
    rw [h1]; omega
  have ht := congrArg (fun x => x.toNat / 2 ^ 24) h
  simp only [xor_top (hs _)] at ht
  have hi := crcTable_top _ (by rw [and_ff]; omega) _ (by rw [and_ff]; omega) ht
  have hidx := UInt32.toNat_inj.1 hi
  rw [hidx] at h
  exact ⟨hidx, xor_cancel h⟩

/-- With the same byte, different registers stay different. -/
theorem crcStep_left_inj {c c' : UInt32} {b : UInt8} (h : crcStep c b = crcStep c' b) : c = c' := by
  obtain ⟨h1, h2⟩ := crcStep_inj h
  have e1 := congrArg UInt32.toNat h1
  rw [and_ff, and_ff] at e1
  have e2 := congrArg UInt32.toNat h2
  have hd : ∀ x : UInt32, (x >>> 8).toNat = x.toNat / 256 := fun x => toNat_shr x 8 (by omega)
  rw [hd, hd] at e2
  -- the low bytes
  have e3 : c.toNat % 256 = c'.toNat % 256 := by
    have hx : ∀ x : UInt32, (x ^^^ b.toUInt32).toNat % 256 = (x.toNat % 256) ^^^ b.toNat := by
      intro x
      rw [UInt32.toNat_xor, UInt8.toNat_toUInt32]
      have := Nat.xor_mod_two_pow (a := x.toNat) (b := b.toNat) (n := 8)
      rw [show (2 : Nat) ^ 8 = 256 from rfl] at this
      rw [this, Nat.mod_eq_of_lt (a := b.toNat) b.toNat_lt]
    rw [hx, hx] at e1
    have := congrArg (· ^^^ b.toNat) e1
    simpa [Nat.xor_assoc] using this
  apply UInt32.toNat_inj.1
  omega

/-- With the same register, different bytes make a difference. -/
theorem crcStep_right_inj {c : UInt32} {b b' : UInt8} (h : crcStep c b = crcStep c b') : b = b' := by
  obtain ⟨h1, _⟩ := crcStep_inj h
  have e1 := congrArg UInt32.toNat h1
  rw [and_ff, and_ff] at e1
  have hx : ∀ y : UInt8, (c ^^^ y.toUInt32).toNat % 256 = (c.toNat % 256) ^^^ y.toNat := by
    intro y
    rw [UInt32.toNat_xor, UInt8.toNat_toUInt32]
    have := Nat.xor_mod_two_pow (a := c.toNat) (b := y.toNat) (n := 8)
    rw [show (2 : Nat) ^ 8 = 256 from rfl] at this
    rw [this, Nat.mod_eq_of_lt (a := y.toNat) y.toNat_lt]
  rw [hx, hx] at e1
  have := congrArg ((c.toNat % 256) ^^^ ·) e1
  simp only [← Nat.xor_assoc, Nat.xor_self, Nat.zero_xor] at this
  exact UInt8.toNat_inj.1 this

theorem foldl_inj (s : List UInt8) {c c' : UInt32} (h : s.foldl crcStep c = s.foldl crcStep c') : c = c' := by
  induction s generalizing c c' with
  | nil => exact h
  | cons b s ih => exact crcStep_left_inj (ih h)

/-- C96: two strings that differ in exactly one byte have different CRCs, whatever their length and wherever the byte is. -/
theorem crc32_notices_a_byte (pre suf : List UInt8) (b b' : UInt8) (h : b ≠ b') : crc32 (pre ++ b :: suf) ≠ crc32 (pre ++ b' :: suf) := by
  intro hc
  unfold crc32 crc32From at hc
  have hc' := congrArg (· ^^^ (0xFFFFFFFF : UInt32)) hc
  simp only [UInt32.xor_assoc, UInt32.xor_self, UInt32.xor_zero] at hc'
  rw [List.foldl_append, List.foldl_append] at hc'
  exact h (crcStep_right_inj (foldl_inj suf hc'))

end Current.Schema
