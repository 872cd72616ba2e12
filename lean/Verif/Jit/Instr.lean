import Verif.Jit.Gen
/-!
What the emitted bytes do: each piece of code decodes to the intended instructions.
-/
namespace Current.Jit
open Current.Fncas

/-! ### Decoding -/

theorem le4_disp32 (o : Nat) (h : o < 2 ^ 31) :
    disp32 (UInt8.ofNat o) (UInt8.ofNat (o / 256)) (UInt8.ofNat (o / 65536)) (UInt8.ofNat (o / 16777216)) = UInt64.ofNat o := by
  unfold disp32
  simp only [UInt8.toNat_ofNat']
  have : o % 2 ^ 8 + 256 * (o / 256 % 2 ^ 8 + 256 * (o / 65536 % 2 ^ 8 + 256 * (o / 16777216 % 2 ^ 8))) = o := by omega
  rw [this, if_pos h]

theorem imm64_le8 (v : UInt64) : UInt64.ofNat (imm64 (le8 v)) = v := by
  apply UInt64.toNat_inj.1
  have hv := v.toNat_lt
  simp only [le8, imm64, UInt64.toNat_toUInt8, UInt64.toNat_shiftRight, UInt64.toNat_ofNat']
  have e : ∀ k : Nat, k < 64 → v.toNat >>> (UInt64.toNat (UInt64.ofNat k) % 64) = v.toNat / 2 ^ k := by
    intro k hk
    rw [UInt64.toNat_ofNat', Nat.mod_eq_of_lt (show k < 2 ^ 64 by omega), Nat.mod_eq_of_lt hk, Nat.shiftRight_eq_div_pow]
  have e8 := e 8 (by decide)
  have e16 := e 16 (by decide)
  have e24 := e 24 (by decide)
  have e32 := e 32 (by decide)
  have e40 := e 40 (by decide)
  have e48 := e 48 (by decide)
  have e56 := e 56 (by decide)
  simp only [show (UInt64.ofNat 8) = 8 from rfl, show (UInt64.ofNat 16) = 16 from rfl, show (UInt64.ofNat 24) = 24 from rfl, show (UInt64.ofNat 32) = 32 from rfl,
    show (UInt64.ofNat 40) = 40 from rfl, show (UInt64.ofNat 48) = 48 from rfl, show (UInt64.ofNat 56) = 56 from rfl] at e8 e16 e24 e32 e40 e48 e56
  rw [e8, e16, e24, e32, e40, e48, e56]
  omega

/-- The offset in the instruction, and the shift of the pointer. -/
def off (j : Nat) : UInt64 := UInt64.ofNat ((j + 16) * 8)

/-- The double number `j` of a vector. -/
def word (p : UInt64) (j : Nat) : UInt64 := p + UInt64.ofNat (8 * j)

theorem shifted (p : UInt64) (j : Nat) : (p - 128) + off j = word p j := by
  unfold off word
  have : (j + 16) * 8 = 8 * j + 128 := by omega
  rw [this, UInt64.ofNat_add]
  have : UInt64.ofNat 128 = 128 := rfl
  rw [this]
  grind

/-- A displacement that fits. -/
def Small (j : Nat) : Prop := (j + 16) * 8 < 2 ^ 31

theorem modrm_disp {j : Nat} (h : Small j) (b : UInt8) (hm : b.toNat / 64 = 2) (hr : b.toNat % 8 ≠ 4) (rest : List UInt8) :
    modrm (b :: (disp j ++ rest)) = some (b.toNat / 8 % 8, .mem (b.toNat % 8) (off j), rest) := by
  have h3 : ¬ (b.toNat / 64 = 3) := by omega
  have h0 : ¬ (b.toNat / 64 = 0) := by omega
  have h1 : ¬ (b.toNat / 64 = 1) := by omega
  simp only [modrm, if_neg h3, if_neg hr, if_neg h0, if_neg h1, disp, le4, List.cons_append, List.nil_append]
  rw [le4_disp32 _ h]
  rfl

theorem decode_f2 (op : UInt8) (rest : List UInt8) : decode (0xf2 :: 0x0f :: op :: rest) = decodeSse op.toNat rest := by
  simp [decode]

theorem decode_loadRdi {j : Nat} (h : Small j) (rest : List UInt8) : decode (loadRdi j ++ rest) = some (.movsdLoad 0 (.mem rdi (off j)), rest) := by
  have e := modrm_disp h 0x87 (by decide) (by decide) rest
  have : loadRdi j ++ rest = 0xf2 :: 0x0f :: 0x10 :: 0x87 :: (disp j ++ rest) := rfl
  rw [this]
  rw [decode_f2]
  simp only [decodeSse, e]
  rfl

theorem decode_loadRbx {j : Nat} (h : Small j) (rest : List UInt8) : decode (loadRbx j ++ rest) = some (.movsdLoad 0 (.mem rbx (off j)), rest) := by
  have e := modrm_disp h 0x83 (by decide) (by decide) rest
  have : loadRbx j ++ rest = 0xf2 :: 0x0f :: 0x10 :: 0x83 :: (disp j ++ rest) := rfl
  rw [this]
  rw [decode_f2]
  simp only [decodeSse, e]
  rfl

theorem decode_storeRbx {j : Nat} (h : Small j) (rest : List UInt8) : decode (storeRbx j ++ rest) = some (.movsdStore (.mem rbx (off j)) 0, rest) := by
  have e := modrm_disp h 0x83 (by decide) (by decide) rest
  have : storeRbx j ++ rest = 0xf2 :: 0x0f :: 0x11 :: 0x83 :: (disp j ++ rest) := rfl
  rw [this]
  rw [decode_f2]
  simp only [decodeSse, e]
  rfl

theorem decode_opRbx (o : Op) {j : Nat} (h : Small j) (rest : List UInt8) : decode (opRbx o j ++ rest) = some (.arith o 0 (.mem rbx (off j)), rest) := by
  have e := modrm_disp h 0x83 (by decide) (by decide) rest
  have : opRbx o j ++ rest = 0xf2 :: 0x0f :: opCode o :: 0x83 :: (disp j ++ rest) := rfl
  rw [this]
  rw [decode_f2]
  simp only [decodeSse, e]
  cases o <;> rfl

theorem decode_movImm (v : UInt64) (rest : List UInt8) : decode ([0x48, 0xb8] ++ le8 v ++ rest) = some (.movImm rax v, rest) := by
  have e := imm64_le8 v
  have : ([0x48, 0xb8] ++ le8 v ++ rest) = 0x48 :: 0xb8 :: (le8 v ++ rest) := rfl
  rw [this]
  show (if (le8 v ++ rest).length < 8 then none else some (Instr.movImm 0 (UInt64.ofNat (imm64 ((le8 v ++ rest).take 8))), (le8 v ++ rest).drop 8)) = _
  have hl : (le8 v).length = 8 := rfl
  have hlen : ¬ (le8 v ++ rest).length < 8 := by rw [List.length_append, hl]; omega
  rw [if_neg hlen, show List.take 8 (le8 v ++ rest) = le8 v from rfl, show List.drop 8 (le8 v ++ rest) = rest from rfl, e]

theorem decode_storeRax {j : Nat} (h : Small j) (rest : List UInt8) : decode ([0x48, 0x89, 0x83] ++ disp j ++ rest) = some (.mov (.mem rbx (off j)) rax, rest) := by
  have e := modrm_disp h 0x83 (by decide) (by decide) rest
  have : [0x48, 0x89, 0x83] ++ disp j ++ rest = 0x48 :: 0x89 :: 0x83 :: (disp j ++ rest) := rfl
  rw [this]
  show decodeRexW (0x89 :: 0x83 :: (disp j ++ rest)) = _
  simp only [decodeRexW, e]
  rfl

theorem disp8_small (k : Nat) (h : (k + 1) * 8 < 128) : disp8 (UInt8.ofNat ((k + 1) * 8)) = UInt64.ofNat ((k + 1) * 8) := by
  unfold disp8
  rw [UInt8.toNat_ofNat', Nat.mod_eq_of_lt (by omega), if_pos h]

theorem decode_call (k : Nat) (h : (k + 1) * 8 < 128) (rest : List UInt8) : decode (callIndex k ++ rest) = some (.call (.mem rdx (UInt64.ofNat ((k + 1) * 8))), rest) := by
  rw [← disp8_small k h]
  rfl

theorem fnIndex_small (f : Fn) : (fnIndex f + 1) * 8 < 128 := by cases f <;> decide

/-! ### Pieces of code -/

/-- The code takes the machine from one state to another, whatever code follows. -/
def Runs (N : Num UInt64) (env : Env) (code : List UInt8) (s s' : State) : Prop :=
  ∃ n ≤ code.length, ∀ rest fuel, exec N env (fuel + n) (code ++ rest) s = exec N env fuel rest s'

variable {N : Num UInt64} {env : Env}

theorem Runs.nil (s : State) : Runs N env [] s s := ⟨0, Nat.le_refl _, fun _ _ => rfl⟩

theorem Runs.append {c d : List UInt8} {s t u : State} (h : Runs N env c s t) (h' : Runs N env d t u) : Runs N env (c ++ d) s u := by
  obtain ⟨n, hn, e⟩ := h
  obtain ⟨m, hm, e'⟩ := h'
  refine ⟨m + n, by rw [List.length_append]; omega, fun rest fuel => ?_⟩
  rw [List.append_assoc, ← Nat.add_assoc, e, e']

theorem Runs.one {c : List UInt8} {i : Instr} {s t : State} (hc : c ≠ []) (hd : ∀ rest, decode (c ++ rest) = some (i, rest)) (hs : step N env i s = .next t) : Runs N env c s t := by
  refine ⟨1, ?_, fun rest fuel => ?_⟩
  · cases c with
    | nil => exact absurd rfl hc
    | cons _ _ => simp
  · simp only [exec, hd, hs]

end Current.Jit
