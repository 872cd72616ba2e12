import Verif.Jit.Instr
import Verif.Fncas.Eval
/-!
The state of the machine between the pieces of code for two nodes.
-/
namespace Current.Jit
open Current.Fncas

/-- Where everything is: the inputs, the heap, the table of functions, the stack pointer at the first instruction; the number of inputs, the size of the heap. -/
structure Layout where
  xp : UInt64
  hp : UInt64
  tp : UInt64
  sp : UInt64
  n : Nat
  h : Nat

/-- Addresses in the part of the stack which the code and the functions called by it may use. -/
def InStack (env : Env) (L : Layout) (a : UInt64) : Prop := env.stackLow.toNat ≤ a.toNat ∧ a.toNat < L.sp.toNat

def InHeap (L : Layout) (a : UInt64) : Prop := ∃ j < L.h, a = word L.hp j

/-- What the caller must provide: aligned vectors that do not overlap, a stack aligned as the calling convention demands, with room, and the inputs and the functions in their places. -/
structure Provided (N : Num UInt64) (env : Env) (L : Layout) (X : Nat → UInt64) (m : UInt64 → UInt64) : Prop where
  xAligned : L.xp.toNat % 8 = 0
  hAligned : L.hp.toNat % 8 = 0
  tAligned : L.tp.toNat % 8 = 0
  spAligned : L.sp.toNat % 16 = 8
  room : env.stackLow.toNat + 32 ≤ L.sp.toNat
  stackReadable : ∀ a, env.stackLow.toNat ≤ a.toNat → a.toNat ≤ L.sp.toNat → env.readable a = true
  stackWritable : ∀ a, InStack env L a → env.writable a = true
  xReadable : ∀ v < L.n, env.readable (word L.xp v) = true
  hReadable : ∀ j < L.h, env.readable (word L.hp j) = true
  hWritable : ∀ j < L.h, env.writable (word L.hp j) = true
  tReadable : ∀ f, env.readable (word L.tp (fnIndex f)) = true
  xApart : ∀ v < L.n, ¬ InStack env L (word L.xp v) ∧ ¬ InHeap L (word L.xp v)
  tApart : ∀ f, ¬ InStack env L (word L.tp (fnIndex f)) ∧ ¬ InHeap L (word L.tp (fnIndex f))
  hApart : ∀ j < L.h, ¬ InStack env L (word L.hp j) ∧ word L.hp j ≠ L.sp
  nSmall : L.n + 16 < 2 ^ 28
  hSmall : L.h + 16 < 2 ^ 28
  inputs : ∀ v < L.n, m (word L.xp v) = X v
  functions : ∀ f, env.extern (m (word L.tp (fnIndex f))) = some (N.fn f)

variable {N : Num UInt64} {env : Env} {L : Layout} {X : Nat → UInt64} {s0 : State}

/-- Between the nodes. `s0` is the state at the first instruction. -/
structure Body (env : Env) (L : Layout) (s0 s : State) : Prop where
  rbx : s.regs rbx = L.hp - 128
  rdi : s.regs rdi = L.xp - 128
  rdx : s.regs rdx = L.tp - 8
  rsp : s.regs rsp = L.sp - 8
  saved : s.mem (L.sp - 8) = s0.regs Jit.rbx
  others : ∀ r, calleeSaved r = true → r ≠ Jit.rbx → r ≠ Jit.rsp → s.regs r = s0.regs r
  frame : ∀ a, ¬ InHeap L a → ¬ InStack env L a → s.mem a = s0.mem a

theorem word_aligned {p : UInt64} (hp : p.toNat % 8 = 0) (j : Nat) : aligned (word p j) = true := by
  unfold aligned word
  rw [decide_eq_true_eq, UInt64.toNat_add, UInt64.toNat_ofNat']
  omega

theorem small_h (hP : Provided N env L X s0.mem) {j : Nat} (hj : j < L.h) : Small j := by
  have := hP.hSmall; unfold Small; omega

theorem small_n (hP : Provided N env L X s0.mem) {j : Nat} (hj : j < L.n) : Small j := by
  have := hP.nSmall; unfold Small; omega

theorem word_inj {p : UInt64} {i j : Nat} (hi : i < 2 ^ 28) (hj : j < 2 ^ 28) (h : word p i = word p j) : i = j := by
  unfold word at h
  have h2 : UInt64.ofNat (8 * i) = UInt64.ofNat (8 * j) := by grind
  have := congrArg UInt64.toNat h2
  rw [UInt64.toNat_ofNat', UInt64.toNat_ofNat'] at this
  omega

theorem sp_sub (hP : Provided N env L X s0.mem) (k : Nat) (hk : k ≤ 32) : (L.sp - UInt64.ofNat k).toNat = L.sp.toNat - k := by
  have h1 := hP.room
  have h2 : (UInt64.ofNat k).toNat = k := by rw [UInt64.toNat_ofNat']; omega
  rw [UInt64.toNat_sub_of_le _ _ (by rw [UInt64.le_iff_toNat_le, h2]; omega), h2]

/-! ### Loads and stores -/

theorem run_load (hP : Provided N env L X s0.mem) {s : State} (hb : s.regs rbx = L.hp - 128) {j : Nat} (hj : j < L.h) :
    Runs N env (loadRbx j) s (s.setXmm 0 (s.mem (word L.hp j))) := by
  refine .one (by simp [loadRbx]) (decode_loadRbx (small_h hP hj)) ?_
  simp only [step, load, hb, shifted, word_aligned hP.hAligned, hP.hReadable j hj, Bool.and_self, if_true]

theorem run_input (hP : Provided N env L X s0.mem) {s : State} (hb : s.regs rdi = L.xp - 128) {v : Nat} (hv : v < L.n) :
    Runs N env (loadRdi v) s (s.setXmm 0 (s.mem (word L.xp v))) := by
  refine .one (by simp [loadRdi]) (decode_loadRdi (small_n hP hv)) ?_
  simp only [step, load, hb, shifted, word_aligned hP.xAligned, hP.xReadable v hv, Bool.and_self, if_true]

theorem run_store (hP : Provided N env L X s0.mem) {s : State} (hb : s.regs rbx = L.hp - 128) {j : Nat} (hj : j < L.h) :
    Runs N env (storeRbx j) s (s.setMem (word L.hp j) (s.xmm 0)) := by
  refine .one (by simp [storeRbx]) (decode_storeRbx (small_h hP hj)) ?_
  simp only [step, store, hb, shifted, word_aligned hP.hAligned, hP.hWritable j hj, Bool.and_self, if_true]

theorem run_op (hP : Provided N env L X s0.mem) {s : State} (hb : s.regs rbx = L.hp - 128) (o : Op) {j : Nat} (hj : j < L.h) :
    Runs N env (opRbx o j) s (s.setXmm 0 (N.op o (s.xmm 0) (s.mem (word L.hp j)))) := by
  refine .one (by simp [opRbx]) (decode_opRbx o (small_h hP hj)) ?_
  simp only [step, load, hb, shifted, word_aligned hP.hAligned, hP.hReadable j hj, Bool.and_self, if_true]

theorem run_imm (hP : Provided N env L X s0.mem) {s : State} (hb : s.regs rbx = L.hp - 128) {j : Nat} (hj : j < L.h) (v : UInt64) :
    Runs N env (immToRbx j v) s ((s.setReg rax v).setMem (word L.hp j) v) := by
  have h1 : Runs N env ([0x48, 0xb8] ++ le8 v) s (s.setReg rax v) :=
    .one (by simp) (decode_movImm v) rfl
  have h2 : Runs N env ([0x48, 0x89, 0x83] ++ disp j) (s.setReg rax v) ((s.setReg rax v).setMem (word L.hp j) v) := by
    refine .one (by simp) (decode_storeRax (small_h hP hj)) ?_
    have e1 : (s.setReg rax v).regs rbx = L.hp - 128 := by simp [State.setReg, hb]
    have e2 : (s.setReg rax v).regs rax = v := by simp [State.setReg]
    simp only [step, store, e1, e2, shifted, word_aligned hP.hAligned, hP.hWritable j hj, Bool.and_self, if_true]
  have := h1.append h2
  simpa [immToRbx, List.append_assoc] using this

/-! ### The invariant and the heap -/

theorem Body.setXmm {s : State} (h : Body env L s0 s) (v : UInt64) : Body env L s0 (s.setXmm 0 v) :=
  ⟨h.rbx, h.rdi, h.rdx, h.rsp, h.saved, h.others, h.frame⟩

theorem Body.setRax {s : State} (h : Body env L s0 s) (v : UInt64) : Body env L s0 (s.setReg rax v) := by
  refine ⟨?_, ?_, ?_, ?_, h.saved, ?_, h.frame⟩
  · simpa [State.setReg] using h.rbx
  · simpa [State.setReg] using h.rdi
  · simpa [State.setReg] using h.rdx
  · simpa [State.setReg] using h.rsp
  · intro r hr h1 h2
    have : r ≠ rax := by rintro rfl; cases hr
    simpa [State.setReg, this] using h.others r hr h1 h2

theorem sp8_stack (hP : Provided N env L X s0.mem) (k : Nat) (hk : k ≤ 32) (hk0 : 0 < k) : InStack env L (L.sp - UInt64.ofNat k) := by
  have h1 := hP.room
  unfold InStack
  rw [sp_sub hP k hk]
  omega

theorem Body.put (hP : Provided N env L X s0.mem) {s : State} (h : Body env L s0 s) {j : Nat} (hj : j < L.h) (v : UInt64) : Body env L s0 (s.setMem (word L.hp j) v) := by
  refine ⟨h.rbx, h.rdi, h.rdx, h.rsp, ?_, h.others, ?_⟩
  · have hne : L.sp - 8 ≠ word L.hp j := by
      intro hc
      exact (hP.hApart j hj).1 (hc ▸ sp8_stack hP 8 (by decide) (by decide))
    simp only [State.setMem, if_neg hne]
    exact h.saved
  · intro a h1 h2
    have hne : a ≠ word L.hp j := fun hc => h1 ⟨j, hj, hc⟩
    simp only [State.setMem, if_neg hne]
    exact h.frame a h1 h2

theorem Body.input (hP : Provided N env L X s0.mem) {s : State} (h : Body env L s0 s) {v : Nat} (hv : v < L.n) : s.mem (word L.xp v) = X v := by
  rw [h.frame _ (hP.xApart v hv).2 (hP.xApart v hv).1]
  exact hP.inputs v hv

/-! ### A call -/

/-- The state inside the call's pushes. -/
theorem run_call (hP : Provided N env L X s0.mem) {s : State} (h : Body env L s0 s) (f : Fn) :
    ∃ s', Runs N env (pushRdi ++ pushRdx ++ callIndex (fnIndex f) ++ popRdx ++ popRdi) s s' ∧ Body env L s0 s' ∧ s'.xmm 0 = N.fn f (s.xmm 0) ∧
      ∀ j < L.h, s'.mem (word L.hp j) = s.mem (word L.hp j) := by
  have hroom := hP.room
  have hsp := hP.spAligned
  have t8 := sp_sub hP 8 (by decide)
  have t16 := sp_sub hP 16 (by decide)
  have t24 := sp_sub hP 24 (by decide)
  have i16 := sp8_stack hP 16 (by decide) (by decide)
  have i24 := sp8_stack hP 24 (by decide) (by decide)
  simp only [show UInt64.ofNat 8 = 8 from rfl, show UInt64.ofNat 16 = 16 from rfl, show UInt64.ofNat 24 = 24 from rfl] at t8 t16 t24 i16 i24
  have a16 : aligned (L.sp - 16) = true := by unfold aligned; rw [decide_eq_true_eq, t16]; omega
  have a24 : aligned (L.sp - 24) = true := by unfold aligned; rw [decide_eq_true_eq, t24]; omega
  have r16 := hP.stackReadable (L.sp - 16) i16.1 (Nat.le_of_lt i16.2)
  have r24 := hP.stackReadable (L.sp - 24) i24.1 (Nat.le_of_lt i24.2)
  have w16 := hP.stackWritable _ i16
  have w24 := hP.stackWritable _ i24
  have n1 : L.sp - 16 ≠ L.sp - 24 := by intro hc; have := congrArg UInt64.toNat hc; omega
  have n2 : L.sp - 8 ≠ L.sp - 24 := by intro hc; have := congrArg UInt64.toNat hc; omega
  have n3 : L.sp - 8 ≠ L.sp - 16 := by intro hc; have := congrArg UInt64.toNat hc; omega
  -- the pushes
  let s1 : State := (s.setMem (L.sp - 16) (L.xp - 128)).setReg rsp (L.sp - 16)
  have e1 : Runs N env pushRdi s s1 := by
    refine .one (by simp [pushRdi]) (fun _ => rfl) (i := .push rdi) ?_
    have : L.sp - 8 - 8 = L.sp - 16 := by grind
    simp only [step, store, h.rsp, this, h.rdi, a16, w16, Bool.and_self, if_true]
    rfl
  let s2 : State := (s1.setMem (L.sp - 24) (L.tp - 8)).setReg rsp (L.sp - 24)
  have e2 : Runs N env pushRdx s1 s2 := by
    refine .one (by simp [pushRdx]) (fun _ => rfl) (i := .push rdx) ?_
    have h1 : s1.regs rsp = L.sp - 16 := by simp [s1, State.setReg]
    have h2 : s1.regs rdx = L.tp - 8 := h.rdx
    have : L.sp - 16 - 8 = L.sp - 24 := by grind
    simp only [step, store, h1, this, h2, a24, w24, Bool.and_self, if_true]
    rfl
  -- the call
  have hm2 : ∀ a, a ≠ L.sp - 16 → a ≠ L.sp - 24 → s2.mem a = s.mem a := by
    intro a g1 g2
    simp [s2, s1, State.setMem, State.setReg, g1, g2]
  let s3 : State :=
    { regs := fun r => if calleeSaved r then s2.regs r else env.leftReg s2 r
      xmm := fun x => if x = 0 then N.fn f (s2.xmm 0) else env.leftXmm s2 x
      mem := fun a => if env.stackLow.toNat ≤ a.toNat ∧ a.toNat < (L.sp - 24).toNat then env.leftMem s2 a else s2.mem a }
  have e3 : Runs N env (callIndex (fnIndex f)) s2 s3 := by
    refine .one (by simp [callIndex]) (decode_call _ (fnIndex_small f)) ?_
    have g1 : s2.regs rdx = L.tp - 8 := h.rdx
    have g2 : s2.regs rsp = L.sp - 24 := by simp [s2, State.setReg]
    have g3 : L.tp - 8 + UInt64.ofNat ((fnIndex f + 1) * 8) = word L.tp (fnIndex f) := by
      unfold word
      rw [show (fnIndex f + 1) * 8 = 8 * fnIndex f + 8 by omega, UInt64.ofNat_add, show UInt64.ofNat 8 = 8 from rfl]
      grind
    have g4 : s2.mem (word L.tp (fnIndex f)) = s0.mem (word L.tp (fnIndex f)) := by
      have ht := hP.tApart f
      rw [hm2 (word L.tp (fnIndex f)) (fun hc => ht.1 (hc ▸ i16)) (fun hc => ht.1 (hc ▸ i24))]
      exact h.frame _ ht.2 ht.1
    have g5 : ¬ ((L.sp - 24).toNat % 16 ≠ 0) := by rw [t24]; omega
    have g6 : ¬ ((L.sp - 24).toNat < env.stackLow.toNat + 8) := by rw [t24]; omega
    simp only [step, read, load, g1, g3, word_aligned hP.tAligned, hP.tReadable f, Bool.and_self, if_true, callFunction, g2, if_neg g5, if_neg g6, g4, hP.functions f]
    rfl
  -- the pops
  have m16 : s3.mem (L.sp - 16) = L.xp - 128 := by
    have : ¬ (env.stackLow.toNat ≤ (L.sp - 16).toNat ∧ (L.sp - 16).toNat < (L.sp - 24).toNat) := by rw [t16, t24]; omega
    simp only [s3, if_neg this]
    simp [s2, s1, State.setMem, State.setReg, n1]
  have m24 : s3.mem (L.sp - 24) = L.tp - 8 := by
    have : ¬ (env.stackLow.toNat ≤ (L.sp - 24).toNat ∧ (L.sp - 24).toNat < (L.sp - 24).toNat) := by omega
    simp only [s3, if_neg this]
    simp [s2, State.setMem, State.setReg]
  have c1 : calleeSaved rsp = true := by decide
  have c2 : calleeSaved rbx = true := by decide
  have p3 : s3.regs rsp = L.sp - 24 := by simp only [s3, c1, if_true]; simp [s2, State.setReg]
  let s4 : State := (s3.setReg rsp (L.sp - 16)).setReg rdx (L.tp - 8)
  have e4 : Runs N env popRdx s3 s4 := by
    refine .one (by simp [popRdx]) (fun _ => rfl) (i := .pop rdx) ?_
    have : L.sp - 24 + 8 = L.sp - 16 := by grind
    simp only [step, load, p3, a24, r24, Bool.and_self, if_true, m24, this]
    rfl
  have p4 : s4.regs rsp = L.sp - 16 := rfl
  let s5 : State := (s4.setReg rsp (L.sp - 8)).setReg rdi (L.xp - 128)
  have e5 : Runs N env popRdi s4 s5 := by
    refine .one (by simp [popRdi]) (fun _ => rfl) (i := .pop rdi) ?_
    have : L.sp - 16 + 8 = L.sp - 8 := by grind
    have m : s4.mem (L.sp - 16) = L.xp - 128 := m16
    simp only [step, load, p4, a16, r16, Bool.and_self, if_true, m, this]
    rfl
  -- memory outside the stack below
  have hout : ∀ a, ¬ InStack env L a → s5.mem a = s.mem a := by
    intro a ha
    have hno : ¬ (env.stackLow.toNat ≤ a.toNat ∧ a.toNat < (L.sp - 24).toNat) := by
      rintro ⟨q1, q2⟩
      exact ha ⟨q1, by rw [t24] at q2; omega⟩
    show s3.mem a = s.mem a
    simp only [s3, if_neg hno]
    exact hm2 a (fun hc => ha (hc ▸ i16)) (fun hc => ha (hc ▸ i24))
  refine ⟨s5, (((e1.append e2).append e3).append e4).append e5, ?_, ?_, ?_⟩
  · refine ⟨?_, ?_, ?_, ?_, ?_, ?_, ?_⟩
    · exact h.rbx
    · rfl
    · rfl
    · rfl
    · have : ¬ (env.stackLow.toNat ≤ (L.sp - 8).toNat ∧ (L.sp - 8).toNat < (L.sp - 24).toNat) := by rw [t8, t24]; omega
      show s3.mem (L.sp - 8) = _
      simp only [s3, if_neg this]
      rw [hm2 _ n3 n2]
      exact h.saved
    · intro r hr h1 h2
      have q1 : r ≠ rdi := by rintro rfl; cases hr
      have q2 : r ≠ rdx := by rintro rfl; cases hr
      have : s5.regs r = s.regs r := by
        simp only [s5, s4, s3, s2, s1, State.setReg, State.setMem]
        rw [if_neg q1, if_neg h2, if_neg q2, if_neg h2, if_pos hr, if_neg h2, if_neg h2]
      rw [this]
      exact h.others r hr h1 h2
    · intro a h1 h2
      rw [hout a h2]
      exact h.frame a h1 h2
  · show s3.xmm 0 = _
    simp only [s3, if_true]
    rfl
  · intro j hj
    exact hout _ (hP.hApart j hj).1

end Current.Jit
