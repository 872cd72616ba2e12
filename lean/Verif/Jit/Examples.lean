import Verif.Jit.Main
/-!
C97, C98: the recorded function, evaluated, compiled and called; a concrete machine; the limits of the encoding.
-/
namespace Current.Jit
open Current.Fncas

/-- **C97.** The whole way: the user's function of `dim` variables is recorded, compiled and called, and the result is, bit for bit, what the interpreter finds for the same recording. -/
theorem compiled_is_interpreted {M : Num UInt64} (hM : M.Exact) (dim : Nat) (e : Expr UInt64) (he : e.VarsBelow dim) :
    let r := record M (mkX (α := UInt64) dim).2 e (mkX dim).1
    ∃ fuel code h, genF r.1 fuel r.2 = some (some (code, h)) ∧
      ∀ (N : Num UInt64) (env : Env) (L : Layout) (X : Nat → UInt64) (s : State) (stale : Cache UInt64), L.h = h → L.n = dim → Provided N env L X s.mem → s.regs rsp = L.sp →
        ∃ s', exec N env code.length code (entry L.xp L.hp L.tp s) = .returned (s.mem L.sp) s' ∧ s'.xmm 0 = e.eval N X ∧
          ∃ c', evalNode N r.1 dim X fuel false stale r.2 = some (some (s'.xmm 0, c')) := by
  intro r
  obtain ⟨h1, h2, h3, h4, h5⟩ := the_variables (α := UInt64) dim
  obtain ⟨g1, g2, g3⟩ := record_denotes hM (mkX (α := UInt64) dim).2 dim (Nat.le_of_eq h4.symm) e he (mkX dim).1 h1 h5
  obtain ⟨code, h, hg, hall⟩ := compiled_function g3 (3 * r.1.nodes.length + 1) (Nat.le_refl _)
  refine ⟨_, code, h, hg, ?_⟩
  intro N env L X s stale hh hn hP hsp
  obtain ⟨s', q1, q2, -⟩ := hall N env L X s hh (hn ▸ he) hP hsp
  obtain ⟨k, hk, hf⟩ := evaluation_is_the_expression N r.1 dim X stale g3 he
  obtain ⟨c', hc, -⟩ := hf _ hk
  exact ⟨s', q1, q2, c', by rw [q2]; exact hc⟩

/-! ### A concrete machine -/

/-- Numbers as integers modulo 2^64, with `sqrt` doubling. -/
def wrapNum : Num UInt64 where
  op := fun o a b => match o with | .add => a + b | .sub => a - b | .mul => a * b | .div => a / b
  fn := fun f a => UInt64.ofNat (fnIndex f + 1) * a
  lit := fun k => UInt64.ofNat k.toNat
  half := 0
  eq := fun a b => a == b

theorem wrapNum_exact : wrapNum.Exact := by intro a b; simp [wrapNum]

def demoEnv : Env where
  readable := fun _ => true
  writable := fun _ => true
  stackLow := 0x7000
  extern := fun a => [Fn.sqr, .sqrt, .exp, .log, .sin, .cos, .tan, .asin, .acos, .atan, .unitStep, .ramp][a.toNat - 0x4000]?.map wrapNum.fn
  leftReg := fun _ r => UInt64.ofNat (1000 + r)
  leftXmm := fun _ _ => 77
  leftMem := fun _ _ => 0xdead

/-- Two inputs at 0x1000, a heap of `h` doubles at 0x2000, the functions' addresses at 0x3000. -/
def demoLayout (h : Nat) : Layout := ⟨0x1000, 0x2000, 0x3000, 0x8008, 2, h⟩

def demoState : State where
  regs := fun r => if r = rsp then 0x8008 else UInt64.ofNat (500 + r)
  xmm := fun _ => 9
  mem := fun a => if a = 0x1000 then 6 else if a = 0x1008 then 7 else if a = 0x8008 then 0x1234
    else if 0x3000 ≤ a.toNat then UInt64.ofNat (0x4000 + (a.toNat - 0x3000) / 8) else 0x5555

def demoX (v : Nat) : UInt64 := if v = 0 then 6 else 7

theorem word_toNat (p : UInt64) (j : Nat) (hp : p.toNat ≤ 0x3000) (hj : j < 0x100) : (word p j).toNat = p.toNat + 8 * j := by
  unfold word
  rw [UInt64.toNat_add, UInt64.toNat_ofNat']
  omega

theorem demo_provided (h : Nat) (hh : h ≤ 0x100) : Provided wrapNum demoEnv (demoLayout h) demoX demoState.mem := by
  have hx : ∀ v < 2, (word 0x1000 v).toNat = 0x1000 + 8 * v := fun v hv => word_toNat _ _ (by decide) (by omega)
  have ht : ∀ f, (word 0x3000 (fnIndex f)).toNat = 0x3000 + 8 * fnIndex f := fun f => word_toNat _ _ (by decide) (by cases f <;> decide)
  have hhp : ∀ j < h, (word 0x2000 j).toNat = 0x2000 + 8 * j := fun j hj => word_toNat _ _ (by decide) (by omega)
  have hf : ∀ f, fnIndex f < 12 := by intro f; cases f <;> decide
  refine ⟨(by decide : (0x1000 : UInt64).toNat % 8 = 0), (by decide : (0x2000 : UInt64).toNat % 8 = 0), (by decide : (0x3000 : UInt64).toNat % 8 = 0), (by decide : (0x8008 : UInt64).toNat % 16 = 8),
    (by decide : (0x7000 : UInt64).toNat + 32 ≤ (0x8008 : UInt64).toNat), fun _ _ _ => rfl, fun _ _ => rfl, fun _ _ => rfl, fun _ _ => rfl, fun _ _ => rfl, fun _ => rfl, ?_, ?_, ?_, (by decide : 2 + 16 < 2 ^ 28), ?_, ?_, ?_⟩
  · intro v hv
    have hv : v < 2 := hv
    refine ⟨fun hc => ?_, fun ⟨j, hj, hc⟩ => ?_⟩
    · have h1 : 0x7000 ≤ (word 0x1000 v).toNat := hc.1
      rw [hx v hv] at h1; omega
    · have hj : j < h := hj
      have h1 : (word 0x1000 v).toNat = (word 0x2000 j).toNat := congrArg UInt64.toNat hc
      rw [hx v hv, hhp j hj] at h1; omega
  · intro f
    have := hf f
    refine ⟨fun hc => ?_, fun ⟨j, hj, hc⟩ => ?_⟩
    · have h1 : 0x7000 ≤ (word 0x3000 (fnIndex f)).toNat := hc.1
      rw [ht f] at h1; omega
    · have hj : j < h := hj
      have h1 : (word 0x3000 (fnIndex f)).toNat = (word 0x2000 j).toNat := congrArg UInt64.toNat hc
      rw [ht f, hhp j hj] at h1; omega
  · intro j hj
    have hj : j < h := hj
    refine ⟨fun hc => ?_, fun hc => ?_⟩
    · have h1 : 0x7000 ≤ (word 0x2000 j).toNat := hc.1
      rw [hhp j hj] at h1; omega
    · have h1 : (word 0x2000 j).toNat = 0x8008 := congrArg UInt64.toNat hc
      rw [hhp j hj] at h1; omega
  · show h + 16 < 2 ^ 28; omega
  · intro v hv
    have hv : v < 2 := hv
    have : v = 0 ∨ v = 1 := by omega
    rcases this with rfl | rfl
    · exact (by decide : demoState.mem (word 0x1000 0) = demoX 0)
    · exact (by decide : demoState.mem (word 0x1000 1) = demoX 1)
  · intro f
    have h1 : demoState.mem (word 0x3000 (fnIndex f)) = UInt64.ofNat (0x4000 + fnIndex f) := by cases f <;> decide
    show demoEnv.extern (demoState.mem (word 0x3000 (fnIndex f))) = _
    have h2 : (UInt64.ofNat (0x4000 + fnIndex f)).toNat - 0x4000 = fnIndex f := by
      have := hf f
      rw [UInt64.toNat_ofNat']; omega
    rw [h1]
    simp only [demoEnv, h2]
    cases f <;> rfl

/-- `exp(x0 * x1) - 3`, recorded. -/
def demoExpr : Expr UInt64 := .op .sub (.fn .exp (.op .mul (.var 0) (.var 1))) (.val 3)
def demoRecord : Store UInt64 × Nat := record wrapNum (mkX (α := UInt64) 2).2 demoExpr (mkX 2).1

/-- The bytes. -/
example : (genF demoRecord.1 100 demoRecord.2).map (Option.map (fun p => (p.1.length, p.1.take 28, p.2))) = some (some (134,
    [0x53, 0x48, 0x89, 0xf3, 0x48, 0xb8, 3, 0, 0, 0, 0, 0, 0, 0, 0x48, 0x89, 0x83, 0xb0, 0, 0, 0, 0xf2, 0x0f, 0x10, 0x87, 0x88, 0, 0], 8)) := by decide +kernel

/-- Called in the concrete machine: `3 * (6 * 7) - 3`, as `exp` is the function number 2. -/
example : (match (genF demoRecord.1 100 demoRecord.2) with
    | some (some (code, _)) => match exec wrapNum demoEnv code.length code (entry 0x1000 0x2000 0x3000 demoState) with
      | .returned a s => some (a, s.xmm 0, s.regs rbx, s.regs rsp)
      | _ => none
    | _ => none) = some (0x1234, 123, 503, 0x8010) := by decide +kernel

/-- The hypotheses of `compiled_is_interpreted` hold here. -/
example : demoExpr.VarsBelow 2 ∧ wrapNum.Exact ∧ Provided wrapNum demoEnv (demoLayout 8) demoX demoState.mem ∧ demoState.regs rsp = (demoLayout 8).sp :=
  ⟨⟨⟨(by decide : (0 : Nat) < 2), (by decide : (1 : Nat) < 2)⟩, trivial⟩, wrapNum_exact, demo_provided 8 (by decide), rfl⟩

/-- A gradient of two components which share a node. -/
def demoGrad : Store UInt64 := ⟨[.var 0, .var 0, .var 0, .var 1, .op .mul 2 3, .fn .sqrt 4, .op .add 4 5], [], fun _ _ => none, 2⟩

example : (match (genG demoGrad 100 [6, 4]) with
    | some (some (code, _)) => match exec wrapNum demoEnv code.length code (entry 0x1000 0x2000 0x3000 demoState) with
      | .returned a s => some (a, s.mem 0x2000, s.mem 0x2008, s.regs rbx, s.regs rsp)
      | _ => none
    | _ => none) = some (0x1234, 126, 42, 503, 0x8010) := by decide +kernel

/-- The hypotheses of `compiled_gradient` hold here. -/
example : ∀ p ∈ [(6, Expr.op .add (.op .mul (.var 0) (.var 1)) (.fn .sqrt (.op .mul (.var 0) (.var 1)))), (4, .op .mul (.var 0) (.var 1))],
    Denotes demoGrad p.1 p.2 ∧ 2 ≤ p.1 := by
  have v0 : Denotes demoGrad 2 (.var 0) := .var rfl
  have v1 : Denotes demoGrad 3 (.var 1) := .var rfl
  have m : Denotes demoGrad 4 (.op .mul (.var 0) (.var 1)) := .op rfl v0 v1
  have q : Denotes demoGrad 5 (.fn .sqrt (.op .mul (.var 0) (.var 1))) := .fn rfl m
  intro p hp
  simp only [List.mem_cons, List.not_mem_nil, or_false] at hp
  rcases hp with rfl | rfl
  · exact ⟨.op rfl m q, by decide⟩
  · exact ⟨m, by decide⟩

/-! ### Limits of the encoding -/

/-- **C97 (finding).** The check that would reject large offsets is compiled only when assertions are disabled, so it never does anything. From 2^28 - 16 nodes on, the displacement is negative: the instruction for element 2^28 - 16 accesses 2^31 bytes before the shifted pointer. -/
theorem displacement_wraps (rest : List UInt8) : decode (loadRbx (2 ^ 28 - 16) ++ rest) = some (.movsdLoad 0 (.mem rbx (0 - 0x80000000)), rest) := rfl

/-- Every smaller offset is right. -/
theorem displacement_right (j : Nat) (h : j < 2 ^ 28 - 16) (p : UInt64) (rest : List UInt8) :
    ∃ d, decode (loadRbx j ++ rest) = some (.movsdLoad 0 (.mem rbx d), rest) ∧ (p - 128) + d = p + UInt64.ofNat (8 * j) :=
  ⟨off j, decode_loadRbx (by unfold Small; omega) rest, shifted p j⟩

/-- **C97 (finding).** `call_function_from_rdx_pointers_array_by_index` accepts indexes up to 30, but calls the right function only up to 14: number 15 would be the one 16 places before the table. There are 12 functions, so this is not reached. -/
theorem call_index_limit (rest : List UInt8) : decode (callIndex 15 ++ rest) = some (.call (.mem rdx (0 - 128)), rest) := rfl

theorem call_index_right (k : Nat) (h : k ≤ 14) (p : UInt64) (rest : List UInt8) :
    ∃ d, decode (callIndex k ++ rest) = some (.call (.mem rdx d), rest) ∧ (p - 8) + d = p + UInt64.ofNat (8 * k) := by
  refine ⟨_, decode_call k (by omega) rest, ?_⟩
  rw [show (k + 1) * 8 = 8 * k + 8 by omega, UInt64.ofNat_add, show UInt64.ofNat 8 = 8 from rfl]
  grind

end Current.Jit
