import Verif.Fncas.Node
/-!
The part of the x86-64 instruction set that the native JIT compiler of fncas emits, after the Intel manual and the System V calling convention. Nothing here is from the repository: it is the specification of the machine.

Simplifications. Memory is a word of 64 bits at every address divisible by 8, and an access to another address is a fault. Of the SSE registers only the low halves are there. Doubles are their 64 bits, and what `addsd` etc. do to them is a parameter.
The code is not in the modelled memory.
-/
namespace Current.Jit
open Current.Fncas

/-- The numbers of the registers in instructions. -/
abbrev rax : Nat := 0
abbrev rdx : Nat := 2
abbrev rbx : Nat := 3
abbrev rsp : Nat := 4
abbrev rbp : Nat := 5
abbrev rsi : Nat := 6
abbrev rdi : Nat := 7

structure State where
  regs : Nat → UInt64
  xmm : Nat → UInt64
  mem : UInt64 → UInt64

/-- The rest of the process: what memory may be accessed, where the functions are and what they leave behind. -/
structure Env where
  readable : UInt64 → Bool
  writable : UInt64 → Bool
  /-- the end of the stack -/
  stackLow : UInt64
  /-- the functions of one argument that can be called, by their addresses -/
  extern : UInt64 → Option (UInt64 → UInt64)
  /-- what a call leaves in the registers it need not keep, and in the stack below the caller's part -/
  leftReg : State → Nat → UInt64
  leftXmm : State → Nat → UInt64
  leftMem : State → UInt64 → UInt64

inductive Operand where
  | reg (r : Nat)
  | mem (base : Nat) (disp : UInt64)
  deriving DecidableEq, Repr

inductive Instr where
  | push (r : Nat)
  | pop (r : Nat)
  | mov (dst : Operand) (src : Nat)        -- `mov r/m64, r64`
  | movImm (r : Nat) (v : UInt64)          -- `movabs`
  | movsdLoad (x : Nat) (src : Operand)
  | movsdStore (dst : Operand) (x : Nat)
  | arith (o : Op) (x : Nat) (src : Operand)
  | call (f : Operand)
  | ret
  deriving DecidableEq, Repr

/-! ### Decoding -/

def disp8 (b : UInt8) : UInt64 := if b.toNat < 128 then UInt64.ofNat b.toNat else UInt64.ofNat b.toNat - 256

def disp32 (a b c d : UInt8) : UInt64 :=
  let n := a.toNat + 256 * (b.toNat + 256 * (c.toNat + 256 * d.toNat))
  if n < 2 ^ 31 then UInt64.ofNat n else UInt64.ofNat n - 0x100000000

def imm64 : List UInt8 → Nat
  | [] => 0
  | b :: bs => b.toNat + 256 * imm64 bs

/-- A ModRM byte and the displacement. SIB bytes and addresses relative to the instruction are left out. -/
def modrm : List UInt8 → Option (Nat × Operand × List UInt8)
  | [] => none
  | b :: rest =>
    let mod := b.toNat / 64
    let reg := b.toNat / 8 % 8
    let rm := b.toNat % 8
    if mod = 3 then some (reg, .reg rm, rest)
    else if rm = 4 then none
    else if mod = 0 then (if rm = 5 then none else some (reg, .mem rm 0, rest))
    else if mod = 1 then
      match rest with
      | d :: rest => some (reg, .mem rm (disp8 d), rest)
      | _ => none
    else
      match rest with
      | d0 :: d1 :: d2 :: d3 :: rest => some (reg, .mem rm (disp32 d0 d1 d2 d3), rest)
      | _ => none

/-- `F2 0F op /r`. -/
def decodeSse (op : Nat) (rest : List UInt8) : Option (Instr × List UInt8) :=
  match modrm rest with
  | none => none
  | some (x, m, rest) =>
    if op = 0x10 then some (.movsdLoad x m, rest)
    else if op = 0x11 then some (.movsdStore m x, rest)
    else if op = 0x58 then some (.arith .add x m, rest)
    else if op = 0x59 then some (.arith .mul x m, rest)
    else if op = 0x5c then some (.arith .sub x m, rest)
    else if op = 0x5e then some (.arith .div x m, rest)
    else none

/-- After the prefix `REX.W`. -/
def decodeRexW : List UInt8 → Option (Instr × List UInt8)
  | [] => none
  | b :: rest =>
    if b.toNat = 0x89 then
      match modrm rest with
      | none => none
      | some (r, m, rest) => some (.mov m r, rest)
    else if 0xb8 ≤ b.toNat ∧ b.toNat < 0xc0 then
      if rest.length < 8 then none else some (.movImm (b.toNat - 0xb8) (UInt64.ofNat (imm64 (rest.take 8))), rest.drop 8)
    else none

def decode : List UInt8 → Option (Instr × List UInt8)
  | [] => none
  | b :: rest =>
    if 0x50 ≤ b.toNat ∧ b.toNat < 0x58 then some (.push (b.toNat - 0x50), rest)
    else if 0x58 ≤ b.toNat ∧ b.toNat < 0x60 then some (.pop (b.toNat - 0x58), rest)
    else if b.toNat = 0xc3 then some (.ret, rest)
    else if b.toNat = 0x48 then decodeRexW rest
    else if b.toNat = 0xf2 then
      match rest with
      | c :: op :: rest => if c.toNat = 0x0f then decodeSse op.toNat rest else none
      | _ => none
    else if b.toNat = 0xff then
      match modrm rest with
      | some (2, m, rest) => some (.call m, rest)
      | _ => none
    else none

/-! ### Execution -/

def State.setReg (s : State) (r : Nat) (v : UInt64) : State := { s with regs := fun k => if k = r then v else s.regs k }
def State.setXmm (s : State) (r : Nat) (v : UInt64) : State := { s with xmm := fun k => if k = r then v else s.xmm k }
def State.setMem (s : State) (a v : UInt64) : State := { s with mem := fun k => if k = a then v else s.mem k }

def aligned (a : UInt64) : Bool := a.toNat % 8 = 0

def load (env : Env) (s : State) (a : UInt64) : Option UInt64 := if aligned a && env.readable a then some (s.mem a) else none

def store (env : Env) (s : State) (a v : UInt64) : Option State := if aligned a && env.writable a then some (s.setMem a v) else none

/-- The value of an operand of 64 bits. -/
def read (env : Env) (s : State) : Operand → Option UInt64
  | .reg r => some (s.regs r)
  | .mem b d => load env s (s.regs b + d)

inductive Outcome where
  | next (s : State)
  | returned (addr : UInt64) (s : State)
  | fault

/-- The registers a function must leave as they were. -/
def calleeSaved (r : Nat) : Bool := r = rbx || r = rsp || r = rbp || (12 ≤ r && r ≤ 15)

/-- A call, from the call to the return: the stack must be aligned by 16, there must be room for the return address, the argument and the result are in `xmm0`,
and except the kept registers and the caller's memory everything may change. -/
def callFunction (env : Env) (s : State) (addr : UInt64) : Outcome :=
  if (s.regs rsp).toNat % 16 ≠ 0 then .fault
  else if (s.regs rsp).toNat < env.stackLow.toNat + 8 then .fault
  else
    match env.extern addr with
    | none => .fault
    | some f => .next
      { regs := fun r => if calleeSaved r then s.regs r else env.leftReg s r
        xmm := fun x => if x = 0 then f (s.xmm 0) else env.leftXmm s x
        mem := fun a => if env.stackLow.toNat ≤ a.toNat ∧ a.toNat < (s.regs rsp).toNat then env.leftMem s a else s.mem a }

def step (N : Num UInt64) (env : Env) (i : Instr) (s : State) : Outcome :=
  match i with
  | .push r =>
    match store env s (s.regs rsp - 8) (s.regs r) with
    | some t => .next (t.setReg rsp (s.regs rsp - 8))
    | none => .fault
  | .pop r =>
    match load env s (s.regs rsp) with
    | some v => .next ((s.setReg rsp (s.regs rsp + 8)).setReg r v)
    | none => .fault
  | .mov (.reg d) r => .next (s.setReg d (s.regs r))
  | .mov (.mem b d) r =>
    match store env s (s.regs b + d) (s.regs r) with
    | some t => .next t
    | none => .fault
  | .movImm r v => .next (s.setReg r v)
  | .movsdLoad x (.mem b d) =>
    match load env s (s.regs b + d) with
    | some v => .next (s.setXmm x v)
    | none => .fault
  | .movsdStore (.mem b d) x =>
    match store env s (s.regs b + d) (s.xmm x) with
    | some t => .next t
    | none => .fault
  | .arith o x (.mem b d) =>
    match load env s (s.regs b + d) with
    | some v => .next (s.setXmm x (N.op o (s.xmm x) v))
    | none => .fault
  | .movsdLoad _ (.reg _) | .movsdStore (.reg _) _ | .arith _ _ (.reg _) => .fault   -- not needed, left out
  | .call m =>
    match read env s m with
    | some a => callFunction env s a
    | none => .fault
  | .ret =>
    match load env s (s.regs rsp) with
    | some a => .returned a (s.setReg rsp (s.regs rsp + 8))
    | none => .fault

/-- Executing code until it returns; `next` is running out of the bound on the number of instructions. -/
def exec (N : Num UInt64) (env : Env) : Nat → List UInt8 → State → Outcome
  | 0, _, s => .next s
  | n + 1, code, s =>
    match decode code with
    | none => .fault
    | some (i, rest) =>
      match step N env i s with
      | .next s => exec N env n rest s
      | o => o

end Current.Jit
