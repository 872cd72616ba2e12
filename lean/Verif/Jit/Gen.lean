import Verif.Jit.X64
/-!
Model of the code generator: `fncas/x64_native_jit/x64_native_jit.h` and the part of `fncas/fncas/jit.h` that uses it (C97).
Simplification: offsets are natural numbers; in the code they are 64-bit, and no vector is so long that they overflow.
-/
namespace Current.Jit
open Current.Fncas

/-- The last four bytes written in all `internal_…` functions, `x64_native_jit.h:176-184`. -/
def le4 (o : Nat) : List UInt8 := [UInt8.ofNat o, UInt8.ofNat (o / 256), UInt8.ofNat (o / 65536), UInt8.ofNat (o / 16777216)]

/-- The offset in bytes from the shifted pointer, `x64_native_jit.h:176-178`. -/
def disp (offset : Nat) : List UInt8 := le4 ((offset + 16) * 8)

/-- The bytes of a double, `x64_native_jit.h:165-171`. -/
def le8 (v : UInt64) : List UInt8 :=
  [v.toUInt8, (v >>> 8).toUInt8, (v >>> 16).toUInt8, (v >>> 24).toUInt8, (v >>> 32).toUInt8, (v >>> 40).toUInt8, (v >>> 48).toUInt8, (v >>> 56).toUInt8]

/-- `push_rbx` … `ret`, `x64_native_jit.h:108-158`. -/
def pushRbx : List UInt8 := [0x53]
def pushRdi : List UInt8 := [0x57]
def pushRdx : List UInt8 := [0x52]
def movRsiRbx : List UInt8 := [0x48, 0x89, 0xf3]
def popRbx : List UInt8 := [0x5b]
def popRdi : List UInt8 := [0x5f]
def popRdx : List UInt8 := [0x5a]
def retCode : List UInt8 := [0xc3]

/-- `load_immediate_to_memory_by_rbx_offset`, `x64_native_jit.h:160-198`. -/
def immToRbx (offset : Nat) (v : UInt64) : List UInt8 := [0x48, 0xb8] ++ le8 v ++ [0x48, 0x89, 0x83] ++ disp offset

/-- `load_from_memory_by_rdi_offset_to_xmm0`, `load_from_memory_by_rbx_offset_to_xmm0`, `x64_native_jit.h:200-230`. -/
def loadRdi (offset : Nat) : List UInt8 := [0xf2, 0x0f, 0x10, 0x87] ++ disp offset
def loadRbx (offset : Nat) : List UInt8 := [0xf2, 0x0f, 0x10, 0x83] ++ disp offset

/-- `add_from_memory_by_rbx_offset_to_xmm0` …, `x64_native_jit.h:232-307`, as chosen in `jit.h:846-885`. -/
def opCode : Op → UInt8
  | .add => 0x58
  | .sub => 0x5c
  | .mul => 0x59
  | .div => 0x5e

def opRbx (o : Op) (offset : Nat) : List UInt8 := [0xf2, 0x0f, opCode o, 0x83] ++ disp offset

/-- `store_xmm0_to_memory_by_rbx_offset`, `x64_native_jit.h:309-334`. -/
def storeRbx (offset : Nat) : List UInt8 := [0xf2, 0x0f, 0x11, 0x83] ++ disp offset

/-- The number of a function: its place in `fncas_functions.dsl.h:27-38`. -/
def fnIndex : Fn → Nat
  | .sqr => 0 | .sqrt => 1 | .exp => 2 | .log => 3 | .sin => 4 | .cos => 5 | .tan => 6 | .asin => 7 | .acos => 8 | .atan => 9 | .unitStep => 10 | .ramp => 11

/-- `call_function_from_rdx_pointers_array_by_index`, `x64_native_jit.h:336-342`. -/
def callIndex (k : Nat) : List UInt8 := [0xff, 0x52, UInt8.ofNat ((k + 1) * 8)]

/-- `JITCodeGenerator`, `jit.h:783-788`. -/
structure Gen where
  code : List UInt8
  computed : Nat → Bool
  maxDim : Nat

def Gen.emit (g : Gen) (c : List UInt8) : Gen := { g with code := g.code ++ c }

/-- One iteration of the loop of `jit_compile_node`, `jit.h:818-911`; `none` is an access past the end of the node vector (or an assertion on the type of the node). -/
def genStep (s : Store UInt64) (dim : Nat) (g : Gen) : Entry → Option (Gen × List Entry)
  | .visit i =>
    let g := { g with maxDim := max g.maxDim i }
    if g.computed i then some (g, [])
    else
      let g := { g with computed := fun j => if j = i then true else g.computed j }
      match s.nodes[i]? with
      | some (.var v) => some (g.emit (loadRdi v ++ storeRbx (i + dim)), [])
      | some (.val c) => some (g.emit (immToRbx (i + dim) c), [])
      | some (.op _ l r) => some (g, [.visit r, .visit l, .finish i])
      | some (.fn _ a) => some (g, [.visit a, .finish i])
      | none => none
  | .finish i =>
    match s.nodes[i]? with
    | some (.op o l r) => some (g.emit (loadRbx (l + dim) ++ opRbx o (r + dim) ++ storeRbx (i + dim)), [])
    | some (.fn f a) => some (g.emit (loadRbx (a + dim) ++ pushRdi ++ pushRdx ++ callIndex (fnIndex f) ++ popRdx ++ popRdi ++ storeRbx (i + dim)), [])
    | _ => none

/-- The loop, `jit.h:812-912`; `none`: out of iterations, `some none`: `genStep` failed. -/
def genLoop (s : Store UInt64) (dim : Nat) : Nat → Gen → List Entry → Option (Option Gen)
  | _, g, [] => some (some g)
  | 0, _, _ :: _ => none
  | n + 1, g, e :: rest =>
    match genStep s dim g e with
    | none => some none
    | some (g', push) => genLoop s dim n g' (push ++ rest)

/-- The constructor and the destructor of `JITCodeGenerator`, `jit.h:790-810`. -/
def Gen.start : Gen := ⟨pushRbx ++ movRsiRbx, fun _ => false, 0⟩
def Gen.finish (g : Gen) : List UInt8 := g.code ++ popRbx ++ retCode

/-- `f_compiled_x64_native_jit::generate_code_for_f`, `jit.h:931-955`: the code and the size of the heap. -/
def genF (s : Store UInt64) (fuel : Nat) (i : Nat) : Option (Option (List UInt8 × Nat)) :=
  match genLoop s 0 fuel Gen.start [.visit i] with
  | none => none
  | some none => some none
  | some (some g) => some (some ((g.emit (loadRbx i)).finish, g.maxDim + 1))

/-- The loop in `g_compiled_x64_native_jit`, `jit.h:974-984, 994-997`. -/
def genGs (s : Store UInt64) (dim fuel : Nat) : List Nat → Nat → Gen → Option (Option Gen)
  | [], _, g => some (some g)
  | i :: is, k, g =>
    match genLoop s dim fuel g [.visit i] with
    | none => none
    | some none => some none
    | some (some g) => genGs s dim fuel is (k + 1) (g.emit (loadRbx (i + dim) ++ storeRbx k))

/-- `g_compiled_x64_native_jit`, `jit.h:986-1010`: the code and the size of the heap; `some none` is also the failure of the assertion in line 998. -/
def genG (s : Store UInt64) (fuel : Nat) (is : List Nat) : Option (Option (List UInt8 × Nat)) :=
  match genGs s is.length fuel is 0 Gen.start with
  | none => none
  | some none => some none
  | some (some g) => if is.length ≤ g.maxDim + 1 then some (some (g.finish, is.length + g.maxDim + 1)) else some none

/-- The registers when the code is called, `x64_native_jit.h:93-97`, `jit.h:961-963, 1013-1016`: the pointers are shifted by 16 doubles and by one function. The rest of the state is as in `s`. -/
def entry (xp hp tp : UInt64) (s : State) : State := ((s.setReg rdi (xp - 128)).setReg rsi (hp - 128)).setReg rdx (tp - 8)

end Current.Jit
