/-!
# fncas: recording and evaluating expressions

Model of `fncas/fncas/node.h` and `fncas/fncas/base.h`: the per-thread vector of expression nodes, the
operators and functions that record a computation into it, and `eval_node`, the evaluator with a manual
stack and a cache.

Everything here is generic in the type `α` of numbers and in the meaning of the operations (`Num α`), so
that the theorems about recording and evaluation apply to IEEE doubles (with whatever rounding, infinities
and NaNs they have) exactly as they apply to real numbers.
-/

namespace Current.Fncas

/-- `enum class MathOperation` (fncas/fncas/base.h:70). -/
inductive Op | add | sub | mul | div
  deriving DecidableEq, Repr

/-- `enum class MathFunction` (fncas/fncas/base.h:71-76, fncas/fncas/fncas_functions.dsl.h:27-38). -/
inductive Fn | sqr | sqrt | exp | log | sin | cos | tan | asin | acos | atan | unitStep | ramp
  deriving DecidableEq, Repr

/-- The numbers the library computes with: `apply_operation` (node.h:97-107), `apply_function`
(node.h:65-75), the literals in the code, and the equality of the keys of `allocated_values_map_`
(`operator==` on `double_t`). -/
structure Num (α : Type) where
  op : Op → α → α → α
  fn : Fn → α → α
  lit : Int → α
  half : α
  eq : α → α → Bool

/-- `struct node_impl` (node.h:148-180): a variable, a value, an operation on two nodes or a function of one.
Simplification: the 18 packed bytes are a sum type, so that the accessors' assertions on the type cannot
fail. -/
inductive Node (α : Type) where
  | var (v : Nat)
  | val (c : α)
  | op (o : Op) (l r : Nat)
  | fn (f : Fn) (a : Nat)
  deriving DecidableEq, Repr

/-- `struct internals_impl` (node.h:111-143), the recording part: `node_vector_`, `allocated_values_map_`,
`df_` (`df v i` is the recorded derivative of node `i` by variable `v`; `none` is the `-1` of the code) and
`dim_`. -/
structure Store (α : Type) where
  nodes : List (Node α)
  consts : List (α × Nat)
  df : Nat → Nat → Option Nat
  dim : Nat

/-- `internals_impl::reset` (node.h:134-142) together with `meta.dim_ = dim` of `X::X` (node.h:427-429). -/
def Store.fresh (α : Type) (dim : Nat) : Store α := ⟨[], [], fun _ _ => none, dim⟩

/-- A piece of recording code: it appends nodes and returns the index of its result. -/
abbrev Build (α : Type) := Store α → Store α × Nat

/-- The node allocator `node_index_allocator(allocate_new)` (node.h:257-259) followed by filling the fields of
the new node. -/
def alloc {α : Type} (n : Node α) : Build α := fun s =>
  ({ s with nodes := s.nodes ++ [n] }, s.nodes.length)

/-- `GenericV()` (node.h:287): the new node is zero-initialised, which is the encoding of the variable
`x[0]` (`NodeType::variable` is `0`). -/
def mkDefault {α : Type} : Build α := alloc (.var 0)

/-- `create_variable_node` (node.h:308-313). -/
def mkVar {α : Type} (v : Nat) : Build α := alloc (.var v)

/-- `DECLARE_OP` (node.h:512-520): the operators on `V` always allocate a node. -/
def mkOp {α : Type} (o : Op) (l r : Nat) : Build α := alloc (.op o l r)

/-- `DECLARE_FUNCTION` (node.h:538-546): the functions on `V` always allocate a node. -/
def mkFn {α : Type} (f : Fn) (a : Nat) : Build α := alloc (.fn f a)

/-- `GenericV(double_t)` (node.h:288-291) with `node_index_allocator(allocate_for_double, value)`
(node.h:260-270): look the value up in `allocated_values_map_`, reuse that node or allocate one, and write
the value into the node. -/
def mkVal {α : Type} (N : Num α) (c : α) : Build α := fun s =>
  match s.consts.find? (fun p => N.eq p.1 c) with
  | some p => ({ s with nodes := s.nodes.set p.2 (.val c) }, p.2)
  | none =>
    ({ s with nodes := s.nodes ++ [.val c], consts := s.consts ++ [(c, s.nodes.length)] }, s.nodes.length)

/-- Sequencing of recording code. -/
def Build.bind {α : Type} (m : Build α) (k : Nat → Build α) : Build α := fun s => k (m s).2 (m s).1

/-- An already recorded node. -/
def Build.ret {α : Type} (i : Nat) : Build α := fun s => (s, i)

/-- Unary minus (node.h:587): `0.0 - x`. -/
def mkNeg {α : Type} (N : Num α) (x : Nat) : Build α :=
  (mkVal N (N.lit 0)).bind fun z => mkOp .sub z x

/-- `X::X` (node.h:419-436) after the checks: resizing the vector allocates `dim` default nodes, then `dim`
variable nodes are created. The indexes of the variables are returned. -/
def mkVars {α : Type} : Nat → Nat → Store α → Store α × List Nat
  | 0, _, s => (s, [])
  | n + 1, v, s =>
    let p := mkVar v s
    let q := mkVars n (v + 1) p.1
    (q.1, p.2 :: q.2)

/-- The `dim` nodes allocated by resizing a `std::vector<V>` (node.h:389, 398, 432; differentiate.h:308). -/
def mkDefaults {α : Type} : Nat → Store α → Store α
  | 0, s => s
  | n + 1, s => mkDefaults n (mkDefault s).1

/-- `X::X(dim)` (node.h:419-436): reset, then the junk and the variables. -/
def mkX {α : Type} (dim : Nat) : Store α × List Nat :=
  mkVars dim 0 (mkDefaults dim (Store.fresh α dim))

/-! ## Evaluation -/

/-- `node_computed_` and `node_value_` (node.h:120-122). -/
structure Cache (α : Type) where
  done : Nat → Bool
  value : Nat → α

/-- Entries of the manual stack of `eval_node` and `differentiate_node`: `visit i` is the non-negative `i`,
`finish i` is `~i`. -/
inductive Entry where
  | visit (i : Nat)
  | finish (i : Nat)
  deriving DecidableEq, Repr

/-- Writing the value of a node and its computed flag. -/
def Cache.put {α : Type} (c : Cache α) (i : Nat) (v : α) : Cache α :=
  ⟨fun j => if j = i then true else c.done j, fun j => if j = i then v else c.value j⟩

/-- One iteration of the loop of `eval_node` (node.h:196-240); `none` is an assertion failure (node.h:206, the
`CURRENT_ASSERT(false)`s) or an access past the end of the node vector. `n` is `x.size()`. -/
def evalStep {α : Type} (N : Num α) (s : Store α) (n : Nat) (x : Nat → α) (c : Cache α) :
    Entry → Option (Cache α × List Entry)
  | .visit i =>
    if c.done i then some (c, [])
    else
      match s.nodes[i]? with
      | some (.var v) => if v < n then some (c.put i (x v), []) else none
      | some (.val k) => some (c.put i k, [])
      | some (.op _ l r) => some (c, [.visit r, .visit l, .finish i])
      | some (.fn _ a) => some (c, [.visit a, .finish i])
      | none => none
  | .finish i =>
    match s.nodes[i]? with
    | some (.op o l r) => some (c.put i (N.op o (c.value l) (c.value r)), [])
    | some (.fn f a) => some (c.put i (N.fn f (c.value a)), [])
    | _ => none

/-- The loop of `eval_node` (node.h:195-241) with the number of iterations left; `none`: out of iterations,
`some none`: an assertion failed. -/
def evalLoop {α : Type} (N : Num α) (s : Store α) (n : Nat) (x : Nat → α) :
    Nat → Cache α → List Entry → Option (Option (Cache α))
  | _, c, [] => some (some c)
  | 0, _, _ :: _ => none
  | f + 1, c, e :: rest =>
    match evalStep N s n x c e with
    | none => some none
    | some (c', push) => evalLoop N s n x f c' (push ++ rest)

/-- `B.clear()` (node.h:190-192): nothing is computed; the values stay. -/
def Cache.invalidate {α : Type} (c : Cache α) : Cache α := ⟨fun _ => false, c.value⟩

/-- `eval_node` (node.h:185-245) within `fuel` iterations; `reuse` is `reuse_cache::reuse`. The result is the
value and the cache left behind. -/
def evalNode {α : Type} (N : Num α) (s : Store α) (n : Nat) (x : Nat → α) (fuel : Nat) (reuse : Bool)
    (c : Cache α) (i : Nat) : Option (Option (α × Cache α)) :=
  match evalLoop N s n x fuel (if reuse then c else c.invalidate) [.visit i] with
  | none => none
  | some none => some none
  | some (some c') => if c'.done i then some (some (c'.value i, c')) else some none

end Current.Fncas
