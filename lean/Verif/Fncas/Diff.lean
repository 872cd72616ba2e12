import Verif.Fncas.Node

/-!
# fncas: symbolic differentiation, the code

Model of `fncas/fncas/differentiate.h`: the rules (`d_add`, `d_sub`, `simplified_mul`, `d_mul`, `d_op`,
`d_f`), the traversal `differentiate_node` with its table of recorded derivatives, and the gradient
`g_impl<JIT::Blueprint>`. Generic in the numbers, like `Verif.Fncas.Node`.

Where C++ leaves the order of evaluation of two operands open, the model evaluates the left one first; this
only affects the numbering of the nodes.
-/

namespace Current.Fncas

variable {α : Type}

/-- `is_value()` and `value()` (node.h:295-296). -/
def valueOf (s : Store α) (i : Nat) : Option α :=
  match s.nodes[i]? with
  | some (.val c) => some c
  | _ => none

/-- `equals_to` (node.h:297). -/
def equalsTo (N : Num α) (s : Store α) (i : Nat) (k : α) : Bool :=
  match valueOf s i with
  | some c => N.eq c k
  | none => false

/-- `d_add` (differentiate.h:69-81). -/
def dAdd (N : Num α) (da db : Nat) : Build α := fun s =>
  match valueOf s da, valueOf s db with
  | some c, some d => mkVal N (N.op .add c d) s
  | _, _ =>
    if equalsTo N s db (N.lit 0) then (s, da)
    else if equalsTo N s da (N.lit 0) then (s, db)
    else mkOp .add da db s

/-- `d_sub` (differentiate.h:83-95). -/
def dSub (N : Num α) (da db : Nat) : Build α := fun s =>
  match valueOf s da, valueOf s db with
  | some c, some d => mkVal N (N.op .sub c d) s
  | _, _ =>
    if equalsTo N s db (N.lit 0) then (s, da)
    else if equalsTo N s da (N.lit 0) then mkNeg N db s
    else mkOp .sub da db s

/-- `simplified_mul` (differentiate.h:97-109). -/
def simplifiedMul (N : Num α) (x y : Nat) : Build α := fun s =>
  if equalsTo N s x (N.lit 0) || equalsTo N s y (N.lit 0) then mkVal N (N.lit 0) s
  else
    match valueOf s x, valueOf s y with
    | some c, some d => mkVal N (N.op .mul c d) s
    | _, _ =>
      if equalsTo N s y (N.lit 1) then (s, x)
      else if equalsTo N s x (N.lit 1) then (s, y)
      else mkOp .mul x y s

/-- `d_mul` (differentiate.h:111-123). -/
def dMul (N : Num α) (a b da db : Nat) : Build α := fun s =>
  let lhsZero := equalsTo N s a (N.lit 0) || equalsTo N s db (N.lit 0)
  let rhsZero := equalsTo N s b (N.lit 0) || equalsTo N s da (N.lit 0)
  if lhsZero && rhsZero then mkVal N (N.lit 0) s
  else if lhsZero then simplifiedMul N b da s
  else if rhsZero then simplifiedMul N a db s
  else ((simplifiedMul N a db).bind fun p => (simplifiedMul N b da).bind fun q => mkOp .add p q) s

/-- The quotient rule of `d_op` (differentiate.h:128-131). -/
def dDiv (N : Num α) (a b da db : Nat) : Build α :=
  (simplifiedMul N b da).bind fun p => (simplifiedMul N a db).bind fun q => (mkOp .sub p q).bind fun u =>
    (mkOp .mul b b).bind fun w => mkOp .div u w

/-- `d_op` (differentiate.h:125-133). -/
def dOp (N : Num α) (o : Op) (a b da db : Nat) : Build α :=
  match o with
  | .add => dAdd N da db
  | .sub => dSub N da db
  | .mul => dMul N a b da db
  | .div => dDiv N a b da db

/-- `sqrt(V(1.0) - x * x)` in the rules of `asin` and `acos` (differentiate.h:175, 177, 183, 185). -/
def rootOneMinusSq (N : Num α) (x : Nat) : Build α :=
  (mkVal N (N.lit 1)).bind fun one => (mkOp .mul x x).bind fun q => (mkOp .sub one q).bind fun d => mkFn .sqrt d

/-- `x * x + V(1.0)` in the rule of `atan` (differentiate.h:191, 193). -/
def sqPlusOne (N : Num α) (x : Nat) : Build α :=
  (mkOp .mul x x).bind fun q => (mkVal N (N.lit 1)).bind fun one => mkOp .add q one

/-- The table of `d_f` (differentiate.h:135-204) for `original = f(x)` with `dx` the derivative of `x`. `none` is
the exception `FnCASZeroOrOneIsNonDifferentiable`. -/
def dFn (N : Num α) (f : Fn) (original x dx : Nat) : Option (Build α) :=
  match f with
  | .sqr => some <| (mkVal N (N.lit 2)).bind fun two => (simplifiedMul N x dx).bind fun p => simplifiedMul N two p
  | .sqrt => some fun s =>
    match valueOf s original with
    | some c => ((mkVal N (N.op .div N.half c)).bind fun k => simplifiedMul N k dx) s
    | none => ((mkOp .add original original).bind fun d => mkOp .div dx d) s
  | .exp => some <| simplifiedMul N original dx
  | .log => some fun s =>
    match valueOf s x with
    | some c => ((mkVal N (N.lit 1)).bind fun one => (mkVal N c).bind fun k => (mkOp .div one k).bind fun q =>
        simplifiedMul N q dx) s
    | none => mkOp .div dx x s
  | .sin => some <| (mkFn .cos x).bind fun c => simplifiedMul N dx c
  | .cos => some <| (mkVal N (N.lit (-1))).bind fun m => (mkFn .sin x).bind fun c => (simplifiedMul N dx c).bind fun p =>
      simplifiedMul N m p
  | .tan => some <|
      (mkVal N (N.lit 4)).bind fun four => (mkFn .cos x).bind fun c1 => (mkFn .cos x).bind fun c2 =>
      (mkOp .mul c1 c2).bind fun cc => (simplifiedMul N dx cc).bind fun p => (simplifiedMul N four p).bind fun a =>
      (mkOp .add x x).bind fun xx => (mkFn .cos xx).bind fun c3 => (mkVal N (N.lit 1)).bind fun one =>
      (mkOp .add c3 one).bind fun b => fun s =>
        match valueOf s b with
        | some c => ((mkVal N (N.op .div (N.lit 1) c)).bind fun k => simplifiedMul N k a) s
        | none => ((mkOp .mul b b).bind fun bb => mkOp .div a bb) s
  | .asin => some fun s =>
    match valueOf s x with
    | some _ => ((mkVal N (N.lit 1)).bind fun one => (rootOneMinusSq N x).bind fun r => (mkOp .div one r).bind fun q =>
        simplifiedMul N q dx) s
    | none => ((rootOneMinusSq N x).bind fun r => mkOp .div dx r) s
  | .acos => some fun s =>
    match valueOf s x with
    | some _ => ((mkVal N (N.lit (-1))).bind fun m => (rootOneMinusSq N x).bind fun r => (mkOp .div m r).bind fun q =>
        simplifiedMul N q dx) s
    | none => ((mkVal N (N.lit (-1))).bind fun m => (mkOp .mul m dx).bind fun p => (rootOneMinusSq N x).bind fun r =>
        mkOp .div p r) s
  | .atan => some fun s =>
    match valueOf s x with
    | some _ => ((mkVal N (N.lit 1)).bind fun one => (sqPlusOne N x).bind fun r => (mkOp .div one r).bind fun q =>
        simplifiedMul N q dx) s
    | none => ((sqPlusOne N x).bind fun r => mkOp .div dx r) s
  | .unitStep => none
  | .ramp => some <| (mkFn .unitStep x).bind fun u => mkOp .mul u dx

/-- Recording a derivative in `df_` (differentiate.h:228, 230, 251, 257). -/
def Store.setDf (s : Store α) (v i d : Nat) : Store α :=
  { s with df := fun v' i' => if v' = v ∧ i' = i then some d else s.df v' i' }

/-- Why a differentiation stops: the exception of `unit_step`, or a failed assertion. -/
inductive DErr | nonDifferentiable | assertion
  deriving DecidableEq, Repr

/-- One iteration of the loop of `differentiate_node` (differentiate.h:221-264). -/
def dStep (N : Num α) (v zero one : Nat) (s : Store α) : Entry → Store α × (List Entry ⊕ DErr)
  | .visit i =>
    match s.nodes[i]? with
    | some (.var w) => if w = v then (s.setDf v i one, .inl []) else (s.setDf v i zero, .inl [])
    | some (.val _) => (s.setDf v i zero, .inl [])
    | some (.op _ l r) => (s, .inl [.visit r, .visit l, .finish i])
    | some (.fn _ a) => (s, .inl [.visit a, .finish i])
    | none => (s, .inr .assertion)
  | .finish i =>
    match s.nodes[i]? with
    | some (.op o a b) =>
      match s.df v a, s.df v b with
      | some da, some db =>
        let p := dOp N o a b da db s
        (p.1.setDf v i p.2, .inl [])
      | _, _ => (s, .inr .assertion)
    | some (.fn f x) =>
      match s.df v x with
      | some dx =>
        match dFn N f i x dx with
        | some m => let p := m s; (p.1.setDf v i p.2, .inl [])
        | none => (s, .inr .nonDifferentiable)
      | none => (s, .inr .assertion)
    | _ => (s, .inr .assertion)

/-- The loop (differentiate.h:220-265) with the number of iterations left; `none`: out of iterations. -/
def dLoop (N : Num α) (v zero one : Nat) : Nat → Store α → List Entry → Option (Store α × Option DErr)
  | _, s, [] => some (s, none)
  | 0, _, _ :: _ => none
  | f + 1, s, e :: rest =>
    match dStep N v zero one s e with
    | (s', .inl push) => dLoop N v zero one f s' (push ++ rest)
    | (s', .inr err) => some (s', some err)

/-- `differentiate_node` (differentiate.h:208-269) within `fuel` iterations of its loop: the derivative's node, or
why it stopped, and the store. -/
def differentiate (N : Num α) (fuel : Nat) (i v : Nat) (s : Store α) : Option (Store α × (Nat ⊕ DErr)) :=
  if v < s.dim then
    match s.df v i with
    | some d => some (s, .inl d)
    | none =>
      let p := mkVal N (N.lit 0) s
      let q := mkVal N (N.lit 1) p.1
      match dLoop N v p.2 q.2 fuel q.1 [.visit i] with
      | none => none
      | some (s', some err) => some (s', .inr err)
      | some (s', none) =>
        match s'.df v i with
        | some d => some (s', .inl d)
        | none => some (s', .inr .assertion)
  else some (s, .inr .assertion)

/-- The loop of the constructor of `g_impl<JIT::Blueprint>` (differentiate.h:309-311) over the variables `v, v+1, …`
(`n` of them). -/
def gradientFrom (N : Num α) (fuel : Nat) (f : Nat) : Nat → Nat → Store α → Option (Store α × (List Nat ⊕ DErr))
  | 0, _, s => some (s, .inl [])
  | n + 1, v, s =>
    match differentiate N fuel f v s with
    | none => none
    | some (s', .inr err) => some (s', .inr err)
    | some (s', .inl d) =>
      match gradientFrom N fuel f n (v + 1) s' with
      | some (s'', .inl ds) => some (s'', .inl (d :: ds))
      | r => r

/-- The constructor of `g_impl<JIT::Blueprint>` (differentiate.h:305-313): `g_.resize(dim)` allocates `dim` nodes,
then `f` is differentiated by every variable. -/
def gradient (N : Num α) (fuel : Nat) (f : Nat) (s : Store α) : Option (Store α × (List Nat ⊕ DErr)) :=
  gradientFrom N fuel f s.dim 0 (mkDefaults s.dim s)

/-- The loop of `g_impl<JIT::Blueprint>::operator()` (differentiate.h:322-329): the first component is evaluated
with an invalidated cache, the others reuse it. -/
def gradientEvalFrom (N : Num α) (s : Store α) (n : Nat) (x : Nat → α) (fuel : Nat) :
    Bool → Cache α → List Nat → Option (Option (List α × Cache α))
  | _, c, [] => some (some ([], c))
  | reuse, c, d :: ds =>
    match evalNode N s n x fuel reuse c d with
    | none => none
    | some none => some none
    | some (some (y, c')) =>
      match gradientEvalFrom N s n x fuel true c' ds with
      | some (some (ys, c'')) => some (some (y :: ys, c''))
      | r => r

/-- `g_impl<JIT::Blueprint>::operator()` (differentiate.h:322-329). -/
def gradientEval (N : Num α) (s : Store α) (n : Nat) (x : Nat → α) (fuel : Nat) (c : Cache α) (ds : List Nat) :
    Option (Option (List α × Cache α)) := gradientEvalFrom N s n x fuel false c ds

end Current.Fncas
