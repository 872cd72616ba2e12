/-!
# `Variant<...>`: one owned object of a listed type, or none

`typesystem/variant.h:136-363` and the dispatcher behind it, `bricks/template/rtti_dynamic_call.h:75-245`, over a heap.  A program is any
sequence of operations on any number of `Variant` variables of any variant types.  `make_unique` gives an address that is not in use.
The compile-time checks (the default build, without `VARIANT_CHECKS_AT_RUNTIME_INSTEAD_OF_COMPILE_TIME`) decide what is a program.
-/
namespace Current.Variant

/-- an address -/
abbrev Addr := Nat
/-- a C++ type -/
abbrev Ty := Nat
/-- a variant type: a name and a type list -/
abbrev Kind := Nat

/-- the types of a program -/
structure Types where
  /-- `typelist_t` of the variant types -/
  list : Kind → List Ty
  /-- the variant type itself, which may be in the list of another -/
  self : Kind → Ty
  /-- `dynamic_cast<X*>` of an object of this dynamic type succeeds -/
  casts : Ty → Ty → Bool
  /-- it does for the type itself -/
  casts_self : ∀ t, casts t t = true

/-- an object: its dynamic type and its contents -/
structure Obj (V : Type) where
  ty : Ty
  val : V

/-- `object_`, and the type of the variable -/
structure Var where
  kind : Kind
  own : Option Addr

/-- the memory and the variables -/
structure St (V : Type) where
  heap : Addr → Option (Obj V)
  vars : Nat → Option Var

/-- nothing yet -/
def St.init (V : Type) : St V := { heap := fun _ => none, vars := fun _ => none }

/-- the exceptions -/
inductive Err
  | uninitialized     -- `UninitializedVariantOfTypeException`
  | unlisted          -- `SpecificUnlistedTypeException`
  | uncastable        -- `SpecificUncastableTypeException`
  | incompatible      -- `IncompatibleVariantTypeException`
  | noValue           -- `NoValueOfTypeException`
  deriving DecidableEq, Repr

variable {V : Type}

/-- a store to a variable -/
def St.setVar (s : St V) (d : Nat) (o : Option Var) : St V := { s with vars := fun i => if i = d then o else s.vars i }
/-- a store to memory -/
def St.setHeap (s : St V) (a : Addr) (v : Option (Obj V)) : St V := { s with heap := fun i => if i = a then v else s.heap i }
/-- `delete` of what a `unique_ptr` has -/
def St.free (s : St V) : Option Addr → St V
  | none => s
  | some a => s.setHeap a none

/-- `RTTIFindHandler` and `Handle...`, `rtti_dynamic_call.h:116-152, 208-218`: the handler that is called is that of the exact type, and
it casts to it -/
def dispatch (T : Types) (l : List Ty) (t : Ty) : Except Err Ty :=
  match l.find? (fun u => u == t) with
  | none => .error .unlisted
  | some u => if T.casts t u then .ok u else .error .uncastable

/-- `Call`, `variant.h:227-243`, on an object that is there: the type the visitor gets -/
def call (T : Types) (k : Kind) (o : Option (Obj V)) : Except Err Ty :=
  match o with
  | none => .error .uninitialized
  | some o => dispatch T (T.list k) o.ty

/-- what `object_` points to -/
def St.obj (s : St V) (x : Var) : Option (Obj V) := x.own.bind s.heap

/-- `CopyFrom` with `TypeAwareClone`, `variant.h:288-310, 340-348`, into a variant of kind `k` that has `old`: the memory and the new
`object_`, or an exception, which leaves all as it was -/
def copyFrom (T : Types) (s : St V) (k : Kind) (old : Option Addr) (r : Var) (a : Addr) : Option (Except Err (St V × Option Addr)) :=
  match r.own with
  | none => some (.ok (s.free old, none))
  | some _ =>
    match call T r.kind (s.obj r) with
    | .error e => some (.error e)
    | .ok u =>
      if (T.list k).contains u then
        match s.obj r with
        | none => none
        | some o => if (s.heap a).isSome then none else some (.ok (((s.setHeap a (some ⟨u, o.val⟩)).free old), some a))
      else some (.error .incompatible)

/-- `MoveFrom` with `TypeAwareMove`, `variant.h:312-338, 350-358`, into a variant of kind `k` without an object: the new `object_`, that of
the source afterwards -/
def moveFrom (T : Types) (s : St V) (k : Kind) (r : Var) : Except Err (Option Addr × Option Addr) :=
  match r.own with
  | none => .ok (none, none)
  | some a =>
    match call T r.kind (s.obj r) with
    | .error e => .error e
    | .ok u => if (T.list k).contains u then .ok (some a, none) else .error .incompatible

/-- the operations; `d`, `s`: variables; `a`: where `make_unique` puts the object -/
inductive Op (V : Type)
  | new (d : Nat) (k : Kind)                                   -- `variant.h:144`
  | newValue (d : Nat) (k : Kind) (t : Ty) (v : V) (a : Addr)  -- `variant.h:179-183`
  | newCopy (d : Nat) (k : Kind) (s : Nat) (a : Addr)          -- `variant.h:150-154`, of any variant type
  | newMove (d : Nat) (s : Nat)                                -- `variant.h:157`, of the same type
  | newMoveOther (d : Nat) (k : Kind) (s : Nat)                -- `variant.h:159-169`
  | null (d : Nat)                                             -- `variant.h:186`
  | copy (d s : Nat) (a : Addr)                                -- `variant.h:188-191`; another type: by way of a temporary
  | move (d s : Nat)                                           -- `variant.h:193-196`; another type: by way of a temporary
  | value (d : Nat) (t : Ty) (v : V) (a : Addr)                -- `variant.h:198-210`
  | construct (d : Nat) (t : Ty) (v : V) (a : Addr)            -- `variant.h:216-224`
  | unchecked (d : Nat) (t : Ty) (v : V) (a : Addr)            -- `variant.h:146-147, 212-214`, an object of any type
  | visit (d : Nat) (f : Ty → V → V)                           -- `Call`, `variant.h:227-243`; `f`: what the visitor makes of it
  | write (d : Nat) (x : Ty) (f : V → V)                       -- `Value<X>(v)` and a change of it, `variant.h:258-266`
  | destroy (d : Nat)

/-- `none`: not a program; the exception if one is thrown -/
def step (T : Types) (s : St V) : Op V → Option (St V × Option Err)
  | .new d k => if (s.vars d).isSome then none else some (s.setVar d (some ⟨k, none⟩), none)
  | .newValue d k t v a =>
    if (s.vars d).isSome ∨ ¬(T.list k).contains t ∨ (s.heap a).isSome then none
    else some ((s.setHeap a (some ⟨t, v⟩)).setVar d (some ⟨k, some a⟩), none)
  | .newCopy d k src a =>
    if (s.vars d).isSome then none
    else match s.vars src with
      | none => none
      | some r =>
        match copyFrom T s k none r a with
        | none => none
        | some (.error e) => some (s, some e)            -- the constructor throws, there is no `d`
        | some (.ok (s, p)) => some (s.setVar d (some ⟨k, p⟩), none)
  | .newMove d src =>
    if (s.vars d).isSome then none
    else match s.vars src with
      | none => none
      | some r => some ((s.setVar src (some { r with own := none })).setVar d (some r), none)
  | .newMoveOther d k src =>
    if (s.vars d).isSome then none
    else match s.vars src with
      | none => none
      | some r =>
        if r.kind = k ∨ (T.list k).contains (T.self r.kind) then none
        else match moveFrom T s k r with
          | .error e => some (s, some e)
          | .ok (p, q) => some ((s.setVar src (some { r with own := q })).setVar d (some ⟨k, p⟩), none)
  | .null d =>
    match s.vars d with
    | none => none
    | some x => some ((s.free x.own).setVar d (some { x with own := none }), none)
  | .copy d src a =>
    match s.vars d, s.vars src with
    | some x, some r =>
      if r.kind = x.kind then
        match copyFrom T s x.kind x.own r a with
        | none => none
        | some (.error e) => some (s, some e)
        | some (.ok (s, p)) => some (s.setVar d (some { x with own := p }), none)
      else if (T.list x.kind).contains (T.self r.kind) then none        -- a nested variant: this is `value`
      else
        -- a temporary, then the move assignment from it
        match copyFrom T s x.kind none r a with
        | none => none
        | some (.error e) => some (s, some e)
        | some (.ok (s, p)) => some ((s.free x.own).setVar d (some { x with own := p }), none)
    | _, _ => none
  | .move d src =>
    match s.vars d, s.vars src with
    | some x, some r =>
      if r.kind = x.kind then
        if d = src then some (s, none)      -- `unique_ptr`: release, then reset
        else some (((s.free x.own).setVar src (some { r with own := none })).setVar d (some { x with own := r.own }), none)
      else if (T.list x.kind).contains (T.self r.kind) then none
      else match moveFrom T s x.kind r with
        | .error e => some (s, some e)
        | .ok (p, q) => some (((s.free x.own).setVar src (some { r with own := q })).setVar d (some { x with own := p }), none)
    | _, _ => none
  | .value d t v a =>
    match s.vars d with
    | none => none
    | some x =>
      if ¬(T.list x.kind).contains t ∨ (s.heap a).isSome then none
      else some (((s.setHeap a (some ⟨t, v⟩)).free x.own).setVar d (some { x with own := some a }), none)
  | .construct d t v a =>
    match s.vars d with
    | none => none
    | some x =>
      if ¬(T.list x.kind).contains t ∨ (s.heap a).isSome then none
      else some (((s.setHeap a (some ⟨t, v⟩)).free x.own).setVar d (some { x with own := some a }), none)
  | .unchecked d t v a =>
    match s.vars d with
    | none => none
    | some x =>
      if (s.heap a).isSome then none
      else some (((s.setHeap a (some ⟨t, v⟩)).free x.own).setVar d (some { x with own := some a }), none)
  | .visit d f =>
    match s.vars d with
    | none => none
    | some x =>
      match call T x.kind (s.obj x) with
      | .error e => some (s, some e)
      | .ok u =>
        match x.own, s.obj x with
        | some a, some o => some (s.setHeap a (some ⟨o.ty, f u o.val⟩), none)
        | _, _ => none
  | .write d x f =>
    match s.vars d with
    | none => none
    | some y =>
      match y.own, s.obj y with
      | some a, some o => if T.casts o.ty x then some (s.setHeap a (some ⟨o.ty, f o.val⟩), none) else some (s, some .noValue)
      | none, _ => some (s, some .noValue)          -- `dynamic_cast` of a null pointer
      | _, _ => none
  | .destroy d =>
    match s.vars d with
    | none => none
    | some x => some ((s.free x.own).setVar d none, none)

/-- a program and what it throws (a caught exception does not end it) -/
def run (T : Types) : St V → List (Op V) → Option (St V × List Err)
  | s, [] => some (s, [])
  | s, o :: os =>
    match step T s o with
    | none => none
    | some (s, e) =>
      match run T s os with
      | none => none
      | some (s, es) => some (s, e.toList ++ es)

/-- `Exists<X>(v)`, `variant.h:253-256` -/
def St.isA (T : Types) (s : St V) (d : Nat) (x : Ty) : Bool :=
  match (s.vars d).bind s.obj with
  | none => false
  | some o => T.casts o.ty x

/-! ## Specification -/

/-- variables that hold a value of a type, or nothing -/
structure Cell (V : Type) where
  kind : Kind
  has : Option (Obj V)

/-- the variables -/
abbrev Spec (V : Type) := Nat → Option (Cell V)

/-- a store -/
def Spec.set (m : Spec V) (d : Nat) (x : Option (Cell V)) : Spec V := fun i => if i = d then x else m i

/-- what the user sees -/
def St.seen (s : St V) : Spec V := fun d => (s.vars d).map fun x => ⟨x.kind, s.obj x⟩

/-- why what `c` has cannot be put in a variant of kind `k`, if it cannot: it is of a type `c` may not have, or `k` may not -/
def refused (T : Types) (k : Kind) (c : Cell V) : Option Err :=
  match c.has with
  | none => none
  | some o => if o.ty ∉ T.list c.kind then some .unlisted else if o.ty ∉ T.list k then some .incompatible else none

/-- what an operation does to values; with an exception nothing changes -/
def spec (T : Types) (m : Spec V) : Op V → Spec V × Option Err
  | .new d k => (m.set d (some ⟨k, none⟩), none)
  | .newValue d k t v _ => (m.set d (some ⟨k, some ⟨t, v⟩⟩), none)
  | .newCopy d k s _ =>
    match m s with
    | none => (m, none)
    | some c => match refused T k c with
      | some e => (m, some e)
      | none => (m.set d (some ⟨k, c.has⟩), none)
  | .newMove d s =>
    match m s with
    | none => (m, none)
    | some c => ((m.set s (some { c with has := none })).set d (some c), none)
  | .newMoveOther d k s =>
    match m s with
    | none => (m, none)
    | some c => match refused T k c with
      | some e => (m, some e)
      | none => ((m.set s (some { c with has := none })).set d (some ⟨k, c.has⟩), none)
  | .null d => (m.set d ((m d).map fun c => { c with has := none }), none)
  | .copy d s _ =>
    match m d, m s with
    | some x, some c => match refused T x.kind c with
      | some e => (m, some e)
      | none => (m.set d (some { x with has := c.has }), none)
    | _, _ => (m, none)
  | .move d s =>
    match m d, m s with
    | some x, some c =>
      if d = s then (m, none)
      -- between variants of the same type nothing is tested
      else match (if x.kind = c.kind then none else refused T x.kind c) with
        | some e => (m, some e)
        | none => ((m.set s (some { c with has := none })).set d (some { x with has := c.has }), none)
    | _, _ => (m, none)
  | .value d t v _ => (m.set d ((m d).map fun c => { c with has := some ⟨t, v⟩ }), none)
  | .construct d t v _ => (m.set d ((m d).map fun c => { c with has := some ⟨t, v⟩ }), none)
  | .unchecked d t v _ => (m.set d ((m d).map fun c => { c with has := some ⟨t, v⟩ }), none)
  | .visit d f =>
    match m d with
    | none => (m, none)
    | some c => match c.has with
      | none => (m, some .uninitialized)
      | some o => if o.ty ∈ T.list c.kind then (m.set d (some { c with has := some ⟨o.ty, f o.ty o.val⟩ }), none)
                  else (m, some .unlisted)
  | .write d x f =>
    match m d with
    | none => (m, none)
    | some c => match c.has with
      | none => (m, some .noValue)
      | some o => if T.casts o.ty x then (m.set d (some { c with has := some ⟨o.ty, f o.val⟩ }), none) else (m, some .noValue)
  | .destroy d => (m.set d none, none)

/-- the operations that test types -/
def Checked : Op V → Prop
  | .unchecked _ _ _ _ => False
  | _ => True

end Current.Variant
