import Verif.Schema.Crc
/-!
Model of type ids, reflection and the schema: `typesystem/reflection/types.h`, `typesystem/reflection/reflection.h`, `typesystem/schema/schema.h:1494-1626` (C93, C94, C95).

The C++ types of a program are the numbers `t`; `G t` says what the type is made of. Recursive types are cycles of this graph.
Not modelled: descriptions of fields (they take no part in type ids); the texts printed by `Describe`; injected type ids (`CURRENT_INJECT_TYPE_ID`).
-/
namespace Current.Schema
open Current.Persist

/-- What a type is made of; `α` is how the parts are named: C++ types, or type ids as in `ReflectedType`, `types.h:96-224`. -/
inductive Def (α : Type) where
  | prim (index : Nat)                     -- `primitive_types.dsl.h`
  | enum (underlying : α)
  | array (e : α) (size : Nat)
  | vector (e : α)
  | pair (a b : α)
  | map (a b : α)
  | umap (a b : α)
  | set (e : α)
  | uset (e : α)
  | opt (e : α)
  | variant (cases : List α)
  | struct (super inner : Option α) (fields : List (Str × α))   -- `inner`: the argument of a `CURRENT_STRUCT_T`
  deriving DecidableEq, Repr

/-- A type: its name, as of `CurrentTypeName<T, NameFormat::Z>()`, and what it is made of. -/
structure Info where
  name : Str
  d : Def Nat
  deriving DecidableEq, Repr

abbrev Types := Nat → Info

def bytesOf (s : Str) : List UInt8 := s.map fun c => UInt8.ofNat c.toNat

def crcName (s : Str) : UInt64 := (crc32 (bytesOf s)).toUInt64

/-- `TYPEID_TYPE_RANGE`, `types.h:69`. -/
def range : UInt64 := 10000000000000000

/-- `TypeID::UninitializedType`, `types.h:98`. -/
def uninit : UInt64 := 0xFFFFFFFFFFFFFFFF

/-- `TypePrefix`, `types.h:102`. -/
def typePrefix (id : UInt64) : UInt64 := id / range

/-- `TemplateInnerTypeExpandedName`, `types.h:180-188`; the name of a `CURRENT_STRUCT_T` ends with `_Z`. -/
def expandedName (name : Str) : Option UInt64 → Str
  | none => name
  | some id => name.take (name.length - 2) ++ ['_', 'T'] ++ dec id.toNat

/-- The loop over the fields, `types.h:233-238`. -/
def hashFields : Nat → List (Str × UInt64) → UInt64 → UInt64
  | _, [], h => h
  | i, (n, id) :: fs, h => hashFields (i + 1) fs (h ^^^ (rol64 id (i + 17) ^^^ rol64 (crcName n) (i + 29)))

/-- The loop over the cases, `types.h:292-296`. -/
def hashCases : Nat → List UInt64 → UInt64 → UInt64
  | _, [], h => h
  | i, id :: cs, h => hashCases (i + 1) cs (h ^^^ rol64 id (i * 3 + 17))

/-- `CalculateTypeID`, `types.h:117-125, 227-299`, and the ids of primitive types, `types.h:93-97`. -/
def calcId (name : Str) : Def UInt64 → UInt64
  | .prim i => 900 * range + UInt64.ofNat i
  | .enum _ => 901 * range + crcName name
  | .array e n => 930 * range + rol64 e 3 % range + rol64 (UInt64.ofNat n) 7
  | .vector e => 931 * range + rol64 e 3 % range
  | .pair a b => 933 * range + (rol64 a 5 ^^^ rol64 b 11) % range
  | .map a b => 934 * range + (rol64 a 5 ^^^ rol64 b 11) % range
  | .umap a b => 936 * range + (rol64 a 5 ^^^ rol64 b 11) % range
  | .set e => 932 * range + (rol64 e 5 ^^^ rol64 e 11) % range
  | .uset e => 935 * range + (rol64 e 5 ^^^ rol64 e 11) % range
  | .opt e => 921 * range + rol64 e 5 % range
  | .variant cs => 922 * range + hashCases 0 cs (crcName name) % range
  | .struct super inner fs =>
    920 * range + hashFields 0 fs (crcName (expandedName name inner) ^^^ rol64 (super.getD 1 ^^^ 1) 7) % range

/-- The parts of a type, in the order in which they are visited when evaluated from left to right, `reflection.h:133-235`. -/
def Def.parts {α : Type} : Def α → List α
  | .prim _ => []
  | .enum u => [u]
  | .array e _ | .vector e | .set e | .uset e | .opt e => [e]
  | .pair a b | .map a b | .umap a b => [a, b]
  | .variant cs => cs
  | .struct super inner fs => super.toList ++ inner.toList ++ fs.map (·.2)

/-- The two arguments in `ReflectedType_Pair(CurrentTypeID_<TF>(), CurrentTypeID_<TS>())` (and the maps, `reflection.h:154-169`) are evaluated in an order C++ leaves to the compiler. -/
inductive ArgOrder where
  | left | right
  deriving DecidableEq, Repr

/-- The parts in the order of evaluation. -/
def Def.visited {α : Type} (o : ArgOrder) (d : Def α) : List α :=
  match o, d with
  | .right, .pair a b | .right, .map a b | .right, .umap a b => [b, a]
  | _, d => d.parts

/-- The same type with its parts named by the values in the list, which are in the order of `parts`. -/
def Def.fill {α β : Type} (d : Def α) (l : List β) (x : β) : Def β :=
  match d with
  | .prim i => .prim i
  | .enum _ => .enum (l.getD 0 x)
  | .array _ n => .array (l.getD 0 x) n
  | .vector _ => .vector (l.getD 0 x)
  | .pair _ _ => .pair (l.getD 0 x) (l.getD 1 x)
  | .map _ _ => .map (l.getD 0 x) (l.getD 1 x)
  | .umap _ _ => .umap (l.getD 0 x) (l.getD 1 x)
  | .set _ => .set (l.getD 0 x)
  | .uset _ => .uset (l.getD 0 x)
  | .opt _ => .opt (l.getD 0 x)
  | .variant _ => .variant l
  | .struct s i fs =>
    let ns := if s.isSome then 1 else 0
    let ni := if i.isSome then 1 else 0
    .struct (s.map fun _ => l.getD 0 x) (i.map fun _ => l.getD ns x) ((fs.map (·.1)).zip (l.drop (ns + ni)))

/-- The values in the order of `parts`, from the values in the order of evaluation. -/
def Def.inOrder {α β : Type} (o : ArgOrder) (d : Def α) (l : List β) : List β :=
  match o, d with
  | .right, .pair _ _ | .right, .map _ _ | .right, .umap _ _ => l.reverse
  | _, _ => l

/-- `TypeTraverserState::cache_`, `reflection.h:238-253`: the ids known for one top-level type. -/
abbrev Cache := Nat → UInt64

def Cache.empty : Cache := fun _ => uninit

def Cache.put (c : Cache) (t : Nat) (id : UInt64) : Cache := fun u => if u = t then id else c u

/-- Visiting several types, one after the other. -/
def thread (f : Nat → Cache → Option (UInt64 × Cache)) : List Nat → Cache → Option (List UInt64 × Cache)
  | [], c => some ([], c)
  | t :: ts, c =>
    match f t c with
    | none => none
    | some (id, c) =>
      match thread f ts c with
      | none => none
      | some (ids, c) => some (id :: ids, c)

/-- `InternalCurrentTypeID`, `reflection.h:292-313`, with `RecursiveTypeTraverser`, `reflection.h:85-235`. The first argument bounds the depth of the recursion, which the code does not:
`none` is a recursion that has not ended by then (it always ends, `typeId_ends`). -/
def typeId (o : ArgOrder) (G : Types) : Nat → Nat → Cache → Option (UInt64 × Cache)
  | 0, _, _ => none
  | depth + 1, t, c =>
    if c t = uninit then
      let c := c.put t (999 * range + crcName (G t).name % range)
      match thread (typeId o G depth) ((G t).d.visited o) c with
      | none => none
      | some (ids, c) =>
        let id := calcId (G t).name ((G t).d.fill ((G t).d.inOrder o ids) uninit)
        some (id, c.put t id)
    else some (c t, c)

/-- `TypeTraversersThreadLocalState`, `reflection.h:274-290`: one cache for each top-level type. -/
abbrev ThreadState := Nat → Cache

/-- `CurrentTypeID<T>()`, `reflection.h:73-77`, in a thread. -/
def currentTypeId (o : ArgOrder) (G : Types) (depth : Nat) (s : ThreadState) (t : Nat) : Option (UInt64 × ThreadState) :=
  match typeId o G depth t (s t) with
  | none => none
  | some (id, c) => some (id, fun u => if u = t then c else s u)

/-! ### The reflector and the schema -/

/-- `ReflectedType`: the id, the name, and the parts by their ids. -/
structure Refl where
  id : UInt64
  name : Str
  d : Def UInt64
  deriving DecidableEq, Repr

/-- `ReflectorImpl::map_`, `reflection.h:520-522`. -/
abbrev ReflMap := UInt64 → Option Refl

def ReflMap.put (m : ReflMap) (k : UInt64) (r : Refl) : ReflMap := fun u => if u = k then some r else m u

/-- The result of `operator()`, `reflection.h:376-498`; `cid` is `CurrentTypeID`, and `vid e` is `CurrentTypeID<std::vector<e>>()`: that is what an array gets for an id, `reflection.h:388-394`. -/
def reflOf (G : Types) (cid vid : Nat → UInt64) (t : Nat) : Refl :=
  { id := match (G t).d with | .array e _ => vid e | _ => cid t
    name := (G t).name
    d := (G t).d.fill ((G t).d.parts.map cid) uninit }

def threadM (f : Nat → ReflMap → Option ReflMap) : List Nat → ReflMap → Option ReflMap
  | [], m => some m
  | t :: ts, m => match f t m with
    | none => none
    | some m => threadM f ts m

/-- `ReflectType<T>()`, `reflection.h:345-356`. The placeholder is a default `ReflectedType`. -/
def reflect (G : Types) (cid vid : Nat → UInt64) : Nat → Nat → ReflMap → Option ReflMap
  | 0, _, _ => none
  | depth + 1, t, m =>
    if (m (cid t)).isSome then some m
    else
      match threadM (reflect G cid vid depth) (G t).d.parts (m.put (cid t) ⟨uninit, [], .prim 0⟩) with
      | none => none
      | some m => some (m.put (cid t) (reflOf G cid vid t))

/-- `SchemaInfo`, `schema.h:1458-1463`: the types by id, and the order. -/
structure Schema where
  types : List (UInt64 × Refl)
  order : List UInt64
  deriving DecidableEq, Repr

/-- `schema_.types.count(id)`. -/
def Schema.has (s : Schema) (id : UInt64) : Bool := s.types.any fun x => x.1 == id

inductive SchemaResult where
  | ok (s : Schema)
  | unknownType (id : UInt64)    -- `UnknownTypeIDException`, `reflection.h:358-365`
  | tooDeep                      -- the bound of the model, not of the code
  deriving DecidableEq, Repr

/-- The types the traverser visits from this one, `schema.h:1498-1601`: not the argument of a template. -/
def Def.deps {α : Type} : Def α → List α
  | .struct super _ fs => super.toList ++ fs.map (·.2)
  | d => d.parts

def isPrim {α : Type} : Def α → Bool
  | .prim _ => true
  | _ => false

def traverseAll (f : Refl → Schema → SchemaResult) (m : ReflMap) : List UInt64 → Schema → SchemaResult
  | [], s => .ok s
  | id :: ids, s =>
    match m id with
    | none => .unknownType id
    | some r =>
      match f r s with
      | .ok s => traverseAll f m ids s
      | e => e

/-- `TypeTraverser`, `schema.h:1495-1605`. -/
def traverse (m : ReflMap) : Nat → Refl → Schema → SchemaResult
  | 0, _, _ => .tooDeep
  | depth + 1, r, s =>
    if s.has r.id then .ok s
    else
      match traverseAll (traverse m depth) m r.d.deps { s with types := s.types ++ [(r.id, r)] } with
      | .ok s => .ok (if isPrim r.d then s else { s with order := s.order ++ [r.id] })
      | e => e

/-- `AddType<T>()`, `schema.h:1611-1620`, for a struct or a variant: reflect, then traverse. The reflector's map outlives the schema. -/
def addType (G : Types) (cid vid : Nat → UInt64) (depth : Nat) (t : Nat) (m : ReflMap) (s : Schema) : Option (ReflMap × SchemaResult) :=
  match reflect G cid vid depth t m with
  | none => none
  | some m =>
    match m (cid t) with
    | none => none
    | some r => some (m, traverse m depth r s)

/-- Adding several types. -/
def addTypes (G : Types) (cid vid : Nat → UInt64) (depth : Nat) : List Nat → ReflMap → Schema → Option (ReflMap × SchemaResult)
  | [], m, s => some (m, .ok s)
  | t :: ts, m, s =>
    match addType G cid vid depth t m s with
    | none => none
    | some (m, .ok s) => addTypes G cid vid depth ts m s
    | some (m, e) => some (m, e)

end Current.Schema
