import Verif.Persist.Codec
/-!
JSON serialization of the type system (`typesystem/serialization/json/*.h`), at the level of JSON documents
(`rapidjson::Value` trees). The text layer — `rapidjson::Writer` and `rapidjson::Reader` — is in `Verif/Json/Text*.lean`.

Every C++ type the serializer handles is a code `Ty`; `Ty.den` is the type of its values. Structs are finite
trees of fields: a recursive `CURRENT_STRUCT` (say, one holding a `std::vector` of itself) is represented by
unfoldings, deep enough for the value at hand.
-/
namespace Current.Json
open Current.Persist (Str dec readNat)

/-- The bits of an IEEE 754 `double`; the arithmetic of floating point numbers is not modelled. -/
structure Dbl where
  bits : BitVec 64
deriving DecidableEq, Repr

/-- The bits of a `float`. -/
structure Flt where
  bits : BitVec 32
deriving DecidableEq, Repr

/-- A JSON document: `rapidjson::Value` (`3rdparty/rapidjson/document.h`). Object members are an ordered list, and RapidJSON
allows duplicate keys. An integral number is `int`, whatever width RapidJSON stores it in: it holds integers from
`-2^63` to `2^64-1` (`rapidjson/reader.h:1404-1530`). -/
inductive J where
  | null
  | bool (b : Bool)
  | int (i : Int)
  | dbl (d : Dbl)
  | str (s : Str)
  | arr (l : List J)
  | obj (m : List (Str × J))

mutual
/-- The types `JSON()` and `ParseJSON()` accept (`typesystem/serialization/json/*.h`, one constructor per header, or per
specialization in `primitives.h`). `char`, `int8_t`…`int64_t` are `int`; `uint8_t`…`uint64_t` are `uint`; an `enum` is
`enumU` or `enumI` according to its underlying type; `std::chrono::milliseconds` and `std::chrono::microseconds` are
`chrono`; `ImmutableOptional` is `opt`; `smap` is `std::map<std::string, V>` and `map` is `std::map<K, V>` for other keys.
`unordered_set`, `unordered_map` have the same code as `set`, `map` (but for the iteration order) and are not
separate here. A `struct` carries the fields it inherits and its own. -/
inductive Ty where
  | bool
  | uint (w : Nat)
  | int (w : Nat)
  | enumU (w : Nat)
  | enumI (w : Nat)
  | chrono
  | flt
  | dbl
  | str
  | tid
  | vec (t : Ty)
  | arr (n : Nat) (t : Ty)
  | pair (a b : Ty)
  | tup (r : Row)
  | set (t : Ty)
  | smap (v : Ty)
  | map (k v : Ty)
  | opt (t : Ty)
  | struct (name : Str) (sup own : Row)
  | variant (cs : Row)
/-- Fields of a struct, elements of a tuple (labels unused), or cases of a `Variant` (label: the name of the type;
`id`: its reflected `TypeID`). -/
inductive Row where
  | nil
  | cons (label : Str) (id : Nat) (t : Ty) (rest : Row)
end

mutual
/-- Values of a type. A `Variant` not holding anything is `none`. Sets and maps are the sequence of their elements in the order
of iteration. -/
def Ty.den : Ty → Type
  | .bool => Bool
  | .uint w => BitVec w
  | .int w => BitVec w
  | .enumU w => BitVec w
  | .enumI w => BitVec w
  | .chrono => BitVec 64
  | .flt => Flt
  | .dbl => Dbl
  | .str => Str
  | .tid => BitVec 64
  | .vec t => List t.den
  | .arr n t => Fin n → t.den
  | .pair a b => a.den × b.den
  | .tup r => r.prod
  | .set t => List t.den
  | .smap v => List (Str × v.den)
  | .map k v => List (k.den × v.den)
  | .opt t => Option t.den
  | .struct _ s o => s.prod × o.prod
  | .variant cs => Option cs.sum
def Row.prod : Row → Type
  | .nil => Unit
  | .cons _ _ t r => t.den × r.prod
def Row.sum : Row → Type
  | .nil => Empty
  | .cons _ _ t r => t.den ⊕ r.sum
end

/-- `JSONFormat` (`json.h:193-206`). -/
inductive Fmt where
  | current | minimalistic | javaScript | fSharp
deriving DecidableEq, Repr

/-- `JSONVariantStyleUseNulls` (`json.h:184-191`) of the format's `variant_style`: all but `Simple`. -/
def Fmt.useNulls : Fmt → Bool
  | .current => true
  | .minimalistic => false
  | .javaScript => false
  | .fSharp => true

/-- `IS_EMPTY_CURRENT_STRUCT` (`typesystem/types.h:233-241`): no fields of its **own**; inherited ones are not counted, as
`FieldCounter` defaults to `ThisStructOnly` (`types.h:197`). -/
def Ty.isEmptyStruct : Ty → Bool
  | .struct _ _ .nil => true
  | _ => false

/-- What the environment (the C++ types and floating point unit) supplies. -/
structure Env where
  /-- The default-constructed value. -/
  dflt : (t : Ty) → t.den
  /-- What is left in an object that was moved from. -/
  moved : (t : Ty) → t.den → t.den
  /-- The comparator of `std::set<T>` and `std::map<T, ...>`. -/
  lt : (t : Ty) → t.den → t.den → Bool
  /-- `GetDouble()` of an integral number. -/
  i2d : Int → Dbl
  /-- `float` to `double` and back. -/
  f2d : Flt → Dbl
  d2f : Dbl → Flt

def kCase : Str := ['C', 'a', 's', 'e']
def kFields : Str := ['F', 'i', 'e', 'l', 'd', 's']
def kSome : Str := ['S', 'o', 'm', 'e']
def kNone : Str := ['N', 'o', 'n', 'e']
def kItem1 : Str := ['I', 't', 'e', 'm', '1']
def kItem2 : Str := ['I', 't', 'e', 'm', '2']
def kDollar : Str := ['$']

/-- `SerializeImpl<JSONStringifier, TypeID>` (`typeid.h:39-43`). -/
def tidText (n : Nat) : Str := 'T' :: dec n

mutual
/-- `Serialize(json_stringifier, x)`. The result `none` is `MarkAsAbsentValue()` (`json.h:155`): the current value pointer is set
to `nullptr`, and the caller that checks it (`MaybeInner`, for struct fields) leaves the member out. Callers going through
`Inner` (`json.h:145-151`) restore the pointer and use the value as it was, which is null: `(…).getD .null`. -/
def ser (e : Env) (f : Fmt) : (t : Ty) → t.den → Option J
  -- primitives.h:61-74
  | .bool, (b : Bool) => some (.bool b)
  | .uint w, (v : BitVec w) => some (.int v.toNat)
  | .int w, (v : BitVec w) => some (.int v.toInt)
  -- enum.h:36-41
  | .enumU w, (v : BitVec w) => some (.int v.toNat)
  | .enumI w, (v : BitVec w) => some (.int v.toInt)
  -- primitives.h:38-59
  | .chrono, (v : BitVec 64) => some (.int v.toInt)
  | .flt, (v : Flt) => some (.dbl (e.f2d v))
  | .dbl, (v : Dbl) => some (.dbl v)
  | .str, (s : Str) => some (.str s)
  | .tid, (v : BitVec 64) => some (.str (tidText v.toNat))
  -- vector.h:36-59
  | .vec t, (l : List t.den) => some (.arr (l.map fun x => (ser e f t x).getD .null))
  -- array.h:35-45
  | .arr n t, (v : Fin n → t.den) => some (.arr ((List.ofFn v).map fun x => (ser e f t x).getD .null))
  -- pair.h:36-61
  | .pair a b, (x : a.den × b.den) =>
    let first := (ser e f a x.1).getD .null
    let second := (ser e f b x.2).getD .null
    if f = .fSharp then some (.obj [(kItem1, first), (kItem2, second)]) else some (.arr [first, second])
  -- tuple.h:36-57
  | .tup r, (x : r.prod) => some (.arr (serTuple e f r x))
  -- set.h:37-48
  | .set t, (l : List t.den) => some (.arr (l.map fun x => (ser e f t x).getD .null))
  -- map.h:55-67
  | .smap v, (l : List (Str × v.den)) => some (.obj (l.map fun kv => (kv.1, (ser e f v kv.2).getD .null)))
  -- map.h:37-53
  | .map k v, (l : List (k.den × v.den)) =>
    some (.arr (l.map fun kv => .arr [(ser e f k kv.1).getD .null, (ser e f v kv.2).getD .null]))
  -- optional.h:38-85
  | .opt t, (x : Option t.den) =>
    match x with
    | some y =>
      if f = .fSharp then some (.obj [(kCase, .str kSome), (kFields, .arr [(ser e f t y).getD .null])])
      else ser e f t y
    | none => if f = .minimalistic ∨ f = .fSharp then none else some .null
  -- struct.h:60-89: the fields of the super class first
  | .struct _ s o, (x : s.prod × o.prod) => some (.obj (serFields e f s x.1 ++ serFields e f o x.2))
  -- variant.h:403-417
  | .variant cs, (x : Option cs.sum) =>
    match x with
    | some y => some (.obj (serCase e f cs y))
    | none => if f.useNulls then some .null else none
/-- `JSONStructFieldsSerializer` applied to every field in order (`struct.h:47-54`, `MaybeInner` of `json.h:156-168`). -/
def serFields (e : Env) (f : Fmt) : (r : Row) → r.prod → List (Str × J)
  | .nil, _ => []
  | .cons l _ t r, (x : t.den × r.prod) =>
    match ser e f t x.1 with
    | some j => (l, j) :: serFields e f r x.2
    | none => serFields e f r x.2
/-- `SerializeTupleImpl` (`tuple.h:36-49`). -/
def serTuple (e : Env) (f : Fmt) : (r : Row) → r.prod → List J
  | .nil, _ => []
  | .cons _ _ t r, (x : t.den × r.prod) => (ser e f t x.1).getD .null :: serTuple e f r x.2
/-- `JSONVariantSerializer` called with the case the variant holds (`variant.h:55-128`): the members of the resulting object. -/
def serCase (e : Env) (f : Fmt) : (r : Row) → r.sum → List (Str × J)
  | .nil, (z : Empty) => nomatch z
  | .cons l i t r, (x : t.den ⊕ r.sum) =>
    match x with
    | .inl y =>
      let object := (ser e f t y).getD .null
      match f with
      | .current => [(l, object), ([], .str (tidText i))]
      | .minimalistic => [(l, object)]
      | .javaScript => [(l, object), (kDollar, .str l)]
      | .fSharp => if t.isEmptyStruct then [(kCase, .str l)] else [(kCase, .str l), (kFields, .arr [object])]
    | .inr z => serCase e f r z
end

/-- `JSON<J>(x)` (`json.h:332-337`), before the document is printed: if the whole value is marked absent, the document stays
null. -/
def toDoc (e : Env) (f : Fmt) (t : Ty) (x : t.den) : J := (ser e f t x).getD .null

/-! ### Parsing -/

/-- What `ParseJSON` and `PatchObjectWithJSON` throw: `JSONSchemaException`, `JSONUninitializedVariantObjectException`, and
`RapidJSONAssertionFailedException`, into which `RAPIDJSON_ASSERT` is redirected (`json/rapidjson.h:32-39`). -/
inductive Err where
  | schema | uninit | assertion
deriving DecidableEq, Repr

/-- The `JSON_FORMAT` of a `JSONParser`: a format, or `JSONPatcher` of it (`json.h:226-239`). -/
structure Mode where
  fmt : Fmt
  patch : Bool
deriving DecidableEq, Repr

/-- `HasMember(name)` and `operator[](name)`: the first member of that name. -/
def find (k : Str) : List (Str × J) → Option J
  | [] => none
  | (k', j) :: m => if k' = k then some j else find k m

/-- `IsUint64()` and `GetUint64()`. -/
def asUint64 : J → Option Nat
  | .int i => if 0 ≤ i ∧ i < 2 ^ 64 then some i.toNat else none
  | _ => none

/-- `IsInt64()` and `GetInt64()`. -/
def asInt64 : J → Option Int
  | .int i => if -2 ^ 63 ≤ i ∧ i < 2 ^ 63 then some i else none
  | _ => none

/-- `IsNumber()` and `GetDouble()`. -/
def asDouble (e : Env) : J → Option Dbl
  | .int i => some (e.i2d i)
  | .dbl d => some d
  | _ => none

def asString : J → Option Str
  | .str s => some s
  | _ => none

def asBool : J → Option Bool
  | .bool b => some b
  | _ => none

def asArray : J → Option (List J)
  | .arr l => some l
  | _ => none

def asObject : J → Option (List (Str × J))
  | .obj m => some m
  | _ => none

def J.isNull : J → Bool
  | .null => true
  | _ => false

/-- The shape all of `DoDeserialize` share: `if (json_parser && json_parser.Current().IsX()) { … } else if (!JSONPatchMode ||
(json_parser && !json_parser.Current().IsX())) throw`. A null `json_parser` (a missing member) is `none`. -/
def onValue {α β : Type} (patch : Bool) (p : Option J) (is : J → Option β) (d : α) (k : β → Except Err α) :
    Except Err α :=
  match p with
  | none => if patch then .ok d else .error .schema
  | some j =>
    match is j with
    | some b => k b
    | none => .error .schema

/-- `FromString<uint64_t>` of a string of digits (`bricks/strings/util.h`): saturates. Simplification: leading whitespace and
a sign, which `std::istream` would skip or apply, are taken as "no number", which yields 0. -/
def readU64 (s : Str) : Nat :=
  match readNat s with
  | some (n, _) => min n (2 ^ 64 - 1)
  | none => 0

/-- `IsString() && *GetString() == 'T'` and the number after it (`typeid.h:47-50`). -/
def asTypeID : J → Option Nat
  | .str ('T' :: s) => some (readU64 s)
  | _ => none

/-- The element-wise loop over a vector resized to the length of the array: elements past the old size start
default-constructed (`vector.h:65-69`). -/
def desEach {α : Type} (dflt : α) (f : J → α → Except Err α) : List J → List α → Except Err (List α)
  | [], _ => .ok []
  | j :: js, [] =>
    match f j dflt with
    | .error e => .error e
    | .ok x =>
      match desEach dflt f js [] with
      | .error e => .error e
      | .ok xs => .ok (x :: xs)
  | j :: js, d :: ds =>
    match f j d with
    | .error e => .error e
    | .ok x =>
      match desEach dflt f js ds with
      | .error e => .error e
      | .ok xs => .ok (x :: xs)

/-- The loop over a `std::array` (`array.h:51-53`): `Current()[i]` past the end of the JSON array fails RapidJSON's
assertion; elements past `N` are ignored. -/
def desFin {α : Type} (f : J → α → Except Err α) : (n : Nat) → List J → (Fin n → α) → Except Err (Fin n → α)
  | 0, _, d => .ok d
  | _ + 1, [], _ => .error .assertion
  | n + 1, j :: js, d =>
    match f j (d 0) with
    | .error e => .error e
    | .ok x =>
      match desFin f n js (fun i => d i.succ) with
      | .error e => .error e
      | .ok r => .ok (Fin.cases x r)

/-- `std::set::insert` / `std::map::emplace` into the sequence ordered by `lt`: nothing happens if an equivalent key is there. -/
def insertOrd {α : Type} (lt : α → α → Bool) (x : α) : List α → List α
  | [] => [x]
  | y :: ys => if lt y x then y :: insertOrd lt x ys else if lt x y then x :: y :: ys else y :: ys

/-- The loop of `set.h:56-60`. -/
def desSet {α : Type} (lt : α → α → Bool) (f : J → Except Err α) : List J → List α → Except Err (List α)
  | [], acc => .ok acc
  | j :: js, acc =>
    match f j with
    | .error e => .error e
    | .ok x => desSet lt f js (insertOrd lt x acc)

/-- The loop of `map.h:78-84`: one `v` serves all the entries, moved from after each. -/
def desSMap {α : Type} (lt : Str → Str → Bool) (moved : α → α) (f : J → α → Except Err α) :
    List (Str × J) → α → List (Str × α) → Except Err (List (Str × α))
  | [], _, acc => .ok acc
  | (k, j) :: ms, v, acc =>
    match f j v with
    | .error e => .error e
    | .ok x => desSMap lt moved f ms (moved x) (insertOrd (fun a b => lt a.1 b.1) (k, x) acc)

/-- The loop of `map.h:95-108`. -/
def desMap {α β : Type} (lt : α → α → Bool) (fk : J → Except Err α) (fv : J → Except Err β) :
    List J → List (α × β) → Except Err (List (α × β))
  | [], acc => .ok acc
  | .arr [jk, jv] :: js, acc =>
    match fk jk with
    | .error e => .error e
    | .ok k =>
      match fv jv with
      | .error e => .error e
      | .ok v => desMap lt fk fv js (insertOrd (fun a b => lt a.1 b.1) (k, v) acc)
  | _ :: _, _ => .error .schema

/-- The scan of `variant.h:310-328`: the one key that is neither empty nor `$`. `.error` when there are two. -/
def soleKey : List (Str × J) → Option Str → Except Err (Option Str)
  | [], acc => .ok acc
  | (k, _) :: m, acc =>
    if k = [] ∨ k = kDollar then soleKey m acc
    else
      match acc with
      | none => soleKey m (some k)
      | some _ => .error .schema

/-- How a case of a `Variant` is looked up: by `TypeID`, or by name. -/
inductive Key where
  | id (n : Nat)
  | name (s : Str)

def Key.hits : Key → Str → Nat → Bool
  | .id n, _, i => n = i
  | .name s, l, _ => s = l

/-- The pair of `NewtonsoftFSharp` (`pair.h:76-88`). There is no specialization for `JSONPatcher<NewtonsoftFSharp>`. -/
def fSharpItems : Option J → Option (J × J)
  | some (.obj m) =>
    match find kItem1 m, find kItem2 m with
    | some a, some b => some (a, b)
    | _, _ => none
  | _ => none

/-- `std::pair` as an array of exactly two elements (`pair.h:66`). -/
def asTwo : J → Option (J × J)
  | .arr [a, b] => some (a, b)
  | _ => none

/-- `Optional` of `NewtonsoftFSharp`, given a value which is not null (`optional.h:112-130`): `none`: not understood; `some
none`: no value; `some (some j)`: the value to parse. -/
def fSharpOption : J → Option (Option J)
  | .obj m =>
    match find kCase m with
    | some (.str c) =>
      if c = kNone then some none
      else if c = kSome then
        match find kFields m with
        | some (.arr [j]) => some (some j)
        | _ => none
      else none
    | _ => none
  | _ => none

mutual
/-- `Deserialize(json_parser, destination)`: `p` is the current value (`none` for a null pointer: a missing member); the last
argument is what the destination holds before. -/
def des (e : Env) (m : Mode) : (t : Ty) → Option J → t.den → Except Err t.den
  -- primitives.h:142-153
  | .bool, p, (d : Bool) => onValue m.patch p asBool d fun b => .ok b
  -- primitives.h:77-90: the cast to a narrower type keeps the low bits
  | .uint w, p, (d : BitVec w) => onValue m.patch p asUint64 d fun n => .ok (BitVec.ofNat w n)
  -- primitives.h:92-104
  | .int w, p, (d : BitVec w) => onValue m.patch p asInt64 d fun i => .ok (BitVec.ofInt w i)
  -- enum.h:43-64
  | .enumU w, p, (d : BitVec w) => onValue m.patch p asUint64 d fun n => .ok (BitVec.ofNat w n)
  | .enumI w, p, (d : BitVec w) => onValue m.patch p asInt64 d fun i => .ok (BitVec.ofInt w i)
  -- primitives.h:155-177
  | .chrono, p, (d : BitVec 64) => onValue m.patch p asInt64 d fun i => .ok (BitVec.ofInt 64 i)
  -- primitives.h:106-116
  | .flt, p, (d : Flt) => onValue m.patch p (asDouble e) d fun x => .ok (e.d2f x)
  -- primitives.h:118-128
  | .dbl, p, (d : Dbl) => onValue m.patch p (asDouble e) d fun x => .ok x
  -- primitives.h:130-140
  | .str, p, (d : Str) => onValue m.patch p asString d fun s => .ok s
  -- typeid.h:45-56
  | .tid, p, (d : BitVec 64) => onValue m.patch p asTypeID d fun n => .ok (BitVec.ofNat 64 n)
  -- vector.h:61-91
  | .vec t, p, (d : List t.den) =>
    onValue m.patch p asArray d fun js => desEach (e.dflt t) (fun j x => des e m t (some j) x) js d
  -- array.h:47-58
  | .arr n t, p, (d : Fin n → t.den) =>
    onValue m.patch p asArray d fun js => desFin (fun j x => des e m t (some j) x) n js d
  -- pair.h:63-88
  | .pair a b, p, (d : a.den × b.den) =>
    if m.fmt = .fSharp ∧ m.patch = false then
      match fSharpItems p with
      | some (ja, jb) =>
        match des e m a (some ja) d.1 with
        | .error er => .error er
        | .ok x =>
          match des e m b (some jb) d.2 with
          | .error er => .error er
          | .ok y => .ok (x, y)
      | none => .error .schema
    else
      onValue m.patch p asTwo d fun jj =>
        match des e m a (some jj.1) d.1 with
        | .error er => .error er
        | .ok x =>
          match des e m b (some jj.2) d.2 with
          | .error er => .error er
          | .ok y => .ok (x, y)
  -- tuple.h:59-86
  | .tup r, p, (d : r.prod) => onValue m.patch p asArray d fun js => desTuple e m r js d
  -- set.h:50-65: cleared before the value is looked at
  | .set t, p, _d =>
    onValue m.patch p asArray [] fun js => desSet (e.lt t) (fun j => des e m t (some j) (e.dflt t)) js []
  -- map.h:69-88: `JSONPatchMode<J>` is asked about the third template parameter, `void`, so it is never patch mode
  | .smap v, p, (d : List (Str × v.den)) =>
    onValue false p asObject d fun ms =>
      desSMap (e.lt .str) (e.moved v) (fun j x => des e m v (some j) x) ms (e.dflt v) []
  -- map.h:90-112
  | .map k v, p, (d : List (k.den × v.den)) =>
    onValue false p asArray d fun js =>
      desMap (e.lt k) (fun j => des e m k (some j) (e.dflt k)) (fun j => des e m v (some j) (e.dflt v)) js []
  -- optional.h:87-137
  | .opt t, p, (d : Option t.den) =>
    if m.fmt = .fSharp ∧ m.patch = false then
      match p with
      | none => .ok none
      | some j =>
        if j.isNull then .ok none
        else
          match fSharpOption j with
          | none => .error .schema
          | some none => .ok none
          | some (some jv) =>
            match des e m t (some jv) (e.dflt t) with
            | .error er => .error er
            | .ok x => .ok (some x)
    else
      match p with
      | none => if m.patch then .ok d else .ok none
      | some j =>
        if j.isNull then .ok none
        else
          match des e m t (some j) (e.dflt t) with
          | .error er => .error er
          | .ok x => .ok (some x)
  -- struct.h:96-133
  | .struct _ s o, p, (d : s.prod × o.prod) =>
    onValue m.patch p asObject d fun ms =>
      match desFields e m s ms d.1 with
      | .error er => .error er
      | .ok x =>
        match desFields e m o ms d.2 with
        | .error er => .error er
        | .ok y => .ok (x, y)
  -- variant.h:419-431, 260-277, 306-342, 370-387
  | .variant cs, p, (d : Option cs.sum) =>
    match p with
    | none => if m.fmt.useNulls then .error .uninit else .ok d
    | some j =>
      if j.isNull then if m.fmt.useNulls then .error .uninit else .ok d
      else
        match asObject j with
        | none => .error .schema
        | some ms =>
          match m.fmt with
          | .current =>
            match find [] ms with
            | none => .error .schema
            | some jt =>
              match asTypeID jt with
              | none => .error .schema
              | some n =>
                match desCase e m cs (.id (n % 2 ^ 64)) ms with
                | none => .error .schema
                | some (.error er) => .error er
                | some (.ok none) => .ok d
                | some (.ok (some y)) => .ok (some y)
          | .fSharp =>
            match find kCase ms with
            | none => .error .schema
            | some jc =>
              match asString jc with
              | none => .error .schema
              | some c =>
                match desCase e m cs (.name c) ms with
                | none => .error .schema
                | some (.error er) => .error er
                | some (.ok none) => .ok d
                | some (.ok (some y)) => .ok (some y)
          | _ =>
            match soleKey ms none with
            | .error er => .error er
            | .ok none => .error .schema
            | .ok (some k) =>
              match desCase e m cs (.name k) ms with
              | none => .error .schema
              | some (.error er) => .error er
              | some (.ok none) => .ok d
              | some (.ok (some y)) => .ok (some y)
/-- `DeserializeSingleField` for every field in order (`struct.h:106-113`). -/
def desFields (e : Env) (m : Mode) : (r : Row) → List (Str × J) → r.prod → Except Err r.prod
  | .nil, _, d => .ok d
  | .cons l _ t r, ms, (d : t.den × r.prod) =>
    match des e m t (find l ms) d.1 with
    | .error er => .error er
    | .ok x =>
      match desFields e m r ms d.2 with
      | .error er => .error er
      | .ok y => .ok (x, y)
/-- The size check of `tuple.h:77-80` and `DeserializeTupleImpl`. The check comes first in the code; either way a wrong size throws,
and only the destination of the failed call could tell the difference. -/
def desTuple (e : Env) (m : Mode) : (r : Row) → List J → r.prod → Except Err r.prod
  | .nil, [], d => .ok d
  | .nil, _ :: _, _ => .error .schema
  | .cons _ _ _ _, [], _ => .error .schema
  | .cons _ _ t r, j :: js, (d : t.den × r.prod) =>
    match des e m t (some j) d.1 with
    | .error er => .error er
    | .ok x =>
      match desTuple e m r js d.2 with
      | .error er => .error er
      | .ok y => .ok (x, y)
/-- The map of deserializers, built by assigning to `deserializers[key]` case by case (`variant.h:206-245`), so that of two cases
with the same key the later one stays; then the `Deserialize` of the case found (`variant.h:137-201`). Outer `none`: no
case with this key; inner `none`: nothing to do. -/
def desCase (e : Env) (m : Mode) : (r : Row) → Key → List (Str × J) → Option (Except Err (Option r.sum))
  | .nil, _, _ => none
  | .cons l i t r, key, ms =>
    match desCase e m r key ms with
    | some (.error er) => some (.error er)
    | some (.ok none) => some (.ok none)
    | some (.ok (some z)) => some (.ok (some (.inr z)))
    | none =>
      if key.hits l i then
        match m.fmt with
        | .current =>
          match find l ms with
          | none => if m.patch then some (.ok none) else some (.error .schema)
          | some j =>
            match des e m t (some j) (e.dflt t) with
            | .error er => some (.error er)
            | .ok y => some (.ok (some (.inl y)))
        | .fSharp =>
          match find kFields ms with
          | some (.arr [j]) =>
            match des e m t (some j) (e.dflt t) with
            | .error er => some (.error er)
            | .ok y => some (.ok (some (.inl y)))
          | some _ => some (.error .schema)
          | none => if t.isEmptyStruct then some (.ok (some (.inl (e.dflt t)))) else some (.error .schema)
        | _ =>
          match find l ms with
          | none => some (.error .assertion)
          | some j =>
            match des e m t (some j) (e.dflt t) with
            | .error er => some (.error er)
            | .ok y => some (.ok (some (.inl y)))
      else none
end

/-- `ParseJSON<T, J>(const char*, T&)` once the text is a document (`json.h:344-352`). `CheckIntegrity` calls
`CheckIntegrityImpl()` if the type has one (`typesystem/helpers.h:162-176`), and no type of the library has. -/
def parseDoc (e : Env) (f : Fmt) (t : Ty) (j : J) (d : t.den) : Except Err t.den := des e ⟨f, false⟩ t (some j) d

/-- `PatchObjectWithJSON<T, J>` (`json.h:364-373`) once the text is a document. -/
def patchDoc (e : Env) (f : Fmt) (t : Ty) (d : t.den) (j : J) : Except Err t.den := des e ⟨f, true⟩ t (some j) d

end Current.Json
