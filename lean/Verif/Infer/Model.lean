import Verif.Json.Model
/-!
Schema inference from JSON documents (`utils/json_schema/infer.h`): `JSONSchemaAsCurrentStructs` and `DescribeSchema`.

The model starts from parsed documents (`Json.J`), one per line of the file; reading the lines and parsing them is
`ReadFileByLines` and RapidJSON (see `Strings` and `Json/Text*`).
-/
namespace Current.Infer
open Current.Persist (Str dec)
open Current.Json (J Ty Row asInt64)

/-- The exceptions of `infer.h:77-112`, `InferSchemaParseJSONException` apart. -/
inductive Err where
  | emptyArray          -- InferSchemaTopLevelEmptyArrayIsNotAllowed
  | arrayOfEmptyArrays  -- InferSchemaArrayOfNullsOrEmptyArraysIsNotAllowed
  | identifier          -- InferSchemaInvalidCPPIdentifierException
  | incompatible        -- InferSchemaIncompatibleTypes
deriving DecidableEq, Repr

mutual
/-- `Schema` (`infer.h:242`), a `Variant` of the structs of `infer.h:146-263`.
Simplifications: the counters (`uint32_t`) are unbounded, `Integer::sum` (`int64_t`, "assume the sum would fit") is an integer,
`sum_squares` and the floating point sums are left out; `counters`, which is always `values` with the pairs swapped, is not
kept separately; `field_index` is the position of the last field of that name (see `Fs.last`). -/
inductive S where
  | uninit
  | str (values : List (Str × Nat)) (instances nulls : Nat)
  | int (sum : Int) (canBeUnsigned canBeMicroseconds : Bool) (instances nulls : Nat)
  | dbl (instances nulls : Nat)
  | bool (valuesFalse valuesTrue nulls : Nat)
  | null (occurrences : Nat)
  | arr (element : S) (instances nulls : Nat)
  | obj (fieldSchema : Fs) (instances nulls : Nat)
/-- `Object::field_schema` (`infer.h:255`). -/
inductive Fs where
  | nil
  | cons (name : Str) (schema : S) (rest : Fs)
end

/-- The names, in order. -/
def Fs.names : Fs → List Str
  | .nil => []
  | .cons k _ r => k :: r.names

/-- Not in the code: concatenation. -/
def Fs.append : Fs → Fs → Fs
  | .nil, g => g
  | .cons k s r, g => .cons k s (r.append g)

/-- `field_schema[field_index[k]]`: `field_index` is assigned as the fields are appended (`infer.h:489-490`, `:438-440`), so the last
field of a name wins. -/
def Fs.last (k : Str) : Fs → Option S
  | .nil => none
  | .cons k' s r =>
    match r.last k with
    | some t => some t
    | none => if k' = k then some s else none

/-! ### Reduce -/

/-- `result.values[counter.first] += counter.second` (`infer.h:357`). -/
def bump (k : Str) (n : Nat) : List (Str × Nat) → List (Str × Nat)
  | [] => [(k, n)]
  | (k', m) :: l => if k' = k then (k', m + n) :: l else (k', m) :: bump k n l

/-- The order of `std::set<std::pair<uint32_t, std::string>>`. -/
def before (a b : Str × Nat) : Bool := decide (a.2 < b.2) || (decide (a.2 = b.2) && decide (a.1 < b.1))

/-- `counters.begin()` (`infer.h:365`). -/
def least : Str × Nat → List (Str × Nat) → Str × Nat
  | a, [] => a
  | a, b :: l => least (if before b a then b else a) l

/-- `result.values.erase(…)` (`infer.h:366`). -/
def drop (k : Str) (l : List (Str × Nat)) : List (Str × Nat) := l.filter fun kv => decide (kv.1 ≠ k)

/-- `kNumberOfUniqueValuesToTrack` (`infer.h:117`). -/
def kTrack : Nat := 100

/-- `while (result.counters.size() > kNumberOfUniqueValuesToTrack)` (`infer.h:364-368`). Every round removes an entry, so that the
number of entries is enough fuel. -/
def prune : Nat → List (Str × Nat) → List (Str × Nat)
  | 0, l => l
  | _ + 1, [] => []
  | f + 1, a :: l => if (a :: l).length > kTrack then prune f (drop (least a l).1 (a :: l)) else a :: l

/-- The values of `Reduce<String, String>` (`infer.h:355-368`). -/
def mergeValues (a b : List (Str × Nat)) : List (Str × Nat) :=
  let l := b.foldl (fun acc kv => bump kv.1 kv.2 acc) a
  prune l.length l

/-- `Reduce<T, Null>` and `Reduce<Null, T>` (`infer.h:334-350`), `Reduce<Null, Null>` (`:325-332`), and the
expanders' treatment of `Uninitialized` (`:294`, `:303-305`), for a `Null` of `n` occurrences. -/
def addNulls (n : Nat) : S → S
  | .uninit => .null n
  | .str v i m => .str v i (m + n)
  | .int s u c i m => .int s u c i (m + n)
  | .dbl i m => .dbl i (m + n)
  | .bool f t m => .bool f t (m + n)
  | .null m => .null (m + n)
  | .arr e i m => .arr e i (m + n)
  | .obj fs i m => .obj fs i (m + n)

/-- The fields of a `Reduce<Object, Object>` with their schemas still to be evaluated: pairs of a name and what `CallReduce` on
the schema of *this position* would give. -/
abbrev Pending := List (Str × Except Err S)

/-- The entry of the last position of that name. -/
def lastPending (k : Str) : Pending → Option (Except Err S)
  | [] => none
  | (k', s) :: r =>
    match lastPending k r with
    | some t => some t
    | none => if k' = k then some s else none

/-- The loop of `infer.h:442-455`: the `i`-th field gets the schema computed from the *index* of its name, and the first exception
ends it. -/
def settle (all : Pending) : Pending → Except Err Fs
  | [] => .ok .nil
  | (k, s) :: r =>
    match (lastPending k all).getD s with
    | .error e => .error e
    | .ok s' =>
      match settle all r with
      | .error e => .error e
      | .ok fs => .ok (.cons k s' fs)

/-- The fields of `rhs` not in `lhs` (`infer.h:430-435`), with `CallReduce(Null(), …)` (`:449`). -/
def onlyRight (names : List Str) : Fs → Pending
  | .nil => []
  | .cons k s r => if k ∈ names then onlyRight names r else (k, .ok (addNulls 1 s)) :: onlyRight names r

mutual
/-- `CallReduce(lhs, rhs)` (`infer.h:319-323`), and the specializations of `Reduce`: `Uninitialized` gives the other side
(`:294`, `:303-305`); otherwise see the lines at each case; the rest is incompatible (`:275-281`). -/
def reduce : S → S → Except Err S
  | .uninit, b => .ok b
  | .null n, b => .ok (addNulls n b)
  | .str v i n, b =>
    match b with
    | .uninit => .ok (.str v i n)
    | .null m => .ok (.str v i (n + m))
    | .str v' i' n' => .ok (.str (mergeValues v v') (i + i') (n + n'))              -- :352-373
    | _ => .error .incompatible
  | .int s u c i n, b =>
    match b with
    | .uninit => .ok (.int s u c i n)
    | .null m => .ok (.int s u c i (n + m))
    | .int s' u' c' i' n' => .ok (.int (s + s') (u && u') (c && c') (i + i') (n + n'))  -- :386-398
    | .dbl i' n' => .ok (.dbl (i + i') (n + n'))                                    -- :412-415
    | _ => .error .incompatible
  | .dbl i n, b =>
    match b with
    | .uninit => .ok (.dbl i n)
    | .null m => .ok (.dbl i (n + m))
    | .dbl i' n' => .ok (.dbl (i + i') (n + n'))                                    -- :400-410
    | .int _ _ _ i' n' => .ok (.dbl (i + i') (n + n'))                              -- :417-420
    | _ => .error .incompatible
  | .bool f t n, b =>
    match b with
    | .uninit => .ok (.bool f t n)
    | .null m => .ok (.bool f t (n + m))
    | .bool f' t' n' => .ok (.bool (f + f') (t + t') (n + n'))                      -- :375-384
    | _ => .error .incompatible
  | .arr e i n, b =>
    match b with
    | .uninit => .ok (.arr e i n)
    | .null m => .ok (.arr e i (n + m))
    | .arr e' i' n' =>                                                              -- :462-471
      match reduce e e' with
      | .error er => .error er
      | .ok x => .ok (.arr x (i + i') (n + n'))
    | _ => .error .incompatible
  | .obj fs i n, b =>
    match b with
    | .uninit => .ok (.obj fs i n)
    | .null m => .ok (.obj fs i (n + m))
    | .obj gs i' n' =>                                                              -- :422-460
      let all := reduceFields fs gs ++ onlyRight fs.names gs
      match settle all all with
      | .error er => .error er
      | .ok r => .ok (.obj r (i + i') (n + n'))
    | _ => .error .incompatible
/-- The fields of `lhs` (`infer.h:426-429`), with `CallReduce` of the two sides, or of the left one and `Null()` (`:450-454`). -/
def reduceFields : Fs → Fs → Pending
  | .nil, _ => []
  | .cons k s r, gs =>
    match gs.last k with
    | none => (k, .ok (addNulls 1 s)) :: reduceFields r gs
    | some t => (k, reduce s t) :: reduceFields r gs
end

/-! ### Inference from one document -/

/-- `IsValidCPPIdentifier` (`infer.h:119-136`). `std::isalpha` and `std::isalnum` are those of the "C" locale. -/
def isValidIdentifier (s : Str) : Bool :=
  if s = ['N', 'U', 'L', 'L'] ∨ s = ['n', 'u', 'l', 'l'] ∨ s = ['t', 'r', 'u', 'e'] ∨ s = ['f', 'a', 'l', 's', 'e'] then false
  else
    match s with
    | [] => false
    | c :: r => (c = '_' || c.isAlpha) && r.all fun d => d = '_' || d.isAlphanum

/-- `inner.IsArray() && inner.Empty()` (`infer.h:482`, `:503`). -/
def isEmptyArray : J → Bool
  | .arr [] => true
  | _ => false

/-- `TrackPath::Member` (`infer.h:72`). -/
def member (p k : Str) : Str := p ++ '.' :: k

/-- `TrackPath::ArrayElement` (`infer.h:73`). -/
def element (p : Str) (i : Nat) : Str := p ++ '[' :: (dec i ++ [']'])

mutual
/-- `RecursivelyInferSchema(value, path)` (`infer.h:473-534`). `keep` is the conversion of the path to `bool` (`TrackPath`,
`:74`); for `DoNotTrackPath` it is constantly true. -/
def infer (keep : Str → Bool) (p : Str) : J → Except Err S
  | .obj m =>
    match inferMembers keep p m with
    | .error e => .error e
    | .ok fs => .ok (.obj fs 1 0)
  | .arr l =>
    if l.isEmpty then .error .emptyArray
    else
      match inferElements keep p 0 .uninit l with
      | .error e => .error e
      | .ok .uninit => .error .arrayOfEmptyArrays
      | .ok e => .ok (.arr e 1 0)
  | .str s => .ok (.str [(s, 1)] 1 0)
  -- `IsInt64()`, with the constructor of `Integer` (`infer.h:172-181`)
  | .int i =>
    match asInt64 (.int i) with
    | some v =>
      .ok (.int v (decide (0 ≤ v)) (decide (315561600 * 1000000 ≤ v) && decide (v < 8835984000 * 1000000)) 1 0)
    | none => .ok (.dbl 1 0)
  | .dbl _ => .ok (.dbl 1 0)
  | .bool b => if b then .ok (.bool 0 1 0) else .ok (.bool 1 0 0)
  | .null => .ok (.null 1)
/-- The loop of `infer.h:480-493`. -/
def inferMembers (keep : Str → Bool) (p : Str) : List (Str × J) → Except Err Fs
  | [] => .ok .nil
  | (k, v) :: m =>
    if isEmptyArray v then inferMembers keep p m
    else if keep (member p k) then
      if isValidIdentifier k then
        match infer keep (member p k) v with
        | .error e => .error e
        | .ok s =>
          match inferMembers keep p m with
          | .error e => .error e
          | .ok fs => .ok (.cons k s fs)
      else .error .identifier
    else inferMembers keep p m
/-- The loop of `infer.h:501-507`; `i` is `array_index`, and the third argument `array.element`. -/
def inferElements (keep : Str → Bool) (p : Str) : Nat → S → List J → Except Err S
  | _, acc, [] => .ok acc
  | i, acc, v :: l =>
    if isEmptyArray v then inferElements keep p (i + 1) acc l
    else
      match infer keep (element p i) v with
      | .error e => .error e
      | .ok s =>
        match reduce acc s with
        | .error e => .error e
        | .ok acc' => inferElements keep p (i + 1) acc' l
end

/-- The rest of the lines (`infer.h:755-756`). -/
def inferMore (keep : Str → Bool) : S → List J → Except Err S
  | s, [] => .ok s
  | s, j :: js =>
    match infer keep [] j with
    | .error e => .error e
    | .ok t =>
      match reduce s t with
      | .error e => .error e
      | .ok s' => inferMore keep s' js

/-- `SchemaFromOneJSONPerLineFile` (`infer.h:742-760`) of the parsed lines. For no lines the `Variant` returned holds nothing:
`none`. -/
def inferFile (keep : Str → Bool) : List J → Except Err (Option S)
  | [] => .ok none
  | j :: js =>
    match infer keep [] j with
    | .error e => .error e
    | .ok s =>
      match inferMore keep s js with
      | .error e => .error e
      | .ok r => .ok (some r)

/-! ### The generated structs -/

/-- A type as printed: `""`, a primitive, `std::vector<…>`, `Optional<…>`, or the name of a struct. -/
inductive TExpr where
  | empty
  | prim (t : Ty)
  | vec (t : TExpr)
  | opt (t : TExpr)
  | name (n : Str)

/-- `CURRENT_STRUCT(name) { CURRENT_FIELD(…); … };` (`infer.h:693-709`): the fields which got a type; the others are comments. -/
structure Decl where
  name : Str
  fields : List (Str × TExpr)

/-- `output_type = "Optional<" + output_type + ">"` if there are nulls. -/
def maybeOpt (nulls : Nat) (t : TExpr) : TExpr := if nulls = 0 then t else .opt t

/-- `Integer::CPPType` (`infer.h:183-186`). -/
def cppType (canBeUnsigned canBeMicroseconds : Bool) : Ty :=
  if canBeMicroseconds then .chrono else if canBeUnsigned then .uint 64 else .int 64

/-- `"_Element"`, `"_Object"` (`infer.h:670`, `:680`). -/
def kElement : Str := ['_', 'E', 'l', 'e', 'm', 'e', 'n', 't']
def kObject : Str := ['_', 'O', 'b', 'j', 'e', 'c', 't']

/-- `output_type` of `Printer` (`infer.h:646-713`). -/
def typeOf (pre : Str) : S → TExpr
  | .uninit => .empty
  | .null _ => .empty
  | .str _ _ n => maybeOpt n (.prim .str)
  | .int _ u c _ n => maybeOpt n (.prim (cppType u c))
  | .dbl _ n => maybeOpt n (.prim .dbl)
  | .bool _ _ n => maybeOpt n (.prim .bool)
  | .arr e _ n => maybeOpt n (.vec (typeOf (pre ++ kElement) e))
  | .obj _ _ n => maybeOpt n (.name (pre ++ kObject))

/-- Is the printed type the empty string? -/
def TExpr.isEmpty : TExpr → Bool
  | .empty => true
  | _ => false

/-- The fields of the struct (`infer.h:681-709`). -/
def fieldTypes (pre : Str) : Fs → List (Str × TExpr)
  | .nil => []
  | .cons k s r =>
    if (typeOf (pre ++ '_' :: k) s).isEmpty then fieldTypes pre r
    else (k, typeOf (pre ++ '_' :: k) s) :: fieldTypes pre r

mutual
/-- What `Printer` writes to `os` (`infer.h:646-713`): inner structs first. -/
def declsOf (pre : Str) : S → List Decl
  | .arr e _ _ => declsOf (pre ++ kElement) e
  | .obj fs _ _ => declsOfFields pre fs ++ [⟨pre ++ kObject, fieldTypes pre fs⟩]
  | _ => []
def declsOfFields (pre : Str) : Fs → List Decl
  | .nil => []
  | .cons k s r => declsOf (pre ++ '_' :: k) s ++ declsOfFields pre r
end

/-! ### The C++ compiler, on the generated text

Not code of the repository: what it takes for the generated header to be accepted, and the type it then defines. -/

abbrev Env := List (Str × Ty)

def Env.find (n : Str) : Env → Option Ty
  | [] => none
  | (k, t) :: r => if k = n then some t else Env.find n r

/-- A type expression: `std::vector<>` and the empty type are errors, and so is a name not declared before. -/
def evalType (env : Env) : TExpr → Option Ty
  | .empty => none
  | .prim t => some t
  | .vec t => (evalType env t).map .vec
  | .opt t => (evalType env t).map .opt
  | .name n => env.find n

/-- The fields of a struct, of distinct names. -/
def evalFields (env : Env) : List (Str × TExpr) → Option Row
  | [] => some .nil
  | (k, t) :: r =>
    if k ∈ r.map (·.1) then none
    else
      match evalType env t, evalFields env r with
      | some t', some r' => some (.cons k 0 t' r')
      | _, _ => none

/-- The declarations in order: a struct may not be defined twice. -/
def evalDecls : Env → List Decl → Option Env
  | env, [] => some env
  | env, d :: ds =>
    if (env.find d.name).isSome then none
    else
      match evalFields env d.fields with
      | some row => evalDecls ((d.name, .struct d.name .nil row) :: env) ds
      | none => none

/-- The header generated for the schema (`SchemaToCurrentStructPrinter::Print`, `infer.h:716-730`) as compiled: the type
`using Schema = …;` stands for. -/
def compile (top : Str) (s : S) : Option Ty :=
  match evalDecls [] (declsOf top s) with
  | some env => evalType env (typeOf top s)
  | none => none

end Current.Infer
