import Verif.Json.Model
/-!
What the exception thrown by `ParseJSON` and `PatchObjectWithJSON` says (`typesystem/serialization/json/exceptions.h`, `json.h`:
`path_`, `Path()`, and every `CURRENT_THROW(JSONSchemaException(...))` under `typesystem/serialization/json`):
"Expected WHAT for `PATH`, got: VALUE".
-/
set_option linter.unusedSimpArgs false
set_option linter.unusedVariables false
namespace Current.Json
open Current.Persist (Str dec readNat)

/-- The first argument of `JSONSchemaException`. Simplification: `milliseconds as integer` and `microseconds as integer` are one
(`chrono`), as in `Ty`; so are the texts for the ordered and the unordered sets and maps. -/
inductive Wanted where
  | bool | uint | int | flt | dbl | number | enumUnsigned | enumSigned | str | chrono | tid
  | array | tupleSize | object | pair | fsPair | set | smap | map | entry | entryOfTwo | fsOptional
  | variantObject | listedId | idAtEmptyKey | noOther (first second : Str) | someCase | case (name : Str)
  | oneOfCases | nameInCase | fieldsOfOne | dataInFields
deriving DecidableEq, Repr

/-- A piece of the path: `.name`, `[i]`, `["name"]`; `member i` stands for the value of the `i`-th member of an object, and is in no path the
code composes (it is used to say where things are). -/
inductive Seg where
  | field (name : Str) | item (i : Nat) | key (name : Str) | member (i : Nat)
deriving DecidableEq, Repr

/-- What is put into the text of a `JSONSchemaException` (`exceptions.h:40-44`). `actual = none`: "missing field.". -/
structure Blame where
  wanted : Wanted
  path : List Seg
  actual : Option J

/-- What is thrown. -/
inductive Fault where
  | schema (b : Blame)
  | uninit
  | assertion

/-- `path_.emplace_back(…)` before the nested call (`json.h:262-294`): the paths here are relative to the value at hand, and are
extended on the way out. -/
def Fault.at (s : Seg) : Fault → Fault
  | .schema b => .schema ⟨b.wanted, s :: b.path, b.actual⟩
  | .uninit => .uninit
  | .assertion => .assertion

def under (s : Seg) : Option Fault → Option Fault
  | none => none
  | some f => some (f.at s)

/-- One thing after another: the first exception leaves. -/
def andThen (a b : Option Fault) : Option Fault :=
  match a with
  | some f => some f
  | none => b

/-- The shape of all the `DoDeserialize` (see `onValue`). -/
def need {β : Type} (w : Wanted) (patch : Bool) (p : Option J) (is : J → Option β) (k : β → Option Fault) : Option Fault :=
  match p with
  | none => if patch then none else some (.schema ⟨w, [], none⟩)
  | some j =>
    match is j with
    | some b => k b
    | none => some (.schema ⟨w, [], some j⟩)

/-- `IsNumber()`. -/
def isNumber : J → Option Unit
  | .int _ => some ()
  | .dbl _ => some ()
  | _ => none

/-- `"[", i, "]"` for every element in turn (`vector.h:67-69`), or no path at all (`set.h:58` has one, `map.h` none). -/
def blameEach (f : J → Option Fault) : Nat → List J → Option Fault
  | _, [] => none
  | i, j :: js => andThen (under (.item i) (f j)) (blameEach f (i + 1) js)

/-- `array.h:51-53`. -/
def blameFin (f : J → Option Fault) : Nat → Nat → List J → Option Fault
  | _, 0, _ => none
  | _, _ + 1, [] => some .assertion
  | i, n + 1, j :: js => andThen (under (.item i) (f j)) (blameFin f (i + 1) n js)

/-- `map.h:78-84`: no path for the entry. -/
def blameSMap (f : J → Option Fault) : List (Str × J) → Option Fault
  | [] => none
  | (_, j) :: ms => andThen (f j) (blameSMap f ms)

/-- `map.h:95-108`; `whole` is the array of all the entries, which is what `Current()` is. -/
def blameMap (whole : List J) (fk fv : J → Option Fault) : List J → Option Fault
  | [] => none
  | .arr [jk, jv] :: js => andThen (fk jk) (andThen (fv jv) (blameMap whole fk fv js))
  | .arr _ :: _ => some (.schema ⟨.entryOfTwo, [], some (.arr whole)⟩)
  | _ :: _ => some (.schema ⟨.entry, [], some (.arr whole)⟩)

/-- `variant.h:310-328`. -/
def blameKeys : List (Str × J) → Option Str → Except Wanted (Option Str)
  | [], acc => .ok acc
  | (k, _) :: m, acc =>
    if k = [] ∨ k = kDollar then blameKeys m acc
    else
      match acc with
      | none => blameKeys m (some k)
      | some k' => .error (.noOther k' k)

/-- `sizeof...(TS)`. -/
def Row.length : Row → Nat
  | .nil => 0
  | .cons _ _ _ r => r.length + 1

mutual
/-- The exception `Deserialize(json_parser, destination)` throws, if any, with the path relative to the current value. Clause by
clause as `des` (`Verif/Json/Model.lean`), whose comments cite the lines. -/
def blame (m : Mode) : Ty → Option J → Option Fault
  | .bool, p => need .bool m.patch p asBool fun _ => none
  | .uint _, p => need .uint m.patch p asUint64 fun _ => none
  | .int _, p => need .int m.patch p asInt64 fun _ => none
  -- enum.h:46-62: the two texts are swapped
  | .enumU _, p => need .number m.patch p isNumber fun _ => need .enumSigned m.patch p asUint64 fun _ => none
  | .enumI _, p => need .number m.patch p isNumber fun _ => need .enumUnsigned m.patch p asInt64 fun _ => none
  | .chrono, p => need .chrono m.patch p asInt64 fun _ => none
  | .flt, p => need .flt m.patch p isNumber fun _ => none
  | .dbl, p => need .dbl m.patch p isNumber fun _ => none
  | .str, p => need .str m.patch p asString fun _ => none
  | .tid, p => need .tid m.patch p asTypeID fun _ => none
  | .vec t, p => need .array m.patch p asArray fun js => blameEach (fun j => blame m t (some j)) 0 js
  | .arr n t, p => need .array m.patch p asArray fun js => blameFin (fun j => blame m t (some j)) 0 n js
  -- pair.h:66-68, 80-82: no path
  | .pair a b, p =>
    if m.fmt = .fSharp ∧ m.patch = false then
      match fSharpItems p with
      | some (ja, jb) => andThen (blame m a (some ja)) (blame m b (some jb))
      | none => some (.schema ⟨.fsPair, [], p⟩)
    else need .pair m.patch p asTwo fun jj => andThen (blame m a (some jj.1)) (blame m b (some jj.2))
  -- tuple.h:75-84
  | .tup r, p => need .array m.patch p asArray fun js =>
      if js.length = r.length then blameTuple m r 0 js else some (.schema ⟨.tupleSize, [], p⟩)
  | .set t, p => need .set m.patch p asArray fun js => blameEach (fun j => blame m t (some j)) 0 js
  | .smap v, p => need .smap false p asObject fun ms => blameSMap (fun j => blame m v (some j)) ms
  | .map k v, p => need .map false p asArray fun js =>
      blameMap js (fun j => blame m k (some j)) (fun j => blame m v (some j)) js
  | .opt t, p =>
    match p with
    | none => none
    | some j =>
      if j.isNull then none
      else if m.fmt = .fSharp ∧ m.patch = false then
        match fSharpOption j with
        | none => some (.schema ⟨.fsOptional, [], some j⟩)
        | some none => none
        | some (some jv) => blame m t (some jv)
      else blame m t (some j)
  | .struct _ s o, p => need .object m.patch p asObject fun ms => andThen (blameFields m s ms) (blameFields m o ms)
  | .variant cs, p =>
    match p with
    | none => if m.fmt.useNulls then some .uninit else none
    | some j =>
      if j.isNull then if m.fmt.useNulls then some .uninit else none
      else
        match asObject j with
        | none => some (.schema ⟨.variantObject, [], some j⟩)
        | some ms =>
          match m.fmt with
          | .current =>
            match find [] ms with
            | none => some (.schema ⟨.idAtEmptyKey, [], some j⟩)
            | some jt =>
              match asTypeID jt with
              | none => some (.schema ⟨.tid, [.key []], some jt⟩)
              | some n =>
                match blameCase m cs (.id (n % 2 ^ 64)) ms with
                | none => some (.schema ⟨.listedId, [], some j⟩)
                | some r => r
          | .fSharp =>
            match find kCase ms with
            | none => some (.schema ⟨.nameInCase, [], some j⟩)
            | some jc =>
              match asString jc with
              | none => some (.schema ⟨.str, [.field kCase], some jc⟩)
              | some c =>
                match blameCase m cs (.name c) ms with
                | none => some (.schema ⟨.oneOfCases, [], some j⟩)
                | some r => r
          | _ =>
            match blameKeys ms none with
            | .error w => some (.schema ⟨w, [], some j⟩)
            | .ok none => some (.schema ⟨.someCase, [], some j⟩)
            | .ok (some k) =>
              match blameCase m cs (.name k) ms with
              | none => some (.schema ⟨.case k, [], some j⟩)
              | some r => r
/-- `struct.h:106-113`: the path gets `.name` whether the member is there or not. -/
def blameFields (m : Mode) : Row → List (Str × J) → Option Fault
  | .nil, _ => none
  | .cons l _ t r, ms => andThen (under (.field l) (blame m t (find l ms))) (blameFields m r ms)
/-- `tuple.h:59-67`, the sizes being equal. -/
def blameTuple (m : Mode) : Row → Nat → List J → Option Fault
  | .nil, _, _ => none
  | .cons _ _ _ _, _, [] => none
  | .cons _ _ t r, i, j :: js => andThen (under (.item i) (blame m t (some j))) (blameTuple m r (i + 1) js)
/-- `variant.h:137-201`. Outer `none`: no such case. -/
def blameCase (m : Mode) : Row → Key → List (Str × J) → Option (Option Fault)
  | .nil, _, _ => none
  | .cons l i t r, key, ms =>
    match blameCase m r key ms with
    | some x => some x
    | none =>
      if key.hits l i then
        match m.fmt with
        | .current =>
          match find l ms with
          | none => some (if m.patch then none else some (.schema ⟨.case l, [], some (.obj ms)⟩))
          | some j => some (under (.key l) (blame m t (some j)))
        | .fSharp =>
          match find kFields ms with
          | some (.arr [j]) => some (under (.field kFields) (under (.item 0) (blame m t (some j))))
          | some _ => some (some (.schema ⟨.fieldsOfOne, [], some (.obj ms)⟩))
          | none => some (if t.isEmptyStruct then none else some (.schema ⟨.dataInFields, [], some (.obj ms)⟩))
        | _ =>
          match find l ms with
          | none => some (some .assertion)
          | some j => some (under (.key l) (blame m t (some j)))
      else none
end

/-- The first arguments, as they are in the code. -/
def Wanted.text : Wanted → Str
  | .bool => "bool".toList                                    -- primitives.h:150
  | .uint => "unsigned integer".toList                        -- primitives.h:87
  | .int => "integer".toList                                  -- primitives.h:101
  | .flt => "float".toList                                    -- primitives.h:113
  | .dbl => "double".toList                                   -- primitives.h:125
  | .number => "number".toList                                -- enum.h:61
  | .enumUnsigned => "enum as unsigned integer".toList        -- enum.h:51
  | .enumSigned => "enum as signed integer".toList            -- enum.h:57
  | .str => "string".toList                                   -- primitives.h:137
  | .chrono => "milliseconds as integer".toList               -- primitives.h:162
  | .tid => "TypeID".toList                                   -- typeid.h:53
  | .array => "array".toList                                  -- vector.h:71, array.h:55, tuple.h:83
  | .tupleSize => "bad array size for tuple".toList           -- tuple.h:79
  | .object => "object".toList                                -- struct.h:130
  | .pair => "pair as array".toList                           -- pair.h:71
  | .fsPair => "pair as an object of {Item1,Item2}".toList    -- pair.h:85
  | .set => "set as array".toList                             -- set.h:62
  | .smap => "map as object".toList                           -- map.h:86
  | .map => "map as array".toList                             -- map.h:110
  | .entry => "map entry as array".toList                     -- map.h:98
  | .entryOfTwo => "map entry as array of two elements".toList -- map.h:101
  | .fsOptional => "optional as `null` or `{\"Case\":\"Some\",\"Fields\":[value]}`".toList -- optional.h:133
  | .variantObject => "variant type as object".toList         -- variant.h:275, 340, 385
  | .listedId => "a type id listed in the type list".toList   -- variant.h:269
  | .idAtEmptyKey => "type id as value for an empty string".toList -- variant.h:272
  | .noOther a b => "no other key after `".toList ++ a ++ "`, seeing `".toList ++ b ++ "`".toList -- variant.h:324
  | .someCase => "a key-value entry with a variant type".toList -- variant.h:330
  | .case n => "variant case `".toList ++ n ++ "`".toList     -- variant.h:149, 336
  | .oneOfCases => "one of requested values of \"Case\"".toList -- variant.h:380
  | .nameInCase => "a type name in \"Case\"".toList         -- variant.h:383
  | .fieldsOfOne => "array of one element in `Fields`".toList -- variant.h:186
  | .dataInFields => "data in `Fields`".toList                -- variant.h:196

/-- `CharPtrOrInt::AppendToString` for the parts of one step (`struct.h:109`, `vector.h:68`, `variant.h:145`). -/
def Seg.text : Seg → Str
  | .field n => '.' :: n
  | .item i => '[' :: (dec i ++ [']'])
  | .key n => '[' :: '"' :: (n ++ ['"', ']'])
  | .member _ => []

/-- `Path()` (`json.h:312-318`): without the leading dot. -/
def pathText (q : List Seg) : Str :=
  match (q.map Seg.text).flatten with
  | '.' :: s => s
  | s => s

/-- The text (`exceptions.h:42-44`). `json`: how a value is printed, see C66. -/
def Blame.text (json : J → Str) (b : Blame) : Str :=
  "Expected ".toList ++ b.wanted.text ++ (if b.path = [] then [] else " for `".toList ++ pathText b.path ++ "`".toList) ++
    ", got: ".toList ++ (match b.actual with | some v => json v | none => "missing field.".toList)

end Current.Json
