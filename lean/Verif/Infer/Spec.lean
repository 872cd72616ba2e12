import Verif.Infer.Model
/-!
What a schema should say about the values it was inferred from, all at once and not line by line: the specification the
fold of `reduce` is checked against. Nothing here mentions `reduce`, `infer` or the order of the lines.
-/
namespace Current.Infer
open Current.Persist (Str dec)
open Current.Json (J find)

/-! ### Kinds of values -/

def isStr : J → Bool
  | .str _ => true
  | _ => false

/-- An integer of `int64_t`. -/
def isInt : J → Bool
  | .int i => decide (-9223372036854775808 ≤ i ∧ i ≤ 9223372036854775807)
  | _ => false

def isNum : J → Bool
  | .int _ => true
  | .dbl _ => true
  | _ => false

def isBool : J → Bool
  | .bool _ => true
  | _ => false

def isTrue : J → Bool
  | .bool b => b
  | _ => false

/-- Empty arrays are treated as if they were not there, and are not of this kind. -/
def isArr : J → Bool
  | .arr [] => false
  | .arr _ => true
  | _ => false

def isObj : J → Bool
  | .obj _ => true
  | _ => false

/-! ### The values found one level down -/

/-- The value of field `k` in an object: null if there is none, or if it is an empty array. -/
def fieldOf (k : Str) : J → Option J
  | .obj m =>
    match find k m with
    | some (.arr []) => some .null
    | some v => some v
    | none => some .null
  | _ => none

/-- The values of field `k` in all the objects of the list. -/
def fieldValues (k : Str) (vs : List J) : List J := vs.filterMap (fieldOf k)

/-- The elements of an array, without the empty arrays among them. -/
def elementsOf : J → List J
  | .arr l => l.filter fun v => !isEmptyArray v
  | _ => []

/-- The elements of all the arrays of the list. -/
def elementValues (vs : List J) : List J := vs.flatMap elementsOf

/-- The integers of the list. -/
def intsOf (vs : List J) : List Int := vs.filterMap fun
  | .int i => some i
  | _ => none

/-- The strings of the list. -/
def stringsOf (vs : List J) : List Str := vs.filterMap fun
  | .str s => some s
  | _ => none

/-! ### The specification -/

/-- The values are of one kind or null; `i` of them are of the kind, at least one; and nulls were counted if and only if there
are some. -/
def Common (kind : J → Bool) (i n : Nat) (vs : List J) : Prop :=
  (∀ v ∈ vs, v = .null ∨ kind v = true) ∧ i = vs.countP kind ∧ 0 < i ∧ (0 < n ↔ J.null ∈ vs)

/-- The count of a string in a histogram. -/
def countIn (s : Str) : List (Str × Nat) → Nat
  | [] => 0
  | (k, n) :: l => (if k = s then n else 0) + countIn s l

/-- A histogram of a list of strings: no string twice or zero times, at most a hundred of them, never more than there are; and as long as there
have been at most a hundred different ones, exact. -/
def Histogram (h : List (Str × Nat)) (l : List Str) : Prop :=
  (h.map (·.1)).Nodup ∧ h.length ≤ 100 ∧ (∀ kv ∈ h, 0 < kv.2) ∧ (∀ s, countIn s h ≤ l.count s) ∧
    ((∃ d : List Str, d.length ≤ 100 ∧ ∀ s ∈ l, s ∈ d) → ∀ s, countIn s h = l.count s)

/-- A C++ identifier (not telling the reserved words apart): letters, digits and underscores, not starting with a digit. -/
def Identifier (s : Str) : Prop :=
  ∃ c r, s = c :: r ∧ (c = '_' ∨ c.isAlpha = true) ∧ ∀ d ∈ r, d = '_' ∨ d.isAlpha = true ∨ d.isDigit = true

/-- A key which is accepted: an identifier other than `NULL`, `null`, `true` and `false`. -/
def Acceptable (s : Str) : Prop :=
  Identifier s ∧ s ∉ [['N', 'U', 'L', 'L'], ['n', 'u', 'l', 'l'], ['t', 'r', 'u', 'e'], ['f', 'a', 'l', 's', 'e']]

mutual
/-- The schema says what there is to say about the values `vs` found at one place (`p`: the path of that place, which
matters for what is ignored). -/
def Describes (keep : Str → Bool) (p : Str) : S → List J → Prop
  | .uninit, vs => vs = []
  | .null n, vs => vs ≠ [] ∧ 0 < n ∧ ∀ v ∈ vs, v = .null
  | .str h i n, vs => Common isStr i n vs ∧ Histogram h (stringsOf vs)
  | .int sum u c i n, vs =>
    Common isInt i n vs ∧ sum = (intsOf vs).sum ∧ (u = true ↔ ∀ x ∈ intsOf vs, 0 ≤ x) ∧
      (c = true ↔ ∀ x ∈ intsOf vs, 315561600000000 ≤ x ∧ x < 8835984000000000)
  | .dbl i n, vs => Common isNum i n vs ∧ ∃ v ∈ vs, isNum v = true ∧ isInt v = false
  | .bool f t n, vs => Common isBool (f + t) n vs ∧ t = vs.countP isTrue
  | .arr e i n, vs => Common isArr i n vs ∧ elementValues vs ≠ [] ∧ Describes keep (element p 0) e (elementValues vs)
  | .obj fs i n, vs =>
    Common isObj i n vs ∧ fs.names.Nodup ∧
      (∀ k, k ∈ fs.names ↔ keep (member p k) = true ∧ ∃ v ∈ vs, ∃ m x, v = .obj m ∧ find k m = some x ∧ isEmptyArray x = false) ∧
      (∀ k ∈ fs.names, Acceptable k) ∧ DescribesFields keep p fs vs
/-- Every field describes the values of that field. -/
def DescribesFields (keep : Str → Bool) (p : Str) : Fs → List J → Prop
  | .nil, _ => True
  | .cons k s r, vs => Describes keep (member p k) s (fieldValues k vs) ∧ DescribesFields keep p r vs
end

/-! ### Conditions on the documents -/

mutual
/-- No object has two members of the same name. -/
def DistinctKeys : J → Prop
  | .obj m => (m.map (·.1)).Nodup ∧ DistinctMembers m
  | .arr l => DistinctElements l
  | _ => True
def DistinctMembers : List (Str × J) → Prop
  | [] => True
  | (_, v) :: m => DistinctKeys v ∧ DistinctMembers m
def DistinctElements : List J → Prop
  | [] => True
  | v :: l => DistinctKeys v ∧ DistinctElements l
end

/-- What is ignored does not depend on the indexes of array elements. -/
def Blind (keep : Str → Bool) : Prop := ∀ p i q, keep (element p i ++ q) = keep (element p 0 ++ q)

end Current.Infer
