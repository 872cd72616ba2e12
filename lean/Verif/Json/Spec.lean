import Verif.Json.Model
/-!
When a value survives `JSON()` followed by `ParseJSON()`: the conditions on its type, and on the value.
-/
namespace Current.Json
open Current.Persist (Str dec readNat)

def Row.labels : Row → List Str
  | .nil => []
  | .cons l _ _ r => l :: r.labels

def Row.ids : Row → List Nat
  | .nil => []
  | .cons _ i _ r => i :: r.ids

def Ty.isOpt : Ty → Bool
  | .opt _ => true
  | _ => false

/-- A struct that has no fields of its own but inherits some. -/
def Ty.onlyInherits : Ty → Bool
  | .struct _ (.cons _ _ _ _) .nil => true
  | _ => false

def Row.noneOnlyInherits : Row → Prop
  | .nil => True
  | .cons _ _ t r => t.onlyInherits = false ∧ r.noneOnlyInherits

mutual
/-- Conditions on a type, for JSON written in format `fs` to be read in format `fp`:
integers are at most 64 bits wide; an `Optional` is not directly inside another (except in the F# format);
a struct has no two fields of one name, including the inherited ones; the cases of a `Variant` are told apart by what the
parser looks them up by, and, except in the F# format, no case is called `""` or `"$"`; in the F# format no case has only inherited fields. -/
def TyOk (fs fp : Fmt) : Ty → Prop
  | .uint w => w ≤ 64
  | .int w => w ≤ 64
  | .enumU w => w ≤ 64
  | .enumI w => w ≤ 64
  | .vec t => TyOk fs fp t
  | .arr _ t => TyOk fs fp t
  | .pair a b => TyOk fs fp a ∧ TyOk fs fp b
  | .tup r => RowOk fs fp r
  | .set t => TyOk fs fp t
  | .smap v => TyOk fs fp v
  | .map k v => TyOk fs fp k ∧ TyOk fs fp v
  | .opt t => TyOk fs fp t ∧ (fs ≠ .fSharp → t.isOpt = false)
  | .struct _ s o => RowOk fs fp s ∧ RowOk fs fp o ∧ (s.labels ++ o.labels).Nodup
  | .variant cs => RowOk fs fp cs ∧ (fp = .current → cs.ids.Nodup ∧ ∀ i ∈ cs.ids, i < 2 ^ 64) ∧
      (fp ≠ .current → cs.labels.Nodup) ∧ (fp ≠ .fSharp → [] ∉ cs.labels ∧ ['$'] ∉ cs.labels) ∧
      (fp = .fSharp → cs.noneOnlyInherits)
  | _ => True
def RowOk (fs fp : Fmt) : Row → Prop
  | .nil => True
  | .cons _ _ t r => TyOk fs fp t ∧ RowOk fs fp r
end

mutual
/-- Conditions on a value: every `Variant` in it holds something; sets and maps are in the order of their comparator. -/
def Good (e : Env) : (t : Ty) → t.den → Prop
  | .vec t, (l : List t.den) => ∀ x ∈ l, Good e t x
  | .arr _ t, v => ∀ i, Good e t (v i)
  | .pair a b, (x : a.den × b.den) => Good e a x.1 ∧ Good e b x.2
  | .tup r, (x : r.prod) => GoodRow e r x
  | .set t, (l : List t.den) => l.Pairwise (fun a b => e.lt t a b = true) ∧ ∀ x ∈ l, Good e t x
  | .smap v, (l : List (Str × v.den)) =>
    l.Pairwise (fun a b => e.lt .str a.1 b.1 = true) ∧ ∀ x ∈ l, Good e v x.2
  | .map k v, (l : List (k.den × v.den)) =>
    l.Pairwise (fun a b => e.lt k a.1 b.1 = true) ∧ ∀ x ∈ l, Good e k x.1 ∧ Good e v x.2
  | .opt t, (x : Option t.den) => ∀ y, x = some y → Good e t y
  | .struct _ s o, (x : s.prod × o.prod) => GoodRow e s x.1 ∧ GoodRow e o x.2
  | .variant cs, (x : Option cs.sum) => ∃ y, x = some y ∧ GoodCase e cs y
  | _, _ => True
def GoodRow (e : Env) : (r : Row) → r.prod → Prop
  | .nil, _ => True
  | .cons _ _ t r, (x : t.den × r.prod) => Good e t x.1 ∧ GoodRow e r x.2
def GoodCase (e : Env) : (r : Row) → r.sum → Prop
  | .nil, _ => False
  | .cons _ _ t r, (x : t.den ⊕ r.sum) =>
    match x with
    | .inl y => Good e t y
    | .inr z => GoodCase e r z
end

/-- Which parsers read what a format writes: its own, and the `Minimalistic` and `JavaScript` ones read `Current` and each
other too ("Skip keys `""` and `"$"` for "backwards" compatibility with the "Current" format", `variant.h:316`). -/
def Reads (fs fp : Fmt) : Prop :=
  fp = fs ∨ ((fp = .minimalistic ∨ fp = .javaScript) ∧ fs ≠ .fSharp)

/-- `float` values survive the conversion to `double` and back. -/
def FloatOk (e : Env) : Prop := ∀ x, e.d2f (e.f2d x) = x

end Current.Json
