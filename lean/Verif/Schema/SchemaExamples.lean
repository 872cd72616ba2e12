import Verif.Schema.SchemaProps
import Verif.Schema.IdExamples
/-!
C95: a program to which the theorem applies, and where the schema is not complete: arrays and the arguments of templates.
-/
namespace Current.Schema
open Current.Persist Relation

/-- The types of `typesystem/reflection/test.cc`, recursive ones included, with the ids as computed. -/
theorem testTypes_plain : Plain testTypes (freshId .left testTypes 16) 15 := by
  refine ⟨?_, ?_, testTypes_closed⟩
  · intro t ht e k h
    unfold testTypes at h
    split at h <;> cases h
  · have : ∀ t < 15, ∀ u < 15, freshId .left testTypes 16 t = freshId .left testTypes 16 u → t = u := by decide +kernel
    exact this

/-- The schema of the given types. -/
def exported (G : Types) (cid vid : Nat → UInt64) (depth : Nat) (ts : List Nat) : Option Schema :=
  match addTypes G cid vid depth ts (fun _ => none) ⟨[], []⟩ with
  | some (_, .ok s) => some s
  | _ => none

/-- What stands in the schema under this id. -/
def Schema.at (s : Schema) (id : UInt64) : Option (Def UInt64) := (s.types.find? fun x => x.1 == id).map (·.2.d)

/-- The schema of `Bar` and then of `SelfContainingC`: the order of the types. -/
example : (exported testTypes (freshId .left testTypes 16) (fun _ => 0) 16 [7, 12]).map (fun s => (s.types.length, s.order)) =
    some (14, [3, 2, 4, 5, 6, 7, 9, 8, 10, 11, 14, 12].map (freshId .left testTypes 16)) := by decide +kernel

/-! ### Arrays -/

/-- `struct S { std::array<uint64_t, 3> a; std::vector<uint64_t> v; }`. -/
def arrayTypes : Types
  | 0 => ⟨"uint64_t".toList, .prim 24⟩
  | 1 => ⟨"std::array<uint64_t, 3>".toList, .array 0 3⟩
  | 2 => ⟨"std::vector<uint64_t>".toList, .vector 0⟩
  | 3 => ⟨['S'], .struct none none [(['a'], 1), (['v'], 2)]⟩
  | _ => ⟨"bool".toList, .prim 11⟩

/-- `CurrentTypeID<std::vector<e>>()` for the types above. -/
def arrayVid : Nat → UInt64 := fun _ => freshId .left arrayTypes 6 2

/-- Not as one would wish: in the schema of `S` the id of the field `a` is the id of no type, and what stands there under the id of the field `v`, a vector, is the array. -/
theorem arrays_break_the_schema :
    let id := freshId .left arrayTypes 6
    (exported arrayTypes id arrayVid 6 [3]).map (fun s => (s.at (id 3), s.at (id 1), s.at (id 2))) =
      some (some (.struct none none [(['a'], id 1), (['v'], id 2)]), none, some (.array (id 0) 3)) := by decide +kernel

/-- With the fields the other way round there is no array in the schema at all. -/
def arrayTypes' : Types
  | 3 => ⟨['S'], .struct none none [(['v'], 2), (['a'], 1)]⟩
  | t => arrayTypes t

theorem arrays_break_the_schema' :
    let id := freshId .left arrayTypes' 6
    (exported arrayTypes' id arrayVid 6 [3]).map (fun s => (s.at (id 3), s.at (id 1), s.at (id 2), s.types.length)) =
      some (some (.struct none none [(['v'], id 2), (['a'], id 1)]), none, some (.vector (id 0)), 3) := by decide +kernel

/-! ### Templates -/

/-- `CURRENT_STRUCT(Unit) {}; CURRENT_STRUCT_T(Id) { CURRENT_FIELD(value, uint64_t); }`, and a field of the type `Id<Unit>`. -/
def phantomTypes : Types
  | 0 => ⟨"uint64_t".toList, .prim 24⟩
  | 1 => ⟨"Unit".toList, .struct none none []⟩
  | 2 => ⟨"Id_Z".toList, .struct none (some 1) [("value".toList, 0)]⟩
  | 3 => ⟨['S'], .struct none none [("id".toList, 2)]⟩
  | _ => ⟨"bool".toList, .prim 11⟩

/-- The entry of `Id<Unit>` mentions an id which is not in the schema. -/
theorem template_argument_not_in_the_schema :
    let id := freshId .left phantomTypes 6
    (exported phantomTypes id (fun _ => 0) 6 [3]).map (fun s => (s.at (id 2), s.at (id 1))) =
      some (some (.struct none (some (id 1)) [("value".toList, id 0)]), none) := by decide +kernel

end Current.Schema
