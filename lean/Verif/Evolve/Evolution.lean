import Verif.Evolve.Props
import Verif.Json.Props

/-!
# Theorems on type evolution
-/
namespace Current.Evolve
open Current.Json (Ty Row Env)
open Current.Persist (Str)

/-- **Evolution is structural.**  Whatever evolvers a user defines for some of the types, the destination of the evolution becomes
what `evolved` says: each part evolved in its place, at any depth, by the evolver for its type.  The conditions: custom code
overwrites its destination, keys keep their order, no case of a variant is dropped; the maps of the destination, and those in
default-constructed objects, are empty (`map_merges`, `default_map_merges`, `drop_keeps_old`, `keys_collide` without them). -/
theorem evolution_is_structural (env : Env) (hd : CleanDefaults env) {a b : Ty} (e : Ev a b) (ht : Tame env e) (x : a.den)
    (hx : Sorted env a x) (d : b.den) (hc : Clean b d) : go env e x d = evolved env e x :=
  go_eq env hd e ht x hx d hc

/-- **Natural evolution is the identity**: into the same types nothing changes, provided that all variants in the value hold
something. -/
theorem natural_identity_partial (env : Env) (hd : CleanDefaults env) {t : Ty} {e : Ev t t} (he : natural t = some e) (x : t.den)
    (hx : Json.Good env t x) (d : t.den) (hc : Clean t d) : go env e x d = .ok x := by
  rw [go_eq env hd e (natural_tame env t e he) x (sorted_of_good env t x hx) d hc]
  obtain ⟨x', h⟩ := natural_total env t e he x hx
  rw [h, natural_ok env t e he x x' h]

/-- Natural evolution that does not throw does not change anything, whatever the variants hold. -/
theorem natural_changes_nothing (env : Env) (hd : CleanDefaults env) {t : Ty} {e : Ev t t} (he : natural t = some e) (x x' : t.den)
    (hx : Sorted env t x) (d : t.den) (hc : Clean t d) (h : go env e x d = .ok x') : x' = x := by
  rw [go_eq env hd e (natural_tame env t e he) x hx d hc] at h
  exact natural_ok env t e he x x' h

/-- The result does not depend on what was in the destination. -/
theorem destination_overwritten (env : Env) (hd : CleanDefaults env) {a b : Ty} (e : Ev a b) (ht : Tame env e) (x : a.den)
    (hx : Sorted env a x) (d d' : b.den) (hc : Clean b d) (hc' : Clean b d') : go env e x d = go env e x d' := by
  rw [go_eq env hd e ht x hx d hc, go_eq env hd e ht x hx d' hc']

/-- A variant that holds nothing makes evolution throw. -/
theorem empty_variant_throws (env : Env) {cs ds : Row} (e : Cases cs ds) (d : Option ds.sum) :
    go env (.variant e) (none : Option cs.sum) d = .error .uninitialized := by
  simp only [go]

/-! ## Examples -/

mutual
theorem zero_clean : (t : Ty) → Clean t (Ty.zero t)
  | .bool | .uint _ | .int _ | .enumU _ | .enumI _ | .chrono | .flt | .dbl
  | .str | .tid | .arr _ _ | .tup _ | .set _ | .opt _ | .variant _ => by simp [Clean]
  | .vec t => by simp only [Clean, Ty.zero]; intro x hx; cases hx
  | .pair a b => by simp only [Clean, Ty.zero]; exact ⟨zero_clean a, zero_clean b⟩
  | .smap t => by simp only [Clean, Ty.zero]
  | .map k t => by simp only [Clean, Ty.zero]
  | .struct _ s o => by simp only [Clean, Ty.zero]; exact ⟨zeroRow_clean s, zeroRow_clean o⟩
theorem zeroRow_clean : (r : Row) → CleanRow r (Row.zero r)
  | .nil => by simp [CleanRow]
  | .cons _ _ t r => by simp only [CleanRow, Row.zero]; exact ⟨zero_clean t, zeroRow_clean r⟩
end

open Current.Json (demoEnv)

theorem demoEnv_clean : CleanDefaults demoEnv := zero_clean

/-- `struct Name { string first, last; }` -/
def name1 : Ty := .struct ['N'] .nil (.cons ['f'] 0 .str (.cons ['l'] 0 .str .nil))
/-- `struct Name { string full; }` -/
def name2 : Ty := .struct ['N'] .nil (.cons ['n'] 0 .str .nil)

/-- a document with names at various places -/
def doc (name : Ty) : Ty :=
  .struct ['D'] (.cons ['b'] 0 (.uint 8) .nil)
    (.cons ['v'] 0 (.vec name) (.cons ['m'] 0 (.smap (.opt name)) (.cons ['w'] 0 (.variant (.cons ['N'] 1 name .nil)) .nil)))

/-- the evolver for names -/
def evName : Ev name1 name2 := .custom fun x _ =>
  let f : Str := x.2.1
  let l : Str := x.2.2.1
  .ok ((), (f ++ [' '] ++ l : Str), ())

/-- what the compiler makes of it for documents -/
def evDoc : Ev (doc name1) (doc name2) :=
  .struct (.cons (.prim _) .nil)
    (.cons (.vec evName) (.cons (.smap (.opt evName)) (.cons (.variant (.copy .head evName .nil)) .nil)))

def mkName1 (f l : Str) : name1.den := ((), f, l, ())
def mkName2 (n : Str) : name2.den := ((), n, ())
def mkDoc (name : Ty) (b : BitVec 8) (v : List name.den) (m : List (Str × Option name.den)) (w : name.den) : (doc name).den :=
  ((b, ()), v, m, some (.inl w), ())

theorem evDoc_tame : Tame demoEnv evDoc := by
  simp [evDoc, evName, Tame, TameFields, TameCases]

/-- a custom evolver for one struct is used wherever the struct occurs; the destination has an old vector and variant -/
theorem demo_evolution :
    go demoEnv evDoc
      (mkDoc name1 7 [mkName1 ['K'] ['M'], mkName1 ['F'] ['E']] [(['a'], some (mkName1 ['A'] ['B'])), (['b'], none)] (mkName1 ['X'] ['Y']))
      (mkDoc name2 1 [mkName2 ['o', 'l', 'd']] [] (mkName2 ['o'])) =
    .ok (mkDoc name2 7 [mkName2 ['K', ' ', 'M'], mkName2 ['F', ' ', 'E']] [(['a'], some (mkName2 ['A', ' ', 'B'])), (['b'], none)]
      (mkName2 ['X', ' ', 'Y'])) := by
  rfl

/-- ... and by the theorem into any other destination that has no map entries -/
example (d : (doc name2).den) (h : Clean (doc name2) d) (v : List name1.den) (w : name1.den) :
    go demoEnv evDoc (mkDoc name1 7 v [] w) d = evolved demoEnv evDoc (mkDoc name1 7 v [] w) := by
  refine evolution_is_structural demoEnv demoEnv_clean evDoc evDoc_tame _ ?_ d h
  simp [doc, mkDoc, Sorted, SortedRow, SortedCase, name1]
  refine ⟨List.Pairwise.nil, fun y hy => ?_⟩
  cases y <;> trivial

/-- natural evolution of a document exists, and the theorem applies -/
theorem demo_natural (v : List name1.den) (w : name1.den) : ∃ e, natural (doc name1) = some e ∧
    go demoEnv e (mkDoc name1 7 v [(['a'], some w)] w) (Ty.zero (doc name1)) = .ok (mkDoc name1 7 v [(['a'], some w)] w) := by
  refine ⟨_, rfl, natural_identity_partial demoEnv demoEnv_clean rfl _ ?_ _ (zero_clean _)⟩
  simp [doc, mkDoc, Json.Good, Json.GoodRow, Json.GoodCase, name1]
  exact ⟨List.pairwise_singleton _ _, _, rfl, trivial⟩

/-! ## Where the conditions are needed -/

/-- Entries that are already in a map stay: the evolver does not clear it. -/
theorem map_merges :
    go demoEnv (.smap (.prim (.uint 8))) ([(['a'], 1)] : List (Str × BitVec 8)) ([(['b'], 2)] : List (Str × BitVec 8)) =
    .ok ([(['a'], 1), (['b'], 2)] : List (Str × BitVec 8)) := by
  rfl

/-- `struct S { std::map<std::string, uint8_t> m; }` -/
def withMap : Ty := .struct ['S'] .nil (.cons ['m'] 0 (.smap (.uint 8)) .nil)
def mkWithMap (l : List (Str × BitVec 8)) : withMap.den := ((), l, ())

open Classical in
/-- an environment where the default constructor of `S` puts an entry in the map: `CURRENT_FIELD(m, ..., {{"x", 9}})` -/
noncomputable def defaultEntry : Env :=
  { demoEnv with dflt := fun t => if h : t = withMap then h ▸ mkWithMap [(['x'], 9)] else Ty.zero t }

/-- So the natural evolution of a vector of such structs, into an empty vector, is not the identity: the entries of the default
come on top. -/
theorem default_map_merges : ∃ e, natural (.vec withMap) = some e ∧
    go defaultEntry e ([mkWithMap [(['a'], 1)]] : List withMap.den) ([] : List withMap.den) =
      .ok ([mkWithMap [(['a'], 1), (['x'], 9)]] : List withMap.den) := by
  refine ⟨_, rfl, ?_⟩
  have hd : defaultEntry.dflt withMap = mkWithMap [(['x'], 9)] := by
    unfold defaultEntry
    dsimp only
    rw [dif_pos rfl]
  simp only [go, goEach, List.headD]
  rw [hd]
  rfl

/-- `Variant<A, B>` with two structs that differ in their names -/
def caseA : Ty := .struct ['A'] .nil .nil
def caseB : Ty := .struct ['B'] .nil .nil
def twoCases : Row := .cons ['A'] 1 caseA (.cons ['B'] 2 caseB .nil)

/-- `CURRENT_DROP_CASE`: what the destination held stays there. -/
theorem drop_keeps_old :
    go demoEnv (.variant (.drop (.copy (.tail .head) (.struct .nil .nil) .nil) : Cases twoCases twoCases))
      (some (.inl ((), ())) : Option twoCases.sum) (some (.inr (.inl ((), ()))) : Option twoCases.sum) =
    .ok (some (.inr (.inl ((), ()))) : Option twoCases.sum) := by
  rfl

/-- Keys that become the same: one entry, evolved twice - for a value that is itself a map, with the entries of both. -/
theorem keys_collide :
    go demoEnv (.map (.custom fun _ _ => .ok (0 : BitVec 8)) (.smap (.prim (.uint 8))) :
        Ev (.map (.uint 8) (.smap (.uint 8))) (.map (.uint 8) (.smap (.uint 8))))
      ([(1, [(['a'], 1)]), (2, [(['b'], 2)])] : List (BitVec 8 × List (Str × BitVec 8))) ([] : List (BitVec 8 × List (Str × BitVec 8))) =
    .ok ([(0, [(['a'], 1), (['b'], 2)])] : List (BitVec 8 × List (Str × BitVec 8))) := by
  rfl

end Current.Evolve
