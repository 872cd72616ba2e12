import Verif.Json.Spec

/-!
# Type evolution

`typesystem/evolution/type_evolution.h` and `macros.h`, and the evolvers which the schema exporter writes for every struct, variant,
enum and optional (`typesystem/schema/schema.h:428-606`).  `Evolve<FROM, T, EVOLVER>::Go<INTO>(from, into)` is resolved by the
compiler; the outcome of that resolution for a type, an evolver and a destination is a value of `Ev a b` here: which of the
specializations is used at each place of the type.  Types and values are those of `Verif/Json`.

Simplifications: a field is copied to the field of the same name, and here fields of the destination are in the same order; the
inner functions a user writes in a custom evolver are arbitrary.
-/
namespace Current.Evolve
open Current.Json (Ty Row Env)
open Current.Persist (Str)

inductive Err
  | uninitialized       -- `UninitializedVariantException`, thrown by `Call` of a variant that holds nothing
  | user                -- thrown by a user's evolver
  deriving DecidableEq

/-- the types of `primitive_types.dsl.h`: `type_evolution.h:62-73` -/
def isPrim : Ty → Bool
  | .bool | .uint _ | .int _ | .chrono | .flt | .dbl | .str => true
  | _ => false

/-- `t` is one of the cases of a variant -/
inductive In : Row → Ty → Type
  | head {l : Str} {i : Nat} {t : Ty} {r : Row} : In (.cons l i t r) t
  | tail {l : Str} {i : Nat} {t u : Ty} {r : Row} : In r u → In (.cons l i t r) u

mutual
/-- the specialization of `Evolve` used for a type -/
inductive Ev : Ty → Ty → Type
  /-- `type_evolution.h:62-73` -/
  | prim (t : Ty) : Ev t t
  /-- generated for enums, `schema.h:541-558`: `static_cast` -/
  | enumU (w w' : Nat) : Ev (.enumU w) (.enumU w')
  | enumI (w w' : Nat) : Ev (.enumI w) (.enumI w')
  /-- `type_evolution.h:76-87` -/
  | vec {a b : Ty} (e : Ev a b) : Ev (.vec a) (.vec b)
  /-- `type_evolution.h:90-98` -/
  | pair {a b c d : Ty} (e : Ev a b) (f : Ev c d) : Ev (.pair a c) (.pair b d)
  /-- `type_evolution.h:101-112` -/
  | smap {a b : Ty} (e : Ev a b) : Ev (.smap a) (.smap b)
  | map {k l a b : Ty} (f : Ev k l) (e : Ev a b) : Ev (.map k a) (.map l b)
  /-- `type_evolution.h:115-126`: for an `Optional` of the same type -/
  | optSame (t : Ty) : Ev (.opt t) (.opt t)
  /-- generated for each `Optional` of a type which is not primitive, `schema.h:560-604` -/
  | opt {a b : Ty} (e : Ev a b) : Ev (.opt a) (.opt b)
  /-- generated for each struct, `schema.h:440-487`, or a custom one which copies its fields: `CURRENT_COPY_SUPER`, then
  `CURRENT_COPY_FIELD` for each field -/
  | struct {n m : Str} {s s' o o' : Row} (es : Fields s s') (eo : Fields o o') : Ev (.struct n s o) (.struct m s' o')
  /-- generated for each variant, `schema.h:487-540`, or `CURRENT_VARIANT_EVOLVER`, `macros.h:73-91` -/
  | variant {cs ds : Row} (e : Cases cs ds) : Ev (.variant cs) (.variant ds)
  /-- `CURRENT_TYPE_EVOLVER`, `type_evolution.h:131-145`: the code of the user, which gets `from` and `into` -/
  | custom {a b : Ty} (f : a.den → b.den → Except Err b.den) : Ev a b
/-- the evolvers of fields -/
inductive Fields : Row → Row → Type
  | nil : Fields .nil .nil
  | cons {l : Str} {i j : Nat} {a b : Ty} {r s : Row} (e : Ev a b) (es : Fields r s) : Fields (.cons l i a r) (.cons l j b s)
/-- what is done in each case of a variant -/
inductive Cases : Row → Row → Type
  | nil {ds : Row} : Cases .nil ds
  /-- `CURRENT_COPY_CASE`, `macros.h:110-118`; the generated evolver does the same, `schema.h:521-527` -/
  | copy {l : Str} {i : Nat} {a b : Ty} {r ds : Row} (at' : In ds b) (e : Ev a b) (es : Cases r ds) : Cases (.cons l i a r) ds
  /-- `CURRENT_DROP_CASE`, `macros.h:120-121` -/
  | drop {l : Str} {i : Nat} {a : Ty} {r ds : Row} (es : Cases r ds) : Cases (.cons l i a r) ds
  /-- `CURRENT_EVOLVE_CASE`, `macros.h:88-92`: the code of the user -/
  | custom {l : Str} {i : Nat} {a : Ty} {r ds : Row} (f : a.den → Option ds.sum → Except Err (Option ds.sum)) (es : Cases r ds) :
      Cases (.cons l i a r) ds
end

/-- a variant's value from that of a case -/
def inject : {ds : Row} → {t : Ty} → In ds t → t.den → ds.sum
  | _, _, .head, x => .inl x
  | _, _, .tail i, x => .inr (inject i x)

/-- the loop over a vector, `type_evolution.h:79-84`: `into` was resized, its elements are what they were, or new -/
def goEach {α β : Type} (dflt : β) (f : α → β → Except Err β) : List α → List β → Except Err (List β)
  | [], _ => .ok []
  | x :: xs, d =>
    match f x (d.headD dflt) with
    | .error e => .error e
    | .ok y =>
      match goEach dflt f xs d.tail with
      | .error e => .error e
      | .ok ys => .ok (y :: ys)

/-- a function on `into[key]`: the value there, or a new one -/
def mapAt {α β : Type} (lt : α → α → Bool) (dflt : β) (k : α) (f : β → Except Err β) : List (α × β) → Except Err (List (α × β))
  | [] =>
    match f dflt with
    | .error e => .error e
    | .ok v => .ok [(k, v)]
  | (k', v') :: r =>
    if lt k' k then
      match mapAt lt dflt k f r with
      | .error e => .error e
      | .ok r' => .ok ((k', v') :: r')
    else if lt k k' then
      match f dflt with
      | .error e => .error e
      | .ok v => .ok ((k, v) :: (k', v') :: r)
    else
      match f v' with
      | .error e => .error e
      | .ok v => .ok ((k', v) :: r)

/-- the loop over a map, `type_evolution.h:105-109` -/
def goMap {α β γ δ : Type} (lt : β → β → Bool) (dfltK : β) (dfltV : δ) (fk : α → β → Except Err β) (fv : γ → δ → Except Err δ) :
    List (α × γ) → List (β × δ) → Except Err (List (β × δ))
  | [], d => .ok d
  | (k, v) :: r, d =>
    match fk k dfltK with
    | .error e => .error e
    | .ok k' =>
      match mapAt lt dfltV k' (fv v) d with
      | .error e => .error e
      | .ok d' => goMap lt dfltK dfltV fk fv r d'

mutual
/-- `Evolve<...>::Go(from, into)`: the value of `into` afterwards -/
def go (env : Env) : {a b : Ty} → Ev a b → a.den → b.den → Except Err b.den
  | _, _, .prim _, x, _ => .ok x
  | _, _, .enumU w w', (x : BitVec w), _ => .ok (show BitVec w' from x.setWidth w')
  | _, _, .enumI w w', (x : BitVec w), _ => .ok (show BitVec w' from x.signExtend w')
  | _, _, @Ev.vec a b e, (x : List a.den), (d : List b.den) => goEach (env.dflt b) (go env e) x d
  | _, _, @Ev.pair a b c d e f, (x : a.den × c.den), (y : b.den × d.den) =>
    match go env e x.1 y.1 with
    | .error e => .error e
    | .ok p =>
      match go env f x.2 y.2 with
      | .error e => .error e
      | .ok q => .ok (show b.den × d.den from (p, q))
  | _, _, @Ev.smap a b e, (x : List (Str × a.den)), (d : List (Str × b.den)) =>
    goMap (env.lt .str) [] (env.dflt b) (fun k _ => .ok k) (go env e) x d
  | _, _, @Ev.map k l a b f e, (x : List (k.den × a.den)), (d : List (l.den × b.den)) =>
    goMap (env.lt l) (env.dflt l) (env.dflt b) (go env f) (go env e) x d
  | _, _, .optSame t, (x : Option t.den), _ => .ok x
  | _, _, @Ev.opt a b e, (x : Option a.den), _ =>
    match x with
    | none => .ok (show Option b.den from none)
    | some y =>
      match go env e y (env.dflt b) with
      | .error e => .error e
      | .ok z => .ok (show Option b.den from some z)
  | _, _, @Ev.struct _ _ s s' o o' es eo, (x : s.prod × o.prod), (d : s'.prod × o'.prod) =>
    match goFields env es x.1 d.1 with
    | .error e => .error e
    | .ok p =>
      match goFields env eo x.2 d.2 with
      | .error e => .error e
      | .ok q => .ok (show s'.prod × o'.prod from (p, q))
  | _, _, @Ev.variant cs _ e, (x : Option cs.sum), d =>
    match x with
    | none => .error .uninitialized
    | some y => goCases env e y d
  | _, _, .custom f, x, d => f x d
def goFields (env : Env) : {r s : Row} → Fields r s → r.prod → s.prod → Except Err s.prod
  | _, _, .nil, _, d => .ok d
  | _, _, @Fields.cons _ _ _ a b r s e es, (x : a.den × r.prod), (d : b.den × s.prod) =>
    match go env e x.1 d.1 with
    | .error e => .error e
    | .ok p =>
      match goFields env es x.2 d.2 with
      | .error e => .error e
      | .ok q => .ok (show b.den × s.prod from (p, q))
def goCases (env : Env) : {cs ds : Row} → Cases cs ds → cs.sum → Option ds.sum → Except Err (Option ds.sum)
  | _, _, .nil, x, _ => nomatch x
  | _, _, @Cases.copy _ _ a b r _ i e es, (x : a.den ⊕ r.sum), d =>
    match x with
    | .inl y =>
      match go env e y (env.dflt b) with
      | .error e => .error e
      | .ok z => .ok (some (inject i z))
    | .inr y => goCases env es y d
  | _, _, @Cases.drop _ _ a r _ es, (x : a.den ⊕ r.sum), d =>
    match x with
    | .inl _ => .ok d
    | .inr y => goCases env es y d
  | _, _, @Cases.custom _ _ a r _ f es, (x : a.den ⊕ r.sum), d =>
    match x with
    | .inl y => f y d
    | .inr y => goCases env es y d
end

mutual
/-- The evolver of a type into the same type of the same, or another, namespace, when nothing is customized: `NaturalEvolver`.
There is none for sets, arrays, tuples (`none`: does not compile). -/
def natural : (t : Ty) → Option (Ev t t)
  | .bool => some (.prim .bool)
  | .uint w => some (.prim (.uint w))
  | .int w => some (.prim (.int w))
  | .enumU w => some (.enumU w w)
  | .enumI w => some (.enumI w w)
  | .chrono => some (.prim .chrono)
  | .flt => some (.prim .flt)
  | .dbl => some (.prim .dbl)
  | .str => some (.prim .str)
  | .tid => none
  | .vec t => (natural t).map .vec
  | .arr _ _ => none
  | .pair a b => (natural a).bind fun e => (natural b).map fun f => .pair e f
  | .tup _ => none
  | .set _ => none
  | .smap t => (natural t).map .smap
  | .map k t => (natural k).bind fun f => (natural t).map fun e => .map f e
  | .opt t => if isPrim t then some (.optSame t) else (natural t).map .opt
  | .struct _ s o => (naturalFields s).bind fun es => (naturalFields o).map fun eo => .struct es eo
  | .variant cs => (naturalCases cs cs fun _ i => i).map .variant
def naturalFields : (r : Row) → Option (Fields r r)
  | .nil => some .nil
  | .cons _ _ t r => (natural t).bind fun e => (naturalFields r).map fun es => .cons e es
/-- the cases of `r`, which is a part of `ds` -/
def naturalCases : (r ds : Row) → (∀ t, In r t → In ds t) → Option (Cases r ds)
  | .nil, _, _ => some .nil
  | .cons _ _ t r, ds, emb =>
    (natural t).bind fun e => (naturalCases r ds fun u i => emb u (.tail i)).map fun es => .copy (emb t .head) e es
end

end Current.Evolve
