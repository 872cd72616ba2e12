import Verif.Strings.Split
import Verif.Strings.Text
set_option linter.unusedSimpArgs false
set_option linter.unusedVariables false

/-! # The NLP module (`nlp/nlp.h`, `nlp/nlp_schema_begin.inl`): a model of schema blocks and of their evaluation.

Every schema block owns a reference to an implementation object whose C++ *type* spells the whole expression. The implementation objects are
function-local `static`s, one per type; the `emit` callbacks are composed; exceptions of local types stop an evaluation early. The model keeps all
three: implementation types (`Shape`), the store of the functions captured by the static objects (`Store`), and callbacks over an arbitrary state which may
throw typed signals (`Act`). -/

namespace Current.NLP
open Current.Persist Current.Strings

/-- The emitted types (`emitted_t`). Tuples and variants are spelled element by element: `tcons a (tcons b tnil)` is `std::tuple<a, b>`. -/
inductive Ty
  | unit
  | base (n : Nat)
  | tnil | tcons (head tail : Ty)
  | vnil | vcons (head tail : Ty)
deriving DecidableEq

/-- Emitted values. A value of a `Variant` type is represented by the value it holds. -/
inductive Val
  | unit
  | atom (n : Nat) (s : Str)
  | tup (vs : List Val)

/-- One annotated query term, `nlp.h:87-103`: the fields a schema adds (`Optional<...>`) are numbered. -/
structure Term where
  orig : Str
  norm : Str
  field : Nat → Option Val

/-! ### Types -/

/-- `is_std_tuple`, `bricks/template/tuple.h:36-44`. -/
def Ty.isTuple : Ty → Bool
  | .tnil | .tcons _ _ => true
  | _ => false

/-- `wrapped_into_tuple_t`, `tuple.h:52-65`. -/
def Ty.wrapped (t : Ty) : Ty := if t.isTuple then t else .tcons t .tnil

/-- Concatenation of two tuple types. -/
def Ty.appendTuple : Ty → Ty → Ty
  | .tcons h t, r => .tcons h (t.appendTuple r)
  | _, r => r

/-- `tuple_cat_t`, `tuple.h:72-81`. -/
def Ty.tupleCat (a b : Ty) : Ty := a.wrapped.appendTuple b.wrapped

/-- `IS_CURRENT_VARIANT`. -/
def Ty.isVariant : Ty → Bool
  | .vnil | .vcons _ _ => true
  | _ => false

/-- The type list of a variant, or the single type itself. -/
def Ty.alts (t : Ty) : Ty := if t.isVariant then t else .vcons t .vnil

/-- Whether a type is one of the alternatives of a variant. -/
def Ty.hasAlt (x : Ty) : Ty → Bool
  | .vcons h t => h = x || x.hasAlt t
  | _ => false

/-- Adding one alternative at the end, unless it is there already. -/
def Ty.addAlt (x : Ty) : Ty → Ty
  | .vcons h t => if h = x then .vcons h t else .vcons h (x.addAlt t)
  | _ => .vcons x .vnil

/-- `TypeListUnion` of two type lists, in the order of first occurrence. -/
def Ty.unionAlts (a : Ty) : Ty → Ty
  | .vcons h t => (h.addAlt a).unionAlts t
  | _ => a

/-- `OrImpl<...>::emitted_t`, `nlp.h:193-268`: equal types are kept (in particular two `Unit`s), otherwise the union of the two as a `Variant`. -/
def Ty.or (a b : Ty) : Ty := if a = b then a else a.alts.unionAlts b.alts

/-- `SeqImplSelector<...>::type::emitted_t`, `nlp.h:296-441`: `Unit`s vanish, otherwise the two are concatenated. -/
def Ty.seq (a b : Ty) : Ty := if b = .unit then a else if a = .unit then b else a.tupleCat b

/-! ### Implementation types and schema expressions -/

/-- The type of an implementation object: what the template arguments of `UnitImpl`, `OrImpl`, ... spell (`nlp.h:111-481`), and the leaf blocks of
`nlp_schema_begin.inl` (a `Keyword` or a `DictionaryAnnotation` defines a `struct` of its own). No function is part of a type: `MapImpl` and `FilterImpl` keep
theirs in a field. -/
inductive Shape
  | none
  | keyword (w : Str)
  | dict (n : Nat) (t : Ty)
  | void (b : Shape)
  | or (a b : Shape)
  | and (a b : Shape)
  | seq (a b : Shape)
  | rseq (a b : Shape)
  | map (out : Ty) (b : Shape)
  | filter (b : Shape)
deriving DecidableEq

/-- `emitted_t` of each implementation. -/
def Shape.ty : Shape → Ty
  | .none => .unit
  | .keyword _ => .unit
  | .dict _ t => t
  | .void _ => .unit
  | .or a b => a.ty.or b.ty
  | .and a b => a.ty.tupleCat b.ty
  | .seq a b => a.ty.seq b.ty
  | .rseq a b => a.ty.seq b.ty
  | .map out _ => out
  | .filter b => b.ty

/-- The size of a type expression. -/
def Shape.size : Shape → Nat
  | .none | .keyword _ | .dict _ _ => 1
  | .void b | .map _ b | .filter b => b.size + 1
  | .or a b | .and a b | .seq a b | .rseq a b => a.size + b.size + 1

/-- What the author of a schema writes: `Keyword`, `DictionaryAnnotation`, `None`, `Void(e)`, `a | b`, `a & b`, `a >> b`, `a << b`, `Map(e, out, ...)`, `Filter(e, ...)`. -/
inductive Expr
  | none
  | keyword (w : Str)
  | dict (n : Nat) (t : Ty)
  | void (e : Expr)
  | or (a b : Expr)
  | and (a b : Expr)
  | seq (a b : Expr)
  | rseq (a b : Expr)
  | map (out : Ty) (f : Val → Val) (e : Expr)
  | filter (p : Val → Bool) (e : Expr)

/-- The implementation type of an expression. `SeqImplSelector` drops the direction when a `Unit` is present (`nlp.h:412-427`). -/
def Expr.shape : Expr → Shape
  | .none => .none
  | .keyword w => .keyword w
  | .dict n t => .dict n t
  | .void e => .void e.shape
  | .or a b => .or a.shape b.shape
  | .and a b => .and a.shape b.shape
  | .seq a b => .seq a.shape b.shape
  | .rseq a b => if a.shape.ty = .unit ∨ b.shape.ty = .unit then .seq a.shape b.shape else .rseq a.shape b.shape
  | .map out _ e => .map out e.shape
  | .filter _ e => .filter e.shape

/-- `Maybe(term)`, `nlp_schema_begin.inl:105`. -/
def Expr.maybe (e : Expr) : Expr := .or .none e
/-- `GreedyMaybe(term)`, `nlp_schema_begin.inl:106`. -/
def Expr.greedyMaybe (e : Expr) : Expr := .or e .none

/-- `emitted_t` of an expression. -/
def Expr.ty (e : Expr) : Ty := e.shape.ty

/-! ### The static implementation objects -/

/-- The function a static `MapImpl` or `FilterImpl` object was constructed with. -/
inductive Fn
  | map (f : Val → Val)
  | filter (p : Val → Bool)

/-- The static objects of `MapHelper` and `FilterHelper` constructed so far, by type. -/
abbrev Store := Shape → Option Fn

/-- `static ... static_map_impl(impl_, map_function)`: constructed when the control passes for the first time, ignored afterwards, `nlp.h:543-555`. -/
def Store.define (st : Store) (s : Shape) (f : Fn) : Store :=
  match st s with
  | some _ => st
  | none => fun s' => if s' = s then some f else st s'

/-- Evaluating a schema expression creates the static objects, innermost first, `nlp.h:505-556`. (Operands are taken left to right.) -/
def Expr.build (st : Store) : Expr → Store
  | .none | .keyword _ | .dict _ _ => st
  | .void e => e.build st
  | .or a b | .and a b | .seq a b | .rseq a b => b.build (a.build st)
  | .map out f e => (e.build st).define (.map out e.shape) (.map f)
  | .filter p e => (e.build st).define (.filter e.shape) (.filter p)

/-- A program evaluates its schema expressions one after another. -/
def buildAll (es : List Expr) : Store := es.foldl Expr.build (fun _ => Option.none)

/-! ### Evaluation -/

/-- What can be thrown: the signal types local to `EvalImpl` (there is one per implementation type), what the outermost callback throws, and undefined behaviour. -/
inductive Signal
  | block (s : Shape)
  | user (n : Nat)
  | undefined
deriving DecidableEq

/-- An action of a callback: it changes some state, and may throw. -/
abbrev Act (σ : Type) := σ → σ × Option Signal

/-- Nothing. -/
def Act.ok {σ} : Act σ := fun s => (s, none)
/-- `throw`. -/
def Act.throw {σ} (e : Signal) : Act σ := fun s => (s, some e)
/-- `a; b`. -/
def Act.andThen {σ} (a b : Act σ) : Act σ := fun s =>
  match a s with
  | (s', none) => b s'
  | (s', some e) => (s', some e)
/-- `try { a } catch (const T&) { h }`. -/
def Act.catching {σ} (l : Signal) (a h : Act σ) : Act σ := fun s =>
  match a s with
  | (s', some e) => if e = l then h s' else (s', some e)
  | (s', none) => (s', none)
/-- `for (size_t i = begin; i <= end; ++i)`. -/
def Act.forEach {σ} (f : Nat → Act σ) : List Nat → Act σ
  | [] => Act.ok
  | k :: l => (f k).andThen (Act.forEach f l)

/-- The values of `i` in `for (size_t i = begin; i <= end; ++i)`. -/
def loop (i j : Nat) : List Nat := (List.range (j + 1 - i)).map (i + ·)

/-- `wrapped_into_tuple_t<T>(value)`. -/
def wrapVal (t : Ty) (v : Val) : List Val :=
  if t.isTuple then (match v with | .tup vs => vs | v => [v]) else [v]

/-- `std::tuple_cat(wrapped_into_tuple_t<L>(lhs), wrapped_into_tuple_t<R>(rhs))`. -/
def catVal (ta tb : Ty) (x y : Val) : Val := .tup (wrapVal ta x ++ wrapVal tb y)

/-- `EvalImpl` of every implementation, on the half-open range of terms `[i, j)`: `none` `nlp_schema_begin.inl:7-16`, `keyword` `:64-72`, `dict` `:44-54`,
`UnitImpl` `nlp.h:117-129`, `OrImplWithVariant`, `OrImplSameType` and `OrImplUnitUnit` `nlp.h:144-191`, `AndImpl` `nlp.h:277-287`, the five `SeqImpl`s `nlp.h:310-404`,
`MapImpl` `nlp.h:452-461`, `FilterImpl` `nlp.h:472-481`. Reading a term out of the range of the vector is undefined behaviour, and so is an object which was never constructed. -/
def eval {σ : Type} (st : Store) (q : List Term) : Shape → Nat → Nat → (Val → Act σ) → Act σ
  | .none, i, j, emit => if j = i then emit .unit else Act.ok
  | .keyword w, i, j, emit =>
    if j = i + 1 then
      match q[i]? with
      | none => Act.throw .undefined
      | some t => if t.norm = w then emit .unit else Act.ok
    else Act.ok
  | .dict n _, i, j, emit =>
    if j = i + 1 then
      match q[i]? with
      | none => Act.throw .undefined
      | some t => match t.field n with
        | some v => emit v
        | none => Act.ok
    else Act.ok
  | .void b, i, j, emit =>
    Act.catching (.block (.void b)) (eval st q b i j fun _ => (emit .unit).andThen (Act.throw (.block (.void b)))) Act.ok
  | .or a b, i, j, emit =>
    if a.ty = .unit ∧ b.ty = .unit then
      Act.catching (.block (.or a b))
        ((eval st q a i j fun _ => Act.throw (.block (.or a b))).andThen (eval st q b i j fun _ => Act.throw (.block (.or a b))))
        (emit .unit)
    else (eval st q a i j emit).andThen (eval st q b i j emit)
  | .and a b, i, j, emit => eval st q a i j fun x => eval st q b i j fun y => emit (catVal a.ty b.ty x y)
  | .seq a b, i, j, emit =>
    if a.ty = .unit ∧ b.ty = .unit then
      Act.catching (.block (.seq a b))
        (Act.forEach (fun k => eval st q a i k fun _ => eval st q b k j fun _ => (emit .unit).andThen (Act.throw (.block (.seq a b)))) (loop i j))
        Act.ok
    else if b.ty = .unit then Act.forEach (fun k => eval st q b k j fun _ => eval st q a i k emit) (loop i j)
    else if a.ty = .unit then Act.forEach (fun k => eval st q a i k fun _ => eval st q b k j emit) (loop i j)
    else Act.forEach (fun k => eval st q a i k fun x => eval st q b k j fun y => emit (catVal a.ty b.ty x y)) (loop i j)
  | .rseq a b, i, j, emit =>
    Act.forEach (fun k => eval st q b k j fun y => eval st q a i k fun x => emit (catVal a.ty b.ty x y)) (loop i j)
  | .map out b, i, j, emit =>
    match st (.map out b) with
    | some (.map f) => eval st q b i j fun x => emit (f x)
    | _ => Act.throw .undefined
  | .filter b, i, j, emit =>
    match st (.filter b) with
    | some (.filter p) => eval st q b i j fun x => if p x then emit x else Act.ok
    | _ => Act.throw .undefined

/-- `MatchQueryIntoVector`, `nlp.h:629-640`, on an annotated query: all results, and what was thrown, if anything. -/
def matchIntoVector (st : Store) (q : List Term) (s : Shape) : List Val × Option Signal :=
  eval (σ := List Val) st q s 0 q.length (fun v acc => (acc ++ [v], none)) []

/-- `JustMatchQuery`, `nlp.h:642-661`: `SignalEvalSucceeded` is a type of its own, here `.user 0`. `none` in the second component: no exception leaves the function. -/
def justMatch (st : Store) (q : List Term) (s : Shape) : Option Val × Option Signal :=
  match eval (σ := Option Val) st q s 0 q.length (fun v _ => (some v, some (.user 0))) none with
  | (_, none) => (none, none)
  | (r, some e) => if e = .user 0 then (r, none) else (none, some e)

/-! ### Annotation -/

/-- What a schema registers in `StaticQueryTermAnnotators`, `nlp.h:564-590`: at most one custom annotator, and the per-term ones, in the order of registration. -/
structure Annotators where
  custom : Option (Str → Term → Term)
  perTerm : List (Str × (Term → Term))

/-- `DictionaryAnnotation(field, {key, value}, ...)`, `nlp_schema_begin.inl:31-43`. -/
def Annotators.dictionary (an : Annotators) (n : Nat) (entries : List (Str × Val)) : Annotators :=
  { an with perTerm := an.perTerm ++ entries.map (fun e => (e.1, fun (t : Term) => { t with field := fun m => if m = n then some e.2 else t.field m })) }

/-- `StaticallyAnnotateQueryTerm`, `nlp.h:582-589`. The annotators of a key are called in the order they were added. -/
def Annotators.static (an : Annotators) (t : Term) : Term :=
  ((an.perTerm.filter (fun e => e.1 = t.norm)).map (·.2)).foldl (fun t f => f t) t

/-- The body of the loop of `AnnotateQuery`, `nlp.h:606-612`. -/
def Annotators.term (an : Annotators) (s : Str) : Term :=
  let t : Term := ⟨s, toLower s, fun _ => none⟩
  let t := match an.custom with
    | some f => f s t
    | none => t
  an.static t

/-- `AnnotateQuery`, `nlp.h:595-614`. -/
def Annotators.query (an : Annotators) (s : Str) : List Term :=
  (split isSpace false s).1.map an.term

end Current.NLP
