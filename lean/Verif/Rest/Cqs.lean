import Verif.Rest.Model
/-!
Queries and commands over REST (C112): `storage/api.h:467-520` (registration), `575-594` (parsing), `595-712` (the two handlers), `storage/rest/plain.h:297-323` (the handlers of all flavours,
`structured.h:505`), `storage/transaction_policy.h:253-287` (two-step read-only transactions).

The types of queries and commands are type-erased in the code (`shared_ptr<CurrentStruct>`, cast back to the type it was parsed as by the same registration): here they are one type `T`. Their
parsers and their `Query` and `Command` methods, which are the user's, are parameters. Texts of the responses are left out; the user's responses are of a type `V`.
-/
namespace Current.Cqs
open Current.Persist Current.Url Current.Storage Current.Rest

variable {F K R C E P T V : Type} [DecidableEq F] [DecidableEq K] [DecidableEq R] [DecidableEq C]

/-- `FillObjectMode`, `blocks/url/url.h:68`. -/
inductive Mode where
  | forgiving | strict
  deriving DecidableEq, Repr

/-- A user's type: how it is made of a request. -/
structure Shape (T : Type) where
  /-- `std::make_shared<T>()`. -/
  blank : T
  /-- `FieldCounter<T>::value`. -/
  fields : Nat
  /-- `ParseJSON<T, JSONFormat::Minimalistic>`; `none`: `TypeSystemParseJSONException`. -/
  json : Str → Option T
  /-- `FillObject<T, MODE>`; `none`: `URLParseObjectAsURLParameterException`. -/
  url : Mode → Query → Option T

/-- What the client gets. -/
inductive Reply (V : Type) where
  /-- The response of the user's code. -/
  | user (v : V)
  | methodNotAllowed     -- 405
  | notSpecified         -- 404
  | notFound             -- 404
  | needsMaster          -- 503
  | badJson              -- 400
  | badUrl               -- 400
  /-- No response: the destructor of the request sends a 500. -/
  | serverError
  deriving DecidableEq, Repr

/-- `ParseCQSRequest`, `api.h:575-594`. -/
def parse (s : Shape T) (mode : Mode) (req : Req) : Except (Reply V) T :=
  if 0 < s.fields then
    if !req.body.isEmpty then
      match s.json req.body with
      | some t => .ok t
      | none => .error .badJson
    else
      match s.url mode req.query with
      | some t => .ok t
      | none => .error .badUrl
  else .ok s.blank

/-- A query: its type, and its `Query` method. It gets `const` fields. -/
structure QueryImpl (F K R C E T V : Type) where
  shape : Shape T
  run : Fields F K R C E → T → Req → Storage.Outcome V

/-- A command: its type, and its `Command` method: what it does with the fields, and how it ends. -/
structure CommandImpl (F K R C E P T V : Type) where
  shape : Shape T
  run : Fields F K R C E → T → Req → List (Act F K R C E P) × Storage.Outcome V

/-- `cqs_query_map_`, `cqs_command_map_`, `api.h:527-528`. -/
structure Table (F K R C E P T V : Type) where
  queries : AMap Str (QueryImpl F K R C E T V) := []
  commands : AMap Str (CommandImpl F K R C E P T V) := []

/-- `AddCQSQuery`, `api.h:467-489`. `none`: it throws. -/
def Table.addQuery (c : Table F K R C E P T V) (name : Str) (q : QueryImpl F K R C E T V) : Option (Table F K R C E P T V) :=
  if (find c.queries name).isSome then none
  else some { c with queries := put c.queries name q }

/-- `AddCQSCommand`, `api.h:491-511`. `none`: it throws. -/
def Table.addCommand (c : Table F K R C E P T V) (name : Str) (q : CommandImpl F K R C E P T V) : Option (Table F K R C E P T V) :=
  if (find c.commands name).isSome then none
  else some { c with commands := put c.commands name q }

/-- Two-step read-only transaction, `transaction_policy.h:253-287`. As in `Storage.twoStep`: the values `f2` was called with. -/
def readTwoStep (st : Storage F K R C E P) (out : Storage.Outcome V) (f2 : Nat → V → Storage.Outcome V) :
    Option (Storage F K R C E P × Storage.Result Unit × List V) :=
  if st.journal.isEmpty = false then none
  else if st.destructing then some (st, .shutdown, [])
  else
    let handle (o : Storage.Outcome V) (calls : List V) : Storage F K R C E P × Storage.Result Unit × List V :=
      match o with
      | .returns _ => (st, .committed (), calls)
      | .rollbackWith v => match f2 calls.length v with
        | .returns _ => (st, .rolledBack none, calls ++ [v])
        | _ => (st, .thrown, calls ++ [v])
      | .rollback => (st, .rolledBack none, calls)
      | .throws => (st, .exception, calls)
    match out with
    | .returns v => some (handle (f2 0 v) [v])
    | o => some (handle o [])

/-- The second step of the transactions: sending the response. `sent`: whether the socket takes it. -/
def send (sent : Bool) : Nat → V → Storage.Outcome V := fun _ v => if sent then .returns v else .throws

/-- What the client gets of the calls of the second step. -/
def replyOf (calls : List V) : Reply V :=
  match calls with
  | v :: _ => .user v
  | [] => .serverError

/-- The handler of queries, `api.h:598-636`. -/
def serveQuery (c : Table F K R C E P T V) (st : Storage F K R C E P) (sent : Bool) (req : Req) : Option (Storage F K R C E P × Reply V) :=
  match req.args with
  | [] => some (st, .notSpecified)
  | name :: _ =>
    if req.method ≠ .get then some (st, .methodNotAllowed)
    else
      match find c.queries name with
      | none => some (st, .notFound)
      | some q =>
        match parse q.shape .forgiving req with
        | .error r => some (st, r)
        | .ok t =>
          match readTwoStep st (q.run st.fields t req) (send sent) with
          | none => none
          | some (st', _, calls) => some (st', replyOf calls)

/-- The name of the meta field, `api.h:504`. -/
def metaField : String := "X-Current-CQS-Command"

/-- The handler of commands, `api.h:644-687`. `t`: the clock of the transaction. -/
def serveCommand (S : F → Schema K R C E P) (c : Table F K R C E P T V) (st : Storage F K R C E P) (t : Clock) (sent : Bool) (req : Req) :
    Option (Storage F K R C E P × Reply V) :=
  if st.master = false then some (st, .needsMaster)
  else if req.method ≠ .post ∧ req.method ≠ .put ∧ req.method ≠ .patch then some (st, .methodNotAllowed)
  else
    match req.args with
    | [] => some (st, .notSpecified)
    | name :: _ =>
      match find c.commands name with
      | none => some (st, .notFound)
      | some q =>
        match parse q.shape .strict req with
        | .error r => some (st, r)
        | .ok x =>
          match st.twoStep S t (.setMeta metaField (String.ofList name) :: (q.run st.fields x req).1) (q.run st.fields x req).2 (send sent) with
          | none => none
          | some (st', _, calls) => some (st', replyOf calls)

/-! ### Histories -/

/-- What happens to a storage with queries and commands. -/
inductive Event (F K R C E P T V : Type) where
  | addQuery (name : Str) (q : QueryImpl F K R C E T V)
  | addCommand (name : Str) (q : CommandImpl F K R C E P T V)
  | query (sent : Bool) (req : Req)
  | command (t : Clock) (sent : Bool) (req : Req)
  /-- Anything else the program does with the storage. -/
  | call (x : Call F K R C E P V)

/-- The event. A failed registration throws, and changes nothing. -/
def step (S : F → Schema K R C E P) (kinds : F → Kind) (s : Table F K R C E P T V × Storage F K R C E P) : Event F K R C E P T V → Option (Table F K R C E P T V × Storage F K R C E P)
  | .addQuery n q => some ((s.1.addQuery n q).getD s.1, s.2)
  | .addCommand n q => some ((s.1.addCommand n q).getD s.1, s.2)
  | .query sent req => (serveQuery s.1 s.2 sent req).map fun r => (s.1, r.1)
  | .command t sent req => (serveCommand S s.1 s.2 t sent req).map fun r => (s.1, r.1)
  | .call x => (s.2.call S kinds x).map fun st => (s.1, st)

def steps (S : F → Schema K R C E P) (kinds : F → Kind) : Table F K R C E P T V × Storage F K R C E P → List (Event F K R C E P T V) →
    Option (Table F K R C E P T V × Storage F K R C E P)
  | s, [] => some s
  | s, e :: es => match step S kinds s e with
    | none => none
    | some s' => steps S kinds s' es

end Current.Cqs
