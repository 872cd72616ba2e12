import Verif.Rest.Pages
import Verif.Storage.TxnProps
/-!
The RESTful API of a storage (C78, C79, C80): `storage/api.h:116-284`, `storage/api_types.h:65-165`, `storage/rest/{plain,structured,hypermedia}.h`.

Parsing of JSON, keys and dates, and `InitializeOwnKey` of the entries, are parameters. Texts of messages are left out.
-/
namespace Current.Rest
open Current.Persist Current.Url Current.Strings Current.Storage

variable {F K R C E P : Type} [DecidableEq F] [DecidableEq K] [DecidableEq R] [DecidableEq C]

/-! ### Keys -/

/-- The key of an entry: of a dictionary, or of a matrix. -/
inductive Key (K R C : Type) where
  | one (k : K)
  | cell (r : R) (c : C)
  deriving DecidableEq, Repr

/-- `url_key_t`, `api_types.h:70, 108`. -/
inductive KeyText where
  | one (k : Str)
  | cell (r c : Str)
  deriving DecidableEq, Repr

def sKey : Str := ['k', 'e', 'y']
def sKey1 : Str := ['k', 'e', 'y', '1']
def sKey2 : Str := ['k', 'e', 'y', '2']
def sRow : Str := ['r', 'o', 'w']
def sCol : Str := ['c', 'o', 'l']

/-- Two parameters of the query, if both are there. -/
def both (q : Query) (a b : Str) : Option KeyText :=
  match q a, q b with
  | some x, some y => some (.cell x y)
  | _, _ => none

/-- `CallWithOrWithoutKeyFromURL`, `api_types.h:71-83` (dictionaries) and `110-128` (matrices). -/
def keyOfUrl (dictionary : Bool) (args : List Str) (q : Query) : Option KeyText :=
  if dictionary then
    match args with
    | [k] => some (.one k)
    | _ => (q sKey).map .one
  else
    match args with
    | [r, c] => some (.cell r c)
    | _ =>
      match both q sKey1 sKey2 with
      | some k => some k
      | none =>
        match both q sRow sCol with
        | some k => some k
        | none => both q ['1'] ['2']

/-! ### Access to a field by a key -/

def isDict : Field K R C E → Bool
  | .dict _ => true
  | .matrix _ => false

/-- `field[key]`. `none`: a freed object was read; `some none`: no such entry. -/
def fetch : Field K R C E → Key K R C → Option (Option E)
  | .dict d, .one k => some (find d.map k)
  | .matrix m, .cell r c =>
    match m.get (r, c) with
    | none => some none
    | some none => none
    | some (some e) => some (some e)
  | _, _ => some none

/-- `field.LastModified(key)`. -/
def lastMod : Field K R C E → Key K R C → Option Time
  | .dict d, .one k => find d.lm k
  | .matrix m, .cell r c => m.lastModified (r, c)
  | _, _ => none

/-- `ExtractOrComposeKey`, `api_types.h:97-101, 146-150`. -/
def keyOf (S : Schema K R C E P) : Field K R C E → E → Key K R C
  | .dict _, e => .one (S.key e)
  | .matrix _, e => .cell (S.row e) (S.col e)

/-- Readings of the clock by the containers. -/
structure Ticks where
  t₁ : Time
  t₂ : Time
  t₃ : Time
  deriving DecidableEq, Repr

/-- `field.Add(e)`. -/
def addOp (t : Ticks) : Field K R C E → E → FOp K R C E P
  | .dict _, e => .dict (.add t.t₁ e)
  | .matrix _, e => .matrix (.add t.t₁ t.t₂ t.t₃ e)

/-- `field.Erase(key)`. -/
def eraseOp (t : Ticks) : Key K R C → FOp K R C E P
  | .one k => .dict (.erase t.t₁ k)
  | .cell r c => .matrix (.erase t.t₁ (r, c))

/-! ### Requests and responses -/

inductive Method where
  | get | post | put | patch | delete | other
  deriving DecidableEq, Repr

structure Req where
  method : Method
  /-- `url_path_args`. -/
  args : List Str := []
  query : Query := fun _ => none
  /-- The headers, by name. -/
  headers : Str → Option Str := fun _ => none
  body : Str := []

inductive Body (K R C E : Type) where
  | nothing
  | entry (e : E)
  | list (l : List (Key K R C × E))
  | page (p : Page (Key K R C × E))
  | text (s : Str)
  deriving DecidableEq, Repr

/-- A response: the code, the body, the key in the URL of the resource, the header `X-Current-Last-Modified` (`Last-Modified` is the same in other
units). -/
structure Resp (K R C E : Type) where
  code : Nat
  body : Body K R C E := .nothing
  key : Option (Key K R C) := none
  lastModified : Option Time := none
  deriving DecidableEq, Repr

inductive Flavor where
  | plain        -- `rest/plain.h`
  | hypermedia   -- `rest/structured.h`, `rest/hypermedia.h`
  deriving DecidableEq, Repr

/-- What comes from elsewhere. -/
structure Api (K R C E : Type) where
  flavor : Flavor
  /-- `ParseURLKey`: `FromString`, `api_types.h:88-91, 137-141`. -/
  parseKey : KeyText → Key K R C
  /-- `ParseJSON<ENTRY>`; `none`: `TypeSystemParseJSONException`. -/
  parseJSON : Str → Option E
  /-- `PatchObjectWithJSON`. -/
  patchJSON : E → Str → Option E
  /-- `ParseHTTPDate`; `none`: `InvalidHTTPDateException`. -/
  parseDate : Str → Option Time
  /-- `HasInitializeOwnKey`. -/
  initializes : Bool
  /-- Whether `reserve(n)` succeeds. -/
  fits : Nat → Bool
  /-- `JSON<JSONFormat::Minimalistic>` of an entry, and of a `HypermediaRESTDetailedExportEntry`. -/
  json : E → Str
  jsonDetailed : Time → Key K R C → E → Str
  /-- `GenericHashFunction<KEY>`. -/
  hash : Key K R C → Nat

/-- What happens outside while a request is served. -/
structure Env (E : Type) where
  clock : Clock
  ticks : Ticks
  /-- `InitializeOwnKey`. -/
  init : E → E
  /-- Whether the response can be written to the socket. -/
  sent : Bool := true

/-! ### Bodies of the transactions -/

/-- Running the mutation of a handler, if there is one, and then building the response from the field. -/
abbrev Plan (K R C E P : Type) := Option (FOp K R C E P) × (Field K R C E → Resp K R C E)

/-- A plan which changes nothing. -/
def say (r : Resp K R C E) : Option (Plan K R C E P) := some (none, fun _ => r)

/-- The `Last-Modified` headers: set by `structured.h` only. -/
def lmHeader (fl : Flavor) (k : Key K R C) (fld : Field K R C E) : Option Time :=
  match fl with
  | .plain => none
  | .hypermedia => lastMod fld k

/-- The check of `If-Unmodified-Since`: `structured.h:366-375, 425-434, 494-503`. -/
def stale (ius lm : Option Time) : Bool :=
  match ius, lm with
  | some t, some m => decide (t < m)
  | _, _ => false

/-- POST: `plain.h:176-197`, `structured.h:302-336`. -/
def postPlan (api : Api K R C E) (S : Schema K R C E P) (env : Env E) (overwrite : Bool) (fld : Field K R C E) (e : E) : Option (Plan K R C E P) :=
  if api.initializes then
    let e := env.init e
    let k := keyOf S fld e
    match fetch fld k with
    | none => none
    | some old =>
      if overwrite || old.isNone then
        some (some (addOp env.ticks fld e), fun fld' => { code := 201, key := some k, lastModified := lmHeader api.flavor k fld' })
      else say { code := 409 }
  else say { code := 405 }

/-- PUT: `plain.h:207-219`, `structured.h:358-404`. -/
def putPlan (api : Api K R C E) (S : Schema K R C E P) (env : Env E) (ius : Option Time) (fld : Field K R C E) (k : Key K R C) (e : E) :
    Option (Plan K R C E P) :=
  if keyOf S fld e = k then
    match fetch fld k with
    | none => none
    | some old =>
      if old.isSome && stale ius (lastMod fld k) then say { code := 412 }
      else some (some (addOp env.ticks fld e),
        fun fld' => { code := if old.isSome then 200 else 201, key := some k, lastModified := lmHeader api.flavor k fld' })
  else say { code := 400 }

/-- PATCH: `plain.h:232-251`, `structured.h:414-470`. -/
def patchPlan (api : Api K R C E) (S : Schema K R C E P) (env : Env E) (ius : Option Time) (fld : Field K R C E) (k : Key K R C) (body : Str) :
    Option (Plan K R C E P) :=
  match fetch fld k with
  | none => none
  | some none => say { code := 404 }
  | some (some old) =>
    if stale ius (lastMod fld k) then say { code := 412 }
    else
      match api.patchJSON old body with
      | none => say { code := 400 }
      | some e =>
        if keyOf S fld e = k then
          some (some (addOp env.ticks fld e), fun fld' => { code := 200, key := some k, lastModified := lmHeader api.flavor k fld' })
        else say { code := 400 }

/-- DELETE: `plain.h:261-264`, `structured.h:487-519`. -/
def deletePlan (api : Api K R C E) (env : Env E) (ius : Option Time) (fld : Field K R C E) (k : Key K R C) : Option (Plan K R C E P) :=
  match fetch fld k with
  | none => none
  | some old =>
    if old.isSome && stale ius (lastMod fld k) then say { code := 412 }
    else some (some (eraseOp env.ticks k),
      fun fld' => { code := 200, lastModified := if old.isSome then lmHeader api.flavor k fld' else none })

/-- Iterating over a field. `none`: a freed object was read. -/
def records : Field K R C E → Option (List (Key K R C × E))
  | .dict d => some (d.map.map fun p => (.one p.1, p.2))
  | .matrix m => m.iterate.mapM fun p => p.2.map fun e => (.cell p.1.1 p.1.2, e)

def sExport : Str := ['e', 'x', 'p', 'o', 'r', 't']
def sDetailed : Str := ['d', 'e', 't', 'a', 'i', 'l', 'e', 'd']
def sNShards : Str := ['n', 's', 'h', 'a', 'r', 'd', 's']
def sShard : Str := ['s', 'h', 'a', 'r', 'd']

/-- `FieldExportParams`, `api_types.h:54-58`. -/
structure Export where
  detailed : Bool := false
  nshards : Nat := 0
  shard : Nat := 0
  deriving DecidableEq, Repr

/-- The parameters of an export, `api.h:144-153`. -/
def exportOf (q : Query) : Option Export :=
  match q sExport with
  | none => none
  | some v => some {
      detailed := decide (v = sDetailed)
      nshards := (fromStringInt uint32 ((q sNShards).getD ['0'])).toNat
      shard := (fromStringInt uint32 ((q sShard).getD ['0'])).toNat }

/-- Whether the record is exported, `structured.h:206-208`. -/
def inShard (api : Api K R C E) (x : Export) (k : Key K R C) : Bool :=
  !(decide (1 < x.nshards) && api.hash k % x.nshards != x.shard)

/-- The text of a record, `structured.h:209-217`. `none`: `CURRENT_ASSERT(Exists(last_modified))` failed. -/
def exportRecord (api : Api K R C E) (x : Export) (fld : Field K R C E) (p : Key K R C × E) : Option Str :=
  if x.detailed then (lastMod fld p.1).map fun t => api.jsonDetailed t p.1 p.2 ++ [',']
  else some (api.json p.2 ++ ['\n'])

/-- The text of an export, `structured.h:196-226`: `seekp(-1)` makes the closing bracket overwrite the last comma. -/
def exportText (api : Api K R C E) (x : Export) (fld : Field K R C E) (l : List (Key K R C × E)) : Option Str :=
  ((l.filter fun p => inShard api x p.1).mapM (exportRecord api x fld)).map fun texts =>
    if x.detailed then
      let s := ['['] ++ texts.flatten
      (if 1 < s.length then s.dropLast else s) ++ [']', '\n']
    else texts.flatten

/-- How the body of a GET ends: a response, an exception, or undefined behaviour. -/
inductive GetRes (K R C E : Type) where
  | ok (r : Resp K R C E)
  | throws
  | undefined

/-- GET: `plain.h:101-118`, `structured.h:135-229`. -/
def getBody (api : Api K R C E) (master : Bool) (x : Option Export) (q : Query) (fld : Field K R C E) : Option (Key K R C) → GetRes K R C E
  | some k =>
    match fetch fld k with
    | none => .undefined
    | some none => .ok { code := 404 }
    | some (some e) =>
      match api.flavor, x with
      | .plain, _ => .ok { code := 200, body := .entry e }
      | .hypermedia, none => .ok { code := 200, body := .entry e, lastModified := lastMod fld k }
      | .hypermedia, some x =>
        if x.detailed then
          match lastMod fld k with
          | some t => .ok { code := 200, body := .text (api.jsonDetailed t k e) }
          | none => .undefined
        else .ok { code := 200, body := .entry e }
  | none =>
    match records fld with
    | none => .undefined
    | some l =>
      match api.flavor, x with
      | .plain, _ => .ok { code := 200, body := .list l }
      | .hypermedia, none =>
        match collection api.fits (pageOf q).1 (pageOf q).2 l with
        | none => .throws
        | some p => .ok { code := 200, body := .page p }
      | .hypermedia, some x =>
        if master then .ok { code := 403 }
        else
          match exportText api x fld l with
          | none => .undefined
          | some s => .ok { code := 200, body := .text s }

/-! ### The handler -/

def hCurrentIus : Str := "X-Current-If-Unmodified-Since".toList
def hIus : Str := "If-Unmodified-Since".toList

/-- `ExtractIfUnmodifiedSinceOrRespondWithError`, `structured.h:75-107`: outer `none` is a response with the code 400. -/
def unmodifiedSince (api : Api K R C E) (req : Req) : Option (Option Time) :=
  match api.flavor with
  | .plain => some none
  | .hypermedia =>
    match req.headers hCurrentIus with
    | some v =>
      let t := fromStringInt int64 v
      if 0 < t then some (some t) else none
    | none =>
      match req.headers hIus with
      | some v => (api.parseDate v).map some
      | none => some none

/-- A read-write transaction with the request as its second step, and what the client gets. A response that never came is a 500 sent by the destructor of the
connection. -/
def write (S : F → Schema K R C E P) (f : F) (st : Storage F K R C E P) (env : Env E)
    (plan : Option (Plan K R C E P)) : Option (Storage F K R C E P × Resp K R C E) :=
  match plan with
  | none => none
  | some (o, resp) =>
    let acts : List (Act F K R C E P) := match o with | none => [] | some o => [.op f o]
    match st.run S env.clock acts with
    | none => none
    | some st₁ =>
      match st.twoStep S env.clock acts (.returns (resp (st₁.fields f))) (fun _ v => if env.sent then .returns v else .throws) with
      | none => none
      | some (st', _, calls) => some (st', calls.head?.getD { code := 500 })

/-- A read-only transaction with the request as its second step. -/
def read (st : Storage F K R C E P) (body : GetRes K R C E) : Option (Storage F K R C E P × Resp K R C E) :=
  match body with
  | .undefined => none
  | .ok r =>
    match st.readOnly (.returns r) with
    | none => none
    | some (st', .committed v) => some (st', v)
    | some (st', _) => some (st', { code := 500 })
  | .throws =>
    match st.readOnly (.throws (V := Resp K R C E)) with
    | none => none
    | some (st', _) => some (st', { code := 500 })

/-- Whether a POST has a key in the URL: `plain.h:167-174`, `structured.h:294-301`. -/
def postHasKey (api : Api K R C E) (dictionary : Bool) (req : Req) : Bool :=
  match api.flavor with
  | .plain => (keyOfUrl dictionary req.args req.query).isSome
  | .hypermedia => !req.args.isEmpty

def sOverwrite : Str := ['o', 'v', 'e', 'r', 'w', 'r', 'i', 't', 'e']

/-- `generic_data_handler`, `api.h:137-284`, for the field `f`. `none`: the end of the process, or undefined behaviour. -/
def serve (api : Api K R C E) (S : F → Schema K R C E P) (f : F) (st : Storage F K R C E P) (env : Env E) (req : Req) :
    Option (Storage F K R C E P × Resp K R C E) :=
  let fld := st.fields f
  let dictionary := isDict fld
  let key := (keyOfUrl dictionary req.args req.query).map api.parseKey
  let refuse (code : Nat) : Option (Storage F K R C E P × Resp K R C E) := some (st, { code := code })
  match req.method with
  | .get => read st (getBody api st.master (exportOf req.query) req.query fld key)
  | .other => refuse 405
  | .post =>
    if st.master then
      if postHasKey api dictionary req then refuse 400
      else
        match api.parseJSON req.body with
        | none => refuse 400
        | some e => write S f st env (postPlan api (S f) env (req.query sOverwrite).isSome fld e)
    else refuse 405
  | .put =>
    if st.master then
      match unmodifiedSince api req, key with
      | none, _ => refuse 400
      | some _, none => refuse 400
      | some ius, some k =>
        match api.parseJSON req.body with
        | none => refuse 400
        | some e => write S f st env (putPlan api (S f) env ius fld k e)
    else refuse 405
  | .patch =>
    if st.master then
      match unmodifiedSince api req, key with
      | none, _ => refuse 400
      | some _, none => refuse 400
      | some ius, some k => write S f st env (patchPlan api (S f) env ius fld k req.body)
    else refuse 405
  | .delete =>
    if st.master then
      match unmodifiedSince api req, key with
      | none, _ => refuse 400
      | some _, none => refuse 400
      | some ius, some k => write S f st env (deletePlan api env ius fld k)
    else refuse 405

end Current.Rest
