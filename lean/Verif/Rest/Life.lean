import Verif.Routes.Props
/-!
The HTTP routes of a `RESTfulStorage` from its constructor to its destructor: `storage/api.h`, `storage/rest/structured.h`,
`storage/rest/plain.h` (C114). What the handlers do with a request is modelled in the other modules of `Verif.Rest`; here a
handler is known by the object it belongs to and the endpoint it implements. The routing table is that of `Verif.Routes.Model`.

Every call is atomic; requests are looked up between the calls.
-/
set_option linter.unusedSectionVars false
namespace Current.RestLife
open Current.Persist Current.Routes

/-- What a handler made by `PerFieldRESTfulHandlerGenerator` (`api.h:120-385`) or by `RegisterCQSHandlers` (`api.h:586-700`) does. -/
inductive Ep where
  | data (field : Str) | row (field : Str) | col (field : Str) | schema (field suffix : Str) | query | command
deriving DecidableEq, Repr

/-- Handlers on the port: those of the object number `id`; `Serve503` (`api.h:698-700`); those of the rest of the program. -/
inductive Hd where
  | own (id : Nat) (e : Ep) | top (id : Nat) | status (id : Nat) | unavailable | user (k : Nat)
deriving DecidableEq, Repr

/-- `rest_endpoints_schema_t`: `RESTWithSingleKey` or `RESTWithPairedKey`, `storage/semantics.h`. -/
inductive Kind where
  | dictionary | matrix
deriving DecidableEq, Repr

/-- `RESTfulRoute`, `api.h:66-80`; the handler is an endpoint. -/
structure Route where
  res : Str
  sfx : Str
  mask : Nat
  ep : Ep
deriving DecidableEq, Repr

/-- `URLPathArgs::CountMask`, `url.h:500-506`. -/
def maskNone : Nat := 1
def maskOne : Nat := 2
def maskAny : Nat := 65535

/-- `kRESTfulDataURLComponent` and the others, `api_types.h:37-40`. -/
def kData : Str := ['d', 'a', 't', 'a']
def kSchema : Str := ['s', 'c', 'h', 'e', 'm', 'a']
def kCommand : Str := ['c', 'q', 's', '/', 'c', 'o', 'm', 'm', 'a', 'n', 'd']
def kQuery : Str := ['c', 'q', 's', '/', 'q', 'u', 'e', 'r', 'y']
/-- `"/status"`, `structured.h:70`. -/
def kStatus : Str := ['/', 's', 't', 'a', 't', 'u', 's']

/-- `ToString(Language)` of `begin` … `end`, `typesystem/schema/schema.h:93-102`, `1632-1655`. -/
def languages : List Str :=
  [['i', 'n', 't', 'e', 'r', 'n', 'a', 'l', '_', 'j', 's', 'o', 'n'], ['h'], ['c', 'p', 'p'], ['f', 's'], ['m', 'd'],
   ['j', 's', 'o', 'n'], ['t', 's']]

/-- `{".key", ".0", ".K"}`, `api.h:307`. -/
def keySuffixes : List Str := [['.', 'k', 'e', 'y'], ['.', '0'], ['.', 'K']]
/-- `{"1", "row", "left", "l", "L"}`, `api.h:370`. -/
def rowSuffixes : List Str := [['1'], ['r', 'o', 'w'], ['l', 'e', 'f', 't'], ['l'], ['L']]
/-- `{"2", "col", "right", "r", "R"}`, `api.h:377`. -/
def colSuffixes : List Str := [['2'], ['c', 'o', 'l'], ['r', 'i', 'g', 'h', 't'], ['r'], ['R']]

/-- The routes one field gives to the registerer, `api.h:283-300`: the data handler, the additional ones
(`RegisterAdditionalFieldDataHandlers`, `api.h:302-314`, `357-384`), the schema (`plain.h:266-295`). -/
def fieldRoutes (f : Str) (kind : Kind) : List Route :=
  [⟨kData, [], maskAny, .data f⟩] ++
  (match kind with
   | .dictionary => keySuffixes.map fun s => ⟨kData, s, maskAny, .data f⟩
   | .matrix => (rowSuffixes.map fun s => ⟨kData, '.' :: s, maskNone ||| maskOne, .row f⟩) ++
      (colSuffixes.map fun s => ⟨kData, '.' :: s, maskNone ||| maskOne, .col f⟩)) ++
  (⟨kSchema, [], maskNone, .schema f []⟩ :: languages.map fun s => ⟨kSchema, '.' :: s, maskNone, .schema f ('.' :: s)⟩)

/-- `std::multimap::insert`: behind the entries of the same key. -/
def mmInsert (m : List (Str × Route)) (x : Str × Route) : List (Str × Route) :=
  m.takeWhile (fun y => ¬ x.1 < y.1) ++ x :: m.dropWhile (fun y => ¬ x.1 < y.1)

/-- `handlers_` after the constructor: the fields exposed via REST in their order (`ForEachFieldByIndex`, `api.h:533-552`), then the
CQS handlers (`api.h:638-643`, `692-697`). -/
def handlersOf (fields : List (Str × Kind)) : List (Str × Route) :=
  let m := (fields.flatMap fun f => (fieldRoutes f.1 f.2).map fun r => (f.1, r)).foldl mmInsert []
  mmInsert (mmInsert m ([], ⟨kQuery, [], maskNone ||| maskOne, .query⟩)) ([], ⟨kCommand, [], maskNone ||| maskOne, .command⟩)

/-- `RESTfulStorage::Data`, `api.h:523-537`, without the CQS maps. -/
structure Obj where
  pre : Str
  handlers : List (Str × Route)
  routes : List (Str × Nat)
  scope : Scope
  up : Bool
deriving DecidableEq, Repr

/-- The exceptions. -/
inductive Fail where
  | slash | undefined | route (e : Routes.Err)
deriving DecidableEq, Repr

/-- The path, `api.h:560-561`. -/
def pathOf (pre name : Str) (r : Route) : Str :=
  pre ++ ['/'] ++ r.res ++ (if name = [] then [] else '/' :: name) ++ r.sfx

/-- `RegisterRoute`, `api.h:559-565`: the route is recorded first, then registered. -/
def registerRoute (id : Nat) (t : Table Hd) (o : Obj) (name : Str) (r : Route) : Table Hd × Obj × Option Fail :=
  let path := pathOf o.pre name r
  let o := { o with routes := o.routes ++ [(path, r.mask)] }
  match register t path (.own id r.ep) r.mask .throwOnAttempt with
  | .ok (t', s) => (t', { o with scope := o.scope ++ s }, none)
  | .error e => (t, o, some (.route e))

/-- The loops `api.h:425-427` and `460-462`: the first exception leaves. -/
def registerRoutes (id : Nat) (t : Table Hd) (o : Obj) : List (Str × Route) → Table Hd × Obj × Option Fail
  | [] => (t, o, none)
  | (name, r) :: rest =>
    match registerRoute id t o name r with
    | (t', o', none) => registerRoutes id t' o' rest
    | (t', o', some e) => (t', o', some e)

/-- `input.scope += HTTP(port).Register(path, handler)`, `structured.h:60`, `68`. -/
def registerTop (t : Table Hd) (o : Obj) (path : Str) (h : Hd) : Table Hd × Obj × Option Fail :=
  match register t path h maskNone .throwOnAttempt with
  | .ok (t', s) => (t', { o with scope := o.scope ++ s }, none)
  | .error e => (t, o, some (.route e))

/-- `RegisterTopLevel`: `structured.h:59-74` or, if not `structured`, `plain.h:52`. The prefix of the input is `api.h:441`. -/
def registerTopLevel (structured : Bool) (id : Nat) (t : Table Hd) (o : Obj) : Table Hd × Obj × Option Fail :=
  if structured then
    let prefixOfInput := if o.pre = [] then ['/'] else o.pre
    match registerTop t o prefixOfInput (.top id) with
    | (t', o', none) =>
      registerTop t' o' (if prefixOfInput = ['/'] then kStatus else prefixOfInput ++ kStatus) (.status id)
    | r => r
  else (t, o, none)

/-- An exception that leaves the constructor destroys `data_` (a member already constructed), and so its scope. `none`: the
program terminates. -/
def unwind (r : Table Hd × Obj × Option Fail) : Option (Table Hd × Except Fail Obj) :=
  match r with
  | (t, o, none) => some (t, .ok o)
  | (t, o, some e) => (release t o.scope).map fun t' => (t', .error e)

/-- The constructor, `api.h:408-444`. -/
def construct (structured : Bool) (pre : Str) (fields : List (Str × Kind)) (id : Nat) (t : Table Hd) :
    Option (Table Hd × Except Fail Obj) :=
  let o : Obj := ⟨pre, [], [], [], true⟩
  if pre ≠ [] ∧ pre.getLast? = some '/' then some (t, .error .slash)
  else
    let o := { o with handlers := handlersOf fields }
    match registerRoutes id t o o.handlers with
    | (t', o', none) => unwind (registerTopLevel structured id t' o')
    | r => unwind r

/-- `RegisterAlias`, `api.h:447-464`. The range of the multimap is the entries of the key in their order. -/
def registerAlias (id : Nat) (t : Table Hd) (o : Obj) (target name : Str) : Table Hd × Obj × Option Fail :=
  let range := o.handlers.filter fun e => e.1 = target
  if range = [] then (t, o, some .undefined)
  else registerRoutes id t o (range.map fun e => (name, e.2))

/-- The loop of `SwitchHTTPEndpointsTo503s`, `api.h:515-518`. The scope `Register` returns is dropped. -/
def switchLoop (t : Table Hd) : List (Str × Nat) → Table Hd × Option Fail
  | [] => (t, none)
  | (path, mask) :: rest =>
    match register t path .unavailable mask .silentlyUpdate with
    | .error e => (t, some (.route e))
    | .ok (t', s) =>
      match release t' s with
      | some t'' => switchLoop t'' rest
      | none => (t', some .undefined)

/-- `SwitchHTTPEndpointsTo503s`, `api.h:513-519`. -/
def switch (t : Table Hd) (o : Obj) : Table Hd × Obj × Option Fail :=
  let o := { o with up := false }
  let (t', e) := switchLoop t o.routes
  (t', o, e)

/-! ### The port and the program -/

/-- What a program does with a port: it creates storages, calls them, destroys them; and registers and releases routes of its own.
It updates no route in place. -/
inductive Op where
  | construct (structured : Bool) (pre : Str) (fields : List (Str × Kind))
  | registerAlias (id : Nat) (target name : Str)
  | switch (id : Nat)
  | destroy (id : Nat)
  | userRegister (path : Str) (k mask : Nat)
  | userRelease (i : Nat)
deriving DecidableEq, Repr

structure World where
  table : Table Hd
  users : List Scope
  objs : List (Nat × Obj)
  next : Nat

def World.init : World := ⟨[], [], [], 0⟩

/-- One call and the exception it throws, which the caller catches. `none`: the program terminates. Calls on objects that do not
exist are not calls; they do nothing here. -/
def World.step (w : World) : Op → Option (World × Option Fail)
  | .construct structured pre fields =>
    (RestLife.construct structured pre fields w.next w.table).map fun r =>
      match r with
      | (t, .ok o) => ({ w with table := t, objs := assocSet w.objs w.next o, next := w.next + 1 }, none)
      | (t, .error e) => ({ w with table := t, next := w.next + 1 }, some e)
  | .registerAlias id target name =>
    match assocFind w.objs id with
    | none => some (w, none)
    | some o =>
      let (t, o', e) := RestLife.registerAlias id w.table o target name
      some ({ w with table := t, objs := assocSet w.objs id o' }, e)
  | .switch id =>
    match assocFind w.objs id with
    | none => some (w, none)
    | some o =>
      let (t, o', e) := RestLife.switch w.table o
      some ({ w with table := t, objs := assocSet w.objs id o' }, e)
  | .destroy id =>
    match assocFind w.objs id with
    | none => some (w, none)
    | some o => (release w.table o.scope).map fun t => ({ w with table := t, objs := assocErase w.objs id }, none)
  | .userRegister path k mask =>
    match register w.table path (.user k) mask .throwOnAttempt with
    | .ok (t, s) => some ({ w with table := t, users := w.users ++ [s] }, none)
    | .error e => some (w, some (.route e))
  | .userRelease i =>
    match w.users[i]? with
    | none => some (w, none)
    | some s => (release w.table s).map fun t => ({ w with table := t, users := w.users.eraseIdx i }, none)

/-- A history: the world it leads to and what the calls threw. -/
def World.run (w : World) : List Op → Option (World × List (Option Fail))
  | [] => some (w, [])
  | op :: rest => (w.step op).bind fun r => (r.1.run rest).map fun q => (q.1, r.2 :: q.2)

/-- `CountMask` is `uint16_t`. -/
def Op.Fits : Op → Prop
  | .userRegister _ _ mask => mask < 65536
  | _ => True

/-- What a client gets for the path of a route and a number of arguments. The two top level handlers look at `up_status_`,
`structured.h:61`, `71`. -/
inductive Ans where
  | notFound | live (id : Nat) (e : Ep) | topUp (id : Nat) | statusUp (id : Nat) | down | user (k : Nat) | dangling
deriving DecidableEq, Repr

def World.answer (w : World) (p : Str) (n : Nat) : Ans :=
  match w.table.view p n with
  | none => .notFound
  | some (.own id e) => if (assocFind w.objs id).isSome then .live id e else .dangling
  | some (.top id) =>
    match assocFind w.objs id with
    | none => .dangling
    | some o => if o.up then .topUp id else .down
  | some (.status id) =>
    match assocFind w.objs id with
    | none => .dangling
    | some o => if o.up then .statusUp id else .down
  | some .unavailable => .down
  | some (.user k) => .user k

end Current.RestLife
