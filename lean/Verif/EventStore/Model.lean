import Verif.Persist.Codec
set_option linter.unusedSimpArgs false
set_option linter.unusedVariables false

/-! # The event store (`examples/event_store/event_store.h`): events posted over HTTP, a storage and a log of announcements on one stream, with restarts.

The stream is a durable list of entries with timestamps (C01 and following); a transaction of the storage runs under the mutex of the stream, so that requests are handled one at a time. -/

namespace Current.EventStore
open Current.Persist

/-- The user's types: `EVENT_TYPE` with its `key` and its JSON, and `EXTRA_TYPE`, which is constructed from an event; `event_store.h:34-43`. -/
structure Cfg (Key Ev X : Type) where
  key : Ev → Key
  json : Ev → Str
  announce : Ev → X

/-- An entry of the stream, `stream_type_t = Variant<transaction_t, EXTRA_TYPE>`, `event_store.h:45`. All transactions here put one event. -/
inductive Entry (Ev X : Type)
  | tx (e : Ev)
  | extra (x : X)

/-- Where the process dies while it handles a `POST`. -/
inductive Crash
  | start   -- before anything is published
  | between -- the announcement is published, the transaction is not
  | done    -- both are published, the response is not sent

/-- The event store. -/
structure St (Key Ev X : Type) where
  /-- `full_event_log`: the durable stream, oldest first, with timestamps. -/
  log : List (Entry Ev X × Nat)
  /-- `event_store_storage`: the dictionary `events` in memory. -/
  db : Key → Option Ev
  /-- How many entries of the stream the follower has seen. -/
  pos : Nat
  /-- `readonly_nonstorage_event_log`: the stream in memory behind `/subscribe`. -/
  ro : List (X × Nat)
  /-- `Publish` to it has thrown, in the thread of the follower. -/
  broken : Bool

variable {Key Ev X : Type} [DecidableEq Key]

/-- Timestamp of the last entry of a stream. -/
def lastTs {α : Type} (l : List (α × Nat)) : Option Nat := l.getLast?.map (·.2)

/-- May an entry with timestamp `t` be appended? `blocks/persistence/memory.h:155-165`, `file.h:440-455`: otherwise `InconsistentTimestampException`. -/
def tsOk {α : Type} (l : List (α × Nat)) (t : Nat) : Bool :=
  match lastTs l with
  | none => true
  | some u => u < t

/-- `fields.events.Add(event)`. -/
def put (cfg : Cfg Key Ev X) (db : Key → Option Ev) (e : Ev) : Key → Option Ev := fun k => if k = cfg.key e then some e else db k

/-- The storage replays the transactions of the stream, `event_store.h:79`; announcements are skipped. -/
def replay (cfg : Cfg Key Ev X) : List (Entry Ev X × Nat) → (Key → Option Ev) → (Key → Option Ev)
  | [], db => db
  | (.tx e, _) :: l, db => replay cfg l (put cfg db e)
  | (.extra _, _) :: l, db => replay cfg l db

/-- The constructor on an existing stream, `event_store.h:76-91`. -/
def start (cfg : Cfg Key Ev X) (log : List (Entry Ev X × Nat)) : St Key Ev X := ⟨log, replay cfg log (fun _ => none), 0, [], false⟩

/-- Responses. -/
inductive Resp (Ev : Type)
  | event (e : Ev)        -- 200
  | notFound              -- 404
  | already               -- 200
  | conflict              -- 409
  | created               -- 201
  | failed                -- 500: the request was not answered

/-- What can happen. -/
inductive Op (Key Ev : Type)
  /-- `GET /event/<key>`. -/
  | get (k : Key)
  /-- `POST /event`: `t1` and `t2` are the times of the two publications; the process may die. -/
  | post (e : Ev) (t1 t2 : Nat) (crash : Option Crash)
  /-- The follower handles one more entry. -/
  | follow
  /-- A restart at any other time. -/
  | restart

/-- `POST`, `event_store.h:118-139`, with `Synchronous::TransactionFromLockedSection`, `storage/transaction_policy.h:204-240` and `PersistJournal`, `:274-290`. -/
def post (cfg : Cfg Key Ev X) (s : St Key Ev X) (e : Ev) (t1 t2 : Nat) (crash : Option Crash) : St Key Ev X × Option (Resp Ev) :=
  match crash with
  | some .start => (start cfg s.log, none)
  | _ =>
    match s.db (cfg.key e) with
    | some old => (s, some (if cfg.json old = cfg.json e then .already else .conflict))
    | none =>
      if tsOk s.log t1 then
        let log1 := s.log ++ [(.extra (cfg.announce e), t1)]
        match crash with
        | some .between => (start cfg log1, none)
        | _ =>
          if tsOk log1 t2 then
            let log2 := log1 ++ [(.tx e, t2)]
            match crash with
            | some .done => (start cfg log2, none)
            | _ => ({ s with log := log2, db := put cfg s.db e }, some .created)
          else (start cfg log1, none)  -- `std::exit(-1)`
      else (s, some .failed)           -- the change to the dictionary is rolled back

/-- One step of the follower, `event_store.h:49-62` and `:80-83`: announcements are published to the stream in memory, with their timestamps. -/
def follow (s : St Key Ev X) : St Key Ev X :=
  match s.log[s.pos]? with
  | none => s
  | some (.tx _, _) => { s with pos := s.pos + 1 }
  | some (.extra x, t) =>
    if tsOk s.ro t then { s with pos := s.pos + 1, ro := s.ro ++ [(x, t)] }
    else { s with broken := true }

/-- One step. -/
def step (cfg : Cfg Key Ev X) (s : St Key Ev X) : Op Key Ev → St Key Ev X × Option (Resp Ev)
  | .get k => (s, some (match s.db k with | some e => .event e | none => .notFound))
  | .post e t1 t2 crash => post cfg s e t1 t2 crash
  | .follow => (follow s, none)
  | .restart => (start cfg s.log, none)

/-- A history. -/
def run (cfg : Cfg Key Ev X) (s : St Key Ev X) : List (Op Key Ev) → St Key Ev X × List (Option (Resp Ev))
  | [] => (s, [])
  | o :: os =>
    let (s', r) := step cfg s o
    let (s'', rs) := run cfg s' os
    (s'', r :: rs)

/-- The event store on a new stream. -/
def fresh (cfg : Cfg Key Ev X) : St Key Ev X := start cfg []

/-! ### Specification -/

/-- The events which transactions of the log put, in order. -/
def stored (log : List (Entry Ev X × Nat)) : List Ev := log.filterMap fun p => match p.1 with | .tx e => some e | .extra _ => none

/-- The announcements of the log, with timestamps, in order. -/
def announced (log : List (Entry Ev X × Nat)) : List (X × Nat) := log.filterMap fun p => match p.1 with | .tx _ => none | .extra x => some (x, p.2)

end Current.EventStore
