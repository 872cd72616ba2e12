set_option linter.unusedSimpArgs false

/-! # The embedded event log DB and its read model (`examples/embedded_db/db.cc`)

One stream, a subscriber thread which keeps the nicknames, and HTTP requests. -/

namespace Current.EmbeddedDb

/-- The events, `schema.h:39-64`; those other than `UserAdded` are ignored by the read model. -/
inductive Ev
  | userAdded (id nick : String)
  | other (x : String)

/-- The answers of the endpoints, `db.cc:66-92`. -/
inductive Resp
  | published
  | ready
  | notYet
  | nick (id nick : String)
  | notFound (id : String)
deriving DecidableEq

/-- The process. -/
structure St where
  /-- The stream. -/
  log : List Ev
  /-- How many entries were passed to the read model. -/
  pos : Nat
  /-- The subscriber thread has evaluated the arguments of the call for entry `pos`: the index of the last published entry (`stream.h:350-355`). -/
  last : Option Nat
  /-- `state_.nicknames` -/
  nicknames : String → Option String
  /-- `replay_done_` -/
  done : Bool
  /-- A `/nickname` request which has seen `replay_done_`. -/
  asking : Option String
  /-- The answers to the requests, newest first. -/
  out : List Resp

/-- The start of the process on what the file has. -/
def start (log : List Ev) : St := ⟨log, 0, none, fun _ => none, false, none, []⟩

/-- `State::operator()`, `db.cc:45-52`. -/
def apply (m : String → Option String) : Ev → String → Option String
  | .userAdded id nick => fun u => if u = id then some nick else m u
  | .other _ => m

/-- What can happen. -/
inductive Op
  | publish (e : Ev)
  | subRead
  | subApply
  | ready
  | ask (id : String)
  | answer

/-- One step, if it is possible. The HTTP thread handles one request at a time. -/
def step (s : St) : Op → Option St
  /- `/publish`, `db.cc:171-184`: the entry is in the stream when the answer is sent. Not modelled: requests which are not a POST of an event. -/
  | .publish e => if s.asking.isNone then some { s with log := s.log ++ [e], out := .published :: s.out } else none
  /- `stream.h:350-355` -/
  | .subRead => if s.last.isNone ∧ s.pos < s.log.length then some { s with last := some (s.log.length - 1) } else none
  /- `db.cc:94-102`, under the mutex -/
  | .subApply => match s.last, s.log[s.pos]? with
    | some total, some e => some { s with pos := s.pos + 1, last := none, nicknames := apply s.nicknames e, done := s.done || decide (s.pos + 1 = total) }
    | _, _ => none
  /- `OnReady`, `db.cc:66-72` -/
  | .ready => if s.asking.isNone then some { s with out := (if s.done then .ready else .notYet) :: s.out } else none
  /- `OnNickname`, `db.cc:74-76` and `:84-86` -/
  | .ask id => if s.asking.isNone then (if s.done then some { s with asking := some id } else some { s with out := .notYet :: s.out }) else none
  /- `OnNickname`, `db.cc:77-83`, under the mutex -/
  | .answer => match s.asking with
    | some id => some { s with asking := none, out := (match s.nicknames id with | some n => .nick id n | none => .notFound id) :: s.out }
    | none => none

/-- A history of one process. -/
def run (s : St) : List Op → Option St
  | [] => some s
  | o :: os => match step s o with | none => none | some s' => run s' os

/-! ### Specification -/

/-- The nickname of a user after some events: that of the last `UserAdded` of the user. -/
def nickIn (l : List Ev) (u : String) : Option String := l.reverse.findSome? fun e => match e with
  | .userAdded id n => if id = u then some n else none
  | .other _ => none

/-- An answer about a user which is right for some events. -/
def Right (l : List Ev) : Resp → Prop
  | .nick id n => nickIn l id = some n
  | .notFound id => nickIn l id = none
  | _ => True

/-- The answers, newest first, are right for longer and longer beginnings of the log; the newest one for at most `n` entries. -/
inductive Grows (log : List Ev) : Nat → List Resp → Prop
  | nil (n : Nat) : Grows log n []
  | cons {n k : Nat} {r : Resp} {rs : List Resp} : k ≤ n → Right (log.take k) r → Grows log k rs → Grows log n (r :: rs)

end Current.EmbeddedDb
