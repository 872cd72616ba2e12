import Verif.Persist.Lemmas
/-!
Model of serving a stream over HTTP: `stream/pubsub.h:123-475`, `stream/stream.h:545-575`.

The subscriber thread that feeds the endpoint is the one of `Verif/Stream`: it calls the endpoint with entries
`begin_idx, begin_idx + 1, …`, each with the index of the last entry published so far, and with head updates between
them, and calls nothing after a `Done`.

Not modelled: `NetworkException` while sending (the response is then cut anyway), the chunk cache and its flushing
(`ChunkFlush`), the HTTP headers, `schema`, `sizeonly` and `terminate` requests.
-/
namespace Current.Http
open Current.Persist

/-- The URL parameters that matter, as numbers. `none`: not present. An unparsable number reads as `0`
(`FromString`, `bricks/strings/util.h`). -/
structure Query where
  recent : Option Nat := none
  since : Option Nat := none
  tail : Option Nat := none
  i : Option Nat := none
  n : Option Nat := none
  period : Option Nat := none
  stopAfterBytes : Option Nat := none
  noWait : Bool := false
  entriesOnly : Bool := false
  array : Bool := false
  deriving DecidableEq, Repr

/-- `ParsedHTTPRequestParams`, `pubsub.h:123-164`. `tailNow` stands for `tail == static_cast<uint64_t>(-1)`. -/
structure Params where
  recent : Int
  since : Int
  i : Nat
  tail : Nat
  tailNow : Bool
  n : Nat
  period : Int
  noWait : Bool
  stopAfterBytes : Nat
  entriesOnly : Bool
  array : Bool
  deriving DecidableEq, Repr

/-- `ParsePubSubHTTPRequest`, `pubsub.h:190-228`. -/
def parse (q : Query) : Params :=
  { recent := q.recent.getD 0, since := q.since.getD 0, i := q.i.getD 0, tail := q.tail.getD 0, tailNow := decide (q.tail = some 0),
    n := q.n.getD 0, period := q.period.getD 0, noWait := q.noWait, stopAfterBytes := q.stopAfterBytes.getD 0,
    entriesOnly := q.entriesOnly || q.array, array := q.array }

/-- `begin_idx` and `from_timestamp`, `stream.h:545-569`; `size` is `stream_size`, `ts` the timestamps of the entries when
`IndexRangeByTimestampRange` is called (perhaps more than `size` by then), `now` is `r.timestamp`. -/
def beginIdx (p : Params) (now : Int) (size : Nat) (ts : List Int) : Nat × Int :=
  let b := if p.tailNow then size
    else if p.tail ≠ 0 then max p.i (if p.tail < size then size - p.tail else 0)
    else if p.recent > 0 then 0
    else if p.since > 0 then 0
    else p.i
  let from_ := if p.tailNow || p.tail ≠ 0 then 0
    else if p.recent > 0 then now - p.recent
    else if p.since > 0 then p.since
    else 0
  (if from_ > 0 then max b (min ((indexRange ts from_ 0).1.getD size) size) else b, from_)

/-- Whether the request is answered `204 No Content` at once, `stream.h:571-575`. -/
def noContent (p : Params) (now : Int) (size : Nat) (ts : List Int) : Bool :=
  p.noWait && decide ((beginIdx p now size ts).1 ≥ size)

/-- `PubSubHTTPEndpointImpl`. `out` is the sequence of strings sent, `sent` (a history variable) the entries sent. -/
structure Ep where
  p : Params            -- `params_`, with `tail` as `stream.h:551` leaves it
  serving : Bool
  from_ : Int           -- `from_timestamp_`
  to_ : Int             -- `to_timestamp_`
  n : Nat               -- `n_`
  bytes : Nat           -- `current_response_size_`
  started : Bool        -- `output_started_`
  out : List Str
  sent : List (IdxTs × Str)
  deriving DecidableEq, Repr

/-- The constructor, `pubsub.h:236-261`, after `stream.h:551`. -/
def Ep.init (p : Params) (now : Int) (size : Nat) : Ep :=
  { p := { p with tail := if p.tailNow then size else p.tail },
    serving := !(decide (p.recent > 0) || decide (p.since > 0)),
    from_ := if p.recent > 0 then now - p.recent else if p.since > 0 then p.since else 0,
    to_ := 0, n := p.n, bytes := 0, started := false, out := [], sent := [] }

/-- The text of one entry, with type checks on: `pubsub.h:297-303`. -/
def checkedText (p : Params) (idxts json : Str) : Str :=
  if p.entriesOnly then json ++ ['\n'] else idxts ++ '\t' :: json ++ ['\n']

/-- The text of one entry, from its raw log line: `pubsub.h:378-385`. -/
def uncheckedText (p : Params) (raw : Str) : Str :=
  (if !p.entriesOnly then raw else match splitTab raw with
    | some (_, json) => json
    | none => raw) ++ ['\n']

/-- Calls of the endpoint by the subscriber thread. `tt` is the value of `time_to_terminate_` at that moment. -/
inductive In where
  | entry (x : IdxTs) (last : Nat) (text : Str) (tt : Bool)
  | head (us : Int) (tt : Bool)
  | terminate
  deriving DecidableEq, Repr

def openBracket : Str := ['[', '\n']
def comma : Str := [',', '\n']
def closeBracket : Str := [']', '\n']
def emptyArray : Str := ['[', ']', '\n']

/-- The check at `pubsub.h:275-279`. -/
def Ep.qualifies (e : Ep) (x : IdxTs) (last : Nat) : Bool :=
  decide (x.index ≥ e.p.i) && (decide (e.p.tail = 0) || decide (last - x.index < e.p.tail)) && (decide (e.from_ = 0) || decide (x.us ≥ e.from_))

/-- Sending one entry, `pubsub.h:304-318`. -/
def Ep.send (e : Ep) (x : IdxTs) (text : Str) : Ep :=
  { e with bytes := e.bytes + text.length, started := e.started || e.p.array,
           out := e.out ++ (if e.p.array then (if e.started then [comma] else [openBracket]) else []) ++ [text],
           sent := e.sent ++ [(x, text)] }

/-- Setting `to_timestamp_` at the first moment while serving, `pubsub.h:287-290`, `pubsub.h:443-446`. -/
def Ep.setTo (e : Ep) (us : Int) : Ep := { e with to_ := if e.p.period ≠ 0 ∧ e.to_ = 0 then us + e.p.period else e.to_ }

/-- The part of `operator()` inside the lambda after that, `pubsub.h:291-336`. -/
def Ep.serve2 (e : Ep) (x : IdxTs) (last : Nat) (text : Str) : Ep × Bool :=
  if e.to_ ≠ 0 ∧ x.us > e.to_ then (e, true)
  else
    let e := e.send x text
    if e.p.stopAfterBytes ≠ 0 ∧ e.bytes ≥ e.p.stopAfterBytes then (e, true)
    else
      let e' := { e with n := e.n - 1 }
      if e.n ≠ 0 ∧ e'.n = 0 then (e', true)
      else if x.index = last ∧ e.p.noWait then (e', true)
      else (e', false)

/-- The part of `operator()` inside the lambda once it is serving, `pubsub.h:286-336`. -/
def Ep.serve (e : Ep) (x : IdxTs) (last : Nat) (text : Str) : Ep × Bool := (e.setTo x.us).serve2 x last text

/-- The lambda, `pubsub.h:269-338` (and `pubsub.h:346-414`). The second component: `Done`. -/
def Ep.entry (e : Ep) (x : IdxTs) (last : Nat) (text : Str) (tt : Bool) : Ep × Bool :=
  if tt then (e, true)
  else
    let e := { e with serving := e.serving || e.qualifies x last }
    if e.serving then e.serve x last text
    else (e, decide (x.index = last) && e.p.noWait)

/-- Closing the array on `Done`, `pubsub.h:339-346`, `pubsub.h:415-427`. -/
def Ep.close (e : Ep) : Ep :=
  { e with out := e.out ++ (if e.p.array then (if e.started then [closeBracket] else [emptyArray]) else []) }

/-- The end of `operator()(microseconds)`, `pubsub.h:447-453`. -/
def Ep.head2 (e : Ep) (us : Int) (headText : Str) : Ep × Bool :=
  if e.to_ ≠ 0 ∧ us > e.to_ then (e, true)
  else if !e.p.array && !e.p.entriesOnly then ({ e with out := e.out ++ [headText] }, false)
  else (e, false)

/-- `operator()(microseconds)`, `pubsub.h:434-456`. -/
def Ep.head (e : Ep) (us : Int) (headText : Str) (tt : Bool) : Ep × Bool :=
  if tt then (e, true)
  else
    let e := { e with serving := e.serving || (decide (e.from_ > 0) && decide (us ≥ e.from_)) }
    if e.serving then (e.setTo us).head2 us headText
    else (e, false)

/-- `Terminate()`, `pubsub.h:465-473`; `msg` is the message with its newline. -/
def Ep.terminate (e : Ep) (msg : Str) : Ep :=
  { e with out := e.out ++ [if e.p.array && e.started then comma ++ msg ++ closeBracket else msg] }

/-- What the endpoint writes besides entries. -/
structure Texts where
  head : Int → Str
  msg : Str

def Ep.step (w : Texts) (e : Ep) : In → Ep × Bool
  | .entry x last text tt =>
    let r := e.entry x last text tt
    if r.2 then (r.1.close, true) else (r.1, false)
  | .head us tt => e.head us (w.head us) tt
  | .terminate => (e.terminate w.msg, true)

/-- The subscriber thread calls the endpoint until it is done. -/
def Ep.feed (w : Texts) : Ep → List In → Ep × Bool
  | e, [] => (e, false)
  | e, x :: xs =>
    let r := e.step w x
    if r.2 then r else Ep.feed w r.1 xs

/-- The response body. -/
def Ep.body (e : Ep) : Str := e.out.flatten

end Current.Http
