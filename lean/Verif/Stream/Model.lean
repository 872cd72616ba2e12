import Verif.Persist.Lemmas
/-!
Model of a stream with one subscriber thread: `stream/stream.h:266-416`, `stream/stream_impl.h:104-156`,
`blocks/ss/pubsub.h:180-218`.

The stream's state is the memory persister of `Verif/Persist/Model.lean`. (A stream over the file persister behaves the
same: `file_persister_refines_memory`.) Any number of publishers act on it: a publisher's call
(`stream_impl.h:138-156`) is one `call` action, since the persister works under `publishing_mutex`; the notification after it is
not an action, because `WaitUntil` (`bricks/util/waitable_terminate_signal.h:66-80`) re-evaluates its predicate at least every
25 ms: a waiting thread can always take a step.

The subscriber thread is a program counter; every access to the persister (one critical section) and every call of the
subscriber is its own action, and publishers may act between any two of them. What the subscriber answers is chosen by
the scheduler.

`SubscriptionMode::Unchecked` (`stream.h:359-375`) is the same loop with the raw log line in the place of the entry and no type
filter; it is covered by `sel = fun _ => true` and `E` = raw line.

Not modelled: exceptions thrown by the subscriber (they would terminate the process), several subscribers (they do not
interact: each has its own state and only reads the stream), the destructor's `join`.
-/
namespace Current.Stream
open Current.Persist

/-- `EntryResponse`, `blocks/ss/pubsub.h:134`. -/
inductive Resp where
  | more | done
  deriving DecidableEq, Repr

/-- Calls of the subscriber, in order, with what it answered. -/
inductive Ev (E : Type) where
  | entry (i : IdxTs) (e : E) (last : IdxTs) (r : Resp)   -- `operator()(entry, idxts, last)`
  | head (us : Int) (r : Resp)                            -- `operator()(microseconds)`
  | noMore (i : IdxTs) (r : Resp)                         -- `EntryResponseIfNoMorePassTypeFilter()`, asked at entry `i`
  | terminate (wait : Bool)                               -- `Terminate()`
  deriving DecidableEq, Repr

/-- What the thread remembers of one call of `HeadAndLastPublishedIndexAndTimestamp()`, `stream.h:391-392`. -/
structure Snap where
  head : Int
  size : Nat
  us : Int
  deriving DecidableEq, Repr

/-- Where the thread is. -/
inductive Pc (E : Type) where
  | top                                            -- `stream.h:385`
  | snap                                           -- `stream.h:391`
  | iter (n : Snap)                                -- `stream.h:395`: about to call `Iterate(index, size)`
  | fetch (i e : Nat) (n : Snap)                   -- the head of the range loop, `stream.h:342`
  | check (i e : Nat) (n : Snap) (x : IdxTs) (v : E)   -- `stream.h:343`
  | pass (i e : Nat) (n : Snap) (x : IdxTs) (v : E)    -- `stream.h:349`
  | headCall (h : Int) (size : Nat)                -- `stream.h:401`
  | waiting                                        -- inside `WaitUntil`, `stream.h:408`
  | returned
  | crashed                                        -- an exception left the thread, or a failed assertion
  deriving DecidableEq, Repr

/-- `begin_idx`, `from_us` and the type filter. `sel v` is `Exists<TYPE_SUBSCRIBED_TO>(v)`; for a subscription to
the whole entry type it is constantly true (`pubsub.h:203-209`). -/
structure Params (E : Type) where
  begin_ : Nat
  fromUs : Int
  sel : E → Bool
  codec : Codec E

structure St (E : Type) where
  mem : Mem E
  term : Bool       -- `terminate_signal_`
  sent : Bool       -- `terminate_sent_`
  head : Int
  index : Nat
  pc : Pc E
  log : List (Ev E)

variable {E : Type}

/-- Start of `ThreadImpl`, `stream.h:380-383`, on a stream in state `m`. -/
def St.init (p : Params E) (m : Mem E) : St E :=
  { mem := m, term := false, sent := false, head := p.fromUs - 1, index := p.begin_, pc := .top, log := [] }

/-- One action of the subscriber thread; `r` and `w` are what the subscriber answers if it is called
(`w`: `Terminate()` answers `Wait`). -/
def St.thread (p : Params E) (s : St E) (r : Resp) (w : Bool) : Option (St E) :=
  match s.pc with
  | .top =>
    if !s.sent && s.term then
      if w then some { s with sent := true, log := s.log ++ [.terminate w], pc := .snap }
      else some { s with sent := true, log := s.log ++ [.terminate w], pc := .returned }
    else some { s with pc := .snap }
  | .snap =>
    match s.mem.headAndLast with
    | .ok (h, o) =>
      if h > s.head then
        match o with
        | some x => if x.index + 1 > s.index then some { s with pc := .iter ⟨h, x.index + 1, x.us⟩ }
                    else some { s with pc := .headCall h (x.index + 1) }
        | none => some { s with pc := .headCall h 0 }
      else some { s with pc := .waiting }
    | _ => some { s with pc := .crashed }
  | .iter n =>
    match s.mem.iterateRange s.index (some n.size) with
    | .ok (b, e) => some { s with pc := .fetch b e n }
    | _ => some { s with pc := .crashed }
  | .fetch i e n =>
    if i = e then some { s with index := n.size, head := n.us, pc := .headCall n.head n.size }
    else match s.mem.deref i with
      | some (x, v) => some { s with pc := .check i e n x v }
      | none => some { s with pc := .crashed }
  | .check i e n x v =>
    if !s.sent && s.term then
      if w then some { s with sent := true, log := s.log ++ [.terminate w], pc := .pass i e n x v }
      else some { s with sent := true, log := s.log ++ [.terminate w], pc := .returned }
    else some { s with pc := .pass i e n x v }
  | .pass i e n x v =>
    match s.mem.lastPublished with
    | .ok last =>
      if p.sel v then
        some { s with log := s.log ++ [.entry x v last r], pc := if r = .done then .returned else .fetch (i + 1) e n }
      else if x.index > last.index then some { s with pc := .crashed }
      else if x.index < last.index then some { s with pc := .fetch (i + 1) e n }
      else some { s with log := s.log ++ [.noMore x r], pc := if r = .done then .returned else .fetch (i + 1) e n }
    | _ => some { s with pc := .crashed }
  | .headCall h size =>
    if size ≥ p.begin_ ∧ h > s.head then
      if r = .done then some { s with log := s.log ++ [.head h r], pc := .returned }
      else some { s with log := s.log ++ [.head h r], head := h, pc := .top }
    else some { s with head := h, pc := .top }
  | .waiting =>
    if s.term ∨ s.mem.size > s.index ∨ (s.index > p.begin_ ∧ s.mem.currentHead > s.head) then some { s with pc := .top }
    else some s
  | .returned => none
  | .crashed => none

/-- Scheduler choices. -/
inductive Act (E : Type) where
  | call (c : Call E)               -- some publisher calls the stream
  | signal                          -- `SignalExternalTermination()`
  | thread (r : Resp) (wait : Bool)
  deriving DecidableEq, Repr

def step (p : Params E) (s : St E) : Act E → Option (St E)
  | .call c => some { s with mem := (s.mem.call p.codec c).1 }
  | .signal => some { s with term := true }
  | .thread r w => s.thread p r w

def run (p : Params E) : St E → List (Act E) → Option (St E)
  | s, [] => some s
  | s, a :: as =>
    match step p s a with
    | some s' => run p s' as
    | none => none

/-- Reachable: subscribed with parameters `p` to a stream with any history. -/
def Reachable (p : Params E) (s : St E) : Prop :=
  ∃ cs as, run p (St.init p (Mem.init.run p.codec cs).1) as = some s

end Current.Stream
