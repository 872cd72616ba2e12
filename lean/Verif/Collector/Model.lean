import Verif.Persist.Codec
set_option linter.unusedSimpArgs false
set_option linter.unusedVariables false

/-! # The event collector (`examples/event_collector/event_collector.h`): requests and ticks, written to one log by two threads. -/

namespace Current.Collector
open Current.Persist

/-- A line of the log: `LogEntryWithHeaders`, `event_collector.h:52-65`; `R` is everything copied from the request. -/
inductive Line (R : Type)
  | req (r : R) (t : Nat)
  | tick (t : Nat)

/-- The field `t`. -/
def Line.t {R : Type} : Line R → Nat
  | .req _ t => t
  | .tick t => t

/-- The collector with its two threads: the one of the HTTP server, which handles one request at a time, and the one of the timer. The mutex makes each of the two critical sections one step. -/
structure St (R : Type) where
  /-- The last time read from the clock, by whichever thread. -/
  clock : Nat
  /-- The request being handled, and the time read before the mutex is taken, `event_collector.h:86-88`. -/
  pending : Option (R × Nat)
  /-- The output stream, newest line first. -/
  log : List (Line R)
  /-- The calls of the callback, newest first. -/
  called : List (Line R)
  /-- The requests which got a response, newest first. -/
  responded : List R
  /-- `last_event_t_`. -/
  last : Nat
  /-- `events_pushed_`. -/
  pushed : Nat
  /-- `send_ticks_`. -/
  ticks : Bool
  /-- The time the timer thread reads next is at least this: it sleeps. -/
  wake : Nat

variable {R : Type}

/-- The constructor, `event_collector.h:71-83`. -/
def init (interval : Nat) : St R := ⟨0, none, [], [], [], 0, 0, decide (0 < interval), 0⟩

/-- What can happen. `t` is the time read from the clock, which is strictly increasing (`bricks/time/chrono.h`, C52). -/
inductive Op (R : Type)
  /-- A request arrives, and its handler reads the clock. -/
  | arrive (r : R) (t : Nat)
  /-- The handler takes the mutex, writes, and responds. -/
  | commit
  /-- The timer thread wakes up. -/
  | timer (t : Nat)
  /-- The destructor. -/
  | stop

/-- One step, or none if it is not possible. -/
def step (interval : Nat) (s : St R) : Op R → Option (St R)
  | .arrive r t =>
    if s.pending.isSome || t ≤ s.clock then none
    else some { s with clock := t, pending := some (r, t) }
  | .commit =>
    match s.pending with
    | none => none
    | some (r, t) => -- `event_collector.h:86-105`
      some { s with pending := none, log := .req r t :: s.log, called := .req r t :: s.called, responded := r :: s.responded,
                    last := t, pushed := s.pushed + 1 }
  | .timer t =>
    if !s.ticks || t ≤ s.clock || t < s.wake then none
    else -- `event_collector.h:122-147`
      let dt := t - s.last
      if interval ≤ dt then
        some { s with clock := t, log := .tick t :: s.log, called := .tick t :: s.called, last := t, pushed := s.pushed + 1, wake := 0 }
      else some { s with clock := t, wake := t + (interval - dt + 1) }
  | .stop => some { s with ticks := false }

/-- A history. -/
def run (interval : Nat) (s : St R) : List (Op R) → Option (St R)
  | [] => some s
  | o :: os => match step interval s o with | none => none | some s' => run interval s' os

/-! ### Specification -/

/-- The requests of a log, newest first. -/
def requests (l : List (Line R)) : List R := l.filterMap fun | .req r _ => some r | .tick _ => none

/-- Every tick of a log, newest line first, comes at least `interval` after the line before it. -/
def TicksApart (interval : Nat) : List (Line R) → Prop
  | [] => True
  | .req _ _ :: l => TicksApart interval l
  | .tick t :: l => (match l with | [] => interval ≤ t | p :: _ => p.t + interval ≤ t) ∧ TicksApart interval l

/-- A history without requests which arrive before and are written after a tick. -/
def Undisturbed (busy : Bool) : List (Op R) → Prop
  | [] => True
  | .arrive _ _ :: os => Undisturbed true os
  | .commit :: os => Undisturbed false os
  | .timer _ :: os => busy = false ∧ Undisturbed busy os
  | .stop :: os => Undisturbed busy os

end Current.Collector
