/-!
Model of RipCurrent, `ripcurrent/ripcurrent.h`: a flow `A | B | C | …` run by `.RipCurrent()` and finished by `.Join()`.

Stage `i` is the user's class number `i` from the left; queue `i` (for `i > 0`) is the `MMPQWrapper` in front of it, with its own
thread, which runs stage `i`'s `f`. Constructors and destructors run on the thread that calls `RipCurrent()` / `Join()`.

Simplifications. The user's `f`, constructor and destructor are given by what they do to the object and by the list of
calls (`emit`, `post`, `schedule`, `head`) they make, in order: those calls return nothing, so the code cannot branch on them.
The user's code spawns no threads, throws nothing and terminates. The consumer takes the entry out of the queue before the
call of `f` and not after it (`mmpq.h:120-121`): both are inside the same critical section. `wait` is represented by its predicate
becoming true (no lost wake-ups: `Verif/Sync`, `Verif/MMPQ`). `HandleError` is the mocked one, which returns (the default one
prints the error and calls `std::exit`, `types.h:183-188`), and is counted in `errors`. Indexes of queue entries are not used by RipCurrent.
-/
namespace Current.Rip

/-- A call the user's code makes: `ripcurrent.h:492-513`. -/
inductive Cmd (M : Type) where
  | emit (m : M)
  | post (t : Int) (m : M)
  | schedule (t : Int) (m : M)
  | head (t : Int)
  deriving DecidableEq, Repr

/-- A user's class: constructor, `f` (`ripcurrent.h:539-546`; the overloads for the message types are one function here) and destructor. -/
structure Node (S M : Type) where
  init : S × List (Cmd M)
  f : S → M → S × List (Cmd M)
  fin : S → List (Cmd M)

/-- Where the code of a stage is inside a call of `emit` etc. -/
inductive Pc (M : Type) where
  | idle                        -- not inside such a call
  | stamped (t : Int) (m : M)   -- `time::Now()` or the user's timestamp taken, `OnThreadUnsafeEmitted` entered
  | called (t : Int) (m : M)    -- `ReportPublishCalled()` done
  | due (t : Int) (m : M)       -- before `mmpq_.Publish` (after `UpdateHead`, unless the call is `schedule`)
  | sched (t : Int) (m : M)     -- `OnThreadUnsafeScheduled` entered
  | headOnly (t : Int)          -- `OnThreadUnsafeHeadUpdated` entered
  deriving DecidableEq, Repr

/-- The thread of a queue: waiting, inside `f` (holding the queue's mutex), or past `ReportMessageProcessed()` (still holding it). -/
inductive Cons where
  | idle | handling | counted
  deriving DecidableEq, Repr

/-- The thread that builds and destroys the flow. -/
inductive Main where
  | building (k : Nat)   -- stages `k`, `k+1`, … and the queues in front of them exist; `building 0`: `RipCurrent()` has returned
  | ctor (k : Nat)       -- inside the constructor of stage `k`
  | dtor (k : Nat)       -- inside the destructor of stage `k`
  | drain (k : Nat)      -- inside `~MMPQWrapper` of queue `k`, `ripcurrent.h:711-713`
  | closing (k : Nat)    -- inside `~MMPQImpl` of queue `k`, `mmpq.h:60-69`
  | done                 -- `Join()` has returned
  deriving DecidableEq, Repr

structure State (S M : Type) where
  clock : Int                     -- the last value returned by `time::Now()`
  main : Main
  st : Nat → S                    -- the user's objects
  pend : Nat → List (Cmd M)       -- calls the running code of a stage has yet to make
  pc : Nat → Pc M
  alive : Nat → Bool              -- the queue exists
  cons : Nat → Cons
  q : Nat → List (Int × M)        -- `queue_` of the MMPQ
  hd : Nat → Int                  -- `last_idx_ts_.us` of the MMPQ
  called : Nat → Nat              -- `publish_called_count_`
  processed : Nat → Nat           -- `processed_count_`
  failed : Nat → Nat              -- `not_published_count_`
  errors : Nat                    -- calls of `HandleError`
  log : Nat → List M              -- history: the messages `f` of the stage has been called with, in order
  sent : Nat → List (Int × M)     -- history: what the stage has published, with the timestamps

def upd {A : Type} (f : Nat → A) (i : Nat) (v : A) : Nat → A := fun j => if j = i then v else f j

/-- `std::set::emplace` with the order by timestamp, `mmpq.h:83,138`: an entry with a timestamp already present is dropped. -/
def emplace {M : Type} (e : Int × M) : List (Int × M) → List (Int × M)
  | [] => [e]
  | x :: xs => if e.1 < x.1 then e :: x :: xs else if x.1 < e.1 then x :: emplace e xs else x :: xs

variable {S M : Type}

/-- Before `RipCurrent()`: `n` stages to build. A fresh MMPQ has head `-1` (`mmpq.h:142`). -/
def init (nodes : Nat → Node S M) (n : Nat) : State S M where
  clock := 0
  main := .building n
  st := fun i => (nodes i).init.1
  pend := fun _ => []
  pc := fun _ => .idle
  alive := fun _ => false
  cons := fun _ => .idle
  q := fun _ => []
  hd := fun _ => -1
  called := fun _ => 0
  processed := fun _ => 0
  failed := fun _ => 0
  errors := 0
  log := fun _ => []
  sent := fun _ => []

/-- Scheduler choices. `begin i t`: stage `i` starts the next of its calls; `t` is the value of `time::Now()` if it needs one. -/
inductive Act where
  | construct | constructed | join | destroyed | drained | closed
  | begin (i : Nat) (t : Int) | call (i : Nat) | update (i : Nat) | publish (i : Nat)
  | take (i : Nat) | count (i : Nat) | release (i : Nat)
  deriving DecidableEq, Repr

/-- One action; `none` if it is not enabled. -/
def step (nodes : Nat → Node S M) (n : Nat) (s : State S M) : Act → Option (State S M)
  -- `Scope::Scope`, `ripcurrent.h:693-700`: `into_` first, then the queue in front of it, then `from_`
  | .construct =>
    match s.main with
    | .building (k + 1) =>
      some { s with main := .ctor k, st := upd s.st k (nodes k).init.1, pend := upd s.pend k (nodes k).init.2 }
    | _ => none
  | .constructed =>
    match s.main with
    | .ctor k =>
      if s.pend k = [] ∧ s.pc k matches .idle then
        some { s with main := .building k, alive := upd s.alive k (decide (0 < k)) }
      else none
    | _ => none
  -- `RipCurrentScope::Join`, `ripcurrent.h:326-334`: members of `Scope` go in reverse order, lines 783-787: `from_`, the queue, `into_`
  | .join =>
    match s.main with
    | .building 0 => some { s with main := .dtor 0, pend := upd s.pend 0 ((nodes 0).fin (s.st 0)) }
    | _ => none
  | .destroyed =>
    match s.main with
    | .dtor k =>
      if s.pend k = [] ∧ s.pc k matches .idle then
        some { s with main := if k + 1 < n then .drain (k + 1) else .done }
      else none
    | _ => none
  -- `~MMPQWrapper` waits for `ProcessedEverything()`, `ripcurrent.h:711-713,753`
  | .drained =>
    match s.main with
    | .drain k => if s.called k = s.processed k + s.failed k then some { s with main := .closing k } else none
    | _ => none
  -- `~MMPQImpl`: lock, `destructing_ = true`, join the thread; then `into_` is destroyed
  | .closed =>
    match s.main with
    | .closing k =>
      if s.cons k = .idle then
        some { s with main := .dtor k, alive := upd s.alive k false, pend := upd s.pend k ((nodes k).fin (s.st k)) }
      else none
    | _ => none
  -- the user's code calls `emit` / `post` / `schedule` / `head`, `ripcurrent.h:492-513`
  | .begin i t =>
    match s.pc i, s.pend i with
    | .idle, .emit m :: rest =>
      if i + 1 < n ∧ s.clock < t then
        some { s with clock := t, pc := upd s.pc i (.stamped t m), pend := upd s.pend i rest }
      else none
    | .idle, .post t' m :: rest =>
      if i + 1 < n then some { s with pc := upd s.pc i (.stamped t' m), pend := upd s.pend i rest } else none
    | .idle, .schedule t' m :: rest =>
      if i + 1 < n then some { s with pc := upd s.pc i (.sched t' m), pend := upd s.pend i rest } else none
    | .idle, .head t' :: rest =>
      if i + 1 < n then some { s with pc := upd s.pc i (.headOnly t'), pend := upd s.pend i rest } else none
    | _, _ => none
  -- `ReportPublishCalled()`, `ripcurrent.h:716,728`
  | .call i =>
    match s.pc i with
    | .stamped t m =>
      some { s with called := upd s.called (i + 1) (s.called (i + 1) + 1), pc := upd s.pc i (.called t m) }
    | .sched t m =>
      some { s with called := upd s.called (i + 1) (s.called (i + 1) + 1), pc := upd s.pc i (.due t m) }
    | _ => none
  -- `mmpq_.UpdateHead(t)`, `mmpq.h:91-99`, which needs the mutex; `ripcurrent.h:718-724,738-744`
  | .update i =>
    match s.pc i with
    | .called t m =>
      if s.cons (i + 1) = .idle then
        if s.hd (i + 1) < t then
          some { s with hd := upd s.hd (i + 1) t, pc := upd s.pc i (.due t m) }
        else
          some { s with errors := s.errors + 1, failed := upd s.failed (i + 1) (s.failed (i + 1) + 1), pc := upd s.pc i .idle }
      else none
    | .headOnly t =>
      if s.cons (i + 1) = .idle then
        if s.hd (i + 1) < t then
          some { s with hd := upd s.hd (i + 1) t, pc := upd s.pc i .idle }
        else
          some { s with errors := s.errors + 1, pc := upd s.pc i .idle }
      else none
    | _ => none
  -- `mmpq_.Publish(std::move(x), t)`, `mmpq.h:75-86`, which needs the mutex
  | .publish i =>
    match s.pc i with
    | .due t m =>
      if s.cons (i + 1) = .idle then
        some { s with q := upd s.q (i + 1) (emplace (t, m) (s.q (i + 1))), pc := upd s.pc i .idle
                      sent := upd s.sent i (s.sent i ++ [(t, m)]) }
      else none
    | _ => none
  -- `ConsumerThread`, `mmpq.h:107-123`, calling `SingleThreadedProcessorImpl::operator()`, `ripcurrent.h:768-772`
  | .take i =>
    if s.alive i = true ∧ s.cons i = .idle then
      match s.q i with
      | (t, m) :: rest =>
        if t ≤ s.hd i then
          some { s with q := upd s.q i rest, cons := upd s.cons i .handling
                        st := upd s.st i ((nodes i).f (s.st i) m).1
                        pend := upd s.pend i ((nodes i).f (s.st i) m).2
                        log := upd s.log i (s.log i ++ [m]) }
        else none
      | [] => none
    else none
  | .count i =>
    if s.cons i = .handling ∧ s.pend i = [] ∧ s.pc i matches .idle then
      some { s with cons := upd s.cons i .counted, processed := upd s.processed i (s.processed i + 1) }
    else none
  | .release i => if s.cons i = .counted then some { s with cons := upd s.cons i .idle } else none

def run (nodes : Nat → Node S M) (n : Nat) : State S M → List Act → Option (State S M)
  | s, [] => some s
  | s, a :: as =>
    match step nodes n s a with
    | some s' => run nodes n s' as
    | none => none

def Reachable (nodes : Nat → Node S M) (n : Nat) (s : State S M) : Prop := ∃ as, run nodes n (init nodes n) as = some s

/-! ### `A + B` and the built-in blocks -/

/-- `SharedParallelImpl::Scope`, `ripcurrent.h:847-925`, of two user's classes: `Router` gives a message to the side whose input types contain the
message's type (a `static_assert` makes that exactly one of them), in the same thread; both sides emit into the same next block; `a_` is constructed
before `b_` and destroyed after it. `accepts m`: the type of `m` is one of the left side's input types. -/
def par {A B : Type} (accepts : M → Bool) (a : Node A M) (b : Node B M) : Node (A × B) M where
  init := ((a.init.1, b.init.1), a.init.2 ++ b.init.2)
  f := fun s m =>
    if accepts m then (((a.f s.1 m).1, s.2), (a.f s.1 m).2)
    else ((s.1, (b.f s.2 m).1), (b.f s.2 m).2)
  fin := fun s => b.fin s.2 ++ a.fin s.1

/-- `PassImpl`, `ripcurrent.h:981-988`. -/
def pass : Node Unit M where
  init := ((), [])
  f := fun _ m => ((), [.emit m])
  fin := fun _ => []

/-- `DropImpl`, `ripcurrent.h:1004-1011`. -/
def drop : Node Unit M where
  init := ((), [])
  f := fun _ _ => ((), [])
  fin := fun _ => []

end Current.Rip
