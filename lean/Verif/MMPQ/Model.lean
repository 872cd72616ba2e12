import Verif.Persist.Model
/-!
Model of the in-memory message *priority* queue, `blocks/mmq/mmpq.h`.

Everything the code does is inside one mutex, the call of the consumer included (line 122), so the actions of a schedule
are: a `Publish` call, an `UpdateHead` call, one evaluation of the consumer's predicate together with what follows it up to the
next `wait`, a spurious wake-up and the first half of the destructor.

Not modelled: a consumer that throws (the thread would call `std::terminate`) or that calls the queue itself (it would
deadlock on the non-recursive mutex), exceptions thrown by moving a message.
-/
namespace Current.MMPQ
open Current.Persist (IdxTs)

/-- What happens at the interface, in the order it happens. -/
inductive Event (M : Type) where
  | published (m : M) (idx : IdxTs) (returned : IdxTs)   -- `Publish`: `idx` is what the entry is stored with
  | delivered (m : M) (idx : IdxTs) (last : IdxTs)       -- a call of the consumer with its three arguments
  | headSet (us : Int)                                   -- a successful `UpdateHead`
  | headThrown (least us : Int)                          -- `InconsistentTimestampException`
  | destructing
  deriving DecidableEq, Repr

/-- The consumer thread: in `wait` (`asleep`), about to evaluate the predicate (`awake`), or returned. -/
inductive CPc where
  | asleep | awake | terminated
  deriving DecidableEq, Repr

/-- `mmpq.h:139-151`; `queue` lists the `std::set` in its order; `log` is the history of the interface. -/
structure State (M : Type) where
  queue : List (M × IdxTs)
  last : IdxTs
  destructing : Bool
  cons : CPc
  log : List (Event M)

/-- `mmpq.h:139-145`. -/
def init {M : Type} : State M := { queue := [], last := ⟨0, -1⟩, destructing := false, cons := .awake, log := [] }

/-- `std::set<Entry>::emplace` with `Entry::operator<` (`mmpq.h:136`), which compares timestamps only: an element
equivalent to one already present is not inserted. -/
def emplace {M : Type} (e : M × IdxTs) : List (M × IdxTs) → List (M × IdxTs)
  | [] => [e]
  | q :: qs =>
    if e.2.us < q.2.us then e :: q :: qs
    else if q.2.us < e.2.us then q :: emplace e qs
    else q :: qs

/-- `notify_all`. -/
def wake : CPc → CPc
  | .asleep => .awake
  | p => p

/-- `PublisherPublishImpl`, `mmpq.h:74-88`. `us` is already `TimestampAsMicroseconds(timestamp)`. -/
def State.publish {M : Type} (s : State M) (m : M) (us : Int) : State M :=
  let last : IdxTs := ⟨s.last.index + 1, s.last.us⟩
  let idx : IdxTs := ⟨s.last.index + 1, us⟩
  { s with last := last, queue := emplace (m, idx) s.queue, cons := wake s.cons
           log := s.log ++ [.published m idx last] }

/-- `PublisherUpdateHeadImpl`, `mmpq.h:92-101`. -/
def State.updateHead {M : Type} (s : State M) (us : Int) : State M :=
  if ¬ us > s.last.us then { s with log := s.log ++ [.headThrown (s.last.us + 1) us] }
  else { s with last := ⟨s.last.index, us⟩, cons := wake s.cons, log := s.log ++ [.headSet us] }

/-- One turn of `ConsumerThread`, `mmpq.h:109-126`: predicate, then either back to sleep, or return, or deliver. -/
def State.consume {M : Type} (s : State M) : State M :=
  if s.destructing then { s with cons := .terminated }
  else
    match s.queue with
    | [] => { s with cons := .asleep }
    | e :: rest =>
      if e.2.us ≤ s.last.us then { s with queue := rest, log := s.log ++ [.delivered e.1 e.2 s.last] }
      else { s with cons := .asleep }

/-- Scheduler choices. -/
inductive Act (M : Type) where
  | publish (m : M) (us : Int)
  | updateHead (us : Int)
  | consume
  | spurious
  | destruct
  deriving DecidableEq, Repr

/-- One action; `none` when it is not enabled. The destructor's first half is `mmpq.h:64-68`; `join` then waits for
`terminated`. -/
def step {M : Type} (s : State M) : Act M → Option (State M)
  | .publish m us => some (s.publish m us)
  | .updateHead us => some (s.updateHead us)
  | .consume => if s.cons = .awake then some s.consume else none
  | .spurious => if s.cons = .asleep then some { s with cons := .awake } else none
  | .destruct =>
    if s.destructing then none
    else some { s with destructing := true, cons := wake s.cons, log := s.log ++ [.destructing] }

def run {M : Type} : State M → List (Act M) → Option (State M)
  | s, [] => some s
  | s, a :: as =>
    match step s a with
    | some s' => run s' as
    | none => none

def Reachable {M : Type} (s : State M) : Prop := ∃ as, run init as = some s

end Current.MMPQ
