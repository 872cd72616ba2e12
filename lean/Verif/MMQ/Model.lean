import Verif.Persist.Model
/-!
Model of the in-memory message queue, `blocks/mmq/mmq.h`.

Threads: any number of publishers (a list of program counters), the consumer thread and the destructor.
Every mutex-protected section is one action, every piece of code between two of them is one action, and a schedule
is an arbitrary list of actions; an action that its thread cannot take in the given state is not enabled (`none`).
The condition variable is modelled with explicit sleeping and awake waiters, `notify_one`, `notify_all` and spurious
wake-ups.

Not modelled: exceptions thrown by the copy constructor of a message, memory ordering (the unlocked accesses to a slot are taken
as atomic; see `Verif/MMQ/Props.lean` for the one unlocked access that races).
-/
namespace Current.MMQ
open Current.Persist (IdxTs)

/-- `Entry::status`, `mmq.h:255`. -/
inductive Status where
  | free | imported | ready | exported
  deriving DecidableEq, Repr

/-- `Entry`, `mmq.h:252-256`. -/
structure Slot (M : Type) where
  status : Status
  idx : IdxTs
  body : M
  deriving DecidableEq, Repr

/-- Where a publisher thread is. `own` is a ghost: the index and timestamp it was allocated.
* `asleep`/`awake`: inside the `while` loop of `mmq.h:218-225`, blocked in `wait` / notified but not running yet;
* `importing`: allocated the slot, about to copy the message into it (`mmq.h:106`);
* `written`: about to commit (`mmq.h:107`);
* `committed`: about to read the value to return (`mmq.h:108`). -/
inductive PPc (M : Type) where
  | idle
  | asleep (m : M) (ts : Int)
  | awake (m : M) (ts : Int)
  | importing (slot : Nat) (m : M) (own : IdxTs)
  | written (slot : Nat) (m : M) (own : IdxTs)
  | committed (slot : Nat) (m : M) (own : IdxTs)
  deriving DecidableEq, Repr

/-- Where the consumer thread is, `mmq.h:135-175`.
* `asleep`/`awake`: in `wait` of line 146 / about to evaluate its predicate;
* `exporting`: about to call the consumer (line 158), with `save_last_idx_ts`;
* `exported`: the consumer returned, about to free the slot (line 168);
* `freed`: about to `notify_one` (line 174);
* `terminated`: returned because of `destructing_` (line 149). -/
inductive CPc where
  | asleep | awake | exporting (last : IdxTs) | exported | freed | terminated
  deriving DecidableEq, Repr

/-- What the caller of `Publish` gets back. -/
inductive Ret (M : Type) where
  | value (m : M) (own : IdxTs) (returned : IdxTs)   -- `own` is the ghost of `PPc`
  | dropped (m : M)                                  -- `idxts_t()`: overflow (drop mode) or destruction
  | thrown (m : M) (least ts : Int)                  -- `InconsistentTimestampException`
  deriving DecidableEq, Repr

/-- The queue (`mmq.h:242-273`), all threads, and what was observed so far: `accepted` (allocated messages in the
order of allocation), `delivered` (calls of the consumer), `rets` (results of `Publish`), `frees` (slots freed). -/
structure State (M : Type) where
  slots : Nat → Slot M
  head : Nat
  tail : Nat
  last : IdxTs
  destructing : Bool
  pubs : List (PPc M)
  cons : CPc
  accepted : List (M × IdxTs)
  delivered : List (M × IdxTs × IdxTs)
  rets : List (Ret M)
  frees : Nat

/-- The template parameters and constructor argument: `circular_buffer_size_`, `DROP_ON_OVERFLOW`. -/
structure Cfg where
  cap : Nat
  drop : Bool

def upd {α : Type} (f : Nat → α) (i : Nat) (v : α) : Nat → α := fun j => if j = i then v else f j

/-- A new queue with `n` threads that may publish; `mmq.h:75-82, 259-263`. -/
def init {M : Type} (m0 : M) (n : Nat) : State M :=
  { slots := fun _ => ⟨.free, ⟨0, 0⟩, m0⟩, head := 0, tail := 0, last := ⟨0, -1⟩, destructing := false
    pubs := List.replicate n .idle, cons := .awake, accepted := [], delivered := [], rets := [], frees := 0 }

/-- `Increment`, `mmq.h:132`. -/
def inc (c : Cfg) (i : Nat) : Nat := (i + 1) % c.cap

/-- The common tail of both versions of `CircularBufferAllocate`, `mmq.h:190-196` and `226-232`. -/
def State.alloc {M : Type} (c : Cfg) (s : State M) (t : Nat) (m : M) (us : Int) : State M :=
  let idx : IdxTs := ⟨s.last.index + 1, us⟩
  { s with last := idx, head := inc c s.head
           slots := upd s.slots s.head { s.slots s.head with status := .imported, idx := idx }
           pubs := s.pubs.set t (.importing s.head m idx), accepted := s.accepted ++ [(m, idx)] }

/-- `notify_all`: every sleeping publisher and the consumer, if it sleeps, wake up. -/
def wakeP {M : Type} : PPc M → PPc M
  | .asleep m ts => .awake m ts
  | p => p
def wakeC : CPc → CPc
  | .asleep => .awake
  | p => p
def State.notifyAll {M : Type} (s : State M) : State M :=
  { s with pubs := s.pubs.map wakeP, cons := wakeC s.cons }

/-- Line 228: `timestamp.count() >= 0 ? timestamp : Now()`. -/
def stamp (ts now : Int) : Int := if ts ≥ 0 then ts else now

/-- First critical section of `Publish`: `CircularBufferAllocate`, `mmq.h:178-202` (drop) and `205-234` (block). -/
def State.publish {M : Type} (c : Cfg) (s : State M) (t : Nat) (m : M) (ts now : Int) : State M :=
  if c.drop then
    if (s.slots s.head).status = .free then
      if ¬ ts > s.last.us then { s with rets := s.rets ++ [.thrown m (s.last.us + 1) ts] }
      else s.alloc c t m ts
    else { s with rets := s.rets ++ [.dropped m] }
  else if s.destructing then { s with rets := s.rets ++ [.dropped m] }
  else if ¬ ts > s.last.us then { s with rets := s.rets ++ [.thrown m (s.last.us + 1) ts] }
  else if (s.slots s.head).status = .free then s.alloc c t m (stamp ts now)
  else { s with pubs := s.pubs.set t (.asleep m ts) }

/-- A publisher that was woken re-evaluates the predicate of line 220, then line 222. -/
def State.resume {M : Type} (c : Cfg) (s : State M) (t : Nat) (m : M) (ts now : Int) : State M :=
  if s.destructing then { s with pubs := s.pubs.set t .idle, rets := s.rets ++ [.dropped m] }
  else if (s.slots s.head).status = .free then s.alloc c t m (stamp ts now)
  else { s with pubs := s.pubs.set t (.asleep m ts) }

/-- The consumer evaluates the predicate of line 147 with the mutex held, then lines 148-152. -/
def State.consume {M : Type} (s : State M) : State M :=
  if s.destructing then { s with cons := .terminated }
  else if (s.slots s.tail).status = .ready then
    { s with slots := upd s.slots s.tail { s.slots s.tail with status := .exported }, cons := .exporting s.last }
  else { s with cons := .asleep }

/-- Scheduler choices. `now` is what `Now()` would return in that step. -/
inductive Act (M : Type) where
  | publish (t : Nat) (m : M) (ts now : Int)  -- an idle thread calls `Publish`
  | spurious (t : Nat)                        -- spurious wake-up of a publisher
  | resume (t : Nat) (now : Int)
  | write (t : Nat)
  | commit (t : Nat)
  | ret (t : Nat)
  | spuriousC                                 -- spurious wake-up of the consumer
  | consume
  | «export»                                  -- the call of the consumer
  | release                                   -- free the slot
  | notify (t : Option Nat)                   -- `notify_one`, with the waiter it picks, if there is any
  | destruct                                  -- the destructor sets `destructing_`, line 88
  deriving DecidableEq, Repr

def PPc.isAsleep {M : Type} : PPc M → Bool
  | .asleep _ _ => true
  | _ => false
def PPc.isAwake {M : Type} : PPc M → Bool
  | .awake _ _ => true
  | _ => false

/-- One action; `none` when it is not enabled. -/
def step {M : Type} (c : Cfg) (s : State M) : Act M → Option (State M)
  | .publish t m ts now =>
    match s.pubs[t]? with
    | some .idle => some (s.publish c t m ts now)
    | _ => none
  | .spurious t =>
    match s.pubs[t]? with
    | some (.asleep m ts) => some { s with pubs := s.pubs.set t (.awake m ts) }
    | _ => none
  | .resume t now =>
    match s.pubs[t]? with
    | some (.awake m ts) => some (s.resume c t m ts now)
    | _ => none
  | .write t =>
    match s.pubs[t]? with
    | some (.importing i m own) =>
      some { s with slots := upd s.slots i { s.slots i with body := m }, pubs := s.pubs.set t (.written i m own) }
    | _ => none
  | .commit t =>
    -- `CircularBufferCommit`, `mmq.h:236-242`
    match s.pubs[t]? with
    | some (.written i m own) =>
      some ({ s with slots := upd s.slots i { s.slots i with status := .ready }
                     pubs := s.pubs.set t (.committed i m own) } : State M).notifyAll
    | _ => none
  | .ret t =>
    -- `return circular_buffer_[index.second].index_timestamp`, `mmq.h:108`, outside the mutex
    match s.pubs[t]? with
    | some (.committed i m own) =>
      some { s with pubs := s.pubs.set t .idle, rets := s.rets ++ [.value m own (s.slots i).idx] }
    | _ => none
  | .spuriousC => if s.cons = .asleep then some { s with cons := .awake } else none
  | .consume => if s.cons = .awake then some s.consume else none
  | .export =>
    match s.cons with
    | .exporting last =>
      some { s with cons := .exported
                    delivered := s.delivered ++ [((s.slots s.tail).body, (s.slots s.tail).idx, last)] }
    | _ => none
  | .release =>
    if s.cons = .exported then
      some { s with slots := upd s.slots s.tail { s.slots s.tail with status := .free }, tail := inc c s.tail
                    cons := .freed, frees := s.frees + 1 }
    else none
  | .notify t =>
    if s.cons = .freed then
      match t with
      | none => if s.pubs.any PPc.isAsleep then none else some { s with cons := .awake }
      | some t =>
        match s.pubs[t]? with
        | some (.asleep m ts) => some { s with pubs := s.pubs.set t (.awake m ts), cons := .awake }
        | _ => none
    else none
  | .destruct =>
    if s.destructing then none else some ({ s with destructing := true } : State M).notifyAll

/-- A schedule: all its actions must be enabled in turn. -/
def run {M : Type} (c : Cfg) : State M → List (Act M) → Option (State M)
  | s, [] => some s
  | s, a :: as =>
    match step c s a with
    | some s' => run c s' as
    | none => none

/-- `s` is reachable with `n` publisher threads. -/
def Reachable {M : Type} (c : Cfg) (m0 : M) (n : Nat) (s : State M) : Prop :=
  ∃ as, run c (init m0 n) as = some s

end Current.MMQ
