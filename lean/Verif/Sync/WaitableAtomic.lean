/-
`WaitableAtomic<T>` and `WaitableAtomic<T, true>` (bricks/sync/waitable_atomic.h:106-370), under every
interleaving of any number of threads and every spurious wake-up and time-out.

`D` is the type of the data, `P` a type of names of predicates and `holds` what they mean, both arbitrary.
Granularity: acquiring the mutex, every write through an accessor, the notification, releasing the mutex,
every test of a waiting predicate, and every `notify_one` outside the mutex are separate steps. Critical
sections that run no user code (the reference counter, the flag `destructing_`) are one step, taken only
when the mutex is free.
-/
namespace Current.Sync

/-- Where a thread is. -/
inductive Pc (D P : Type) where
  | idle
  /-- constructing a mutable accessor: `ScopedUniqueLock(parent->data_mutex_)` (waitable_atomic.h:152-153) -/
  | muWant
  /-- owns a mutable accessor; `start` (ghost) is the data it found; `quiet` is `mark_as_unmodified_` -/
  | muHold (start : D) (quiet : Bool)
  /-- `~MutableAccessorDoesNotify()` has run (line 131-135), `~ScopedUniqueLock()` has not -/
  | muDone
  /-- constructing / owning an immutable accessor -/
  | rdWant
  | rdHold
  /-- `Wait` / `WaitFor`, before taking the mutex; `final`: the time-out has expired -/
  | wWant (p : P) (timed final : Bool)
  /-- with the mutex, about to test the predicate -/
  | wHold (p : P) (timed final : Bool)
  /-- inside `data_condition_variable_.wait(lock)`, mutex released -/
  | wAsleep (p : P) (timed : Bool)
  /-- with the mutex, about to return `r` -/
  | wRet (p : P) (timed r : Bool)
  /-- a client has incremented / decremented the counter, `cv_.notify_one()` is still to come -/
  | cIncd
  | cDecd
  /-- `~IntrusiveImpl()`: before setting `destructing_`, before `RefCounterDecrease`, before its
  `notify_one`, before the check of the counter, asleep on `cv_`, finished -/
  | d1
  | d2
  | d3
  | d4
  | dAsleep
  | dGone
deriving DecidableEq

inductive Ev (D P : Type) where
  /-- an immutable accessor was released; it saw `d` -/
  | read (t : Nat) (d : D)
  /-- a mutable accessor was released leaving `d` -/
  | wrote (t : Nat) (d : D)
  /-- `Wait` / `WaitFor` returned `r` while the data was `d` and the flag `destr` -/
  | waited (t : Nat) (p : P) (timed r : Bool) (d : D) (destr : Bool)
  /-- `RegisterScopedClient()` gave a live client or a null one -/
  | registered (t : Nat) (ok : Bool)
  /-- a live client has given up its reference -/
  | dropped (t : Nat)
  /-- the destructor of the waitable atomic has returned -/
  | destructed (t : Nat)
deriving DecidableEq

/-- waitable_atomic.h:246-249, 355-360, and the threads; `own`, `dtor`, `clients`, `broken`, `hist` are
ghosts. -/
structure St (D P : Type) where
  data : D
  lock : Option Nat
  destructing : Bool
  ref : Nat
  pc : Nat → Pc D P
  /-- the reference of the object itself (constructor, line 270) is still counted -/
  own : Bool
  /-- the thread that runs the destructor -/
  dtor : Option Nat
  /-- live clients that have not decremented -/
  clients : Nat
  /-- some accessor was marked as unmodified though it changed the data -/
  broken : Bool
  hist : List (Ev D P)

variable {D P : Type}

/-- waitable_atomic.h:265-277: the constructor calls `RefCounterTryIncrease()`. -/
def init (d : D) : St D P := ⟨d, none, false, 1, fun _ => .idle, true, none, 0, false, []⟩

def upd (f : Nat → Pc D P) (t : Nat) (p : Pc D P) : Nat → Pc D P := fun u => if u = t then p else f u

/-- `data_condition_variable_.notify_all()` (line 177): every sleeper goes for the mutex. -/
def wakeAll (f : Nat → Pc D P) : Nat → Pc D P := fun u => match f u with
  | .wAsleep p timed => .wWant p timed false
  | q => q

/-- `cv_.notify_one()`: only the destructor ever waits on `cv_`. -/
def wakeDtor (f : Nat → Pc D P) : Nat → Pc D P := fun u => match f u with
  | .dAsleep => .d4
  | q => q

inductive Act (D P : Type) where
  /-- `MutableScopedAccessor()`, `MutableUse`, `PotentiallyMutableUse`, `SetValue`, `SetValueIf` begin -/
  | mutable (t : Nat)
  /-- `ImmutableScopedAccessor()`, `ImmutableUse`, `GetValue` begin -/
  | immutable (t : Nat)
  /-- `Wait(p)` / `WaitFor(p, duration)` begin -/
  | wait (t : Nat) (p : P) (timed : Bool)
  /-- the mutex is granted -/
  | acquire (t : Nat)
  /-- a write through the accessor -/
  | write (t : Nat) (d : D)
  /-- `MarkAsUnmodified()` -/
  | mark (t : Nat)
  /-- `~MutableAccessorDoesNotify()` -/
  | finish (t : Nat)
  /-- the waiting thread tests its condition with the mutex held -/
  | check (t : Nat)
  /-- a sleeper wakes up without having been notified -/
  | spurious (t : Nat)
  /-- the duration of a `WaitFor` expires -/
  | timeout (t : Nat)
  /-- the mutex is released, the call returns -/
  | release (t : Nat)
  /-- `RegisterScopedClient()` up to the end of its critical section -/
  | register (t : Nat)
  /-- `~IntrusiveClient()` up to the end of its critical section -/
  | drop (t : Nat)
  /-- `cv_.notify_one()` -/
  | notify (t : Nat)
  /-- `~IntrusiveImpl()` begins / makes its next step -/
  | destroy (t : Nat)
  | dstep (t : Nat)
deriving DecidableEq

/-- What a waiting thread waits for: the predicate (line 184-191 and, for `WaitFor`, 194-202), and in the
intrusive `Wait` also the destruction of the object (line 305-318). The intrusive class inherits `WaitFor`,
which does not look at `destructing_`. -/
def cond (holds : P → D → Bool) (intrusive : Bool) (s : St D P) (p : P) (timed : Bool) : Bool :=
  holds p s.data || (intrusive && !timed && s.destructing)

/-- The value returned: `true` (line 190), `predicate(data)` (line 199), `!destructing_` (line 316). -/
def result (holds : P → D → Bool) (intrusive : Bool) (s : St D P) (p : P) (timed : Bool) : Bool :=
  if timed then holds p s.data else if intrusive then !s.destructing else true

/-- One step. `none`: not enabled. -/
def step [DecidableEq D] (holds : P → D → Bool) (intrusive : Bool) (s : St D P) : Act D P → Option (St D P)
  | .mutable t => match s.pc t with
    | .idle => some { s with pc := upd s.pc t .muWant }
    | _ => none
  | .immutable t => match s.pc t with
    | .idle => some { s with pc := upd s.pc t .rdWant }
    | _ => none
  | .wait t p timed => match s.pc t with
    | .idle => some { s with pc := upd s.pc t (.wWant p timed false) }
    | _ => none
  | .acquire t =>
    if s.lock = none then
      match s.pc t with
      | .muWant => some { s with lock := some t, pc := upd s.pc t (.muHold s.data false) }
      | .rdWant => some { s with lock := some t, pc := upd s.pc t .rdHold }
      | .wWant p timed final => some { s with lock := some t, pc := upd s.pc t (.wHold p timed final) }
      | _ => none
    else none
  | .write t d => match s.pc t with
    | .muHold _ _ => some { s with data := d }
    | _ => none
  | .mark t => match s.pc t with
    | .muHold start _ => some { s with pc := upd s.pc t (.muHold start true) }
    | _ => none
  | .finish t => match s.pc t with
    | .muHold start quiet =>
      some { s with
        pc := if !quiet then wakeAll (upd s.pc t .muDone) else upd s.pc t .muDone
        broken := s.broken || (quiet && !decide (s.data = start)) }
    | _ => none
  | .check t => match s.pc t with
    | .wHold p timed final =>
      if cond holds intrusive s p timed || final then
        some { s with pc := upd s.pc t (.wRet p timed (result holds intrusive s p timed)) }
      else some { s with lock := none, pc := upd s.pc t (.wAsleep p timed) }
    | _ => none
  | .spurious t => match s.pc t with
    | .wAsleep p timed => some { s with pc := upd s.pc t (.wWant p timed false) }
    | .dAsleep => some { s with pc := upd s.pc t .d4 }
    | _ => none
  | .timeout t => match s.pc t with
    | .wAsleep p true => some { s with pc := upd s.pc t (.wWant p true true) }
    | _ => none
  | .release t => match s.pc t with
    | .muDone => some { s with lock := none, pc := upd s.pc t .idle, hist := s.hist ++ [.wrote t s.data] }
    | .rdHold => some { s with lock := none, pc := upd s.pc t .idle, hist := s.hist ++ [.read t s.data] }
    | .wRet p timed r => some { s with
        lock := none, pc := upd s.pc t .idle
        hist := s.hist ++ [.waited t p timed r s.data s.destructing] }
    | _ => none
  | .register t =>
    if intrusive = true ∧ s.lock = none then
      match s.pc t with
      | .idle =>
        if s.destructing then some { s with hist := s.hist ++ [.registered t false] }
        else some { s with
          ref := s.ref + 1, clients := s.clients + 1, pc := upd s.pc t .cIncd
          hist := s.hist ++ [.registered t true] }
      | _ => none
    else none
  | .drop t =>
    if intrusive = true ∧ s.lock = none ∧ 0 < s.clients then
      match s.pc t with
      | .idle => some { s with
          ref := s.ref - 1, clients := s.clients - 1, pc := upd s.pc t .cDecd
          hist := s.hist ++ [.dropped t] }
      | _ => none
    else none
  | .notify t => match s.pc t with
    | .cIncd => some { s with pc := wakeDtor (upd s.pc t .idle) }
    | .cDecd => some { s with pc := wakeDtor (upd s.pc t .idle) }
    | _ => none
  | .destroy t =>
    if intrusive = true ∧ s.dtor = none then
      match s.pc t with
      | .idle => some { s with dtor := some t, pc := upd s.pc t .d1 }
      | _ => none
    else none
  | .dstep t => match s.pc t with
    | .d1 =>
      if s.lock = none then some { s with destructing := true, pc := wakeAll (upd s.pc t .d2) } else none
    | .d2 =>
      if s.lock = none then some { s with ref := s.ref - 1, own := false, pc := upd s.pc t .d3 } else none
    | .d3 => some { s with pc := upd s.pc t .d4 }
    | .d4 =>
      if s.lock = none then
        if s.ref > 0 then some { s with pc := upd s.pc t .dAsleep }
        else some { s with pc := upd s.pc t .dGone, hist := s.hist ++ [.destructed t] }
      else none
    | _ => none

def run [DecidableEq D] (holds : P → D → Bool) (intrusive : Bool) (s : St D P) : List (Act D P) → Option (St D P)
  | [] => some s
  | a :: as => match step holds intrusive s a with
    | some s' => run holds intrusive s' as
    | none => none

/-- The states a program can reach. -/
def Reach [DecidableEq D] (holds : P → D → Bool) (intrusive : Bool) (d : D) (s : St D P) : Prop :=
  ∃ as, run holds intrusive (init d) as = some s

end Current.Sync
