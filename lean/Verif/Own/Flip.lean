/-!
Model of the stream's publisher ownership: `stream/stream.h:199-264`, `stream/stream_impl.h:124-163`.

The publisher objects a stream creates one after another are numbered (`gen`). A *handle* is a `Borrowed<publisher_t>` in the
hands of some thread, obtained from `BorrowPublisher()`, `BecomeFollowingStream()`, or by copying or moving another
handle. A *reference* is what `Publisher()` returns: a C++ reference to the stream's own `borrowable_publisher_`.

`Owned<publisher_t>`'s destructor is the action `flipWait`: it completes when no borrower of the object is left, which is what
`Verif/Own/Props.lean` proves of it (`alive_while_borrowed`, `destructor_finishes_partial`). The stream's own `borrowable_publisher_` is
the first to go (`stream.h:205`), before the wait.

All methods take `publishing_mutex` (`MutexLockStatus::NeedToLock`, the default); it is free unless a flip is in progress (`flip`), since every
other critical section is a single action. A call of `Publish` is two actions: enter (the handle is then busy: its thread
is inside the call) and perform, which needs the mutex.
-/
namespace Current.Own.Flip

/-- Whether the handle's thread is inside `Publish`. -/
structure Handle where
  gen : Nat          -- the publisher object it refers to
  busy : Bool        -- inside `Publish`, waiting for the mutex
  fromStream : Bool  -- history variable: comes from `BorrowPublisher()`, not from `BecomeFollowingStream()`
  deriving DecidableEq, Repr

inductive FlipPc where
  | waiting        -- `stream.h:206`: inside the destructor of `owned_publisher_`
  | create         -- `stream.h:208`
  deriving DecidableEq, Repr

/-- `BecomeMasterStream` or `BecomeFollowingStream` in progress. -/
structure Flip where
  master : Bool
  pc : FlipPc
  deriving DecidableEq, Repr

/-- What callers observe. -/
inductive Ev where
  | published (gen : Nat) (fromStream : Bool)   -- an entry was added to the stream, through a handle of that publisher
  | publishedRef (gen : Nat)                    -- the same, through a reference
  | refused                                     -- `PublisherNotAvailableException`
  | flipping                                    -- a flip got the mutex
  | flipped (master : Bool) (gen : Nat)         -- a flip returned; `gen` is the new publisher
  | dangling                                    -- undefined behaviour: a reference to a destroyed object was used
  deriving DecidableEq, Repr

structure St where
  gen : Nat
  borrowable : Bool              -- `Exists(borrowable_publisher_)`
  h : List (Nat × Handle)
  ref : List (Nat × Nat)         -- references held by callers: generation of `borrowable_publisher_` they point to
  flip : Option Flip
  log : List Ev
  deriving DecidableEq, Repr

/-- A new stream, `stream.h:183-197`: master. -/
def St.init : St := { gen := 0, borrowable := true, h := [], ref := [], flip := none, log := [] }

def del {α : Type} (f : List (Nat × α)) (i : Nat) : List (Nat × α) := f.filter (·.1 ≠ i)
def set {α : Type} (f : List (Nat × α)) (i : Nat) (v : α) : List (Nat × α) := (i, v) :: del f i

inductive Act where
  | borrow (dst : Nat)               -- `BorrowPublisher()`, `stream.h:229-237`
  | copy (src dst : Nat)             -- `Borrowed` from a `Borrowed`
  | move (src dst : Nat)
  | release (src : Nat)
  | enterPublish (src : Nat)         -- calls `(*handle)->Publish(...)`
  | publish (src : Nat)              -- and gets the mutex
  | getRef (r : Nat)                 -- `Publisher()`, `stream.h:215-223`
  | publishRef (r : Nat)             -- `->Publish(...)` through the reference
  | becomeMaster                     -- `stream.h:249-253`
  | becomeFollowing                  -- `stream.h:260-264`
  | flipWait                         -- the destructor of `owned_publisher_` returns, `stream.h:206`
  | flipDone (dst : Nat)             -- `stream.h:208-209` and the return; `dst`: the handle `BecomeFollowingStream` returns
  deriving DecidableEq, Repr

def step (s : St) : Act → Option St
  | .borrow dst =>
    if s.flip ≠ none ∨ s.h.lookup dst ≠ none then none
    else if s.borrowable then some { s with h := set s.h dst ⟨s.gen, false, true⟩ }
    else some { s with log := s.log ++ [.refused] }
  | .copy src dst =>
    if s.h.lookup dst ≠ none then none
    else match s.h.lookup src with
      | some x => if x.busy then none else some { s with h := set s.h dst x }
      | none => none
  | .move src dst =>
    if s.h.lookup dst ≠ none then none
    else match s.h.lookup src with
      | some x => if x.busy then none else some { s with h := set (del s.h src) dst x }
      | none => none
  | .release src =>
    match s.h.lookup src with
    | some x => if x.busy then none else some { s with h := del s.h src }
    | none => none
  | .enterPublish src =>
    match s.h.lookup src with
    | some x => if x.busy then none else some { s with h := set s.h src { x with busy := true } }
    | none => none
  | .publish src =>
    if s.flip ≠ none then none
    else match s.h.lookup src with
      | some x =>
        if x.busy then some { s with h := set s.h src { x with busy := false }, log := s.log ++ [.published x.gen x.fromStream] }
        else none
      | none => none
  | .getRef r =>
    if s.flip ≠ none then none
    else if s.borrowable then some { s with ref := set s.ref r s.gen }
    else some { s with log := s.log ++ [.refused] }
  | .publishRef r =>
    match s.ref.lookup r with
    | some g =>
      if s.borrowable = true ∧ g = s.gen then some { s with log := s.log ++ [.publishedRef g] }
      else some { s with log := s.log ++ [.dangling] }
    | none => none
  | .becomeMaster =>
    if s.flip ≠ none then none
    else some { s with borrowable := false, flip := some ⟨true, .waiting⟩, log := s.log ++ [.flipping] }
  | .becomeFollowing =>
    if s.flip ≠ none then none
    else some { s with borrowable := false, flip := some ⟨false, .waiting⟩, log := s.log ++ [.flipping] }
  | .flipWait =>
    match s.flip with
    | some ⟨m, .waiting⟩ => if ∀ x ∈ s.h, x.2.gen ≠ s.gen then some { s with flip := some ⟨m, .create⟩ } else none
    | _ => none
  | .flipDone dst =>
    match s.flip with
    | some ⟨true, .create⟩ =>
      some { s with gen := s.gen + 1, borrowable := true, flip := none, log := s.log ++ [.flipped true (s.gen + 1)] }
    | some ⟨false, .create⟩ =>
      some { s with gen := s.gen + 1, flip := none, h := set s.h dst ⟨s.gen + 1, false, false⟩, log := s.log ++ [.flipped false (s.gen + 1)] }
    | _ => none

def run : St → List Act → Option St
  | s, [] => some s
  | s, a :: as =>
    match step s a with
    | some s' => run s' as
    | none => none

def Reachable (s : St) : Prop := ∃ as, run St.init as = some s

/-- `IsMasterStream()`, `stream.h:240-244`. -/
def St.isMaster (s : St) : Bool := s.borrowable

end Current.Own.Flip
