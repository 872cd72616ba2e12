/-!
Who may publish into the stream of a `MasterFlipController`, under concurrent calls (C116).

`stream/replicator.h:520-872`: `FollowRemoteStream`, `FlipToMaster`, `MasterFlipRequest` (a flip requested by another node), `ExposeViaHTTP` and `StopExposingViaHTTP`, on the publisher of
the stream (`stream/stream.h:199-264`): a stream that becomes a master or a follower waits until nobody holds the publisher any more.

Any number of threads, any interleaving; `mutex_` is `lock`. The environment decides what the HTTP calls and the checks on logs, keys and clocks say (C30 says what they are), and who else
borrows the publisher of a master stream (`ext`).

Simplified: the waiting of `RecreatePublisher` is a step that is possible only when nobody holds the publisher (that it keeps `publishing_mutex` while it waits is in C24). `flip_started_callback_`
and the like are left out.
-/

namespace Current.Ctl

inductive Role where
  /-- The stream gives its publisher to whoever asks. -/
  | master
  /-- `borrowed_publisher_` holds it, after a flip requested by another node. -/
  | yielded
  /-- `remote_follower_` holds it. -/
  | following
  deriving DecidableEq, Repr

/-- What a call returns, throws or responds. -/
inductive Res where
  | followed | followFailed | alreadyFollowing
  | flipped | flipFailed | alreadyMaster | followsNobody
  | reqYielded | reqUnavailable | reqRefused | reqRemoteRefused | reqDiffFailed
  | exposed | alreadyExposed | stopped | notExposed
  deriving DecidableEq, Repr

/-- Where a thread is. `since` is the role when the call took effect: for what is reported at the end. -/
inductive Pc where
  | idle
  /-- `FollowRemoteStream`, past the check of line 578, about to lock. -/
  | f2
  /-- Has the mutex; line 583. -/
  | f3
  /-- Holds the publisher; in the constructor of `RemoteStreamFollower`, an HTTP call. -/
  | f4 (has : Bool)
  /-- In the `catch`, lines 592-600. -/
  | f5 (has : Bool)
  /-- `FlipToMaster`, not a master; line 608. -/
  | m2
  /-- In `FlipRemoteStreamFromMasterToFollower`, line 611. -/
  | m3
  /-- The remote has yielded; line 612. -/
  | m4
  /-- Line 613. -/
  | m5
  /-- `MasterFlipRequest`, past the first checks, about to lock; line 666. -/
  | r2
  /-- In `FlipRemoteStreamFromMasterToFollower` of the node this one follows; line 687. -/
  | r3
  /-- The remote has yielded; line 688. -/
  | r3a
  /-- Line 689. -/
  | r3b
  /-- About to become a follower; line 706. -/
  | r4 (since : Role)
  /-- In `ValidateAndSendDiff`; line 709. -/
  | r5 (since : Role)
  /-- The diff could not be sent; lines 712-713. -/
  | r6 (since : Role)
  /-- `ExposeViaHTTP`, about to lock. -/
  | e2
  /-- `StopExposingViaHTTP`, about to lock. -/
  | s2
  deriving DecidableEq, Repr

/-- A call has returned: the thread, the result, the role when it took effect and the role at the end (none: in between). -/
structure Ev where
  t : Nat
  res : Res
  before : Option Role
  after : Option Role
  deriving DecidableEq, Repr

structure State where
  /-- `borrowable_publisher_` of the stream exists. -/
  master : Bool := true
  /-- `borrowed_publisher_` holds the publisher. -/
  borrowed : Bool := false
  /-- `remote_follower_` exists, and its replicator holds the publisher. -/
  follower : Bool := false
  /-- Borrowed publishers in other hands. -/
  ext : Nat := 0
  /-- Threads that hold the publisher in a temporary (`f4`). -/
  temp : Nat := 0
  isExposed : Bool := false
  lock : Option Nat := none
  pc : Nat → Pc := fun _ => .idle
  /-- A null `remote_follower_` was used. -/
  crashed : Bool := false
  log : List Ev := []

/-- The role, if the stream is not between two roles. -/
def State.role (s : State) : Option Role :=
  match s.master, s.borrowed, s.follower with
  | true, false, false => some .master
  | false, true, false => some .yielded
  | false, false, true => some .following
  | _, _, _ => none

inductive Op where
  | follow | flip | request | expose | stop
  deriving DecidableEq, Repr

inductive Act where
  /-- A thread calls a method; for `.request`, the request passes the first checks. -/
  | call (t : Nat) (o : Op)
  /-- The thread goes on. `ok`: what the HTTP call or the check says, where there is one. -/
  | go (t : Nat) (ok : Bool)
  /-- Somebody borrows the publisher of the master stream. -/
  | borrow
  /-- And gives it up. -/
  | release
  deriving DecidableEq, Repr

def State.set (s : State) (t : Nat) (p : Pc) : State := { s with pc := fun u => if u = t then p else s.pc u }

/-- The call returns. -/
def State.ret (s : State) (t : Nat) (r : Res) (before : Option Role) : State := { (s.set t .idle) with log := ⟨t, r, before, s.role⟩ :: s.log }

/-- Nobody holds the publisher: `RecreatePublisher` returns, `stream.h:202-210`. -/
def State.free (s : State) : Bool := !s.borrowed && !s.follower && s.ext == 0 && s.temp == 0

def State.unlock (s : State) : State := { s with lock := none }

/-- One step. -/
def step (s : State) : Act → Option State
  | .borrow => if s.master then some { s with ext := s.ext + 1 } else none
  | .release => if s.ext = 0 then none else some { s with ext := s.ext - 1 }
  | .call t o =>
      if s.pc t ≠ .idle then none
      else match o with
      | .follow => if s.follower then some (s.ret t .alreadyFollowing s.role) else some (s.set t .f2)  -- 578-580
      | .flip => if s.master then some (s.ret t .alreadyMaster s.role) else some (s.set t .m2)  -- 605-607
      | .request => some (s.set t .r2)
      | .expose => some (s.set t .e2)
      | .stop => some (s.set t .s2)
  | .go t ok =>
      match s.pc t with
      | .idle => none
      | .f2 => if s.lock = none then some { (s.set t .f3) with lock := some t } else none
      | .f3 =>  -- 583-586
          if s.borrowed then some { (s.set t (.f4 true)) with borrowed := false, temp := s.temp + 1 }
          else if s.free then some { (s.set t (.f4 false)) with master := false, temp := s.temp + 1 } else none
      | .f4 has =>  -- 585-591
          if ok then some ({ s with follower := true, borrowed := false, temp := s.temp - 1 }.unlock.ret t .followed (some (if has then .yielded else .master)))
          else some { (s.set t (.f5 has)) with temp := s.temp - 1 }
      | .f5 has =>  -- 592-600
          if s.free then
            let before := some (if has then Role.yielded else Role.master)
            (if has then some ({ s with master := false, borrowed := true }.unlock.ret t .followFailed before)
             else some ({ s with master := true }.unlock.ret t .followFailed before))
          else none
      | .m2 => if s.follower then some (s.set t .m3) else some (s.ret t .followsNobody s.role)  -- 608-610
      | .m3 =>
          if !s.follower then some { s with crashed := true }
          else if ok then some (s.set t .m4) else some (s.ret t .flipFailed s.role)
      | .m4 => some { (s.set t .m5) with follower := false }
      | .m5 => if s.free then some ({ s with master := true }.ret t .flipped (some .following)) else none
      | .r2 =>  -- 666-697; `ok` says whether the checks on the clock and, without a remote, on the key pass
          if s.lock ≠ none then none
          else if !s.isExposed || s.borrowed then some (s.ret t .reqUnavailable s.role)
          else if !ok then some (s.ret t .reqRefused s.role)
          else if s.follower then some { (s.set t .r3) with lock := some t }
          else some { (s.set t (.r4 .master)) with lock := some t }
      | .r3 =>
          if !s.follower then some { s with crashed := true }
          else if ok then some (s.set t .r3a) else some (s.unlock.ret t .reqRemoteRefused s.role)
      | .r3a => some { (s.set t .r3b) with follower := false }
      | .r3b => if s.free then some { (s.set t (.r4 .following)) with master := true } else none
      | .r4 since => if s.free then some { (s.set t (.r5 since)) with master := false, borrowed := true } else none
      | .r5 since =>
          if ok then some (s.unlock.ret t .reqYielded (some since)) else some { (s.set t (.r6 since)) with borrowed := false }
      | .r6 since => if s.free then some ({ s with master := true }.unlock.ret t .reqDiffFailed (some since)) else none
      | .e2 =>  -- 549-565
          if s.lock ≠ none then none
          else if s.isExposed then some (s.ret t .alreadyExposed s.role) else some ({ s with isExposed := true }.ret t .exposed s.role)
      | .s2 =>  -- 568-573
          if s.lock ≠ none then none
          else if s.isExposed then some ({ s with isExposed := false }.ret t .stopped s.role) else some (s.ret t .notExposed s.role)

def run : State → List Act → Option State
  | s, [] => some s
  | s, a :: as => (step s a).bind fun s' => run s' as

end Current.Ctl
