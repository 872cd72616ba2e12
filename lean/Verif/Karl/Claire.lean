/-!
# Claire: the keepalive thread, `Register` and `ForceSendKeepalive`

Models `karl/claire.h`: the destructor (128-149), `Register` (175-197), `ForceSendKeepalive` (201-229), `StartKeepaliveThread`
(333-357), `SendKeepaliveToKarl` (362-399) as far as `last_keepalive_attempt_result_.timestamp` is concerned, `KeepaliveThread`
(408-457).  The non-mock build.

`keepalive_mutex_` is held by the keepalive thread all the time except inside `wait_for` and at the top of the loop, and by
`Register` while it waits for Karl's confirmation; the other critical sections are single steps that are possible when nobody
holds it.  Times are microseconds as naturals, the clock is the monotonic `current::time::Now` (C52), `wait_for` sleeps by the
same clock.  The test of `destructing_` at the top of the loop and taking the mutex are one step; so are putting
`keepalive_thread_force_wakeup_` back and the beginning of the attempt (at most more attempts are sent for it in the code: the
flag can be set once more in between).  Starting the thread is one step: `StartKeepaliveThread` waits for it to run.
How an attempt ends does not matter to any of this: `SendKeepaliveToKarl` in the thread has all of its exceptions caught,
provided that the user's status generator does not throw.
-/
namespace Current.Claire

/-- Where the keepalive thread is. -/
inductive Loop
  | off                   -- has not been started
  | top                   -- about to test `destructing_` and take the mutex, 409-410
  | wait (deadline : Nat) -- inside `wait_for`, 422
  | send                  -- in `SendKeepaliveToKarl`, holding the mutex, 436
  | done                  -- the loop has ended
  deriving DecidableEq, Repr

/-- Where a call of `ForceSendKeepalive` is; `wait` is its argument, `mark` is a ghost: how many attempts had begun when it
was called. -/
inductive Call
  | idle
  | begun (wait : Bool) (mark : Nat)     -- has seen to it that the thread runs, 202-207
  | reset (mark : Nat)                   -- has put `keepalive_sent_` back, 210-213 (`wait` only)
  | forced (wait : Bool) (mark : Nat)    -- has set `keepalive_thread_force_wakeup_`, 215
  | told (wait : Bool) (mark : Nat)      -- has notified, 216-219
  | returned (wait : Bool) (mark : Nat)
  deriving DecidableEq, Repr

structure State where
  now : Nat
  loop : Loop
  /-- `keepalive_thread_running_` -/
  running : Bool
  /-- `keepalive_thread_force_wakeup_` -/
  force : Bool
  /-- `keepalive_sent_` -/
  sent : Bool
  /-- `last_keepalive_attempt_result_.timestamp` -/
  last : Nat
  /-- the condition variable has been notified since the thread began to wait on it -/
  notified : Bool
  /-- `Register` holds the mutex and waits for Karl -/
  registering : Bool
  /-- `in_beacon_mode_` -/
  beacon : Bool
  calls : Nat → Call
  /-- `destructing_` -/
  destructing : Bool
  /-- the destructor has notified -/
  dtorNotified : Bool
  /-- `std::exit(-1)` -/
  exited : Bool
  /-- ghost: the attempts of the thread, the last first: when it began, and whether it was asked for -/
  log : List (Nat × Bool)
  /-- ghost: how many attempts have begun and ended, those of `Register` included -/
  began : Nat
  ended : Nat
  /-- ghost: when the thread was started, or the last of its attempts ended -/
  freeAt : Nat
  /-- ghost: microseconds since then in which the thread was not asleep -/
  lag : Nat

def start (now : Nat) : State :=
  { now := now, loop := .off, running := false, force := false, sent := false, last := 0, notified := false,
    registering := false, beacon := false, calls := fun _ => .idle, destructing := false, dtorNotified := false,
    exited := false, log := [], began := 0, ended := 0, freeAt := now, lag := 0 }

inductive Action
  | tick
  | plan (r : Nat) | wake | timeout | sendEnd
  | register (confirm : Bool) | registered (ok : Bool)
  | call (i : Nat) (wait : Bool) | reset (i : Nat) | force (i : Nat) | notify (i : Nat) | ret (i : Nat)
  | destruct | dtorNotify

/-- nobody holds `keepalive_mutex_` -/
def free (s : State) : Bool := !s.registering && decide (s.loop ≠ .send)

/-- the thread is blocked on the condition variable, nothing has notified it and it is not yet time -/
def asleep (s : State) : Bool :=
  match s.loop with
  | .wait d => !s.notified && decide (s.now < d)
  | _ => false

/-- `claire.h:427-436`: after `wait_for` -/
def go (s : State) : State :=
  if s.destructing then { s with loop := .done } else
    { s with loop := .send, force := false, last := s.now, log := (s.now, s.force) :: s.log, began := s.began + 1,
             notified := false }

/-- `StartKeepaliveThread`, `claire.h:333-349`, when the thread is not running -/
def startThread (s : State) : State :=
  if s.destructing then s else { s with loop := .top, running := true, freeAt := s.now, lag := 0 }

def setCall (s : State) (i : Nat) (c : Call) : State := { s with calls := fun j => if j = i then c else s.calls j }

/-- `StartKeepaliveThread` as `Register` calls it, and `in_beacon_mode_ = true`, `claire.h:193-194` -/
def regStart (s : State) : State :=
  if s.destructing then { s with beacon := true, registering := false }
  else if s.running then { s with exited := true }
  else { startThread s with beacon := true, registering := false }

/-- `lo` and `hi` are `20e6 * 0.9` and `20e6 * 1.1`. -/
def step (lo hi : Nat) (s : State) (a : Action) : Option State :=
  if s.exited then none else
  match a with
  | .tick => some { s with now := s.now + 1, lag := if asleep s then s.lag else s.lag + 1 }
  -- `claire.h:409-436`, `r` being the random interval
  | .plan r =>
    if s.loop = .top ∧ lo ≤ r ∧ r ≤ hi then
      if s.destructing then some { s with loop := .done }
      else if s.registering then none
      else if s.now < s.last + r ∧ !s.force then some { s with loop := .wait (s.last + r), notified := false }
      else some (go s)
    else none
  -- a notification, or a spurious wake-up: the predicate is tested with the mutex held
  | .wake =>
    match s.loop with
    | .wait _ => if s.registering then none
                 else if s.destructing || s.force then some (go s) else some { s with notified := false }
    | _ => none
  | .timeout =>
    match s.loop with
    | .wait d => if s.registering then none else if d ≤ s.now then some (go s) else none
    | _ => none
  -- the attempt ends; `claire.h:442-445`
  | .sendEnd =>
    if s.loop = .send then
      some { s with loop := .top, sent := true, ended := s.ended + 1, freeAt := s.now, lag := 0 }
    else none
  -- `Register`, `claire.h:175-197`
  | .register confirm =>
    if free s && !s.beacon then
      if confirm then some { s with registering := true, last := s.now, began := s.began + 1 } else some (regStart s)
    else none
  | .registered ok =>
    if s.registering then
      if ok then some (regStart { s with ended := s.ended + 1 })
      else some { s with registering := false, ended := s.ended + 1 }       -- throws
    else none
  -- `ForceSendKeepalive`, `claire.h:201-229`
  | .call i wait =>
    if s.calls i = .idle then
      some (setCall (if s.running then s else startThread s) i (.begun wait s.began))
    else none
  | .reset i =>
    match s.calls i with
    | .begun true m => if free s then some (setCall { s with sent := false } i (.reset m)) else none
    | _ => none
  | .force i =>
    match s.calls i with
    | .begun false m => some (setCall { s with force := true } i (.forced false m))
    | .reset m => some (setCall { s with force := true } i (.forced true m))
    | _ => none
  | .notify i =>
    match s.calls i with
    | .forced w m => if free s then some (setCall { s with notified := true } i (.told w m)) else none
    | _ => none
  | .ret i =>
    match s.calls i with
    | .told false m => some (setCall s i (.returned false m))
    | .told true m => if free s && s.sent then some (setCall s i (.returned true m)) else none
    | _ => none
  -- the destructor, `claire.h:128-138`
  | .destruct => if s.destructing then none else some { s with destructing := true }
  | .dtorNotify => if s.destructing && free s then some { s with dtorNotified := true, notified := true } else none

/-- histories -/
inductive Steps (lo hi : Nat) : State → State → Prop
  | refl (s) : Steps lo hi s s
  | step {s t u a} : Steps lo hi s t → step lo hi t a = some u → Steps lo hi s u

def exec (lo hi : Nat) : State → List Action → Option State
  | s, [] => some s
  | s, a :: as => (step lo hi s a).bind fun t => exec lo hi t as
end Current.Claire
