/-!
# Karl: registered services, the cache of keepalive times, the state update thread

Models `karl/karl.h`: `GenericKarl`'s constructor (254-318, the transaction at 295-317), destructor (321-344),
`StateUpdateThread` (361-426), `AcceptKeepaliveViaHTTP` (428-658) as far as `fields.claires`,
`services_keepalive_time_cache_`, `state_update_thread_force_wakeup_`, the condition variable, `OnTimedOut`,
`OnDeregistered` and `OnKeepalive` are concerned.  The non-mock build (`CURRENT_MOCK_TIME` not defined).

Threads, each step of which is one critical section:
* the state update thread (`loop`),
* the HTTP thread of the keepalives port (`hand`): `blocks/http/impl/posix_server.h:416-470` runs handlers one after
  another on the port's only thread, so keepalives and `DELETE`s never overlap each other,
* the thread that constructs and destroys Karl (`ctor`, `dtor`).

Simplifications: times are microseconds counted from the epoch, as naturals, and nothing overflows; the clock is the
monotonic `current::time::Now` (C52) and `wait_for` sleeps by the same clock; `ClaireInfo` keeps `service`, `location`,
`reported_timestamp` and `registered_state` (`url_status_page_direct` is a function of the location); the stores of builds
and servers, nginx and the keepalive stream are in `Verif.Karl.Report` or not modelled; a keepalive request here is one
that has been parsed and found consistent.
-/
namespace Current.Karl

/-- `ClaireRegisteredState`, `schema_karl.h:141` -/
inductive Reg | active | deregistered | disconnected
  deriving DecidableEq, Repr

/-- `ClaireInfo`, `schema_karl.h:144-167` -/
structure Claire (L S : Type) where
  service : S
  location : L
  reported : Nat
  reg : Reg
  deriving DecidableEq, Repr

/-- `ClaireInfo claire; claire.codename = codename;` for a codename that is not in the storage, `karl.h:386,393` and
`karl.h:461,465` -/
def blank {L S : Type} [Inhabited L] [Inhabited S] : Claire L S := ⟨default, default, 0, .active⟩

/-- Where the state update thread is, `karl.h:361-426`. -/
inductive Loop (C : Type)
  | top                                        -- about to test `destructing_`, 362
  | tx (late : C → Bool) (recent : Nat)        -- has scanned the cache, about to run the transaction, 377
  | sleep (recent : Nat)                       -- about to take the mutex, 408
  | wait (deadline : Option Nat)               -- inside `wait_for` / `wait`, 413 / 418
  | done                                       -- the loop has ended

/-- Where the keepalives port's thread is. -/
inductive Hand (C L S : Type)
  | idle
  | ka (c : C) (l : L) (s : S) (at_ : Nat)     -- `now` taken, 547, about to run the transaction, 567
  | kaCache (c : C) (at_ : Nat)                -- transaction done and answered, about to update the cache, 636
  | del (c : C)                                -- `now` taken, 451, about to run the transaction, 453
  | delErase (c : C)                           -- transaction done and answered, about to erase, 475

/-- Calls of the `IKarlNotifiable` interface, `karl.h:181-202`. -/
inductive Event (C : Type)
  | keepalive (c : C) (at_ : Nat)
  | deregistered (c : C)
  | timedOut (c : C)
  deriving DecidableEq

structure State (C L S : Type) where
  now : Nat
  /-- the codenames that have appeared so far: the elements of the maps below are among them -/
  dom : List C
  /-- `fields.claires` -/
  claires : C → Option (Claire L S)
  /-- `services_keepalive_time_cache_` -/
  cache : C → Option Nat
  /-- `state_update_thread_force_wakeup_` -/
  force : Bool
  /-- the condition variable has been notified since the state update thread began to wait on it -/
  notified : Bool
  loop : Loop C
  hand : Hand C L S
  /-- the constructor's transaction, 295-317, has run -/
  constructed : Bool
  /-- `destructing_` -/
  destructing : Bool
  /-- the destructor has notified the condition variable, 332-334 -/
  dtorNotified : Bool
  events : List (Event C)
  /-- ghost: keepalives whose handler has finished, with the time Karl took for each -/
  finished : List (C × Nat)
  /-- ghost: when the cache entry of a codename was last written -/
  seen : C → Nat
  /-- ghost: the time of the last scan of the cache -/
  lastScan : Nat
  /-- ghost: how many keepalives were finished by then -/
  scanned : Nat
  /-- ghost: microseconds since the last scan during which the state update thread could have run but did not get to
  the next scan: lack of CPU, waiting for the storage -/
  lag : Nat

variable {C L S : Type}

/-- What a new Karl starts with: the storage it was given, an empty cache, `karl.h:262-272`. -/
def start (now : Nat) (dom : List C) (claires : C → Option (Claire L S)) : State C L S :=
  { now := now, dom := dom, claires := claires, cache := fun _ => none, force := false, notified := false,
    loop := .top, hand := .idle, constructed := false, destructing := false, dtorNotified := false,
    events := [], finished := [], seen := fun _ => now, lastScan := now, scanned := 0, lag := 0 }

inductive Action (C L S : Type)
  | tick
  | scan | loopTx | loopSleep | loopWake | loopTimeout
  | kaBegin (c : C) (l : L) (s : S) | kaTx | kaCache
  | delBegin (c : C) | delTx | delErase
  | populate
  | destruct | dtorNotify

/-- `(now - it->second) > parameters_.service_timeout_interval`, `karl.h:369` -/
def late (timeout now t : Nat) : Bool := decide (timeout < now - t)

/-- the codenames `timeouted_codenames` is filled with, `karl.h:368-371` -/
def scanLate (timeout : Nat) (s : State C L S) (c : C) : Bool :=
  match s.cache c with
  | some t => late timeout s.now t
  | none => false

/-- one element of the cache in that loop: the `else` branch, `karl.h:373` -/
def pickRecent (cache : C → Option Nat) (timeout now : Nat) (m : Nat) (c : C) : Nat :=
  match cache c with
  | some t => if late timeout now t then m else max t m
  | none => m

/-- `most_recent_keepalive_time`, `karl.h:365, 373`: the largest time that is not late, 0 if there is none -/
def scanRecent (timeout : Nat) (s : State C L S) : Nat := s.dom.foldl (pickRecent s.cache timeout s.now) 0

/-- the state update thread's transaction, `karl.h:377-400`, on one codename of `timeouted_codenames` -/
def timedOut [Inhabited L] [Inhabited S] (old : Option (Claire L S)) : Claire L S :=
  { (match old with | some x => x | none => blank) with reg := .disconnected }

/-- the transaction of `DELETE`, `karl.h:455-469` -/
def deregistered [Inhabited L] [Inhabited S] (old : Option (Claire L S)) : Claire L S :=
  { (match old with | some x => x | none => blank) with reg := .deregistered }

/-- the transaction of a keepalive, `karl.h:601-630`: `fields.claires` -/
def kept [DecidableEq L] (old : Option (Claire L S)) (l : L) (sv : S) (at_ : Nat) : Claire L S :=
  match old with
  | some x => if x.location ≠ l then ⟨sv, l, at_, .active⟩
              else if x.reg ≠ .active then ⟨sv, l, at_, .active⟩ else x
  | none => ⟨sv, l, at_, .active⟩

/-- the state update thread is blocked on the condition variable and nothing has notified it -/
def asleep (s : State C L S) : Bool :=
  match s.loop with
  | .wait none => !s.notified
  | .wait (some d) => !s.notified && decide (s.now < d)
  | _ => false

/-- the thread sits in `wait` or `wait_for` -/
def waits (s : State C L S) : Bool := match s.loop with | .wait _ => true | _ => false

variable [DecidableEq C] [DecidableEq L] [Inhabited L] [Inhabited S]

def put {V : Type} (f : C → V) (c : C) (v : V) : C → V := fun x => if x = c then v else f x

def step (timeout : Nat) (s : State C L S) : Action C L S → Option (State C L S)
  | .tick => some { s with now := s.now + 1, lag := if asleep s then s.lag else
        match s.loop with | .done => s.lag | _ => s.lag + 1 }
  -- `karl.h:362-376`
  | .scan => match s.loop with
    | .top => if s.destructing then some { s with loop := .done } else
        some { s with loop := .tx (scanLate timeout s) (scanRecent timeout s),
                      cache := fun c => if scanLate timeout s c then none else s.cache c,
                      lastScan := s.now, scanned := s.finished.length, lag := 0 }
    | _ => none
  -- `karl.h:377-402`
  | .loopTx => match s.loop with
    | .tx lt recent => some { s with
        loop := .sleep recent,
        claires := fun c => if lt c then some (timedOut (s.claires c)) else s.claires c,
        events := s.events ++ (s.dom.filter (fun c => lt c && (s.claires c).isSome)).map (Event.timedOut ·) }
    | _ => none
  -- `karl.h:408-424`, up to the point where the thread blocks
  | .loopSleep => match s.loop with
    | .sleep recent =>
        if recent ≠ 0 then
          if s.now - recent < timeout then       -- `wait_interval.count() > 0`
            if s.destructing || s.force then some { s with loop := .top, force := false }
            else some { s with loop := .wait (some (s.now + (timeout - (s.now - recent)) + 1)), notified := false }
          else some { s with loop := .top, force := false }
        else
          if s.destructing || s.force then some { s with loop := .top, force := false }
          else some { s with loop := .wait none, notified := false }
    | _ => none
  -- a notification (or a spurious wake-up): the predicate is tested again
  | .loopWake => match s.loop with
    | .wait _ => if s.destructing || s.force then some { s with loop := .top, force := false, notified := false }
                 else some { s with notified := false }
    | _ => none
  -- `wait_for` returns because the time is up
  | .loopTimeout => match s.loop with
    | .wait (some d) => if d ≤ s.now then some { s with loop := .top, force := false, notified := false } else none
    | _ => none
  | .kaBegin c l sv => match s.hand with
    | .idle => some { s with hand := .ka c l sv s.now, dom := if c ∈ s.dom then s.dom else c :: s.dom }
    | _ => none
  | .kaTx => match s.hand with
    | .ka c l sv at_ => some { s with
        hand := .kaCache c at_,
        claires := put s.claires c (some (kept (s.claires c) l sv at_)),
        events := s.events ++ [.keepalive c at_] }
    | _ => none
  -- `karl.h:635-646`
  | .kaCache => match s.hand with
    | .kaCache c at_ => some { s with
        hand := .idle,
        finished := s.finished ++ [(c, at_)],
        cache := put s.cache c (some at_),
        seen := put s.seen c s.now,
        force := if (s.cache c).getD 0 = 0 then true else s.force,
        notified := if (s.cache c).getD 0 = 0 then s.notified || waits s else s.notified }
    | _ => none
  | .delBegin c => match s.hand with
    | .idle => some { s with hand := .del c, dom := if c ∈ s.dom then s.dom else c :: s.dom }
    | _ => none
  | .delTx => match s.hand with
    | .del c => some { s with
        hand := .delErase c,
        claires := put s.claires c (some (deregistered (s.claires c))),
        events := s.events ++ [.deregistered c] }
    | _ => none
  -- `karl.h:473-480`
  | .delErase => match s.hand with
    | .delErase c => some { s with hand := .idle, cache := put s.cache c none, force := true,
                                   notified := s.notified || waits s }
    | _ => none
  -- the constructor's transaction, `karl.h:295-317`: no lock on the cache, no notification
  | .populate => if s.constructed then none else
      some { s with constructed := true,
                    cache := fun c => match s.claires c with
                      | some x => if x.reg = .active then some s.now else s.cache c
                      | none => s.cache c,
                    seen := fun c => match s.claires c with
                      | some x => if x.reg = .active then s.now else s.seen c
                      | none => s.seen c }
  -- `karl.h:322`
  | .destruct => if s.constructed && !s.destructing then some { s with destructing := true } else none
  -- `karl.h:331-334`
  | .dtorNotify => if s.destructing && !s.dtorNotified then
      some { s with dtorNotified := true, notified := s.notified || waits s } else none

/-- States Karl can be in when it was started at time `t₀` with the storage `claires₀`. -/
inductive Reach (timeout t₀ : Nat) (dom₀ : List C) (claires₀ : C → Option (Claire L S)) : State C L S → Prop
  | start : Reach timeout t₀ dom₀ claires₀ (start t₀ dom₀ claires₀)
  | step {s s' : State C L S} (a : Action C L S) : Reach timeout t₀ dom₀ claires₀ s → step timeout s a = some s' →
      Reach timeout t₀ dom₀ claires₀ s'

end Current.Karl
