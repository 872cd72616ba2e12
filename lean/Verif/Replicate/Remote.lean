/-!
The thread of a subscription to a remote stream, and how it is ended (C115).

`RemoteSubscriberThread`, `stream/replicator.h:239-361`: the thread itself (`Thread`, `ThreadImpl`, `OnHeader`, `OnChunk`), the destructor of the scope, and the callback that runs
when the `SubscribableRemoteStream` (the owner of what is borrowed) is destroyed first. Two callers of `TerminateSubscription` are therefore possible: `.scope` and `.owner`.

Any interleaving. `subscription_id_` is a `WaitableAtomic`: its mutex is `lock`; changing the value and notifying is one step that needs the mutex to be free (`waitable_atomic.h:129-160`:
the accessor notifies, then unlocks). What the network and the remote server do is up to the environment: an HTTP call may bring anything, end at any time, or never end.

Simplified: a chunk is the number of the lines completed by it (what is in the lines is C28 and C29); the `X-Current-Stream-Subscription-Id` is a number, none for the empty string.
`consecutive_malformed_chunks_count_` (which is not initialised in the code, and is only used for a message) is left out.
-/

namespace Current.Remote

/-- What the subscriber does with an entry or a head: asks for more, is done, throws a `current::Exception`, or throws something else. -/
inductive Ans where
  | more | done | throws | crashes
  deriving DecidableEq, Repr

/-- A line: an entry, or a timestamp only. -/
inductive Line where
  | entry | head
  deriving DecidableEq, Repr

/-- What the subscriber answers to `Terminate()` (`blocks/ss/pubsub.h`: `TerminationResponse`). -/
inductive OnTerminate where
  | terminate | wait
  deriving DecidableEq, Repr

/-- Where the thread is. -/
inductive TPc where
  /-- `while (true)`, `replicator.h:293`. -/
  | top
  /-- In `CheckSchema()`, 301. -/
  | schema
  /-- In the `ChunkedGET`, 302-306. -/
  | http
  /-- In `PassChunkToSubscriber`, 331, with that many lines left. -/
  | chunk (left : Nat)
  /-- After the `try`, 317-318. -/
  | unwind
  /-- `ThreadImpl` has returned, 282. -/
  | leaving
  /-- `subscriber_thread_done_` is set, 283. -/
  | clearing
  /-- About to call the callback, 284. -/
  | callback
  | finished
  /-- An exception has left the thread: `std::terminate()`. -/
  | crashed
  deriving DecidableEq, Repr

/-- Who calls `TerminateSubscription`. -/
inductive Who where
  | scope | owner
  deriving DecidableEq, Repr

/-- Where a caller of `TerminateSubscription` is, `replicator.h:335-352`. -/
inductive WPc where
  | idle
  /-- The callback has been copied by the destructor of the owner and not been called yet (`owned_borrowed.h:95-107`). -/
  | collected
  /-- About to lock, in `Wait`. -/
  | want
  /-- Holds the mutex; the thread was not done. -/
  | eval
  /-- Holds the mutex, in `HTTP(GET(terminate_url))`. -/
  | get (id : Nat)
  /-- Waits for the condition variable. -/
  | waiting
  /-- Notified, or woken up spuriously; about to lock. -/
  | woken
  /-- `TerminateSubscription` has returned. -/
  | returned
  /-- `.scope` only: `thread_.join()` has returned; the object is gone. -/
  | gone
  deriving DecidableEq, Repr

/-- What can be seen from outside. -/
inductive Ev where
  /-- The subscriber is called. -/
  | call (l : Line) (index : Nat) (a : Ans)
  /-- `Terminate()` of the subscriber is called. -/
  | terminateCalled
  /-- A request for the schema is sent. -/
  | schemaAsked
  /-- A subscription request is sent, for entries from this index on. -/
  | subscribeAsked (index : Nat)
  /-- The server has announced this subscription id. -/
  | announced (id : Nat)
  /-- A request to terminate this subscription is sent. -/
  | terminateAsked (id : Nat)
  /-- `done_callback_` is called. -/
  | doneCallback
  deriving DecidableEq, Repr

/-- `replicator.h:354-361` and 171-175, with the callers and what has happened, the most recent first. -/
structure State where
  pc : TPc := .top
  /-- `terminate_sent`, 292. -/
  sent : Bool := false
  /-- `next_expected_index_`. -/
  next : Nat := 0
  /-- `subscription_id_`. -/
  id : Option Nat := none
  /-- Who holds the mutex of `subscription_id_` between steps. -/
  lock : Option Who := none
  /-- `subscriber_thread_done_`. -/
  done : Bool := false
  /-- `terminate_subscription_requested_`. -/
  requested : Bool := false
  scope : WPc := .idle
  owner : WPc := .idle
  log : List Ev := []
  /-- The callback of the owner has touched the object after it was gone. -/
  bad : Bool := false
  deriving DecidableEq, Repr

inductive Act where
  /-- The thread goes on; it is not waiting for anybody. -/
  | thread
  /-- `CheckSchema` returns, or throws. -/
  | schemaReply (ok : Bool)
  /-- The header with the subscription id. -/
  | header (id : Nat)
  /-- A chunk that completes that many lines. -/
  | chunk (lines : Nat)
  /-- The subscription request ends, normally or not. -/
  | httpEnd
  /-- The subscriber is given the next line, and answers. -/
  | line (l : Line) (a : Ans)
  /-- The next line is not what it has to be: `RemoteStreamMalformedChunkException`. -/
  | malformed
  /-- `.owner`: the callback is copied. -/
  | collect
  /-- The caller begins. -/
  | begin (w : Who)
  /-- The caller goes on. -/
  | waiter (w : Who)
  /-- The request to terminate returns, or throws. -/
  | getReply (w : Who)
  /-- A spurious wakeup. -/
  | spurious (w : Who)
  /-- `.scope`: the thread is joined, the object is destroyed. -/
  | join
  deriving DecidableEq, Repr

def State.wpc (s : State) : Who → WPc | .scope => s.scope | .owner => s.owner

def State.setW (s : State) (w : Who) (p : WPc) : State := match w with | .scope => { s with scope := p } | .owner => { s with owner := p }

def State.ev (s : State) (e : Ev) : State := { s with log := e :: s.log }

def wake : WPc → WPc | .waiting => .woken | p => p

/-- `*subscription_id_.MutableScopedAccessor() = id`, and the notification. Only when the mutex is free. -/
def State.setId (s : State) (i : Option Nat) : State := { s with id := i, scope := wake s.scope, owner := wake s.owner }

/-- The steps the thread makes by itself. -/
def threadStep (ans : OnTerminate) (s : State) : Option State :=
  match s.pc with
  | .top =>  -- replicator.h:294-301
      if !s.sent && s.requested then
        match ans with
        | .terminate => some ({ s with sent := true, pc := .leaving }.ev .terminateCalled)
        | .wait => some (({ s with sent := true, pc := .schema }.ev .terminateCalled).ev .schemaAsked)
      else some ({ s with pc := .schema }.ev .schemaAsked)
  | .chunk 0 => some { s with pc := .http }
  | .unwind =>  -- 317-318
      if s.lock = none then some { (s.setId none) with pc := .top } else none
  | .leaving => some { s with done := true, pc := .clearing }  -- 282
  | .clearing =>  -- 283
      if s.lock = none then some { (s.setId none) with pc := .callback } else none
  | .callback => some ({ s with pc := .finished }.ev .doneCallback)  -- 284-286
  | _ => none

/-- `TerminateSubscription`, `replicator.h:335-352`, with `Wait`, `waitable_atomic.h:178-186`. -/
def waiterStep (s : State) (w : Who) : Option State :=
  match s.wpc w with
  | .want | .woken =>
      if s.lock = none then
        if s.done then some (s.setW w .returned) else some { (s.setW w .eval) with lock := some w }
      else none
  | .eval =>
      match s.id with
      | none => some { (s.setW w .waiting) with requested := true, lock := none }
      | some k => some { (s.setW w (.get k)).ev (.terminateAsked k) with requested := true }
  | _ => none

/-- One step. `ans` is what the subscriber answers to `Terminate()`. -/
def step (ans : OnTerminate) (s : State) : Act → Option State
  | .thread => threadStep ans s
  | .schemaReply ok =>
      if s.pc = .schema then (if ok then some ({ s with pc := .http }.ev (.subscribeAsked s.next)) else some { s with pc := .unwind }) else none
  | .header k => if s.pc = .http ∧ s.lock = none then some ((s.setId (some k)).ev (.announced k)) else none  -- 322-326
  | .chunk n =>  -- 328-333
      if s.pc = .http then (if s.requested then some s else some { s with pc := .chunk n }) else none
  | .httpEnd => if s.pc = .http then some { s with pc := .unwind } else none
  | .line l a =>  -- 178-236 and 307-316
      match s.pc with
      | .chunk (n + 1) =>
          let s := s.ev (.call l s.next a)
          match a with
          | .more => some { s with pc := .chunk n, next := match l with | .entry => s.next + 1 | .head => s.next }
          | .done => some { s with pc := .leaving }
          | .throws => some { s with pc := .unwind }
          | .crashes => some { s with pc := .crashed }
      | _ => none
  | .malformed => match s.pc with | .chunk (_ + 1) => some { s with pc := .unwind } | _ => none
  | .collect => if s.owner = .idle ∧ s.scope ≠ .gone then some { s with owner := .collected } else none
  | .begin .scope => if s.scope = .idle then some { s with scope := .want } else none
  | .begin .owner => if s.owner = .collected then some { s with owner := .want, bad := s.bad || decide (s.scope = .gone) } else none
  | .waiter w => (waiterStep s w).map fun s' => { s' with bad := s'.bad || (decide (w = .owner) && decide (s.scope = .gone)) }
  | .getReply w => match s.wpc w with | .get _ => some { (s.setW w .returned) with lock := none } | _ => none
  | .spurious w => if s.wpc w = .waiting then some (s.setW w .woken) else none
  | .join => if s.scope = .returned ∧ s.pc = .finished then some { s with scope := .gone } else none

def run (ans : OnTerminate) : State → List Act → Option State
  | s, [] => some s
  | s, a :: as => (step ans s a).bind fun s' => run ans s' as

/-- A subscription from an index on. -/
def init (start : Nat) : State := { next := start }

/-- A state of some history of a subscription. -/
def Reach (ans : OnTerminate) (start : Nat) (s : State) : Prop := ∃ as, run ans (init start) as = some s

end Current.Remote
