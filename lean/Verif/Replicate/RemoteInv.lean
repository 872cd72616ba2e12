import Verif.Replicate.Remote
/-!
What holds for a subscription to a remote stream and for ending it (C115).
-/

set_option linter.unusedSimpArgs false

namespace Current.Remote

/-! ### Specification, on what is seen from outside (the most recent first) -/

/-- How many entries the subscriber has accepted. -/
def accepted : List Ev → Nat
  | [] => 0
  | .call .entry _ .more :: l => accepted l + 1
  | _ :: l => accepted l

/-- The subscription id announced on the subscription request in progress (or the most recent one). -/
def current : List Ev → Option Nat
  | [] => none
  | .announced k :: _ => some k
  | .subscribeAsked _ :: _ => none
  | _ :: l => current l

/-- The subscriber has answered that it is done. -/
def SaidDone (l : List Ev) : Prop := ∃ k i, Ev.call k i .done ∈ l

/-- What may happen next, after what has happened.
* The subscriber is offered, and the server is asked for, the first entry not accepted yet.
* The subscriber is asked to terminate at most once, and called no more afterwards.
* The subscription that is terminated is the one of the current request.
* A subscriber that has said it is done is not called any more, and no schema and no subscription is asked for.
* After the done callback nothing happens any more; in particular it is called once. -/
def Allowed (start : Nat) (before : List Ev) : Ev → Prop
  | .call .entry i _ => i = start + accepted before ∧ Ev.terminateCalled ∉ before ∧ ¬ SaidDone before ∧ Ev.doneCallback ∉ before
  | .call .head _ _ => Ev.terminateCalled ∉ before ∧ ¬ SaidDone before ∧ Ev.doneCallback ∉ before
  | .schemaAsked => ¬ SaidDone before ∧ Ev.doneCallback ∉ before
  | .subscribeAsked i => i = start + accepted before ∧ ¬ SaidDone before ∧ Ev.doneCallback ∉ before
  | .terminateCalled => Ev.terminateCalled ∉ before ∧ ¬ SaidDone before ∧ Ev.doneCallback ∉ before
  | .terminateAsked k => current before = some k ∧ Ev.doneCallback ∉ before
  | _ => Ev.doneCallback ∉ before

/-- Every event was allowed when it happened. -/
def Lawful (start : Nat) : List Ev → Prop
  | [] => True
  | e :: l => Allowed start l e ∧ Lawful start l

/-! ### The invariant -/

/-- The waiter holds the mutex. -/
def Holds (p : WPc) : Prop := p = .eval ∨ ∃ k, p = .get k

structure WInv (s : State) (w : Who) (p : WPc) : Prop where
  lock : s.lock = some w ↔ Holds p
  live : (p = .eval ∨ p = .waiting ∨ ∃ k, p = .get k) → s.pc ≠ .callback ∧ s.pc ≠ .finished
  id : p = .waiting → s.id = none
  get : ∀ k, p = .get k → s.id = some k
  req : (p = .waiting ∨ p = .woken ∨ ∃ k, p = .get k) → s.requested = true
  ret : p = .returned → s.requested = true ∨ s.done = true

structure Inv (start : Nat) (s : State) : Prop where
  scope : WInv s .scope s.scope
  owner : WInv s .owner s.owner
  done : s.done = true ↔ s.pc = .clearing ∨ s.pc = .callback ∨ s.pc = .finished
  gone : s.scope = .gone → s.pc = .finished
  ngone : s.owner ≠ .gone
  ncoll : s.scope ≠ .collected
  next : s.next = start + accepted s.log
  cur : ∀ k, s.id = some k → current s.log = some k
  idpc : s.pc = .top ∨ s.pc = .schema → s.id = none
  sent : s.sent = true ↔ Ev.terminateCalled ∈ s.log
  sentReq : s.sent = true → s.requested = true ∧ ∀ n, s.pc ≠ .chunk n
  fin : s.pc = .finished ↔ Ev.doneCallback ∈ s.log
  law : Lawful start s.log
  said : SaidDone s.log → s.pc = .leaving ∨ s.pc = .clearing ∨ s.pc = .callback ∨ s.pc = .finished
  ann : (s.pc = .http ∨ ∃ n, s.pc = .chunk n) → s.id = current s.log

theorem inv_init (start : Nat) : Inv start (init start) := by
  refine ⟨⟨?_, ?_, ?_, ?_, ?_, ?_⟩, ⟨?_, ?_, ?_, ?_, ?_, ?_⟩, ?_, ?_, ?_, ?_, ?_, ?_, ?_, ?_, ?_, ?_, ?_, ?_, ?_⟩ <;> simp [init, Holds, accepted, Lawful, SaidDone]

theorem wake_ne (p : WPc) : wake p ≠ .waiting := by cases p <;> simp [wake]
theorem wake_eval (p : WPc) : wake p = .eval ↔ p = .eval := by cases p <;> simp [wake]
theorem wake_get (p : WPc) (k : Nat) : wake p = .get k ↔ p = .get k := by cases p <;> simp [wake]
theorem wake_woken (p : WPc) : wake p = .woken ↔ p = .woken ∨ p = .waiting := by cases p <;> simp [wake]
theorem wake_ret (p : WPc) : wake p = .returned ↔ p = .returned := by cases p <;> simp [wake]
theorem wake_gone (p : WPc) : wake p = .gone ↔ p = .gone := by cases p <;> simp [wake]
theorem wake_coll (p : WPc) : wake p = .collected ↔ p = .collected := by cases p <;> simp [wake]

set_option maxHeartbeats 4000000 in
theorem inv_step {ans : OnTerminate} {start : Nat} {s s' : State} {a : Act} (hi : Inv start s) (h : step ans s a = some s') : Inv start s' := by
  obtain ⟨⟨a1, a2, a3, a4, a5, a6⟩, ⟨b1, b2, b3, b4, b5, b6⟩, h1, h2, h3, h3', h4, h5, h5', h6, h7, h8, h9, h10, h11⟩ := hi
  cases a with
  | thread =>
    simp only [step, threadStep] at h
    (repeat' split at h) <;> first | contradiction | (injection h with h; subst h)
    all_goals (refine ⟨⟨?_, ?_, ?_, ?_, ?_, ?_⟩, ⟨?_, ?_, ?_, ?_, ?_, ?_⟩, ?_, ?_, ?_, ?_, ?_, ?_, ?_, ?_, ?_, ?_, ?_, ?_, ?_⟩)
    all_goals simp only [State.ev, State.setId, Holds, wake_eval, wake_get, wake_woken, wake_ret, wake_gone, wake_coll] at *
    all_goals grind [wake_ne, wake_gone, wake_coll, accepted, current, Lawful, Allowed, SaidDone]
  | waiter w =>
    simp only [step, waiterStep, Option.map_eq_some_iff] at h
    obtain ⟨t, h, rfl⟩ := h
    cases w <;> simp only [State.wpc] at h
    all_goals ((repeat' split at h) <;> first | contradiction | (injection h with h; subst h))
    all_goals (refine ⟨⟨?_, ?_, ?_, ?_, ?_, ?_⟩, ⟨?_, ?_, ?_, ?_, ?_, ?_⟩, ?_, ?_, ?_, ?_, ?_, ?_, ?_, ?_, ?_, ?_, ?_, ?_, ?_⟩)
    all_goals simp only [State.ev, State.setW, Holds] at *
    all_goals grind [accepted, current, Lawful, Allowed, SaidDone]
  | getReply w =>
    cases w <;> simp only [step, State.wpc] at h
    all_goals ((repeat' split at h) <;> first | contradiction | (injection h with h; subst h))
    all_goals (refine ⟨⟨?_, ?_, ?_, ?_, ?_, ?_⟩, ⟨?_, ?_, ?_, ?_, ?_, ?_⟩, ?_, ?_, ?_, ?_, ?_, ?_, ?_, ?_, ?_, ?_, ?_, ?_, ?_⟩)
    all_goals simp only [State.ev, State.setW, Holds] at *
    all_goals grind
  | spurious w =>
    simp only [step] at h
    split at h <;> first | contradiction | (injection h with h; subst h)
    rename_i hc
    cases w <;> simp only [State.wpc] at hc
    all_goals (refine ⟨⟨?_, ?_, ?_, ?_, ?_, ?_⟩, ⟨?_, ?_, ?_, ?_, ?_, ?_⟩, ?_, ?_, ?_, ?_, ?_, ?_, ?_, ?_, ?_, ?_, ?_, ?_, ?_⟩)
    all_goals simp only [State.ev, State.setW, Holds] at *
    all_goals grind
  | begin w =>
    cases w <;> simp only [step] at h
    all_goals ((repeat' split at h) <;> first | contradiction | (injection h with h; subst h))
    all_goals (refine ⟨⟨?_, ?_, ?_, ?_, ?_, ?_⟩, ⟨?_, ?_, ?_, ?_, ?_, ?_⟩, ?_, ?_, ?_, ?_, ?_, ?_, ?_, ?_, ?_, ?_, ?_, ?_, ?_⟩)
    all_goals simp only [State.ev, State.setW, Holds] at *
    all_goals grind
  | line l b =>
    cases l <;> cases b <;> simp only [step] at h
    all_goals ((repeat' split at h) <;> first | contradiction | (injection h with h; subst h))
    all_goals (refine ⟨⟨?_, ?_, ?_, ?_, ?_, ?_⟩, ⟨?_, ?_, ?_, ?_, ?_, ?_⟩, ?_, ?_, ?_, ?_, ?_, ?_, ?_, ?_, ?_, ?_, ?_, ?_, ?_⟩)
    all_goals simp only [State.ev, State.setW, Holds] at *
    all_goals grind [accepted, current, Lawful, Allowed, SaidDone]
  | _ =>
    simp only [step] at h
    all_goals ((repeat' split at h) <;> first | contradiction | (injection h with h; subst h))
    all_goals (refine ⟨⟨?_, ?_, ?_, ?_, ?_, ?_⟩, ⟨?_, ?_, ?_, ?_, ?_, ?_⟩, ?_, ?_, ?_, ?_, ?_, ?_, ?_, ?_, ?_, ?_, ?_, ?_, ?_⟩)
    all_goals simp only [State.ev, State.setId, State.setW, Holds, wake_eval, wake_get, wake_woken, wake_ret, wake_gone, wake_coll] at *
    all_goals grind [wake_ne, wake_gone, wake_coll, accepted, current, Lawful, Allowed, SaidDone]

end Current.Remote
