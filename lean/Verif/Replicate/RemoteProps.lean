import Verif.Replicate.RemoteInv
/-!
What holds for a subscription to a remote stream and for ending it (C115). `accepted`, `Allowed` and `Lawful` (the specification) are in `RemoteInv.lean`.
-/

namespace Current.Remote

theorem inv_run {ans : OnTerminate} {start : Nat} : ∀ (as : List Act) {s s' : State}, Inv start s → run ans s as = some s' → Inv start s'
  | [], _, _, hi, h => by simp only [run, Option.some.injEq] at h; exact h ▸ hi
  | a :: as, s, s', hi, h => by
    simp only [run, Option.bind_eq_some_iff] at h
    obtain ⟨t, h1, h2⟩ := h
    exact inv_run as (inv_step hi h1) h2

theorem inv_reach {ans : OnTerminate} {start : Nat} {s : State} (h : Reach ans start s) : Inv start s := by
  obtain ⟨as, h⟩ := h
  exact inv_run as (inv_init start) h

theorem run_append {ans : OnTerminate} : ∀ (as bs : List Act) (s : State), run ans s (as ++ bs) = (run ans s as).bind fun t => run ans t bs
  | [], _, _ => rfl
  | a :: as, bs, s => by
    simp only [List.cons_append, run]
    cases step ans s a with
    | none => rfl
    | some t => simp only [Option.bind_some]; exact run_append as bs t

theorem reach_run {ans : OnTerminate} {start : Nat} {s s' : State} {as : List Act} (h : Reach ans start s) (hr : run ans s as = some s') : Reach ans start s' := by
  obtain ⟨bs, hb⟩ := h
  exact ⟨bs ++ as, by rw [run_append, hb]; exact hr⟩

/-- A property of single steps holds along runs. -/
theorem run_induct {ans : OnTerminate} {start : Nat} {P : State → Prop} (hs : ∀ s s' a, Inv start s → P s → step ans s a = some s' → P s') :
    ∀ (as : List Act) {s s' : State}, Inv start s → P s → run ans s as = some s' → P s'
  | [], _, _, _, hp, h => by simp only [run, Option.some.injEq] at h; exact h ▸ hp
  | a :: as, s, s', hi, hp, h => by
    simp only [run, Option.bind_eq_some_iff] at h
    obtain ⟨t, h1, h2⟩ := h
    exact run_induct hs as (inv_step hi h1) (hs s t a hi hp h1) h2

theorem log_step {ans : OnTerminate} {s s' : State} {a : Act} (h : step ans s a = some s') : s.log <:+ s'.log := by
  have hid : ∀ (t : State) i, (t.setId i).log = t.log := fun _ _ => rfl
  cases a with
  | waiter w =>
    simp only [step, waiterStep, Option.map_eq_some_iff] at h
    obtain ⟨t, h, rfl⟩ := h
    (repeat' split at h) <;> first | contradiction | (injection h with h; subst h)
    all_goals cases w <;> simp [State.setW, State.ev]
  | _ =>
    simp only [step, threadStep] at h
    (repeat' split at h) <;> first | contradiction | (injection h with h; subst h)
    all_goals first
      | exact List.suffix_refl _
      | exact List.suffix_cons _ _
      | exact (List.suffix_cons _ _).trans (List.suffix_cons _ _)
      | (rename_i w _ _; cases w <;> exact List.suffix_refl _)
      | (rename_i w _ _ _; cases w <;> exact List.suffix_refl _)
      | (rename_i w _; cases w <;> exact List.suffix_refl _)

theorem log_run {ans : OnTerminate} : ∀ (as : List Act) {s s' : State}, run ans s as = some s' → s.log <:+ s'.log
  | [], s, s', h => by simp only [run, Option.some.injEq] at h; exact h ▸ List.suffix_refl _
  | a :: as, s, s', h => by
    simp only [run, Option.bind_eq_some_iff] at h
    obtain ⟨t, h1, h2⟩ := h
    exact (log_step h1).trans (log_run as h2)

/-! ### What happens, in any history -/

/-- C115: whatever the network, the server, the subscriber and the schedule do, everything that happens is allowed: entries are offered to the subscriber, and asked for, one by one in order
from the start, each until it is accepted; `Terminate()` is called at most once and nothing is delivered afterwards; a request to terminate names the current subscription; the done
callback is the last thing that happens. -/
theorem remote_lawful {ans : OnTerminate} {start : Nat} {s : State} (h : Reach ans start s) : Lawful start s.log := (inv_reach h).law

/-- C115: when the destructor of the scope has returned, the thread has ended and has called the done callback, and nothing at all happens afterwards: no call to the subscriber, no
request, no callback. -/
theorem nothing_after_destruction {ans : OnTerminate} {start : Nat} {s s' : State} {as : List Act} (h : Reach ans start s) (hg : s.scope = .gone) (hr : run ans s as = some s') :
    s'.log = s.log ∧ Ev.doneCallback ∈ s.log := by
  have hd := (inv_reach h).fin.mp ((inv_reach h).gone hg)
  refine ⟨?_, hd⟩
  have hl := remote_lawful (reach_run h hr)
  obtain ⟨l, hl'⟩ := log_run as hr
  cases l with
  | nil => exact hl'.symm
  | cons e l =>
    rw [← hl'] at hl
    have hm : Ev.doneCallback ∈ l ++ s.log := List.mem_append_right _ hd
    simp only [List.cons_append, Lawful] at hl
    have := hl.1
    revert this
    cases e with
    | call l _ _ => cases l <;> simp only [Allowed] <;> grind
    | _ => simp only [Allowed] <;> grind

/-- C115: the done callback is called at most once; and exactly once if the scope has been destroyed. -/
theorem done_callback_once {ans : OnTerminate} {start : Nat} {s : State} (h : Reach ans start s) :
    s.log.count Ev.doneCallback ≤ 1 ∧ (s.scope = .gone → s.log.count Ev.doneCallback = 1) := by
  have key : ∀ l, Lawful start l → l.count Ev.doneCallback ≤ 1 := by
    intro l
    induction l with
    | nil => simp
    | cons e l ih =>
      intro hl
      by_cases he : e = Ev.doneCallback
      · subst he
        have h0 : Ev.doneCallback ∉ l := hl.1
        rw [List.count_cons_self, List.count_eq_zero_of_not_mem h0]
        exact Nat.le_refl _
      · rw [List.count_cons_of_ne he]; exact ih hl.2
  have h1 := key _ (remote_lawful h)
  refine ⟨h1, fun hg => ?_⟩
  have hd := (inv_reach h).fin.mp ((inv_reach h).gone hg)
  have := List.count_pos_iff.mpr hd
  omega

/-! ### Ending a subscription -/

/-- The lines of the chunk in progress that the subscriber has not been given yet. -/
def left : TPc → Nat | .chunk n => n | _ => 0

/-- How often the subscriber was called. -/
def calls (l : List Ev) : Nat := l.countP fun e => match e with | .call _ _ _ => true | _ => false

/-- How many requests for the schema were sent. -/
def schemaRequests (l : List Ev) : Nat := l.count .schemaAsked

/-- How many subscription requests were sent. -/
def subscribeRequests (l : List Ev) : Nat := l.countP fun e => match e with | .subscribeAsked _ => true | _ => false

theorem setW_log (s : State) (w : Who) (p : WPc) : (s.setW w p).log = s.log ∧ (s.setW w p).pc = s.pc ∧ (s.setW w p).requested = s.requested ∧ (s.setW w p).sent = s.sent ∧
    (s.setW w p).bad = s.bad := by
  cases w <;> exact ⟨rfl, rfl, rfl, rfl, rfl⟩

/-- The steps of others leave the thread alone, and send nothing but requests to terminate. -/
theorem waiter_frame {s s' : State} {w : Who} (h : waiterStep s w = some s') : s'.pc = s.pc ∧ s'.sent = s.sent ∧ (s.requested = true → s'.requested = true) ∧
    (s'.log = s.log ∨ ∃ k, s'.log = .terminateAsked k :: s.log) := by
  simp only [waiterStep] at h
  have := setW_log s w
  (repeat' split at h) <;> first | contradiction | (injection h with h; subst h)
  all_goals grind [State.ev]

set_option maxHeartbeats 2000000 in
theorem calls_step {ans : OnTerminate} {s s' : State} {a : Act} (hq : s.requested = true) (h : step ans s a = some s') :
    s'.requested = true ∧ calls s'.log + left s'.pc ≤ calls s.log + left s.pc := by
  cases a with
  | waiter w =>
    simp only [step, Option.map_eq_some_iff] at h
    obtain ⟨t, h, rfl⟩ := h
    obtain ⟨h1, h2, h3, h4⟩ := waiter_frame h
    refine ⟨h3 hq, ?_⟩
    rcases h4 with h4 | ⟨k, h4⟩ <;> simp [h4, h1, calls]
  | getReply w =>
    simp only [step] at h
    have := setW_log s w .returned
    split at h <;> first | contradiction | (injection h with h; subst h)
    grind
  | spurious w =>
    simp only [step] at h
    have := setW_log s w .woken
    split at h <;> first | contradiction | (injection h with h; subst h)
    grind
  | begin w =>
    cases w <;> simp only [step] at h
    all_goals (split at h <;> first | contradiction | (injection h with h; subst h))
    all_goals grind
  | _ =>
    simp only [step, threadStep] at h
    (repeat' split at h) <;> first | contradiction | (injection h with h; subst h)
    all_goals simp only [State.ev, State.setId, left, calls, List.countP_cons, *] at *
    all_goals grind

/-- C115: once the end of the subscription has been requested, the subscriber is not given more than the rest of the chunk it is being given. -/
theorem no_new_chunk {ans : OnTerminate} {s s' : State} : ∀ (as : List Act), s.requested = true → run ans s as = some s' →
    calls s'.log + left s'.pc ≤ calls s.log + left s.pc := by
  intro as
  induction as generalizing s with
  | nil => intro _ h; simp only [run, Option.some.injEq] at h; subst h; exact Nat.le_refl _
  | cons a as ih =>
    intro hq h
    simp only [run, Option.bind_eq_some_iff] at h
    obtain ⟨t, h1, h2⟩ := h
    have := calls_step hq h1
    exact Nat.le_trans (ih this.1 h2) this.2

/-- Where the thread can be with `terminate_sent`, when the subscriber agrees to terminate. -/
def Ended (p : TPc) : Prop := p = .leaving ∨ p = .clearing ∨ p = .callback ∨ p = .finished

theorem sent_step {start : Nat} {s s' : State} {a : Act} (_ : Inv start s) (hp : s.sent = true → Ended s.pc) (h : step .terminate s a = some s') : s'.sent = true → Ended s'.pc := by
  cases a with
  | waiter w =>
    simp only [step, Option.map_eq_some_iff] at h
    obtain ⟨t, h, rfl⟩ := h
    obtain ⟨h1, h2, h3, h4⟩ := waiter_frame h
    simp only [h1, h2]; exact hp
  | getReply w =>
    simp only [step] at h
    have := setW_log s w .returned
    split at h <;> first | contradiction | (injection h with h; subst h)
    grind
  | spurious w =>
    simp only [step] at h
    have := setW_log s w .woken
    split at h <;> first | contradiction | (injection h with h; subst h)
    grind
  | begin w =>
    cases w <;> simp only [step] at h
    all_goals (split at h <;> first | contradiction | (injection h with h; subst h))
    all_goals grind
  | _ =>
    simp only [step, threadStep] at h
    (repeat' split at h) <;> first | contradiction | (injection h with h; subst h)
    all_goals simp only [State.ev, State.setId, Ended] at *
    all_goals grind

theorem sent_reach {start : Nat} {s : State} (h : Reach .terminate start s) : s.sent = true → Ended s.pc := by
  obtain ⟨as, h⟩ := h
  exact run_induct (P := fun s => s.sent = true → Ended s.pc) (fun _ _ _ hi hp hs => sent_step hi hp hs) as (inv_init start) (by simp [init]) h

/-- A step of the thread, including what it does in the subscriber and the end of the HTTP calls it has made; not the arrival of headers and chunks. -/
def isThread : Act → Bool
  | .thread | .schemaReply _ | .httpEnd | .line _ _ | .malformed => true
  | _ => false

/-- At most how many steps the thread has left once the end is requested. -/
def stepsLeft : TPc → Nat
  | .finished | .crashed => 0
  | .callback => 1
  | .clearing => 2
  | .leaving => 3
  | .top => 4
  | .unwind => 5
  | .http => 6
  | .schema => 7
  | .chunk n => n + 7

/-- A subscription request that is about to be sent: the answer to the request for the schema is awaited. -/
def asking : TPc → Nat | .schema => 1 | _ => 0

set_option maxHeartbeats 2000000 in
theorem ending_step {s s' : State} {a : Act} (hq : s.requested = true) (hs : s.sent = true → Ended s.pc) (h : step .terminate s a = some s') :
    (if isThread a then 1 else 0) + stepsLeft s'.pc ≤ stepsLeft s.pc ∧ schemaRequests s'.log = schemaRequests s.log ∧
      subscribeRequests s'.log + asking s'.pc ≤ subscribeRequests s.log + asking s.pc := by
  cases a with
  | waiter w =>
    simp only [step, Option.map_eq_some_iff] at h
    obtain ⟨t, h, rfl⟩ := h
    obtain ⟨h1, h2, h3, h4⟩ := waiter_frame h
    rcases h4 with h4 | ⟨k, h4⟩ <;> simp [h4, h1, isThread, schemaRequests, subscribeRequests]
  | getReply w =>
    simp only [step] at h
    have := setW_log s w .returned
    split at h <;> first | contradiction | (injection h with h; subst h)
    simp [this, isThread]
  | spurious w =>
    simp only [step] at h
    have := setW_log s w .woken
    split at h <;> first | contradiction | (injection h with h; subst h)
    simp [this, isThread]
  | begin w =>
    cases w <;> simp only [step] at h
    all_goals (split at h <;> first | contradiction | (injection h with h; subst h))
    all_goals simp [isThread]
  | _ =>
    simp only [step, threadStep] at h
    (repeat' split at h) <;> first | contradiction | (injection h with h; subst h)
    all_goals simp only [State.ev, State.setId, stepsLeft, asking, schemaRequests, subscribeRequests, isThread, List.countP_cons, List.count_cons, Ended] at *
    all_goals grind [stepsLeft, asking]

/-- C115: once the end of the subscription has been requested, and if the subscriber agrees to terminate, the thread makes only a bounded number of further steps (the lines left of the
chunk in progress, and seven more), sends no further request for the schema, and at most one further subscription request, and that only if the answer to a request for the schema was
awaited at that moment. -/
theorem ends_soon {start : Nat} {s s' : State} (h : Reach .terminate start s) (hq : s.requested = true) : ∀ (as : List Act), run .terminate s as = some s' →
    as.countP isThread + stepsLeft s'.pc ≤ left s.pc + 7 ∧ schemaRequests s'.log = schemaRequests s.log ∧
      subscribeRequests s'.log ≤ subscribeRequests s.log + asking s.pc := by
  intro as hr
  have key : ∀ (as : List Act) (s s' : State), Reach .terminate start s → s.requested = true → run .terminate s as = some s' →
      as.countP isThread + stepsLeft s'.pc ≤ stepsLeft s.pc ∧ schemaRequests s'.log = schemaRequests s.log ∧
        subscribeRequests s'.log + asking s'.pc ≤ subscribeRequests s.log + asking s.pc := by
    intro as
    induction as with
    | nil => intro s s' _ _ h; simp only [run, Option.some.injEq] at h; subst h; simp
    | cons a as ih =>
      intro s s' h hq hr
      simp only [run, Option.bind_eq_some_iff] at hr
      obtain ⟨t, h1, h2⟩ := hr
      have ht : Reach .terminate start t := reach_run (as := [a]) h (by simp [run, h1])
      have e := ending_step hq (sent_reach h) h1
      have e' := ih t s' ht (calls_step hq h1).1 h2
      simp only [List.countP_cons]
      omega
  have := key as s s' h hq hr
  have hb : stepsLeft s.pc ≤ left s.pc + 7 := by cases s.pc <;> simp [stepsLeft, left]
  omega

/-- The thread waits for the network: for the schema, or for the data. -/
def InHttp (p : TPc) : Prop := p = .schema ∨ p = .http

/-- A request to terminate has not been answered yet. -/
def InGet (p : WPc) : Prop := ∃ k, p = .get k

/-- C115: ending a subscription never gets stuck by itself: as long as the destructor has not returned, some step of the thread or of a caller is possible, unless an HTTP call has not
returned, the subscriber has not returned, or has crashed the program. (Spurious wakeups are not needed.) -/
theorem not_stuck {ans : OnTerminate} {start : Nat} {s : State} (h : Reach ans start s) (hb : s.scope ≠ .idle) (hg : s.scope ≠ .gone) (hh : ¬ InHttp s.pc)
    (hc : ∀ n, s.pc ≠ .chunk (n + 1)) (hcr : s.pc ≠ .crashed) (hs : ¬ InGet s.scope) (ho : ¬ InGet s.owner) :
    ∃ a ∈ [Act.thread, .waiter .scope, .waiter .owner, .join], step ans s a ≠ none := by
  obtain ⟨⟨a1, a2, a3, a4, a5, a6⟩, ⟨b1, b2, b3, b4, b5, b6⟩, h1, h2, h3, h3', h4, h5, h5', h6, h7, h8, h9, h10, h11⟩ := inv_reach h
  -- a caller that holds the mutex can go on
  by_cases he : s.scope = .eval
  · refine ⟨.waiter .scope, by simp, ?_⟩
    simp only [step, waiterStep, State.wpc, he]
    cases s.id <;> simp
  by_cases he' : s.owner = .eval
  · refine ⟨.waiter .owner, by simp, ?_⟩
    simp only [step, waiterStep, State.wpc, he']
    cases s.id <;> simp
  have hl : s.lock = none := by
    cases hk : s.lock with
    | none => rfl
    | some w =>
      cases w with
      | scope => exact absurd (a1.mp hk) (by rintro (h | ⟨k, h⟩); exact he h; exact hs ⟨k, h⟩)
      | owner => exact absurd (b1.mp hk) (by rintro (h | ⟨k, h⟩); exact he' h; exact ho ⟨k, h⟩)
  cases hp : s.pc with
  | top =>
    refine ⟨.thread, by simp, ?_⟩
    simp only [step, threadStep, hp]
    split
    · cases ans <;> simp
    · simp
  | schema => exact absurd (Or.inl hp) hh
  | http => exact absurd (Or.inr hp) hh
  | chunk n =>
    cases n with
    | zero => exact ⟨.thread, by simp, by simp [step, threadStep, hp]⟩
    | succ n => exact absurd hp (hc n)
  | unwind => exact ⟨.thread, by simp, by simp [step, threadStep, hp, hl]⟩
  | leaving => exact ⟨.thread, by simp, by simp [step, threadStep, hp]⟩
  | clearing => exact ⟨.thread, by simp, by simp [step, threadStep, hp, hl]⟩
  | callback => exact ⟨.thread, by simp, by simp [step, threadStep, hp]⟩
  | crashed => exact absurd hp hcr
  | finished =>
    cases hq : s.scope with
    | idle => exact absurd hq hb
    | gone => exact absurd hq hg
    | collected => exact absurd hq h3'
    | eval => exact absurd hq he
    | get k => exact absurd ⟨k, hq⟩ hs
    | waiting => exact absurd hp (a2 (Or.inr (Or.inl hq))).2
    | returned => exact ⟨.join, by simp, by simp [step, hp, hq]⟩
    | want => exact ⟨.waiter .scope, by simp, by simp [step, waiterStep, State.wpc, hq, hl, h1.mpr (Or.inr (Or.inr hp))]⟩
    | woken => exact ⟨.waiter .scope, by simp, by simp [step, waiterStep, State.wpc, hq, hl, h1.mpr (Or.inr (Or.inr hp))]⟩

/-- C115: nobody is left behind: when the thread has ended, no caller of `TerminateSubscription` waits for it any more without having been woken up, and none sends requests. -/
theorem none_left_waiting {ans : OnTerminate} {start : Nat} {s : State} (h : Reach ans start s) (hf : s.pc = .finished) :
    s.scope ≠ .waiting ∧ s.owner ≠ .waiting ∧ ¬ InGet s.scope ∧ ¬ InGet s.owner := by
  obtain ⟨⟨a1, a2, a3, a4, a5, a6⟩, ⟨b1, b2, b3, b4, b5, b6⟩, _⟩ := inv_reach h
  refine ⟨fun h => (a2 (Or.inr (Or.inl h))).2 hf, fun h => (b2 (Or.inr (Or.inl h))).2 hf, ?_, ?_⟩
  · rintro ⟨k, h⟩; exact (a2 (Or.inr (Or.inr ⟨k, h⟩))).2 hf
  · rintro ⟨k, h⟩; exact (b2 (Or.inr (Or.inr ⟨k, h⟩))).2 hf

/-- The thread has ended, or the server was asked to terminate a subscription. -/
def Told (s : State) : Prop := s.done = true ∨ ∃ k, Ev.terminateAsked k ∈ s.log

set_option maxHeartbeats 4000000 in
theorem told_step {ans : OnTerminate} {s s' : State} {a : Act}
    (hp : (s.scope = .returned ∨ s.scope = .gone → Told s) ∧ (s.owner = .returned → Told s) ∧ (∀ k, s.scope = .get k → Ev.terminateAsked k ∈ s.log) ∧
      (∀ k, s.owner = .get k → Ev.terminateAsked k ∈ s.log)) (h : step ans s a = some s') :
    (s'.scope = .returned ∨ s'.scope = .gone → Told s') ∧ (s'.owner = .returned → Told s') ∧ (∀ k, s'.scope = .get k → Ev.terminateAsked k ∈ s'.log) ∧
      (∀ k, s'.owner = .get k → Ev.terminateAsked k ∈ s'.log) := by
  obtain ⟨p1, p2, p3, p4⟩ := hp
  cases a with
  | waiter w =>
    simp only [step, waiterStep, Option.map_eq_some_iff] at h
    obtain ⟨t, h, rfl⟩ := h
    cases w <;> simp only [State.wpc] at h <;> (repeat' split at h) <;> first | contradiction | (injection h with h; subst h)
    all_goals simp only [State.ev, State.setW, Told] at *
    all_goals grind
  | begin w => cases w <;> simp only [step] at h <;> (split at h <;> first | contradiction | (injection h with h; subst h)) <;> simp only [Told] at * <;> grind
  | getReply w =>
    cases w <;> simp only [step, State.wpc] at h <;> (split at h <;> first | contradiction | (injection h with h; subst h)) <;> simp only [State.setW, Told] at * <;> grind
  | spurious w =>
    simp only [step] at h
    split at h <;> first | contradiction | (injection h with h; subst h)
    cases w <;> simp only [State.wpc, State.setW, Told] at * <;> grind
  | _ =>
    simp only [step, threadStep] at h
    (repeat' split at h) <;> first | contradiction | (injection h with h; subst h)
    all_goals simp only [State.ev, State.setId, Told, wake_ret, wake_gone, wake_get] at *
    all_goals grind

/-- C115: `TerminateSubscription` does not return, by the destructor or by the owner, before the thread has ended or the server was asked to terminate the subscription announced. -/
theorem terminated_before_return {ans : OnTerminate} {start : Nat} {s : State} (h : Reach ans start s) :
    (s.scope = .returned ∨ s.scope = .gone → Told s) ∧ (s.owner = .returned → Told s) := by
  obtain ⟨as, h⟩ := h
  have := run_induct (P := fun s => (s.scope = .returned ∨ s.scope = .gone → Told s) ∧ (s.owner = .returned → Told s) ∧ (∀ k, s.scope = .get k → Ev.terminateAsked k ∈ s.log) ∧
      (∀ k, s.owner = .get k → Ev.terminateAsked k ∈ s.log)) (fun _ _ _ _ hp hs => told_step hp hs) as (inv_init start) (by simp [init]) h
  exact ⟨this.1, this.2.1⟩

/-- C115: the subscription on the server is terminated: as long as the current request has announced its id, a caller of `TerminateSubscription` does not wait: it is about to send the
request to terminate that subscription, or has done so. -/
theorem announced_is_terminated {ans : OnTerminate} {start : Nat} {s : State} {k : Nat} (h : Reach ans start s) (hp : s.pc = .http ∨ ∃ n, s.pc = .chunk n) (hk : current s.log = some k) :
    s.scope ≠ .waiting ∧ s.owner ≠ .waiting ∧ (s.scope = .eval → ∃ s', step ans s (.waiter .scope) = some s' ∧ s'.scope = .get k ∧ s'.log = .terminateAsked k :: s.log) := by
  have hi := inv_reach h
  have hid : s.id = some k := (hi.ann hp).trans hk
  refine ⟨fun h => ?_, fun h => ?_, fun h => ?_⟩
  · have := hi.scope.id h; simp [hid] at this
  · have := hi.owner.id h; simp [hid] at this
  · exact ⟨_, by simp [step, waiterStep, State.wpc, h, hid]; rfl, rfl, rfl⟩

/-! ### What does not hold -/

/-- The thread is in its loop, and not in the subscriber. -/
def Looping (p : TPc) : Prop := p = .top ∨ p = .schema ∨ p = .http ∨ p = .unwind

set_option maxHeartbeats 2000000 in
theorem looping_step {s s' : State} {a : Act} (hq : s.requested = true) (hl : Looping s.pc) (h : step .wait s a = some s') : s'.requested = true ∧ Looping s'.pc := by
  refine ⟨(calls_step hq h).1, ?_⟩
  cases a with
  | waiter w =>
    simp only [step, Option.map_eq_some_iff] at h
    obtain ⟨t, h, rfl⟩ := h
    obtain ⟨h1, h2, h3, h4⟩ := waiter_frame h
    simp only [h1]; exact hl
  | getReply w =>
    simp only [step] at h
    have := setW_log s w .returned
    split at h <;> first | contradiction | (injection h with h; subst h)
    grind
  | spurious w =>
    simp only [step] at h
    have := setW_log s w .woken
    split at h <;> first | contradiction | (injection h with h; subst h)
    grind
  | begin w =>
    cases w <;> simp only [step] at h
    all_goals (split at h <;> first | contradiction | (injection h with h; subst h))
    all_goals grind
  | _ =>
    simp only [step, threadStep] at h
    (repeat' split at h) <;> first | contradiction | (injection h with h; subst h)
    all_goals simp only [State.ev, State.setId, Looping] at *
    all_goals grind

/-- Not what `TerminationResponse::Wait` promises (to go on until the subscriber is done): once the end is requested while the subscriber is not being given a chunk, and the subscriber
answers `Wait`, it is never given anything any more, the thread never ends, and the destructor never returns, whatever the server does. -/
theorem wait_never_ends {start : Nat} {s s' : State} (h : Reach .wait start s) (hq : s.requested = true) (hl : Looping s.pc) (as : List Act) (hr : run .wait s as = some s') :
    Looping s'.pc ∧ s'.scope ≠ .gone ∧ calls s'.log = calls s.log := by
  have key : ∀ (as : List Act) (s : State), s.requested = true → Looping s.pc → run .wait s as = some s' → Looping s'.pc := by
    intro as
    induction as with
    | nil => intro s _ hl h; simp only [run, Option.some.injEq] at h; exact h ▸ hl
    | cons a as ih =>
      intro s hq hl h
      simp only [run, Option.bind_eq_some_iff] at h
      obtain ⟨t, h1, h2⟩ := h
      have := looping_step hq hl h1
      exact ih t this.1 this.2 h2
  have hl' := key as s hq hl hr
  refine ⟨hl', fun hg => ?_, ?_⟩
  · have := (inv_reach (reach_run h hr)).gone hg
    rcases hl' with h | h | h | h <;> simp [h] at this
  · have h1 := no_new_chunk as hq hr
    have h2 : left s.pc = 0 := by rcases hl with h | h | h | h <;> simp [h, left]
    have h3 : calls s.log ≤ calls s'.log := by
      obtain ⟨l, hl⟩ := log_run as hr
      simp only [calls, ← hl, List.countP_append]; omega
    omega

/-- The destructor of the remote stream and the one of the scope at the same time: the callback, copied before the scope was gone, is called when it is. -/
def raceActs : List Act := [.thread, .collect, .begin .scope, .waiter .scope, .waiter .scope, .schemaReply false, .thread, .thread, .thread, .thread, .thread, .waiter .scope, .join, .begin .owner]

/-- Not what one would wish: the object can be used after it was destroyed, when the remote stream and the scope of the subscription are destroyed at the same time. -/
theorem callback_of_a_destroyed_scope : (run .terminate (init 0) raceActs).map (fun s => (s.scope, s.bad)) = some (.gone, true) := by decide +kernel

set_option maxHeartbeats 2000000 in
theorem bad_step {ans : OnTerminate} {s s' : State} {a : Act} (hb : s.bad = false) (ho : s.owner = .idle ∨ s.owner = .returned ∨ s.scope ≠ .gone) (h : step ans s a = some s') :
    s'.bad = false := by
  cases a with
  | waiter w =>
    simp only [step, waiterStep, Option.map_eq_some_iff] at h
    obtain ⟨t, h, rfl⟩ := h
    have := setW_log s w
    cases w <;> simp only [State.wpc] at h
    all_goals ((repeat' split at h) <;> first | contradiction | (injection h with h; subst h))
    all_goals simp only [State.setW, State.ev] at *
    all_goals grind
  | getReply w =>
    simp only [step] at h
    have := setW_log s w .returned
    split at h <;> first | contradiction | (injection h with h; subst h)
    grind
  | spurious w =>
    simp only [step] at h
    have := setW_log s w .woken
    split at h <;> first | contradiction | (injection h with h; subst h)
    grind
  | begin w =>
    cases w <;> simp only [step] at h
    all_goals (split at h <;> first | contradiction | (injection h with h; subst h))
    all_goals grind
  | _ =>
    simp only [step, threadStep] at h
    (repeat' split at h) <;> first | contradiction | (injection h with h; subst h)
    all_goals try simp only [State.ev, State.setId] at *
    all_goals grind

/-- C115: as long as the scope has not been destroyed, nothing has used a destroyed object. -/
theorem alive_not_bad {ans : OnTerminate} {start : Nat} {s : State} (h : Reach ans start s) (hg : s.scope ≠ .gone) : s.bad = false := by
  obtain ⟨as, h⟩ := h
  have gone_stays : ∀ (s s' : State) (a : Act), step ans s a = some s' → s.scope = .gone → s'.scope = .gone := by
    intro s s' a h hg
    cases a with
    | waiter w =>
      simp only [step, waiterStep, Option.map_eq_some_iff] at h
      obtain ⟨t, h, rfl⟩ := h
      cases w <;> simp only [State.wpc, hg] at h
      all_goals ((repeat' split at h) <;> first | contradiction | (injection h with h; subst h))
      all_goals simp only [State.setW, State.ev, hg] at *
      all_goals simp_all
    | getReply w =>
      cases w <;> simp only [step, State.wpc, hg] at h
      all_goals ((repeat' split at h) <;> first | contradiction | (injection h with h; subst h))
      all_goals simp_all [State.setW]
    | spurious w =>
      simp only [step] at h
      split at h <;> first | contradiction | (injection h with h; subst h)
      rename_i hc
      cases w <;> simp_all [State.setW, State.wpc]
    | begin w =>
      cases w <;> simp only [step, hg] at h
      all_goals (split at h <;> first | contradiction | (injection h with h; subst h))
      all_goals simp_all
    | _ =>
      simp only [step, threadStep] at h
      (repeat' split at h) <;> first | contradiction | (injection h with h; subst h)
      all_goals simp_all [State.ev, State.setId, wake]
  have key := run_induct (ans := ans) (start := start) (P := fun s => s.scope ≠ .gone → s.bad = false) (fun s s' a _ hp hs hg' => by
    by_cases hg0 : s.scope = .gone
    · exact absurd (gone_stays s s' a hs hg0) hg'
    · exact bad_step (hp hg0) (Or.inr (Or.inr hg0)) hs) as (inv_init start) (by simp [init]) h
  exact key hg

/-- C115: destroying the remote stream first and the scope afterwards is fine: once the callback of the remote stream has returned, nothing ever uses a destroyed object. -/
theorem owner_first_is_safe {ans : OnTerminate} {start : Nat} {s s' : State} {as : List Act} (h : Reach ans start s) (hg : s.scope ≠ .gone) (ho : s.owner = .returned)
    (hr : run ans s as = some s') : s'.bad = false := by
  have hb := alive_not_bad h hg
  have stays : ∀ (s s' : State) (a : Act), step ans s a = some s' → s.owner = .returned → s'.owner = .returned := by
    intro s s' a h hg
    cases a with
    | waiter w =>
      simp only [step, waiterStep, Option.map_eq_some_iff] at h
      obtain ⟨t, h, rfl⟩ := h
      cases w <;> simp only [State.wpc, hg] at h
      all_goals ((repeat' split at h) <;> first | contradiction | (injection h with h; subst h))
      all_goals simp only [State.setW, State.ev, hg] at *
      all_goals simp_all
    | getReply w =>
      cases w <;> simp only [step, State.wpc, hg] at h
      all_goals ((repeat' split at h) <;> first | contradiction | (injection h with h; subst h))
      all_goals simp_all [State.setW]
    | spurious w =>
      simp only [step] at h
      split at h <;> first | contradiction | (injection h with h; subst h)
      rename_i hc
      cases w <;> simp_all [State.setW, State.wpc]
    | begin w =>
      cases w <;> simp only [step, hg] at h
      all_goals (split at h <;> first | contradiction | (injection h with h; subst h))
      all_goals simp_all
    | _ =>
      simp only [step, threadStep] at h
      (repeat' split at h) <;> first | contradiction | (injection h with h; subst h)
      all_goals simp_all [State.ev, State.setId, wake]
  have key : ∀ (as : List Act) (s : State), s.bad = false → s.owner = .returned → run ans s as = some s' → s'.bad = false := by
    intro as
    induction as with
    | nil => intro s hb _ h; simp only [run, Option.some.injEq] at h; exact h ▸ hb
    | cons a as ih =>
      intro s hb ho h
      simp only [run, Option.bind_eq_some_iff] at h
      obtain ⟨t, h1, h2⟩ := h
      exact ih t (bad_step hb (Or.inr (Or.inl ho)) h1) (stays _ _ _ h1 ho) h2
  exact key as s hb ho hr

/-! ### Concrete histories -/

/-- The schema, a subscription with an id, three lines of which the second makes the subscriber throw; a new connection from the entry that was not accepted; then the scope is destroyed
while the next chunk is being read. -/
def demoActs : List Act :=
  [.thread, .schemaReply true, .header 7, .chunk 3, .line .entry .more, .line .entry .throws, .thread, .thread, .schemaReply true, .header 8, .chunk 2, .line .entry .more, .begin .scope,
   .waiter .scope, .waiter .scope, .line .head .more, .thread, .chunk 5, .httpEnd, .getReply .scope, .thread, .thread, .thread, .thread, .thread, .join]

/-- What is seen: the entry that was not accepted is offered again; the chunk that had begun is finished, the next one is not looked at; the current subscription is terminated. -/
theorem demo_history : (run .terminate (init 5) demoActs).map (fun s => (s.log.reverse, s.scope, s.bad)) = some
    ([.schemaAsked, .subscribeAsked 5, .announced 7, .call .entry 5 .more, .call .entry 6 .throws, .schemaAsked, .subscribeAsked 6, .announced 8, .call .entry 6 .more,
      .terminateAsked 8, .call .head 7 .more, .terminateCalled, .doneCallback], .gone, false) := by decide +kernel

/-- The hypotheses of `ends_soon` are met: the end is requested with one line of a chunk left. -/
theorem demo_requested : (run .terminate (init 5) (demoActs.take 15)).map (fun s => (s.requested, s.pc, s.scope)) = some (true, .chunk 1, .get 8) := by decide +kernel

/-- The remote stream is destroyed first, then the scope. -/
theorem demo_owner_first : (run .terminate (init 0) [.thread, .collect, .begin .owner, .waiter .owner, .waiter .owner, .schemaReply false, .thread, .thread, .thread, .thread, .thread,
    .waiter .owner, .begin .scope, .waiter .scope, .join]).map (fun s => (s.owner, s.scope, s.bad)) = some (.returned, .gone, false) := by decide +kernel

/-- A subscriber that answers `Wait`: the end is requested while the connection is open. -/
theorem demo_wait : (run .wait (init 0) [.thread, .schemaReply true, .header 1, .begin .scope, .waiter .scope, .waiter .scope, .getReply .scope, .chunk 1]).map
    (fun s => (s.requested, s.pc, s.scope)) = some (true, .http, .returned) := by decide +kernel

/-- An exception of another kind leaves the thread, and the program is terminated. -/
theorem foreign_exception_crashes : (run .terminate (init 0) [.thread, .schemaReply true, .chunk 1, .line .entry .crashes]).map (·.pc) = some .crashed := by decide +kernel

end Current.Remote
