import Verif.Karl.Props
/-! Concrete runs of Karl: the hypotheses of the theorems are met, and what is not true is not true. -/
namespace Current.Karl

set_option synthInstance.maxSize 4096

abbrev Act := Action Nat Nat Nat
abbrev St := State Nat Nat Nat

theorem steps_append {T : Nat} (as bs : List Act) : ∀ (s : St),
    Steps T s (as ++ bs) = (Steps T s as).bind fun s' => Steps T s' bs := by
  induction as with
  | nil => intro s; rfl
  | cons a as ih =>
    intro s
    simp only [List.cons_append, Steps]
    cases h : step T s a with
    | none => rfl
    | some s1 => simp only [Option.bind_some]; exact ih s1

theorem reach_steps {T t₀ : Nat} {dom : List Nat} {cl : Nat → Option (Claire Nat Nat)} (as : List Act) :
    ∀ (s s' : St), Reach T t₀ dom cl s → Steps T s as = some s' → Reach T t₀ dom cl s' := by
  induction as with
  | nil => intro s s' r h; simp only [Steps, Option.some.injEq] at h; exact h ▸ r
  | cons a as ih =>
    intro s s' r h
    simp only [Steps] at h
    cases hs : step T s a with
    | none => simp [hs] at h
    | some s1 => rw [hs, Option.bind_some] at h; exact ih s1 s' (.step a r hs) h

theorem fresh_steps {T t₀ : Nat} {dom : List Nat} {cl : Nat → Option (Claire Nat Nat)} (as : List Act)
    (hp : ∀ a ∈ as, a ≠ .populate) :
    ∀ (s s' : St), Fresh T t₀ dom cl s → Steps T s as = some s' → Fresh T t₀ dom cl s' := by
  induction as with
  | nil => intro s s' r h; simp only [Steps, Option.some.injEq] at h; exact h ▸ r
  | cons a as ih =>
    intro s s' r h
    simp only [Steps] at h
    cases hs : step T s a with
    | none => simp [hs] at h
    | some s1 =>
      rw [hs, Option.bind_some] at h
      exact ih (fun b hb => hp b (by simp [hb])) s1 s' (.step a r hs fun ha => absurd ha (hp a (by simp))) h

/-- time passes while the state update thread sleeps without a limit -/
theorem ticks_forever (T : Nat) (n : Nat) : ∀ (s : St), s.loop = .wait none → s.notified = false →
    Steps T s (List.replicate n .tick) = some { s with now := s.now + n } := by
  induction n with
  | zero => intro s _ _; rfl
  | succ n ih =>
    intro s hl hn
    have ha : asleep s = true := by simp [asleep, hl, hn]
    simp only [List.replicate_succ, Steps, step, ha, if_true, Option.bind_some]
    rw [ih { s with now := s.now + 1 } hl hn]
    simp only [Option.some.injEq, State.mk.injEq, and_true]
    omega

/-- time passes while the state update thread sleeps with a limit -/
theorem ticks_until (T d : Nat) (n : Nat) : ∀ (s : St), s.loop = .wait (some d) → s.notified = false → s.now + n ≤ d →
    Steps T s (List.replicate n .tick) = some { s with now := s.now + n } := by
  induction n with
  | zero => intro s _ _ _; rfl
  | succ n ih =>
    intro s hl hn hd
    have ha : asleep s = true := by simp [asleep, hl, hn]; omega
    simp only [List.replicate_succ, Steps, step, ha, if_true, Option.bind_some]
    rw [ih { s with now := s.now + 1 } hl hn (by simp; omega)]
    simp only [Option.some.injEq, State.mk.injEq, and_true]
    omega

def ka (c : Nat) : List Act := [.kaBegin c c 7, .kaTx, .kaCache]
def del (c : Nat) : List Act := [.delBegin c, .delTx, .delErase]
def cycle : List Act := [.scan, .loopTx, .loopSleep]

/-- The hypotheses of `silent_is_dropped_partial`, `timed_out_was_silent` and `deregistered_stays_partial` are met: two
services register, one falls silent and is timed out, the other one leaves. -/
theorem demo_life : (Steps 5 (start 1 [] fun _ => none) (.populate :: ka 1 ++ ka 2 ++ cycle ++ cycle ++
      List.replicate 3 .tick ++ ka 2 ++ List.replicate 4 .tick ++ [.loopTimeout] ++ cycle ++ del 2)).map
      (fun s => ((s.claires 1).map (·.reg), (s.claires 2).map (·.reg), s.cache 1, s.cache 2, s.events)) =
    some (some .disconnected, some .deregistered, none, none,
      [.keepalive 1 1, .keepalive 2 1, .keepalive 2 4, .timedOut 1, .deregistered 2]) := by decide +kernel

/-- A service that left gracefully can end up as disconnected by timeout, with `OnTimedOut` called after
`OnDeregistered`: the state update thread picked it just before the `DELETE` arrived. -/
theorem deregistered_overwritten : (Steps 5 (start 1 [] fun _ => none) (.populate :: ka 1 ++ cycle ++ cycle ++
      List.replicate 6 .tick ++ [.loopTimeout, .scan] ++ del 1 ++ [.loopTx])).map
      (fun s => ((s.claires 1).map (·.reg), s.events)) =
    some (some .disconnected, [.keepalive 1 1, .deregistered 1, .timedOut 1]) := by decide +kernel

/-- A service whose keepalive has just been accepted and answered can be marked as disconnected: the state update thread
picked it just before.  Its next keepalive makes it active again. -/
theorem accepted_then_disconnected : (Steps 5 (start 1 [] fun _ => none) (.populate :: ka 1 ++ cycle ++ cycle ++
      List.replicate 6 .tick ++ [.loopTimeout, .scan] ++ ka 1 ++ [.loopTx])).map
      (fun s => ((s.claires 1).map (·.reg), s.cache 1, s.now, s.events)) =
    some (some .disconnected, some 7, 7, [.keepalive 1 1, .keepalive 1 7, .timedOut 1]) := by decide +kernel

/-! ## After a restart -/

/-- the storage a Karl that was killed has left: services 1 and 2 are active -/
def left (c : Nat) : Option (Claire Nat Nat) := if c = 1 ∨ c = 2 then some ⟨7, c, 1, .active⟩ else none

/-- Karl starts, its state update thread goes to sleep before the constructor reads the storage -/
def restarted : Option St := Steps 5 (start 10 [1, 2] left) (cycle ++ [.populate])

theorem restarted_ok : restarted.map (fun s => (s.now, s.notified, s.lag, s.force, s.cache 1, s.cache 2, s.constructed)) =
    some (10, false, 0, false, some 10, some 10, true) ∧
    ∀ s, restarted = some s → s.loop = .wait none ∧ Active s 1 := by
  refine ⟨by decide +kernel, fun s h => ?_⟩
  have h1 : (restarted.map fun s => match s.loop with | .wait none => true | _ => false) = some true := by decide +kernel
  have h2 : (restarted.map fun s => (s.claires 1)) = some (some ⟨7, 1, 1, .active⟩) := by decide +kernel
  rw [h] at h1 h2
  simp only [Option.map_some, Option.some.injEq] at h1 h2
  refine ⟨?_, _, h2, rfl⟩
  split at h1
  · assumption
  · simp at h1

/-- A dead service stays active forever.  Karl is restarted after it was killed; a service that had been active is gone.
For every `n` there is a run in which, `n` microseconds after the start, that service is still active, although the state
update thread has not been delayed at all, is asleep, and will not wake up by itself. -/
theorem restart_never_drops (n : Nat) : ∃ s : St, Reach 5 10 [1, 2] left s ∧ s.now = 10 + n ∧ s.constructed = true ∧
    Active s 1 ∧ s.cache 1 = some 10 ∧ s.lag = 0 ∧ asleep s = true ∧ s.loop = .wait none ∧ s.hand = .idle := by
  have h0 : ∃ s, restarted = some s := by
    cases h : restarted with
    | none => have := restarted_ok.1; simp [h] at this
    | some s => exact ⟨s, rfl⟩
  obtain ⟨s, hs⟩ := h0
  have h1 := restarted_ok.1
  have h2 := restarted_ok.2 s hs
  have h3 : (restarted.map fun s => match s.hand with | .idle => true | _ => false) = some true := by decide +kernel
  rw [hs] at h1 h3
  simp only [Option.map_some, Option.some.injEq, Prod.mk.injEq] at h1 h3
  obtain ⟨e1, e2, e3, e4, e5, e6, e7⟩ := h1
  have hr : Reach 5 10 [1, 2] left s := reach_steps _ _ _ .start hs
  refine ⟨{ s with now := s.now + n }, reach_steps _ _ _ hr (ticks_forever 5 n s h2.1 e2), by simp [e1], e7, h2.2, e5, e3, ?_,
    h2.1, ?_⟩
  · simp [asleep, h2.1, e2]
  · split at h3
    · assumption
    · simp at h3

/-- Keepalives of the other service do not help: it is in the cache already, so they do not wake the thread up. -/
theorem restart_keepalive_no_wake : (Steps 5 (start 10 [1, 2] left) (cycle ++ [.populate] ++ List.replicate 100 .tick ++
      ka 2 ++ List.replicate 100 .tick ++ ka 2)).map
      (fun s => (s.now, s.notified, s.lag, s.force, s.cache 1, s.cache 2, (s.claires 1).map (·.reg))) =
    some (210, false, 0, false, some 10, some 210, some .active) := by decide +kernel

/-! ## The bound cannot be improved -/

theorem steps_cons {T : Nat} {s s1 : St} {a : Act} {as : List Act} (h : step T s a = some s1) :
    Steps T s (a :: as) = Steps T s1 as := by simp [Steps, h]

/-- service 1 has registered at time 1 and the state update thread sleeps -/
def first (T : Nat) : St :=
  { now := 1, dom := [1], claires := fun c => if c = 1 then some ⟨7, 1, 1, .active⟩ else none,
    cache := fun c => if c = 1 then some 1 else none, force := false, notified := false,
    loop := .wait (some (T + 2)), hand := .idle, constructed := true, destructing := false, dtorNotified := false,
    events := [.keepalive 1 1], finished := [(1, 1)], seen := fun _ => 1, lastScan := 1, scanned := 1, lag := 0 }

theorem first_reached (T : Nat) (hT : 0 < T) :
    Steps T (start 1 [] fun _ => none) ([.populate] ++ ka 1 ++ cycle ++ cycle) = some (first T) := by
  have hn : ¬ T < 0 := by omega
  simp [Steps, step, ka, cycle, start, scanLate, scanRecent, pickRecent, late, put, kept, waits, hT, hn, first]
  and_intros
  all_goals first | omega | rfl | (funext c; by_cases hc : c = 1 <;> simp [hc, hn]; done) | (funext c; simp [put]; done)

/-- service 2 has registered at the last moment at which service 1 is not late yet -/
def second (T : Nat) : St :=
  { now := T + 1, dom := [2, 1],
    claires := fun c => if c = 2 then some ⟨7, 2, T + 1, .active⟩ else if c = 1 then some ⟨7, 1, 1, .active⟩ else none,
    cache := fun c => if c = 2 then some (T + 1) else if c = 1 then some 1 else none, force := false, notified := false,
    loop := .wait (some (2 * T + 2)), hand := .idle, constructed := true, destructing := false, dtorNotified := false,
    events := [.keepalive 1 1, .keepalive 2 (T + 1)], finished := [(1, 1), (2, T + 1)],
    seen := fun c => if c = 2 then T + 1 else 1, lastScan := T + 1, scanned := 2, lag := 0 }

theorem second_reached (T : Nat) (hT : 0 < T) :
    Steps T { first T with now := T + 1 } (ka 2 ++ [.loopWake] ++ cycle) = some (second T) := by
  simp [Steps, step, ka, cycle, first, scanLate, scanRecent, pickRecent, late, put, kept, waits, hT, second]
  and_intros
  all_goals first | omega | rfl | (funext c; by_cases hc : c = 2 <;> by_cases hd : c = 1 <;> simp [hc, hd]; done)

/-- For every timeout there is a run in which the state update thread is never delayed and a service that has been silent
for `2 * service_timeout_interval + 1` microseconds is still active: the thread sleeps until the *most recent* keepalive is
old enough, not the least recent one. -/
theorem bound_is_tight (T : Nat) (hT : 0 < T) : ∃ s : St, Fresh T 1 [] (fun _ => none) s ∧ s.constructed = true ∧
    Active s 1 ∧ s.now = s.seen 1 + 2 * T + 1 ∧ s.lag = 0 ∧ s.finished.count (1, 1) = 1 ∧
    (∀ p ∈ s.finished, p.1 = 1 → p.2 = 1) ∧ s.hand = .idle := by
  have f0 : Fresh T 1 [] (fun _ => none) (start 1 [] fun _ => none : St) := .start
  have f1 : Fresh T 1 [] (fun _ => none) ({ (start 1 [] fun _ => none : St) with constructed := true }) :=
    .step .populate f0 (by simp [step, start]) (fun _ c ⟨x, hx, _⟩ => by simp [start] at hx)
  have f2 : Fresh T 1 [] (fun _ => none) (first T) := by
    refine fresh_steps (ka 1 ++ cycle ++ cycle) (by simp [ka, cycle]) _ _ f1 ?_
    have h := first_reached T hT
    rw [List.append_assoc, List.append_assoc, List.singleton_append] at h
    rwa [steps_cons (s1 := { (start 1 [] fun _ => none : St) with constructed := true }) (by simp [step, start]),
      ← List.append_assoc] at h
  have f3 : Fresh T 1 [] (fun _ => none) { first T with now := T + 1 } := by
    refine fresh_steps (List.replicate T .tick) (by simp) _ _ f2 ?_
    rw [ticks_until T (T + 2) T (first T) rfl rfl (by simp [first]; omega)]
    simp [first]; omega
  have f4 : Fresh T 1 [] (fun _ => none) (second T) :=
    fresh_steps _ (by simp [ka, cycle]) _ _ f3 (second_reached T hT)
  have f5 : Fresh T 1 [] (fun _ => none) { second T with now := 2 * T + 2 } := by
    refine fresh_steps (List.replicate (T + 1) .tick) (by simp) _ _ f4 ?_
    rw [ticks_until T (2 * T + 2) (T + 1) (second T) rfl rfl (by simp [second]; omega)]
    simp [second]; omega
  refine ⟨_, f5, rfl, ⟨⟨7, 1, 1, .active⟩, by simp [second], rfl⟩, by simp [second]; omega, rfl, ?_, ?_, rfl⟩
  · simp [second]
  · simp [second]
end Current.Karl
