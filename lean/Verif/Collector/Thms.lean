import Verif.Collector.Model
set_option linter.unusedSimpArgs false
set_option linter.unusedVariables false

/-! # The event collector: every request is logged once before it is answered; ticks fill the gaps. -/

namespace Current.Collector
open Current.Persist

variable {R : Type}

/-- The invariant. -/
structure Inv (interval : Nat) (s : St R) : Prop where
  pend : ∀ r t, s.pending = some (r, t) → t ≤ s.clock
  last : s.last ≤ s.clock
  lastIs : s.last = (match s.log with | [] => 0 | p :: _ => p.t)
  called : s.called = s.log
  resp : s.responded = requests s.log
  pushed : s.pushed = s.log.length
  apart : TicksApart interval s.log
  ticks : s.ticks = true → 0 < interval
  noTicks : interval = 0 → ∀ p ∈ s.log, ∀ t, p ≠ .tick t
  early : ∀ p ∈ s.log, p.t ≤ s.clock
  wake : s.wake ≤ s.last + interval + 1 ∨ s.wake = 0 ∨ ∃ r t, s.log.head? = some (.req r t) ∧ t ≤ s.clock

theorem Inv.init (interval : Nat) : Inv interval (init interval : St R) := by
  constructor <;> simp [Collector.init, requests, TicksApart]

theorem Inv.step {interval : Nat} {s s' : St R} {o : Op R} (h : Inv interval s) (hs : step interval s o = some s') : Inv interval s' := by
  obtain ⟨h1, h2, h3, h4, h5, h6, h7, h8, h9, h10, h11⟩ := h
  cases o with
  | arrive r t =>
    simp only [Collector.step] at hs
    split at hs
    · cases hs
    · rename_i hg
      simp only [Bool.or_eq_true, decide_eq_true_eq, not_or] at hg
      injection hs with hs
      subst hs
      refine ⟨?_, ?_, h3, h4, h5, h6, h7, h8, h9, ?_, ?_⟩ <;> simp only
      · intro r' t' he; cases he; exact Nat.le_refl _
      · omega
      · intro p hp; have := h10 p hp; omega
      · rcases h11 with h | h | ⟨r', t', h, h'⟩
        · exact Or.inl h
        · exact Or.inr (Or.inl h)
        · exact Or.inr (Or.inr ⟨r', t', h, by omega⟩)
  | commit =>
    simp only [Collector.step] at hs
    split at hs
    · cases hs
    · rename_i r t hp
      injection hs with hs
      subst hs
      have := h1 r t hp
      refine ⟨by simp, by simpa using this, by simp [Line.t], by simp [h4], by simp [requests, h5], by simp [h6], by simpa [TicksApart] using h7, h8, ?_, ?_, ?_⟩
      · intro hi p hp' t'
        rcases List.mem_cons.1 hp' with rfl | hp'
        · simp
        · exact h9 hi p hp' t'
      · intro p hp'
        rcases List.mem_cons.1 hp' with rfl | hp'
        · exact this
        · exact h10 p hp'
      · exact Or.inr (Or.inr ⟨r, t, rfl, this⟩)
  | timer t =>
    simp only [Collector.step] at hs
    split at hs
    · cases hs
    · rename_i hg
      simp only [Bool.or_eq_true, decide_eq_true_eq, not_or, Bool.not_eq_true', Bool.not_eq_false] at hg
      split at hs
      · rename_i hi
        injection hs with hs
        subst hs
        refine ⟨?_, by simp, by simp [Line.t], by simp [h4], by simp [requests, h5], by simp [h6], ?_, h8, ?_, ?_, by simp⟩
        · intro r' t' he
          have := h1 r' t' he
          simp only; omega
        · refine ⟨?_, h7⟩
          cases hl : s.log with
          | nil => rw [hl] at h3; simp at h3; simp only; omega
          | cons p l => rw [hl] at h3; simp at h3; simp only; omega
        · intro h0 p hp' t'
          have := h8 hg.1.1
          omega
        · intro p hp'
          rcases List.mem_cons.1 hp' with rfl | hp'
          · exact Nat.le_refl _
          · have := h10 p hp'; simp only; omega
      · rename_i hi
        injection hs with hs
        subst hs
        refine ⟨?_, by simp only; omega, h3, h4, h5, h6, h7, h8, h9, ?_, ?_⟩
        · intro r' t' he
          have := h1 r' t' he
          simp only; omega
        · intro p hp'; have := h10 p hp'; simp only; omega
        · refine Or.inl ?_
          simp only; omega
  | stop =>
    simp only [Collector.step] at hs
    injection hs with hs
    subst hs
    exact ⟨h1, h2, h3, h4, h5, h6, h7, by simp, h9, h10, h11⟩

theorem Inv.run {interval : Nat} {s s' : St R} {os : List (Op R)} (h : Inv interval s) (hs : run interval s os = some s') : Inv interval s' := by
  induction os generalizing s with
  | nil => cases hs; exact h
  | cons o os ih =>
    simp only [Collector.run] at hs
    split at hs
    · cases hs
    · rename_i s1 h1
      exact ih (h.step h1) hs

/-- After any history: the log has exactly one line for every request answered, in the order of the responses (and a request is answered after its line is written: the line and the response are one step, in this order); the callback is called for every line, in the order of the log; the counter is the number of lines. -/
theorem logged_once (interval : Nat) (os : List (Op R)) (s : St R) (h : run interval (init interval) os = some s) :
    requests s.log = s.responded ∧ s.called = s.log ∧ s.pushed = s.log.length :=
  let hi := (Inv.init interval).run h
  ⟨hi.resp.symm, hi.called, hi.pushed⟩

/-- A tick comes at least the interval after the line before it, and there are none if the interval is not positive. -/
theorem ticks_apart (interval : Nat) (os : List (Op R)) (s : St R) (h : run interval (init interval) os = some s) :
    TicksApart interval s.log ∧ (interval = 0 → ∀ p ∈ s.log, ∀ t, p ≠ .tick t) :=
  let hi := (Inv.init interval).run h
  ⟨hi.apart, hi.noTicks⟩

/-- No silence goes unnoticed: when the timer thread has woken up and found it too early, then it wakes up again just after the interval, and then, if nothing else was written meanwhile, it writes a tick. -/
theorem tick_after_silence (interval : Nat) (os : List (Op R)) (s s1 s2 : St R) (h : run interval (init interval) os = some s) (t t' : Nat)
    (h1 : step interval s (.timer t) = some s1) (hearly : s1.log = s.log) (h2 : step interval s1 (.timer t') = some s2) :
    s1.wake = s.last + interval + 1 ∧ s2.log = .tick t' :: s.log := by
  have hi := (Inv.init interval).run h
  have hl := hi.last
  simp only [step] at h1
  split at h1
  · cases h1
  · rename_i hg
    simp only [Bool.or_eq_true, decide_eq_true_eq, not_or, Bool.not_eq_true', Bool.not_eq_false] at hg
    split at h1
    · injection h1 with h1
      subst h1
      exact absurd (congrArg List.length hearly) (by simp)
    · rename_i hi'
      injection h1 with h1
      subst h1
      refine ⟨by simp only; omega, ?_⟩
      simp only [step] at h2
      split at h2
      · cases h2
      · rename_i hg2
        simp only [Bool.or_eq_true, decide_eq_true_eq, not_or, Bool.not_eq_true', Bool.not_eq_false] at hg2
        split at h2
        · injection h2 with h2
          subst h2
          rfl
        · rename_i hc
          exfalso
          apply hc
          omega

/-- Once the destructor has run, nothing is written by the timer. -/
theorem no_ticks_after_stop (interval : Nat) (s : St R) (t : Nat) : (step interval s .stop).bind (fun s' => step interval s' (.timer t)) = none := by
  simp [step]

theorem sorted_from {interval : Nat} {s s' : St R} {os : List (Op R)} (hi : Inv interval s) (hsort : (s.log.map (·.t)).Pairwise (· > ·))
    (hp : ∀ r t, s.pending = some (r, t) → ∀ p ∈ s.log, p.t < t) (hu : Undisturbed s.pending.isSome os)
    (h : run interval s os = some s') : (s'.log.map (·.t)).Pairwise (· > ·) := by
  induction os generalizing s with
  | nil => cases h; exact hsort
  | cons o os ih =>
    simp only [run] at h
    split at h
    · cases h
    · rename_i s1 h1
      have hi1 := hi.step h1
      cases o with
      | arrive r t =>
        simp only [step] at h1
        split at h1
        · cases h1
        · rename_i hg
          simp only [Bool.or_eq_true, decide_eq_true_eq, not_or] at hg
          injection h1 with h1
          subst h1
          refine ih hi1 hsort ?_ hu h
          intro r' t' he p hp'
          cases he
          have := hi.early p hp'
          omega
      | commit =>
        simp only [step] at h1
        split at h1
        · cases h1
        · rename_i r t hpend
          injection h1 with h1
          subst h1
          refine ih hi1 ?_ (by simp) hu h
          simp only [List.map_cons, List.pairwise_cons]
          refine ⟨?_, hsort⟩
          intro a ha
          obtain ⟨p, hp', rfl⟩ := List.mem_map.1 ha
          exact hp r t hpend p hp'
      | timer t =>
        obtain ⟨hb, hu⟩ := hu
        simp only [step] at h1
        split at h1
        · cases h1
        · rename_i hg
          simp only [Bool.or_eq_true, decide_eq_true_eq, not_or, Bool.not_eq_true', Bool.not_eq_false] at hg
          split at h1
          · injection h1 with h1
            subst h1
            refine ih hi1 ?_ ?_ hu h
            · simp only [List.map_cons, List.pairwise_cons]
              refine ⟨?_, hsort⟩
              intro a ha
              obtain ⟨p, hp', rfl⟩ := List.mem_map.1 ha
              have := hi.early p hp'
              show p.t < t
              omega
            · intro r' t' he
              simp only at he
              rw [he] at hb
              cases hb
          · injection h1 with h1
            subst h1
            exact ih hi1 hsort hp hu h
      | stop =>
        simp only [step] at h1
        injection h1 with h1
        subst h1
        exact ih hi1 hsort hp hu h

/-- The lines are in the order of their timestamps (newest first: decreasing), as long as no tick is written between a request reading the clock and it taking the mutex. -/
theorem sorted_partial (interval : Nat) (os : List (Op R)) (hu : Undisturbed false os) (s : St R) (h : run interval (init interval) os = some s) :
    (s.log.map (·.t)).Pairwise (· > ·) :=
  sorted_from (Inv.init interval) List.Pairwise.nil (by simp [init]) hu h

/-! ### A concrete history, and the race -/

/-- A request, a wake-up which is too early, a tick. -/
theorem demo_run : (run 3 (init 3) [.arrive "a".toList 10, .commit, .timer 11, .timer 14]).map (·.log) = some [.tick 14, .req "a".toList 10] := rfl

theorem demo_undisturbed : Undisturbed false [Op.arrive "a".toList 10, .commit, .timer 11, .timer 14] := by simp [Undisturbed]

/-- The clock is read before the mutex is taken: a tick written in between makes the log go back in time. -/
theorem log_goes_back : (run 3 (init 3) [.arrive "a".toList 10, .timer 11, .commit]).map (·.log) = some [.req "a".toList 10, .tick 11] := rfl

end Current.Collector
