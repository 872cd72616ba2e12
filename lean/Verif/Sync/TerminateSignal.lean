/-!
C158: `WaitableTerminateSignal` and `WaitableTerminateSignalBulkNotifier` (`bricks/util/waitable_terminate_signal.h`).

One thread is inside `WaitUntil`; all others are the environment: they take and release the mutex, change the external condition, set
the flag and notify, with or without the mutex, in any order. `condition_variable::wait_for` with a predicate is the loop that the
standard prescribes: `while (!pred()) if (wait_until(lock, t) == timeout) return pred(); return true;`. The clock is not modelled: the
25 milliseconds may have passed whenever the thread is blocked.
-/
namespace Current.Sync.TerminateSignal

inductive Owner where
  | nobody | waiter | other
deriving DecidableEq

/-- Where the waiting thread is. `late`: the time is up, so that the predicate is evaluated for the last time in this `wait_for`. -/
inductive Pc where
  | testStop (late : Bool)   -- about to read the flag, `:63`
  | testCond (late : Bool)   -- about to evaluate the external condition, `:63`
  | toBlock                  -- the predicate was false; about to release the mutex and to block
  | blocked
  | wake (late : Bool)       -- woken up, about to take the mutex
  | ret                      -- out of the loop, about to read the flag, `:71`
  | done (r : Bool)
deriving DecidableEq

structure St where
  stop : Bool
  cond : Bool
  owner : Owner
  pc : Pc
deriving DecidableEq

/-- Steps of the waiting thread (`WaitUntil`, `:59-72`). -/
inductive Own : St → St → Prop where
  | stopYes (s l) : s.pc = .testStop l → s.stop = true → Own s { s with pc := .ret }
  | stopNo (s l) : s.pc = .testStop l → s.stop = false → Own s { s with pc := .testCond l }
  | condYes (s l) : s.pc = .testCond l → s.cond = true → Own s { s with pc := .ret }
  | condNo (s) : s.pc = .testCond false → s.cond = false → Own s { s with pc := .toBlock }
  /-- `wait_for` returns false, and the outer loop (`:67-70`) calls it again. -/
  | again (s) : s.pc = .testCond true → s.cond = false → Own s { s with pc := .testStop false }
  | block (s) : s.pc = .toBlock → Own s { s with pc := .blocked, owner := .nobody }
  | timeout (s) : s.pc = .blocked → Own s { s with pc := .wake true }
  | spurious (s) : s.pc = .blocked → Own s { s with pc := .wake false }
  | lock (s l) : s.pc = .wake l → s.owner = .nobody → Own s { s with pc := .testStop l, owner := .waiter }
  | out (s) : s.pc = .ret → Own s { s with pc := .done s.stop }

/-- Steps of everybody else. -/
inductive Env : St → St → Prop where
  | take (s) : s.owner = .nobody → Env s { s with owner := .other }
  | release (s) : s.owner = .other → Env s { s with owner := .nobody }
  /-- The external condition changes. -/
  | change (s b) : Env s { s with cond := b }
  /-- `SignalExternalTermination` (`:48-51`), its first half. -/
  | signal (s) : Env s { s with stop := true }
  /-- `notify_all()`, its second half, or `NotifyOfExternalWaitableEvent` (`:55`). -/
  | notify (s) : Env s { s with pc := if s.pc = .blocked then .wake false else s.pc }
  | idle (s) : Env s s

def Step (s t : St) : Prop := Own s t ∨ Env s t

/-- `WaitUntil` is called with the mutex locked. -/
def Init (s : St) : Prop := s.pc = .testStop false ∧ s.owner = .waiter

inductive Reach : St → Prop where
  | init (s) : Init s → Reach s
  | step (s t) : Reach s → Step s t → Reach t

/-! ### what it returns -/

/-- The mutex is held whenever the condition is evaluated, and when `WaitUntil` returns. -/
theorem mutex_held {s : St} (h : Reach s) : s.owner ≠ .waiter → s.pc = .blocked ∨ ∃ l, s.pc = .wake l := by
  induction h with
  | init s h => intro n; exact absurd h.2 n
  | step s t h st ih =>
    rcases st with st | st
    · cases st <;> simp_all
    · cases st <;> simp_all <;> grind

/-- It returns `true` only if the flag is set. -/
theorem returns_true {s : St} (h : Reach s) : s.pc = .done true → s.stop = true := by
  induction h with
  | init s h => intro n; rw [h.1] at n; exact absurd n (by simp)
  | step s t h st ih =>
    rcases st with st | st
    · cases st <;> simp_all
    · cases st <;> simp_all
      rename_i s
      intro q
      split at q
      · exact absurd q (by simp)
      · exact ih q

/-- As `Step`, but the condition is changed under the mutex only. -/
def Guarded (s t : St) : Prop := Step s t ∧ (s.cond ≠ t.cond → s.owner = .other)

inductive GReach : St → Prop where
  | init (s) : Init s → GReach s
  | step (s t) : GReach s → Guarded s t → GReach t

theorem GReach.reach {s : St} (h : GReach s) : Reach s := by
  induction h with
  | init s h => exact .init s h
  | step s t _ g ih => exact .step s t ih g.1

/-- It leaves the loop only when the flag is set or the condition holds. -/
theorem leaves {s : St} (h : GReach s) : s.pc = .ret → s.stop = true ∨ s.cond = true := by
  induction h with
  | init s h => intro n; rw [h.1] at n; exact absurd n (by simp)
  | step s t h g ih =>
    have m := mutex_held h.reach
    obtain ⟨st, hc⟩ := g
    rcases st with st | st
    · cases st <;> simp_all
    · cases st <;> simp_all <;> grind

/-- It returns `false` only if the condition holds at this moment, with the mutex held, so that it holds until the caller releases it. -/
theorem returns_false {s t : St} (h : GReach s) (st : Own s t) (r : t.pc = .done false) :
    t.cond = true ∧ t.owner = .waiter ∧ t.stop = false := by
  have l := leaves h
  have m := mutex_held h.reach
  cases st <;> simp_all

theorem stays_true {s : St} (h : GReach s) : s.pc = .done false → s.owner = .waiter ∧ s.cond = true := by
  induction h with
  | init s h => intro n; rw [h.1] at n; exact absurd n (by simp)
  | step s t h g ih =>
    intro r
    obtain ⟨st, hc⟩ := g
    rcases st with st | st
    · obtain ⟨a, b, _⟩ := returns_false h st r; exact ⟨b, a⟩
    · cases st <;> simp_all <;> grind

/-! ### that it returns -/

/-- Own steps left, once the flag is set. -/
def rankStop : Pc → Nat
  | .done _ => 0 | .ret => 1 | .testStop _ => 2 | .wake _ => 3 | .blocked => 4 | .toBlock => 5 | .testCond false => 6 | .testCond true => 3

/-- Own steps left, while the condition holds. -/
def rankCond : Pc → Nat
  | .done _ => 0 | .ret => 1 | .testCond _ => 2 | .testStop _ => 3 | .wake _ => 4 | .blocked => 5 | .toBlock => 6

theorem own_stop {s t : St} (h : s.stop = true) (st : Own s t) : rankStop t.pc < rankStop s.pc ∧ t.stop = true := by
  cases st with
  | condYes l h1 h2 => cases l <;> simp_all [rankStop]
  | _ => simp_all [rankStop]

theorem env_stop {s t : St} (h : s.stop = true) (st : Env s t) : rankStop t.pc ≤ rankStop s.pc ∧ t.stop = true := by
  cases st <;> simp_all
  split <;> simp_all [rankStop]

theorem own_cond {s t : St} (h : s.cond = true) (st : Own s t) : rankCond t.pc < rankCond s.pc := by
  cases st <;> simp_all [rankCond]

theorem env_cond {s t : St} (st : Env s t) : rankCond t.pc ≤ rankCond s.pc := by
  cases st <;> simp_all
  split <;> simp_all [rankCond]

/-- An execution without end. -/
structure Run where
  at_ : Nat → St
  init : Init (at_ 0)
  step : ∀ n, Step (at_ n) (at_ (n + 1))

/-- The waiting thread is not left standing for ever: it is scheduled, its 25 milliseconds pass, and it gets the mutex at last. -/
def Fair (r : Run) : Prop := ∀ n, (∀ b, (r.at_ n).pc ≠ .done b) → ∃ m, n ≤ m ∧ Own (r.at_ m) (r.at_ (m + 1))

theorem Run.stop_from (r : Run) {n : Nat} (h : (r.at_ n).stop = true) : ∀ k, (r.at_ (n + k)).stop = true ∧ rankStop (r.at_ (n + k)).pc ≤ rankStop (r.at_ n).pc := by
  intro k
  induction k with
  | zero => exact ⟨h, Nat.le_refl _⟩
  | succ k ih =>
    rcases r.step (n + k) with st | st
    · have := own_stop ih.1 st; exact ⟨this.2, Nat.le_trans (Nat.le_of_lt this.1) ih.2⟩
    · have := env_stop ih.1 st; exact ⟨this.2, Nat.le_trans this.1 ih.2⟩

/-- After `SignalExternalTermination` the wait ends, even if every notification is missed. -/
theorem ends_when_signalled (r : Run) (f : Fair r) {n : Nat} (h : (r.at_ n).stop = true) : ∃ m b, n ≤ m ∧ (r.at_ m).pc = .done b := by
  obtain ⟨k, hk⟩ : ∃ k, k = rankStop (r.at_ n).pc := ⟨_, rfl⟩
  induction k using Nat.strongRecOn generalizing n with
  | _ k ih =>
    by_cases hd : ∃ b, (r.at_ n).pc = .done b
    · obtain ⟨b, hb⟩ := hd; exact ⟨n, b, Nat.le_refl _, hb⟩
    · obtain ⟨m, hm, st⟩ := f n (fun b e => hd ⟨b, e⟩)
      have a := r.stop_from h (m - n)
      rw [Nat.add_sub_cancel' hm] at a
      have o := own_stop a.1 st
      obtain ⟨m', b, h1, h2⟩ := ih (rankStop (r.at_ (m + 1)).pc) (by omega) o.2 rfl
      exact ⟨m', b, by omega, h2⟩

/-- And it returns `true`, if it had not been about to return already. -/
theorem signalled_true (r : Run) {n : Nat} (h : (r.at_ n).stop = true) (hn : ∀ b, (r.at_ n).pc ≠ .done b) :
    ∀ k b, (r.at_ (n + k)).pc = .done b → b = true := by
  intro k
  induction k with
  | zero => intro b e; exact absurd e (hn b)
  | succ k ih =>
    intro b e
    have s := (r.stop_from h k).1
    rcases r.step (n + k) with st | st
    · generalize r.at_ (n + k) = s0 at *
      rw [← Nat.add_assoc] at e
      generalize r.at_ (n + k + 1) = t0 at *
      cases st <;> simp_all
    · generalize r.at_ (n + k) = s0 at *
      rw [← Nat.add_assoc] at e
      generalize r.at_ (n + k + 1) = t0 at *
      cases st <;> simp_all <;> grind

/-- If the condition holds from some time on, the wait ends. -/
theorem ends_when_true (r : Run) (f : Fair r) {n : Nat} (h : ∀ m, n ≤ m → (r.at_ m).cond = true) : ∃ m b, n ≤ m ∧ (r.at_ m).pc = .done b := by
  have mono : ∀ k n, (∀ m, n ≤ m → (r.at_ m).cond = true) → rankCond (r.at_ (n + k)).pc ≤ rankCond (r.at_ n).pc := by
    intro k
    induction k with
    | zero => intro n _; exact Nat.le_refl _
    | succ k ih =>
      intro n hc
      have := ih n hc
      rcases r.step (n + k) with st | st
      · have := own_cond (hc (n + k) (by omega)) st; rw [← Nat.add_assoc]; omega
      · have := env_cond st; rw [← Nat.add_assoc]; omega
  obtain ⟨k, hk⟩ : ∃ k, k = rankCond (r.at_ n).pc := ⟨_, rfl⟩
  induction k using Nat.strongRecOn generalizing n with
  | _ k ih =>
    by_cases hd : ∃ b, (r.at_ n).pc = .done b
    · obtain ⟨b, hb⟩ := hd; exact ⟨n, b, Nat.le_refl _, hb⟩
    · obtain ⟨m, hm, st⟩ := f n (fun b e => hd ⟨b, e⟩)
      have a := mono (m - n) n h
      rw [Nat.add_sub_cancel' hm] at a
      have o := own_cond (h m hm) st
      obtain ⟨m', b, h1, h2⟩ := ih (rankCond (r.at_ (m + 1)).pc) (by omega) (n := m + 1) (fun q hq => h q (by omega)) rfl
      exact ⟨m', b, by omega, h2⟩

theorem wake_free {s : St} (h : Reach s) : s.pc = .blocked ∨ (∃ l, s.pc = .wake l) → s.owner ≠ .waiter := by
  induction h with
  | init s h => intro n; rw [h.1] at n; rcases n with n | ⟨_, n⟩ <;> exact absurd n (by simp)
  | step s t h st ih =>
    rcases st with st | st
    · cases st <;> simp_all
    · cases st <;> simp_all <;> grind

/-- Until it has returned, it can go on, unless somebody else holds the mutex: so an execution may be fair. -/
theorem never_stuck {s : St} (h : Reach s) (hd : ∀ b, s.pc ≠ .done b) : (∃ t, Own s t) ∨ ((∃ l, s.pc = .wake l) ∧ s.owner = .other) := by
  have m := mutex_held h
  rcases hs : s.pc with l | l | _ | _ | l | _ | b
  · cases h : s.stop
    · exact .inl ⟨_, .stopNo s l hs h⟩
    · exact .inl ⟨_, .stopYes s l hs h⟩
  · cases h : s.cond
    · cases l
      · exact .inl ⟨_, .condNo s hs h⟩
      · exact .inl ⟨_, .again s hs h⟩
    · exact .inl ⟨_, .condYes s l hs h⟩
  · exact .inl ⟨_, .block s hs⟩
  · exact .inl ⟨_, .timeout s hs⟩
  · cases ho : s.owner
    · exact .inl ⟨_, .lock s l hs ho⟩
    · exact absurd ho (wake_free h (.inr ⟨l, hs⟩))
    · exact .inr ⟨⟨l, rfl⟩, rfl⟩
  · exact .inl ⟨_, .out s hs⟩
  · exact absurd hs (hd b)

/-- Without the 25 milliseconds a notification may be missed: the flag is set between its reading and the blocking, nobody holds the mutex, and only
the time-out (or a spurious wake-up) gets the thread going. -/
theorem lost_wakeup : ∃ s, Reach s ∧ s.stop = true ∧ s.owner = .nobody ∧ s.pc = .blocked ∧
    ∀ t, Own s t → t.pc = .wake true ∨ t.pc = .wake false := by
  let s0 : St := ⟨false, false, .waiter, .testStop false⟩
  have h0 : Reach s0 := .init _ ⟨rfl, rfl⟩
  have h1 : Reach ⟨false, false, .waiter, .testCond false⟩ := .step _ _ h0 (.inl (.stopNo s0 false rfl rfl))
  have h2 : Reach ⟨true, false, .waiter, .testCond false⟩ := .step _ _ h1 (.inr (.signal _))
  have h3 : Reach ⟨true, false, .waiter, .testCond false⟩ := .step _ _ h2 (.inr (.notify _))
  have h4 : Reach ⟨true, false, .waiter, .toBlock⟩ := .step _ _ h3 (.inl (.condNo _ rfl rfl))
  have h5 : Reach ⟨true, false, .nobody, .blocked⟩ := .step _ _ h4 (.inl (.block _ rfl))
  refine ⟨_, h5, rfl, rfl, rfl, ?_⟩
  intro t st
  cases st <;> simp_all

/-- An execution in which the notification is missed and the time-out is what ends the wait. -/
def missed : Nat → St
  | 0 => ⟨false, false, .waiter, .testStop false⟩
  | 1 => ⟨false, false, .waiter, .testCond false⟩
  | 2 => ⟨true, false, .waiter, .testCond false⟩
  | 3 => ⟨true, false, .waiter, .toBlock⟩
  | 4 => ⟨true, false, .nobody, .blocked⟩
  | 5 => ⟨true, false, .nobody, .wake true⟩
  | 6 => ⟨true, false, .waiter, .testStop true⟩
  | 7 => ⟨true, false, .waiter, .ret⟩
  | _ + 8 => ⟨true, false, .waiter, .done true⟩

example : ∃ r : Run, Fair r ∧ (r.at_ 2).stop = true ∧ (r.at_ 4).pc = .blocked ∧ (r.at_ 8).pc = .done true := by
  refine ⟨⟨missed, ⟨rfl, rfl⟩, ?_⟩, ?_, rfl, rfl, rfl⟩
  · intro n
    match n with
    | 0 => exact .inl (.stopNo _ false rfl rfl)
    | 1 => exact .inr (.signal _)
    | 2 => exact .inl (.condNo _ rfl rfl)
    | 3 => exact .inl (.block _ rfl)
    | 4 => exact .inl (.timeout _ rfl)
    | 5 => exact .inl (.lock _ true rfl rfl)
    | 6 => exact .inl (.stopYes _ true rfl rfl)
    | 7 => exact .inl (.out _ rfl)
    | _ + 8 => exact .inr (.idle _)
  · intro n hd
    refine ⟨7, ?_, .out _ rfl⟩
    rcases Nat.lt_or_ge 7 n with h | h
    · obtain ⟨k, rfl⟩ : ∃ k, n = k + 8 := ⟨n - 8, by omega⟩
      exact absurd rfl (hd true)
    · exact h

/-- A wait whose condition holds already. -/
example : GReach ⟨false, true, .waiter, .done false⟩ := by
  have h0 : GReach ⟨false, true, .waiter, .testStop false⟩ := .init _ ⟨rfl, rfl⟩
  have h1 : GReach ⟨false, true, .waiter, .testCond false⟩ := .step _ _ h0 ⟨.inl (.stopNo _ false rfl rfl), fun h => absurd rfl h⟩
  have h2 : GReach ⟨false, true, .waiter, .ret⟩ := .step _ _ h1 ⟨.inl (.condYes _ false rfl rfl), fun h => absurd rfl h⟩
  exact .step _ _ h2 ⟨.inl (.out _ rfl), fun h => absurd rfl h⟩

/-! ### the bulk notifier -/

/-- `Scope` objects: created for a signal, destroyed. -/
inductive Op where
  | opened (signal : Nat)
  | closed (signal : Nat)

/-- `active_signals_` (`:109-121`), a set. -/
def apply (a : List Nat) : Op → List Nat
  | .opened s => if s ∈ a then a else s :: a
  | .closed s => a.filter (· ≠ s)

def active (h : List Op) : List Nat := h.foldl apply []

/-- How many scopes of this signal are alive. -/
def alive (h : List Op) (s : Nat) : Int :=
  h.foldl (fun n o => match o with | .opened t => if t = s then n + 1 else n | .closed t => if t = s then n - 1 else n) 0

/-- Every prefix of the history has at most one scope alive per signal, and no scope is destroyed which was not created. -/
def Disciplined (h : List Op) : Prop := ∀ g, g <+: h → ∀ s, 0 ≤ alive g s ∧ alive g s ≤ 1

theorem active_iff (h : List Op) (d : Disciplined h) (s : Nat) : s ∈ active h ↔ alive h s = 1 := by
  obtain ⟨n, hn⟩ : ∃ n, n = h.length := ⟨_, rfl⟩
  induction n generalizing h s with
  | zero =>
    have : h = [] := List.length_eq_zero_iff.1 hn.symm
    subst this
    simp [active, alive]
  | succ n ih =>
    obtain ⟨g, o, rfl⟩ : ∃ g o, h = g ++ [o] := ⟨h.dropLast, h.getLast (by intro e; subst e; simp at hn), (List.dropLast_concat_getLast _).symm⟩
    have dg : Disciplined g := fun k hk => d k (hk.trans (List.prefix_append _ _))
    have ig := ih g dg s (by simp at hn; omega)
    have b1 := d g (List.prefix_append _ _) s
    have b2 := d (g ++ [o]) (List.prefix_refl _) s
    have e1 : active (g ++ [o]) = apply (active g) o := by simp [active, List.foldl_append]
    cases o with
    | opened t =>
      have e2 : alive (g ++ [.opened t]) s = if t = s then alive g s + 1 else alive g s := by simp [alive, List.foldl_append]
      rw [e1, e2]
      rw [e2] at b2
      unfold apply
      grind
    | closed t =>
      have e2 : alive (g ++ [.closed t]) s = if t = s then alive g s - 1 else alive g s := by simp [alive, List.foldl_append]
      rw [e1, e2]
      rw [e2] at b2
      unfold apply
      grind

theorem active_nodup (h : List Op) : (active h).Nodup := by
  have : ∀ (h : List Op) (a : List Nat), a.Nodup → (h.foldl apply a).Nodup := by
    intro h
    induction h with
    | nil => intro a n; exact n
    | cons o h ih =>
      intro a n
      refine ih _ ?_
      cases o with
      | opened s =>
        show (if s ∈ a then a else s :: a).Nodup
        by_cases hs : s ∈ a
        · rw [if_pos hs]; exact n
        · rw [if_neg hs]; exact List.nodup_cons.2 ⟨hs, n⟩
      | closed s => exact n.filter _
  exact this h [] List.nodup_nil

/-- A signal which no scope has is never touched, whatever the history. -/
theorem untouched (h : List Op) (s : Nat) (hn : ∀ o ∈ h, o ≠ .opened s) : s ∉ active h := by
  have : ∀ (h : List Op) (a : List Nat), s ∉ a → (∀ o ∈ h, o ≠ .opened s) → s ∉ h.foldl apply a := by
    intro h
    induction h with
    | nil => intro a n _; exact n
    | cons o h ih =>
      intro a n hh
      refine ih _ ?_ (fun o ho => hh o (by simp [ho]))
      have := hh o (by simp)
      cases o <;> unfold apply <;> grind
  exact this h [] (by simp) hn

/-- Two scopes of one signal: when the first is gone, the signal is not notified any more, although the other is alive. -/
theorem second_scope_forgotten : alive [.opened 7, .opened 7, .closed 7] 7 = 1 ∧ 7 ∉ active [.opened 7, .opened 7, .closed 7] := by
  constructor
  · rfl
  · simp [active, apply]

/-- Two signals, one of them gone. -/
example : active [.opened 1, .opened 2, .closed 1] = [2] := by rfl

end Current.Sync.TerminateSignal
