import Verif.Sync.WaitableAtomic

/-! Invariants of `WaitableAtomic`. -/
namespace Current.Sync
variable {D P : Type}

def holding : Pc D P → Bool
  | .muHold _ _ => true
  | .muDone => true
  | .rdHold => true
  | .wHold _ _ _ => true
  | .wRet _ _ _ => true
  | _ => false

def inDtor : Pc D P → Bool
  | .d1 => true
  | .d2 => true
  | .d3 => true
  | .d4 => true
  | .dAsleep => true
  | .dGone => true
  | _ => false

def lateDtor : Pc D P → Bool
  | .d3 => true
  | .d4 => true
  | .dAsleep => true
  | .dGone => true
  | _ => false

theorem upd_self (f : Nat → Pc D P) (t : Nat) (p : Pc D P) : upd f t p t = p := by simp [upd]
theorem upd_ne {f : Nat → Pc D P} {t u : Nat} {p : Pc D P} (h : u ≠ t) : upd f t p u = f u := by
  simp [upd, h]

theorem wakeAll_cases (f : Nat → Pc D P) (u : Nat) :
    (∃ p timed, f u = .wAsleep p timed ∧ wakeAll f u = .wWant p timed false) ∨
    ((∀ p timed, f u ≠ .wAsleep p timed) ∧ wakeAll f u = f u) := by
  unfold wakeAll
  cases f u <;> simp

theorem wakeDtor_cases (f : Nat → Pc D P) (u : Nat) :
    (f u = .dAsleep ∧ wakeDtor f u = .d4) ∨ (f u ≠ .dAsleep ∧ wakeDtor f u = f u) := by
  unfold wakeDtor
  cases f u <;> simp

/-- open every enabled case of `h : step .. = some s'` -/
macro "step_cases" h:ident : tactic => `(tactic|
  (simp only [step] at $h:ident
   repeat' split at $h:ident
   all_goals (try (simp at $h:ident; done))
   all_goals (injection $h:ident with $h:ident; subst $h:ident; try dsimp only at *)))

section
variable [DecidableEq D] {holds : P → D → Bool} {intrusive : Bool}

/-- The mutex is held exactly by the thread that is inside a critical section. -/
def LockOk (s : St D P) : Prop := ∀ t, holding (s.pc t) = true ↔ s.lock = some t

theorem step_lock {s s' : St D P} {a : Act D P} (hi : LockOk s) (h : step holds intrusive s a = some s') :
    LockOk s' := by
  intro u
  have hu := hi u
  cases a <;> step_cases h
  all_goals grind [upd, wakeAll, wakeDtor, holding, LockOk]

/-- The value about to be returned by a wait is the right one, as long as the mutex is held. -/
structure WaitOk (holds : P → D → Bool) (intrusive : Bool) (s : St D P) : Prop where
  want : ∀ t p timed, s.pc t = .wWant p timed true → timed = true
  hold : ∀ t p timed, s.pc t = .wHold p timed true → timed = true
  ret_true : ∀ t p timed, s.pc t = .wRet p timed true → holds p s.data = true
  ret_false : ∀ t p timed, s.pc t = .wRet p timed false →
    (timed = true ∧ holds p s.data = false) ∨ (timed = false ∧ intrusive = true ∧ s.destructing = true)

theorem step_wait {s s' : St D P} {a : Act D P} (hl : LockOk s) (hi : WaitOk holds intrusive s)
    (h : step holds intrusive s a = some s') : WaitOk holds intrusive s' := by
  obtain ⟨h1, h2, h3, h4⟩ := hi
  unfold LockOk at hl
  cases a <;> step_cases h
  all_goals constructor
  all_goals grind [upd, wakeAll, wakeDtor, holding, cond, result]

/-- The data, except that while a mutable accessor is alive it is what the accessor found. -/
def found (s : St D P) : D := match s.lock with
  | none => s.data
  | some m => match s.pc m with
    | .muHold start _ => start
    | _ => s.data

/-- A sleeper's condition is false of it. -/
def Quiet (holds : P → D → Bool) (intrusive : Bool) (s : St D P) : Prop :=
  s.broken = false → ∀ t p timed, s.pc t = .wAsleep p timed →
    (intrusive && !timed && s.destructing) = false ∧ holds p (found s) = false

theorem step_quiet {s s' : St D P} {a : Act D P} (hl : LockOk s) (hi : Quiet holds intrusive s)
    (h : step holds intrusive s a = some s') : Quiet holds intrusive s' := by
  unfold LockOk at hl
  unfold Quiet at hi ⊢
  intro hb u p timed hu
  cases a <;> step_cases h
  all_goals (try (grind [upd, wakeAll, wakeDtor, holding, cond, result, found]; done))
  all_goals (
    rename_i t _ heq
    have hu' : s.pc u = .wAsleep p timed := by grind [upd, wakeDtor]
    obtain ⟨g1, g2⟩ := hi hb u p timed hu'
    refine ⟨g1, ?_⟩
    have : ∀ (pc' : Nat → Pc D P), pc' = wakeDtor (upd s.pc t Pc.idle) →
        found { s with pc := pc' } = found s := by
      intro pc' e
      unfold found
      dsimp only
      cases hlk : s.lock with
      | none => rfl
      | some m =>
        have hm := (hl m).2 hlk
        have : pc' m = s.pc m := by
          rw [e]
          have : m ≠ t := by rintro rfl; rw [heq] at hm; simp [holding] at hm
          rcases wakeDtor_cases (upd s.pc t Pc.idle) m with ⟨a, _⟩ | ⟨_, b⟩
          · rw [upd_ne this] at a; rw [a] at hm; simp [holding] at hm
          · rw [b, upd_ne this]
        dsimp only
        rw [this]
    rw [this _ rfl]; exact g2)

/-- The reference counter and the destructor. -/
structure RefOk (s : St D P) : Prop where
  count : s.ref = s.clients + (if s.own then 1 else 0)
  dtor : ∀ t, inDtor (s.pc t) = true → s.dtor = some t
  destr : s.destructing = true → s.dtor ≠ none
  own : s.own = false → s.destructing = true
  early : ∀ t, s.pc t = .d1 ∨ s.pc t = .d2 → s.own = true
  d2 : ∀ t, s.pc t = .d2 → s.destructing = true
  late : ∀ t, lateDtor (s.pc t) = true → s.own = false
  gone : ∀ t, s.pc t = .dGone → s.clients = 0

theorem step_ref {s s' : St D P} {a : Act D P} (hi : RefOk s) (h : step holds intrusive s a = some s') :
    RefOk s' := by
  obtain ⟨h1, h2, h3, h4, h5, h6, h7, h9⟩ := hi
  cases a <;> step_cases h
  all_goals constructor
  all_goals grind [upd, wakeAll, wakeDtor, inDtor, lateDtor]

/-- The destructor sleeps only if there is a reference left or a notification on its way. -/
def AsleepOk (s : St D P) : Prop :=
  ∀ t, s.pc t = .dAsleep → 0 < s.clients ∨ ∃ u, s.pc u = .cDecd

theorem wakeAll_cDecd {f : Nat → Pc D P} {u : Nat} : wakeAll f u = .cDecd ↔ f u = .cDecd := by
  unfold wakeAll; cases f u <;> simp

theorem step_asleep {s s' : St D P} {a : Act D P} (hr : RefOk s) (hi : AsleepOk s)
    (h : step holds intrusive s a = some s') : AsleepOk s' := by
  intro t ht
  have h1 := hr.count
  have h7 := hr.late
  unfold AsleepOk at hi
  have keep : s'.clients = s.clients → s.pc t = .dAsleep → (∀ u, s.pc u = .cDecd → s'.pc u = .cDecd) →
      0 < s'.clients ∨ ∃ u, s'.pc u = .cDecd := by
    intro hc hs hu
    rcases hi t hs with g | ⟨u, g⟩
    · left; omega
    · right; exact ⟨u, hu u g⟩
  cases a
  case drop u =>
    right
    refine ⟨u, ?_⟩
    step_cases h
    exact upd_self _ _ _
  case notify u =>
    exfalso
    step_cases h
    all_goals grind [upd, wakeDtor]
  case dstep u =>
    by_cases e : s'.clients = s.clients ∧ s.pc t = .dAsleep
    · refine keep e.1 e.2 ?_
      intro u hu
      step_cases h
      all_goals grind [upd, wakeAll]
    · step_cases h
      all_goals grind [upd, wakeAll, lateDtor]
  case register u =>
    by_cases e : s'.clients = s.clients
    · refine keep e ?_ ?_
      · step_cases h
        all_goals grind [upd]
      · intro u hu
        step_cases h
        all_goals grind [upd]
    · left
      step_cases h
      all_goals grind
  all_goals
    refine keep ?_ ?_ ?_
    · step_cases h
      all_goals grind
    · step_cases h
      all_goals grind [upd, wakeAll]
    · intro u hu
      step_cases h
      all_goals grind [upd, wakeAll]

end
end Current.Sync
