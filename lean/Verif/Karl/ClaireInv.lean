import Verif.Karl.Claire
/-! Invariants of Claire. -/
namespace Current.Claire

macro "claire_open" h:ident : tactic =>
  `(tactic| (simp only [step] at $h:ident; (repeat' split at $h:ident) <;> first | contradiction | (injection $h:ident with $h:ident; subst $h:ident) | skip))

/-- the attempts that were not asked for are at least `lo` after the one before -/
def Spaced (lo : Nat) : List (Nat × Bool) → Prop
  | (t₂, f) :: (t₁, g) :: r => (f = false → t₁ + lo ≤ t₂) ∧ Spaced lo ((t₁, g) :: r)
  | _ => True

theorem spaced_cons (lo t : Nat) (f : Bool) (l : List (Nat × Bool)) (hl : Spaced lo l)
    (h : ∀ p, l.head? = some p → f = false → p.1 + lo ≤ t) : Spaced lo ((t, f) :: l) := by
  cases l with
  | nil => trivial
  | cons p r => exact ⟨h p rfl, hl⟩

structure Basic (s : State) : Prop where
  running : s.running = true ↔ s.loop ≠ .off
  send : s.loop = .send → s.began = s.ended + 1 ∧ s.registering = false
  reg : s.registering = true → s.exited = false → s.began = s.ended + 1
  idle : s.loop ≠ .send → s.registering = false → s.began = s.ended
  last : s.last ≤ s.now
  freeAt : s.freeAt ≤ s.now

theorem basic_start (t : Nat) : Basic (start t) := by constructor <;> simp [start]

set_option maxHeartbeats 4000000 in
theorem basic_step (lo hi : Nat) (s s' : State) (a : Action) (h : step lo hi s a = some s') (i : Basic s) : Basic s' := by
  obtain ⟨i1, i2, i3, i4, i5, i6⟩ := i
  cases a <;> claire_open h
  all_goals constructor
  all_goals grind [go, startThread, regStart, setCall, free]

structure Period (lo hi : Nat) (s : State) : Prop where
  top : s.loop = .top → s.now ≤ max (s.last + hi) s.freeAt + s.lag
  wait : ∀ d, s.loop = .wait d → d ≤ s.last + hi ∧ s.now ≤ max (s.last + hi) s.freeAt + s.lag
  head : ∀ p, s.log.head? = some p → p.1 ≤ s.last
  waitLo : ∀ d p, s.loop = .wait d → s.log.head? = some p → p.1 + lo ≤ d
  spaced : Spaced lo s.log

theorem period_start (lo hi t : Nat) : Period lo hi (start t) := by constructor <;> simp [start, Spaced]

set_option maxHeartbeats 8000000 in
theorem period_step (lo hi : Nat) (s s' : State) (a : Action) (h : step lo hi s a = some s') (b : Basic s)
    (i : Period lo hi s) : Period lo hi s' := by
  obtain ⟨i1, i2, i3, i4, i5⟩ := i
  obtain ⟨-, -, -, -, b5, b6⟩ := b
  cases a <;> claire_open h
  all_goals constructor
  all_goals grind [go, startThread, regStart, setCall, free, asleep, spaced_cons]

/-- what is known of a call -/
structure Calls (s : State) : Prop where
  mark1 : ∀ i w m, s.calls i = .begun w m → m ≤ s.began
  sent1 : ∀ i m, s.calls i = .reset m → m ≤ s.began ∧ m ≤ s.ended ∧ (s.sent = true → m < s.ended)
  sent2 : ∀ i m, s.calls i = .forced true m → m ≤ s.ended ∧ (s.sent = true → m < s.ended)
  sent3 : ∀ i m, s.calls i = .told true m → m ≤ s.ended ∧ (s.sent = true → m < s.ended)
  returned : ∀ i m, s.calls i = .returned true m → m < s.ended
  forced : ∀ i w m, s.calls i = .forced w m → m ≤ s.began ∧ (s.force = true ∨ m < s.began)
  told : ∀ i w m, s.calls i = .told w m → m ≤ s.began ∧ ((s.force = true ∧ asleep s = false) ∨ m < s.began)
  told2 : ∀ i w m, s.calls i = .returned w m → m ≤ s.began ∧ ((s.force = true ∧ asleep s = false) ∨ m < s.began)

theorem calls_start (t : Nat) : Calls (start t) := by constructor <;> simp [start]

set_option maxHeartbeats 16000000 in
theorem calls_step (lo hi : Nat) (s s' : State) (a : Action) (h : step lo hi s a = some s') (b : Basic s)
    (i : Calls s) : Calls s' := by
  obtain ⟨i1, i2, i3, i4, i5, i6, i7, i8⟩ := i
  obtain ⟨-, b2, b3, b4, -, -⟩ := b
  cases a <;> simp only [step, go, startThread, regStart, setCall] at h <;> (repeat' split at h) <;>
    first | contradiction | (injection h with h; subst h) | skip
  all_goals constructor
  all_goals grind [free, asleep]

structure Dtor (s : State) : Prop where
  wait : ∀ d, s.loop = .wait d → s.dtorNotified = true → s.notified = true
  dest : s.dtorNotified = true → s.destructing = true

theorem dtor_start (t : Nat) : Dtor (start t) := by constructor <;> simp [start]

set_option maxHeartbeats 4000000 in
theorem dtor_step (lo hi : Nat) (s s' : State) (a : Action) (h : step lo hi s a = some s') (i : Dtor s) : Dtor s' := by
  obtain ⟨i1, i2⟩ := i
  cases a <;> claire_open h
  all_goals constructor
  all_goals grind [go, startThread, regStart, setCall, free]
end Current.Claire
