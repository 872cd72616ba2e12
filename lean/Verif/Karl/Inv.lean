import Verif.Karl.Model
/-! Invariants of Karl's threads. -/
namespace Current.Karl
variable {C L S : Type}

/-- the state update thread has picked the codename as timed out and has not marked it yet -/
def pending (s : State C L S) (c : C) : Bool :=
  match s.loop with
  | .tx lt _ => lt c
  | _ => false

/-- the storage says the service is active -/
def Active (s : State C L S) (c : C) : Prop := ∃ x, s.claires c = some x ∧ x.reg = .active

variable [DecidableEq C] [DecidableEq L] [Inhabited L] [Inhabited S]

macro "karl_open" h:ident : tactic =>
  `(tactic| (simp only [step] at $h:ident; (repeat' split at $h:ident) <;> first | contradiction | (injection $h:ident with $h:ident; subst $h:ident) | skip))

structure Times (s : State C L S) : Prop where
  pos : 0 < s.now
  cache : ∀ c t, s.cache c = some t → 0 < t ∧ t ≤ s.now
  dom : ∀ c, s.cache c ≠ none → c ∈ s.dom
  cdom : ∀ c, s.claires c ≠ none → c ∈ s.dom
  ka : ∀ c l sv t, s.hand = .ka c l sv t → 0 < t ∧ t ≤ s.now ∧ c ∈ s.dom ∧ ∀ p ∈ s.finished, p.2 ≤ t
  kac : ∀ c t, s.hand = .kaCache c t → 0 < t ∧ t ≤ s.now ∧ c ∈ s.dom ∧ ∀ p ∈ s.finished, p.2 ≤ t
  del : ∀ c, s.hand = .del c → c ∈ s.dom
  fin : ∀ p ∈ s.finished, p.2 ≤ s.now
  pend : ∀ c, pending s c = true → c ∈ s.dom
  newest : ∀ c t, s.cache c = some t → ∀ p ∈ s.finished, p.1 = c → p.2 ≤ t

omit [DecidableEq C] [DecidableEq L] [Inhabited L] [Inhabited S] in
theorem times_start (t₀ : Nat) (dom : List C) (cl : C → Option (Claire L S)) (h0 : 0 < t₀)
    (hd : ∀ c, cl c ≠ none → c ∈ dom) : Times (start t₀ dom cl) := by
  constructor <;> simp_all [start, pending]

set_option maxHeartbeats 4000000 in
theorem times_step (T : Nat) (s s' : State C L S) (a : Action C L S) (h : step T s a = some s') (i : Times s) :
    Times s' := by
  obtain ⟨i1, i2, i3, i4, i5, i6, i7, i8, i9, i10⟩ := i
  cases a <;> karl_open h
  all_goals constructor
  all_goals grind [put, pending, scanLate]

/-- No wake-up is lost, and the destructor's is not either. -/
structure Wake (s : State C L S) : Prop where
  force : ∀ d, s.loop = .wait d → s.force = true → s.notified = true
  dtor : ∀ d, s.loop = .wait d → s.dtorNotified = true → s.notified = true
  dest : s.dtorNotified = true → s.destructing = true

omit [DecidableEq C] [DecidableEq L] [Inhabited L] [Inhabited S] in
theorem wake_start (t₀ : Nat) (dom : List C) (cl : C → Option (Claire L S)) : Wake (start t₀ dom cl) := by
  constructor <;> simp_all [start]

set_option maxHeartbeats 1000000 in
theorem wake_step (T : Nat) (s s' : State C L S) (a : Action C L S) (h : step T s a = some s') (i : Wake s) :
    Wake s' := by
  obtain ⟨i1, i2, i3⟩ := i
  cases a <;> karl_open h
  all_goals constructor
  all_goals grind [waits]

omit [DecidableEq C] [DecidableEq L] in
theorem timedOut_reg (o : Option (Claire L S)) : (timedOut o).reg = .disconnected := by cases o <;> rfl
omit [DecidableEq C] [DecidableEq L] in
theorem deregistered_reg (o : Option (Claire L S)) : (deregistered o).reg = .deregistered := by cases o <;> rfl

/-- Every active service is watched. -/
structure Track (s : State C L S) : Prop where
  act : s.constructed = true → ∀ c, Active s c →
    s.cache c ≠ none ∨ pending s c = true ∨ ∃ t, s.hand = .kaCache c t
  del : ∀ c, s.hand = .delErase c → ¬ Active s c

omit [DecidableEq C] [DecidableEq L] [Inhabited L] [Inhabited S] in
theorem track_start (t₀ : Nat) (dom : List C) (cl : C → Option (Claire L S)) : Track (start t₀ dom cl) := by
  constructor <;> simp_all [start]

set_option maxHeartbeats 4000000 in
theorem track_step (T : Nat) (s s' : State C L S) (a : Action C L S) (h : step T s a = some s') (i : Track s) :
    Track s' := by
  obtain ⟨i1, i2⟩ := i
  cases a <;> karl_open h
  all_goals constructor
  all_goals grind [put, pending, Active, scanLate, timedOut_reg, deregistered_reg]
end Current.Karl
