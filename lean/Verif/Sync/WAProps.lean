import Verif.Sync.WAInv

/-! What users of `WaitableAtomic` rely on. -/
namespace Current.Sync
variable {D P : Type}

def Act.thread : Act D P → Nat
  | .mutable t => t
  | .immutable t => t
  | .wait t _ _ => t
  | .acquire t => t
  | .write t _ => t
  | .mark t => t
  | .finish t => t
  | .check t => t
  | .spurious t => t
  | .timeout t => t
  | .release t => t
  | .register t => t
  | .drop t => t
  | .notify t => t
  | .destroy t => t
  | .dstep t => t

def isReg : Ev D P → Bool
  | .registered _ true => true
  | _ => false
def isDrop : Ev D P → Bool
  | .dropped _ => true
  | _ => false

/-- The number of live clients handed out in a history, and the number given up. -/
def regs (h : List (Ev D P)) : Nat := h.countP isReg
def drops (h : List (Ev D P)) : Nat := h.countP isDrop

section
variable [DecidableEq D] {holds : P → D → Bool} {intrusive : Bool}

/-- What the value returned by a wait means. -/
def WaitedOk (holds : P → D → Bool) (intrusive : Bool) (p : P) (timed r : Bool) (d : D) (destr : Bool) : Prop :=
  (r = true → holds p d = true) ∧
  (r = false → (timed = true ∧ holds p d = false) ∨ (timed = false ∧ intrusive = true ∧ destr = true))

structure HistOk (holds : P → D → Bool) (intrusive : Bool) (s : St D P) : Prop where
  waited : ∀ t p timed r d destr, Ev.waited t p timed r d destr ∈ s.hist → WaitedOk holds intrusive p timed r d destr
  count : regs s.hist = drops s.hist + s.clients
  done : ∀ t, Ev.destructed t ∈ s.hist → s.pc t = .dGone
  order : ∀ A t B, s.hist = A ++ Ev.destructed t :: B →
    regs A = drops A ∧ ∀ e ∈ B, isReg e = false ∧ isDrop e = false

structure Inv (holds : P → D → Bool) (intrusive : Bool) (s : St D P) : Prop where
  lock : LockOk s
  wait : WaitOk holds intrusive s
  quiet : Quiet holds intrusive s
  ref : RefOk s
  asleep : AsleepOk s
  hist : HistOk holds intrusive s

theorem snoc_split {E : Type} {h X D : List E} {e y : E} (H : h ++ [e] = X ++ y :: D) :
    (D = [] ∧ e = y ∧ h = X) ∨ (∃ D', D = D' ++ [e] ∧ h = X ++ y :: D') := by
  rcases List.eq_nil_or_concat D with rfl | ⟨D', x, rfl⟩
  · left
    have := List.append_inj' H rfl
    simp at this
    exact ⟨rfl, this.2, this.1⟩
  · right
    have : h ++ [e] = (X ++ y :: D') ++ [x] := by simpa using H
    have := List.append_inj' this rfl
    simp at this
    exact ⟨D', by simp [this.2], this.1⟩

/-- How a step extends the history, if it does. -/
theorem step_hist_cases {s s' : St D P} {a : Act D P} (h : step holds intrusive s a = some s') :
    (s'.hist = s.hist ∧ s'.clients = s.clients) ∨
    (∃ t d, s'.hist = s.hist ++ [.wrote t d] ∧ s'.clients = s.clients) ∨
    (∃ t d, s'.hist = s.hist ++ [.read t d] ∧ s'.clients = s.clients) ∨
    (∃ t p timed r, s'.hist = s.hist ++ [.waited t p timed r s.data s.destructing] ∧
      s.pc t = .wRet p timed r ∧ s'.clients = s.clients) ∨
    (∃ t, s'.hist = s.hist ++ [.registered t false] ∧ s'.clients = s.clients) ∨
    (∃ t, s'.hist = s.hist ++ [.registered t true] ∧ s.destructing = false ∧ s'.clients = s.clients + 1) ∨
    (∃ t, s'.hist = s.hist ++ [.dropped t] ∧ 0 < s.clients ∧ s'.clients + 1 = s.clients) ∨
    (∃ t, s'.hist = s.hist ++ [.destructed t] ∧ s.pc t = .d4 ∧ s.ref = 0 ∧ s'.pc t = .dGone ∧
      s'.clients = s.clients) := by
  cases a
  case release t =>
    simp only [step] at h
    split at h <;> (try (simp at h; done)) <;> injection h with h <;> subst h
    · right; left; exact ⟨_, _, rfl, rfl⟩
    · right; right; left; exact ⟨_, _, rfl, rfl⟩
    · rename_i heq
      right; right; right; left; exact ⟨t, _, _, _, rfl, heq, rfl⟩
  case register t =>
    simp only [step] at h
    split at h <;> try (simp at h; done)
    split at h <;> try (simp at h; done)
    split at h <;> injection h with h <;> subst h
    · right; right; right; right; left; exact ⟨_, rfl, rfl⟩
    · rename_i hd
      right; right; right; right; right; left; exact ⟨t, rfl, by simpa using hd, rfl⟩
  case drop t =>
    simp only [step] at h
    split at h <;> try (simp at h; done)
    rename_i hc
    split at h <;> try (simp at h; done)
    injection h with h; subst h
    right; right; right; right; right; right; left
    exact ⟨t, rfl, hc.2.2, by dsimp only; omega⟩
  case dstep t =>
    simp only [step] at h
    split at h <;> try (simp at h; done)
    · split at h <;> try (simp at h; done)
      injection h with h; subst h; left; exact ⟨rfl, rfl⟩
    · split at h <;> try (simp at h; done)
      injection h with h; subst h; left; exact ⟨rfl, rfl⟩
    · injection h with h; subst h; left; exact ⟨rfl, rfl⟩
    · rename_i heq
      split at h <;> try (simp at h; done)
      split at h <;> injection h with h <;> subst h
      · left; exact ⟨rfl, rfl⟩
      · rename_i hr
        right; right; right; right; right; right; right
        exact ⟨t, rfl, heq, by omega, upd_self _ _ _, rfl⟩
  all_goals
    left
    step_cases h
    all_goals exact ⟨rfl, rfl⟩

theorem step_gone {s s' : St D P} {a : Act D P} {t : Nat} (ht : s.pc t = .dGone)
    (h : step holds intrusive s a = some s') : s'.pc t = .dGone := by
  cases a <;> step_cases h
  all_goals grind [upd, wakeAll, wakeDtor]

theorem step_histOk {s s' : St D P} {a : Act D P} (hw : WaitOk holds intrusive s) (hr : RefOk s)
    (hi : HistOk holds intrusive s) (h : step holds intrusive s a = some s') : HistOk holds intrusive s' := by
  have hg : ∀ t, Ev.destructed t ∈ s.hist → s'.pc t = .dGone := fun t ht => step_gone (hi.done t ht) h
  have base : ∀ (e : Ev D P), s'.hist = s.hist ++ [e] →
      (∀ t p timed r d destr, e = .waited t p timed r d destr → WaitedOk holds intrusive p timed r d destr) →
      regs s.hist + (if isReg e then 1 else 0) = drops s.hist + (if isDrop e then 1 else 0) + s'.clients →
      (∀ t, e = .destructed t → s'.pc t = .dGone ∧ s.clients = 0) →
      (∀ t, Ev.destructed t ∈ s.hist → isReg e = false ∧ isDrop e = false) → HistOk holds intrusive s' := by
    intro e he h1 h2 h3 h4
    refine ⟨?_, ?_, ?_, ?_⟩
    · intro t p timed r d destr hm
      rw [he] at hm
      simp at hm
      rcases hm with hm | hm
      · exact hi.waited _ _ _ _ _ _ hm
      · exact h1 _ _ _ _ _ _ hm.symm
    · rw [he]
      simp only [regs, drops, List.countP_append, List.countP_cons, List.countP_nil] at h2 ⊢
      omega
    · intro t hm
      rw [he] at hm
      simp at hm
      rcases hm with hm | hm
      · exact hg t hm
      · exact (h3 t hm.symm).1
    · intro A t B hh
      rw [he] at hh
      rcases snoc_split hh with ⟨hB, hee, hA⟩ | ⟨B', hB, hA⟩
      · subst hB
        have := (h3 t hee).2
        have hc := hi.count
        rw [hA] at hc
        exact ⟨by omega, by simp⟩
      · obtain ⟨g1, g2⟩ := hi.order A t B' hA
        refine ⟨g1, ?_⟩
        intro x hx
        rw [hB] at hx
        simp at hx
        rcases hx with hx | rfl
        · exact g2 x hx
        · exact h4 t (by rw [hA]; simp)
  have hcnt := hi.count
  have hgone : ∀ t, Ev.destructed t ∈ s.hist → s.clients = 0 ∧ s.destructing = true := fun t ht =>
    ⟨hr.gone t (hi.done t ht), hr.own (hr.late t (by rw [hi.done t ht]; rfl))⟩
  rcases step_hist_cases h with ⟨he, hc⟩ | ⟨t, d, he, hc⟩ | ⟨t, d, he, hc⟩ | ⟨t, p, timed, r, he, hp, hc⟩ |
    ⟨t, he, hc⟩ | ⟨t, he, hd, hc⟩ | ⟨t, he, hp, hc⟩ | ⟨t, he, hp, hz, hpc, hc⟩
  · refine ⟨?_, ?_, ?_, ?_⟩
    · rw [he]; exact hi.waited
    · rw [he, hc]; exact hi.count
    · rw [he]; exact hg
    · rw [he]; exact hi.order
  · exact base _ he (by simp) (by simp [isReg, isDrop]; omega) (by simp) (by simp [isReg, isDrop])
  · exact base _ he (by simp) (by simp [isReg, isDrop]; omega) (by simp) (by simp [isReg, isDrop])
  · refine base _ he ?_ (by simp [isReg, isDrop]; omega) (by simp) (by simp [isReg, isDrop])
    intro t' p' timed' r' d' destr' e
    injection e with e1 e2 e3 e4 e5 e6
    subst e2; subst e3; subst e4; subst e5; subst e6
    constructor
    · intro hr'; subst hr'; exact hw.ret_true t _ _ hp
    · intro hr'; subst hr'; exact hw.ret_false t _ _ hp
  · exact base _ he (by simp) (by simp [isReg, isDrop]; omega) (by simp) (by simp [isReg, isDrop])
  · refine base _ he (by simp) (by simp [isReg, isDrop]; omega) (by simp) ?_
    intro u hu
    rw [(hgone u hu).2] at hd; simp at hd
  · refine base _ he (by simp) (by simp [isReg, isDrop]; omega) (by simp) ?_
    intro u hu
    rw [(hgone u hu).1] at hp; simp at hp
  · refine base _ he (by simp) (by simp [isReg, isDrop]; omega) ?_ (by simp [isReg, isDrop])
    intro u hu
    injection hu with hu
    subst hu
    have := hr.count
    exact ⟨hpc, by omega⟩

theorem init_inv (d : D) : Inv holds intrusive (init d : St D P) := by
  refine ⟨?_, ?_, ?_, ?_, ?_, ?_⟩
  · intro t; simp [init, holding]
  · constructor <;> simp [init]
  · intro _ t p timed h; simp [init] at h
  · constructor <;> simp [init, inDtor, lateDtor]
  · intro t h; simp [init] at h
  · constructor <;> simp [init, regs, drops]

theorem step_inv {s s' : St D P} {a : Act D P} (hi : Inv holds intrusive s)
    (h : step holds intrusive s a = some s') : Inv holds intrusive s' :=
  ⟨step_lock hi.lock h, step_wait hi.lock hi.wait h, step_quiet hi.lock hi.quiet h, step_ref hi.ref h,
    step_asleep hi.ref hi.asleep h, step_histOk hi.wait hi.ref hi.hist h⟩

theorem run_inv {as : List (Act D P)} : ∀ {s s' : St D P}, run holds intrusive s as = some s' →
    Inv holds intrusive s → Inv holds intrusive s' := by
  induction as with
  | nil => intro s s' h hi; simp [run] at h; subst h; exact hi
  | cons a as ih =>
    intro s s' h hi
    simp only [run] at h
    split at h
    · rename_i s1 h1
      exact ih h (step_inv hi h1)
    · simp at h

theorem Reach.inv {d : D} {s : St D P} (h : Reach holds intrusive d s) : Inv holds intrusive s := by
  obtain ⟨as, h⟩ := h
  exact run_inv h (init_inv d)

/-! ### C53: access is atomic, waits tell the truth, wake-ups are not lost -/

theorem step_frame {s s' : St D P} {a : Act D P} {t : Nat} (hi : LockOk s) (ht : holding (s.pc t) = true)
    (h : step holds intrusive s a = some s') (ha : a.thread ≠ t) :
    s'.pc t = s.pc t ∧ s'.data = s.data ∧ s'.destructing = s.destructing := by
  have hl := (hi t).1 ht
  have hoth : ∀ u, u ≠ t → holding (s.pc u) = false := by
    intro u hu
    cases hb : holding (s.pc u) with
    | false => rfl
    | true => rw [(hi u).1 hb] at hl; injection hl with hl; exact absurd hl hu
  cases a <;> simp only [Act.thread] at ha <;> step_cases h
  all_goals grind [upd, wakeAll, wakeDtor, holding]

/-- **C53** While a thread is inside an accessor (or any other critical section of the object), whatever
the other threads do, the data stays as it is: `MutableUse`, `SetValueIf`, `PotentiallyMutableUse`,
`ImmutableUse` and `GetValue` see and change the data atomically. -/
theorem access_is_atomic {d : D} {t : Nat} {mid : List (Act D P)} : ∀ {s s' : St D P},
    Reach holds intrusive d s → holding (s.pc t) = true → run holds intrusive s mid = some s' →
    (∀ a ∈ mid, a.thread ≠ t) → s'.data = s.data ∧ s'.pc t = s.pc t := by
  suffices H : ∀ {s s' : St D P}, Inv holds intrusive s → holding (s.pc t) = true →
      run holds intrusive s mid = some s' → (∀ a ∈ mid, a.thread ≠ t) → s'.data = s.data ∧ s'.pc t = s.pc t from
    fun {_ _} hr => H hr.inv
  induction mid with
  | nil => intro s s' _ _ h _; simp [run] at h; subst h; exact ⟨rfl, rfl⟩
  | cons a as ih =>
    intro s s' hi ht h hm
    simp only [run] at h
    split at h
    · rename_i s1 h1
      obtain ⟨g1, g2, _⟩ := step_frame hi.lock ht h1 (hm a (by simp))
      obtain ⟨k1, k2⟩ := ih (step_inv hi h1) (by rw [g1]; exact ht) h (fun b hb => hm b (by simp [hb]))
      exact ⟨k1.trans g2, k2.trans g1⟩
    · simp at h

/-- **C53** Only one thread at a time is inside. -/
theorem one_accessor_at_a_time {d : D} {s : St D P} (h : Reach holds intrusive d s) {t u : Nat}
    (ht : holding (s.pc t) = true) (hu : holding (s.pc u) = true) : t = u := by
  have a := (h.inv.lock t).1 ht
  have b := (h.inv.lock u).1 hu
  rw [a] at b
  injection b

/-- **C53** `Wait(p)` returning `true` (and `WaitFor` returning `true`) means `p` held of the data, at an
instant at which the thread had the mutex. `WaitFor` returning `false` means `p` did not hold then; `Wait`
returns `false` only of an intrusive waitable atomic that is being destructed. -/
theorem wait_tells_the_truth {d : D} {s : St D P} (h : Reach holds intrusive d s)
    {t : Nat} {p : P} {timed r : Bool} {dat : D} {destr : Bool}
    (hm : Ev.waited t p timed r dat destr ∈ s.hist) :
    (r = true → holds p dat = true) ∧
    (r = false → timed = true → holds p dat = false) ∧
    (r = false → timed = false → intrusive = true ∧ destr = true) := by
  obtain ⟨a, b⟩ := h.inv.hist.waited _ _ _ _ _ _ hm
  refine ⟨a, ?_, ?_⟩
  · intro hr ht
    rcases b hr with ⟨_, h⟩ | ⟨h, _⟩
    · exact h
    · rw [ht] at h; simp at h
  · intro hr ht
    rcases b hr with ⟨h, _⟩ | ⟨_, h⟩
    · rw [ht] at h; simp at h
    · exact h

/-- **C53** No wake-up is lost: whenever the mutex is free, a thread asleep in `Wait(p)` or `WaitFor(p)`
has every reason to sleep: `p` does not hold, and, in `Wait`, the object is not being destructed. The only
proviso is that nobody marked an accessor as unmodified after modifying the data through it. -/
theorem no_lost_wakeup {d : D} {s : St D P} (h : Reach holds intrusive d s) (hb : s.broken = false)
    (hl : s.lock = none) {t : Nat} {p : P} {timed : Bool} (ht : s.pc t = .wAsleep p timed) :
    holds p s.data = false ∧ (intrusive = true → timed = false → s.destructing = false) := by
  obtain ⟨a, b⟩ := h.inv.quiet hb t p timed ht
  simp only [found, hl] at b
  refine ⟨b, ?_⟩
  intro h1 h2
  rw [h1, h2] at a
  simpa using a

/-- Is the thread somewhere inside `Wait(p)` / `WaitFor(p)`? -/
def Waiting (q : Pc D P) (p : P) (timed : Bool) : Prop :=
  q = .wAsleep p timed ∨ (∃ f, q = .wWant p timed f) ∨ (∃ f, q = .wHold p timed f) ∨ ∃ r, q = .wRet p timed r

theorem run_append {as bs : List (Act D P)} : ∀ {s s' : St D P}, run holds intrusive s as = some s' →
    run holds intrusive s (as ++ bs) = run holds intrusive s' bs := by
  induction as with
  | nil => intro s s' h; simp [run] at h; subst h; rfl
  | cons a as ih =>
    intro s s' h
    simp only [run, List.cons_append] at h ⊢
    split at h
    · exact ih h
    · simp at h

/-- **C53** So whenever the mutex is free and `p` holds, every thread waiting for `p` is already awake and
returns `true` in three steps of its own (unless the object is being destructed). -/
theorem wait_can_return {d : D} {s : St D P} (h : Reach holds intrusive d s) (hb : s.broken = false)
    (hl : s.lock = none) {t : Nat} {p : P} {timed : Bool} (ht : Waiting (s.pc t) p timed)
    (hc : cond holds intrusive s p timed = true) :
    ∃ s', run holds intrusive s [.acquire t, .check t, .release t] = some s' ∧
      s'.hist = s.hist ++ [.waited t p timed (result holds intrusive s p timed) s.data s.destructing] := by
  rcases ht with ht | ⟨f, ht⟩ | ⟨f, ht⟩ | ⟨r, ht⟩
  · exfalso
    obtain ⟨a, b⟩ := no_lost_wakeup h hb hl ht
    unfold cond at hc
    rw [a] at hc
    simp at hc
    obtain ⟨⟨h1, h2⟩, h3⟩ := hc
    have := b h1 h2
    rw [h3] at this; simp at this
  · have e1 : step holds intrusive s (.acquire t) =
        some { s with lock := some t, pc := upd s.pc t (Pc.wHold p timed f) } := by
      simp [step, hl, ht]
    have e2 : step holds intrusive { s with lock := some t, pc := upd s.pc t (Pc.wHold p timed f) } (.check t) =
        some { s with
          lock := some t
          pc := upd (upd s.pc t (Pc.wHold p timed f)) t (Pc.wRet p timed (result holds intrusive s p timed)) } := by
      have e : cond holds intrusive { s with lock := some t, pc := upd s.pc t (Pc.wHold p timed f) } p timed = true :=
        hc
      simp only [step, upd_self, e, Bool.true_or, if_true]
      rfl
    simp only [run, e1, e2]
    simp only [step, upd_self]
    exact ⟨_, rfl, rfl⟩
  · exfalso
    have := (h.inv.lock t).1 (by rw [ht]; rfl)
    rw [hl] at this; simp at this
  · exfalso
    have := (h.inv.lock t).1 (by rw [ht]; rfl)
    rw [hl] at this; simp at this

/-! ### C53: every wait returns, on every fair infinite schedule -/

/-- An infinite execution: at each instant one step, or nothing happens. -/
structure Exec (holds : P → D → Bool) (intrusive : Bool) (d : D) where
  st : Nat → St D P
  act : Nat → Option (Act D P)
  start : st 0 = init d
  next : ∀ n, match act n with
    | some a => step holds intrusive (st n) a = some (st (n + 1))
    | none => st (n + 1) = st n

/-- A waiting thread could move on now: it wants the mutex and the mutex is free, or it has the mutex. -/
def Ready (s : St D P) (t : Nat) : Prop :=
  ((∃ p timed f, s.pc t = .wWant p timed f) ∧ s.lock = none) ∨
  (∃ p timed f, s.pc t = .wHold p timed f) ∨ ∃ p timed r, s.pc t = .wRet p timed r

/-- The scheduler and the mutex are fair to thread `t`: if it could move on again and again, it will. -/
def Fair {d : D} (x : Exec holds intrusive d) (t : Nat) : Prop :=
  (∀ n, ∃ m, n ≤ m ∧ Ready (x.st m) t) → ∀ n, ∃ m a, n ≤ m ∧ x.act m = some a ∧ a.thread = t

theorem Exec.reach {d : D} (x : Exec holds intrusive d) (n : Nat) : Reach holds intrusive d (x.st n) := by
  induction n with
  | zero => exact ⟨[], by simp [run, x.start]⟩
  | succ n ih =>
    have hn := x.next n
    cases ha : x.act n with
    | none => rw [ha] at hn; simp only at hn; rw [hn]; exact ih
    | some a =>
      rw [ha] at hn
      simp only at hn
      obtain ⟨as, h⟩ := ih
      refine ⟨as ++ [a], ?_⟩
      rw [run_append h]
      simp [run, hn]

theorem step_ret {s s' : St D P} {a : Act D P} {t : Nat} {p : P} {timed r : Bool} (ht : s.pc t = .wRet p timed r)
    (h : step holds intrusive s a = some s') :
    (a.thread ≠ t ∧ s'.pc t = .wRet p timed r) ∨
    (a = .release t ∧ s'.hist = s.hist ++ [.waited t p timed r s.data s.destructing]) := by
  cases a <;> simp only [Act.thread] <;> step_cases h
  all_goals grind [upd, wakeAll, wakeDtor]

theorem step_hold {s s' : St D P} {a : Act D P} {t : Nat} {p : P} {timed f : Bool} (ht : s.pc t = .wHold p timed f)
    (hc : cond holds intrusive s p timed = true) (h : step holds intrusive s a = some s') :
    (a.thread ≠ t ∧ s'.pc t = .wHold p timed f) ∨ (a.thread = t ∧ ∃ r, s'.pc t = .wRet p timed r) := by
  cases a <;> simp only [Act.thread] <;> step_cases h
  all_goals grind [upd, wakeAll, wakeDtor]

theorem step_want {s s' : St D P} {a : Act D P} {t : Nat} {p : P} {timed f : Bool} (ht : s.pc t = .wWant p timed f)
    (h : step holds intrusive s a = some s') :
    (a.thread ≠ t ∧ s'.pc t = .wWant p timed f) ∨ (a.thread = t ∧ s'.pc t = .wHold p timed f) := by
  cases a <;> simp only [Act.thread] <;> step_cases h
  all_goals grind [upd, wakeAll, wakeDtor]

theorem step_sleep {s s' : St D P} {a : Act D P} {t : Nat} {p : P} {timed : Bool} (ht : s.pc t = .wAsleep p timed)
    (h : step holds intrusive s a = some s') : s'.pc t = .wAsleep p timed ∨ ∃ f, s'.pc t = .wWant p timed f := by
  cases a <;> step_cases h
  all_goals grind [upd, wakeAll, wakeDtor]

/-- Something stable until the thread moves: if it is ready again and again, the thread moves. -/
theorem Exec.until {d : D} (x : Exec holds intrusive d) {t n : Nat} (hf : Fair x t) (Q R : St D P → Prop)
    (h0 : Q (x.st n))
    (hstep : ∀ m a, n ≤ m → Q (x.st m) → step holds intrusive (x.st m) a = some (x.st (m + 1)) →
      (a.thread ≠ t ∧ Q (x.st (m + 1))) ∨ (x.act m = some a → R (x.st (m + 1))))
    (hready : (∀ m, n ≤ m → Q (x.st m)) → ∀ m, ∃ k, m ≤ k ∧ Ready (x.st k) t) :
    ∃ m, n ≤ m ∧ Q (x.st m) ∧ R (x.st (m + 1)) := by
  apply Classical.byContradiction
  intro hno
  have hQ : ∀ k, Q (x.st (n + k)) := by
    intro k
    induction k with
    | zero => exact h0
    | succ k ih =>
      have hn := x.next (n + k)
      cases ha : x.act (n + k) with
      | none => rw [ha] at hn; simp only at hn; show Q (x.st (n + k + 1)); rw [hn]; exact ih
      | some a =>
        rw [ha] at hn
        simp only at hn
        rcases hstep (n + k) a (by omega) ih hn with ⟨_, h⟩ | h
        · exact h
        · exact absurd ⟨n + k, by omega, ih, h ha⟩ hno
  have hQ' : ∀ m, n ≤ m → Q (x.st m) := by
    intro m hm
    have := hQ (m - n)
    rwa [Nat.add_sub_cancel' hm] at this
  obtain ⟨m, a, hm, ha, hat⟩ := hf (hready hQ') n
  have hn := x.next m
  rw [ha] at hn
  simp only at hn
  rcases hstep m a hm (hQ' m hm) hn with ⟨h, _⟩ | h
  · exact h hat
  · exact hno ⟨m, hm, hQ' m hm, h ha⟩

/-- **C53** Every wait whose condition comes to hold for good returns: if a thread is inside `Wait(p)` or
`WaitFor(p)` at some instant, from that instant on `p` holds (or the object is being destructed), nobody
keeps the mutex for ever, nobody mislabels a modification, and the scheduler is fair to the thread, then
the call returns. -/
theorem every_wait_returns {d : D} (x : Exec holds intrusive d) {t n : Nat} (hf : Fair x t) {p : P} {timed : Bool}
    (hw : Waiting ((x.st n).pc t) p timed)
    (hc : ∀ m, n ≤ m → cond holds intrusive (x.st m) p timed = true)
    (hb : ∀ m, (x.st m).broken = false)
    (hfree : ∀ m, ∃ k, m ≤ k ∧ (x.st k).lock = none) :
    ∃ m r, n ≤ m ∧ (x.st (m + 1)).hist =
      (x.st m).hist ++ [.waited t p timed r (x.st m).data (x.st m).destructing] := by
  -- about to return
  have fromRet : ∀ n r, (x.st n).pc t = .wRet p timed r → ∃ m r, n ≤ m ∧
      (x.st (m + 1)).hist = (x.st m).hist ++ [.waited t p timed r (x.st m).data (x.st m).destructing] := by
    intro n r h
    apply Classical.byContradiction
    intro hno
    obtain ⟨m, hm, hq, hR⟩ := x.until (n := n) hf (fun s => s.pc t = .wRet p timed r) (fun _ => False) h
      (by
        intro m a hm hq hs
        rcases step_ret hq hs with h | ⟨h1, h2⟩
        · exact .inl h
        · exact absurd ⟨m, r, hm, h2⟩ hno)
      (by
        intro hall m
        exact ⟨max n m, by omega, .inr (.inr ⟨p, timed, r, hall _ (by omega)⟩)⟩)
    exact hR
  have fromHold : ∀ n' f, n ≤ n' → (x.st n').pc t = .wHold p timed f → ∃ m r, n' ≤ m ∧
      (x.st (m + 1)).hist = (x.st m).hist ++ [.waited t p timed r (x.st m).data (x.st m).destructing] := by
    intro n' f hn h
    obtain ⟨m, hm, hq, r, hR⟩ := x.until (n := n') hf (fun s => s.pc t = .wHold p timed f)
      (fun s => ∃ r, s.pc t = .wRet p timed r) h
      (by
        intro m a hm hq hs
        rcases step_hold hq (hc m (by omega)) hs with h | ⟨_, h⟩
        · exact .inl h
        · exact .inr fun _ => h)
      (by
        intro hall m
        exact ⟨max n' m, by omega, .inr (.inl ⟨p, timed, f, hall _ (by omega)⟩)⟩)
    obtain ⟨m', r', hm', h'⟩ := fromRet (m + 1) r hR
    exact ⟨m', r', by omega, h'⟩
  have fromWant : ∀ n' f, n ≤ n' → (x.st n').pc t = .wWant p timed f → ∃ m r, n' ≤ m ∧
      (x.st (m + 1)).hist = (x.st m).hist ++ [.waited t p timed r (x.st m).data (x.st m).destructing] := by
    intro n' f hn h
    obtain ⟨m, hm, hq, hR⟩ := x.until (n := n') hf (fun s => s.pc t = .wWant p timed f)
      (fun s => s.pc t = .wHold p timed f) h
      (by
        intro m a hm hq hs
        rcases step_want hq hs with h | ⟨_, h⟩
        · exact .inl h
        · exact .inr fun _ => h)
      (by
        intro hall m
        obtain ⟨k, hk, hlk⟩ := hfree (max n' m)
        exact ⟨k, by omega, .inl ⟨⟨p, timed, f, hall _ (by omega)⟩, hlk⟩⟩)
    obtain ⟨m', r', hm', h'⟩ := fromHold (m + 1) f (by omega) hR
    exact ⟨m', r', by omega, h'⟩
  rcases hw with h | ⟨f, h⟩ | ⟨f, h⟩ | ⟨r, h⟩
  · -- asleep: at the first instant with the mutex free it is not
    obtain ⟨k, hk, hlk⟩ := hfree n
    have hpath : ∀ j, (x.st (n + j)).pc t = .wAsleep p timed ∨
        ∃ i f, i ≤ j ∧ (x.st (n + i)).pc t = .wWant p timed f := by
      intro j
      induction j with
      | zero => left; exact h
      | succ j ih =>
        rcases ih with ih | ⟨i, f, hi, hp⟩
        · have hn := x.next (n + j)
          cases ha : x.act (n + j) with
          | none =>
            rw [ha] at hn; simp only at hn
            left
            show (x.st (n + j + 1)).pc t = _
            rw [hn]; exact ih
          | some a =>
            rw [ha] at hn; simp only at hn
            rcases step_sleep ih hn with h | ⟨f, h⟩
            · left; exact h
            · right; exact ⟨j + 1, f, by omega, h⟩
        · right; exact ⟨i, f, by omega, hp⟩
    rcases hpath (k - n) with hs | ⟨i, f, hi, hp⟩
    · exfalso
      rw [Nat.add_sub_cancel' hk] at hs
      obtain ⟨a, b⟩ := no_lost_wakeup (x.reach k) (hb k) hlk hs
      have := hc k hk
      unfold cond at this
      rw [a] at this
      simp at this
      obtain ⟨⟨h1, h2⟩, h3⟩ := this
      have := b h1 h2
      rw [h3] at this; simp at this
    · obtain ⟨m, r, hm, hh⟩ := fromWant (n + i) f (by omega) hp
      exact ⟨m, r, by omega, hh⟩
  · exact fromWant n f (Nat.le_refl _) h
  · exact fromHold n f (Nat.le_refl _) h
  · exact fromRet n r h

/-! ### C54: the destructor of the intrusive waitable atomic -/

/-- **C54** When the destructor of an intrusive waitable atomic returns, every live client ever handed out
has given up its reference, and none is handed out or given up afterwards. -/
theorem destructor_waits_for_clients {d : D} {s : St D P} (h : Reach holds intrusive d s)
    {A B : List (Ev D P)} {t : Nat} (hh : s.hist = A ++ Ev.destructed t :: B) :
    regs A = drops A ∧ (∀ u, Ev.registered u true ∉ B) ∧ ∀ u, Ev.dropped u ∉ B := by
  obtain ⟨g1, g2⟩ := h.inv.hist.order A t B hh
  refine ⟨g1, ?_, ?_⟩
  · intro u hu
    have := (g2 _ hu).1
    simp [isReg] at this
  · intro u hu
    have := (g2 _ hu).2
    simp [isDrop] at this

/-- **C54** Once the destructor has begun in earnest, registering gives a null client. -/
theorem no_client_once_destructing {s s' : St D P} {u : Nat} (hd : s.destructing = true)
    (h : step holds intrusive s (.register u) = some s') :
    s'.hist = s.hist ++ [.registered u false] ∧ s'.ref = s.ref := by
  step_cases h
  · exact ⟨rfl, rfl⟩

/-- **C54** The destructor does not sleep through its last notification: if it is asleep though no client is
left, some client is between its decrement and its `notify_one()`, and that wakes the destructor, which
then finishes. -/
theorem destructor_is_woken {d : D} {s : St D P} (h : Reach holds intrusive d s) {t : Nat}
    (ht : s.pc t = .dAsleep) (hc : s.clients = 0) (hl : s.lock = none) :
    ∃ u s', s.pc u = .cDecd ∧ run holds intrusive s [.notify u, .dstep t] = some s' ∧
      s'.hist = s.hist ++ [.destructed t] := by
  rcases h.inv.asleep t ht with g | ⟨u, hu⟩
  · omega
  · have hne : t ≠ u := by rintro rfl; rw [ht] at hu; simp at hu
    have hr : s.ref = 0 := by
      have h1 := h.inv.ref.count
      have h2 := h.inv.ref.late t (by rw [ht]; rfl)
      rw [h2, hc] at h1
      simpa using h1
    have hp : wakeDtor (upd s.pc u Pc.idle) t = .d4 := by
      simp [wakeDtor, upd, hne, ht]
    have e1 : step holds intrusive s (.notify u) = some { s with pc := wakeDtor (upd s.pc u .idle) } := by
      simp [step, hu]
    refine ⟨u, ?_⟩
    have e2 : step holds intrusive { s with pc := wakeDtor (upd s.pc u .idle) } (.dstep t) =
        some { s with
          pc := upd (wakeDtor (upd s.pc u .idle)) t .dGone
          hist := s.hist ++ [.destructed t] } := by
      simp [step, hp, hl, hr]
    have e3 : run holds intrusive s [.notify u, .dstep t] = some { s with
          pc := upd (wakeDtor (upd s.pc u .idle)) t .dGone
          hist := s.hist ++ [.destructed t] } := by
      simp [run, e1, e2]
    exact ⟨_, hu, e3, rfl⟩

end

/-! ### Examples and findings -/

/-- Predicates by number: at least that much. -/
def atLeast (p d : Nat) : Bool := decide (p ≤ d)

/-- Beside C53: thread 1 waits for 2, thread 2 waits with a time-out for 5; thread 0 sets 1, then 3;
thread 1 returns `true`; thread 2 times out; a quiet accessor of thread 0 wakes nobody. -/
theorem wait_example :
    (run atLeast false (init 0) [.wait 1 2 false, .acquire 1, .check 1, .wait 2 5 true, .acquire 2, .check 2,
      .mutable 0, .acquire 0, .write 0 1, .finish 0, .release 0, .acquire 1, .check 1,
      .mutable 0, .acquire 0, .mark 0, .finish 0, .release 0,
      .mutable 0, .acquire 0, .write 0 3, .finish 0, .release 0, .acquire 1, .check 1, .release 1,
      .acquire 2, .check 2, .timeout 2, .acquire 2, .check 2, .release 2]).map (fun s => (s.hist, s.broken)) =
    some ([.wrote 0 1, .wrote 0 1, .wrote 0 3, .waited 1 2 false true 3 false, .waited 2 5 true false 3 false],
      false) := by
  decide +kernel

/-- A finite schedule, after which nothing happens any more, as an infinite execution. -/
def execSt (holds : P → D → Bool) [DecidableEq D] (intrusive : Bool) : St D P → List (Act D P) → Nat → St D P
  | s, _, 0 => s
  | s, [], _ + 1 => s
  | s, a :: as, n + 1 => match step holds intrusive s a with
    | some s' => execSt holds intrusive s' as n
    | none => s

theorem execSt_next [DecidableEq D] {holds : P → D → Bool} {intrusive : Bool} {as : List (Act D P)} :
    ∀ {s s' : St D P}, run holds intrusive s as = some s' → ∀ n, match as[n]? with
      | some a => step holds intrusive (execSt holds intrusive s as n) a = some (execSt holds intrusive s as (n + 1))
      | none => execSt holds intrusive s as (n + 1) = execSt holds intrusive s as n := by
  induction as with
  | nil => intro s s' _ n; cases n <;> simp [execSt]
  | cons a as ih =>
    intro s s' h n
    simp only [run] at h
    split at h
    · rename_i s1 h1
      cases n with
      | zero => simp only [List.getElem?_cons_zero, execSt, h1]
      | succ n =>
        have := ih h n
        simp only [List.getElem?_cons_succ, execSt, h1]
        exact this
    · simp at h

def execOf [DecidableEq D] (holds : P → D → Bool) (intrusive : Bool) (d : D) (as : List (Act D P)) {s' : St D P}
    (h : run holds intrusive (init d) as = some s') : Exec holds intrusive d :=
  ⟨execSt holds intrusive (init d) as, fun n => as[n]?, by simp [execSt], fun n => execSt_next h n⟩

theorem execSt_end [DecidableEq D] {holds : P → D → Bool} {intrusive : Bool} {as : List (Act D P)} :
    ∀ {s s' : St D P}, run holds intrusive s as = some s' → ∀ n, as.length ≤ n →
      execSt holds intrusive s as n = s' := by
  induction as with
  | nil => intro s s' h n _; simp [run] at h; subst h; cases n <;> rfl
  | cons a as ih =>
    intro s s' h n hn
    simp only [run] at h
    split at h
    · rename_i s1 h1
      cases n with
      | zero => simp at hn
      | succ n => simp only [execSt, h1]; exact ih h n (by simpa using hn)
    · simp at h

def exampleActs : List (Act Nat Nat) :=
  [.wait 1 2 false, .acquire 1, .check 1, .mutable 0, .acquire 0, .write 0 3, .finish 0, .release 0,
    .acquire 1, .check 1, .release 1]

/-- Beside `every_wait_returns`: an execution that meets its hypotheses (from instant 6 on, with thread 1
asleep while thread 0 still holds the mutex). -/
theorem every_wait_returns_example : ∃ (x : Exec atLeast false (0 : Nat)), Fair x 1 ∧
    (x.st 6).pc 1 = .wAsleep 2 false ∧ (∀ m, 6 ≤ m → cond atLeast false (x.st m) 2 false = true) ∧
    (∀ m, (x.st m).broken = false) ∧ (∀ m, ∃ k, m ≤ k ∧ (x.st k).lock = none) := by
  have hr : (run atLeast false (init 0) exampleActs).isSome = true := by decide +kernel
  obtain ⟨s', h⟩ := Option.isSome_iff_exists.1 hr
  have hend : ∀ n, 11 ≤ n → execSt atLeast false (init 0) exampleActs n = s' := execSt_end h
  have h11 := hend 11 (by omega)
  have fin : ∀ (Q : St Nat Nat → Prop), (∀ n, n ≤ 11 → Q (execSt atLeast false (init 0) exampleActs n)) →
      ∀ n, Q (execSt atLeast false (init 0) exampleActs n) := by
    intro Q hQ n
    by_cases hn : n ≤ 11
    · exact hQ n hn
    · rw [hend n (by omega), ← h11]; exact hQ 11 (by omega)
  have hidle : s'.pc 1 = .idle ∧ s'.lock = none := by rw [← h11]; decide +kernel
  refine ⟨execOf atLeast false 0 exampleActs h, ?_, ?_, ?_, ?_, ?_⟩
  · intro hready
    exfalso
    obtain ⟨m, hm, hR⟩ := hready 11
    have : (execOf atLeast false 0 exampleActs h).st m = s' := hend m hm
    rw [this] at hR
    rcases hR with ⟨⟨_, _, _, g⟩, _⟩ | ⟨_, _, _, g⟩ | ⟨_, _, _, g⟩ <;> rw [hidle.1] at g <;> simp at g
  · show (execSt atLeast false (init 0) exampleActs 6).pc 1 = _
    decide +kernel
  · intro m hm
    by_cases hn : m ≤ 11
    · have : ∀ m, m ≤ 11 → 6 ≤ m → cond atLeast false (execSt atLeast false (init 0) exampleActs m) 2 false = true := by
        decide +kernel
      exact this m hn hm
    · show cond atLeast false (execSt atLeast false (init 0) exampleActs m) 2 false = true
      rw [hend m (by omega), ← h11]; decide +kernel
  · refine fin (fun s => s.broken = false) ?_
    decide +kernel
  · intro m
    refine ⟨max m 11, by omega, ?_⟩
    show (execSt atLeast false (init 0) exampleActs (max m 11)).lock = none
    rw [hend _ (by omega)]; exact hidle.2

/-- Finding: an accessor marked as unmodified after a modification loses the wake-up (the proviso of
`no_lost_wakeup` is needed). -/
theorem mislabelled_modification_loses_wakeup :
    (run atLeast false (init 0) [.wait 1 2 false, .acquire 1, .check 1, .mutable 0, .acquire 0, .write 0 5,
      .mark 0, .finish 0, .release 0]).map (fun s => (s.lock, s.pc 1, s.data, s.broken)) =
    some (none, .wAsleep 2 false, 5, true) := by
  decide +kernel

/-- Beside C54: a client registers, waits; the destructor begins; the wait returns `false`; a late
registration fails; the destructor sleeps until the client goes. -/
theorem destructor_example :
    (run atLeast true (init 0) [.register 1, .notify 1, .wait 1 2 false, .acquire 1, .check 1, .destroy 0,
      .dstep 0, .dstep 0, .dstep 0, .dstep 0, .register 2, .acquire 1, .check 1, .release 1, .drop 1, .notify 1,
      .dstep 0]).map (·.hist) =
    some [.registered 1 true, .registered 2 false, .waited 1 2 false false 0 true, .dropped 1, .destructed 0] := by
  decide +kernel

/-- Finding: `RefCounterDecrease` calls `cv_.notify_one()` after releasing the mutex; the destructor may
have returned by then, so the last client touches a destroyed condition variable. -/
theorem client_may_notify_destroyed_object :
    (run atLeast true (init 0) [.register 1, .notify 1, .destroy 0, .dstep 0, .dstep 0, .dstep 0, .drop 1,
      .dstep 0]).map (fun s => (s.hist, s.pc 1)) =
    some ([.registered 1 true, .dropped 1, .destructed 0], .cDecd) := by
  decide +kernel

/-- Finding: the intrusive class inherits `WaitFor`, which ignores `destructing_`: a thread in `WaitFor`
goes back to sleep though the object is being destructed, until its own time-out. -/
theorem waitFor_ignores_destruction :
    (run atLeast true (init 0) [.wait 1 2 true, .acquire 1, .check 1, .destroy 0, .dstep 0, .acquire 1,
      .check 1]).map (fun s => (s.destructing, s.pc 1)) =
    some (true, .wAsleep 2 true) := by
  decide +kernel

end Current.Sync
