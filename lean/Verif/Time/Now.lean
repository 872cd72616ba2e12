/-
`current::time::Now()` (bricks/time/chrono.h:60-130): the strictly increasing epoch clock, under every
interleaving of threads and every sequence of system clock readings, and its mock used by the tests.

Simplification: values are mathematical integers; `now_le` below bounds them, so that `int64_t` can
overflow only if the system clock itself reads within (number of calls) of 2^63 microseconds.
-/
namespace Current.Time

/-- Where a thread is inside `Now()` (chrono.h:110-121). -/
inductive Pc where
  /-- not inside `Now()` -/
  | idle
  /-- about to read the system clock (chrono.h:113) -/
  | top
  /-- has read the system clock, about to `load()` (chrono.h:115) -/
  | read (now : Int)
  /-- has computed `now`; about to `compare_exchange_strong(previous_now, now)` (chrono.h:119) -/
  | ready (prev now : Int)
  /-- the exchange succeeded; about to return (chrono.h:120) -/
  | done (now : Int)
deriving DecidableEq, Repr

/-- What callers can see. -/
inductive Ev where
  | inv (t : Nat)
  | ret (t : Nat) (v : Int)
deriving DecidableEq, Repr

/-- chrono.h:105-108: the one atomic cell; plus the threads, plus the history of calls and returns,
oldest first. -/
structure St where
  cell : Int
  pc : Nat → Pc
  hist : List Ev

/-- chrono.h:108: `monotonic_now_us(0ll)`. -/
def init : St := ⟨0, fun _ => .idle, []⟩

def setPc (f : Nat → Pc) (t : Nat) (p : Pc) : Nat → Pc := fun u => if u = t then p else f u

/-- chrono.h:116-118: `if (!(now > previous_now)) now = previous_now + 1`. -/
def adjust (now prev : Int) : Int := if !(decide (now > prev)) then prev + 1 else now

/-- One atomic step of one thread. `clock t n` is the system clock reading `n`, which may be anything. -/
inductive Act where
  | call (t : Nat)
  | clock (t : Nat) (n : Int)
  | load (t : Nat)
  | cas (t : Nat)
  | ret (t : Nat)
deriving DecidableEq, Repr

def Act.thread : Act → Nat
  | .call t => t
  | .clock t _ => t
  | .load t => t
  | .cas t => t
  | .ret t => t

/-- chrono.h:110-121, one atomic operation at a time. `none`: the thread is not at that point. -/
def step (s : St) : Act → Option St
  | .call t => match s.pc t with
    | .idle => some { s with pc := setPc s.pc t .top, hist := s.hist ++ [.inv t] }
    | _ => none
  | .clock t n => match s.pc t with
    | .top => some { s with pc := setPc s.pc t (.read n) }
    | _ => none
  | .load t => match s.pc t with
    | .read n => some { s with pc := setPc s.pc t (.ready s.cell (adjust n s.cell)) }
    | _ => none
  | .cas t => match s.pc t with
    | .ready prev now =>
      if s.cell = prev then some { s with cell := now, pc := setPc s.pc t (.done now) }
      else some { s with pc := setPc s.pc t .top }
    | _ => none
  | .ret t => match s.pc t with
    | .done v => some { s with pc := setPc s.pc t .idle, hist := s.hist ++ [.ret t v] }
    | _ => none

/-- A schedule, from any state. -/
def run (s : St) : List Act → Option St
  | [] => some s
  | a :: as => match step s a with
    | some s' => run s' as
    | none => none

def retVals (h : List Ev) : List Int := h.filterMap fun | .ret _ v => some v | _ => none
def invThreads (h : List Ev) : List Nat := h.filterMap fun | .inv t => some t | _ => none

/-- A call that had returned before `inv t` occurred gave less than `v`. -/
def Below (h : List Ev) (t : Nat) (v : Int) : Prop :=
  ∀ A B u w C, h = A ++ Ev.ret u w :: B ++ Ev.inv t :: C → w < v

/-- The pairs of returns in a history are as promised. -/
structure HistOk (h : List Ev) : Prop where
  nodup : (retVals h).Nodup
  order : ∀ A B C D u w t v, h = A ++ Ev.ret u w :: B ++ Ev.inv t :: C ++ Ev.ret t v :: D → w < v

structure Inv (s : St) : Prop where
  hist : HistOk s.hist
  le_cell : ∀ v ∈ retVals s.hist, v ≤ s.cell
  ready : ∀ t p n, s.pc t = .ready p n → p < n
  done_le : ∀ t v, s.pc t = .done v → v ≤ s.cell
  done_new : ∀ t v, s.pc t = .done v → v ∉ retVals s.hist
  done_inj : ∀ t u v, s.pc t = .done v → s.pc u = .done v → t = u
  done_below : ∀ t v, s.pc t = .done v → Below s.hist t v

theorem retVals_append (a b : List Ev) : retVals (a ++ b) = retVals a ++ retVals b := by
  simp [retVals]

theorem mem_retVals {h : List Ev} {u : Nat} {w : Int} (hm : Ev.ret u w ∈ h) : w ∈ retVals h := by
  simp only [retVals, List.mem_filterMap]
  exact ⟨_, hm, rfl⟩

theorem adjust_gt (n p : Int) : p < adjust n p := by
  unfold adjust
  by_cases h : n > p <;> simp [h] <;> omega

/-- splitting `h ++ [e]` at a decomposition whose last part is `D` -/
theorem snoc_split {h X D : List Ev} {e y : Ev} (H : h ++ [e] = X ++ y :: D) :
    (D = [] ∧ e = y ∧ h = X) ∨ (∃ D', h = X ++ y :: D') := by
  rcases List.eq_nil_or_concat D with rfl | ⟨D', x, rfl⟩
  · left
    have := List.append_inj' H rfl
    simp at this
    exact ⟨rfl, this.2, this.1⟩
  · right
    refine ⟨D', ?_⟩
    have : h ++ [e] = (X ++ y :: D') ++ [x] := by simpa using H
    exact (List.append_inj' this rfl).1

theorem init_inv : Inv init := by
  constructor <;> simp [init, retVals]
  constructor
  · simp [retVals]
  · intro A B C D u w t v h
    have := congrArg List.length h
    simp at this

theorem setPc_self (f : Nat → Pc) (t : Nat) (p : Pc) : setPc f t p t = p := by simp [setPc]
theorem setPc_ne {f : Nat → Pc} {t u : Nat} {p : Pc} (h : u ≠ t) : setPc f t p u = f u := by
  simp [setPc, h]

theorem step_inv {s s' : St} {a : Act} (hi : Inv s) (h : step s a = some s') : Inv s' := by
  cases a with
  | call t =>
    simp only [step] at h
    split at h <;> simp at h
    rename_i hpc
    subst h
    have key : ∀ u, setPc s.pc t Pc.top u = s.pc u ∨ (u = t ∧ setPc s.pc t Pc.top u = .top) := by
      intro u
      by_cases hu : u = t
      · right; subst hu; exact ⟨rfl, setPc_self _ _ _⟩
      · left; exact setPc_ne hu
    have rv : retVals (s.hist ++ [Ev.inv t]) = retVals s.hist := by simp [retVals]
    refine ⟨⟨?_, ?_⟩, ?_, ?_, ?_, ?_, ?_, ?_⟩
    · simpa [rv] using hi.hist.nodup
    · intro A B C D u w t' v hh
      have hh' : s.hist ++ [Ev.inv t] = (A ++ Ev.ret u w :: B ++ Ev.inv t' :: C) ++ Ev.ret t' v :: D := by
        simpa using hh
      rcases snoc_split hh' with ⟨_, he, _⟩ | ⟨D', hd⟩
      · cases he
      · exact hi.hist.order A B C D' u w t' v (by simpa using hd)
    · simpa [rv] using hi.le_cell
    · intro u p n hu
      dsimp only at hu
      rcases key u with hk | ⟨_, hk⟩
      · rw [hk] at hu; exact hi.ready u p n hu
      · rw [hk] at hu; cases hu
    · intro u v hu
      dsimp only at hu ⊢
      rcases key u with hk | ⟨_, hk⟩
      · rw [hk] at hu; exact hi.done_le u v hu
      · rw [hk] at hu; cases hu
    · intro u v hu
      dsimp only at hu ⊢
      rcases key u with hk | ⟨_, hk⟩
      · rw [hk] at hu; rw [rv]; exact hi.done_new u v hu
      · rw [hk] at hu; cases hu
    · intro u u' v hu hu'
      dsimp only at hu hu'
      rcases key u with hk | ⟨_, hk⟩ <;> rcases key u' with hk' | ⟨_, hk'⟩ <;> rw [hk] at hu <;> rw [hk'] at hu'
      · exact hi.done_inj u u' v hu hu'
      · cases hu'
      · cases hu
      · cases hu
    · intro u v hu
      dsimp only at hu ⊢
      have hne : u ≠ t := by
        rintro rfl
        rw [setPc_self] at hu; cases hu
      rw [setPc_ne hne] at hu
      intro A B u' w C hh
      have hh' : s.hist ++ [Ev.inv t] = (A ++ Ev.ret u' w :: B) ++ Ev.inv u :: C := by simpa using hh
      rcases snoc_split hh' with ⟨_, he, _⟩ | ⟨D', hd⟩
      · injection he with he; exact absurd he.symm hne
      · exact hi.done_below u v hu A B u' w D' (by simpa using hd)
  | clock t n =>
    simp only [step] at h
    split at h <;> simp at h
    subst h
    have key : ∀ u v, setPc s.pc t (Pc.read n) u = .done v → s.pc u = .done v := by
      intro u v hu
      by_cases he : u = t
      · subst he; rw [setPc_self] at hu; cases hu
      · rwa [setPc_ne he] at hu
    refine ⟨hi.hist, hi.le_cell, ?_, fun u v hu => hi.done_le u v (key u v hu),
      fun u v hu => hi.done_new u v (key u v hu),
      fun u u' v hu hu' => hi.done_inj u u' v (key u v hu) (key u' v hu'),
      fun u v hu => hi.done_below u v (key u v hu)⟩
    intro u p m hu
    dsimp only at hu
    by_cases he : u = t
    · subst he; rw [setPc_self] at hu; cases hu
    · rw [setPc_ne he] at hu; exact hi.ready u p m hu
  | load t =>
    simp only [step] at h
    split at h <;> simp at h
    rename_i n hpc
    subst h
    have key : ∀ u v, setPc s.pc t (Pc.ready s.cell (adjust n s.cell)) u = .done v → s.pc u = .done v := by
      intro u v hu
      by_cases he : u = t
      · subst he; rw [setPc_self] at hu; cases hu
      · rwa [setPc_ne he] at hu
    refine ⟨hi.hist, hi.le_cell, ?_, fun u v hu => hi.done_le u v (key u v hu),
      fun u v hu => hi.done_new u v (key u v hu),
      fun u u' v hu hu' => hi.done_inj u u' v (key u v hu) (key u' v hu'),
      fun u v hu => hi.done_below u v (key u v hu)⟩
    intro u p m hu
    dsimp only at hu
    by_cases he : u = t
    · subst he; rw [setPc_self] at hu
      injection hu with h1 h2
      subst h1; subst h2
      exact adjust_gt _ _
    · rw [setPc_ne he] at hu; exact hi.ready u p m hu
  | cas t =>
    simp only [step] at h
    split at h <;> try simp at h
    rename_i prev now hpc
    have hlt := hi.ready t prev now hpc
    split at h
    · rename_i hc
      simp at h
      subst h
      have key : ∀ u v, setPc s.pc t (Pc.done now) u = .done v → (u = t ∧ v = now) ∨ (u ≠ t ∧ s.pc u = .done v) := by
        intro u v hu
        by_cases he : u = t
        · left; subst he; rw [setPc_self] at hu; injection hu with hu; exact ⟨rfl, hu.symm⟩
        · right; exact ⟨he, by rwa [setPc_ne he] at hu⟩
      refine ⟨hi.hist, ?_, ?_, ?_, ?_, ?_, ?_⟩
      · intro v hv
        have := hi.le_cell v hv
        dsimp only
        omega
      · intro u p m hu
        dsimp only at hu
        by_cases he : u = t
        · subst he; rw [setPc_self] at hu; cases hu
        · rw [setPc_ne he] at hu; exact hi.ready u p m hu
      · intro u v hu
        dsimp only
        rcases key u v hu with ⟨_, hv⟩ | ⟨_, hu⟩
        · omega
        · have := hi.done_le u v hu; omega
      · intro u v hu
        dsimp only
        rcases key u v hu with ⟨_, hv⟩ | ⟨_, hu⟩
        · intro hm
          have := hi.le_cell v hm
          omega
        · exact hi.done_new u v hu
      · intro u u' v hu hu'
        rcases key u v hu with ⟨h1, hv⟩ | ⟨_, hu⟩ <;> rcases key u' v hu' with ⟨h2, hv'⟩ | ⟨_, hu'⟩
        · omega
        · have := hi.done_le u' v hu'; omega
        · have := hi.done_le u v hu; omega
        · exact hi.done_inj u u' v hu hu'
      · intro u v hu
        dsimp only
        rcases key u v hu with ⟨_, hv⟩ | ⟨_, hu⟩
        · intro A B u' w C hh
          have hm : Ev.ret u' w ∈ s.hist := by rw [hh]; simp
          have := hi.le_cell w (mem_retVals hm)
          omega
        · exact hi.done_below u v hu
    · simp at h
      subst h
      have key : ∀ u v, setPc s.pc t Pc.top u = .done v → s.pc u = .done v := by
        intro u v hu
        by_cases he : u = t
        · subst he; rw [setPc_self] at hu; cases hu
        · rwa [setPc_ne he] at hu
      refine ⟨hi.hist, hi.le_cell, ?_, fun u v hu => hi.done_le u v (key u v hu),
        fun u v hu => hi.done_new u v (key u v hu),
        fun u u' v hu hu' => hi.done_inj u u' v (key u v hu) (key u' v hu'),
        fun u v hu => hi.done_below u v (key u v hu)⟩
      intro u p m hu
      dsimp only at hu
      by_cases he : u = t
      · subst he; rw [setPc_self] at hu; cases hu
      · rw [setPc_ne he] at hu; exact hi.ready u p m hu
  | ret t =>
    simp only [step] at h
    split at h <;> simp at h
    rename_i v0 hpc
    subst h
    have key : ∀ u v, setPc s.pc t Pc.idle u = .done v → u ≠ t ∧ s.pc u = .done v := by
      intro u v hu
      by_cases he : u = t
      · subst he; rw [setPc_self] at hu; cases hu
      · exact ⟨he, by rwa [setPc_ne he] at hu⟩
    have rv : retVals (s.hist ++ [Ev.ret t v0]) = retVals s.hist ++ [v0] := by simp [retVals]
    refine ⟨⟨?_, ?_⟩, ?_, ?_, ?_, ?_, ?_, ?_⟩
    · dsimp only
      rw [rv]
      rw [List.nodup_append]
      refine ⟨hi.hist.nodup, by simp, ?_⟩
      intro a ha b hb
      simp at hb
      subst hb
      rintro rfl
      exact hi.done_new t _ hpc ha
    · intro A B C D u w t' v hh
      have hh' : s.hist ++ [Ev.ret t v0] = (A ++ Ev.ret u w :: B ++ Ev.inv t' :: C) ++ Ev.ret t' v :: D := by
        simpa using hh
      rcases snoc_split hh' with ⟨_, he, hX⟩ | ⟨D', hd⟩
      · injection he with h1 h2
        subst h1; subst h2
        exact hi.done_below t v0 hpc A B u w C hX
      · exact hi.hist.order A B C D' u w t' v (by simpa using hd)
    · intro v hv
      dsimp only at hv ⊢
      rw [rv] at hv
      simp at hv
      rcases hv with hv | rfl
      · exact hi.le_cell v hv
      · exact hi.done_le t _ hpc
    · intro u p m hu
      dsimp only at hu
      by_cases he : u = t
      · subst he; rw [setPc_self] at hu; cases hu
      · rw [setPc_ne he] at hu; exact hi.ready u p m hu
    · intro u v hu
      exact hi.done_le u v (key u v hu).2
    · intro u v hu hm
      dsimp only at hm
      rw [rv] at hm
      simp at hm
      obtain ⟨hne, hu2⟩ := key u v hu
      rcases hm with hm | hm
      · exact hi.done_new u v hu2 hm
      · exact hne (hi.done_inj u t v hu2 (by rw [hm]; exact hpc))
    · intro u u' v hu hu'
      exact hi.done_inj u u' v (key u v hu).2 (key u' v hu').2
    · intro u v hu
      obtain ⟨hne, hu⟩ := key u v hu
      intro A B u' w C hh
      have hh' : s.hist ++ [Ev.ret t v0] = (A ++ Ev.ret u' w :: B) ++ Ev.inv u :: C := by simpa using hh
      rcases snoc_split hh' with ⟨_, he, _⟩ | ⟨D', hd⟩
      · cases he
      · exact hi.done_below u v hu A B u' w D' (by simpa using hd)

theorem run_inv {as : List Act} : ∀ {s s' : St}, run s as = some s' → Inv s → Inv s' := by
  induction as with
  | nil => intro s s' h hi; simp [run] at h; subst h; exact hi
  | cons a as ih =>
    intro s s' h hi
    simp only [run] at h
    split at h
    · rename_i s1 h1
      exact ih h (step_inv hi h1)
    · simp at h

/-! ### The claims -/

/-- **C52** No two calls of `Now()`, from any threads, ever return the same value. -/
theorem now_values_distinct {as : List Act} {s : St} (h : run init as = some s)
    {A B C : List Ev} {t u : Nat} {v w : Int}
    (hh : s.hist = A ++ Ev.ret t v :: B ++ Ev.ret u w :: C) : v ≠ w := by
  have hn := (run_inv h init_inv).hist.nodup
  rw [hh] at hn
  rintro rfl
  simp [retVals, List.nodup_append] at hn

/-- **C52** A call of `Now()` that begins after another one has returned, in any threads, returns a
strictly larger value; whatever the system clock did in between. -/
theorem now_strictly_increases {as : List Act} {s : St} (h : run init as = some s)
    {A B C D : List Ev} {t u : Nat} {v w : Int}
    (hh : s.hist = A ++ Ev.ret t v :: B ++ Ev.inv u :: C ++ Ev.ret u w :: D) : v < w :=
  (run_inv h init_inv).hist.order A B C D t v u w hh

/-- The history alternates per thread: the state of a thread says whether its last event is a call. -/
theorem hist_alternates {as : List Act} : ∀ {s s' : St}, run s as = some s' →
    (∀ t A B v, s.hist = A ++ Ev.ret t v :: B → (∀ w, Ev.ret t w ∉ B) → (Ev.inv t ∉ B ↔ s.pc t = .idle)) →
    (∀ t A B C v w, s.hist = A ++ Ev.ret t v :: B ++ Ev.ret t w :: C → Ev.inv t ∈ B) →
    (∀ t A B v, s'.hist = A ++ Ev.ret t v :: B → (∀ w, Ev.ret t w ∉ B) → (Ev.inv t ∉ B ↔ s'.pc t = .idle)) ∧
    (∀ t A B C v w, s'.hist = A ++ Ev.ret t v :: B ++ Ev.ret t w :: C → Ev.inv t ∈ B) := by
  induction as with
  | nil => intro s s' h h1 h2; simp [run] at h; subst h; exact ⟨h1, h2⟩
  | cons a as ih =>
    intro s s' h h1 h2
    simp only [run] at h
    split at h
    · rename_i s1 hs
      have quiet : s1.hist = s.hist → (∀ t, s1.pc t = .idle ↔ s.pc t = .idle) →
          (∀ t A B v, s1.hist = A ++ Ev.ret t v :: B → (∀ w, Ev.ret t w ∉ B) → (Ev.inv t ∉ B ↔ s1.pc t = .idle)) ∧
          (∀ t A B C v w, s1.hist = A ++ Ev.ret t v :: B ++ Ev.ret t w :: C → Ev.inv t ∈ B) := by
        intro hh hp
        rw [hh]
        exact ⟨fun t A B v e hw => (h1 t A B v e hw).trans (hp t).symm, h2⟩
      have pcs : ∀ (t : Nat) (p : Pc), s.pc t ≠ .idle → p ≠ .idle → ∀ u, setPc s.pc t p u = .idle ↔ s.pc u = .idle := by
        intro t p ht hp u
        by_cases hu : u = t
        · subst hu; rw [setPc_self]; exact ⟨fun e => absurd e hp, fun e => absurd e ht⟩
        · rw [setPc_ne hu]
      have main : (∀ t A B v, s1.hist = A ++ Ev.ret t v :: B → (∀ w, Ev.ret t w ∉ B) → (Ev.inv t ∉ B ↔ s1.pc t = .idle)) ∧
          (∀ t A B C v w, s1.hist = A ++ Ev.ret t v :: B ++ Ev.ret t w :: C → Ev.inv t ∈ B) := by
        cases a with
        | call t =>
          simp only [step] at hs
          split at hs <;> simp at hs
          rename_i hpc
          subst hs
          dsimp only
          constructor
          · intro u A B v e hw
            rcases List.eq_nil_or_concat B with rfl | ⟨B', x, rfl⟩
            · have := List.append_inj' (s₁ := s.hist) (t₁ := [Ev.inv t]) (s₂ := A) (t₂ := [Ev.ret u v]) e rfl
              simp at this
            · have e' : s.hist ++ [Ev.inv t] = (A ++ Ev.ret u v :: B') ++ [x] := by simpa using e
              obtain ⟨ea, eb⟩ := List.append_inj' e' rfl
              simp at eb
              subst eb
              have hw' : ∀ w, Ev.ret u w ∉ B' := fun w hm => hw w (by simp [hm])
              have := h1 u A B' v ea hw'
              by_cases hu : u = t
              · subst hu
                rw [setPc_self]
                simp
              · rw [setPc_ne hu, ← this]
                simp [hu]
          · intro u A B C v w e
            have e' : s.hist ++ [Ev.inv t] = (A ++ Ev.ret u v :: B) ++ Ev.ret u w :: C := by simpa using e
            rcases snoc_split e' with ⟨_, he, _⟩ | ⟨C', hd⟩
            · cases he
            · exact h2 u A B C' v w (by simpa using hd)
        | clock t n =>
          simp only [step] at hs
          split at hs <;> simp at hs
          rename_i hpc
          subst hs
          exact quiet rfl (pcs t _ (by simp [hpc]) (by simp))
        | load t =>
          simp only [step] at hs
          split at hs <;> simp at hs
          rename_i hpc
          subst hs
          exact quiet rfl (pcs t _ (by simp [hpc]) (by simp))
        | cas t =>
          simp only [step] at hs
          split at hs <;> try simp at hs
          rename_i hpc
          split at hs <;> simp at hs <;> subst hs
          · exact quiet rfl (pcs t _ (by simp [hpc]) (by simp))
          · exact quiet rfl (pcs t _ (by simp [hpc]) (by simp))
        | ret t =>
          simp only [step] at hs
          split at hs <;> simp at hs
          rename_i v0 hpc
          subst hs
          dsimp only
          constructor
          · intro u A B v e hw
            rcases List.eq_nil_or_concat B with rfl | ⟨B', x, rfl⟩
            · have := List.append_inj' (s₁ := s.hist) (t₁ := [Ev.ret t v0]) (s₂ := A) (t₂ := [Ev.ret u v]) e rfl
              simp at this
              have hu : t = u := this.2.1
              subst hu
              simp [setPc_self]
            · have e' : s.hist ++ [Ev.ret t v0] = (A ++ Ev.ret u v :: B') ++ [x] := by simpa using e
              obtain ⟨ea, eb⟩ := List.append_inj' e' rfl
              simp at eb
              subst eb
              have hu : u ≠ t := by
                rintro rfl
                exact hw v0 (by simp)
              have hw' : ∀ w, Ev.ret u w ∉ B' := fun w hm => hw w (by simp [hm])
              have := h1 u A B' v ea hw'
              rw [setPc_ne hu, ← this]
              simp
          · intro u A B C v w e
            have e' : s.hist ++ [Ev.ret t v0] = (A ++ Ev.ret u v :: B) ++ Ev.ret u w :: C := by simpa using e
            rcases snoc_split e' with ⟨_, he, hX⟩ | ⟨C', hd⟩
            · injection he with e1 e2
              subst e1
              -- the last return of `t` in `B`, if any
              by_cases hB : ∃ w, Ev.ret t w ∈ B
              · obtain ⟨w', hw'⟩ := hB
                obtain ⟨B1, B2, rfl⟩ := List.append_of_mem hw'
                have := h2 t A B1 B2 v w' (by rw [hX]; simp)
                simp [this]
              · have := h1 t A B v hX (fun w hm => hB ⟨w, hm⟩)
                rw [hpc] at this
                by_cases hm : Ev.inv t ∈ B
                · exact hm
                · exact absurd (this.1 hm) (by simp)
            · exact h2 u A B C' v w (by simpa using hd)
      exact ih h main.1 main.2
    · simp at h

/-- **C52** The values one thread gets from consecutive calls strictly increase. -/
theorem now_increases_in_thread {as : List Act} {s : St} (h : run init as = some s)
    {A B C : List Ev} {t : Nat} {v w : Int}
    (hh : s.hist = A ++ Ev.ret t v :: B ++ Ev.ret t w :: C) : v < w := by
  have hi := (hist_alternates h (by intro t A B v e; simp [init] at e) (by intro t A B C v w e; simp [init] at e)).2
  have hm := hi t A B C v w hh
  obtain ⟨B1, B2, rfl⟩ := List.append_of_mem hm
  exact now_strictly_increases h (A := A) (B := B1) (C := B2) (D := C) (u := t) (t := t) (by rw [hh]; simp)

/-- The threads keep out of each other's way: a step of another thread does not move this one. -/
theorem step_other {s s' : St} {a : Act} {t : Nat} (h : step s a = some s') (ht : a.thread ≠ t) :
    s'.pc t = s.pc t := by
  cases a <;> simp only [step] at h <;> split at h <;> try simp at h
  all_goals (try (split at h <;> simp at h)) <;> subst h <;> exact setPc_ne (Ne.symm ht)

/-- **C52** `Now()` is lock-free: if the exchange of a thread fails, some other thread's exchange
succeeded, that is, some other call of `Now()` got its value, since this thread looked at the cell. -/
theorem now_retry_means_progress {t : Nat} : ∀ {mid : List Act} {s s1 : St} {n : Int},
    s.pc t = .ready s.cell n → run s mid = some s1 → (∀ a ∈ mid, a.thread ≠ t) →
    ∀ {s2 : St}, step s1 (.cas t) = some s2 → s2.pc t = .top →
    ∃ (m1 m2 : List Act) (u : Nat) (x y : St) (w : Int), mid = m1 ++ Act.cas u :: m2 ∧ u ≠ t ∧
      run s m1 = some x ∧ step x (.cas u) = some y ∧ y.pc u = .done w := by
  intro mid
  induction mid with
  | nil =>
    intro s s1 n hp hr _ s2 hs htop
    simp [run] at hr
    subst hr
    simp only [step, hp] at hs
    simp at hs
    subst hs
    simp [setPc_self] at htop
  | cons a mid ih =>
    intro s s1 n hp hr hm s2 hs htop
    simp only [run] at hr
    split at hr
    · rename_i s' ha
      have hat : a.thread ≠ t := hm a (by simp)
      by_cases hc : s'.cell = s.cell
      · have hp' : s'.pc t = .ready s'.cell n := by rw [step_other ha hat, hc]; exact hp
        obtain ⟨m1, m2, u, x, y, w, e, hu, hx, hy, hd⟩ := ih hp' hr (fun b hb => hm b (by simp [hb])) hs htop
        exact ⟨a :: m1, m2, u, x, y, w, by simp [e], hu, by simp [run, ha, hx], hy, hd⟩
      · cases a with
        | cas u =>
          have ha0 := ha
          simp only [step] at ha
          split at ha <;> try simp at ha
          rename_i pv w hpc
          split at ha <;> simp at ha
          · refine ⟨[], mid, u, s, s', w, rfl, hat, rfl, ha0, ?_⟩
            rw [← ha]; exact setPc_self _ _ _
          · rw [← ha] at hc; exact absurd rfl hc
        | call u => simp only [step] at ha; split at ha <;> simp at ha; rw [← ha] at hc; exact absurd rfl hc
        | clock u m => simp only [step] at ha; split at ha <;> simp at ha; rw [← ha] at hc; exact absurd rfl hc
        | load u => simp only [step] at ha; split at ha <;> simp at ha; rw [← ha] at hc; exact absurd rfl hc
        | ret u => simp only [step] at ha; split at ha <;> simp at ha; rw [← ha] at hc; exact absurd rfl hc
    · simp at hr

/-- **C52** A call that is not disturbed returns the system clock if the clock is ahead of all values
given so far, and otherwise one microsecond past the latest value given. -/
theorem now_undisturbed {s : St} {t : Nat} {n : Int} (hp : s.pc t = .idle) :
    ∃ s', run s [.call t, .clock t n, .load t, .cas t, .ret t] = some s' ∧
      s'.hist = s.hist ++ [.inv t, .ret t (max n (s.cell + 1))] ∧ s'.cell = max n (s.cell + 1) := by
  have ha : adjust n s.cell = max n (s.cell + 1) := by
    unfold adjust
    by_cases h : n > s.cell <;> simp [h] <;> omega
  have hs : run s [.call t, .clock t n, .load t, .cas t, .ret t] = some
      ⟨adjust n s.cell,
        setPc (setPc (setPc (setPc (setPc s.pc t .top) t (.read n)) t (.ready s.cell (adjust n s.cell))) t
          (.done (adjust n s.cell))) t .idle,
        s.hist ++ [.inv t] ++ [.ret t (adjust n s.cell)]⟩ := by
    simp [run, step, hp, setPc_self]
  exact ⟨_, hs, by simp [ha], by simp [ha]⟩

/-! Overflow: how far the values can run ahead of the system clock. -/

/-- the number of exchanges attempted in a schedule -/
def exchanges (as : List Act) : Nat := (as.filter fun | .cas _ => true | _ => false).length

structure Bound (s : St) (b : Int) (k : Nat) : Prop where
  cell : s.cell ≤ b + k
  rd : ∀ t n, s.pc t = .read n → n ≤ b
  rdy : ∀ t p n, s.pc t = .ready p n → n ≤ max b (p + 1)

theorem run_bound {b : Int} {as : List Act} : ∀ {s s' : St} {k : Nat}, run s as = some s' → Bound s b k →
    (∀ t n, Act.clock t n ∈ as → n ≤ b) → Bound s' b (k + exchanges as) := by
  induction as with
  | nil => intro s s' k h hb _; simp [run] at h; subst h; simpa [exchanges] using hb
  | cons a as ih =>
    intro s s' k h hb hc
    simp only [run] at h
    split at h
    · rename_i s1 hs
      have hc' : ∀ t n, Act.clock t n ∈ as → n ≤ b := fun t n hm => hc t n (by simp [hm])
      cases a with
      | cas t =>
        have : Bound s1 b (k + 1) := by
          simp only [step] at hs
          split at hs <;> try simp at hs
          rename_i p n hpc
          have hr := hb.rdy t p n hpc
          have hcell := hb.cell
          split at hs
          · rename_i he
            simp at hs
            subst hs
            refine ⟨by dsimp only; omega, ?_, ?_⟩
            · intro u m hu
              dsimp only at hu
              by_cases e : u = t
              · subst e; rw [setPc_self] at hu; cases hu
              · rw [setPc_ne e] at hu; exact hb.rd u m hu
            · intro u q m hu
              dsimp only at hu
              by_cases e : u = t
              · subst e; rw [setPc_self] at hu; cases hu
              · rw [setPc_ne e] at hu; exact hb.rdy u q m hu
          · simp at hs
            subst hs
            refine ⟨by dsimp only; omega, ?_, ?_⟩
            · intro u m hu
              dsimp only at hu
              by_cases e : u = t
              · subst e; rw [setPc_self] at hu; cases hu
              · rw [setPc_ne e] at hu; exact hb.rd u m hu
            · intro u q m hu
              dsimp only at hu
              by_cases e : u = t
              · subst e; rw [setPc_self] at hu; cases hu
              · rw [setPc_ne e] at hu; exact hb.rdy u q m hu
        have := ih h this hc'
        have e : exchanges (Act.cas t :: as) = exchanges as + 1 := by simp [exchanges]
        rw [e]
        have e2 : k + (exchanges as + 1) = k + 1 + exchanges as := by omega
        rw [e2]; exact this
      | call t =>
        have : Bound s1 b k := by
          simp only [step] at hs
          split at hs <;> simp at hs
          subst hs
          refine ⟨hb.cell, ?_, ?_⟩
          · intro u m hu
            dsimp only at hu
            by_cases e : u = t
            · subst e; rw [setPc_self] at hu; cases hu
            · rw [setPc_ne e] at hu; exact hb.rd u m hu
          · intro u q m hu
            dsimp only at hu
            by_cases e : u = t
            · subst e; rw [setPc_self] at hu; cases hu
            · rw [setPc_ne e] at hu; exact hb.rdy u q m hu
        simpa [exchanges] using ih h this hc'
      | clock t n =>
        have hn := hc t n (by simp)
        have : Bound s1 b k := by
          simp only [step] at hs
          split at hs <;> simp at hs
          subst hs
          refine ⟨hb.cell, ?_, ?_⟩
          · intro u m hu
            dsimp only at hu
            by_cases e : u = t
            · subst e; rw [setPc_self] at hu; injection hu with hu; omega
            · rw [setPc_ne e] at hu; exact hb.rd u m hu
          · intro u q m hu
            dsimp only at hu
            by_cases e : u = t
            · subst e; rw [setPc_self] at hu; cases hu
            · rw [setPc_ne e] at hu; exact hb.rdy u q m hu
        simpa [exchanges] using ih h this hc'
      | load t =>
        have : Bound s1 b k := by
          simp only [step] at hs
          split at hs <;> simp at hs
          rename_i n hpc
          have hn := hb.rd t n hpc
          subst hs
          refine ⟨hb.cell, ?_, ?_⟩
          · intro u m hu
            dsimp only at hu
            by_cases e : u = t
            · subst e; rw [setPc_self] at hu; cases hu
            · rw [setPc_ne e] at hu; exact hb.rd u m hu
          · intro u q m hu
            dsimp only at hu
            by_cases e : u = t
            · subst e; rw [setPc_self] at hu; injection hu with h1 h2
              subst h1; subst h2
              unfold adjust
              by_cases hg : n > s.cell <;> simp [hg] <;> omega
            · rw [setPc_ne e] at hu; exact hb.rdy u q m hu
        simpa [exchanges] using ih h this hc'
      | ret t =>
        have : Bound s1 b k := by
          simp only [step] at hs
          split at hs <;> simp at hs
          subst hs
          refine ⟨hb.cell, ?_, ?_⟩
          · intro u m hu
            dsimp only at hu
            by_cases e : u = t
            · subst e; rw [setPc_self] at hu; cases hu
            · rw [setPc_ne e] at hu; exact hb.rd u m hu
          · intro u q m hu
            dsimp only at hu
            by_cases e : u = t
            · subst e; rw [setPc_self] at hu; cases hu
            · rw [setPc_ne e] at hu; exact hb.rdy u q m hu
        simpa [exchanges] using ih h this hc'
    · simp at h

/-- **C52** If the system clock never reads more than `b ≥ 0`, no value returned exceeds `b` plus the
number of exchanges made: the values run ahead of the clock by one per call at most, and cannot overflow
before the clock is within that of 2^63 microseconds. -/
theorem now_le {as : List Act} {s : St} {b : Int} (h : run init as = some s) (hb : 0 ≤ b)
    (hc : ∀ t n, Act.clock t n ∈ as → n ≤ b) {t : Nat} {v : Int} (hv : Ev.ret t v ∈ s.hist) :
    v ≤ b + exchanges as := by
  have h0 : Bound init b 0 := ⟨by simpa [init] using hb, by simp [init], by simp [init]⟩
  have h1 := (run_bound h h0 hc).cell
  have h2 := (run_inv h init_inv).le_cell v (mem_retVals hv)
  simp at h1
  omega

/-- Beside C52: two threads race with a clock stuck at 100; thread 1 loads before thread 0's exchange,
fails, and retries while the clock goes back to 50. -/
theorem now_example :
    (run init [.call 0, .call 1, .clock 0 100, .clock 1 100, .load 1, .load 0, .cas 0, .cas 1, .ret 0,
      .clock 1 50, .load 1, .cas 1, .call 0, .ret 1, .clock 0 200, .load 0, .cas 0, .ret 0]).map (·.hist) =
    some [.inv 0, .inv 1, .ret 0 100, .inv 0, .ret 1 101, .ret 0 200] := by
  decide

/-! ### The mock clock (chrono.h:63-99, under its mutex) -/

/-- chrono.h:63-67: `MockNowImpl`, zero-initialized as a static. -/
structure Mock where
  value : Int
  max : Int
deriving DecidableEq, Repr

def Mock.init : Mock := ⟨0, 0⟩

inductive MockOp where
  | now
  | setNow (us maxUs : Int)
  | reset
deriving DecidableEq, Repr

inductive MockRes where
  | value (v : Int)
  | ok
  | inconsistentSetNow (was attempted : Int)
deriving DecidableEq, Repr

/-- chrono.h:69-99. -/
def Mock.apply (m : Mock) : MockOp → Mock × MockRes
  | .now => (if m.value < m.max then { m with value := m.value + 1 } else m, .value m.value)
  | .setNow us maxUs => if us ≥ m.value then (⟨us, maxUs⟩, .ok) else (m, .inconsistentSetNow m.value us)
  | .reset => (⟨0, 1000 * 1000 * 1000⟩, .ok)

def Mock.run (m : Mock) : List MockOp → Mock × List MockRes
  | [] => (m, [])
  | o :: os => let r := m.apply o; let q := Mock.run r.1 os; (q.1, r.2 :: q.2)

def values : List MockRes → List Int := List.filterMap fun | .value v => some v | _ => none

theorem mock_mono {os : List MockOp} : ∀ (m : Mock), MockOp.reset ∉ os →
    (∀ v ∈ values (m.run os).2, m.value ≤ v) ∧ List.Pairwise (· ≤ ·) (values (m.run os).2) := by
  induction os with
  | nil => intro m _; simp [Mock.run, values]
  | cons o os ih =>
    intro m hr
    have hr' : MockOp.reset ∉ os := fun h => hr (by simp [h])
    have ho : o ≠ .reset := fun h => hr (by simp [h])
    obtain ⟨i1, i2⟩ := ih (m.apply o).1 hr'
    have hle : m.value ≤ (m.apply o).1.value := by
      cases o with
      | now => simp only [Mock.apply]; split <;> simp; omega
      | setNow us mx => simp only [Mock.apply]; split <;> simp; omega
      | reset => exact absurd rfl ho
    cases o with
    | now =>
      have e : values (m.run (.now :: os)).2 = m.value :: values (((m.apply .now).1).run os).2 := by
        simp [Mock.run, values, Mock.apply]
      rw [e]
      refine ⟨?_, ?_⟩
      · intro v hv
        simp at hv
        rcases hv with rfl | hv
        · omega
        · have := i1 v hv; omega
      · rw [List.pairwise_cons]
        exact ⟨fun v hv => by have := i1 v hv; omega, i2⟩
    | setNow us mx =>
      have e : values (m.run (.setNow us mx :: os)).2 = values (((m.apply (.setNow us mx)).1).run os).2 := by
        simp only [Mock.run, values, Mock.apply]
        split <;> simp
      rw [e]
      exact ⟨fun v hv => by have := i1 v hv; omega, i2⟩
    | reset => exact absurd rfl ho

/-- **C52** With the mock clock, as long as nobody calls `ResetToZero()`, time never goes back. -/
theorem mock_never_goes_back {os : List MockOp} (m : Mock) (h : MockOp.reset ∉ os) :
    List.Pairwise (· ≤ ·) (values (m.run os).2) := (mock_mono m h).2

/-- **C52** `SetNow()` to the past throws and changes nothing; otherwise the next `Now()` returns exactly
the value set. -/
theorem mock_set_now (m : Mock) (us mx : Int) :
    (us < m.value → m.apply (.setNow us mx) = (m, .inconsistentSetNow m.value us)) ∧
    (m.value ≤ us → ((m.apply (.setNow us mx)).1.apply .now).2 = .value us) := by
  constructor
  · intro h
    simp only [Mock.apply]
    rw [if_neg (by omega)]
  · intro h
    simp only [Mock.apply]
    rw [if_pos h]

/-- **C52** After `SetNow(us, max_us)` the next `max_us - us` values strictly increase by one microsecond
each, and from then on `Now()` repeats `max_us`. -/
theorem mock_counts_up_to_max (us mx : Int) (k : Nat) (h : us ≤ mx) :
    (Mock.run ⟨us, mx⟩ (List.replicate k .now)).1.value = min (us + k) mx ∧
    values (Mock.run ⟨us, mx⟩ (List.replicate k .now)).2 =
      (List.range k).map fun (i : Nat) => min (us + (i : Int)) mx := by
  induction k generalizing us with
  | zero => refine ⟨?_, rfl⟩; simp only [List.replicate, Mock.run]; push_cast; omega
  | succ k ih =>
    have e : values (Mock.run ⟨us, mx⟩ (List.replicate (k + 1) .now)).2 =
        us :: values (Mock.run (Mock.apply ⟨us, mx⟩ .now).1 (List.replicate k .now)).2 := by
      simp [List.replicate_succ, Mock.run, values, Mock.apply]
    have e1 : (Mock.run ⟨us, mx⟩ (List.replicate (k + 1) .now)).1 =
        (Mock.run (Mock.apply ⟨us, mx⟩ .now).1 (List.replicate k .now)).1 := by
      simp [List.replicate_succ, Mock.run]
    rw [e, e1]
    by_cases hl : us < mx
    · have ea : (Mock.apply ⟨us, mx⟩ .now).1 = ⟨us + 1, mx⟩ := by simp [Mock.apply, hl]
      rw [ea]
      obtain ⟨h1, h2⟩ := ih (us + 1) (by omega)
      rw [h1, h2]
      refine ⟨by push_cast; omega, ?_⟩
      rw [List.range_succ_eq_map]
      simp only [List.map_cons, List.map_map]
      congr 1
      · simp; omega
      · apply List.map_congr_left
        intro i _
        simp only [Function.comp]
        push_cast
        omega
    · have ea : (Mock.apply ⟨us, mx⟩ .now).1 = ⟨us, mx⟩ := by simp [Mock.apply, hl]
      rw [ea]
      obtain ⟨h1, h2⟩ := ih us h
      rw [h1, h2]
      refine ⟨by push_cast; omega, ?_⟩
      rw [List.range_succ_eq_map]
      simp only [List.map_cons, List.map_map]
      congr 1
      · simp; omega
      · apply List.map_congr_left
        intro i _
        simp only [Function.comp]
        push_cast
        omega

/-- **C52**, finding: after `SetNow(us)` with the default `max_us = 0`, the mock `Now()` is not strictly
increasing: it returns the same value for ever. -/
theorem mock_default_is_constant (us : Int) (h : 0 ≤ us) (k : Nat) :
    values (Mock.run ⟨us, 0⟩ (List.replicate k .now)).2 = List.replicate k us := by
  induction k with
  | zero => rfl
  | succ k ih =>
    have ea : (Mock.apply ⟨us, 0⟩ .now).1 = ⟨us, 0⟩ := by
      simp only [Mock.apply]; rw [if_neg (by omega)]
    have e : values (Mock.run ⟨us, 0⟩ (List.replicate (k + 1) .now)).2 =
        us :: values (Mock.run (Mock.apply ⟨us, 0⟩ .now).1 (List.replicate k .now)).2 := by
      simp [List.replicate_succ, Mock.run, values, Mock.apply]
    rw [e, ea, ih]
    rfl

/-- Beside the mock theorems: set, count, refuse to go back. -/
theorem mock_example : (Mock.run .init [.setNow 10 12, .now, .now, .now, .now, .setNow 5 0, .setNow 20 0, .now, .now]).2 =
    [.ok, .value 10, .value 11, .value 12, .value 12, .inconsistentSetNow 12 5, .ok, .value 20, .value 20] := by
  decide

end Current.Time
