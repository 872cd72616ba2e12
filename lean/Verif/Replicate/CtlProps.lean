import Verif.Replicate.Ctl
/-!
What holds for the calls of a `MasterFlipController` (C116).
-/

set_option linter.unusedSimpArgs false

namespace Current.Ctl

/-! ### Specification -/

/-- Neither exposing nor stopping to expose. -/
def Ev.isRole (e : Ev) : Bool := match e.res with | .exposed | .alreadyExposed | .stopped | .notExposed => false | _ => true

/-- The role the controller is in according to the calls that have returned (the most recent first). -/
def last : List Ev → Option Role
  | [] => some .master
  | e :: l => if e.isRole then e.after else last l

/-- What each result says about the role before and after. -/
def Fair (e : Ev) : Prop :=
  match e.res with
  | .followed => (e.before = some .master ∨ e.before = some .yielded) ∧ e.after = some .following
  | .followFailed => (e.before = some .master ∨ e.before = some .yielded) ∧ e.after = e.before
  | .alreadyFollowing => e.before = some .following ∧ e.after = e.before
  | .flipped => e.before = some .following ∧ e.after = some .master
  | .flipFailed => e.before = some .following ∧ e.after = e.before
  | .alreadyMaster => e.before = some .master ∧ e.after = e.before
  | .followsNobody => e.before = some .yielded ∧ e.after = e.before
  | .reqYielded => (e.before = some .master ∨ e.before = some .following) ∧ e.after = some .yielded
  | .reqUnavailable | .reqRefused => e.before ≠ none ∧ e.after = e.before
  | .reqRemoteRefused => e.before = some .following ∧ e.after = e.before
  | .reqDiffFailed => (e.before = some .master ∨ e.before = some .following) ∧ e.after = some .master
  | .exposed | .alreadyExposed | .stopped | .notExposed => e.after = e.before

/-- The calls form a history of roles: each starts in the role the previous one has left, and ends in the role its result says. -/
def Hist : List Ev → Prop
  | [] => True
  | e :: l => Hist l ∧ Fair e ∧ (e.isRole = true → e.before = last l)

/-! ### Which calls may overlap -/

def isF : Pc → Bool | .f2 | .f3 | .f4 _ | .f5 _ => true | _ => false
def isM : Pc → Bool | .m2 | .m3 | .m4 | .m5 => true | _ => false
def isR : Pc → Bool | .r2 | .r3 | .r3a | .r3b | .r4 _ | .r5 _ | .r6 _ => true | _ => false

/-- `FollowRemoteStream` and `FlipToMaster` are called one at a time, and `FlipToMaster` not while a flip requested by another node is in progress. Everything else may overlap. -/
def Ok (s : State) : Act → Prop
  | .call _ .follow => ∀ u, isF (s.pc u) = false ∧ isM (s.pc u) = false
  | .call _ .flip => ∀ u, isF (s.pc u) = false ∧ isM (s.pc u) = false ∧ isR (s.pc u) = false
  | .call _ .request => ∀ u, isM (s.pc u) = false
  | _ => True

/-- A history that keeps to it. -/
inductive Reach : State → Prop where
  | init : Reach {}
  | step {s s' : State} {a : Act} (h : Reach s) (ok : Ok s a) (hs : step s a = some s') : Reach s'

/-! ### The invariant -/

def locked : Pc → Bool | .f3 | .f4 _ | .f5 _ | .r3 | .r3a | .r3b | .r4 _ | .r5 _ | .r6 _ => true | _ => false

/-- The role from which a call in progress has taken the stream away, or is about to. -/
def since : Pc → Option Role
  | .f4 has | .f5 has => some (if has then .yielded else .master)
  | .m5 => some .following
  | .r3 | .r3a | .r3b => some .following
  | .r4 r | .r5 r | .r6 r => some r
  | _ => none

/-- Between two roles. -/
def between : Pc → Bool | .f4 _ | .f5 _ | .m5 | .r3b | .r6 _ => true | _ => false

/-- What is known about the stream when a thread is there. -/
def At (s : State) : Pc → Prop
  | .f2 => s.follower = false
  | .f3 => s.master = !s.borrowed ∧ s.follower = false
  | .m2 => s.master = false ∧ s.borrowed = !s.follower
  | .m3 | .m4 | .r3 | .r3a => s.master = false ∧ s.borrowed = false ∧ s.follower = true
  | .r4 r => (s.master = true ∧ s.borrowed = false ∧ s.follower = false) ∧ (r = .master ∨ r = .following)
  | .r5 r => (s.master = false ∧ s.borrowed = true ∧ s.follower = false) ∧ (r = .master ∨ r = .following)
  | .r6 r => (s.master = false ∧ s.borrowed = false ∧ s.follower = false) ∧ (r = .master ∨ r = .following)
  | .f4 _ | .f5 _ | .m5 | .r3b => s.master = false ∧ s.borrowed = false ∧ s.follower = false
  | _ => True

structure Inv (s : State) : Prop where
  lock : ∀ t, s.lock = some t ↔ locked (s.pc t) = true
  ff : ∀ t u, isF (s.pc t) = true → isF (s.pc u) = true → t = u
  mm : ∀ t u, isM (s.pc t) = true → isM (s.pc u) = true → t = u
  mx : ∀ t u, isM (s.pc t) = true → isF (s.pc u) = false ∧ isR (s.pc u) = false
  here : ∀ t, At s (s.pc t)
  temp1 : ∀ t h, s.pc t = .f4 h → s.temp = 1
  temp0 : (∀ t h, s.pc t ≠ .f4 h) → s.temp = 0
  ext : 0 < s.ext → s.master = true
  ok : s.crashed = false
  since1 : ∀ t r, since (s.pc t) = some r → last s.log = some r
  since0 : (∀ t, since (s.pc t) = none) → last s.log = s.role
  quiet : (∀ t, between (s.pc t) = false) → s.role ≠ none
  hist : Hist s.log

theorem inv_init : Inv {} := by
  constructor <;> simp [locked, isF, isM, isR, At, since, between, last, State.role, Hist]

/-- `State.role`, as a function of the flags. -/
def roleOf : Bool → Bool → Bool → Option Role
  | true, false, false => some .master
  | false, true, false => some .yielded
  | false, false, true => some .following
  | _, _, _ => none

theorem role_eq (s : State) : s.role = roleOf s.master s.borrowed s.follower := rfl

/-- Threads that have not begun to change anything. -/
def quietPc : Pc → Bool | .idle | .f2 | .r2 | .e2 | .s2 => true | _ => false

/-- The invariant, when all threads but one are quiet. -/
structure View (s : State) (t : Nat) : Prop where
  oth : ∀ u, u ≠ t → quietPc (s.pc u) = true
  f2 : ∀ u, u ≠ t → s.pc u = .f2 → s.follower = false ∧ isF (s.pc t) = false
  f2u : ∀ u v, u ≠ t → v ≠ t → s.pc u = .f2 → s.pc v = .f2 → u = v
  m : isM (s.pc t) = true → ∀ u, u ≠ t → s.pc u ≠ .f2 ∧ s.pc u ≠ .r2
  lock : s.lock = if locked (s.pc t) then some t else none
  here : At s (s.pc t)
  temp1 : ∀ h, s.pc t = .f4 h → s.temp = 1
  temp0 : (∀ h, s.pc t ≠ .f4 h) → s.temp = 0
  ext : 0 < s.ext → s.master = true
  ok : s.crashed = false
  since1 : ∀ r, since (s.pc t) = some r → last s.log = some r
  since0 : since (s.pc t) = none → last s.log = s.role
  quiet : between (s.pc t) = false → s.role ≠ none
  hist : Hist s.log

theorem quiet_facts (p : Pc) (h : quietPc p = true) : locked p = false ∧ isM p = false ∧ (isF p = true → p = .f2) ∧ (isR p = true → p = .r2) ∧ (∀ h, p ≠ .f4 h) ∧ since p = none ∧
    between p = false := by
  cases p <;> simp [quietPc, locked, isM, isF, isR, since, between] at *

theorem at_quiet {s : State} {p : Pc} (h : quietPc p = true) (hf : p = .f2 → s.follower = false) : At s p := by
  cases p <;> simp [quietPc, At] at *; exact hf

theorem Inv.view {s : State} {t : Nat} (hi : Inv s) (ho : ∀ u, u ≠ t → quietPc (s.pc u) = true) : View s t := by
  obtain ⟨i1, i2, i3, i4, i5, i6, i7, i8, i9, i10, i11, i12, i13⟩ := hi
  have hq := fun u hu => quiet_facts _ (ho u hu)
  refine ⟨ho, ?_, ?_, ?_, ?_, i5 t, i6 t, ?_, i8, i9, i10 t, ?_, ?_, i13⟩
  · intro u hu h
    have := i5 u
    rw [h] at this
    refine ⟨this, ?_⟩
    cases hf : isF (s.pc t) with
    | false => rfl
    | true => exact absurd (i2 u t (by rw [h]; rfl) hf) hu
  · intro u v _ _ h1 h2; exact i2 u v (by rw [h1]; rfl) (by rw [h2]; rfl)
  · intro hm u _
    have := i4 t u hm
    constructor <;> intro h <;> simp [h, isF, isR] at this
  · cases hl : locked (s.pc t) with
    | true => simp [(i1 t).mpr hl]
    | false =>
      simp only [Bool.false_eq_true, if_false]
      cases hk : s.lock with
      | none => rfl
      | some u =>
        have hu := (i1 u).mp hk
        by_cases hut : u = t
        · subst hut; simp [hl] at hu
        · simp [(hq u hut).1] at hu
  · intro h
    refine i7 fun u g => ?_
    by_cases hut : u = t
    · subst hut; exact h g
    · exact (hq u hut).2.2.2.2.1 g
  · intro h
    refine i11 fun u => ?_
    by_cases hut : u = t
    · subst hut; exact h
    · exact (hq u hut).2.2.2.2.2.1
  · intro h
    refine i12 fun u => ?_
    by_cases hut : u = t
    · subst hut; exact h
    · exact (hq u hut).2.2.2.2.2.2

theorem View.inv {s : State} {t : Nat} (hv : View s t) : Inv s := by
  obtain ⟨ho, v2, v2u, vm, vl, vh, vt1, vt0, ve, vo, v1, v0, vq, vhist⟩ := hv
  have hq := fun u hu => quiet_facts _ (ho u hu)
  refine ⟨?_, ?_, ?_, ?_, ?_, ?_, ?_, ve, vo, ?_, ?_, ?_, vhist⟩
  · intro u
    by_cases hut : u = t
    · subst hut; rw [vl]; cases locked (s.pc u) <;> simp
    · rw [vl, (hq u hut).1]
      cases locked (s.pc t) <;> simp
      exact fun h => hut h.symm
  · intro u v hu hv
    by_cases hut : u = t <;> by_cases hvt : v = t
    · rw [hut, hvt]
    · have := v2 v hvt ((hq v hvt).2.2.1 hv); rw [hut] at hu; simp [hu] at this
    · have := v2 u hut ((hq u hut).2.2.1 hu); rw [hvt] at hv; simp [hv] at this
    · exact v2u u v hut hvt ((hq u hut).2.2.1 hu) ((hq v hvt).2.2.1 hv)
  · intro u v hu hv
    have a : u = t := Classical.byContradiction fun h => by simp [(hq u h).2.1] at hu
    have b : v = t := Classical.byContradiction fun h => by simp [(hq v h).2.1] at hv
    rw [a, b]
  · intro u v hu
    have a : u = t := Classical.byContradiction fun h => by simp [(hq u h).2.1] at hu
    subst a
    by_cases hvt : v = u
    · subst hvt; cases hp : s.pc v <;> simp [hp, isM, isF, isR] at *
    · have := vm hu v hvt
      constructor
      · cases hf : isF (s.pc v) with
        | false => rfl
        | true => exact absurd ((hq v hvt).2.2.1 hf) this.1
      · cases hf : isR (s.pc v) with
        | false => rfl
        | true => exact absurd ((hq v hvt).2.2.2.1 hf) this.2
  · intro u
    by_cases hut : u = t
    · subst hut; exact vh
    · exact at_quiet (ho u hut) fun h => (v2 u hut h).1
  · intro u g h
    by_cases hut : u = t
    · subst hut; exact vt1 g h
    · exact absurd h ((hq u hut).2.2.2.2.1 g)
  · exact fun h => vt0 fun g => h t g
  · intro u r h
    by_cases hut : u = t
    · subst hut; exact v1 r h
    · simp [(hq u hut).2.2.2.2.2.1] at h
  · exact fun h => v0 (h t)
  · exact fun h => vq (h t)

/-- When a thread is in the middle of a change, or about to make one and has the right to, all others are quiet. -/
theorem Inv.others {s : State} {t : Nat} (hi : Inv s) (hp : locked (s.pc t) = true ∨ isM (s.pc t) = true ∨ ((s.pc t = .f2 ∨ s.pc t = .r2) ∧ s.lock = none)) :
    ∀ u, u ≠ t → quietPc (s.pc u) = true := by
  obtain ⟨i1, i2, i3, i4, i5, i6, i7, i8, i9, i10, i11, i12, i13⟩ := hi
  intro u hu
  have q : locked (s.pc u) = false → isM (s.pc u) = false → quietPc (s.pc u) = true := by cases s.pc u <;> simp [locked, isM, quietPc]
  have l : locked (s.pc t) = true → isF (s.pc t) = true ∨ isR (s.pc t) = true := by cases s.pc t <;> simp [locked, isF, isR]
  have m : locked (s.pc u) = true → isF (s.pc u) = true ∨ isR (s.pc u) = true := by cases s.pc u <;> simp [locked, isF, isR]
  refine q ?_ ?_
  · cases hl : locked (s.pc u) with
    | false => rfl
    | true =>
      have hlu := (i1 u).mpr hl
      rcases hp with h | h | ⟨_, h⟩
      · have := (i1 t).mpr h
        rw [hlu] at this
        exact absurd (Option.some.inj this) hu
      · have := i4 t u h
        rcases m hl with h | h <;> simp [h] at this
      · simp [h] at hlu
  · cases hm : isM (s.pc u) with
    | false => rfl
    | true =>
      have := i4 u t hm
      rcases hp with h | h | ⟨h | h, _⟩
      · rcases l h with h | h <;> simp [h] at this
      · exact absurd (i3 u t hm h) hu
      · simp [h, isF] at this
      · simp [h, isR] at this

set_option maxHeartbeats 8000000 in
theorem view_go {s s' : State} {t : Nat} {ok : Bool} (hv : View s t) (h : step s (.go t ok) = some s') : View s' t := by
  obtain ⟨ho, v2, v2u, vm, vl, vh, vt1, vt0, ve, vo, v1, v0, vq, vhist⟩ := hv
  simp only [step] at h
  cases hp : s.pc t with
  | idle => simp [hp] at h
  | _ =>
    simp only [hp] at h vl vh vt1 vt0 v1 v0 vq v2 vm
    (repeat' split at h) <;> first | contradiction | (injection h with h; subst h)
    all_goals constructor
    all_goals simp only [State.set, State.ret, State.unlock, State.free, role_eq] at *
    all_goals grind [locked, isF, isM, isR, since, between, last, Hist, Fair, At, Ev.isRole, roleOf]

theorem at_congr {s s' : State} {p : Pc} (h1 : s'.master = s.master) (h2 : s'.borrowed = s.borrowed) (h3 : s'.follower = s.follower) (h : At s p) : At s' p := by
  cases p <;> simp only [At, h1, h2, h3] at * <;> exact h

/-- A thread that has not begun to change anything goes elsewhere, changing nothing either. -/
theorem inv_upd {s : State} {t : Nat} {q : Pc} {l : List Ev} {b : Bool} (hi : Inv s) (hp : quietPc (s.pc t) = true) (hq : locked q = false ∧ since q = none ∧ between q = false ∧ ∀ h, q ≠ .f4 h)
    (ha : At s q) (hF : isF q = true → ∀ u, isF (s.pc u) = false ∧ isM (s.pc u) = false) (hM : isM q = true → ∀ u, isF (s.pc u) = false ∧ isM (s.pc u) = false ∧ isR (s.pc u) = false)
    (hR : isR q = true → ∀ u, isM (s.pc u) = false) (hx : isM q = true → isF q = false ∧ isR q = false) (hl : last l = last s.log) (hh : Hist l) :
    Inv { s with isExposed := b, pc := (s.set t q).pc, log := l } := by
  have key := quiet_facts _ hp
  obtain ⟨i1, i2, i3, i4, i5, i6, i7, i8, i9, i10, i11, i12, i13⟩ := hi
  have e : ∀ u, u ≠ t → (s.set t q).pc u = s.pc u := fun u hu => by simp [State.set, hu]
  have e' : (s.set t q).pc t = q := by simp [State.set]
  refine ⟨fun u => ?_, fun u v hu hv => ?_, fun u v hu hv => ?_, fun u v hu => ?_, fun u => ?_, fun u g hu => ?_, fun h => ?_, i8, i9, fun u r hu => ?_, fun h => ?_, fun h => ?_, hh⟩
  all_goals dsimp only at *
  · by_cases hut : u = t
    · subst hut; rw [e', hq.1, i1 u, key.1]
    · rw [e u hut]; exact i1 u
  · by_cases hut : u = t <;> by_cases hvt : v = t
    · rw [hut, hvt]
    · rw [hut, e'] at hu; rw [e v hvt] at hv; have := (hF hu v).1; simp [hv] at this
    · rw [hvt, e'] at hv; rw [e u hut] at hu; have := (hF hv u).1; simp [hu] at this
    · rw [e u hut] at hu; rw [e v hvt] at hv; exact i2 u v hu hv
  · by_cases hut : u = t <;> by_cases hvt : v = t
    · rw [hut, hvt]
    · rw [hut, e'] at hu; rw [e v hvt] at hv; have := (hM hu v).2.1; simp [hv] at this
    · rw [hvt, e'] at hv; rw [e u hut] at hu; have := (hM hv u).2.1; simp [hu] at this
    · rw [e u hut] at hu; rw [e v hvt] at hv; exact i3 u v hu hv
  · by_cases hut : u = t <;> by_cases hvt : v = t
    · rw [hut, e'] at hu; rw [hvt, e']; exact hx hu
    · rw [hut, e'] at hu; rw [e v hvt]; have := hM hu v; exact ⟨this.1, this.2.2⟩
    · rw [e u hut] at hu
      rw [hvt, e']
      constructor
      · cases hf : isF q with
        | false => rfl
        | true => have := (hF hf u).2; simp [hu] at this
      · cases hf : isR q with
        | false => rfl
        | true => have := hR hf u; simp [hu] at this
    · rw [e u hut] at hu; rw [e v hvt]; exact i4 u v hu
  · by_cases hut : u = t
    · rw [hut, e']; exact at_congr rfl rfl rfl ha
    · rw [e u hut]; exact at_congr rfl rfl rfl (i5 u)
  · by_cases hut : u = t
    · rw [hut, e'] at hu; exact absurd hu (hq.2.2.2 g)
    · rw [e u hut] at hu; exact i6 u g hu
  · refine i7 fun u g hu => ?_
    by_cases hut : u = t
    · rw [hut] at hu; exact key.2.2.2.2.1 g hu
    · exact h u g (by rw [e u hut]; exact hu)
  · rw [hl]
    by_cases hut : u = t
    · rw [hut, e', hq.2.1] at hu; contradiction
    · rw [e u hut] at hu; exact i10 u r hu
  · rw [hl]
    refine i11 fun u => ?_
    by_cases hut : u = t
    · rw [hut]; exact key.2.2.2.2.2.1
    · rw [← e u hut]; exact h u
  · refine i12 fun u => ?_
    by_cases hut : u = t
    · rw [hut]; exact key.2.2.2.2.2.2
    · rw [← e u hut]; exact h u

/-- Exposing changes neither the role nor who holds the publisher. -/
theorem inv_expose {s : State} {t : Nat} {b : Bool} {e : Ev} (hi : Inv s) (hq : quietPc (s.pc t) = true) (he : e.isRole = false) (hf : Fair e) :
    Inv { s with isExposed := b, pc := (s.set t .idle).pc, log := e :: s.log } :=
  inv_upd hi hq (by simp [locked, since, between]) trivial (by simp [isF]) (by simp [isM]) (by simp [isR]) (by simp [isM]) (by simp [last, he])
    ⟨hi.hist, hf, fun h => by simp [he] at h⟩

set_option maxHeartbeats 1000000 in
theorem inv_go {s s' : State} {t : Nat} {ok : Bool} (hi : Inv s) (h : step s (.go t ok) = some s') : Inv s' := by
  have main : (locked (s.pc t) = true ∨ isM (s.pc t) = true ∨ ((s.pc t = .f2 ∨ s.pc t = .r2) ∧ s.lock = none)) → Inv s' :=
    fun hp => (view_go (hi.view (hi.others hp)) h).inv
  cases hp : s.pc t with
  | idle => simp [step, hp] at h
  | f2 =>
    refine main (Or.inr (Or.inr ⟨Or.inl hp, ?_⟩))
    simp only [step, hp] at h
    split at h <;> first | contradiction | assumption
  | r2 =>
    refine main (Or.inr (Or.inr ⟨Or.inr hp, ?_⟩))
    simp only [step, hp] at h
    cases hl : s.lock with
    | none => rfl
    | some u => simp [hl] at h
  | e2 =>
    simp only [step, hp] at h
    (repeat' split at h) <;> first | contradiction | (injection h with h; subst h)
    all_goals exact inv_expose hi (by rw [hp]; rfl) rfl rfl
  | s2 =>
    simp only [step, hp] at h
    (repeat' split at h) <;> first | contradiction | (injection h with h; subst h)
    all_goals exact inv_expose hi (by rw [hp]; rfl) rfl rfl
  | m2 | m3 | m4 | m5 => exact main (Or.inr (Or.inl (by rw [hp]; rfl)))
  | f3 | f4 _ | f5 _ | r3 | r3a | r3b | r4 _ | r5 _ | r6 _ => exact main (Or.inl (by rw [hp]; rfl))

theorem inv_call {s s' : State} {t : Nat} {o : Op} (hi : Inv s) (hok : Ok s (.call t o)) (h : step s (.call t o) = some s') : Inv s' := by
  have i5 := hi.here
  have i10 := hi.since1
  have i11 := hi.since0
  have i12 := hi.quiet
  simp only [step] at h
  split at h <;> first | contradiction | skip
  rename_i hp
  have hp : s.pc t = .idle := Classical.not_not.mp hp
  have hq : quietPc (s.pc t) = true := by rw [hp]; rfl
  cases o with
  | follow =>
    simp only [Ok] at hok h
    split at h <;> (injection h with h; subst h)
    · rename_i hfo
      have hr : s.role = some .following := by
        by_cases hb : ∀ u, between (s.pc u) = false
        · have := i12 hb; rw [role_eq] at this ⊢
          revert this
          rw [hfo]
          cases s.master <;> cases s.borrowed <;> simp [roleOf]
        · simp only [Classical.not_forall] at hb
          obtain ⟨u, hb⟩ := hb
          have h5 := i5 u
          cases hpu : s.pc u <;> simp_all [At, between]
      have hl : last s.log = some .following := by
        by_cases hb : ∀ u, since (s.pc u) = none
        · rw [i11 hb, hr]
        · simp only [Classical.not_forall] at hb
          obtain ⟨u, hb⟩ := hb
          have h5 := i5 u
          have h10 := i10 u
          have := hok u
          cases hpu : s.pc u <;> simp_all [since, At, isF, isM]
      refine inv_upd (b := s.isExposed) (l := ⟨t, .alreadyFollowing, s.role, s.role⟩ :: s.log) hi hq ?_ trivial ?_ ?_ ?_ ?_ ?_ ?_
      · simp [locked, since, between]
      · simp [isF]
      · simp [isM]
      · simp [isR]
      · simp [isM]
      · simp [last, Ev.isRole, hr, hl]
      · exact ⟨hi.hist, by simp [Fair, hr], fun _ => hr.trans hl.symm⟩
    · rename_i hfo
      refine inv_upd (b := s.isExposed) (l := s.log) (q := .f2) hi hq ?_ (by simpa [At] using hfo) (fun _ => hok) ?_ ?_ ?_ rfl hi.hist
      · simp [locked, since, between]
      · simp [isM]
      · simp [isR]
      · simp [isM]
  | flip =>
    simp only [Ok] at hok h
    have hs : ∀ u, since (s.pc u) = none ∧ between (s.pc u) = false := by
      intro u
      have := hok u
      cases hpu : s.pc u <;> simp_all [since, between, isF, isM, isR]
    have hr := i12 fun u => (hs u).2
    have hl := i11 fun u => (hs u).1
    split at h <;> (injection h with h; subst h)
    · rename_i hm
      have hr : s.role = some .master := by
        rw [role_eq] at hr ⊢
        revert hr
        rw [hm]
        cases s.borrowed <;> cases s.follower <;> simp [roleOf]
      refine inv_upd (b := s.isExposed) (l := ⟨t, .alreadyMaster, s.role, s.role⟩ :: s.log) hi hq ?_ trivial ?_ ?_ ?_ ?_ ?_ ?_
      · simp [locked, since, between]
      · simp [isF]
      · simp [isM]
      · simp [isR]
      · simp [isM]
      · simp [last, Ev.isRole, hr, hl]
      · exact ⟨hi.hist, by simp [Fair, hr], fun _ => hl.symm⟩
    · rename_i hm
      refine inv_upd (b := s.isExposed) (l := s.log) (q := .m2) hi hq ?_ ?_ ?_ (fun _ => hok) ?_ ?_ rfl hi.hist
      · simp [locked, since, between]
      · rw [role_eq] at hr
        simp only [Bool.not_eq_true] at hm
        revert hr
        simp only [At, hm]
        cases s.borrowed <;> cases s.follower <;> simp [roleOf]
      · simp [isF]
      · simp [isR]
      · simp [isF, isR]
  | request =>
    simp only [Ok] at hok h
    injection h with h; subst h
    refine inv_upd (b := s.isExposed) (l := s.log) (q := .r2) hi hq ?_ trivial ?_ ?_ (fun _ => hok) ?_ rfl hi.hist
    · simp [locked, since, between]
    · simp [isF]
    · simp [isM]
    · simp [isM]
  | expose =>
    simp only at h
    injection h with h; subst h
    exact inv_upd (b := s.isExposed) (l := s.log) (q := .e2) hi hq (by simp [locked, since, between]) trivial (by simp [isF]) (by simp [isM]) (by simp [isR]) (by simp [isM]) rfl hi.hist
  | stop =>
    simp only at h
    injection h with h; subst h
    exact inv_upd (b := s.isExposed) (l := s.log) (q := .s2) hi hq (by simp [locked, since, between]) trivial (by simp [isF]) (by simp [isM]) (by simp [isR]) (by simp [isM]) rfl hi.hist

theorem inv_ext {s : State} {n : Nat} (hi : Inv s) (hm : 0 < n → s.master = true) : Inv { s with ext := n } := by
  obtain ⟨i1, i2, i3, i4, i5, i6, i7, i8, i9, i10, i11, i12, i13⟩ := hi
  exact ⟨i1, i2, i3, i4, fun u => at_congr rfl rfl rfl (i5 u), i6, i7, hm, i9, i10, i11, i12, i13⟩

theorem inv_reach {s : State} (h : Reach s) : Inv s := by
  induction h with
  | init => exact inv_init
  | @step s s' a h ok hs ih =>
    cases a with
    | call t o => exact inv_call ih ok hs
    | go t b => exact inv_go ih hs
    | borrow =>
      simp only [step] at hs
      split at hs <;> first | contradiction | (injection hs with hs; subst hs)
      rename_i hm
      exact inv_ext ih fun _ => hm
    | release =>
      simp only [step] at hs
      split at hs <;> first | contradiction | (injection hs with hs; subst hs)
      exact inv_ext ih fun h => ih.ext (by omega)

end Current.Ctl
