import Verif.MMQ.Inv
/-! Wake-up invariants of the MMQ model: no notification is lost. -/
namespace Current.MMQ
open Current.Persist (IdxTs)

variable {M : Type}

theorem countP_set_eq {α : Type} (f : α → Bool) {l : List α} {t : Nat} {p q : α} (h : l[t]? = some q) :
    (l.set t p).countP f + (if f q then 1 else 0) = l.countP f + (if f p then 1 else 0) := by
  induction l generalizing t with
  | nil => simp at h
  | cons a l ih =>
    cases t with
    | zero =>
      simp at h; subst h
      simp only [List.set_cons_zero, List.countP_cons]; omega
    | succ t =>
      simp at h
      simp only [List.set_cons_succ, List.countP_cons]
      have := ih h
      omega

/-- Free slots of the buffer. -/
def State.room (c : Cfg) (s : State M) : Nat := s.frees + c.cap - s.last.index
/-- Publishers blocked in `wait`. -/
def State.sleepers (s : State M) : Nat := s.pubs.countP PPc.isAsleep
/-- Publishers that were notified and did not run yet. -/
def State.awake (s : State M) : Nat := s.pubs.countP PPc.isAwake
/-- 1 if the consumer is about to call `notify_one`. -/
def State.owed (s : State M) : Nat := if s.cons = .freed then 1 else 0

structure Wake (c : Cfg) (s : State M) : Prop where
  noWait : c.drop = true → s.sleepers = 0 ∧ s.awake = 0
  cons : s.cons = .asleep → (s.slots s.tail).status ≠ .ready ∧ s.destructing = false
  destr : s.destructing = true → s.sleepers = 0
  term : s.destructing = false → s.cons ≠ .terminated
  owed : s.destructing = false → s.sleepers = 0 ∨ s.room c ≤ s.awake + s.owed

theorem head_free_iff {c : Cfg} (hc : 0 < c.cap) {s : State M} (h : Inv c s) :
    (s.slots s.head).status = .free ↔ 0 < s.room c := by
  unfold Inv at h
  unfold State.room
  constructor
  · intro hf
    rcases Nat.lt_or_ge s.last.index (s.frees + c.cap) with hlt | hge
    · omega
    · have heq : s.last.index = s.frees + c.cap := Nat.le_antisymm h.le2 hge
      have hlt : s.frees < s.accepted.length := by rw [h.acc]; omega
      have hp := h.occ s.frees _ (Nat.le_refl _) (List.getElem?_eq_getElem hlt)
      have : s.head = s.frees % c.cap := by rw [h.head_, heq]; simp
      rw [this] at hf
      exact absurd hf hp.2.1
  · intro hr
    rw [h.head_]
    exact h.vac _ (Nat.le_refl _) (by omega)

theorem notifyAll_sleepers (s : State M) : s.notifyAll.sleepers = 0 := by
  unfold State.sleepers State.notifyAll
  rw [List.countP_eq_zero]
  intro p hp
  simp only [List.mem_map] at hp
  obtain ⟨q, _, rfl⟩ := hp
  cases q <;> simp [wakeP, PPc.isAsleep]

theorem notifyAll_noWait {s : State M} (h : s.sleepers = 0 ∧ s.awake = 0) :
    s.notifyAll.sleepers = 0 ∧ s.notifyAll.awake = 0 := by
  refine ⟨notifyAll_sleepers s, ?_⟩
  obtain ⟨h1, h2⟩ := h
  unfold State.sleepers at h1
  unfold State.awake at h2 ⊢
  unfold State.notifyAll
  rw [List.countP_eq_zero] at h1 h2 ⊢
  intro p hp
  simp only [List.mem_map] at hp
  obtain ⟨q, hq, rfl⟩ := hp
  have := h1 q hq
  have := h2 q hq
  cases q <;> simp_all [wakeP, PPc.isAsleep, PPc.isAwake]

theorem init_wake (c : Cfg) (m0 : M) (n : Nat) : Wake c (init m0 n) := by
  have h1 : (init m0 n).sleepers = 0 := by simp [State.sleepers, init, List.countP_replicate, PPc.isAsleep]
  have h2 : (init m0 n).awake = 0 := by simp [State.awake, init, List.countP_replicate, PPc.isAwake]
  exact ⟨fun _ => ⟨h1, h2⟩, by simp [init], by simp [init], by simp [init], fun _ => .inl h1⟩

/-- Counting after a publisher changed. -/
theorem sleepers_set {s s' : State M} {t : Nat} {p q : PPc M} (he : s'.pubs = s.pubs.set t p) (ho : s.pubs[t]? = some q) :
    s'.sleepers + (if q.isAsleep then 1 else 0) = s.sleepers + (if p.isAsleep then 1 else 0) := by
  unfold State.sleepers; rw [he]; exact countP_set_eq _ ho
theorem awake_set {s s' : State M} {t : Nat} {p q : PPc M} (he : s'.pubs = s.pubs.set t p) (ho : s.pubs[t]? = some q) :
    s'.awake + (if q.isAwake then 1 else 0) = s.awake + (if p.isAwake then 1 else 0) := by
  unfold State.awake; rw [he]; exact countP_set_eq _ ho

theorem Wake.alloc {c : Cfg} (hc : 0 < c.cap) {s : State M} (h : Inv c s) (w : Wake c s) {t : Nat} {old : PPc M}
    (ho : s.pubs[t]? = some old) (hold : old.isAsleep = false) (hf : (s.slots s.head).status = .free) (m : M) (us : Int) :
    Wake c (s.alloc c t m us) := by
  have hr := (head_free_iff hc h).1 hf
  have e1 := sleepers_set (s' := s.alloc c t m us) (p := .importing s.head m ⟨s.last.index + 1, us⟩) rfl ho
  have e2 := awake_set (s' := s.alloc c t m us) (p := .importing s.head m ⟨s.last.index + 1, us⟩) rfl ho
  have a1 : (PPc.importing s.head m (⟨s.last.index + 1, us⟩ : IdxTs)).isAsleep = false := rfl
  have a2 : (PPc.importing s.head m (⟨s.last.index + 1, us⟩ : IdxTs)).isAwake = false := rfl
  simp only [hold, a1, a2, if_false, Nat.add_zero, Bool.false_eq_true] at e1 e2
  have e3 : (s.alloc c t m us).room c = s.room c - 1 := by simp [State.room, State.alloc]; omega
  have e4 : (s.alloc c t m us).owed = s.owed := rfl
  refine ⟨?_, ?_, ?_, ?_, ?_⟩
  · intro hd; have := w.noWait hd; omega
  · intro hs
    have := w.cons hs
    refine ⟨?_, this.2⟩
    simp only [State.alloc]
    by_cases e : s.tail = s.head
    · rw [e]; simp
    · rw [upd_other _ _ e]; exact this.1
  · intro hd; have := w.destr hd; omega
  · intro hd; exact w.term hd
  · intro hd
    rcases w.owed hd with h0 | h0
    · left; omega
    · right
      rw [e3, e4]
      have : (if old.isAwake = true then 1 else 0) ≤ 1 := by split <;> omega
      omega

theorem Wake.same {c : Cfg} {s s' : State M} (w : Wake c s) (e1 : s'.pubs = s.pubs) (e2 : s'.cons = s.cons)
    (e3 : s'.slots = s.slots) (e4 : s'.tail = s.tail) (e5 : s'.destructing = s.destructing) (e6 : s'.last = s.last)
    (e7 : s'.frees = s.frees) : Wake c s' := by
  obtain ⟨w1, w2, w3, w4, w5⟩ := w
  constructor <;>
    simpa only [State.sleepers, State.awake, State.room, State.owed, e1, e2, e3, e4, e5, e6, e7]

theorem step_wake {c : Cfg} (hc : 0 < c.cap) {s s' : State M} (h : Inv c s) (w : Wake c s) (a : Act M)
    (ha : step c s a = some s') : Wake c s' := by
  -- a publisher goes to sleep
  have sleep : ∀ t q m ts, s.pubs[t]? = some q → c.drop = false → s.destructing = false →
      ¬ (s.slots s.head).status = .free → Wake c { s with pubs := s.pubs.set t (.asleep m ts) } := by
    intro t q m ts ho hdr hd hf
    have hr := mt (head_free_iff hc h).2 hf
    refine ⟨by simp [hdr], w.cons, by simp [hd], w.term, fun _ => .inr ?_⟩
    have : ({ s with pubs := s.pubs.set t (.asleep m ts) } : State M).room c = s.room c := rfl
    omega
  -- a sleeping publisher wakes up
  have wake : ∀ t m ts p, s.pubs[t]? = some (.asleep m ts) → (p = s.cons ∨ (s.cons = .freed ∧ p = .awake)) →
      Wake c { s with pubs := s.pubs.set t (.awake m ts), cons := p } := by
    intro t m ts p ho hp
    have e1 := sleepers_set (s' := { s with pubs := s.pubs.set t (.awake m ts), cons := p }) rfl ho
    have e2 := awake_set (s' := { s with pubs := s.pubs.set t (.awake m ts), cons := p }) rfl ho
    simp only [PPc.isAsleep, PPc.isAwake, if_false, if_true, Nat.add_zero, Bool.false_eq_true] at e1 e2
    refine ⟨?_, ?_, ?_, ?_, ?_⟩
    · intro hd; have := w.noWait hd; omega
    · intro hs
      rcases hp with rfl | ⟨_, rfl⟩
      · exact w.cons hs
      · simp at hs
    · intro hd; have := w.destr hd; omega
    · intro hd
      rcases hp with rfl | ⟨_, rfl⟩
      · exact w.term hd
      · simp
    · intro hd
      rcases w.owed hd with h0 | h0
      · omega
      · right
        have : ({ s with pubs := s.pubs.set t (.awake m ts), cons := p } : State M).room c = s.room c := rfl
        rw [this]
        rcases hp with rfl | ⟨hs, rfl⟩
        · have : ({ s with pubs := s.pubs.set t (.awake m ts) } : State M).owed = s.owed := rfl
          have e : ({ s with pubs := s.pubs.set t (.awake m ts), cons := s.cons } : State M) =
            { s with pubs := s.pubs.set t (.awake m ts) } := rfl
          rw [e] at e2 ⊢
          omega
        · have h1 : s.owed = 1 := by simp [State.owed, hs]
          have h2 : ({ s with pubs := s.pubs.set t (.awake m ts), cons := .awake } : State M).owed = 0 := by
            simp [State.owed]
          omega
  -- a publisher that does not wait before or after
  have other : ∀ (s₁ : State M) t p q, s₁.pubs = s.pubs.set t p → s.pubs[t]? = some q → p.isAsleep = false →
      p.isAwake = false → q.isAsleep = false → q.isAwake = false →
      s₁.sleepers = s.sleepers ∧ s₁.awake = s.awake := by
    intro s₁ t p q he ho h1 h2 h3 h4
    have e1 := sleepers_set he ho
    have e2 := awake_set he ho
    simp only [h1, h2, h3, h4, if_false, Nat.add_zero, Bool.false_eq_true] at e1 e2
    exact ⟨e1, e2⟩
  cases a with
  | publish t m ts now =>
    simp only [step] at ha
    split at ha
    · rename_i ho
      injection ha with ha; subst ha
      unfold State.publish
      split
      · split
        · rename_i hf
          split
          · exact w.same rfl rfl rfl rfl rfl rfl rfl
          · exact w.alloc hc h ho rfl hf m ts
        · exact w.same rfl rfl rfl rfl rfl rfl rfl
      · rename_i hdr
        split
        · exact w.same rfl rfl rfl rfl rfl rfl rfl
        · rename_i hd
          split
          · exact w.same rfl rfl rfl rfl rfl rfl rfl
          · split
            · rename_i hf
              exact w.alloc hc h ho rfl hf m _
            · rename_i hf
              exact sleep t _ m ts ho (by simpa using hdr) (by simpa using hd) hf
    · simp at ha
  | spurious t =>
    simp only [step] at ha
    split at ha
    · rename_i m ts ho
      injection ha with ha; subst ha
      exact wake t m ts _ ho (.inl rfl)
    · simp at ha
  | resume t now =>
    simp only [step] at ha
    split at ha
    · rename_i m ts ho
      injection ha with ha; subst ha
      have hdr : c.drop = false := by
        cases hd : c.drop with
        | false => rfl
        | true =>
          have := (w.noWait hd).2
          unfold State.awake at this
          rw [List.countP_eq_zero] at this
          have := this _ (List.mem_of_getElem? ho)
          simp [PPc.isAwake] at this
      unfold State.resume
      split
      · rename_i hd
        have e1 := sleepers_set (s' := { s with pubs := s.pubs.set t .idle, rets := s.rets ++ [.dropped m] }) rfl ho
        simp only [PPc.isAsleep, if_false, Nat.add_zero, Bool.false_eq_true] at e1
        refine ⟨by simp [hdr], w.cons, ?_, w.term, ?_⟩
        · intro hd; have := w.destr hd; omega
        · intro hd'; simp [hd] at hd'
      · rename_i hd
        split
        · rename_i hf
          exact w.alloc hc h ho rfl hf m _
        · rename_i hf
          exact sleep t _ m ts ho hdr (by simpa using hd) hf
    · simp at ha
  | write t =>
    simp only [step] at ha
    split at ha
    · rename_i i m own ho
      injection ha with ha; subst ha
      obtain ⟨e1, e2⟩ := other { s with slots := upd s.slots i { s.slots i with body := m }, pubs := s.pubs.set t (.written i m own) }
        t _ _ rfl ho rfl rfl rfl rfl
      have hst : ∀ j, (upd s.slots i { s.slots i with body := m } j).status = (s.slots j).status := by
        intro j; by_cases e : j = i
        · subst e; simp
        · rw [upd_other _ _ e]
      refine ⟨?_, ?_, ?_, w.term, ?_⟩
      · intro hd; rw [e1, e2]; exact w.noWait hd
      · intro hs; simp only [hst]; exact w.cons hs
      · intro hd; rw [e1]; exact w.destr hd
      · intro hd; rw [e1, e2]; exact w.owed hd
    · simp at ha
  | commit t =>
    simp only [step] at ha
    split at ha
    · rename_i i m own ho
      injection ha with ha; subst ha
      obtain ⟨e1, e2⟩ := other (State.mk (upd s.slots i { s.slots i with status := .ready }) s.head s.tail s.last
        s.destructing (s.pubs.set t (.committed i m own)) s.cons s.accepted s.delivered s.rets s.frees)
        t _ _ rfl ho rfl rfl rfl rfl
      refine ⟨?_, ?_, fun _ => notifyAll_sleepers _, ?_, fun _ => .inl (notifyAll_sleepers _)⟩
      · intro hd
        refine notifyAll_noWait ?_
        rw [e1, e2]; exact w.noWait hd
      · intro hs
        simp only [State.notifyAll] at hs
        cases hcs : s.cons <;> simp [hcs, wakeC] at hs
      · intro hd hs
        simp only [State.notifyAll] at hs
        have := w.term hd
        cases hcs : s.cons <;> simp_all [wakeC]
    · simp at ha
  | ret t =>
    simp only [step] at ha
    split at ha
    · rename_i i m own ho
      injection ha with ha; subst ha
      obtain ⟨e1, e2⟩ := other { s with pubs := s.pubs.set t .idle, rets := s.rets ++ [.value m own (s.slots i).idx] }
        t _ _ rfl ho rfl rfl rfl rfl
      refine ⟨?_, w.cons, ?_, w.term, ?_⟩
      · intro hd; rw [e1, e2]; exact w.noWait hd
      · intro hd; rw [e1]; exact w.destr hd
      · intro hd; rw [e1, e2]; exact w.owed hd
    · simp at ha
  | spuriousC =>
    simp only [step] at ha
    split at ha
    · rename_i hs
      injection ha with ha; subst ha
      refine ⟨w.noWait, by simp, w.destr, by simp, ?_⟩
      intro hd
      have := w.owed hd
      have e : s.owed = 0 := by simp [State.owed, hs]
      rw [e] at this
      have e' : ({ s with cons := .awake } : State M).owed = 0 := by simp [State.owed]
      rw [e']; exact this
    · simp at ha
  | consume =>
    simp only [step] at ha
    split at ha
    · rename_i hs
      injection ha with ha; subst ha
      have e : s.owed = 0 := by simp [State.owed, hs]
      unfold State.consume
      split
      · rename_i hd
        exact ⟨w.noWait, by simp, w.destr, by simp [hd], by simp [hd]⟩
      · rename_i hd
        have hd : s.destructing = false := by simpa using hd
        have hw := w.owed hd
        rw [e] at hw
        split
        · exact ⟨w.noWait, by simp, w.destr, by simp, fun _ => by simpa [State.owed, State.sleepers, State.room, State.awake] using hw⟩
        · rename_i hr
          exact ⟨w.noWait, fun _ => ⟨hr, hd⟩, w.destr, by simp, fun _ => by simpa [State.owed, State.sleepers, State.room, State.awake] using hw⟩
    · simp at ha
  | «export» =>
    simp only [step] at ha
    split at ha
    · rename_i hs
      injection ha with ha; subst ha
      refine ⟨w.noWait, by simp, w.destr, by simp, ?_⟩
      intro hd
      have hw := w.owed hd
      have e : s.owed = 0 := by simp [State.owed, hs]
      rw [e] at hw
      have e' : ({ s with cons := .exported, delivered := s.delivered ++ [((s.slots s.tail).body, (s.slots s.tail).idx, ‹IdxTs›)] } : State M).owed = 0 := by
        simp [State.owed]
      rw [e']; exact hw
    · simp at ha
  | release =>
    simp only [step] at ha
    split at ha
    · rename_i hs
      injection ha with ha; subst ha
      refine ⟨w.noWait, by simp, w.destr, by simp, ?_⟩
      intro hd
      have hw := w.owed hd
      have e : s.owed = 0 := by simp [State.owed, hs]
      rw [e] at hw
      rcases hw with hw | hw
      · exact .inl hw
      · right
        simp only [State.room, State.owed, State.awake, if_true] at hw ⊢
        omega
    · simp at ha
  | notify t =>
    simp only [step] at ha
    split at ha
    · rename_i hs
      split at ha
      · split at ha
        · simp at ha
        · rename_i hany
          injection ha with ha; subst ha
          have h0 : s.sleepers = 0 := by
            unfold State.sleepers
            rw [List.countP_eq_zero]
            intro p hp hc'
            exact hany (List.any_eq_true.2 ⟨p, hp, hc'⟩)
          exact ⟨w.noWait, by simp, w.destr, by simp, fun _ => .inl h0⟩
      · split at ha
        · rename_i t' _ m ts ho
          injection ha with ha; subst ha
          exact wake t' m ts _ ho (.inr ⟨hs, rfl⟩)
        · simp at ha
    · simp at ha
  | destruct =>
    simp only [step] at ha
    split at ha
    · simp at ha
    · injection ha with ha; subst ha
      refine ⟨fun hd => notifyAll_noWait (w.noWait hd), ?_, fun _ => notifyAll_sleepers _, ?_, ?_⟩
      · intro hs
        simp only [State.notifyAll] at hs
        cases hcs : s.cons <;> simp [hcs, wakeC] at hs
      · intro hd; simp [State.notifyAll] at hd
      · intro hd; simp [State.notifyAll] at hd

theorem run_snoc {c : Cfg} {s s' : State M} {as : List (Act M)} {a : Act M} :
    run c s (as ++ [a]) = some s' ↔ ∃ s₁, run c s as = some s₁ ∧ step c s₁ a = some s' := by
  induction as generalizing s with
  | nil =>
    simp only [List.nil_append, run]
    constructor
    · intro h
      split at h
      · rename_i s₁ hs; injection h with h; subst h; exact ⟨s, rfl, hs⟩
      · simp at h
    · rintro ⟨s₁, h1, h2⟩
      injection h1 with h1; subst h1
      rw [h2]
  | cons b as ih =>
    simp only [List.cons_append, run]
    cases hb : step c s b with
    | none => simp
    | some s₂ => simp only; exact ih

theorem run_append {c : Cfg} {s s' : State M} {as bs : List (Act M)} :
    run c s (as ++ bs) = some s' ↔ ∃ s₁, run c s as = some s₁ ∧ run c s₁ bs = some s' := by
  induction as generalizing s with
  | nil => simp [run]
  | cons b as ih =>
    simp only [List.cons_append, run]
    cases hb : step c s b with
    | none => simp
    | some s₂ => simp only; exact ih

theorem list_snoc_induction {α : Type} {P : List α → Prop} (h0 : P []) (hs : ∀ l a, P l → P (l ++ [a])) : ∀ l, P l := by
  intro l
  rw [← List.reverse_reverse l]
  induction l.reverse with
  | nil => exact h0
  | cons a l ih => rw [List.reverse_cons]; exact hs _ _ ih

/-- Induction over schedules, from the end. -/
theorem run_induction {c : Cfg} {s₀ : State M} (P : List (Act M) → State M → Prop) (h0 : P [] s₀)
    (hs : ∀ as s a s', run c s₀ as = some s → P as s → step c s a = some s' → P (as ++ [a]) s') :
    ∀ as s, run c s₀ as = some s → P as s := by
  refine list_snoc_induction ?_ ?_
  · intro s h; simp only [run] at h; injection h with h; subst h; exact h0
  · intro as a ih s h
    obtain ⟨s₁, h1, h2⟩ := run_snoc.1 h
    exact hs as s₁ a s h1 (ih s₁ h1) h2

/-- All invariants hold in every reachable state. -/
theorem reachable_inv {c : Cfg} (hc : 0 < c.cap) {m0 : M} {n : Nat} {as : List (Act M)} {s : State M}
    (h : run c (init m0 n) as = some s) : Inv c s ∧ StampsOk s ∧ Wake c s := by
  refine run_induction (fun _ s => Inv c s ∧ StampsOk s ∧ Wake c s) ?_ ?_ as s h
  · refine ⟨init_inv c m0 n, ?_, init_wake c m0 n⟩
    intro t m ts hh
    simp only [init, List.getElem?_replicate] at hh
    rcases hh with hh | hh <;> split at hh <;> simp at hh
  · intro as s a s' _ ⟨i1, i2, i3⟩ hs
    exact ⟨step_inv hc i1 a i2 hs, step_stamps i1 i2 a hs, step_wake hc i1 i3 a hs⟩

end Current.MMQ
