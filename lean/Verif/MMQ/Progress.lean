import Verif.MMQ.Props
/-! Property C46: no deadlock, no lost wake-up, and per-thread order (C47). -/
namespace Current.MMQ
open Current.Persist (IdxTs)

variable {M : Type}

/-- The steps the threads take on their own: everything but new calls of `Publish`, spurious wake-ups and the destructor. -/
def Act.internal : Act M → Bool
  | .publish _ _ _ _ => false
  | .spurious _ => false
  | .spuriousC => false
  | .destruct => false
  | _ => true

def PPc.weight : PPc M → Nat
  | .idle => 0
  | .asleep _ _ => 10
  | .awake _ _ => 10
  | .importing _ _ _ => 3
  | .written _ _ _ => 2
  | .committed _ _ _ => 1

def CPc.weight : CPc → Nat
  | .asleep => 2
  | .awake => 2
  | .exporting _ => 1
  | .exported => 0
  | .freed => 3
  | .terminated => 0

def State.work (s : State M) : Nat := (s.pubs.map PPc.weight).sum + 4 * (s.last.index - s.frees) + s.cons.weight
def State.rechecks (s : State M) : Nat := s.awake + (if s.cons = .awake then 1 else 0)
/-- An upper bound for the number of steps the threads can still take. -/
def State.fuel (s : State M) : Nat := s.work * (s.pubs.length + 2) + s.rechecks

theorem sum_set {l : List (PPc M)} {t : Nat} {p q : PPc M} (h : l[t]? = some q) :
    ((l.set t p).map PPc.weight).sum + q.weight = (l.map PPc.weight).sum + p.weight := by
  induction l generalizing t with
  | nil => simp at h
  | cons a l ih =>
    cases t with
    | zero =>
      simp at h; subst h
      simp only [List.set_cons_zero, List.map_cons, List.sum_cons]; omega
    | succ t =>
      simp at h
      simp only [List.set_cons_succ, List.map_cons, List.sum_cons]
      have := ih h
      omega

theorem weight_wakeP (p : PPc M) : (wakeP p).weight = p.weight := by cases p <;> rfl
theorem weight_wakeC (p : CPc) : (wakeC p).weight = p.weight := by cases p <;> rfl

theorem rechecks_le (s : State M) : s.rechecks ≤ s.pubs.length + 1 := by
  unfold State.rechecks State.awake
  have : List.countP PPc.isAwake s.pubs ≤ s.pubs.length := List.countP_le_length
  split <;> omega

theorem fuel_of_work {s s' : State M} (hl : s'.pubs.length = s.pubs.length) (hw : s'.work < s.work) : s'.fuel < s.fuel := by
  have h1 := rechecks_le s'
  unfold State.fuel
  rw [hl] at h1 ⊢
  have := Nat.mul_le_mul_right (s.pubs.length + 2) (Nat.succ_le_of_lt hw)
  rw [Nat.succ_mul] at this
  omega

theorem fuel_of_rechecks {s s' : State M} (hl : s'.pubs.length = s.pubs.length) (hw : s'.work = s.work)
    (hr : s'.rechecks < s.rechecks) : s'.fuel < s.fuel := by
  unfold State.fuel
  rw [hl, hw]
  omega

/-- Every internal step uses up fuel. -/
theorem step_fuel {c : Cfg} (hc : 0 < c.cap) {s s' : State M} (h : Inv c s) (a : Act M) (hi : a.internal = true)
    (ha : step c s a = some s') : s'.fuel < s.fuel := by
  have hle : s.frees ≤ s.last.index := by unfold Inv at h; exact h.le1
  have alloc : ∀ t m us o, s.pubs[t]? = some o → o.weight = 10 → (s.alloc c t m us).fuel < s.fuel := by
    intro t m us o ho hw
    refine fuel_of_work (by simp [State.alloc]) ?_
    have := sum_set (p := .importing s.head m ⟨s.last.index + 1, us⟩) ho
    have hw' : (PPc.importing s.head m (⟨s.last.index + 1, us⟩ : IdxTs)).weight = 3 := rfl
    simp only [State.work, State.alloc]
    omega
  cases a with
  | publish t m ts now => simp [Act.internal] at hi
  | spurious t => simp [Act.internal] at hi
  | spuriousC => simp [Act.internal] at hi
  | destruct => simp [Act.internal] at hi
  | resume t now =>
    simp only [step] at ha
    split at ha
    · rename_i m ts ho
      injection ha with ha; subst ha
      unfold State.resume
      split
      · refine fuel_of_work (by simp) ?_
        have := sum_set (p := .idle) ho
        have h1 : (PPc.awake m ts).weight = 10 := rfl
        have h2 : (PPc.idle : PPc M).weight = 0 := rfl
        simp only [State.work]
        omega
      · split
        · exact alloc _ _ _ _ ho rfl
        · refine fuel_of_rechecks (by simp) ?_ ?_
          · have := sum_set (p := .asleep m ts) ho
            have h1 : (PPc.awake m ts).weight = 10 := rfl
            have h2 : (PPc.asleep m ts).weight = 10 := rfl
            simp only [State.work]
            omega
          · have := awake_set (s' := { s with pubs := s.pubs.set t (.asleep m ts) }) rfl ho
            have h1 : (PPc.awake m ts).isAwake = true := rfl
            have h2 : (PPc.asleep m ts).isAwake = false := rfl
            simp only [h1, h2, if_true, if_false, Bool.false_eq_true, Nat.add_zero] at this
            simp only [State.rechecks]
            omega
    · simp at ha
  | write t =>
    simp only [step] at ha
    split at ha
    · rename_i i m own ho
      injection ha with ha; subst ha
      refine fuel_of_work (by simp) ?_
      have := sum_set (p := .written i m own) ho
      have h1 : (PPc.importing i m own).weight = 3 := rfl
      have h2 : (PPc.written i m own).weight = 2 := rfl
      simp only [State.work]
      omega
    · simp at ha
  | commit t =>
    simp only [step] at ha
    split at ha
    · rename_i i m own ho
      injection ha with ha; subst ha
      refine fuel_of_work (by simp [State.notifyAll]) ?_
      have := sum_set (p := .committed i m own) ho
      have h1 : (PPc.written i m own).weight = 2 := rfl
      have h2 : (PPc.committed i m own).weight = 1 := rfl
      have h3 : ∀ l : List (PPc M), (l.map wakeP).map PPc.weight = l.map PPc.weight := by
        intro l; rw [List.map_map]; apply List.map_congr_left; intro p _; exact weight_wakeP p
      simp only [State.work, State.notifyAll, h3, weight_wakeC]
      omega
    · simp at ha
  | ret t =>
    simp only [step] at ha
    split at ha
    · rename_i i m own ho
      injection ha with ha; subst ha
      refine fuel_of_work (by simp) ?_
      have := sum_set (p := .idle) ho
      have h1 : (PPc.committed i m own).weight = 1 := rfl
      have h2 : (PPc.idle : PPc M).weight = 0 := rfl
      simp only [State.work]
      omega
    · simp at ha
  | consume =>
    simp only [step] at ha
    split at ha
    · rename_i hs
      injection ha with ha; subst ha
      unfold State.consume
      split
      · refine fuel_of_work rfl ?_
        simp only [State.work, hs, CPc.weight]; omega
      · split
        · refine fuel_of_work rfl ?_
          simp only [State.work, hs, CPc.weight]; omega
        · refine fuel_of_rechecks rfl ?_ ?_
          · simp only [State.work, hs, CPc.weight]
          · simp [State.rechecks, State.awake, hs]
    · simp at ha
  | «export» =>
    simp only [step] at ha
    split at ha
    · rename_i hs
      injection ha with ha; subst ha
      refine fuel_of_work rfl ?_
      simp only [State.work, hs, CPc.weight]; omega
    · simp at ha
  | release =>
    simp only [step] at ha
    split at ha
    · rename_i hs
      injection ha with ha; subst ha
      refine fuel_of_work rfl ?_
      unfold Inv at h
      have := h.exp (by rw [hs]; simp [CPc.stage])
      simp only [State.work, hs, CPc.weight]; omega
    · simp at ha
  | notify t =>
    simp only [step] at ha
    split at ha
    · rename_i hs
      split at ha
      · split at ha
        · simp at ha
        · injection ha with ha; subst ha
          refine fuel_of_work rfl ?_
          simp only [State.work, hs, CPc.weight]; omega
      · split at ha
        · rename_i t' _ m ts ho
          injection ha with ha; subst ha
          refine fuel_of_work (by simp) ?_
          have := sum_set (p := .awake m ts) ho
          have h1 : (PPc.asleep m ts).weight = 10 := rfl
          have h2 : (PPc.awake m ts).weight = 10 := rfl
          simp only [State.work, hs, CPc.weight]
          omega
        · simp at ha
    · simp at ha

/-- **C46 (no live-lock).** From any reachable state, once there are no new calls and no spurious wake-ups, the threads can
take only finitely many steps: at most `fuel`, whatever the schedule. -/
theorem internal_steps_are_bounded {c : Cfg} (hc : 0 < c.cap) {m0 : M} {n : Nat} {as bs : List (Act M)} {s s' : State M}
    (h : run c (init m0 n) as = some s) (hb : ∀ b ∈ bs, b.internal = true) (h' : run c s bs = some s') :
    bs.length + s'.fuel ≤ s.fuel := by
  have aux : ∀ (bs as : List (Act M)) (s s' : State M), run c (init m0 n) as = some s → (∀ b ∈ bs, b.internal = true) →
      run c s bs = some s' → bs.length + s'.fuel ≤ s.fuel := by
    intro bs
    induction bs with
    | nil => intro as s s' _ _ h; simp only [run] at h; injection h with h; subst h; simp
    | cons b bs ih =>
      intro as s s' h hb h'
      simp only [run] at h'
      split at h'
      · rename_i s₁ hs
        obtain ⟨i, _, _⟩ := reachable_inv hc h
        have h1 := step_fuel hc i b (hb b (by simp)) hs
        have h2 := ih (as ++ [b]) s₁ s' (run_snoc.2 ⟨s, h, hs⟩) (fun x hx => hb x (by simp [hx])) h'
        simp only [List.length_cons]; omega
      · simp at h'
  exact aux bs as s s' h hb h'

/-- **C46 (no deadlock, no lost wake-up).** If no thread can take a step on its own, and the queue is not being destroyed, then every
call of `Publish` has returned and every accepted message was delivered and its slot is free. (Sleeping threads do not count on
spurious wake-ups.) -/
theorem stuck_means_done {c : Cfg} (hc : 0 < c.cap) {m0 : M} {n : Nat} {as : List (Act M)} {s : State M}
    (h : run c (init m0 n) as = some s) (hd : s.destructing = false)
    (hstuck : ∀ a : Act M, a.internal = true → step c s a = none) :
    (∀ p ∈ s.pubs, p = .idle) ∧ s.delivered.map (fun d => (d.1, d.2.1)) = s.accepted ∧ s.cons = .asleep := by
  obtain ⟨i, _, w⟩ := reachable_inv hc h
  have hdel := i.del
  unfold Inv at i
  -- publishers past the allocation can move, and so can awake ones
  have hpubs : ∀ (t : Nat) p, s.pubs[t]? = some p → p = .idle ∨ p.isAsleep = true := by
    intro t p hp
    cases p with
    | idle => left; rfl
    | asleep m ts => right; rfl
    | awake m ts => have := hstuck (.resume t 0) rfl; simp [step, hp] at this
    | importing j m own => have := hstuck (.write t) rfl; simp [step, hp] at this
    | written j m own => have := hstuck (.commit t) rfl; simp [step, hp] at this
    | committed j m own => have := hstuck (.ret t) rfl; simp [step, hp] at this
  have hcons : s.cons = .asleep := by
    cases hcs : s.cons with
    | asleep => rfl
    | awake => have := hstuck .consume rfl; simp [step, hcs] at this
    | exporting l => have := hstuck .export rfl; simp [step, hcs] at this
    | exported => have := hstuck .release rfl; simp [step, hcs] at this
    | freed =>
      exfalso
      by_cases hany : s.pubs.any PPc.isAsleep
      · obtain ⟨p, hp, hpa⟩ := List.any_eq_true.1 hany
        obtain ⟨t, ht⟩ := List.getElem?_of_mem hp
        cases p <;> simp [PPc.isAsleep] at hpa
        have := hstuck (.notify (some t)) rfl
        simp [step, hcs, ht] at this
      · have := hstuck (.notify none) rfl
        simp only [step, hcs, if_true] at this
        rw [if_neg hany] at this
        simp at this
    | terminated => exact absurd hcs (w.term hd)
  -- the buffer is empty
  have hst : s.cons.stage = 0 := by rw [hcons]; rfl
  have hempty : s.last.index = s.frees := by
    apply Classical.byContradiction
    intro hne
    have hlt : s.frees < s.accepted.length := by have := i.le1; rw [i.acc]; omega
    obtain ⟨o1, o2, o3, o4, o5⟩ := i.occ s.frees _ (Nat.le_refl _) (List.getElem?_eq_getElem hlt)
    have hr := (w.cons hcons).1
    rw [i.tail_] at hr
    have hne4 : (s.slots (s.frees % c.cap)).status ≠ .exported := by
      intro e; exact (o4.1 e).2 hst
    cases hs : (s.slots (s.frees % c.cap)).status with
    | free => exact o2 hs
    | ready => exact hr hs
    | exported => exact hne4 hs
    | imported =>
      obtain ⟨t, pc, ht, hpc⟩ := o5 hs
      simp only [State.hold] at ht
      cases hp : s.pubs[t]? with
      | none => simp [hp] at ht
      | some p =>
        simp only [hp, Option.bind_some] at ht
        rcases hpubs t p hp with rfl | hpa
        · simp [PPc.hold] at ht
        · cases p <;> simp [PPc.isAsleep, PPc.hold] at hpa ht
  have hsl : s.sleepers = 0 := by
    rcases w.owed hd with h0 | h0
    · exact h0
    · exfalso
      have hroom : s.room c = c.cap := by unfold State.room; omega
      have howed : s.owed = 0 := by simp [State.owed, hcons]
      have haw : s.awake = 0 := by
        unfold State.awake
        rw [List.countP_eq_zero]
        intro p hp
        obtain ⟨t, ht⟩ := List.getElem?_of_mem hp
        rcases hpubs t p ht with rfl | hpa
        · simp [PPc.isAwake]
        · cases p <;> simp [PPc.isAsleep, PPc.isAwake] at hpa ⊢
      omega
  refine ⟨?_, ?_, hcons⟩
  · intro p hp
    obtain ⟨t, ht⟩ := List.getElem?_of_mem hp
    rcases hpubs t p ht with rfl | hpa
    · rfl
    · exfalso
      unfold State.sleepers at hsl
      rw [List.countP_eq_zero] at hsl
      exact hsl p hp hpa
  · rw [hdel, hst]
    simp only [Nat.reduceEqDiff, if_false, Nat.add_zero]
    rw [List.take_of_length_le]
    rw [i.acc]; omega

/-- **C46 (the destructor returns).** If the queue is being destroyed and no thread can take a step on its own, the consumer
thread has terminated (so `join` returns) and no call of `Publish` is blocked. -/
theorem stuck_in_destruction_means_terminated {c : Cfg} (hc : 0 < c.cap) {m0 : M} {n : Nat} {as : List (Act M)} {s : State M}
    (h : run c (init m0 n) as = some s) (hd : s.destructing = true)
    (hstuck : ∀ a : Act M, a.internal = true → step c s a = none) :
    (∀ p ∈ s.pubs, p = .idle) ∧ s.cons = .terminated := by
  obtain ⟨i, _, w⟩ := reachable_inv hc h
  have hpubs : ∀ (t : Nat) p, s.pubs[t]? = some p → p = .idle ∨ p.isAsleep = true := by
    intro t p hp
    cases p with
    | idle => left; rfl
    | asleep m ts => right; rfl
    | awake m ts => have := hstuck (.resume t 0) rfl; simp [step, hp] at this
    | importing j m own => have := hstuck (.write t) rfl; simp [step, hp] at this
    | written j m own => have := hstuck (.commit t) rfl; simp [step, hp] at this
    | committed j m own => have := hstuck (.ret t) rfl; simp [step, hp] at this
  have hsl := w.destr hd
  unfold State.sleepers at hsl
  rw [List.countP_eq_zero] at hsl
  constructor
  · intro p hp
    obtain ⟨t, ht⟩ := List.getElem?_of_mem hp
    rcases hpubs t p ht with rfl | hpa
    · rfl
    · exact absurd hpa (hsl p hp)
  · cases hcs : s.cons with
    | asleep => have := (w.cons hcs).2; rw [hd] at this; simp at this
    | awake => have := hstuck .consume rfl; simp [step, hcs] at this
    | exporting l => have := hstuck .export rfl; simp [step, hcs] at this
    | exported => have := hstuck .release rfl; simp [step, hcs] at this
    | freed =>
      exfalso
      by_cases hany : s.pubs.any PPc.isAsleep
      · obtain ⟨p, hp, hpa⟩ := List.any_eq_true.1 hany
        exact hsl p hp hpa
      · have := hstuck (.notify none) rfl
        simp only [step, hcs, if_true] at this
        rw [if_neg hany] at this
        simp at this
    | terminated => rfl

/-! ## C47: the order of one thread's messages -/

/-- The messages thread `t` passed to `Publish`, in order. -/
def publishedBy (t : Nat) (as : List (Act M)) : List M :=
  as.filterMap fun a => match a with | .publish t' m _ _ => if t' = t then some m else none | _ => none

/-- The message with which thread `t` waits for a slot. -/
def State.waitingWith (s : State M) (t : Nat) : List M :=
  match s.pubs[t]? with
  | some (.asleep m _) => [m]
  | some (.awake m _) => [m]
  | _ => []

theorem waitingWith_eq {s s' : State M} {t : Nat} (h : s'.pubs[t]? = s.pubs[t]?) : s'.waitingWith t = s.waitingWith t := by
  unfold State.waitingWith; rw [h]

theorem waitingWith_notifyAll (s : State M) (t : Nat) : s.notifyAll.waitingWith t = s.waitingWith t := by
  unfold State.waitingWith State.notifyAll
  simp only [List.getElem?_map]
  cases h : s.pubs[t]? with
  | none => rfl
  | some p => cases p <;> rfl

/-- **C47.** Messages are accepted (hence delivered, by C13) in the order in which each thread published them. Here `who`
tells which thread a message comes from; the accepted messages of a thread are a subsequence of its calls. -/
theorem per_thread_order {c : Cfg} (who : M → Nat) {m0 : M} {n : Nat} {as : List (Act M)} {s : State M}
    (h : run c (init m0 n) as = some s) (hwho : ∀ t m ts now, Act.publish t m ts now ∈ as → who m = t) (t : Nat) :
    ((s.accepted.map (·.1)).filter (fun m => who m == t)).Sublist (publishedBy t as) := by
  have key : ∀ as s, run c (init m0 n) as = some s → (∀ t m ts now, Act.publish t m ts now ∈ as → who m = t) →
      (∀ (t' : Nat) (m : M) (ts : Int), s.pubs[t']? = some (.asleep m ts) ∨ s.pubs[t']? = some (.awake m ts) → who m = t') ∧
      ((s.accepted.map (·.1)).filter (fun m => who m == t) ++ s.waitingWith t).Sublist (publishedBy t as) := by
    intro as s hr
    refine run_induction (c := c) (s₀ := init m0 n) (fun as s => (∀ t m ts now, Act.publish t m ts now ∈ as → who m = t) →
      (∀ (t' : Nat) (m : M) (ts : Int), s.pubs[t']? = some (.asleep m ts) ∨ s.pubs[t']? = some (.awake m ts) → who m = t') ∧
      ((s.accepted.map (·.1)).filter (fun m => who m == t) ++ s.waitingWith t).Sublist (publishedBy t as)) ?_ ?_ as s hr
    · intro _
      refine ⟨?_, ?_⟩
      · intro t' m ts hh
        simp only [init, List.getElem?_replicate] at hh
        rcases hh with hh | hh <;> split at hh <;> simp at hh
      · have : (init m0 n).waitingWith t = [] := by
          simp only [State.waitingWith, init, List.getElem?_replicate]
          split
          · rename_i h1; split at h1 <;> simp at h1
          · rename_i h1; split at h1 <;> simp at h1
          · rfl
        rw [this]; simp [init, publishedBy]
    · intro as s a s' _ ih hs hwho
      obtain ⟨iw, il⟩ := ih (fun t m ts now hm => hwho t m ts now (by simp [hm]))
      have hpa : publishedBy t (as ++ [a]) = publishedBy t as ++ publishedBy t [a] := by simp [publishedBy]
      rw [hpa]
      -- actions that change nothing relevant
      have same : ∀ s' : State M, s'.accepted = s.accepted → (∀ t', s'.waitingWith t' = s.waitingWith t') →
          (∀ (t' : Nat) (m : M) (ts : Int), s'.pubs[t']? = some (.asleep m ts) ∨ s'.pubs[t']? = some (.awake m ts) → who m = t') ∧
          ((s'.accepted.map (·.1)).filter (fun m => who m == t) ++ s'.waitingWith t).Sublist
            (publishedBy t as ++ publishedBy t [a]) := by
        intro s' h1 h2
        refine ⟨?_, ?_⟩
        · intro t' m ts hh
          have e := h2 t'
          have e1 : s'.waitingWith t' = [m] := by
            unfold State.waitingWith
            rcases hh with hh | hh <;> rw [hh]
          rw [e1] at e
          unfold State.waitingWith at e
          split at e
          · rename_i m' ts' hp; injection e with e; subst e; exact iw t' m ts' (.inl hp)
          · rename_i m' ts' hp; injection e with e; subst e; exact iw t' m ts' (.inr hp)
          · simp at e
        · rw [h1, h2]
          exact il.trans (List.sublist_append_left _ _)
      have setw : ∀ (s₁ : State M) (i : Nat) (o p : PPc M), s₁.pubs = s.pubs.set i p → s.pubs[i]? = some o →
          (∀ t', t' ≠ i → s₁.waitingWith t' = s.waitingWith t') ∧ s₁.waitingWith i = (match p with
            | .asleep m _ => [m] | .awake m _ => [m] | _ => []) := by
        intro s₁ i o p h1 h2
        refine ⟨?_, ?_⟩
        · intro t' hne
          apply waitingWith_eq
          rw [h1, List.getElem?_set]; simp [Ne.symm hne]
        · unfold State.waitingWith
          rw [h1, List.getElem?_set]
          have := getElem?_lt h2
          simp only [if_true, this]
          cases p <;> rfl
      have wOld : ∀ (i : Nat) (o : PPc M), s.pubs[i]? = some o → s.waitingWith i = (match o with
            | .asleep m _ => [m] | .awake m _ => [m] | _ => []) := by
        intro i o h2
        unfold State.waitingWith
        rw [h2]
        cases o <;> rfl
      have keep : ∀ (s₁ : State M) (i : Nat) (o p : PPc M), s₁.pubs = s.pubs.set i p → s.pubs[i]? = some o →
          (match p with | .asleep m _ => [m] | .awake m _ => [m] | _ => ([] : List M)) =
            (match o with | .asleep m _ => [m] | .awake m _ => [m] | _ => []) →
          ∀ t', s₁.waitingWith t' = s.waitingWith t' := by
        intro s₁ i o p h1 h2 h3 t'
        obtain ⟨a1, a2⟩ := setw s₁ i o p h1 h2
        by_cases e : t' = i
        · subst e; rw [a2, h3, wOld t' o h2]
        · exact a1 t' e
      -- an accepted message
      have alloc : ∀ (i : Nat) (m : M) (us : Int) (o : PPc M), s.pubs[i]? = some o → who m = i →
          (i = t → ((s.accepted.map (·.1)).filter (fun m => who m == t) ++ [m]).Sublist
            (publishedBy t as ++ publishedBy t [a])) →
          (∀ (t' : Nat) (m' : M) (ts : Int), (s.alloc c i m us).pubs[t']? = some (.asleep m' ts) ∨
            (s.alloc c i m us).pubs[t']? = some (.awake m' ts) → who m' = t') ∧
          (((s.alloc c i m us).accepted.map (·.1)).filter (fun m => who m == t) ++ (s.alloc c i m us).waitingWith t).Sublist
            (publishedBy t as ++ publishedBy t [a]) := by
        intro i m us o ho hm hsub
        obtain ⟨a1, a2⟩ := setw (s.alloc c i m us) i o (.importing s.head m ⟨s.last.index + 1, us⟩) rfl ho
        refine ⟨?_, ?_⟩
        · intro t' m' ts hh
          simp only [State.alloc] at hh
          rcases hh with hh | hh
          · rcases getElem?_set_eq hh with ⟨_, e2⟩ | ⟨_, e2⟩
            · simp at e2
            · exact iw t' m' ts (.inl e2)
          · rcases getElem?_set_eq hh with ⟨_, e2⟩ | ⟨_, e2⟩
            · simp at e2
            · exact iw t' m' ts (.inr e2)
        · have e1 : (s.alloc c i m us).accepted.map (·.1) = s.accepted.map (·.1) ++ [m] := by simp [State.alloc]
          rw [e1, List.filter_append]
          by_cases e : i = t
          · have hb : (who m == t) = true := by simp [hm, e]
            have hw : (s.alloc c i m us).waitingWith t = [] := by rw [← e, a2]
            rw [hw]
            simp only [List.filter_cons, hb, if_true, List.filter_nil, List.append_nil]
            exact hsub e
          · have hb : (who m == t) = false := by simp [hm, e]
            rw [a1 t (Ne.symm e)]
            simp only [List.filter_cons, hb, Bool.false_eq_true, if_false, List.filter_nil, List.append_nil]
            exact il.trans (List.sublist_append_left _ _)
      cases a with
      | publish i m ts now =>
        have hm : who m = i := hwho i m ts now (by simp)
        simp only [step] at hs
        split at hs
        · rename_i ho
          injection hs with hs
          have hp1 : i = t → publishedBy t [Act.publish i m ts now] = [m] := by intro e; simp [publishedBy, e]
          have hw0 : i = t → s.waitingWith t = [] := by intro e; rw [← e, wOld i _ ho]
          rcases publish_cases c s i m ts now with ⟨_, e⟩ | ⟨_, e⟩ | ⟨_, _, us, _, e⟩ | ⟨_, _, _, _, e⟩
          · rw [e] at hs; subst hs; exact same _ rfl (fun _ => rfl)
          · rw [e] at hs; subst hs; exact same _ rfl (fun _ => rfl)
          · rw [e] at hs; subst hs
            refine alloc i m us _ ho hm ?_
            intro e
            rw [hp1 e]
            rw [hw0 e, List.append_nil] at il
            exact il.append (List.Sublist.refl _)
          · rw [e] at hs; subst hs
            obtain ⟨a1, a2⟩ := setw { s with pubs := s.pubs.set i (.asleep m ts) } i _ (.asleep m ts) rfl ho
            refine ⟨?_, ?_⟩
            · intro t' m' ts' hh
              rcases hh with hh | hh
              · rcases getElem?_set_eq hh with ⟨e1, e2⟩ | ⟨_, e2⟩
                · injection e2 with e2; subst e1 e2; exact hm
                · exact iw t' m' ts' (.inl e2)
              · rcases getElem?_set_eq hh with ⟨e1, e2⟩ | ⟨_, e2⟩
                · simp at e2
                · exact iw t' m' ts' (.inr e2)
            · by_cases e : i = t
              · rw [hp1 e]
                rw [hw0 e, List.append_nil] at il
                have : ({ s with pubs := s.pubs.set i (.asleep m ts) } : State M).waitingWith t = [m] := by
                  rw [← e, a2]
                rw [this]
                exact il.append (List.Sublist.refl _)
              · rw [a1 t (Ne.symm e)]
                exact il.trans (List.sublist_append_left _ _)
        · simp at hs
      | spurious i =>
        simp only [step] at hs
        split at hs
        · rename_i m ts ho
          injection hs with hs; subst hs
          exact same _ rfl (keep _ i _ (.awake m ts) rfl ho rfl)
        · simp at hs
      | resume i now =>
        simp only [step] at hs
        split at hs
        · rename_i m ts ho
          injection hs with hs; subst hs
          have hm := iw i m ts (.inr ho)
          have hw := wOld i _ ho
          simp only at hw
          unfold State.resume
          split
          · -- refused because of destruction: the message is dropped
            obtain ⟨a1, a2⟩ := setw { s with pubs := s.pubs.set i .idle, rets := s.rets ++ [.dropped m] } i _ .idle rfl ho
            refine ⟨?_, ?_⟩
            · intro t' m' ts' hh
              rcases hh with hh | hh
              · rcases getElem?_set_eq hh with ⟨_, e2⟩ | ⟨_, e2⟩
                · simp at e2
                · exact iw t' m' ts' (.inl e2)
              · rcases getElem?_set_eq hh with ⟨_, e2⟩ | ⟨_, e2⟩
                · simp at e2
                · exact iw t' m' ts' (.inr e2)
            · by_cases e : i = t
              · have e' : ({ s with pubs := s.pubs.set i .idle, rets := s.rets ++ [.dropped m] } : State M).waitingWith t = [] := by
                  rw [← e, a2]
                rw [e', List.append_nil]
                refine List.Sublist.trans ?_ (il.trans (List.sublist_append_left _ _))
                exact List.sublist_append_left _ _
              · rw [a1 t (Ne.symm e)]
                exact il.trans (List.sublist_append_left _ _)
          · split
            · refine alloc i m _ _ ho hm ?_
              intro e
              rw [e] at hw
              rw [hw] at il
              exact il.trans (List.sublist_append_left _ _)
            · exact same _ rfl (keep _ i _ (.asleep m ts) rfl ho rfl)
        · simp at hs
      | write i =>
        simp only [step] at hs
        split at hs
        · rename_i j m own ho
          injection hs with hs; subst hs
          exact same _ rfl (keep _ i _ (.written j m own) rfl ho rfl)
        · simp at hs
      | commit i =>
        simp only [step] at hs
        split at hs
        · rename_i j m own ho
          injection hs with hs; subst hs
          refine same _ rfl (fun t' => ?_)
          rw [waitingWith_notifyAll]
          exact keep _ i _ (.committed j m own) rfl ho rfl t'
        · simp at hs
      | ret i =>
        simp only [step] at hs
        split at hs
        · rename_i j m own ho
          injection hs with hs; subst hs
          exact same _ rfl (keep _ i _ .idle rfl ho rfl)
        · simp at hs
      | spuriousC =>
        simp only [step] at hs
        split at hs
        · injection hs with hs; subst hs; exact same _ rfl (fun _ => rfl)
        · simp at hs
      | consume =>
        simp only [step] at hs
        split at hs
        · injection hs with hs; subst hs
          unfold State.consume
          split
          · exact same _ rfl (fun _ => rfl)
          · split <;> exact same _ rfl (fun _ => rfl)
        · simp at hs
      | «export» =>
        simp only [step] at hs
        split at hs
        · injection hs with hs; subst hs; exact same _ rfl (fun _ => rfl)
        · simp at hs
      | release =>
        simp only [step] at hs
        split at hs
        · injection hs with hs; subst hs; exact same _ rfl (fun _ => rfl)
        · simp at hs
      | notify i =>
        simp only [step] at hs
        split at hs
        · split at hs
          · split at hs
            · simp at hs
            · injection hs with hs; subst hs; exact same _ rfl (fun _ => rfl)
          · split at hs
            · rename_i i' _ m ts ho
              injection hs with hs; subst hs
              exact same _ rfl (keep _ i' _ (.awake m ts) rfl ho rfl)
            · simp at hs
        · simp at hs
      | destruct =>
        simp only [step] at hs
        split at hs
        · simp at hs
        · injection hs with hs; subst hs
          exact same _ rfl (fun t' => waitingWith_notifyAll _ t')
  exact (List.sublist_append_left _ _).trans (key as s h hwho).2

/-- The hypotheses of the theorems of this file and of `Props.lean` are met by real runs: two publishers, a buffer of two, a publisher that has to
wait, a wake-up, and three deliveries; the final state is stuck, and everything is delivered. -/
example : ∃ s, run ⟨2, false⟩ (init 0 2)
      ([.publish 0 10 1 0, .write 0, .commit 0, .ret 0, .publish 1 21 2 0, .write 1, .commit 1, .ret 1, .publish 0 12 3 0,
        .consume, .export, .release, .notify (some 0), .resume 0 0, .write 0, .commit 0, .ret 0] ++
        deliverOne ++ deliverOne ++ [.consume]) = some s ∧
      s.delivered = [(10, ⟨1, 1⟩, ⟨2, 2⟩), (21, ⟨2, 2⟩, ⟨3, 3⟩), (12, ⟨3, 3⟩, ⟨3, 3⟩)] ∧ s.cons = .asleep ∧
      s.pubs = [.idle, .idle] ∧ s.fuel = 8 :=
  ⟨_, rfl, rfl, rfl, rfl, rfl⟩

end Current.MMQ
