import Verif.Profiler.ProfilerInv

/-!
# The profiler reports what happened (C120)
-/

set_option linter.unusedSimpArgs false

namespace Current.Profiler

/-! ## When a thread made its first call -/

/-- The thread that makes a call. -/
def Act.thread : Act → Tid
  | .enter t .. => t
  | .leave t .. => t
  | .reset t .. => t
  | .report t .. => t

/-- When the call got the mutex. -/
def Act.lock : Act → Nat
  | .enter _ _ _ post _ _ => post
  | .leave _ _ post _ _ => post
  | .reset _ _ post _ _ _ => post
  | .report _ _ post _ _ _ _ _ => post

/-- When the record of the calling thread is created, if it is the first call of the thread. -/
def Act.crt : Act → Nat
  | .enter _ _ _ _ crt _ => crt
  | .leave _ _ _ crt _ => crt
  | .reset _ _ _ crt _ _ => crt
  | .report _ _ _ crt _ _ _ _ => crt

/-- The first call of a thread. -/
def first : List Act → Tid → Option Act
  | [], _ => none
  | a :: as, t => match first as t with
    | some b => some b
    | none => if a.thread = t then some a else none

/-! ## The invariant -/

/-- The whole profiler, given the calls so far. -/
structure Good (as : List Act) (s : State) : Prop where
  scopes : ∀ t, s.scopes t = opened (hist as t)
  last : ∀ t, lastTime (hist as t) ≤ s.clock ∧ lastReset (hist as t) ≤ s.clock
  fresh : ∀ t, s.th t = none → first as t = none ∧ Idle (hist as t)
  alive : ∀ t pt, s.th t = some pt → ∃ a, first as t = some a ∧ a.lock < a.crt ∧
    a.crt ≤ s.clock ∧ Inv (hist as t) a.crt pt
  since : ∀ t a, first as t = some a → opened (hist as t) ≠ [] →
    max a.lock (lastReset (hist as t)) ≤ lastTime (hist as t)
  rootSum : ∀ t a, first as t = some a → ∀ ks : List Key, ks.Nodup →
    (ks.map fun k => spent (hist as t) [k]).sum ≤
      lastTime (hist as t) - max a.lock (lastReset (hist as t))
  named : ∀ t, ∀ k ∈ opened (hist as t), k ≠ 0
  ok : s.failed = false
  overhead : s.mutex + s.reporting ≤ s.total

theorem idle_reset {h : List Ev} (hi : Idle h) (t : Nat) : Idle (.reset t :: h) :=
  ⟨by simpa [opened] using hi.1, fun p => by simpa [known] using hi.2 p⟩

/-- At most one child of a scope is being visited. -/
theorem indicator_le (h : List Ev) (p : List Key) (d : Nat) (ks : List Key) (hn : ks.Nodup) :
    (ks.map fun k => if inside h (p ++ [k]) then d else 0).sum ≤ if inside h p then d else 0 := by
  induction ks with
  | nil => simp
  | cons k ks ih =>
    have hn' := List.nodup_cons.1 hn
    simp only [List.map_cons, List.sum_cons]
    cases hk : inside h (p ++ [k]) with
    | false => simpa using ih hn'.2
    | true =>
      have hp : inside h p = true := by
        rw [inside_iff] at hk ⊢
        exact (List.prefix_append p [k]).trans hk
      have hz : (ks.map fun k' => if inside h (p ++ [k']) then d else 0).sum = 0 := by
        have : (ks.map fun k' => if inside h (p ++ [k']) then d else 0) = ks.map fun _ => 0 := by
          refine List.map_congr_left fun k' hk' => ?_
          have : inside h (p ++ [k']) = false := by
            rw [Bool.eq_false_iff]
            intro h'
            rw [inside_iff] at h' hk
            have := List.prefix_of_prefix_length_le h' hk (by simp)
            have := this.eq_of_length (by simp)
            simp at this
            exact hn'.1 (this ▸ hk')
          simp [this]
        rw [this]
        clear this ih hn hn'
        induction ks <;> simp_all
      simp [hz, hp]

theorem sum_map_add (ks : List Key) (f g : Key → Nat) :
    (ks.map fun k => f k + g k).sum = (ks.map f).sum + (ks.map g).sum := by
  induction ks with
  | nil => rfl
  | cons k ks ih => simp only [List.map_cons, List.sum_cons, ih]; omega

/-- The children of a scope account for no more time than the scope. -/
theorem spent_children (h : List Ev) (p : List Key) (ks : List Key) (hn : ks.Nodup) :
    (ks.map fun k => spent h (p ++ [k])).sum ≤ spent h p := by
  induction h with
  | nil =>
    simp only [spent]
    clear hn
    induction ks <;> simp_all
  | cons e h ih =>
    cases e with
    | enter k t =>
      simp only [spent, sum_map_add]
      have := indicator_le h p (Ev.time (.enter k t) - lastTime h) ks hn
      omega
    | leave t =>
      simp only [spent, sum_map_add]
      have := indicator_le h p (Ev.time (.leave t) - lastTime h) ks hn
      omega
    | reset t =>
      simp only [spent]
      clear hn ih
      induction ks <;> simp_all

theorem idle_spent {h : List Ev} (hi : Idle h) (ks : List Key) :
    (ks.map fun k => spent h [k]).sum = 0 := by
  induction ks with
  | nil => rfl
  | cons k ks ih =>
    simp only [List.map_cons, List.sum_cons, ih, (unknown_zero h [k] (by simp) (hi.2 _)).2.1]

theorem put_same {β : Type} (f : Tid → β) (t : Tid) (v : β) : put f t v t = v := by simp [put]

theorem put_other {β : Type} (f : Tid → β) {t t' : Tid} (v : β) (h : t' ≠ t) : put f t v t' = f t' := by
  simp [put, h]

/-- The record of the calling thread, created if need be. -/
theorem good_touch {as : List Act} {s : State} (hg : Good as s) (a : Act) (hl : s.clock < a.lock)
    (hc : a.lock < a.crt) :
    ∃ b, first (a :: as) a.thread = some b ∧ b.lock < b.crt ∧ b.crt ≤ a.crt ∧
      (first as a.thread = some b ∨ (first as a.thread = none ∧ Idle (hist as a.thread) ∧ b = a)) ∧
      Inv (hist as a.thread) b.crt (touch s.th a.thread a.crt) := by
  cases ht : s.th a.thread with
  | none =>
    obtain ⟨h1, h2⟩ := hg.fresh _ ht
    refine ⟨a, by simp [first, h1], hc, Nat.le_refl _, Or.inr ⟨h1, h2, rfl⟩, ?_⟩
    simp only [touch, ht, Option.getD_none]
    have := (hg.last a.thread).2
    exact Inv.new h2 _ (by omega) (by omega)
  | some pt =>
    obtain ⟨b, h1, h2, h3, h4⟩ := hg.alive _ _ ht
    refine ⟨b, by simp [first, h1], h2, by omega, Or.inl h1, ?_⟩
    simpa [touch, ht] using h4

theorem first_other {as : List Act} {a : Act} {t : Tid} (h : t ≠ a.thread) :
    first (a :: as) t = first as t := by
  simp only [first]
  have : ¬ a.thread = t := fun h' => h h'.symm
  cases first as t <;> simp [this]

theorem leaveOK_of_inv {h : List Ev} {born : Nat} {pt : PerThread} (hI : Inv h born pt) {k : Key}
    {o : List Key} (ho : opened h = k :: o) (hk : k ≠ 0) (t : Nat) (ht : lastTime h < t) :
    pt.leaveOK k t = true := by
  have hs : pt.stack = (k, (opened h).reverse) :: pairs o := by rw [hI.stack, ho]; simp [pairs]
  have hne : (opened h).reverse ≠ [] := by simp [ho]
  obtain ⟨n, hn, hok⟩ := hI.known _ hne (known_of_inside _ _ hne (inside_self h))
  have := hok.on (inside_self h)
  have hnode : pt.node (opened h).reverse = some n := by
    cases hr : (opened h).reverse with
    | nil => exact absurd hr hne
    | cons a l => rw [hr] at hn; exact hn
  have hp := pairs_ne_nil o
  simp only [PerThread.leaveOK, hs, hnode]
  simp [hk, hp]
  omega

theorem good_init : Good [] State.init := by
  refine ⟨?_, ?_, ?_, ?_, ?_, ?_, ?_, ?_, ?_⟩ <;>
    simp [State.init, hist, opened, lastTime, lastReset, first, Idle, known]

theorem rootSum_grow (h : List Ev) (ks : List Key) (hn : ks.Nodup) (t : Nat) (x : Nat)
    (hx : opened h ≠ [] → x ≤ lastTime h) (ht : lastTime h < t)
    (hs : (ks.map fun k => spent h [k]).sum ≤ lastTime h - x) :
    (ks.map fun k => spent h [k] + if inside h [k] then t - lastTime h else 0).sum ≤ t - x := by
  rw [sum_map_add]
  by_cases ho : opened h = []
  · have : (ks.map fun k => if inside h [k] then t - lastTime h else 0) = ks.map fun _ => 0 := by
      refine List.map_congr_left fun k _ => ?_
      have : inside h [k] = false := by
        rw [Bool.eq_false_iff]; intro hi
        rw [inside_iff, ho] at hi
        simpa using hi.length_le
      simp [this]
    have hz : (ks.map fun _ : Key => 0).sum = 0 := by
      clear hn hs this
      induction ks <;> simp_all
    rw [this, hz]; omega
  · have := indicator_le h [] (t - lastTime h) ks hn
    have hi : inside h [] = true := by rw [inside_iff]; exact List.nil_prefix
    rw [hi] at this
    simp only [List.nil_append, if_true] at this
    have := hx ho
    omega

theorem first_mono {as : List Act} {a b : Act} {t : Tid} (h : first as t = some b) :
    first (a :: as) t = some b := by simp [first, h]

theorem good_step {as : List Act} {s s' : State} {a : Act} (hg : Good as s)
    (h : step s a = some s') : Good (a :: as) s' := by
  cases a with
  | enter t k pre post crt fin =>
    simp only [step] at h
    split at h
    case isFalse => cases h
    rename_i hc
    obtain ⟨c1, c2, c3, c4, c5⟩ := hc
    injection h with h
    subst h
    obtain ⟨b, hb1, hb2, hb3, hb4, hI⟩ := good_touch hg (.enter t k pre post crt fin) c2 c3
    replace hb3 : b.crt ≤ crt := hb3
    replace hI : Inv (hist as t) b.crt (touch s.th t crt) := hI
    simp only [Act.thread] at hb1 hb4
    have hl := hg.last t
    refine ⟨?_, ?_, ?_, ?_, ?_, ?_, ?_, ?_, ?_⟩
    · intro t'
      by_cases ht : t' = t
      · subst ht; simp [State.account, put_same, hist, opened, hg.scopes]
      · have : ¬ t = t' := fun h => ht h.symm
        simp [State.account, put_other _ _ ht, hist, this, hg.scopes]
    · intro t'
      have := hg.last t'
      by_cases ht : t = t'
      · subst ht; simp [State.account, hist, lastTime_cons, Ev.time, lastReset]; omega
      · simp [State.account, hist, ht]; omega
    · intro t' hn
      by_cases ht : t' = t
      · subst ht; simp [State.account, put_same] at hn
      · have ht' : ¬ t = t' := fun h => ht h.symm
        simp only [State.account, put_other _ _ ht] at hn
        rw [first_other (by exact ht)]
        simpa [hist, ht'] using hg.fresh t' hn
    · intro t' pt hp
      by_cases ht : t' = t
      · subst ht
        simp only [State.account, put_same, Option.some.injEq] at hp
        subst hp
        refine ⟨b, hb1, hb2, by simp only [State.account]; omega, ?_⟩
        simpa [hist] using hI.enter k post (by omega)
      · have ht' : ¬ t = t' := fun h => ht h.symm
        simp only [State.account, put_other _ _ ht] at hp
        obtain ⟨a, a1, a2, a3, a4⟩ := hg.alive t' pt hp
        refine ⟨a, first_mono a1, a2, by simp only [State.account]; omega, ?_⟩
        simpa [hist, ht'] using a4
    · intro t' a ha ho
      by_cases ht : t' = t
      · subst ht
        rw [hb1] at ha; injection ha with ha; subst ha
        simp only [hist, if_true, lastTime_cons, Ev.time, lastReset]
        rcases hb4 with hb4 | ⟨_, _, rfl⟩
        · cases hth : s.th t' with
          | none => rw [(hg.fresh _ hth).1] at hb4; cases hb4
          | some pt =>
            obtain ⟨x, x1, x2, x3, x4⟩ := hg.alive _ _ hth
            rw [x1] at hb4; injection hb4 with hb4; subst hb4
            omega
        · simp only [Act.lock]; omega
      · have ht' : ¬ t = t' := fun h => ht h.symm
        rw [first_other (by exact ht)] at ha
        simp only [hist, if_neg ht'] at ho ⊢
        exact hg.since t' a ha ho
    · intro t' a ha ks hks
      by_cases ht : t' = t
      · subst ht
        rw [hb1] at ha; injection ha with ha; subst ha
        simp only [hist, if_true, lastTime_cons, Ev.time, lastReset, spent]
        rcases hb4 with hb4 | ⟨_, hid, rfl⟩
        · exact rootSum_grow _ ks hks post _ (hg.since t' b hb4) (by omega)
            (hg.rootSum t' b hb4 ks hks)
        · have := idle_spent hid ks
          refine Nat.le_trans (rootSum_grow _ ks hks post post ?_ (by omega) (by omega)) (by omega)
          intro h'; exact absurd hid.1 h'
      · have ht' : ¬ t = t' := fun h => ht h.symm
        rw [first_other (by exact ht)] at ha
        simp only [hist, if_neg ht']
        exact hg.rootSum t' a ha ks hks
    · intro t' k' hk'
      by_cases ht : t = t'
      · subst ht
        simp only [hist, if_true, opened, List.mem_cons] at hk'
        rcases hk' with rfl | hk'
        · exact c5
        · exact hg.named _ _ hk'
      · simp only [hist, if_neg ht] at hk'
        exact hg.named _ _ hk'
    · have : (touch s.th t crt).enterOK k post = true := by
        have := pairs_ne_nil (opened (hist as t))
        simp [PerThread.enterOK, hI.stack, this, c5]; omega
      simp [State.account, hg.ok, this]
    · have := hg.overhead
      simp only [State.account]; omega
  | leave t pre post crt fin =>
    simp only [step] at h
    split at h
    case h_1 => cases h
    rename_i k o hso
    split at h
    case isFalse => cases h
    rename_i hc
    obtain ⟨c1, c2, c3, c4⟩ := hc
    injection h with h
    subst h
    obtain ⟨b, hb1, hb2, hb3, hb4, hI⟩ := good_touch hg (.leave t pre post crt fin) c2 c3
    replace hb3 : b.crt ≤ crt := hb3
    replace hI : Inv (hist as t) b.crt (touch s.th t crt) := hI
    simp only [Act.thread] at hb1 hb4
    have hl := hg.last t
    have ho : opened (hist as t) = k :: o := by rw [← hg.scopes]; exact hso
    have hb4 : first as t = some b := by
      rcases hb4 with hb4 | ⟨_, hid, _⟩
      · exact hb4
      · rw [hid.1] at ho; cases ho
    refine ⟨?_, ?_, ?_, ?_, ?_, ?_, ?_, ?_, ?_⟩
    · intro t'
      by_cases ht : t' = t
      · subst ht; simp [State.account, put_same, hist, opened, ho]
      · have : ¬ t = t' := fun h => ht h.symm
        simp [State.account, put_other _ _ ht, hist, this, hg.scopes]
    · intro t'
      have := hg.last t'
      by_cases ht : t = t'
      · subst ht; simp [State.account, hist, lastTime_cons, Ev.time, lastReset]; omega
      · simp [State.account, hist, ht]; omega
    · intro t' hn
      by_cases ht : t' = t
      · subst ht; simp [State.account, put_same] at hn
      · have ht' : ¬ t = t' := fun h => ht h.symm
        simp only [State.account, put_other _ _ ht] at hn
        rw [first_other (by exact ht)]
        simpa [hist, ht'] using hg.fresh t' hn
    · intro t' pt hp
      by_cases ht : t' = t
      · subst ht
        simp only [State.account, put_same, Option.some.injEq] at hp
        subst hp
        refine ⟨b, hb1, hb2, by simp only [State.account]; omega, ?_⟩
        simpa [hist] using hI.leave ho post (by omega)
      · have ht' : ¬ t = t' := fun h => ht h.symm
        simp only [State.account, put_other _ _ ht] at hp
        obtain ⟨a, a1, a2, a3, a4⟩ := hg.alive t' pt hp
        refine ⟨a, first_mono a1, a2, by simp only [State.account]; omega, ?_⟩
        simpa [hist, ht'] using a4
    · intro t' a ha ho'
      by_cases ht : t' = t
      · subst ht
        rw [hb1] at ha; injection ha with ha; subst ha
        simp only [hist, if_true, lastTime_cons, Ev.time, lastReset]
        have := hg.since t' b hb4 (by rw [ho]; simp)
        omega
      · have ht' : ¬ t = t' := fun h => ht h.symm
        rw [first_other (by exact ht)] at ha
        simp only [hist, if_neg ht'] at ho' ⊢
        exact hg.since t' a ha ho'
    · intro t' a ha ks hks
      by_cases ht : t' = t
      · subst ht
        rw [hb1] at ha; injection ha with ha; subst ha
        simp only [hist, if_true, lastTime_cons, Ev.time, lastReset, spent]
        exact rootSum_grow _ ks hks post _ (hg.since t' b hb4) (by omega)
            (hg.rootSum t' b hb4 ks hks)
      · have ht' : ¬ t = t' := fun h => ht h.symm
        rw [first_other (by exact ht)] at ha
        simp only [hist, if_neg ht']
        exact hg.rootSum t' a ha ks hks
    · intro t' k' hk'
      by_cases ht : t = t'
      · subst ht
        simp only [hist, if_true, opened] at hk'
        exact hg.named _ _ (List.mem_of_mem_tail hk')
      · simp only [hist, if_neg ht] at hk'
        exact hg.named _ _ hk'
    · have : (touch s.th t crt).leaveOK k post = true :=
        leaveOK_of_inv hI ho (hg.named t k (by rw [ho]; simp)) post (by omega)
      simp [State.account, hg.ok, this]
    · have := hg.overhead
      simp only [State.account]; omega
  | reset t pre post crt at_ fin =>
    simp only [step] at h
    split at h
    case isFalse => cases h
    rename_i hc
    obtain ⟨c1, c2, c3, c4⟩ := hc
    injection h with h
    subst h
    obtain ⟨b, hb1, hb2, hb3, hb4, hI⟩ := good_touch hg (.reset t pre post crt at_ fin) c2 c3
    replace hb3 : b.crt ≤ crt := hb3
    replace hI : Inv (hist as t) b.crt (touch s.th t crt) := hI
    simp only [Act.thread] at hb1 hb4
    have hrt : ∀ t', crt < resetTime crt fin at_ t' ∧ resetTime crt fin at_ t' < fin := by
      intro t'; simp only [resetTime]; omega
    refine ⟨?_, ?_, ?_, ?_, ?_, ?_, ?_, ?_, ?_⟩
    · intro t'; simp [State.account, hist, opened, hg.scopes]
    · intro t'
      have := hrt t'
      simp only [State.account, hist, lastTime_cons, Ev.time, lastReset]; omega
    · intro t' hn
      by_cases ht : t' = t
      · subst ht; simp [State.account, put_same] at hn
      · simp only [State.account, put_other _ _ ht, Option.map_eq_none_iff] at hn
        rw [first_other (by exact ht)]
        exact ⟨(hg.fresh t' hn).1, idle_reset (hg.fresh t' hn).2 _⟩
    · intro t' pt hp
      have hr := hrt t'
      by_cases ht : t' = t
      · subst ht
        simp only [State.account, put_same, Option.map_some, Option.some.injEq] at hp
        subst hp
        have := (hg.last t').2
        refine ⟨b, hb1, hb2, by simp only [State.account]; omega, ?_⟩
        exact hI.reset _ (by omega) (by omega)
      · simp only [State.account, put_other _ _ ht, Option.map_eq_some_iff] at hp
        obtain ⟨pt', hp', rfl⟩ := hp
        obtain ⟨a, a1, a2, a3, a4⟩ := hg.alive t' pt' hp'
        have := (hg.last t').2
        refine ⟨a, first_mono a1, a2, by simp only [State.account]; omega, ?_⟩
        exact a4.reset _ (by omega) (by omega)
    · intro t' a ha ho
      have hr := hrt t'
      simp only [hist, lastTime_cons, Ev.time, lastReset]
      by_cases ht : t' = t
      · subst ht
        rw [hb1] at ha; injection ha with ha; subst ha
        omega
      · rw [first_other (by exact ht)] at ha
        cases hth : s.th t' with
        | none => rw [(hg.fresh _ hth).1] at ha; cases ha
        | some pt =>
          obtain ⟨x, x1, x2, x3, x4⟩ := hg.alive _ _ hth
          rw [x1] at ha; injection ha with ha; subst ha
          omega
    · intro t' a ha ks hks
      simp only [hist, spent]
      have hz : (ks.map fun _ : Key => 0).sum = 0 := by
        clear hks
        induction ks <;> simp_all
      omega
    · intro t' k' hk'
      simp only [hist, opened] at hk'
      exact hg.named _ _ hk'
    · simpa [State.account] using hg.ok
    · simp only [State.account]; omega
  | report t pre post crt A now B fin =>
    simp only [step] at h
    split at h
    case isFalse => cases h
    rename_i hc
    obtain ⟨c1, c2, c3, c4, c5, c6, c7⟩ := hc
    injection h with h
    subst h
    obtain ⟨b, hb1, hb2, hb3, hb4, hI⟩ := good_touch hg (.report t pre post crt A now B fin) c2 c3
    replace hb3 : b.crt ≤ crt := hb3
    replace hI : Inv (hist as t) b.crt (touch s.th t crt) := hI
    simp only [Act.thread] at hb1 hb4
    refine ⟨?_, ?_, ?_, ?_, ?_, ?_, ?_, ?_, ?_⟩
    · intro t'; simp [State.account, hist, hg.scopes]
    · intro t'
      have := hg.last t'
      simp only [State.account, hist]; omega
    · intro t' hn
      by_cases ht : t' = t
      · subst ht; simp [State.account, put_same] at hn
      · simp only [State.account, put_other _ _ ht] at hn
        rw [first_other (by exact ht)]
        simpa [hist] using hg.fresh t' hn
    · intro t' pt hp
      by_cases ht : t' = t
      · subst ht
        simp only [State.account, put_same, Option.some.injEq] at hp
        subst hp
        exact ⟨b, hb1, hb2, by simp only [State.account]; omega, hI⟩
      · simp only [State.account, put_other _ _ ht] at hp
        obtain ⟨a, a1, a2, a3, a4⟩ := hg.alive t' pt hp
        exact ⟨a, first_mono a1, a2, by simp only [State.account]; omega, a4⟩
    · intro t' a ha ho
      simp only [hist] at ho ⊢
      by_cases ht : t' = t
      · subst ht
        rw [hb1] at ha; injection ha with ha; subst ha
        rcases hb4 with hb4 | ⟨_, hid, _⟩
        · exact hg.since t' b hb4 ho
        · exact absurd hid.1 ho
      · rw [first_other (by exact ht)] at ha
        exact hg.since t' a ha ho
    · intro t' a ha ks hks
      simp only [hist]
      by_cases ht : t' = t
      · subst ht
        rw [hb1] at ha; injection ha with ha; subst ha
        rcases hb4 with hb4 | ⟨_, hid, _⟩
        · exact hg.rootSum t' b hb4 ks hks
        · rw [idle_spent hid]; omega
      · rw [first_other (by exact ht)] at ha
        exact hg.rootSum t' a ha ks hks
    · intro t' k' hk'
      exact hg.named _ _ (by simpa [hist] using hk')
    · simpa [State.account] using hg.ok
    · have := hg.overhead
      simp only [State.account]; omega

theorem good_run {as : List Act} {s : State} (h : run as = some s) : Good as s := by
  induction as generalizing s with
  | nil => simp only [run, Option.some.injEq] at h; subst h; exact good_init
  | cons a as ih =>
    simp only [run, Option.bind_eq_some_iff] at h
    obtain ⟨s0, h1, h2⟩ := h
    exact good_step (ih h1) h2

end Current.Profiler
