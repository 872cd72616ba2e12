import Verif.Rip.Inv
import Mathlib.Data.List.Induction
/-! RipCurrent flows: what they compute does not depend on the schedule, and `Join()` returns. -/
namespace Current.Rip
variable {S M : Type}

theorem ran_prefix (nd : Node S M) {a b : List M} (h : a <+: b) : (ran nd a).2 <+: (ran nd b).2 := by
  obtain ⟨r, rfl⟩ := h
  induction r using List.reverseRecOn with
  | nil => simp
  | append_singleton r m ih =>
    rw [← List.append_assoc, ran_snoc]
    exact ih.trans (List.prefix_append _ _)

theorem msgs_prefix {a b : List (Cmd M)} (h : a <+: b) : msgs a <+: msgs b := by
  obtain ⟨r, rfl⟩ := h
  rw [msgs_append]; exact List.prefix_append _ _

theorem ending_over (m : Main) (i : Nat) (h : ending m i = true) : over m i = true := by
  cases m <;> simp_all [ending, over] <;> omega

theorem ending_down (m : Main) (i : Nat) (h : ending m (i + 1) = true) : ending m i = true ∧ m ≠ .ctor i ∧ m ≠ .dtor i := by
  cases m <;> simp_all [ending] <;> omega

/-- Stage `i`'s history against what it should be. -/
theorem log_spec {nodes : Nat → Node S M} {n : Nat} {s : State S M} (hi : Inv nodes n s) : ∀ i, i < n →
    s.log i <+: input nodes i ∧ (ending s.main i = true → s.log i = input nodes i)
  | 0, _ => by rw [hi.none.2]; exact ⟨List.nil_prefix, fun _ => rfl⟩
  | i + 1, hin => by
    obtain ⟨ih1, ih2⟩ := log_spec hi i (by omega)
    have hl := hi.link i hin
    have h1 := hl.out
    rw [hl.through, List.append_assoc, List.append_assoc] at h1
    constructor
    · have : s.log (i + 1) <+: msgs (expected nodes s i) := by rw [h1]; exact List.prefix_append _ _
      refine this.trans (msgs_prefix ?_)
      unfold expected
      split
      · exact List.nil_prefix
      · split
        · rename_i he; rw [ih2 he]; exact List.prefix_refl _
        · exact (ran_prefix _ ih1).trans (List.prefix_append _ _)
    · intro he
      obtain ⟨e1, e2, e3⟩ := ending_down _ _ he
      have ho := hi.over (i + 1) hin (ending_over _ _ he)
      have ho' := hi.over i (by omega) (ending_over _ _ e1)
      have hq := hi.ctl.quiet i (by unfold active; grind)
      rw [ho.1, hq.1, hq.2] at h1
      have hu : unborn s.main i = false := by cases hm : s.main <;> simp_all [unborn, ending]
      simp only [expected, hu, e1, ih2 e1, pcPair, msgs, List.map_nil, List.filterMap_nil, List.append_nil] at h1
      exact h1.symm

/-- **Every schedule computes the same thing.** Whatever the interleaving of the threads and the clock, the messages a stage's `f` has
been called with are, in order, the first ones of the list `input nodes i`, which no schedule appears in. -/
theorem stages_receive_in_order {nodes : Nat → Node S M} {n : Nat} (hp : Proper nodes n) {s : State S M}
    (h : Reachable nodes n s) (i : Nat) (hin : i < n) : s.log i <+: input nodes i :=
  (log_spec (inv_reachable hp h) i hin).1

/-- **Nothing is lost or repeated**: when `Join()` returns, every stage has been called with exactly `input nodes i`, and its object is what those
calls make of it. -/
theorem join_means_all_received {nodes : Nat → Node S M} {n : Nat} (hp : Proper nodes n) {s : State S M}
    (h : Reachable nodes n s) (hd : s.main = .done) (i : Nat) (hin : i < n) :
    s.log i = input nodes i ∧ s.st i = (ran (nodes i) (input nodes i)).1 := by
  have hi := inv_reachable hp h
  have := (log_spec hi i hin).2 (by rw [hd]; rfl)
  exact ⟨this, by rw [hi.ctl.st i, this]⟩

/-- The error handler is never called: `InconsistentTimestampException` does not happen. -/
theorem no_timestamp_errors {nodes : Nat → Node S M} {n : Nat} (hp : Proper nodes n) {s : State S M}
    (h : Reachable nodes n s) : s.errors = 0 := (inv_reachable hp h).errors

/-! ### Progress -/

/-- Some thread of the flow has something to do at stage `i`. -/
def Busy (s : State S M) (i : Nat) : Prop :=
  s.pc i ≠ .idle ∨ s.pend i ≠ [] ∨ s.cons i ≠ .idle ∨ (s.alive i = true ∧ s.q i ≠ [])

theorem busy_lt {nodes : Nat → Node S M} {n : Nat} {s : State S M} (hi : Inv nodes n s) {i : Nat} (h : Busy s i) :
    i < n := by
  have h1 := hi.ctl.main
  have h2 := hi.ctl.quiet i
  have h3 := hi.ctl.consAlive i
  have h4 := hi.ctl.alive i
  unfold Busy at h
  by_cases ha : active s i
  · rcases ha with h | h | h
    · rw [h] at h1; exact h1
    · rw [h] at h1; exact h1
    · grind
  · grind

theorem busy_moves {nodes : Nat → Node S M} {n : Nat} (hp : Proper nodes n) {s : State S M} (hi : Inv nodes n s) {i : Nat}
    (h : Busy s i) (hn : s.cons (i + 1) = .idle) : ∃ a, a ≠ .join ∧ (step nodes n s a).isSome = true := by
  have hin := busy_lt hi h
  by_cases hpc : s.pc i = .idle
  · by_cases hpd : s.pend i = []
    · cases hc : s.cons i with
      | handling => exact ⟨.count i, by simp, by simp [step, hc, hpd, hpc]⟩
      | counted => exact ⟨.release i, by simp, by simp [step, hc]⟩
      | idle =>
        have ha : s.alive i = true ∧ s.q i ≠ [] := by unfold Busy at h; grind
        obtain ⟨e, rest, hq⟩ : ∃ e rest, s.q i = e :: rest := List.exists_cons_of_ne_nil ha.2
        have hpos := ((hi.ctl.alive i).mp ha.1).1
        obtain ⟨j, rfl⟩ : ∃ j, i = j + 1 := ⟨i - 1, by omega⟩
        have hd := (hi.link j hin).due e (by simp [hq])
        refine ⟨.take (j + 1), by simp, ?_⟩
        simp [step, ha.1, hc, hq, hd]
    · obtain ⟨c, rest, hq⟩ : ∃ e rest, s.pend i = e :: rest := List.exists_cons_of_ne_nil hpd
      have hlt : i + 1 < n := by
        by_cases hlt : i + 1 < n
        · exact hlt
        · obtain ⟨ms, hms⟩ := hi.ctl.cmds i c (by simp [hq])
          rw [show i = n - 1 from by omega, hp.sink ms] at hms
          simp at hms
      refine ⟨.begin i (s.clock + 1), by simp, ?_⟩
      cases c <;> simp [step, hpc, hq, hlt] <;> omega
  · have hlt := hi.ctl.size i hpc
    have hk := (hi.pcs i hlt).kind
    cases hc : s.pc i with
    | idle => exact absurd hc hpc
    | stamped t m => exact ⟨.call i, by simp, by simp [step, hc]⟩
    | sched t m => exact absurd hc (hk.1 t m)
    | headOnly t => exact absurd hc (hk.2 t)
    | called t m => exact ⟨.update i, by simp, by simp only [step, hc, hn]; simp; split <;> simp⟩
    | due t m => exact ⟨.publish i, by simp, by simp [step, hc, hn]⟩

theorem some_busy_moves {nodes : Nat → Node S M} {n : Nat} (hp : Proper nodes n) {s : State S M} (hi : Inv nodes n s) {i : Nat}
    (h : Busy s i) : ∃ a, a ≠ .join ∧ (step nodes n s a).isSome = true := by
  -- the busy stage nearest to the end of the flow
  generalize hk : n - i = k
  induction k using Nat.strongRecOn generalizing i with
  | ind k ih =>
    by_cases hn : s.cons (i + 1) = .idle
    · exact busy_moves hp hi h hn
    · have hb : Busy s (i + 1) := .inr (.inr (.inl hn))
      have := busy_lt hi hb
      exact ih (n - (i + 1)) (by omega) hb rfl

theorem quiet_main_moves {nodes : Nat → Node S M} {n : Nat} {s : State S M} (hi : Inv nodes n s)
    (h : ∀ i, ¬ Busy s i) (hd : s.main ≠ .done) (hb : s.main ≠ .building 0) :
    ∃ a, a ≠ .join ∧ (step nodes n s a).isSome = true := by
  have hq : ∀ i, s.pc i = .idle ∧ s.pend i = [] ∧ s.cons i = .idle ∧ (s.alive i = true → s.q i = []) := by
    intro i; have := h i; unfold Busy at this; grind
  have h1 := hi.ctl.main
  cases hm : s.main with
  | done => exact absurd hm hd
  | building k =>
    cases k with
    | zero => exact absurd hm hb
    | succ k => exact ⟨.construct, by simp, by simp [step, hm]⟩
  | ctor k => exact ⟨.constructed, by simp, by simp [step, hm, (hq k).1, (hq k).2.1]⟩
  | dtor k => exact ⟨.destroyed, by simp, by simp [step, hm, (hq k).1, (hq k).2.1]⟩
  | closing k => exact ⟨.closed, by simp, by simp [step, hm, (hq k).2.2.1]⟩
  | drain k =>
    refine ⟨.drained, by simp, ?_⟩
    rw [hm] at h1
    obtain ⟨j, rfl⟩ : ∃ j, k = j + 1 := ⟨k - 1, by have := h1.1; omega⟩
    have hl := hi.link j h1.2
    have e1 := hl.called
    have e2 := hl.processed
    have e3 := hl.failed
    have ha : s.alive (j + 1) = true := (hi.ctl.alive (j + 1)).mpr ⟨h1.1, h1.2, by rw [hm]; simp [qlive]⟩
    rw [(hq (j + 1)).2.2.2 ha, (hq j).1] at e1
    rw [(hq (j + 1)).2.2.1] at e2
    simp only [pcCalled, hand, List.length_nil] at e1 e2
    simp [step, hm]
    omega

/-- **No deadlock**: until `Join()` has returned, some thread can move (if `RipCurrent()` has returned and `Join()` has not been called, that may be
the user's thread, by calling it). -/
theorem never_stuck {nodes : Nat → Node S M} {n : Nat} (hp : Proper nodes n) {s : State S M} (h : Reachable nodes n s)
    (hd : s.main ≠ .done) : ∃ a, (step nodes n s a).isSome = true := by
  have hi := inv_reachable hp h
  by_cases hb : ∃ i, Busy s i
  · obtain ⟨i, hb⟩ := hb
    obtain ⟨a, _, ha⟩ := some_busy_moves hp hi hb
    exact ⟨a, ha⟩
  · by_cases hm : s.main = .building 0
    · exact ⟨.join, by simp [step, hm]⟩
    · obtain ⟨a, _, ha⟩ := quiet_main_moves hi (fun i hb' => hb ⟨i, hb'⟩) hd hm
      exact ⟨a, ha⟩

/-- What stage `k` should have received from the constructors and calls of `f` before it, no destructor having run. -/
def settled (nodes : Nat → Node S M) : Nat → List M
  | 0 => []
  | k + 1 => msgs (ran (nodes k) (settled nodes k)).2

/-- **Without `Join()`** (`Async()`): when the threads have nothing left to do, everything sent so far has been handled, all the way down. -/
theorem idle_means_settled {nodes : Nat → Node S M} {n : Nat} (hp : Proper nodes n) {s : State S M} (h : Reachable nodes n s)
    (hd : s.main ≠ .done) (hs : ∀ a, a ≠ .join → step nodes n s a = none) :
    s.main = .building 0 ∧ ∀ i, i < n → s.log i = settled nodes i := by
  have hi := inv_reachable hp h
  have hno : ¬ ∃ a, a ≠ Act.join ∧ (step nodes n s a).isSome = true := by
    rintro ⟨a, ha, h'⟩; rw [hs a ha] at h'; simp at h'
  have hb : ∀ i, ¬ Busy s i := fun i hb => hno (some_busy_moves hp hi hb)
  have hm : s.main = .building 0 := Classical.byContradiction fun hm => hno (quiet_main_moves hi hb hd hm)
  refine ⟨hm, ?_⟩
  intro i
  induction i with
  | zero => intro _; exact hi.none.2
  | succ i ih =>
    intro hin
    have ih := ih (by omega)
    have hl := hi.link i hin
    have h1 := hl.out
    have hbi := hb i
    have hbj := hb (i + 1)
    have ha : s.alive (i + 1) = true := (hi.ctl.alive (i + 1)).mpr ⟨by omega, hin, by rw [hm]; simp [qlive]⟩
    unfold Busy at hbi hbj
    have q1 : s.pc i = .idle := by grind
    have q2 : s.pend i = [] := by grind
    have q3 : s.q (i + 1) = [] := by grind
    rw [hl.through, q1, q2, q3] at h1
    simp only [expected, hm, unborn, ending, ih, pcPair, msgs, List.map_nil, List.filterMap_nil, List.append_nil,
      Nat.not_lt_zero, decide_false, Bool.false_eq_true, if_false] at h1
    exact h1.symm

/-! ### Every run ends -/

def sumTo (f : Nat → Int) : Nat → Int
  | 0 => 0
  | k + 1 => sumTo f k + f k

theorem sumTo_same {f g : Nat → Int} : ∀ {n : Nat}, (∀ j, j < n → g j = f j) → sumTo g n = sumTo f n
  | 0, _ => rfl
  | n + 1, h => by simp only [sumTo]; rw [sumTo_same (fun j hj => h j (by omega)), h n (by omega)]

theorem sumTo_bump {f g : Nat → Int} {i : Nat} (hi : g i = f i + 1) (hj : ∀ j, j ≠ i → g j = f j) :
    ∀ {n : Nat}, i < n → sumTo g n = sumTo f n + 1
  | n + 1, h => by
    simp only [sumTo]
    by_cases hin : i = n
    · subst hin
      rw [sumTo_same (f := f) (fun j hj' => hj j (by omega)), hi]; omega
    · rw [sumTo_bump hi hj (n := n) (by omega), hj n (by omega)]; omega

theorem sumTo_le {f g : Nat → Int} : ∀ {n : Nat}, (∀ j, j < n → f j ≤ g j) → sumTo f n ≤ sumTo g n
  | 0, _ => by simp [sumTo]
  | n + 1, h => by
    simp only [sumTo]
    have := sumTo_le (n := n) (fun j hj => h j (by omega))
    have := h n (by omega)
    omega

def pcRank : Pc M → Int
  | .idle => 0
  | .stamped _ _ => 1
  | .called _ _ => 2
  | .due _ _ => 3
  | .sched _ _ => 0
  | .headOnly _ => 0

def consLeft : Cons → Int
  | .idle => 0
  | .handling => 2
  | .counted => 1

def mainRank (n : Nat) : Main → Int
  | .building k => 2 * (n - k)
  | .ctor k => 2 * (n - k) - 1
  | .dtor k => 2 * n + 1 + 3 * k
  | .drain k => 2 * n + 3 * k - 1
  | .closing k => 2 * n + 3 * k
  | .done => 5 * n - 1

def work (s : State S M) (i : Nat) : Int :=
  4 * (s.sent i).length + pcRank (s.pc i) + 3 * (s.log i).length - consLeft (s.cons i)

def total (n : Nat) (s : State S M) : Int := mainRank n s.main + sumTo (work s) n

theorem total_step {nodes : Nat → Node S M} {n : Nat} (hp : Proper nodes n) {s s' : State S M} {a : Act} (hi : Inv nodes n s)
    (h : step nodes n s a = some s') : total n s' = total n s + 1 := by
  have h0 := hp.pos
  have h1 := hi.ctl.main
  have h8 := hi.ctl.size
  have hb : ∀ i, Busy s i → i < n := fun i => busy_lt hi
  have hk : ∀ i, (∀ t m, s.pc i ≠ .sched t m) ∧ ∀ t, s.pc i ≠ .headOnly t := fun i =>
    ⟨fun t m hc => (hi.pcs i (h8 i (by simp [hc]))).kind.1 t m hc, fun t hc => (hi.pcs i (h8 i (by simp [hc]))).kind.2 t hc⟩
  have ha : ∀ i t m, s.pc i = .called t m → s.hd (i + 1) < t := fun i t m hc =>
    (hi.pcs i (h8 i (by simp [hc]))).ahead t m (.inr hc)
  have hep : ∀ i c rest, i + 1 < n → s.pend i = c :: rest → (∃ m, c = .emit m) ∨ ∃ t m, c = .post t m := by
    intro i c rest hin hc
    rcases emit_or_post hp hi hin (c := c) (by simp [hc]) with h | h
    · exact .inl h.2
    · exact .inr h.2
  clear hi hp
  unfold Busy at hb
  have key : (s'.main = s.main ∧ ∃ i, i < n ∧ work s' i = work s i + 1 ∧ ∀ j, j ≠ i → work s' j = work s j) ∨
      (mainRank n s'.main = mainRank n s.main + 1 ∧ ∀ j, work s' j = work s j) := by
    cases a
    case construct => right; open_step h; all_goals (simp_all [mainRank, work]; try omega)
    case constructed => right; open_step h; all_goals (simp_all [mainRank, work]; try omega)
    case join => right; open_step h; all_goals (simp_all [mainRank, work]; try omega)
    case drained => right; open_step h; all_goals (simp_all [mainRank, work]; try omega)
    case closed => right; open_step h; all_goals (simp_all [mainRank, work]; try omega)
    case destroyed =>
      right
      open_step h
      all_goals refine ⟨?_, fun _ => rfl⟩
      all_goals grind [mainRank, MainOk]
    case begin i t => left; open_step h; all_goals refine ⟨rfl, i, ?_, ?_, ?_⟩; all_goals grind [work, upd, pcRank]
    case call i => left; open_step h; all_goals refine ⟨rfl, i, ?_, ?_, ?_⟩; all_goals grind [work, upd, pcRank]
    case update i => left; open_step h; all_goals refine ⟨rfl, i, ?_, ?_, ?_⟩; all_goals grind [work, upd, pcRank]
    case publish i => left; open_step h; all_goals refine ⟨rfl, i, ?_, ?_, ?_⟩; all_goals grind [work, upd, pcRank]
    case take i => left; open_step h; all_goals refine ⟨rfl, i, ?_, ?_, ?_⟩; all_goals grind [work, upd, consLeft]
    case count i => left; open_step h; all_goals refine ⟨rfl, i, ?_, ?_, ?_⟩; all_goals grind [work, upd, consLeft]
    case release i => left; open_step h; all_goals refine ⟨rfl, i, ?_, ?_, ?_⟩; all_goals grind [work, upd, consLeft]
  rcases key with ⟨hm, i, hin, e1, e2⟩ | ⟨e1, e2⟩
  · simp only [total, hm, sumTo_bump e1 e2 hin]; omega
  · simp only [total, e1, sumTo_same (fun j _ => e2 j)]; omega

theorem total_run {nodes : Nat → Node S M} {n : Nat} (hp : Proper nodes n) : ∀ (as : List Act) {s s' : State S M},
    Inv nodes n s → run nodes n s as = some s' → total n s' = total n s + as.length
  | [], s, s', hi, h => by simp only [run] at h; injection h with h; subst h; simp
  | a :: as, s, s', hi, h => by
    simp only [run] at h
    cases hs : step nodes n s a with
    | none => rw [hs] at h; simp at h
    | some s1 =>
      rw [hs] at h
      rw [total_run hp as (inv_step hp hi hs) h, total_step hp hi hs]
      simp; omega

/-- How many steps a flow takes. -/
def steps (nodes : Nat → Node S M) (n : Nat) : Int :=
  5 * n - 1 + sumTo (fun i => 4 * (input nodes (i + 1)).length + 3 * (input nodes i).length) n

theorem work_le {nodes : Nat → Node S M} {n : Nat} {s : State S M} (hi : Inv nodes n s) {i : Nat}
    (hin : i < n) : work s i ≤ 4 * (input nodes (i + 1)).length + 3 * (input nodes i).length := by
  have h1 := (log_spec hi i hin).1.length_le
  have h3 : (0 : Int) ≤ consLeft (s.cons i) := by cases s.cons i <;> simp [consLeft]
  have h2 : (s.sent i).length * 4 + pcRank (s.pc i) ≤ 4 * (input nodes (i + 1)).length := by
    by_cases hlt : i + 1 < n
    · have ho := (hi.link i hlt).out
      have hpre : msgs (expected nodes s i) <+: input nodes (i + 1) := by
        refine msgs_prefix ?_
        obtain ⟨ih1, ih2⟩ := log_spec hi i hin
        unfold expected
        split
        · exact List.nil_prefix
        · split
          · rename_i he; rw [ih2 he]; exact List.prefix_refl _
          · exact (ran_prefix _ ih1).trans (List.prefix_append _ _)
      have := hpre.length_le
      rw [ho] at this
      simp only [List.length_append, List.length_map] at this
      cases hc : s.pc i <;> rw [hc] at this <;> simp only [pcPair, pcRank, List.length_cons, List.length_nil] at this ⊢ <;> omega
    · have hs : s.sent i = [] ∧ s.pc i = .idle := by
        refine ⟨?_, Classical.byContradiction fun h => hlt (hi.ctl.size i h)⟩
        exact hi.lastSent i (by omega)
      rw [hs.1, hs.2]; simp [pcRank]; omega
  unfold work
  omega

/-- **Every run is finite**: no schedule has more than `steps nodes n` steps. With `never_stuck`: `Join()` returns, whatever the scheduler does, as long as
some enabled step is taken; and the run in which it returns has exactly that many steps. -/
theorem every_run_ends {nodes : Nat → Node S M} {n : Nat} (hp : Proper nodes n) (as : List Act) {s : State S M}
    (h : run nodes n (init nodes n) as = some s) : (as.length : Int) ≤ steps nodes n := by
  have hi := inv_run hp as (inv_init nodes n) h
  have ht := total_run hp as (inv_init nodes n) h
  have h0 : total n (init nodes n) = 0 := by
    have : sumTo (work (init nodes n)) n = sumTo (fun _ => 0) n := sumTo_same (fun j _ => by simp [work, init, pcRank, consLeft])
    have z : ∀ k, sumTo (fun _ => 0) k = 0 := by intro k; induction k <;> simp_all [sumTo]
    rw [total, this, z]; simp [init, mainRank]
  have hs : sumTo (work s) n ≤ _ := sumTo_le (fun j hj => work_le hi hj)
  have hm : mainRank n s.main ≤ 5 * n - 1 := by
    have h1 := hi.ctl.main
    have := hp.pos
    cases hm : s.main <;> rw [hm] at h1 <;> simp only [MainOk, mainRank] at h1 ⊢ <;> omega
  rw [h0, total] at ht
  unfold steps
  omega

end Current.Rip
