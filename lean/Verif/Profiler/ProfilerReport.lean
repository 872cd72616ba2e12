import Verif.Profiler.ProfilerThms

/-!
# The report (C120)
-/

set_option linter.unusedSimpArgs false

namespace Current.Profiler

theorem compute_eq {h : List Ev} {p : List Key} {n : Node} (hn : NodeOK h p n) (now : Nat)
    (hl : lastTime h ≤ now) : n.compute now = spentUntil h p now := by
  cases hi : inside h p with
  | true =>
    obtain ⟨a, b, c⟩ := hn.on hi
    simp only [Node.compute, spentUntil, hi, if_true, c]
    rw [if_pos a]; omega
  | false =>
    obtain ⟨a, b⟩ := hn.off hi
    simp [Node.compute, spentUntil, hi, a, b]

theorem unknown_spentUntil (h : List Ev) (p : List Key) (hp : p ≠ []) (hk : known h p = false)
    (now : Nat) : spentUntil h p now = 0 := by
  have hi : inside h p = false := by
    rw [Bool.eq_false_iff]; intro h'
    rw [known_of_inside _ _ hp h'] at hk; cases hk
  simp [spentUntil, (unknown_zero h p hp hk).2.1, hi]

/-- The report on one thread. -/
theorem report_inv {h : List Ev} {born : Nat} {pt : PerThread} (hI : Inv h born pt) (now : Nat)
    (hl : lastTime h ≤ now) :
    (∀ p, p ≠ [] → (pt.report now).sub.look p =
      if known h p then some (visits h p + (idleAtReset h p).toNat, spentUntil h p now) else none) ∧
    (pt.report now).sub.Tidy ∧ (pt.report now).entries = 1 ∧
    (pt.report now).us = now - max born (lastReset h) := by
  refine ⟨?_, tidy_fill _ _ hI.distinct, ?_, ?_⟩
  · intro p hp
    simp only [PerThread.report]
    rw [look_fill _ _ hI.distinct]
    cases hk : known h p with
    | false => simp [hI.unknown p hp hk]
    | true =>
      obtain ⟨n, hn, hok⟩ := hI.known p hp hk
      simp [hn, hok.entries, compute_eq hok now hl]
  · simp [PerThread.report, hI.root]
  · have : max born (lastReset h) ≠ 0 := by have := hI.bornPos; omega
    simp only [PerThread.report, hI.root, Node.compute]
    rw [if_pos this]; omega

/-- The record of a thread when a report is generated. -/
theorem response_thread {as : List Act} {s s' : State} {t0 : Tid} {pre post crt a now b fin : Nat}
    {r : ProfilingReport} (hr : run as = some s)
    (hs : step s (.report t0 pre post crt a now b fin) = some s')
    (hres : response s (.report t0 pre post crt a now b fin) = some r) (t : Tid) :
    (r.thread t = none ∧ first (.report t0 pre post crt a now b fin :: as) t = none) ∨
    ∃ pt f, r.thread t = some (pt.report now) ∧
      first (.report t0 pre post crt a now b fin :: as) t = some f ∧ f.lock < f.crt ∧
      f.crt < now ∧ Inv (hist as t) f.crt pt ∧ lastTime (hist as t) < now := by
  have hg := good_run hr
  simp only [step] at hs
  split at hs
  case isFalse => cases hs
  rename_i hc
  obtain ⟨c1, c2, c3, c4, c5, c6, c7⟩ := hc
  simp only [response, Option.some.injEq] at hres
  subst hres
  have hl := hg.last t
  by_cases ht : t = t0
  · subst ht
    obtain ⟨f, f1, f2, f3, f4, f5⟩ := good_touch hg (.report t pre post crt a now b fin) c2 c3
    replace f3 : f.crt ≤ crt := f3
    exact Or.inr ⟨touch s.th t crt, f, by simp [State.generate, put_same], f1, f2, by omega, f5, by omega⟩
  · cases hth : s.th t with
    | none =>
      left
      rw [first_other (by exact ht)]
      exact ⟨by simp [State.generate, put_other _ _ ht, hth], (hg.fresh t hth).1⟩
    | some pt =>
      right
      obtain ⟨f, f1, f2, f3, f4⟩ := hg.alive t pt hth
      exact ⟨pt, f, by simp [State.generate, put_other _ _ ht, hth], first_mono f1, f2, by omega, f4,
        by omega⟩

/-- **The report is exact**: after any calls by any threads, a report lists exactly the threads
which have made a call, and for each of them exactly the scopes it has entered, as a tree; at every
level the scope with the longest time comes first and no scope is listed twice; the time reported
for a scope is the time the thread was inside since the last reset, to the microsecond, a visit in
progress included; the number of entries is the number of visits since the last reset, plus one for
a scope which was not being visited at the last reset (that "plus one" is wrong, see
`entries_wrong_after_reset`); the time reported for the thread is the time since its record was
created or last reset. -/
theorem report_exact_partial {as : List Act} {s s' : State} {t0 : Tid}
    {pre post crt a now b fin : Nat} {r : ProfilingReport} (hr : run as = some s)
    (hs : step s (.report t0 pre post crt a now b fin) = some s')
    (hres : response s (.report t0 pre post crt a now b fin) = some r) (t : Tid) :
    ((r.thread t).isSome ↔ t = t0 ∨ ∃ c ∈ as, c.thread = t) ∧
    ∀ tr, r.thread t = some tr →
      (∀ p, p ≠ [] → tr.sub.look p =
        if known (hist as t) p then
          some (visits (hist as t) p + (idleAtReset (hist as t) p).toNat,
                spentUntil (hist as t) p now)
        else none) ∧
      tr.sub.Tidy ∧ tr.entries = 1 ∧
      ∃ f, first (.report t0 pre post crt a now b fin :: as) t = some f ∧
        tr.us = now - max f.crt (lastReset (hist as t)) := by
  have hfirst : ∀ as' : List Act, (first as' t).isSome ↔ ∃ c ∈ as', c.thread = t := by
    intro as'
    induction as' with
    | nil => simp [first]
    | cons x xs ih =>
      simp only [first]
      cases hx : first xs t with
      | some y =>
        rw [hx] at ih
        simp only [Option.isSome_some, true_iff] at ih ⊢
        obtain ⟨c, hc, hct⟩ := ih
        exact ⟨c, List.mem_cons_of_mem _ hc, hct⟩
      | none =>
        rw [hx] at ih
        have hno : ¬ ∃ c ∈ xs, c.thread = t := by
          intro h'; have := ih.2 h'; simp at this
        by_cases hxt : x.thread = t
        · simp only [hxt, if_true, Option.isSome_some, true_iff]
          exact ⟨x, by simp, hxt⟩
        · simp only [hxt, if_false]
          constructor
          · intro h'; simp at h'
          · rintro ⟨c, hc, hct⟩
            rcases List.mem_cons.1 hc with rfl | hc
            · exact absurd hct hxt
            · exact absurd ⟨c, hc, hct⟩ hno
  have hiff := hfirst (.report t0 pre post crt a now b fin :: as)
  rcases response_thread hr hs hres t with ⟨h1, h2⟩ | ⟨pt, f, h1, h2, h3, h4, h5, h6⟩
  · refine ⟨?_, fun tr htr => by rw [h1] at htr; cases htr⟩
    rw [h2] at hiff
    rw [h1]
    constructor
    · intro h'; simp at h'
    · rintro (rfl | ⟨c, hc, hct⟩)
      · exact hiff.2 ⟨_, List.mem_cons_self, rfl⟩
      · exact hiff.2 ⟨c, List.mem_cons_of_mem _ hc, hct⟩
  · refine ⟨?_, ?_⟩
    · rw [h2] at hiff
      simp only [h1, Option.isSome_some, true_iff]
      obtain ⟨c, hc, hct⟩ := hiff.1 rfl
      rcases List.mem_cons.1 hc with rfl | hc
      · exact Or.inl hct.symm
      · exact Or.inr ⟨c, hc, hct⟩
    · intro tr htr
      rw [h1] at htr; injection htr with htr; subst htr
      obtain ⟨x1, x2, x3, x4⟩ := report_inv h5 now (by omega)
      exact ⟨x1, x2, x3, f, h2, x4⟩

/-- No reset has happened. -/
def NoReset (as : List Act) : Prop := ∀ a ∈ as, ∀ t pre post crt at_ fin,
  a ≠ .reset t pre post crt at_ fin

theorem idleAtReset_noReset {as : List Act} (hn : NoReset as) (t : Tid) (p : List Key) :
    idleAtReset (hist as t) p = false := by
  induction as with
  | nil => rfl
  | cons a as ih =>
    have ih := ih (fun x hx => hn x (List.mem_cons_of_mem _ hx))
    cases a with
    | enter t' k pre post crt fin =>
      by_cases ht : t' = t <;> simp [hist, ht, idleAtReset, ih]
    | leave t' pre post crt fin =>
      by_cases ht : t' = t <;> simp [hist, ht, idleAtReset, ih]
    | reset t' pre post crt at_ fin => exact absurd rfl (hn _ List.mem_cons_self _ _ _ _ _ _)
    | report => simpa [hist] using ih

/-- **As long as the profiler has not been reset** the number of entries of each scope is the
number of times the thread entered it, and the time is the time the thread spent inside. -/
theorem report_exact_no_reset {as : List Act} {s s' : State} {t0 : Tid}
    {pre post crt a now b fin : Nat} {r : ProfilingReport} (hn : NoReset as)
    (hr : run as = some s)
    (hs : step s (.report t0 pre post crt a now b fin) = some s')
    (hres : response s (.report t0 pre post crt a now b fin) = some r) (t : Tid)
    (tr : ThreadReport) (ht : r.thread t = some tr) (p : List Key) (hp : p ≠ []) :
    tr.sub.look p = if known (hist as t) p then
        some (visits (hist as t) p, spentUntil (hist as t) p now) else none := by
  have := ((report_exact_partial hr hs hres t).2 tr ht).1 p hp
  simpa [idleAtReset_noReset hn] using this

/-- The time a report gives for a scope, `0` if the scope is not listed. -/
def usAt (r : Report) (p : List Key) : Nat := ((r.look p).map (·.2)).getD 0

/-- **Time nests**: the scopes inside a scope are reported with no more time together than the
scope itself. -/
theorem children_time {as : List Act} {s s' : State} {t0 : Tid}
    {pre post crt a now b fin : Nat} {r : ProfilingReport} (hr : run as = some s)
    (hs : step s (.report t0 pre post crt a now b fin) = some s')
    (hres : response s (.report t0 pre post crt a now b fin) = some r) (t : Tid)
    (tr : ThreadReport) (ht : r.thread t = some tr) (p : List Key) (hp : p ≠ [])
    (ks : List Key) (hk : ks.Nodup) :
    (ks.map fun k => usAt tr.sub (p ++ [k])).sum ≤ usAt tr.sub p := by
  have hl := ((report_exact_partial hr hs hres t).2 tr ht).1
  have hu : ∀ q, q ≠ [] → usAt tr.sub q = spentUntil (hist as t) q now := by
    intro q hq
    simp only [usAt, hl q hq]
    cases hkn : known (hist as t) q with
    | true => simp
    | false => simp [unknown_spentUntil _ _ hq hkn]
  rw [hu p hp]
  rw [show (ks.map fun k => usAt tr.sub (p ++ [k])) =
      ks.map fun k => spentUntil (hist as t) (p ++ [k]) now from
    List.map_congr_left fun k _ => hu _ (by simp)]
  simp only [spentUntil, sum_map_add]
  have h1 := spent_children (hist as t) p ks hk
  have h2 := indicator_le (hist as t) p (now - lastTime (hist as t)) ks hk
  omega

/-- **Time nests at the top**, up to the time between the moment the first call of the thread got
the mutex and the creation of its record: the outermost scopes of a thread have no more time
together than the time of the thread plus that delay.  After a reset there is no delay to add.
That the delay is needed: `root_children_exceed`. -/
theorem root_children_time_partial {as : List Act} {s s' : State} {t0 : Tid}
    {pre post crt a now b fin : Nat} {r : ProfilingReport} (hr : run as = some s)
    (hs : step s (.report t0 pre post crt a now b fin) = some s')
    (hres : response s (.report t0 pre post crt a now b fin) = some r) (t : Tid)
    (tr : ThreadReport) (ht : r.thread t = some tr) (ks : List Key) (hk : ks.Nodup) (f : Act)
    (hf : first (.report t0 pre post crt a now b fin :: as) t = some f) :
    (ks.map fun k => usAt tr.sub [k]).sum ≤ tr.us + (f.crt - f.lock) ∧
    (f.crt ≤ lastReset (hist as t) → (ks.map fun k => usAt tr.sub [k]).sum ≤ tr.us) := by
  have hg := good_run hr
  obtain ⟨hl, _, _, f', hf', hus⟩ := (report_exact_partial hr hs hres t).2 tr ht
  rw [hf] at hf'; injection hf' with hf'; subst hf'
  have hu : ∀ q, q ≠ [] → usAt tr.sub q = spentUntil (hist as t) q now := by
    intro q hq
    simp only [usAt, hl q hq]
    cases hkn : known (hist as t) q with
    | true => simp
    | false => simp [unknown_spentUntil _ _ hq hkn]
  rw [show (ks.map fun k => usAt tr.sub [k]) = ks.map fun k => spentUntil (hist as t) [k] now from
    List.map_congr_left fun k _ => hu _ (by simp)]
  have hlast : lastTime (hist as t) < now ∧ f.lock < f.crt ∧ f.crt < now := by
    rcases response_thread hr hs hres t with ⟨h1, h2⟩ | ⟨pt, f2, h1, h2, h3, h4, h5, h6⟩
    · rw [h1] at ht; cases ht
    · rw [hf] at h2; injection h2 with h2; subst h2; exact ⟨h6, h3, h4⟩
  have hsum : (ks.map fun k => spentUntil (hist as t) [k] now).sum ≤
      now - max f.lock (lastReset (hist as t)) := by
    simp only [spentUntil]
    cases hfa : first as t with
    | some f2 =>
      have : first (.report t0 pre post crt a now b fin :: as) t = some f2 := first_mono hfa
      rw [hf] at this; injection this with this; subst this
      exact rootSum_grow _ ks hk now _ (hg.since t f hfa) hlast.1 (hg.rootSum t f hfa ks hk)
    | none =>
      have hid : Idle (hist as t) := by
        cases hth : s.th t with
        | none => exact (hg.fresh t hth).2
        | some pt => obtain ⟨x, x1, _⟩ := hg.alive t pt hth; rw [hfa] at x1; cases x1
      have h0 := idle_spent hid ks
      refine Nat.le_trans (rootSum_grow _ ks hk now now ?_ hlast.1 (by omega)) (by omega)
      intro h'; exact absurd hid.1 h'
  rw [hus]
  constructor
  · omega
  · intro h'; omega

/-- **The assertions of `EnterScope` and `LeaveScope` never fail**: a thread leaves the scopes in
the order in which the profiler expects it. -/
theorem scope_assertions {as : List Act} {s : State} (hr : run as = some s) : s.failed = false :=
  (good_run hr).ok

/-! ## The assertions made while a report is generated -/

theorem names_of_find {f : Forest} {x : Key} {q : List Key} {n : Node}
    (h : f.find (x :: q) = some n) : x ∈ f.names := by
  induction f with
  | nil => simp [Forest.find] at h
  | cons k m kids rest _ ih =>
    simp only [Forest.find] at h
    simp only [Forest.names, List.mem_cons]
    split at h
    · rename_i hk; exact Or.inl hk.symm
    · exact Or.inr (ih h)

theorem nodup_names {f : Forest} (hd : f.Distinct) : f.names.Nodup := by
  induction f with
  | nil => simp [Forest.names]
  | cons k m kids rest _ ih => exact List.nodup_cons.2 ⟨hd.1, ih hd.2.2⟩

/-- The time of a node, if there is one. -/
def timeOf (o : Option Node) (now : Nat) : Nat := (o.map (·.compute now)).getD 0

theorem sum_eq {f : Forest} (hd : f.Distinct) (now : Nat) :
    f.sum now = (f.names.map fun k => timeOf (f.find [k]) now).sum := by
  induction f with
  | nil => rfl
  | cons k m kids rest _ ih =>
    simp only [Forest.sum, Forest.names, List.map_cons, List.sum_cons, ih hd.2.2]
    have : (rest.names.map fun k' => timeOf ((Forest.cons k m kids rest).find [k']) now) =
        rest.names.map fun k' => timeOf (rest.find [k']) now := by
      refine List.map_congr_left fun k' hk' => ?_
      have : ¬ k = k' := by rintro rfl; exact hd.1 hk'
      simp [Forest.find, this]
    rw [this]
    simp [Forest.find, timeOf]

theorem fillOK_of {f : Forest} (hd : f.Distinct) (now : Nat)
    (hq : ∀ q n, f.find q = some n → n.entries ≠ 0 ∧ (n.entered = 0 ∨ n.entered ≤ now) ∧
      ∀ ks : List Key, ks.Nodup →
        (ks.map fun k => timeOf (f.find (q ++ [k])) now).sum ≤ n.compute now) :
    f.fillOK now = true := by
  induction f with
  | nil => rfl
  | cons k m kids rest ih1 ih2 =>
    obtain ⟨h1, h2, h3⟩ := hd
    obtain ⟨a, b, c⟩ := hq [k] m (by simp [Forest.find])
    have hk := c kids.names (nodup_names h2)
    have hs : kids.sum now ≤ m.compute now := by
      rw [sum_eq h2]
      simpa [Forest.find] using hk
    have hkids : kids.fillOK now = true := by
      refine ih1 h2 fun q n hqn => ?_
      have hne : q ≠ [] := by rintro rfl; simp [find_nil_path] at hqn
      obtain ⟨x, q', rfl⟩ := List.exists_cons_of_ne_nil hne
      obtain ⟨a', b', c'⟩ := hq (k :: x :: q') n (by simpa [Forest.find] using hqn)
      exact ⟨a', b', fun ks hks => by simpa [Forest.find] using c' ks hks⟩
    have hrest : rest.fillOK now = true := by
      refine ih2 h3 fun q n hqn => ?_
      have hne : q ≠ [] := by rintro rfl; simp [find_nil_path] at hqn
      obtain ⟨x, q', rfl⟩ := List.exists_cons_of_ne_nil hne
      have hx : ¬ k = x := by rintro rfl; exact h1 (names_of_find hqn)
      obtain ⟨a', b', c'⟩ := hq (x :: q') n (by simpa [Forest.find, hx] using hqn)
      exact ⟨a', b', fun ks hks => by simpa [Forest.find, hx] using c' ks hks⟩
    simp [Forest.fillOK, a, b, hs, hkids, hrest]

theorem visits_pos (h : List Ev) (p : List Key) (hk : known h p = true) :
    visits h p + (idleAtReset h p).toNat ≠ 0 := by
  induction h with
  | nil => simp [known] at hk
  | cons e h ih =>
    cases e with
    | enter k t =>
      simp only [known, Bool.or_eq_true, beq_iff_eq] at hk
      simp only [visits, idleAtReset]
      split
      · omega
      · have := ih (by grind); omega
    | leave t => exact ih hk
    | reset t =>
      simp only [known] at hk
      simp only [visits, idleAtReset, hk, Bool.true_and]
      cases inside h p <;> simp

/-- **The assertions made while a report is generated never fail**, whenever it is generated and
whatever the threads are doing, except the one that the outermost scopes of a thread have no more
time than the thread (`root_children_exceed`). -/
theorem report_assertions_partial {as : List Act} {s : State} (hr : run as = some s) (t : Tid)
    (pt : PerThread) (ht : s.th t = some pt) (now : Nat) (hn : s.clock ≤ now) :
    pt.reportOK now = true := by
  have hg := good_run hr
  obtain ⟨f, _, f2, f3, hI⟩ := hg.alive t pt ht
  have hl := hg.last t
  have hfill : pt.kids.fillOK now = true := by
    refine fillOK_of hI.distinct now fun q n hqn => ?_
    have hne : q ≠ [] := by rintro rfl; simp [find_nil_path] at hqn
    have htime : ∀ p, p ≠ [] → timeOf (pt.kids.find p) now = spentUntil (hist as t) p now := by
      intro p hp
      cases hk : known (hist as t) p with
      | false => simp [hI.unknown p hp hk, timeOf, unknown_spentUntil _ _ hp hk]
      | true =>
        obtain ⟨m, hm, hok⟩ := hI.known p hp hk
        simp [hm, timeOf, compute_eq hok now (by omega)]
    cases hk : known (hist as t) q with
    | false => rw [hI.unknown q hne hk] at hqn; cases hqn
    | true =>
      obtain ⟨m, hm, hok⟩ := hI.known q hne hk
      rw [hqn] at hm; injection hm with hm; subst hm
      refine ⟨by rw [hok.entries]; exact visits_pos _ _ hk, ?_, ?_⟩
      · cases hi : inside (hist as t) q with
        | true => have := (hok.on hi).2.1; omega
        | false => exact Or.inl (hok.off hi).1
      · intro ks hks
        rw [show (ks.map fun k => timeOf (pt.kids.find (q ++ [k])) now) =
            ks.map fun k => spentUntil (hist as t) (q ++ [k]) now from
          List.map_congr_left fun k _ => htime _ (by simp)]
        rw [compute_eq hok now (by omega)]
        simp only [spentUntil, sum_map_add]
        have h1 := spent_children (hist as t) q ks hks
        have h2 := indicator_le (hist as t) q (now - lastTime (hist as t)) ks hks
        omega
  simp [PerThread.reportOK, hI.root, hfill]
  omega

/-! ## Overheads -/

/-- The time from the moment a call was made until it was done, and how long it took to get the
mutex. -/
def Act.cost : Act → Nat × Nat
  | .enter _ _ pre post _ fin => (fin - pre, post - pre)
  | .leave _ pre post _ fin => (fin - pre, post - pre)
  | .reset _ pre post _ _ fin => (fin - pre, post - pre)
  | .report _ pre post _ _ _ _ fin => (fin - pre, post - pre)

/-- The calls since the last reset, that one included. -/
def sinceReset : List Act → List Act
  | [] => []
  | a :: as => match a with
    | .reset .. => [a]
    | _ => a :: sinceReset as

/-- The time a call spends making a report. -/
def Act.reportTime : Act → Nat
  | .report _ _ _ _ a _ b _ => b - a
  | _ => 0

theorem totals {as : List Act} {s : State} (hr : run as = some s) :
    s.total = ((sinceReset as).map (·.cost.1)).sum ∧
    s.mutex = ((sinceReset as).map (·.cost.2)).sum ∧
    s.reporting = ((sinceReset as).map (·.reportTime)).sum := by
  induction as generalizing s with
  | nil => simp only [run, Option.some.injEq] at hr; subst hr; simp [State.init, sinceReset]
  | cons a as ih =>
    simp only [run, Option.bind_eq_some_iff] at hr
    obtain ⟨s0, h1, h2⟩ := hr
    obtain ⟨i1, i2, i3⟩ := ih h1
    cases a with
    | enter =>
      simp only [step] at h2
      split at h2 <;> simp only [reduceCtorEq, Option.some.injEq] at h2
      subst h2
      simp [State.account, sinceReset, Act.cost, Act.reportTime, i1, i2, i3]; omega
    | leave =>
      simp only [step] at h2
      split at h2 <;> try (cases h2; done)
      split at h2 <;> simp only [reduceCtorEq, Option.some.injEq] at h2
      subst h2
      simp [State.account, sinceReset, Act.cost, Act.reportTime, i1, i2, i3]; omega
    | reset =>
      simp only [step] at h2
      split at h2 <;> simp only [reduceCtorEq, Option.some.injEq] at h2
      subst h2
      simp [State.account, sinceReset, Act.cost, Act.reportTime]
    | report =>
      simp only [step] at h2
      split at h2 <;> simp only [reduceCtorEq, Option.some.injEq] at h2
      subst h2
      simp [State.account, sinceReset, Act.cost, Act.reportTime, i1, i2, i3]; omega

/-- **The overheads are exact**: the reported overhead of profiling is the time all the calls since
the last reset took, from the call to its end, minus the time spent making reports; the overhead of
the mutex is the time they waited for the mutex; the latter is a part of the former, and nothing
reported is negative. -/
theorem overheads_exact {as : List Act} {s : State} {a : Act} {r : ProfilingReport}
    (hr : run as = some s) (hres : response s a = some r) :
    r.profilingOverhead = ((((sinceReset as).map (·.cost.1)).sum : Nat) : Int)
      - ((((sinceReset as).map (·.reportTime)).sum : Nat) : Int) ∧
    r.mutexOverhead = ((((sinceReset as).map (·.cost.2)).sum : Nat) : Int) ∧
    r.reportingOverhead = ((((sinceReset as).map (·.reportTime)).sum : Nat) : Int) ∧
    0 ≤ r.mutexOverhead ∧ r.mutexOverhead ≤ r.profilingOverhead ∧ 0 ≤ r.reportingOverhead := by
  obtain ⟨h1, h2, h3⟩ := totals hr
  have hg := (good_run hr).overhead
  cases a <;> simp only [response, reduceCtorEq, Option.some.injEq] at hres
  subst hres
  simp only [State.generate, ← h1, ← h2, ← h3]
  refine ⟨trivial, trivial, trivial, ?_, ?_, ?_⟩ <;> omega

/-! ## Examples, and what goes wrong -/

/-- Thread 1 enters scope 10, in it scope 20 twice; thread 2 enters scope 10.  Newest first. -/
def example1 : List Act :=
  [ .enter 2 10 80 81 82 83,
    .leave 1 69 70 71 72,
    .enter 1 20 59 60 61 62,
    .leave 1 49 50 51 52,
    .enter 1 20 29 30 31 32,
    .enter 1 10 9 10 11 12 ]

/-- The hypotheses are met: the calls are possible, and the numbers are what one expects. -/
theorem example1_reported :
    ((run example1).bind fun s => (response s (.report 3 99 100 101 102 103 104 105)).map fun r =>
      (((r.thread 1).map fun tr => (tr.us, tr.sub)), ((r.thread 2).map fun tr => (tr.us, tr.sub)),
       (r.thread 3).map fun tr => (tr.us, tr.sub))) =
    some (some (92, .cons 10 1 93 (.cons 20 2 30 .nil .nil) .nil),
          some (21, .cons 10 1 22 .nil .nil), some (2, .nil)) ∧
    ((run example1).bind fun s => (step s (.report 3 99 100 101 102 103 104 105)).map fun s' =>
      s'.clock) = some 105 := by
  constructor <;> decide +kernel

/-- **The first scope of a thread exceeds the thread**: thread 1 entered scope 10 with its first
call and is still inside: the report gives the scope more time than the whole thread, so the
assertion of profiler.h 167 fails and the reported ratio is more than one.  (The record of the
thread is created after the time of the call has been read off the clock.) -/
theorem root_children_exceed :
    ((run [.enter 1 10 9 10 11 12]).bind fun s => (s.th 1).map fun pt =>
      (pt.rootSumOK 100, (pt.report 100).us, usAt (pt.report 100).sub [10])) =
    some (false, 89, 90) := by decide +kernel

/-- **After a reset a scope which was not being visited has one entry too many**: scope 10 is
entered and left, the profiler is reset, and a report says that scope 10 was entered once, in no
time; when it is entered again, twice. -/
theorem entries_wrong_after_reset :
    ((run [.reset 2 29 30 31 (fun _ => 32) 33, .leave 1 19 20 21 22, .enter 1 10 9 10 11 12]).bind
      fun s => (s.th 1).map fun pt => (pt.report 40).sub.look [10]) = some (some (1, 0)) ∧
    visits (hist [.reset 2 29 30 31 (fun _ => 32) 33, .leave 1 19 20 21 22,
      .enter 1 10 9 10 11 12] 1) [10] = 0 ∧
    ((run [.enter 1 10 39 40 41 42, .reset 2 29 30 31 (fun _ => 32) 33, .leave 1 19 20 21 22,
      .enter 1 10 9 10 11 12]).bind
      fun s => (s.th 1).map fun pt => (pt.report 50).sub.look [10]) = some (some (2, 10)) := by
  refine ⟨?_, ?_, ?_⟩ <;> decide +kernel

end Current.Profiler
