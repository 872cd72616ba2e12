import Verif.Stream.Inv2
/-!
Properties C19–C23 and C48 of a stream subscriber. `s.log` is the sequence of all calls the subscriber received;
`s.mem.all` is the list of all entries of the stream (index and timestamp, entry), whose meaning is property C01.
-/
namespace Current.Stream
open Current.Persist
variable {E : Type}

/-- The entries among the calls. -/
def entriesOf (log : List (Ev E)) : List (IdxTs × E) :=
  log.filterMap fun ev => match ev with | .entry i e _ _ => some (i, e) | _ => none

/-- The timestamps of the entries and of the head notifications among the calls, in order. -/
def timesOf (log : List (Ev E)) : List Int :=
  log.filterMap fun ev => match ev with | .entry i _ _ _ => some i.us | .head us _ => some us | _ => none

theorem entriesOf_eq (log : List (Ev E)) : entriesOf log = passed log := by
  induction log with
  | nil => rfl
  | cons x l ih =>
    unfold entriesOf at ih ⊢
    cases x <;> simp [passed, ih]

theorem timesOf_eq (log : List (Ev E)) : timesOf log = stamps log := by
  induction log with
  | nil => rfl
  | cons x l ih =>
    unfold timesOf at ih ⊢
    cases x <;> simp [stamps, ih]

/-! ### Concrete runs used for the non-vacuity examples -/

def demoCodec : Codec Nat := ⟨fun _ => [], fun _ => none, fun _ => [], fun _ => none⟩
/-- Subscribe to everything from index 1; the entry type filter keeps even numbers. -/
def demoParams (sel : Nat → Bool) : Params Nat := ⟨1, 0, sel, demoCodec⟩
/-- Three entries, one of them published while the subscriber is at work, and a head update. -/
def demoActs : List (Act Nat) :=
  [.call (.publish 10 100), .call (.publish 21 200), .thread .more true, .thread .more true, .call (.publish 30 300),
   .thread .more true, .thread .more true, .thread .more true, .thread .more true, .call (.updateHead 400)] ++
  List.replicate 12 (.thread .more true)
theorem demo_runs : ∃ s, run (demoParams fun _ => true) (St.init (demoParams fun _ => true) Mem.init) demoActs = some s ∧
    s.log = [.entry ⟨1, 200⟩ 21 ⟨2, 300⟩ .more, .entry ⟨2, 300⟩ 30 ⟨2, 300⟩ .more, .head 400 .more] ∧ s.pc = .waiting := ⟨_, rfl, rfl, rfl⟩
theorem demo_filtered_runs : ∃ s, run (demoParams fun n => n % 2 == 0) (St.init (demoParams fun n => n % 2 == 0) Mem.init) demoActs = some s ∧
    s.log = [.entry ⟨2, 300⟩ 30 ⟨2, 300⟩ .more, .head 400 .more] := ⟨_, rfl, rfl⟩

/-! ### C19 -/

/-- C19 (and C23, for a type filter `sel`). In every interleaving of publishers and the subscriber thread, what the subscriber
has been passed so far is an initial segment of the stream's entries from `begin` on that pass the filter: no gap, no
repetition, no reordering, with true indexes and timestamps. -/
theorem subscriber_gets_matching_entries_in_order {p : Params E} {s : St E} (hs : Reachable p s) :
    entriesOf s.log <+: (s.mem.all.drop p.begin_).filter (fun x => p.sel x.2) := by
  obtain ⟨n, _, hb, _, h⟩ := hs.inv.pass
  rw [entriesOf_eq, h]
  refine List.IsPrefix.filter _ ?_
  unfold slice
  exact List.take_prefix _ _

/-- C19 for a subscription to the whole entry type. -/
theorem subscriber_gets_every_entry_once_in_order {p : Params E} {s : St E} (hs : Reachable p s) (hsel : ∀ e, p.sel e = true) :
    entriesOf s.log <+: s.mem.all.drop p.begin_ := by
  have := subscriber_gets_matching_entries_in_order hs
  rwa [List.filter_eq_self.2 (fun x _ => hsel x.2)] at this

example : ∃ s : St Nat, Reachable (demoParams fun _ => true) s ∧ entriesOf s.log = [(⟨1, 200⟩, 21), (⟨2, 300⟩, 30)] := by
  obtain ⟨s, h, h', _⟩ := demo_runs
  exact ⟨s, ⟨[], _, h⟩, by rw [h']; rfl⟩

/-- C19: an entry is passed together with the index and timestamp of the last entry published at that moment, and the thread
never dies of an exception or an assertion. -/
theorem last_is_current {p : Params E} {s s' : St E} (hs : Reachable p s) (a : Act E) (hstep : step p s a = some s') :
    s'.pc ≠ .crashed ∧
    ∀ i e last r, s'.log = s.log ++ [.entry i e last r] →
      s.mem.all.getLast?.map (·.1) = some last ∧ i.index ≤ last.index := by
  refine ⟨?_, ?_⟩
  · intro hc
    have := (hs.step a hstep).inv.pcOk
    simp [PcOk, hc] at this
  · intro i e last r hl
    have hno : ∀ (P : Prop), s.log = s.log ++ [Ev.entry i e last r] → P := fun P h => by simp at h
    have hno' : ∀ (P : Prop) (ev : Ev E), s.log ++ [ev] = s.log ++ [Ev.entry i e last r] → ev.data = false ∨ (∀ a b c d, ev ≠ .entry a b c d) → P := by
      intro P ev h hd
      have := List.append_cancel_left h
      simp at this
      subst this
      rcases hd with hd | hd
      · simp [Ev.data] at hd
      · exact absurd rfl (hd _ _ _ _)
    cases a with
    | call c => cases hstep; exact hno _ hl
    | signal => cases hstep; exact hno _ hl
    | thread r' w =>
      have hpc := hs.inv.pcOk
      unfold PcOk at hpc
      simp only [step] at hstep
      unfold St.thread at hstep
      split at hstep
      · repeat' split at hstep
        all_goals cases hstep
        all_goals first | exact hno _ hl | exact hno' _ _ hl (Or.inl rfl)
      · repeat' split at hstep
        all_goals cases hstep
        all_goals exact hno _ hl
      · repeat' split at hstep
        all_goals cases hstep
        all_goals exact hno _ hl
      · repeat' split at hstep
        all_goals cases hstep
        all_goals exact hno _ hl
      · repeat' split at hstep
        all_goals cases hstep
        all_goals first | exact hno _ hl | exact hno' _ _ hl (Or.inl rfl)
      · rename_i i' e' n x v hq
        simp only [hq] at hpc
        obtain ⟨hlt, hxi⟩ := deref_lt hpc.2.2.2.2.2
        obtain ⟨last', lv, hl', hld⟩ := lastPublished_ok hs.inv.mem (by omega)
        have hli := (deref_lt hld).2
        rw [hl'] at hstep
        dsimp only at hstep
        split at hstep
        · cases hstep
          have := List.append_cancel_left hl
          simp at this
          obtain ⟨rfl, rfl, rfl, rfl⟩ := this
          refine ⟨?_, by omega⟩
          rw [List.getLast?_eq_getElem?, Mem.all_getElem?, Mem.all_length, hld]
          rfl
        · repeat' split at hstep
          all_goals cases hstep
          all_goals first | exact hno _ hl | exact hno' _ _ hl (Or.inr (by simp))
      · repeat' split at hstep
        all_goals cases hstep
        all_goals first | exact hno _ hl | exact hno' _ _ hl (Or.inr (by simp))
      · repeat' split at hstep
        all_goals cases hstep
        all_goals exact hno _ hl
      · cases hstep
      · cases hstep

/-! ### C20 -/

/-- C20. Entries and head notifications come in strictly increasing order of time, all of them taken together: a head
notification is above everything passed before it and below everything passed after it. -/
theorem heads_and_entries_are_ordered {p : Params E} {s : St E} (hs : Reachable p s) :
    (timesOf s.log).Pairwise (· < ·) := by
  rw [timesOf_eq]; exact hs.inv.ord

/-- C20: a head notification is never ahead of the stream, and no entry can ever be passed (or even be published)
below it later. -/
theorem head_is_final {p : Params E} {s : St E} (hs : Reachable p s) (us : Int) (r : Resp) (h : Ev.head us r ∈ s.log) :
    us ≤ s.mem.head ∧ ∀ as s', run p s as = some s' → ∀ x ∈ s'.mem.all, x.1.index ≥ s.mem.entries.length → us < x.1.us := by
  have hst : us ∈ stamps s.log := by
    rw [← timesOf_eq]
    exact List.mem_filterMap.2 ⟨_, h, rfl⟩
  have hb := hs.inv.bound us hst
  refine ⟨hb, ?_⟩
  intro as
  -- invariant: nothing at or after `s.mem.entries.length` is at or below `us`
  have key : ∀ (as : List (Act E)) (t t' : St E), run p t as = some t' → us ≤ t.mem.head →
      (∀ i x v, s.mem.entries.length ≤ i → t.mem.deref i = some (x, v) → us < x.us) → s.mem.entries.length ≤ t.mem.entries.length →
      ∀ i x v, s.mem.entries.length ≤ i → t'.mem.deref i = some (x, v) → us < x.us := by
    intro as
    induction as with
    | nil => intro t t' hr _ hk _; simp [run] at hr; subst hr; exact hk
    | cons a as ih =>
      intro t t' hr hu hk hlen
      simp only [run] at hr
      split at hr
      · rename_i t1 h1
        cases a with
        | call c =>
          cases h1
          have hl := call_length p.codec t.mem c
          have hh := call_head p.codec t.mem c
          refine ih _ _ hr (by dsimp only; omega) ?_ (by dsimp only; omega)
          intro i x v hi hd
          by_cases hlt : i < t.mem.entries.length
          · rw [call_deref _ _ _ i hlt] at hd; exact hk i x v hi hd
          · have := call_new _ _ _ i x v (by omega) hd; omega
        | signal => cases h1; exact ih _ _ hr hu hk hlen
        | thread r w =>
          have hm : t1.mem = t.mem := by
            simp only [step] at h1
            unfold St.thread at h1
            repeat' split at h1
            all_goals cases h1
            all_goals rfl
          exact ih _ _ hr (by rw [hm]; exact hu) (by rw [hm]; exact hk) (by rw [hm]; exact hlen)
      · cases hr
  intro s' hr x hx hi
  have := key as s s' hr hb (fun i x v hi hd => by have := (deref_lt hd).1; omega) (Nat.le_refl _)
  obtain ⟨i, hxi⟩ := List.mem_iff_getElem?.1 hx
  rw [Mem.all_getElem?] at hxi
  have h2 := (deref_lt (x := x.1) (v := x.2) hxi).2
  exact this i x.1 x.2 (by omega) hxi

example : ∃ s : St Nat, Reachable (demoParams fun _ => true) s ∧ timesOf s.log = [200, 300, 400] ∧ Ev.head 400 .more ∈ s.log := by
  obtain ⟨s, h, h', _⟩ := demo_runs
  exact ⟨s, ⟨[], _, h⟩, by rw [h']; rfl, by rw [h']; simp⟩

/-! ### C23 -/

/-- C23: entries that do not match are not passed (that is in `subscriber_gets_matching_entries_in_order`); for them the subscriber
is only ever asked whether it wants to go on when the entry was the last one of the stream at that moment. -/
theorem asked_only_at_the_end {p : Params E} {s s' : St E} (hs : Reachable p s) (a : Act E) (hstep : step p s a = some s')
    (i : IdxTs) (r : Resp) (hl : s'.log = s.log ++ [.noMore i r]) :
    ∃ e, s.mem.all.getLast? = some (i, e) ∧ p.sel e = false := by
  have hno : ∀ (P : Prop), s.log = s.log ++ [Ev.noMore i r] → P := fun P h => by simp at h
  have hno' : ∀ (P : Prop) (ev : Ev E), s.log ++ [ev] = s.log ++ [Ev.noMore i r] → (∀ a b, ev ≠ .noMore a b) → P := by
    intro P ev h hd
    have := List.append_cancel_left h
    simp at this
    exact absurd this (hd _ _)
  cases a with
  | call c => cases hstep; exact hno _ hl
  | signal => cases hstep; exact hno _ hl
  | thread r' w =>
    have hpc := hs.inv.pcOk
    unfold PcOk at hpc
    simp only [step] at hstep
    unfold St.thread at hstep
    split at hstep
    · repeat' split at hstep
      all_goals cases hstep
      all_goals first | exact hno _ hl | exact hno' _ _ hl (by simp)
    · repeat' split at hstep
      all_goals cases hstep
      all_goals exact hno _ hl
    · repeat' split at hstep
      all_goals cases hstep
      all_goals exact hno _ hl
    · repeat' split at hstep
      all_goals cases hstep
      all_goals exact hno _ hl
    · repeat' split at hstep
      all_goals cases hstep
      all_goals first | exact hno _ hl | exact hno' _ _ hl (by simp)
    · rename_i i' e' n x v hq
      simp only [hq] at hpc
      obtain ⟨hlt, hxi⟩ := deref_lt hpc.2.2.2.2.2
      obtain ⟨last', lv, hl', hld⟩ := lastPublished_ok hs.inv.mem (by omega)
      have hli := (deref_lt hld).2
      rw [hl'] at hstep
      dsimp only at hstep
      split at hstep
      · cases hstep; exact hno' _ _ hl (by simp)
      · rename_i hsel
        split at hstep
        · cases hstep; exact hno _ hl
        · split at hstep
          · cases hstep; exact hno _ hl
          · cases hstep
            have := List.append_cancel_left hl
            simp at this
            obtain ⟨rfl, rfl⟩ := this
            refine ⟨v, ?_, by simpa using hsel⟩
            have he : i' = s.mem.entries.length - 1 := by omega
            rw [List.getLast?_eq_getElem?, Mem.all_getElem?, Mem.all_length, ← he]
            exact hpc.2.2.2.2.2
    · repeat' split at hstep
      all_goals cases hstep
      all_goals first | exact hno _ hl | exact hno' _ _ hl (by simp)
    · repeat' split at hstep
      all_goals cases hstep
      all_goals exact hno _ hl
    · cases hstep
    · cases hstep

example : ∃ s s' : St Nat, Reachable (demoParams fun n => n % 2 == 0) s ∧
    step (demoParams fun n => n % 2 == 0) s (.thread .more true) = some s' ∧ s'.log = s.log ++ [.noMore ⟨1, 200⟩ .more] :=
  ⟨_, _, ⟨[.publish 10 100, .publish 21 200], List.replicate 5 (.thread .more true), rfl⟩, rfl, rfl⟩

/-! ### C48: termination -/

/-- C48: nothing is passed to a subscriber after it answered `Done`, or anything but `Wait` to `Terminate()`; the thread is over. -/
theorem nothing_after_done {p : Params E} {s : St E} (hs : Reachable p s) {l1 l2 : List (Ev E)} {ev : Ev E}
    (h : s.log = l1 ++ ev :: l2)
    (hfin : (∃ i e last, ev = .entry i e last .done) ∨ (∃ us, ev = .head us .done) ∨ (∃ i, ev = .noMore i .done) ∨
      ev = .terminate false) : l2 = [] ∧ ∀ r w, s.thread p r w = none := by
  have := hs.inv2.fin l1 ev l2 h (by rcases hfin with ⟨_, _, _, rfl⟩ | ⟨_, rfl⟩ | ⟨_, rfl⟩ | rfl <;> rfl)
  exact ⟨this.1, fun r w => by simp [St.thread, this.2]⟩

/-- C48: `Terminate()` is called at most once, and only after the scope was asked to end. -/
theorem terminate_at_most_once {p : Params E} {s : St E} (hs : Reachable p s) :
    (s.log.filter (fun ev => match ev with | .terminate _ => true | _ => false)).length ≤ 1 ∧
    ((∃ w, Ev.terminate w ∈ s.log) → s.term = true) := by
  have h := hs.inv2.once
  have he : (s.log.filter (fun ev => match ev with | .terminate _ => true | _ => false)).length = s.log.countP Ev.isTerminate := by
    rw [List.countP_eq_length_filter]
    congr 1
  refine ⟨by rw [he, h]; split <;> omega, ?_⟩
  rintro ⟨w, hw⟩
  have : 0 < s.log.countP Ev.isTerminate := List.countP_pos_iff.2 ⟨_, hw, rfl⟩
  rw [h] at this
  split at this
  · exact hs.inv2.sent ‹_›
  · omega

end Current.Stream
