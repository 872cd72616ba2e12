import Verif.MMPQ.Inv
/-!
Properties C17 and C18 of the priority queue. `s.log` is the history of everything observable, in order.
-/
namespace Current.MMPQ
open Current.Persist (IdxTs)
variable {M : Type}

/-- A concrete history used below: two messages published out of order, the head moved past both, both delivered. -/
def demo : List (Act Nat) := [.publish 7 20, .publish 8 10, .updateHead 30, .consume, .consume, .consume]
theorem demo_runs : ∃ s, run init demo = some s ∧ s.cons = .asleep ∧
    s.log = [.published 7 ⟨1, 20⟩ ⟨1, -1⟩, .published 8 ⟨2, 10⟩ ⟨2, -1⟩, .headSet 30,
             .delivered 8 ⟨2, 10⟩ ⟨2, 30⟩, .delivered 7 ⟨1, 20⟩ ⟨2, 30⟩] := ⟨_, rfl, rfl, rfl⟩

/-- C17. Whatever is delivered was published before with the same index and timestamp, its timestamp is not above the
head, which is the largest (last) head set so far, it comes with the number of messages published so far, and it is
delivered only once. -/
theorem delivery_is_due_and_unique {s : State M} (hs : Reachable s) {l1 l2 : List (Event M)} {m : M} {i last : IdxTs}
    (h : s.log = l1 ++ .delivered m i last :: l2) :
    (∃ r, Event.published m i r ∈ l1) ∧
    i.us ≤ last.us ∧
    ((last.us = -1 ∧ ∀ u, Event.headSet u ∉ l1) ∨ Event.headSet last.us ∈ l1) ∧ (∀ u, Event.headSet u ∈ l1 → u ≤ last.us) ∧
    last.index = (l1.filter (fun e => match e with | .published _ _ _ => true | _ => false)).length ∧
    (∀ m' i' last', Event.delivered m' i' last' ∈ l1 ++ l2 → i'.index ≠ i.index) := by
  have inv := hs.inv
  obtain ⟨h1, h2, h3, h4, h5⟩ := inv.deliv _ _ _ _ _ h
  refine ⟨h1, h2, ?_, h3, ?_, ?_⟩
  · rcases h4 with h4 | h4
    · by_cases hx : ∃ u, Event.headSet u ∈ l1
      · obtain ⟨u, hu⟩ := hx
        -- a head that was set is at least 0
        have : ∀ (as : List (Act M)) (s s' : State M), run s as = some s' →
            (-1 ≤ s.last.us ∧ ∀ u, Event.headSet u ∈ s.log → 0 ≤ u) →
            (-1 ≤ s'.last.us ∧ ∀ u, Event.headSet u ∈ s'.log → 0 ≤ u) := by
          intro as
          induction as with
          | nil => intro s s' hr hh; simp [run] at hr; subst hr; exact hh
          | cons a as ih =>
            intro s s' hr hh
            simp only [run] at hr
            split at hr
            · rename_i s1 h1
              refine ih s1 s' hr ?_
              cases a with
              | publish m us => simp [step, State.publish] at h1; subst h1; simpa using hh
              | updateHead us =>
                simp only [step, State.updateHead] at h1
                split at h1
                · cases h1; simpa using hh
                · cases h1
                  dsimp only
                  refine ⟨by omega, fun u hu => ?_⟩
                  rcases List.mem_append.1 hu with hu | hu
                  · exact hh.2 u hu
                  · have : u = us := by simpa using hu
                    omega
              | consume =>
                simp only [step] at h1
                split at h1
                · cases h1
                  unfold State.consume
                  split
                  · exact hh
                  · split
                    · exact hh
                    · split
                      · simpa using hh
                      · exact hh
                · cases h1
              | spurious =>
                simp only [step] at h1
                split at h1
                · cases h1; exact hh
                · cases h1
              | destruct =>
                simp only [step] at h1
                split at h1
                · cases h1
                · cases h1; simpa using hh
            · cases hr
        obtain ⟨as, hr⟩ := hs
        have hh := (this as _ _ hr (by simp [init])).2 u (by rw [h]; simp [hu])
        have := h3 u hu
        omega
      · exact Or.inl ⟨h4, fun u hu => hx ⟨u, hu⟩⟩
    · exact Or.inr h4
  · rw [h5]
    clear h h1 h2 h3 h4 h5
    induction l1 with
    | nil => rfl
    | cons x l ih => cases x <;> simp [pubIdx, ih]
  · intro m' i' last' hm
    rcases List.mem_append.1 hm with hm | hm
    · exact inv.once' _ _ _ _ _ h m' i' last' hm
    · obtain ⟨a, b, rfl⟩ := List.append_of_mem hm
      have := inv.once' (l1 ++ .delivered m i last :: a) m' i' last' b (by simp [h]) m i last (by simp)
      exact fun e => this e.symm

example : ∃ s : State Nat, Reachable s ∧ ∃ l1 l2, s.log = l1 ++ .delivered 8 ⟨2, 10⟩ ⟨2, 30⟩ :: l2 := by
  obtain ⟨s, h1, _, h2⟩ := demo_runs
  exact ⟨s, ⟨_, h1⟩, [.published 7 ⟨1, 20⟩ ⟨1, -1⟩, .published 8 ⟨2, 10⟩ ⟨2, -1⟩, .headSet 30],
    [.delivered 7 ⟨1, 20⟩ ⟨2, 30⟩], h2⟩

/-- C17, the order, in every history: of two deliveries the later one has the strictly larger timestamp, unless its
message was published only after the first delivery.
Missing from the full property: `late_publication_breaks_order`. -/
theorem delivery_order_partial {s : State M} (hs : Reachable s) {l1 l2 l3 : List (Event M)} {m m' : M}
    {i last i' last' : IdxTs} (h : s.log = l1 ++ .delivered m i last :: l2 ++ .delivered m' i' last' :: l3)
    (hp : ∀ r, Event.published m' i' r ∉ l2) : i.us < i'.us := by
  rcases hs.inv.order' _ _ _ _ _ _ _ _ _ h with h | ⟨r, hr⟩
  · exact h
  · exact absurd hr (hp r)

example : ∃ s : State Nat, Reachable s ∧ ∃ l1 l2 l3, s.log = l1 ++ .delivered 8 ⟨2, 10⟩ ⟨2, 30⟩ :: l2 ++
    .delivered 7 ⟨1, 20⟩ ⟨2, 30⟩ :: l3 ∧ ∀ r, Event.published 7 ⟨1, 20⟩ r ∉ l2 := by
  obtain ⟨s, h1, _, h2⟩ := demo_runs
  exact ⟨s, ⟨_, h1⟩, [.published 7 ⟨1, 20⟩ ⟨1, -1⟩, .published 8 ⟨2, 10⟩ ⟨2, -1⟩, .headSet 30], [], [], h2, by simp⟩

/-- C17, the order, for users who never publish at or below the head: then all deliveries of the whole history are in
strictly increasing order of timestamps. -/
theorem delivery_order_if_published_ahead {s : State M} (hs : Reachable s)
    (hahead : ∀ l1 m i r l2, s.log = l1 ++ .published m i r :: l2 → -1 < i.us ∧ ∀ u, Event.headSet u ∈ l1 → u < i.us)
    {l1 l2 l3 : List (Event M)} {m m' : M} {i last i' last' : IdxTs}
    (h : s.log = l1 ++ .delivered m i last :: l2 ++ .delivered m' i' last' :: l3) : i.us < i'.us := by
  rcases hs.inv.order' _ _ _ _ _ _ _ _ _ h with h' | ⟨r, hr⟩
  · exact h'
  · obtain ⟨a, b, rfl⟩ := List.append_of_mem hr
    have h1 := hahead (l1 ++ .delivered m i last :: a) m' i' r (b ++ .delivered m' i' last' :: l3) (by simp [h])
    have h2 := hs.inv.deliv l1 m i last _ (by rw [h, List.append_assoc]; rfl)
    rcases h2.2.2.2.1 with h3 | h3
    · have := h1.1; have := h2.2.1; omega
    · have := h1.2 _ (List.mem_append_left _ h3); have := h2.2.1; omega

example : ∃ s : State Nat, Reachable s ∧
    (∀ l1 m i r l2, s.log = l1 ++ .published m i r :: l2 → -1 < i.us ∧ ∀ u, Event.headSet u ∈ l1 → u < i.us) ∧
    ∃ l1 l2 l3, s.log = l1 ++ .delivered 7 ⟨1, 20⟩ ⟨1, 30⟩ :: l2 ++ .delivered 8 ⟨2, 40⟩ ⟨2, 50⟩ :: l3 := by
  have h : ∃ s : State Nat, run init [.publish 7 20, .updateHead 30, .consume, .publish 8 40, .updateHead 50, .consume] = some s ∧
    s.log = [.published 7 ⟨1, 20⟩ ⟨1, -1⟩, .headSet 30, .delivered 7 ⟨1, 20⟩ ⟨1, 30⟩, .published 8 ⟨2, 40⟩ ⟨2, 30⟩, .headSet 50,
      .delivered 8 ⟨2, 40⟩ ⟨2, 50⟩] := ⟨_, rfl, rfl⟩
  obtain ⟨s, h1, h2⟩ := h
  refine ⟨s, ⟨_, h1⟩, ?_, [.published 7 ⟨1, 20⟩ ⟨1, -1⟩, .headSet 30], [.published 8 ⟨2, 40⟩ ⟨2, 30⟩, .headSet 50], [], h2⟩
  rw [h2]
  intro l1 m i r l2 e
  rcases l1 with _ | ⟨a, _ | ⟨b, _ | ⟨c, _ | ⟨d, _ | ⟨x, _ | ⟨y, l1⟩⟩⟩⟩⟩⟩ <;> simp at e
  · obtain ⟨⟨rfl, rfl, rfl⟩, _⟩ := e; simp
  · obtain ⟨rfl, rfl, rfl, ⟨rfl, rfl, rfl⟩, _⟩ := e; simp

/-- The full property C17 (timestamp order while the head stays the same) is false of the code: a message published at
or below the head is accepted and delivered after a later one. -/
theorem late_publication_breaks_order :
    ∃ s : State Nat, Reachable s ∧
      s.log = [.headSet 30, .published 7 ⟨1, 20⟩ ⟨1, 30⟩, .delivered 7 ⟨1, 20⟩ ⟨1, 30⟩,
               .published 8 ⟨2, 10⟩ ⟨2, 30⟩, .delivered 8 ⟨2, 10⟩ ⟨2, 30⟩] :=
  ⟨_, ⟨[.updateHead 30, .publish 7 20, .consume, .publish 8 10, .consume], rfl⟩, rfl⟩

/-- C17: `Publish` returns the index the message is stored and delivered with (the messages are numbered from 1 in the
order of the calls), but the timestamp in the returned value is the current head, not the message's. -/
theorem publish_returns_own_index {s : State M} (hs : Reachable s) {l1 l2 : List (Event M)} {m : M} {i r : IdxTs}
    (h : s.log = l1 ++ .published m i r :: l2) :
    r.index = i.index ∧
    i.index = (l1.filter (fun e => match e with | .published _ _ _ => true | _ => false)).length + 1 ∧
    (r.us = -1 ∨ Event.headSet r.us ∈ l1) ∧ ∀ u, Event.headSet u ∈ l1 → u ≤ r.us := by
  have inv := hs.inv
  obtain ⟨h1, h2, h3⟩ := inv.ret _ _ _ _ _ h
  refine ⟨h1, ?_, h3, h2⟩
  have hl : (l1.filter (fun e => match e with | .published _ _ _ => true | _ => false)).length = (pubIdx l1).length := by
    clear h h1 h2 h3
    induction l1 with
    | nil => rfl
    | cons x l ih => cases x <;> simp [pubIdx, ih]
  have hi := inv.idx
  rw [h, pubIdx_append] at hi
  have hg : (List.range' 1 s.last.index)[(pubIdx l1).length]? = some i.index := by
    rw [← hi]; simp [pubIdx]
  rw [List.getElem?_eq_some_iff] at hg
  obtain ⟨_, hg⟩ := hg
  simp at hg
  omega

example : ∃ s : State Nat, Reachable s ∧ ∃ l1 l2, s.log = l1 ++ .published 8 ⟨2, 10⟩ ⟨2, -1⟩ :: l2 := by
  obtain ⟨s, h1, _, h2⟩ := demo_runs
  exact ⟨s, ⟨_, h1⟩, [.published 7 ⟨1, 20⟩ ⟨1, -1⟩], _, h2⟩

/-- C18: whenever the consumer thread waits (and the queue is not being destroyed), every message published with a
timestamp not above the head has been delivered, unless at the time it was published another message with the same
timestamp had been published and not been delivered yet.
Missing from the full property: that exception, see `equal_timestamp_is_never_delivered`. -/
theorem waiting_means_delivered_partial {s : State M} (hs : Reachable s) (hw : s.cons = .asleep)
    {l1 l2 : List (Event M)} {m : M} {i r : IdxTs} (h : s.log = l1 ++ .published m i r :: l2)
    (hdue : ∃ u, Event.headSet u ∈ s.log ∧ i.us ≤ u)
    (hdistinct : ∀ m' i' r', Event.published m' i' r' ∈ l1 → i'.us = i.us → ∃ last, Event.delivered m' i' last ∈ l1) :
    ∃ last, Event.delivered m i last ∈ l2 := by
  have inv := hs.inv
  rcases inv.lost _ _ _ _ _ h with hq | hd | ⟨m', i', r', h1, h2, h3⟩
  · have := (inv.sleep hw).2 _ hq
    obtain ⟨u, hu, hle⟩ := hdue
    have := inv.heads.1 u hu
    simp only at *
    omega
  · exact hd
  · obtain ⟨last, hl⟩ := hdistinct _ _ _ h1 h2
    exact absurd hl (h3 last)

example : ∃ s : State Nat, Reachable s ∧ s.cons = .asleep ∧ ∃ l1 l2, s.log = l1 ++ .published 8 ⟨2, 10⟩ ⟨2, -1⟩ :: l2 ∧
    (∃ u, Event.headSet u ∈ s.log ∧ 10 ≤ u) ∧
    (∀ m' i' r', Event.published m' i' r' ∈ l1 → i'.us = 10 → ∃ last, Event.delivered m' i' last ∈ l1) := by
  obtain ⟨s, h1, h3, h2⟩ := demo_runs
  refine ⟨s, ⟨_, h1⟩, h3, [.published 7 ⟨1, 20⟩ ⟨1, -1⟩], _, h2, ⟨30, by simp [h2]⟩, ?_⟩
  intro m' i' r' hm he
  simp at hm
  obtain ⟨_, rfl, _⟩ := hm
  simp at he

/-- The queue does not wait forever: a consumer that does not sleep and has not returned can always take a step, and
without other calls it sleeps or has returned after at most one step more than there are queued messages. -/
theorem consumer_catches_up (n : Nat) {s : State M} (hs : s.queue.length ≤ n) (hc : s.cons = .awake) :
    ∃ k ≤ n + 1, ∃ s', run s (List.replicate k .consume) = some s' ∧ (s'.cons = .asleep ∨ s'.cons = .terminated) := by
  induction n generalizing s with
  | zero =>
    refine ⟨1, by omega, s.consume, by simp [run, step, hc], ?_⟩
    unfold State.consume
    have : s.queue = [] := List.length_eq_zero_iff.1 (by omega)
    split
    · exact Or.inr rfl
    · simp [this]
  | succ n ih =>
    by_cases hd : s.destructing = true
    · exact ⟨1, by omega, s.consume, by simp [run, step, hc], by simp [State.consume, hd]⟩
    · cases hq : s.queue with
      | nil => exact ⟨1, by omega, s.consume, by simp [run, step, hc], by simp [State.consume, hd, hq]⟩
      | cons e rest =>
        by_cases hle : e.2.us ≤ s.last.us
        · have hcs : s.consume = { s with queue := rest, log := s.log ++ [.delivered e.1 e.2 s.last] } := by
            simp [State.consume, hd, hq, hle]
          obtain ⟨k, hk, s', h1, h2⟩ := ih (s := s.consume) (by rw [hcs]; rw [hq] at hs; simpa using hs) (by rw [hcs]; exact hc)
          refine ⟨k + 1, by omega, s', ?_, h2⟩
          rw [List.replicate_succ]
          simp [run, step, hc, h1]
        · exact ⟨1, by omega, s.consume, by simp [run, step, hc], by simp [State.consume, hd, hq, hle]⟩

/-- The exception in C18 is a real loss: a message published while the only other one with the same timestamp is not delivered yet gets
an index like any other, and is never delivered, whatever happens later. -/
theorem equal_timestamp_is_never_delivered {s s' : State M} (hs : Reachable s) {m : M} {us : Int}
    {m0 : M} {i0 r0 : IdxTs} (hp : Event.published m0 i0 r0 ∈ s.log) (hu : i0.us = us)
    (hone : ∀ m' i' r', Event.published m' i' r' ∈ s.log → i'.us = us → i'.index = i0.index)
    (hnd : ∀ last, Event.delivered m0 i0 last ∉ s.log)
    (as : List (Act M)) (hr : run (s.publish m us) as = some s') :
    Event.published m ⟨s.last.index + 1, us⟩ ⟨s.last.index + 1, s.last.us⟩ ∈ s'.log ∧
    ∀ m' last, Event.delivered m' ⟨s.last.index + 1, us⟩ last ∉ s'.log := by
  have inv := hs.inv
  have hpend : (m0, i0) ∈ s.queue := by
    obtain ⟨a, b, hab⟩ := List.append_of_mem hp
    rcases inv.lost _ _ _ _ _ hab with h | ⟨last, h⟩ | ⟨m', i', r', h1, h2, _⟩
    · exact h
    · exact absurd (by rw [hab]; simp [h]) (hnd last)
    · have h3 := hone m' i' r' (by rw [hab]; simp [h1]) (h2.trans hu)
      have hi := inv.idx
      rw [hab, pubIdx_append] at hi
      have hn : (pubIdx a ++ pubIdx (.published m0 i0 r0 :: b)).Nodup := by rw [hi]; exact List.nodup_range'
      rw [List.nodup_append] at hn
      exact absurd h3 (hn.2.2 _ (mem_pubIdx h1) _ (by simp [pubIdx]))
  -- invariant: index `k` was given out, is not queued and not delivered
  let P (k : Nat) (x : Event M) (t : State M) : Prop :=
    k ≤ t.last.index ∧ (∀ e ∈ t.queue, e.2.index ≠ k) ∧ (∀ m' i' last, Event.delivered m' i' last ∈ t.log → i'.index ≠ k) ∧ x ∈ t.log
  have hem : ∀ (e : M × IdxTs) (q : List (M × IdxTs)), Sorted q → (∃ x ∈ q, x.2.us = e.2.us) → emplace e q = q := by
    intro e q
    induction q with
    | nil => simp
    | cons a q ih =>
      intro hsq hx
      have hh := List.pairwise_cons.1 hsq
      obtain ⟨x, hx, he⟩ := hx
      simp only [emplace]
      rcases List.mem_cons.1 hx with rfl | hx
      · simp [he]
      · have h1 := hh.1 x hx
        have : ¬ e.2.us < a.2.us := by omega
        have h2 : a.2.us < e.2.us := by omega
        simp [this, h2, ih hh.2 ⟨x, hx, he⟩]
  have hstep : ∀ k x (t t' : State M) a, P k x t → step t a = some t' → P k x t' := by
    intro k x t t' a ⟨h1, h2, h3, h4⟩ ht
    cases a with
    | publish m us =>
      simp [step, State.publish] at ht; subst ht
      refine ⟨by simp; omega, ?_, ?_, by simp [h4]⟩
      · intro e he
        rcases mem_emplace he with rfl | he
        · simp; omega
        · exact h2 e he
      · intro m' i' last hm
        exact h3 m' i' last (by simpa using hm)
    | updateHead us =>
      simp only [step, State.updateHead] at ht
      split at ht <;> cases ht
      · exact ⟨h1, h2, fun m' i' last hm => h3 m' i' last (by simpa using hm), by simp [h4]⟩
      · exact ⟨h1, h2, fun m' i' last hm => h3 m' i' last (by simpa using hm), by simp [h4]⟩
    | consume =>
      simp only [step] at ht
      split at ht
      · cases ht
        unfold State.consume
        split
        · exact ⟨h1, h2, h3, h4⟩
        · split
          · exact ⟨h1, h2, h3, h4⟩
          · rename_i e rest hq
            split
            · refine ⟨h1, fun e' he' => h2 e' (by rw [hq]; simp [he']), ?_, by simp [h4]⟩
              intro m' i' last hm
              rcases List.mem_append.1 hm with hm | hm
              · exact h3 _ _ _ hm
              · have hm := List.mem_singleton.1 hm
                cases hm
                exact h2 e (by rw [hq]; simp)
            · exact ⟨h1, h2, h3, h4⟩
      · cases ht
    | spurious =>
      simp only [step] at ht
      split at ht
      · cases ht; exact ⟨h1, h2, h3, h4⟩
      · cases ht
    | destruct =>
      simp only [step] at ht
      split at ht
      · cases ht
      · cases ht
        exact ⟨h1, h2, fun m' i' last hm => h3 m' i' last (by simpa using hm), by simp [h4]⟩
  have hrun : ∀ k x as (t t' : State M), P k x t → run t as = some t' → P k x t' := by
    intro k x as
    induction as with
    | nil => intro t t' h hr; simp [run] at hr; subst hr; exact h
    | cons a as ih =>
      intro t t' h hr
      simp only [run] at hr
      split at hr
      · rename_i t1 h1; exact ih _ _ (hstep _ _ _ _ _ h h1) hr
      · cases hr
  have hle : ∀ m' i' r', Event.published m' i' r' ∈ s.log → i'.index ≤ s.last.index := by
    intro m' i' r' h
    have := mem_pubIdx h
    rw [inv.idx, List.mem_range'_1] at this
    omega
  have h0 : P (s.last.index + 1) (.published m ⟨s.last.index + 1, us⟩ ⟨s.last.index + 1, s.last.us⟩) (s.publish m us) := by
    refine ⟨Nat.le_refl _, ?_, ?_, by simp [State.publish]⟩
    · intro e he
      simp only [State.publish] at he
      rw [hem _ _ inv.sorted ⟨_, hpend, hu⟩] at he
      obtain ⟨r, hr⟩ := inv.queued e he
      have := hle _ _ _ hr
      omega
    · intro m' i' last hm
      have hm : Event.delivered m' i' last ∈ s.log := by simpa [State.publish] using hm
      obtain ⟨a, b, hab⟩ := List.append_of_mem hm
      obtain ⟨⟨r, hr⟩, _⟩ := inv.deliv _ _ _ _ _ hab
      have := hle m' i' r (by rw [hab]; simp [hr])
      omega
  have hfin := hrun _ _ as _ _ h0 hr
  exact ⟨hfin.2.2.2, fun m' last hd => hfin.2.2.1 _ _ _ hd rfl⟩

example : ∃ s s' : State Nat, Reachable s ∧ Event.published 7 ⟨1, 20⟩ ⟨1, -1⟩ ∈ s.log ∧
    (∀ m' i' r', Event.published m' i' r' ∈ s.log → i'.us = 20 → i'.index = 1) ∧
    (∀ last, Event.delivered 7 ⟨1, 20⟩ last ∉ s.log) ∧
    run (s.publish 8 20) [.updateHead 30, .consume, .consume] = some s' := by
  refine ⟨_, _, ⟨[.publish 7 20], rfl⟩, by decide, ?_, ?_, rfl⟩
  · intro m' i' r' h
    have h : Event.published m' i' r' ∈ [Event.published 7 ⟨1, 20⟩ ⟨1, -1⟩] := h
    simp at h
    simp [h]
  · intro last h
    have h : Event.delivered 7 ⟨1, 20⟩ last ∈ [Event.published 7 ⟨1, 20⟩ ⟨1, -1⟩] := h
    simp at h

/-- Destruction: after the destructor began nothing is delivered any more, and what is queued then is lost (contrary
to the comment at `mmpq.h:60`), even when it is due; the consumer thread does return. -/
theorem destruction_delivers_nothing {s : State M} (hs : Reachable s) :
    (∀ l1 l2, s.log = l1 ++ .destructing :: l2 → ∀ m i last, Event.delivered m i last ∉ l2) ∧
    (Event.destructing ∈ s.log → s.cons ≠ .terminated → ∃ s', step s .consume = some s' ∧ s'.cons = .terminated) := by
  refine ⟨hs.inv.nodel, fun hd ht => ?_⟩
  have hd := hs.inv.destr.2 hd
  cases hc : s.cons with
  | asleep => have := (hs.inv.sleep hc).1; simp [hd] at this
  | terminated => exact absurd hc ht
  | awake => exact ⟨s.consume, by simp [step, hc], by simp [State.consume, hd]⟩

theorem destruction_loses_due_messages :
    ∃ s : State Nat, Reachable s ∧ s.cons = .terminated ∧
      s.log = [.published 7 ⟨1, 20⟩ ⟨1, -1⟩, .headSet 30, .destructing] :=
  ⟨_, ⟨[.publish 7 20, .updateHead 30, .destruct, .consume], rfl⟩, rfl, rfl⟩

end Current.MMPQ
