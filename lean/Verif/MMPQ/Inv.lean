import Verif.MMPQ.Model
/-! Inductive invariants of the priority queue, over all schedules. -/
namespace Current.MMPQ
open Current.Persist (IdxTs)
variable {M : Type}

/-- Splitting a list that was just extended at one of its elements. -/
theorem split_snoc {α : Type} {l l1 l2 : List α} {x y : α} (h : l ++ [x] = l1 ++ y :: l2) :
    (l2 = [] ∧ y = x ∧ l1 = l) ∨ ∃ l2', l2 = l2' ++ [x] ∧ l = l1 ++ y :: l2' := by
  rcases List.eq_nil_or_concat l2 with rfl | ⟨l2', z, rfl⟩
  · have h' : l ++ [x] = l1 ++ [y] := h
    have := List.append_inj' h' rfl
    simp_all
  · have h' : l ++ [x] = (l1 ++ y :: l2') ++ [z] := by simp [h]
    have := List.append_inj' h' rfl
    simp_all

/-- Sorted by timestamp, strictly: what `std::set` maintains. -/
def Sorted (q : List (M × IdxTs)) : Prop := q.Pairwise (fun a b => a.2.us < b.2.us)

theorem mem_emplace {e x : M × IdxTs} {q : List (M × IdxTs)} (h : x ∈ emplace e q) : x = e ∨ x ∈ q := by
  induction q with
  | nil => simpa [emplace] using h
  | cons a q ih =>
    simp only [emplace] at h
    split at h
    · simpa using h
    · split at h
      · rcases List.mem_cons.1 h with h | h
        · exact Or.inr (by simp [h])
        · rcases ih h with h | h
          · exact Or.inl h
          · exact Or.inr (by simp [h])
      · exact Or.inr h

theorem emplace_keeps {e x : M × IdxTs} {q : List (M × IdxTs)} (h : x ∈ q) : x ∈ emplace e q := by
  induction q with
  | nil => simp at h
  | cons a q ih =>
    simp only [emplace]
    split
    · exact List.mem_cons_of_mem _ h
    · split
      · rcases List.mem_cons.1 h with h | h
        · simp [h]
        · simp [ih h]
      · exact h

/-- `emplace` inserts, or an equivalent element is there. -/
theorem emplace_inserts (e : M × IdxTs) (q : List (M × IdxTs)) : e ∈ emplace e q ∨ ∃ x ∈ q, x.2.us = e.2.us := by
  induction q with
  | nil => simp [emplace]
  | cons a q ih =>
    simp only [emplace]
    split
    · simp
    · split
      · rcases ih with h | ⟨x, hx, h⟩
        · exact Or.inl (by simp [h])
        · exact Or.inr ⟨x, by simp [hx], h⟩
      · exact Or.inr ⟨a, by simp, by omega⟩

theorem emplace_sorted {e : M × IdxTs} {q : List (M × IdxTs)} (h : Sorted q) : Sorted (emplace e q) := by
  induction q with
  | nil => simp [emplace, Sorted]
  | cons a q ih =>
    unfold Sorted at *
    have hh := List.pairwise_cons.1 h
    simp only [emplace]
    split
    · rename_i hlt
      refine List.pairwise_cons.2 ⟨?_, h⟩
      intro b hb
      rcases List.mem_cons.1 hb with rfl | hb
      · exact hlt
      · exact Int.lt_trans hlt (hh.1 b hb)
    · split
      · rename_i hlt
        refine List.pairwise_cons.2 ⟨?_, ih hh.2⟩
        intro b hb
        rcases mem_emplace hb with rfl | hb
        · exact hlt
        · exact hh.1 b hb
      · exact h

/-- Indices of the published messages, in order. -/
def pubIdx : List (Event M) → List Nat
  | [] => []
  | .published _ i _ :: l => i.index :: pubIdx l
  | _ :: l => pubIdx l

theorem pubIdx_append (a b : List (Event M)) : pubIdx (a ++ b) = pubIdx a ++ pubIdx b := by
  induction a with
  | nil => rfl
  | cons x a ih => cases x <;> simp [pubIdx, ih]

theorem mem_pubIdx {l : List (Event M)} {m : M} {i r : IdxTs} (h : Event.published m i r ∈ l) : i.index ∈ pubIdx l := by
  induction l with
  | nil => simp at h
  | cons x l ih =>
    rcases List.mem_cons.1 h with rfl | h'
    · simp [pubIdx]
    · have := ih h'
      cases x <;> simp [pubIdx, this]

/-- Heads set so far, all of them below or at the current one. -/
structure Inv (s : State M) : Prop where
  sorted : Sorted s.queue
  idx : pubIdx s.log = List.range' 1 s.last.index
  /-- every queued message was published -/
  queued : ∀ e ∈ s.queue, ∃ r, Event.published e.1 e.2 r ∈ s.log
  /-- every delivered message was published before, and is due -/
  deliv : ∀ l1 m i last l2, s.log = l1 ++ .delivered m i last :: l2 →
    (∃ r, Event.published m i r ∈ l1) ∧ i.us ≤ last.us ∧ (∀ u, Event.headSet u ∈ l1 → u ≤ last.us) ∧
    (last.us = -1 ∨ Event.headSet last.us ∈ l1) ∧ last.index = (pubIdx l1).length
  /-- nothing delivered is still queued -/
  once : ∀ m i last, Event.delivered m i last ∈ s.log → ∀ e ∈ s.queue, e.2.index ≠ i.index
  once' : ∀ l1 m i last l2, s.log = l1 ++ .delivered m i last :: l2 → ∀ m' i' last', Event.delivered m' i' last' ∈ l1 →
    i'.index ≠ i.index
  /-- whatever is queued is later than every delivered message, or was published after that delivery -/
  order : ∀ l1 m i last l2, s.log = l1 ++ .delivered m i last :: l2 → ∀ e ∈ s.queue,
    i.us < e.2.us ∨ ∃ r, Event.published e.1 e.2 r ∈ l2
  order' : ∀ l1 m i last l2 m' i' last' l3, s.log = l1 ++ .delivered m i last :: l2 ++ .delivered m' i' last' :: l3 →
    i.us < i'.us ∨ ∃ r, Event.published m' i' r ∈ l2
  heads : (∀ u, Event.headSet u ∈ s.log → u ≤ s.last.us) ∧ (s.last.us = -1 ∨ Event.headSet s.last.us ∈ s.log) ∧
    -1 ≤ s.last.us
  /-- published and neither queued nor delivered: an equal timestamp was queued at that time -/
  lost : ∀ l1 m i r l2, s.log = l1 ++ .published m i r :: l2 →
    (m, i) ∈ s.queue ∨ (∃ last, Event.delivered m i last ∈ l2) ∨
    ∃ m' i' r', Event.published m' i' r' ∈ l1 ∧ i'.us = i.us ∧ ∀ last, Event.delivered m' i' last ∉ l1
  ret : ∀ l1 m i r l2, s.log = l1 ++ .published m i r :: l2 → r.index = i.index ∧ (∀ u, Event.headSet u ∈ l1 → u ≤ r.us)
    ∧ (r.us = -1 ∨ Event.headSet r.us ∈ l1)
  sleep : s.cons = .asleep → s.destructing = false ∧ ∀ e ∈ s.queue, s.last.us < e.2.us
  dead : s.cons = .terminated → s.destructing = true
  destr : s.destructing = true ↔ Event.destructing ∈ s.log
  nodel : ∀ l1 l2, s.log = l1 ++ .destructing :: l2 → ∀ m i last, Event.delivered m i last ∉ l2

theorem init_inv : Inv (init : State M) := by
  constructor <;> simp [init, Sorted, pubIdx]

theorem snoc_mid {α : Type} {l l1 l2 : List α} {x : α} (h : l ++ [x] = l1 ++ l2) :
    (l2 = [] ∧ l1 = l ++ [x]) ∨ ∃ l2', l2 = l2' ++ [x] ∧ l = l1 ++ l2' := by
  rcases List.eq_nil_or_concat l2 with rfl | ⟨l2', z, rfl⟩
  · left; simpa using h.symm
  · right
    have h' : l ++ [x] = (l1 ++ l2') ++ [z] := by simpa using h
    have := List.append_inj' h' rfl
    simp_all

theorem publish_inv {s : State M} (h : Inv s) (m : M) (us : Int) : Inv (s.publish m us) := by
  have hidx := h.idx
  constructor
  · exact emplace_sorted h.sorted
  · simp only [State.publish, pubIdx_append, hidx, pubIdx]
    rw [List.range'_1_concat]; simp [Nat.add_comm]
  · intro e he
    rcases mem_emplace he with rfl | he
    · exact ⟨_, List.mem_append_right _ (List.mem_singleton.2 rfl)⟩
    · obtain ⟨r, hr⟩ := h.queued e he
      exact ⟨r, List.mem_append_left _ hr⟩
  · intro l1 m' i last l2 e
    rcases split_snoc e with ⟨_, h2, _⟩ | ⟨l2', _, h2⟩
    · cases h2
    · exact h.deliv _ _ _ _ _ h2
  · intro m' i last hm e he
    have hm : Event.delivered m' i last ∈ s.log := by simpa [State.publish] using hm
    rcases mem_emplace he with rfl | he
    · obtain ⟨l1, l2, hl⟩ := List.append_of_mem hm
      obtain ⟨⟨r, hr⟩, _⟩ := h.deliv _ _ _ _ _ hl
      have := mem_pubIdx (l := s.log) (m := m') (i := i) (r := r) (by rw [hl]; simp [hr])
      rw [hidx, List.mem_range'_1] at this
      dsimp only
      omega
    · exact h.once _ _ _ hm e he
  · intro l1 m' i last l2 e
    rcases split_snoc e with ⟨_, h2, _⟩ | ⟨l2', _, h2⟩
    · cases h2
    · exact h.once' _ _ _ _ _ h2
  · intro l1 m' i last l2 e q hq
    rcases split_snoc e with ⟨_, h2, _⟩ | ⟨l2', rfl, h2⟩
    · cases h2
    · rcases mem_emplace hq with rfl | hq
      · exact Or.inr ⟨_, List.mem_append_right _ (List.mem_singleton.2 rfl)⟩
      · rcases h.order _ _ _ _ _ h2 q hq with hh | ⟨r, hr⟩
        · exact Or.inl hh
        · exact Or.inr ⟨r, List.mem_append_left _ hr⟩
  · intro l1 m1 i1 last1 l2 m2 i2 last2 l3 e
    rcases split_snoc e with ⟨_, h2, _⟩ | ⟨l2', rfl, h2⟩
    · cases h2
    · exact h.order' _ _ _ _ _ _ _ _ _ h2
  · have := h.heads
    simp [State.publish]
    exact this
  · intro l1 m' i r l2 e
    rcases split_snoc e with ⟨rfl, h2, rfl⟩ | ⟨l2', rfl, h2⟩
    · cases h2
      rcases emplace_inserts (m, (⟨s.last.index + 1, us⟩ : IdxTs)) s.queue with hh | ⟨x, hx, hu⟩
      · exact Or.inl hh
      · obtain ⟨r, hr⟩ := h.queued x hx
        exact Or.inr (Or.inr ⟨x.1, x.2, r, hr, hu, fun last hd => h.once _ _ _ hd x hx rfl⟩)
    · rcases h.lost _ _ _ _ _ h2 with hh | ⟨last, hh⟩ | hh
      · exact Or.inl (emplace_keeps hh)
      · exact Or.inr (Or.inl ⟨last, List.mem_append_left _ hh⟩)
      · exact Or.inr (Or.inr hh)
  · intro l1 m' i r l2 e
    rcases split_snoc e with ⟨rfl, h2, rfl⟩ | ⟨l2', rfl, h2⟩
    · cases h2; exact ⟨rfl, h.heads.1, h.heads.2.1⟩
    · exact h.ret _ _ _ _ _ h2
  · intro hc
    simp only [State.publish] at hc
    cases hs : s.cons <;> simp [hs, wake] at hc
  · intro hc
    simp only [State.publish] at hc
    cases hs : s.cons <;> simp [hs, wake] at hc
    exact h.dead hs
  · simpa [State.publish] using h.destr
  · intro l1 l2 e m' i last
    rcases split_snoc e with ⟨rfl, h2, rfl⟩ | ⟨l2', rfl, h2⟩
    · cases h2
    · simpa using h.nodel _ _ h2 m' i last

/-- An event other than a publication or a delivery, with possibly a new head. -/
theorem other_inv {s s' : State M} (h : Inv s) (x : Event M) (hlog : s'.log = s.log ++ [x])
    (hq : s'.queue = s.queue) (hi : s'.last.index = s.last.index) (hx : pubIdx [x] = [])
    (hp : ∀ m i r, x ≠ .published m i r) (hd : ∀ m i r, x ≠ .delivered m i r)
    (hh : (∀ u, Event.headSet u ∈ s'.log → u ≤ s'.last.us) ∧ (s'.last.us = -1 ∨ Event.headSet s'.last.us ∈ s'.log) ∧
      -1 ≤ s'.last.us)
    (hs : s'.cons = .asleep → s'.destructing = false ∧ ∀ e ∈ s'.queue, s'.last.us < e.2.us)
    (ht : s'.cons = .terminated → s'.destructing = true)
    (hds : s'.destructing = true ↔ Event.destructing ∈ s'.log) : Inv s' := by
  constructor
  · rw [hq]; exact h.sorted
  · rw [hlog, pubIdx_append, hx, hi, h.idx]; simp
  · rw [hq, hlog]; intro e he
    obtain ⟨r, hr⟩ := h.queued e he
    exact ⟨r, List.mem_append_left _ hr⟩
  · rw [hlog]; intro l1 m i last l2 e
    rcases split_snoc e with ⟨_, h2, _⟩ | ⟨l2', _, h2⟩
    · exact absurd h2.symm (hd _ _ _)
    · exact h.deliv _ _ _ _ _ h2
  · rw [hlog, hq]; intro m i last hm
    rcases List.mem_append.1 hm with hm | hm
    · exact h.once _ _ _ hm
    · exact absurd (List.mem_singleton.1 hm).symm (hd _ _ _)
  · rw [hlog]; intro l1 m i last l2 e
    rcases split_snoc e with ⟨_, h2, _⟩ | ⟨l2', _, h2⟩
    · exact absurd h2.symm (hd _ _ _)
    · exact h.once' _ _ _ _ _ h2
  · rw [hlog, hq]; intro l1 m i last l2 e q hq
    rcases split_snoc e with ⟨_, h2, _⟩ | ⟨l2', rfl, h2⟩
    · exact absurd h2.symm (hd _ _ _)
    · rcases h.order _ _ _ _ _ h2 q hq with hh | ⟨r, hr⟩
      · exact Or.inl hh
      · exact Or.inr ⟨r, List.mem_append_left _ hr⟩
  · rw [hlog]; intro l1 m1 i1 last1 l2 m2 i2 last2 l3 e
    rcases split_snoc e with ⟨_, h2, _⟩ | ⟨l2', rfl, h2⟩
    · exact absurd h2.symm (hd _ _ _)
    · exact h.order' _ _ _ _ _ _ _ _ _ h2
  · exact hh
  · rw [hlog, hq]; intro l1 m i r l2 e
    rcases split_snoc e with ⟨rfl, h2, rfl⟩ | ⟨l2', rfl, h2⟩
    · exact absurd h2.symm (hp _ _ _)
    · rcases h.lost _ _ _ _ _ h2 with hh | ⟨last, hh⟩ | hh
      · exact Or.inl hh
      · exact Or.inr (Or.inl ⟨last, List.mem_append_left _ hh⟩)
      · exact Or.inr (Or.inr hh)
  · rw [hlog]; intro l1 m i r l2 e
    rcases split_snoc e with ⟨rfl, h2, rfl⟩ | ⟨l2', rfl, h2⟩
    · exact absurd h2.symm (hp _ _ _)
    · exact h.ret _ _ _ _ _ h2
  · exact hs
  · exact ht
  · exact hds
  · rw [hlog]; intro l1 l2 e m i last hm
    rcases split_snoc e with ⟨rfl, h2, rfl⟩ | ⟨l2', rfl, h2⟩
    · simp at hm
    · rcases List.mem_append.1 hm with hm | hm
      · exact h.nodel _ _ h2 _ _ _ hm
      · exact absurd (List.mem_singleton.1 hm).symm (hd _ _ _)

theorem updateHead_inv {s : State M} (h : Inv s) (us : Int) : Inv (s.updateHead us) := by
  have hh := h.heads
  unfold State.updateHead
  split
  · refine other_inv h _ rfl rfl rfl rfl (by simp) (by simp) ?_ h.sleep h.dead (by simpa using h.destr)
    simpa using hh
  · refine other_inv h _ rfl rfl rfl rfl (by simp) (by simp) ?_ ?_ ?_ (by simpa using h.destr)
    · dsimp only
      refine ⟨?_, Or.inr (by simp), by omega⟩
      intro u hu
      rcases List.mem_append.1 hu with hu | hu
      · have := hh.1 u hu; omega
      · have : u = us := by simpa using hu
        omega
    · intro hc
      cases hs : s.cons <;> simp [hs, wake] at hc
    · intro hc
      cases hs : s.cons <;> simp [hs, wake] at hc
      exact h.dead hs

theorem destruct_inv {s : State M} (h : Inv s) :
    Inv { s with destructing := true, cons := wake s.cons, log := s.log ++ [.destructing] } := by
  refine other_inv h _ rfl rfl rfl rfl (by simp) (by simp) ?_ ?_ ?_ (by simp)
  · simpa using h.heads
  · intro hc
    cases hs : s.cons <;> simp [hs, wake] at hc
  · simp

/-- Only the consumer's program counter changes. -/
theorem cons_inv {s : State M} (h : Inv s) (c : CPc)
    (hs : c = .asleep → s.destructing = false ∧ ∀ e ∈ s.queue, s.last.us < e.2.us)
    (ht : c = .terminated → s.destructing = true) : Inv { s with cons := c } :=
  ⟨h.sorted, h.idx, h.queued, h.deliv, h.once, h.once', h.order, h.order', h.heads, h.lost, h.ret, hs, ht, h.destr, h.nodel⟩

theorem deliver_inv {s : State M} (h : Inv s) (e : M × IdxTs) (rest : List (M × IdxTs)) (hq : s.queue = e :: rest)
    (hle : e.2.us ≤ s.last.us) (hc : s.cons = .awake) (hnd : s.destructing = false) :
    Inv { s with queue := rest, log := s.log ++ [.delivered e.1 e.2 s.last] } := by
  have hsort := h.sorted
  rw [hq] at hsort
  have hsort' := List.pairwise_cons.1 hsort
  have hq' : ∀ x ∈ rest, x ∈ s.queue := fun x hx => by rw [hq]; exact List.mem_cons_of_mem _ hx
  have he : e ∈ s.queue := by rw [hq]; simp
  have hpub : ∀ x ∈ s.queue, ∀ y ∈ s.queue, x.2.index = y.2.index → x.2 = y.2 ∧ x.1 = y.1 := by
    intro x hx y hy hxy
    obtain ⟨r, hr⟩ := h.queued x hx
    obtain ⟨r', hr'⟩ := h.queued y hy
    have key : ∀ (l : List (Event M)) (x y : M × IdxTs) (r r' : IdxTs), (pubIdx l).Nodup → Event.published x.1 x.2 r ∈ l →
        Event.published y.1 y.2 r' ∈ l → x.2.index = y.2.index → x.2 = y.2 ∧ x.1 = y.1 := by
      intro l
      induction l with
      | nil => simp
      | cons z l ih =>
        intro x y r r' hn hx hy hxy
        rcases List.mem_cons.1 hx with hx | hx' <;> rcases List.mem_cons.1 hy with hy | hy'
        · rw [← hx] at hy
          injection hy with h1 h2 h3
          exact ⟨h2.symm, h1.symm⟩
        · subst hx
          have := mem_pubIdx hy'
          simp only [pubIdx, List.nodup_cons] at hn
          exact absurd (hxy ▸ this) hn.1
        · subst hy
          have := mem_pubIdx hx'
          simp only [pubIdx, List.nodup_cons] at hn
          exact absurd (hxy ▸ this) hn.1
        · refine ih x y r r' ?_ hx' hy' hxy
          cases z <;> simp_all [pubIdx]
    exact key s.log x y r r' (by rw [h.idx]; exact List.nodup_range') hr hr' hxy
  constructor
  · exact hsort'.2
  · simp [pubIdx_append, pubIdx, h.idx]
  · intro x hx
    obtain ⟨r, hr⟩ := h.queued x (hq' x hx)
    exact ⟨r, List.mem_append_left _ hr⟩
  · intro l1 m i last l2 e'
    rcases split_snoc e' with ⟨rfl, h2, rfl⟩ | ⟨l2', _, h2⟩
    · cases h2
      exact ⟨h.queued e he, hle, h.heads.1, h.heads.2.1, by simp [h.idx]⟩
    · exact h.deliv _ _ _ _ _ h2
  · intro m i last hm x hx
    rcases List.mem_append.1 hm with hm | hm
    · exact h.once _ _ _ hm x (hq' x hx)
    · have hm := List.mem_singleton.1 hm
      cases hm
      intro heq
      have := hpub x (hq' x hx) e he heq
      have hlt := hsort'.1 x hx
      rw [this.1] at hlt
      omega
  · intro l1 m i last l2 e'
    rcases split_snoc e' with ⟨rfl, h2, rfl⟩ | ⟨l2', _, h2⟩
    · cases h2
      intro m' i' last' hd heq
      exact h.once _ _ _ hd e he heq.symm
    · exact h.once' _ _ _ _ _ h2
  · intro l1 m i last l2 e' x hx
    rcases split_snoc e' with ⟨rfl, h2, rfl⟩ | ⟨l2', rfl, h2⟩
    · cases h2; exact Or.inl (hsort'.1 x hx)
    · rcases h.order _ _ _ _ _ h2 x (hq' x hx) with hh | ⟨r, hr⟩
      · exact Or.inl hh
      · exact Or.inr ⟨r, List.mem_append_left _ hr⟩
  · intro l1 m1 i1 last1 l2 m2 i2 last2 l3 e'
    rcases split_snoc e' with ⟨rfl, h2, h3⟩ | ⟨l2', rfl, h2⟩
    · cases h2
      exact h.order _ _ _ _ _ h3.symm e he
    · exact h.order' _ _ _ _ _ _ _ _ _ h2
  · simpa using h.heads
  · intro l1 m i r l2 e'
    rcases split_snoc e' with ⟨_, h2, _⟩ | ⟨l2', rfl, h2⟩
    · cases h2
    · rcases h.lost _ _ _ _ _ h2 with hh | ⟨last, hh⟩ | hh
      · rw [hq] at hh
        rcases List.mem_cons.1 hh with hh | hh
        · subst hh; exact Or.inr (Or.inl ⟨s.last, by simp⟩)
        · exact Or.inl hh
      · exact Or.inr (Or.inl ⟨last, List.mem_append_left _ hh⟩)
      · exact Or.inr (Or.inr hh)
  · intro l1 m i r l2 e'
    rcases split_snoc e' with ⟨_, h2, _⟩ | ⟨l2', rfl, h2⟩
    · cases h2
    · exact h.ret _ _ _ _ _ h2
  · intro hs; simp [hc] at hs
  · intro hs; simp [hc] at hs
  · simpa using h.destr
  · intro l1 l2 e' m i last hm
    have : Event.destructing ∈ s.log := by
      have e'' : s.log ++ [.delivered e.1 e.2 s.last] = l1 ++ .destructing :: l2 := e'
      have : Event.destructing ∈ s.log ++ [.delivered e.1 e.2 s.last] := by rw [e'']; simp
      simpa using this
    rw [← h.destr, hnd] at this
    simp at this

theorem consume_inv {s : State M} (h : Inv s) (hc : s.cons = .awake) : Inv s.consume := by
  unfold State.consume
  split
  · rename_i hd
    exact cons_inv h _ (by simp) (fun _ => hd)
  · rename_i hd
    have hd : s.destructing = false := by simpa using hd
    split
    · rename_i hq
      refine cons_inv h _ (fun _ => ⟨hd, by simp [hq]⟩) (by simp)
    · rename_i e rest hq
      split
      · rename_i hle
        exact deliver_inv h e rest hq hle hc hd
      · rename_i hle
        refine cons_inv h _ (fun _ => ⟨hd, ?_⟩) (by simp)
        rw [hq]
        have hsort := h.sorted
        rw [hq] at hsort
        have hs := (List.pairwise_cons.1 hsort).1
        intro x hx
        rcases List.mem_cons.1 hx with rfl | hx
        · omega
        · have := hs x hx; omega

theorem step_inv {s s' : State M} (h : Inv s) (a : Act M) (hs : step s a = some s') : Inv s' := by
  cases a with
  | publish m us => simp [step] at hs; subst hs; exact publish_inv h m us
  | updateHead us => simp [step] at hs; subst hs; exact updateHead_inv h us
  | consume =>
    simp only [step] at hs
    split at hs
    · rename_i hc; cases hs; exact consume_inv h hc
    · cases hs
  | spurious =>
    simp only [step] at hs
    split at hs
    · cases hs; exact cons_inv h _ (by simp) (by simp)
    · cases hs
  | destruct =>
    simp only [step] at hs
    split at hs
    · cases hs
    · cases hs; exact destruct_inv h

theorem run_inv {as : List (Act M)} {s s' : State M} (h : Inv s) (hr : run s as = some s') : Inv s' := by
  induction as generalizing s with
  | nil => simp [run] at hr; subst hr; exact h
  | cons a as ih =>
    simp only [run] at hr
    split at hr
    · rename_i s1 h1; exact ih (step_inv h a h1) hr
    · cases hr

theorem Reachable.inv {s : State M} (h : Reachable s) : Inv s := by
  obtain ⟨as, h⟩ := h
  exact run_inv init_inv h

end Current.MMPQ
