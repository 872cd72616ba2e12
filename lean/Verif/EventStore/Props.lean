import Verif.EventStore.Model
set_option linter.unusedSimpArgs false
set_option linter.unusedVariables false

/-! # The event store: what is acknowledged stays, what is stored was announced, and `/subscribe` shows the announcements. -/

namespace Current.EventStore
open Current.Persist

variable {Key Ev X : Type} [DecidableEq Key]

/-- Timestamps increase. -/
def Sorted {α : Type} (l : List (α × Nat)) : Prop := (l.map (·.2)).Pairwise (· < ·)

theorem tsOk_iff {α : Type} {l : List (α × Nat)} (h : Sorted l) (t : Nat) : tsOk l t = true ↔ ∀ p ∈ l, p.2 < t := by
  unfold tsOk lastTs
  rcases List.eq_nil_or_concat l with rfl | ⟨l', x, rfl⟩
  · simp
  · have h' : Sorted (l' ++ [x]) := by simpa using h
    unfold Sorted at h'
    simp only [List.map_append, List.pairwise_append, List.map_cons, List.map_nil] at h'
    have h3 := h'.2.2
    simp only [List.concat_eq_append, List.getLast?_append, List.getLast?_singleton, Option.some_or, Option.map_some, decide_eq_true_eq, List.mem_append, List.mem_singleton]
    constructor
    · intro hx p hp
      rcases hp with hp | rfl
      · have := h3 p.2 (List.mem_map.2 ⟨p, hp, rfl⟩) x.2 (by simp)
        omega
      · exact hx
    · intro hp; exact hp x (Or.inr rfl)

theorem Sorted.snoc {α : Type} {l : List (α × Nat)} {x : α} {t : Nat} (h : Sorted l) (ht : tsOk l t = true) : Sorted (l ++ [(x, t)]) := by
  have := (tsOk_iff h t).1 ht
  unfold Sorted at *
  simp only [List.map_append, List.pairwise_append, List.map_cons, List.map_nil]
  refine ⟨h, by simp, ?_⟩
  intro a ha b hb
  obtain ⟨p, hp, rfl⟩ := List.mem_map.1 ha
  simp at hb
  subst hb
  exact this p hp

theorem replay_append (cfg : Cfg Key Ev X) (l l' : List (Entry Ev X × Nat)) (db : Key → Option Ev) : replay cfg (l ++ l') db = replay cfg l' (replay cfg l db) := by
  induction l generalizing db with
  | nil => rfl
  | cons p l ih =>
    obtain ⟨e, t⟩ := p
    cases e <;> exact ih _

theorem stored_append (l l' : List (Entry Ev X × Nat)) : stored (l ++ l') = stored l ++ stored l' := List.filterMap_append
theorem announced_append (l l' : List (Entry Ev X × Nat)) : announced (l ++ l') = announced l ++ announced l' := List.filterMap_append

theorem announced_sublist (l : List (Entry Ev X × Nat)) : ((announced l).map (·.2)).Sublist (l.map (·.2)) := by
  induction l with
  | nil => exact List.Sublist.refl _
  | cons p l ih =>
    obtain ⟨e, t⟩ := p
    cases e with
    | tx e => simpa [announced] using ih.cons _
    | extra x => simpa [announced] using ih

/-- The invariant. -/
structure Inv (cfg : Cfg Key Ev X) (s : St Key Ev X) : Prop where
  db : s.db = replay cfg s.log fun _ => none
  sorted : Sorted s.log
  pos : s.pos ≤ s.log.length
  ro : s.ro = announced (s.log.take s.pos)
  ok : s.broken = false
  keys : ((stored s.log).map cfg.key).Nodup
  get : ∀ k e, s.db k = some e ↔ e ∈ stored s.log ∧ cfg.key e = k
  before : ∀ (pre post : List (Entry Ev X × Nat)) e t, s.log = pre ++ (.tx e, t) :: post → ∃ pre' t', t' < t ∧ pre = pre' ++ [(.extra (cfg.announce e), t')]

theorem Inv.start {cfg : Cfg Key Ev X} {s : St Key Ev X} (h : Inv cfg s) : Inv cfg (start cfg s.log) :=
  ⟨rfl, h.sorted, Nat.zero_le _, rfl, rfl, h.keys, by have := h.get; rw [h.db] at this; exact this, h.before⟩

theorem Inv.extra {cfg : Cfg Key Ev X} {s : St Key Ev X} (h : Inv cfg s) {x : X} {t : Nat} (ht : tsOk s.log t = true) : Inv cfg { s with log := s.log ++ [(.extra x, t)] } := by
  have hs : stored (s.log ++ [(Entry.extra x, t)]) = stored s.log := by rw [stored_append]; simp [stored]
  refine ⟨?_, h.sorted.snoc ht, ?_, ?_, h.ok, by rw [hs]; exact h.keys, by rw [hs]; exact h.get, ?_⟩
  · rw [replay_append]; exact h.db
  · have := h.pos; simp; omega
  · show s.ro = _
    rw [List.take_append_of_le_length h.pos]; exact h.ro
  · intro pre post e t' heq
    have heq : s.log ++ [(Entry.extra x, t)] = pre ++ (.tx e, t') :: post := heq
    rcases List.eq_nil_or_concat post with rfl | ⟨post', y, rfl⟩
    · have := (List.append_inj' heq rfl).2
      simp at this
    · have heq' : s.log ++ [(Entry.extra x, t)] = (pre ++ (.tx e, t') :: post') ++ [y] := by simpa using heq
      exact h.before _ _ _ _ (List.append_inj' heq' rfl).1

theorem Inv.tx {cfg : Cfg Key Ev X} {s : St Key Ev X} (h : Inv cfg s) {e : Ev} {t1 t2 : Nat} (hn : s.db (cfg.key e) = none)
    (ht1 : tsOk s.log t1 = true) (ht2 : tsOk (s.log ++ [(.extra (cfg.announce e), t1)]) t2 = true) :
    Inv cfg { s with log := s.log ++ [(.extra (cfg.announce e), t1)] ++ [(.tx e, t2)], db := put cfg s.db e } := by
  have h1 := h.extra (x := cfg.announce e) ht1
  have hs : stored (s.log ++ [(Entry.extra (cfg.announce e), t1)] ++ [(Entry.tx e, t2)]) = stored s.log ++ [e] := by
    rw [stored_append, stored_append]; simp [stored]
  have hnk : ∀ e' ∈ stored s.log, cfg.key e' ≠ cfg.key e := by
    intro e' he' hk
    have := (h.get (cfg.key e) e').2 ⟨he', hk⟩
    rw [hn] at this; cases this
  refine ⟨?_, h1.sorted.snoc ht2, ?_, ?_, h.ok, ?_, ?_, ?_⟩
  · show put cfg s.db e = _
    rw [replay_append, replay_append, ← h.db]; rfl
  · have := h.pos; simp; omega
  · show s.ro = _
    rw [List.take_append_of_le_length (by have := h.pos; simp; omega)]; exact h1.ro
  · show (((stored (s.log ++ [(Entry.extra (cfg.announce e), t1)] ++ [(Entry.tx e, t2)])).map cfg.key)).Nodup
    rw [hs, List.map_append, List.nodup_append]
    refine ⟨h.keys, by simp, ?_⟩
    intro a ha b hb hab
    obtain ⟨e', he', rfl⟩ := List.mem_map.1 ha
    simp at hb
    exact hnk e' he' (hab.trans hb)
  · intro k e'
    show put cfg s.db e k = some e' ↔ e' ∈ stored (s.log ++ [(Entry.extra (cfg.announce e), t1)] ++ [(Entry.tx e, t2)]) ∧ _
    rw [hs]
    unfold put
    by_cases hk : k = cfg.key e
    · subst hk
      simp only [if_true, Option.some.injEq, List.mem_append, List.mem_singleton]
      constructor
      · rintro rfl; exact ⟨Or.inr rfl, rfl⟩
      · rintro ⟨h1 | h1, h2⟩
        · exact absurd h2 (hnk e' h1)
        · exact h1.symm
    · simp only [hk, if_false, List.mem_append, List.mem_singleton]
      rw [h.get]
      constructor
      · rintro ⟨h1, h2⟩; exact ⟨Or.inl h1, h2⟩
      · rintro ⟨h1 | h1, h2⟩
        · exact ⟨h1, h2⟩
        · subst h1; exact absurd h2.symm hk
  · intro pre post e' t' heq
    have heq : s.log ++ [(Entry.extra (cfg.announce e), t1)] ++ [(Entry.tx e, t2)] = pre ++ (.tx e', t') :: post := heq
    rcases List.eq_nil_or_concat post with rfl | ⟨post', y, rfl⟩
    · have h2 := List.append_inj' heq rfl
      have h3 := h2.2
      simp at h3
      obtain ⟨rfl, rfl⟩ := h3
      refine ⟨s.log, t1, ?_, h2.1.symm⟩
      exact (tsOk_iff h1.sorted _).1 ht2 (.extra (cfg.announce e), t1) (by simp)
    · have heq' : s.log ++ [(Entry.extra (cfg.announce e), t1)] ++ [(Entry.tx e, t2)] = (pre ++ (.tx e', t') :: post') ++ [y] := by simpa using heq
      exact h1.before _ _ _ _ (List.append_inj' heq' rfl).1

theorem Inv.follow {cfg : Cfg Key Ev X} {s : St Key Ev X} (h : Inv cfg s) : Inv cfg (follow s) := by
  unfold EventStore.follow
  have htake : ∀ p, s.log[s.pos]? = some p → s.log.take (s.pos + 1) = s.log.take s.pos ++ [p] := by
    intro p hp
    rw [List.take_add_one, hp]; rfl
  split
  · exact h
  · rename_i e t hp
    obtain ⟨hlt, _⟩ := List.getElem?_eq_some_iff.1 hp
    refine ⟨h.db, h.sorted, hlt, ?_, h.ok, h.keys, h.get, h.before⟩
    show s.ro = announced (s.log.take (s.pos + 1))
    rw [htake _ hp, announced_append, h.ro]
    simp [announced]
  · rename_i x t hp
    obtain ⟨hlt, hget⟩ := List.getElem?_eq_some_iff.1 hp
    have hsorted : Sorted s.ro := by
      rw [h.ro]
      unfold Sorted
      refine List.Pairwise.sublist (announced_sublist _) ?_
      refine List.Pairwise.sublist (List.Sublist.map _ (List.take_sublist _ _)) h.sorted
    have hok : tsOk s.ro t = true := by
      rw [tsOk_iff hsorted]
      intro p hp'
      rw [h.ro] at hp'
      have hmem : p.2 ∈ (s.log.take s.pos).map (·.2) := (announced_sublist _).subset (List.mem_map.2 ⟨p, hp', rfl⟩)
      have hsrt := h.sorted
      unfold Sorted at hsrt
      have hsub : (s.log.take (s.pos + 1)).map (·.2) = (s.log.take s.pos).map (·.2) ++ [t] := by rw [htake _ hp]; simp
      have h2 : ((s.log.take (s.pos + 1)).map (·.2)).Pairwise (· < ·) := List.Pairwise.sublist (List.Sublist.map _ (List.take_sublist _ _)) hsrt
      rw [hsub, List.pairwise_append] at h2
      exact h2.2.2 _ hmem _ (by simp)
    simp only [hok, if_true]
    refine ⟨h.db, h.sorted, hlt, ?_, h.ok, h.keys, h.get, h.before⟩
    show s.ro ++ [(x, t)] = announced (s.log.take (s.pos + 1))
    rw [htake _ hp, announced_append, h.ro]
    simp [announced]

theorem Inv.step {cfg : Cfg Key Ev X} {s : St Key Ev X} (h : Inv cfg s) (o : Op Key Ev) : Inv cfg (step cfg s o).1 := by
  cases o with
  | get k => exact h
  | follow => exact h.follow
  | restart => exact h.start
  | post e t1 t2 c =>
    simp only [EventStore.step, post]
    split
    · exact h.start
    · split
      · exact h
      · rename_i hn
        split
        · rename_i ht1
          have h1 := h.extra (x := cfg.announce e) ht1
          split
          · exact h1.start
          · split
            · rename_i ht2
              have h2 := h.tx hn ht1 ht2
              split
              · exact h2.start
              · exact h2
            · exact h1.start
        · exact h

theorem inv_fresh (cfg : Cfg Key Ev X) : Inv cfg (fresh cfg) :=
  ⟨rfl, List.Pairwise.nil, Nat.zero_le _, rfl, rfl, List.Pairwise.nil, by simp [fresh, EventStore.start, replay, stored], by simp [fresh, EventStore.start]⟩

theorem Inv.run {cfg : Cfg Key Ev X} {s : St Key Ev X} (h : Inv cfg s) (os : List (Op Key Ev)) : Inv cfg (run cfg s os).1 := by
  induction os generalizing s with
  | nil => exact h
  | cons o os ih => exact ih (h.step o)

end Current.EventStore
