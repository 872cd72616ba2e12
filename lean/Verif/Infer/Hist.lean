import Verif.Infer.Spec
/-! The histogram of string values (`infer.h:352-373`). -/
namespace Current.Infer
open Current.Persist (Str dec)

theorem countIn_bump (s k : Str) (n : Nat) (l : List (Str × Nat)) :
    countIn s (bump k n l) = countIn s l + (if k = s then n else 0) := by
  induction l with
  | nil => simp [bump, countIn]
  | cons a l ih =>
    obtain ⟨k', m⟩ := a
    simp only [bump]
    by_cases h : k' = k
    · rw [if_pos h]
      simp only [countIn]
      by_cases h1 : k' = s
      · rw [if_pos h1, if_pos h1, if_pos (h ▸ h1)]
        omega
      · rw [if_neg h1, if_neg h1, if_neg (fun e => h1 (h.trans e))]
        omega
    · rw [if_neg h]
      simp only [countIn, ih]
      omega

theorem names_bump (k : Str) (n : Nat) (l : List (Str × Nat)) :
    (bump k n l).map (·.1) = if k ∈ l.map (·.1) then l.map (·.1) else l.map (·.1) ++ [k] := by
  induction l with
  | nil => simp [bump]
  | cons a l ih =>
    obtain ⟨k', m⟩ := a
    simp only [bump]
    by_cases h : k' = k
    · simp [h]
    · have h' : ¬ k = k' := fun e => h e.symm
      rw [if_neg h]
      simp only [List.map_cons, ih, List.mem_cons, h', false_or]
      by_cases h2 : k ∈ l.map (·.1)
      · rw [if_pos h2, if_pos h2]
      · rw [if_neg h2, if_neg h2]
        rfl

theorem nodup_bump (k : Str) (n : Nat) (l : List (Str × Nat)) (h : (l.map (·.1)).Nodup) :
    ((bump k n l).map (·.1)).Nodup := by
  rw [names_bump]
  split
  · exact h
  · rename_i hk
    rw [List.nodup_append]
    refine ⟨h, by simp, ?_⟩
    intro a ha b hb e
    simp only [List.mem_singleton] at hb
    exact hk (hb ▸ e ▸ ha)

/-- All the counts of `b` added. -/
theorem foldl_bump (b : List (Str × Nat)) : ∀ a : List (Str × Nat), (a.map (·.1)).Nodup →
    ((b.foldl (fun acc kv => bump kv.1 kv.2 acc) a).map (·.1)).Nodup ∧
    (∀ s, countIn s (b.foldl (fun acc kv => bump kv.1 kv.2 acc) a) = countIn s a + countIn s b) ∧
    (∀ s, s ∈ (b.foldl (fun acc kv => bump kv.1 kv.2 acc) a).map (·.1) ↔ s ∈ a.map (·.1) ∨ s ∈ b.map (·.1)) := by
  induction b with
  | nil =>
    intro a ha
    exact ⟨ha, fun s => rfl, fun s => by simp⟩
  | cons kv b ih =>
    intro a ha
    obtain ⟨h1, h2, h3⟩ := ih (bump kv.1 kv.2 a) (nodup_bump _ _ _ ha)
    refine ⟨h1, fun s => ?_, fun s => ?_⟩
    · simp only [List.foldl_cons]
      rw [h2, countIn_bump]
      simp only [countIn]
      omega
    · simp only [List.foldl_cons]
      rw [h3, names_bump]
      by_cases hk : kv.1 ∈ a.map (·.1)
      · rw [if_pos hk]
        simp only [List.map_cons, List.mem_cons]
        constructor
        · rintro (h | h)
          · exact .inl h
          · exact .inr (.inr h)
        · rintro (h | h | h)
          · exact .inl h
          · exact .inl (h ▸ hk)
          · exact .inr h
      · rw [if_neg hk]
        simp only [List.map_cons, List.mem_cons, List.mem_append, List.mem_singleton, List.not_mem_nil, or_false]
        constructor
        · rintro ((h | h) | h)
          · exact .inl h
          · exact .inr (.inl h)
          · exact .inr (.inr h)
        · rintro (h | h | h)
          · exact .inl (.inl h)
          · exact .inl (.inr h)
          · exact .inr h

theorem least_mem (l : List (Str × Nat)) : ∀ a, least a l ∈ a :: l := by
  induction l with
  | nil => intro a; simp [least]
  | cons b l ih =>
    intro a
    simp only [least]
    have h := ih (if before b a then b else a)
    by_cases hb : before b a = true
    · rw [if_pos hb] at h ⊢
      simp only [List.mem_cons] at h ⊢
      rcases h with h | h
      · exact .inr (.inl h)
      · exact .inr (.inr h)
    · rw [if_neg hb] at h ⊢
      simp only [List.mem_cons] at h ⊢
      rcases h with h | h
      · exact .inl h
      · exact .inr (.inr h)

theorem countIn_drop_le (s k : Str) (l : List (Str × Nat)) : countIn s (drop k l) ≤ countIn s l := by
  induction l with
  | nil => simp [drop, countIn]
  | cons a l ih =>
    simp only [drop, List.filter_cons]
    split
    · simp only [countIn]
      simp only [drop] at ih
      omega
    · simp only [countIn]
      simp only [drop] at ih
      omega

theorem countIn_drop_other (s k : Str) (l : List (Str × Nat)) (h : s ≠ k) : countIn s (drop k l) = countIn s l := by
  induction l with
  | nil => simp [drop, countIn]
  | cons a l ih =>
    simp only [drop] at ih
    simp only [drop, List.filter_cons]
    by_cases hk : a.1 = k
    · rw [if_neg (by simp [hk])]
      simp only [countIn]
      rw [if_neg (fun e => h (e.symm.trans hk)), ih]
      omega
    · rw [if_pos (by simp [hk])]
      simp only [countIn, ih]

theorem length_drop_lt (k : Str) (l : List (Str × Nat)) (h : k ∈ l.map (·.1)) : (drop k l).length < l.length := by
  induction l with
  | nil => simp at h
  | cons a l ih =>
    simp only [drop] at ih
    simp only [drop, List.filter_cons]
    by_cases hk : a.1 = k
    · rw [if_neg (by simp [hk])]
      have := List.length_filter_le (fun kv : Str × Nat => decide (kv.1 ≠ k)) l
      simp only [List.length_cons]
      omega
    · rw [if_pos (by simp [hk])]
      simp only [List.map_cons, List.mem_cons] at h
      have h2 := ih (h.resolve_left (fun e => hk e.symm))
      simp only [List.length_cons]
      omega

theorem nodup_drop (k : Str) (l : List (Str × Nat)) (h : (l.map (·.1)).Nodup) : ((drop k l).map (·.1)).Nodup :=
  List.Nodup.sublist (List.Sublist.map _ List.filter_sublist) h

theorem prune_spec (f : Nat) : ∀ l : List (Str × Nat), l.length ≤ f → (l.map (·.1)).Nodup →
    ((prune f l).map (·.1)).Nodup ∧ (prune f l).length ≤ 100 ∧ (∀ s, countIn s (prune f l) ≤ countIn s l) ∧
    (l.length ≤ 100 → prune f l = l) := by
  induction f with
  | zero =>
    intro l hl hn
    have : l = [] := List.length_eq_zero_iff.1 (Nat.le_zero.1 hl)
    subst this
    simp [prune]
  | succ f ih =>
    intro l hl hn
    cases l with
    | nil => simp [prune]
    | cons a l =>
      have hK : kTrack = 100 := rfl
      simp only [prune]
      by_cases hc : (a :: l).length > kTrack
      · rw [if_pos hc]
        have hm : (least a l).1 ∈ (a :: l).map (·.1) := List.mem_map_of_mem (least_mem l a)
        have hlt := length_drop_lt _ _ hm
        obtain ⟨h1, h2, h3, _⟩ := ih (drop (least a l).1 (a :: l)) (by omega) (nodup_drop _ _ hn)
        refine ⟨h1, h2, fun s => Nat.le_trans (h3 s) (countIn_drop_le _ _ _), fun h => absurd hc (by omega)⟩
      · rw [if_neg hc]
        exact ⟨hn, by omega, fun s => Nat.le_refl _, fun _ => rfl⟩

theorem countIn_pos (s : Str) (l : List (Str × Nat)) (h : 0 < countIn s l) : s ∈ l.map (·.1) := by
  induction l with
  | nil => simp [countIn] at h
  | cons a l ih =>
    simp only [countIn] at h
    by_cases hk : a.1 = s
    · simp [hk]
    · rw [if_neg hk] at h
      have := ih (by omega)
      simp only [List.map_cons, List.mem_cons]
      exact .inr this

/-- Entries with a count of zero do not occur. -/
abbrev Positive (l : List (Str × Nat)) : Prop := ∀ kv ∈ l, 0 < kv.2

theorem countIn_ge (l : List (Str × Nat)) (kv : Str × Nat) (h : kv ∈ l) : kv.2 ≤ countIn kv.1 l := by
  induction l with
  | nil => simp at h
  | cons a l ih =>
    simp only [countIn]
    simp only [List.mem_cons] at h
    rcases h with h | h
    · rw [← h, if_pos rfl]
      omega
    · have := ih h
      omega

theorem length_le_of_nodup_subset (a : List Str) (ha : a.Nodup) : ∀ d : List Str, (∀ x ∈ a, x ∈ d) → a.length ≤ d.length := by
  induction a with
  | nil => simp
  | cons x a ih =>
    intro d hd
    simp only [List.nodup_cons] at ha
    have hx := hd x (by simp)
    have h := ih ha.2 (d.erase x) (fun y hy => by
      have hne : y ≠ x := fun e => ha.1 (e ▸ hy)
      exact (List.mem_erase_of_ne hne).2 (hd y (List.mem_cons_of_mem _ hy)))
    rw [List.length_erase_of_mem hx] at h
    have := List.length_pos_of_mem hx
    simp only [List.length_cons]
    omega

theorem positive_bump (k : Str) (n : Nat) (hn : 0 < n) (l : List (Str × Nat)) (h : Positive l) : Positive (bump k n l) := by
  induction l with
  | nil =>
    intro kv hkv
    simp only [bump, List.mem_singleton] at hkv
    rw [hkv]
    exact hn
  | cons a l ih =>
    intro kv hkv
    simp only [bump] at hkv
    have ha := h a (by simp)
    have hl : Positive l := fun x hx => h x (List.mem_cons_of_mem _ hx)
    split at hkv
    · simp only [List.mem_cons] at hkv
      rcases hkv with hkv | hkv
      · rw [hkv]
        show 0 < a.2 + n
        omega
      · exact hl kv hkv
    · simp only [List.mem_cons] at hkv
      rcases hkv with hkv | hkv
      · rw [hkv]
        exact ha
      · exact ih hl kv hkv

theorem positive_foldl (b : List (Str × Nat)) (hb : Positive b) : ∀ a, Positive a →
    Positive (b.foldl (fun acc kv => bump kv.1 kv.2 acc) a) := by
  induction b with
  | nil => exact fun a ha => ha
  | cons kv b ih =>
    intro a ha
    exact ih (fun x hx => hb x (List.mem_cons_of_mem _ hx)) _ (positive_bump _ _ (hb kv (by simp)) _ ha)

theorem positive_prune (f : Nat) : ∀ l, Positive l → Positive (prune f l) := by
  induction f with
  | zero => exact fun l h => h
  | succ f ih =>
    intro l h
    cases l with
    | nil => exact h
    | cons a l =>
      simp only [prune]
      split
      · exact ih _ (fun x hx => h x ((List.mem_filter.1 hx).1))
      · exact h

theorem count_append (s : Str) (a b : List Str) : (a ++ b).count s = a.count s + b.count s := List.count_append

/-- Merging two histograms gives a histogram of the two lists. -/
theorem histogram_merge (h h' : List (Str × Nat)) (l l' : List Str) (H : Histogram h l) (H' : Histogram h' l') :
    Histogram (mergeValues h h') (l ++ l') := by
  obtain ⟨h1, h2, h3, h4, h5⟩ := H
  obtain ⟨g1, g2, g3, g4, g5⟩ := H'
  obtain ⟨f1, f2, f3⟩ := foldl_bump h' h h1
  obtain ⟨p1, p2, p3, p4⟩ := prune_spec _ _ (Nat.le_refl _) f1
  refine ⟨p1, p2, positive_prune _ _ (positive_foldl _ g3 _ h3), fun s => ?_, fun ⟨d, hd, hs⟩ s => ?_⟩
  · refine Nat.le_trans (p3 s) ?_
    rw [f2, count_append]
    have := h4 s
    have := g4 s
    omega
  · have e1 := h5 ⟨d, hd, fun s h => hs s (List.mem_append_left _ h)⟩
    have e2 := g5 ⟨d, hd, fun s h => hs s (List.mem_append_right _ h)⟩
    have hin : ∀ k ∈ (h'.foldl (fun acc kv => bump kv.1 kv.2 acc) h).map (·.1), k ∈ d := by
      intro k hk
      obtain ⟨kv, hkv, rfl⟩ := List.mem_map.1 hk
      have hp := positive_foldl _ g3 _ h3 kv hkv
      have hc : 0 < countIn kv.1 (h'.foldl (fun acc kv => bump kv.1 kv.2 acc) h) := Nat.lt_of_lt_of_le hp (countIn_ge _ _ hkv)
      rw [f2, e1, e2, ← count_append] at hc
      exact hs _ (List.count_pos_iff.1 hc)
    have hlen : (h'.foldl (fun acc kv => bump kv.1 kv.2 acc) h).length ≤ 100 := by
      have := length_le_of_nodup_subset _ f1 d hin
      rw [List.length_map] at this
      omega
    show countIn s (prune _ _) = _
    rw [p4 hlen, f2, e1, e2, count_append]

theorem histogram_perm (h : List (Str × Nat)) (l l' : List Str) (H : Histogram h l) (hp : l.Perm l') : Histogram h l' := by
  obtain ⟨h1, h2, h3, h4, h5⟩ := H
  refine ⟨h1, h2, h3, fun s => hp.count_eq s ▸ h4 s, fun ⟨d, hd, hs⟩ s => ?_⟩
  rw [← hp.count_eq s]
  exact h5 ⟨d, hd, fun s h => hs s (hp.mem_iff.1 h)⟩ s

theorem histogram_one (s : Str) : Histogram [(s, 1)] [s] := by
  have h : ∀ t, countIn t [(s, 1)] = [s].count t := by
    intro t
    simp only [countIn, List.count_cons, List.count_nil]
    by_cases h : s = t
    · simp [h]
    · simp [h]
  exact ⟨by simp, by simp, by simp, fun t => Nat.le_of_eq (h t), fun _ => h⟩

end Current.Infer
