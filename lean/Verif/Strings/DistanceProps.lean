import Verif.Strings.Distance
import Mathlib.Data.List.Induction
/-!
Proofs about edit distances (C67).
-/
namespace Current.Strings
open Current.Persist

/-- The two lengths are at most `m` apart. -/
def Near (m i j : Nat) : Prop := i ≤ j + m ∧ j ≤ i + m
instance (m i j : Nat) : Decidable (Near m i j) := inferInstanceAs (Decidable (_ ∧ _))

/-- The recurrence over the reversed strings, without table and without overflow. -/
def bandD (m : Nat) : Str → Str → Nat
  | s, t =>
    if Near m s.length t.length then
      match s, t with
      | [], t => t.length
      | x :: s, [] => s.length + 1
      | x :: s, y :: t =>
        if x = y then bandD m s t else 1 + min (bandD m s t) (min (bandD m (x :: s) t) (bandD m s (y :: t)))
    else topSize
termination_by s t => s.length + t.length

theorem bandD_far {m : Nat} {s t : Str} (h : ¬ Near m s.length t.length) : bandD m s t = topSize := by
  rw [bandD.eq_def]; exact if_neg h
theorem bandD_nil {m : Nat} {t : Str} (h : t.length ≤ m) : bandD m [] t = t.length := by
  rw [bandD, if_pos (by simp [Near]; omega)]
theorem bandD_cons_nil {m : Nat} {x : Char} {s : Str} (h : s.length + 1 ≤ m) : bandD m (x :: s) [] = s.length + 1 := by
  rw [bandD, if_pos (by simp [Near]; omega)]
theorem bandD_cons {m : Nat} {x y : Char} {s t : Str} (h : Near m s.length t.length) :
    bandD m (x :: s) (y :: t) =
      if x = y then bandD m s t else 1 + min (bandD m s t) (min (bandD m (x :: s) t) (bandD m s (y :: t))) := by
  rw [bandD, if_pos (by simp [Near] at *; omega)]

theorem bandD_le {m : Nat} : ∀ {s t : Str}, Near m s.length t.length → bandD m s t ≤ max s.length t.length
  | [], t, h => by rw [bandD_nil (by simp [Near] at h; omega)]; simp
  | x :: s, [], h => by rw [bandD_cons_nil (by simp [Near] at h; omega)]; simp
  | x :: s, y :: t, h => by
    have hn : Near m s.length t.length := by simp [Near] at *; omega
    have := bandD_le hn
    rw [bandD_cons hn]
    split <;> simp <;> omega

/-- One more or one less letter changes the distance by at most one. -/
theorem bandD_lip {m : Nat} : ∀ (n : Nat) (s t : Str), s.length + t.length ≤ n → s.length < topSize → t.length < topSize →
    (∀ x, Near m s.length t.length → Near m (s.length + 1) t.length →
      bandD m (x :: s) t ≤ bandD m s t + 1 ∧ bandD m s t ≤ bandD m (x :: s) t + 1) ∧
    (∀ y, Near m s.length t.length → Near m s.length (t.length + 1) →
      bandD m s (y :: t) ≤ bandD m s t + 1 ∧ bandD m s t ≤ bandD m s (y :: t) + 1) := by
  intro n
  induction n with
  | zero =>
    intro s t h _ _
    have hs : s = [] := List.length_eq_zero_iff.1 (by omega)
    have ht : t = [] := List.length_eq_zero_iff.1 (by omega)
    subst hs ht
    constructor
    · intro x h1 h2
      simp [Near] at h2
      rw [bandD_cons_nil (by simpa using h2), bandD_nil (by simp)]; simp
    · intro x h1 h2
      simp [Near] at h2
      rw [bandD_nil (by simpa using h2), bandD_nil (by simp)]; simp
  | succ n ih =>
    intro s t h hs ht
    constructor
    · intro x h1 h2
      cases t with
      | nil =>
        simp [Near] at h1 h2
        rw [bandD_cons_nil h2]
        cases s with
        | nil => rw [bandD_nil (by simp)]; simp
        | cons z s => rw [bandD_cons_nil (by simpa using h1)]; simp
      | cons y t =>
        simp only [List.length_cons] at h h1 h2 hs ht
        have hd : Near m s.length t.length := by simp [Near] at *; omega
        have hb := (ih s t (by omega) (by omega) (by omega)).2 y hd h1
        rw [bandD_cons hd]
        split
        · exact ⟨by omega, by omega⟩
        · refine ⟨by omega, ?_⟩
          by_cases hx : Near m (s.length + 1) t.length
          · have := (ih s t (by omega) (by omega) (by omega)).1 x hd hx
            omega
          · rw [bandD_far (s := x :: s) (t := t) (by simpa using hx)]
            have := bandD_le (m := m) (s := s) (t := y :: t) (by simpa using h1)
            simp only [List.length_cons] at this
            omega
    · intro y h1 h2
      cases s with
      | nil =>
        simp [Near] at h1 h2
        rw [bandD_nil (by simpa using h2), bandD_nil (by simpa using h1)]; simp; omega
      | cons x s =>
        simp only [List.length_cons] at h h1 h2 hs ht
        have hd : Near m s.length t.length := by simp [Near] at *; omega
        have hb := (ih s t (by omega) (by omega) (by omega)).1 x hd h1
        rw [bandD_cons hd]
        split
        · exact ⟨by omega, by omega⟩
        · refine ⟨by omega, ?_⟩
          by_cases hx : Near m s.length (t.length + 1)
          · have := (ih s t (by omega) (by omega) (by omega)).2 y hd hx
            omega
          · rw [bandD_far (s := s) (t := y :: t) (by simpa using hx)]
            have := bandD_le (m := m) (s := x :: s) (t := t) (by simpa using h1)
            simp only [List.length_cons] at this
            omega

theorem lip_left {m : Nat} {x : Char} {s t : Str} (hs : s.length < topSize) (ht : t.length < topSize) (h1 : Near m s.length t.length) (h2 : Near m (s.length + 1) t.length) :
    bandD m (x :: s) t ≤ bandD m s t + 1 := (((bandD_lip _ s t (Nat.le_refl _) hs ht).1 x h1 h2)).1
theorem lip_right {m : Nat} {y : Char} {s t : Str} (hs : s.length < topSize) (ht : t.length < topSize) (h1 : Near m s.length t.length) (h2 : Near m s.length (t.length + 1)) :
    bandD m s (y :: t) ≤ bandD m s t + 1 := (((bandD_lip _ s t (Nat.le_refl _) hs ht).2 y h1 h2)).1

/-! ### The recurrence is the least cost of a matching -/

theorem lefts_nil : lefts [] = [] := rfl
theorem rights_nil : rights [] = [] := rfl
theorem mismatches_nil : mismatches [] = 0 := rfl
theorem lefts_append (w v : List Column) : lefts (w ++ v) = lefts w ++ lefts v := by simp [lefts]
theorem rights_append (w v : List Column) : rights (w ++ v) = rights w ++ rights v := by simp [rights]
theorem mismatches_append (w v : List Column) : mismatches (w ++ v) = mismatches w + mismatches v := by simp [mismatches]

theorem mismatches_cons (c : Column) (k : List Column) : mismatches k ≤ mismatches (c :: k) ∧ mismatches (c :: k) ≤ mismatches k + 1 := by
  simp only [mismatches, List.countP_cons]; split <;> split <;> omega

theorem within_nil (m : Nat) : Within m [] := by
  intro p hp
  simp at hp; subst hp; simp [lefts, rights]

theorem within_concat {m : Nat} {w : List Column} {c : Column} :
    Within m (w ++ [c]) ↔ Within m w ∧ Near m (lefts (w ++ [c])).length (rights (w ++ [c])).length := by
  constructor
  · intro h
    exact ⟨fun p hp => h p (hp.trans (List.prefix_append _ _)), h _ (List.prefix_refl _)⟩
  · rintro ⟨h, h2⟩ p hp
    rw [List.prefix_concat_iff] at hp
    rcases hp with rfl | hp
    · exact h2
    · exact h p hp

theorem within_near {m : Nat} {w : List Column} (h : Within m w) : Near m (lefts w).length (rights w).length :=
  h w (List.prefix_refl _)

/-- No matching is cheaper than the recurrence. -/
theorem bandD_least {m : Nat} (w : List Column) : Within m w → (lefts w).length < topSize → (rights w).length < topSize →
    bandD m (lefts w).reverse (rights w).reverse ≤ mismatches w := by
  induction w using List.reverseRecOn with
  | nil => intro _ _ _; rw [lefts_nil, rights_nil]; simp [bandD_nil]
  | append_singleton w c ih =>
    intro h hs ht
    obtain ⟨h1, h2⟩ := within_concat.1 h
    have h0 := within_near h1
    rw [lefts_append, List.length_append] at hs
    rw [rights_append, List.length_append] at ht
    have := ih h1 (by omega) (by omega)
    rw [lefts_append, rights_append] at h2 ⊢
    rw [mismatches_append]
    cases c with
    | both c d =>
      simp only [lefts, rights, mismatches, List.filterMap_cons, List.filterMap_nil, List.reverse_append, List.reverse_cons,
        List.reverse_nil, List.nil_append, List.cons_append, List.countP_cons, List.countP_nil] at *
      rw [bandD_cons (by simpa using h0)]
      by_cases e : c = d
      · subst e; simp; exact this
      · simp [e]; omega
    | left c =>
      simp only [lefts, rights, mismatches, List.filterMap_cons, List.filterMap_nil, List.reverse_append, List.reverse_cons,
        List.reverse_nil, List.nil_append, List.cons_append, List.countP_cons, List.countP_nil, List.append_nil] at *
      simp only [List.length_append, List.length_cons, List.length_nil] at h2
      refine Nat.le_trans (lip_left (by simp; omega) (by simp; omega) ?_ ?_) ?_
      · simpa using h0
      · simpa using h2
      · simp; omega
    | right c =>
      simp only [lefts, rights, mismatches, List.filterMap_cons, List.filterMap_nil, List.reverse_append, List.reverse_cons,
        List.reverse_nil, List.nil_append, List.cons_append, List.countP_cons, List.countP_nil, List.append_nil] at *
      simp only [List.length_append, List.length_cons, List.length_nil] at h2
      refine Nat.le_trans (lip_right (by simp; omega) (by simp; omega) ?_ ?_) ?_
      · simpa using h0
      · simpa using h2
      · simp; omega

/-- Some matching is as cheap as the recurrence. -/
theorem bandD_reached {m : Nat} : ∀ (n : Nat) (s t : Str), s.length + t.length ≤ n → s.length < topSize → t.length < topSize →
    Near m s.length t.length →
    ∃ w, (lefts w).reverse = s ∧ (rights w).reverse = t ∧ Within m w ∧ mismatches w = bandD m s t := by
  intro n
  induction n with
  | zero =>
    intro s t h _ _ _
    have hs : s = [] := List.length_eq_zero_iff.1 (by omega)
    have ht : t = [] := List.length_eq_zero_iff.1 (by omega)
    subst hs ht
    exact ⟨[], rfl, rfl, within_nil m, by rw [bandD_nil (by simp)]; rfl⟩
  | succ n ih =>
    intro s t h hs ht hn
    have add : ∀ (s' t' : Str) (c : Column), s'.length + t'.length ≤ n → s'.length ≤ s.length → t'.length ≤ t.length →
        Near m s'.length t'.length → (lefts [c]).reverse ++ s' = s → (rights [c]).reverse ++ t' = t →
        ∃ w, (lefts w).reverse = s ∧ (rights w).reverse = t ∧ Within m w ∧ mismatches w = bandD m s' t' + mismatches [c] := by
      intro s' t' c h' hs' ht' hn' e1 e2
      obtain ⟨w, w1, w2, w3, w4⟩ := ih s' t' h' (by omega) (by omega) hn'
      refine ⟨w ++ [c], by rw [lefts_append, List.reverse_append, w1, e1], by rw [rights_append, List.reverse_append, w2, e2],
        within_concat.2 ⟨w3, ?_⟩, by rw [mismatches_append, w4]⟩
      have l1 : (lefts (w ++ [c])).length = s.length := by
        rw [← List.length_reverse (as := lefts (w ++ [c])), lefts_append, List.reverse_append, w1, e1]
      have l2 : (rights (w ++ [c])).length = t.length := by
        rw [← List.length_reverse (as := rights (w ++ [c])), rights_append, List.reverse_append, w2, e2]
      rw [l1, l2]; exact hn
    cases s with
    | nil =>
      cases t with
      | nil => exact ⟨[], rfl, rfl, within_nil m, by rw [bandD_nil (by simp)]; rfl⟩
      | cons y t =>
        simp [Near] at hn h
        obtain ⟨w, w1, w2, w3, w4⟩ := add [] t (.right y) (by simpa using h) (by simp) (by simp) (by simp [Near]; omega) rfl rfl
        refine ⟨w, w1, w2, w3, ?_⟩
        rw [w4, bandD_nil (by omega), bandD_nil (by simpa using hn)]; rfl
    | cons x s =>
      cases t with
      | nil =>
        simp [Near] at hn h
        obtain ⟨w, w1, w2, w3, w4⟩ := add s [] (.left x) (by simpa using h) (by simp) (by simp) (by simp [Near]; omega) rfl rfl
        refine ⟨w, w1, w2, w3, ?_⟩
        rw [w4, bandD_cons_nil (by omega)]
        cases s with
        | nil => rw [bandD_nil (by simp)]; rfl
        | cons z s => rw [bandD_cons_nil (by simp at hn; omega)]; rfl
      | cons y t =>
        simp only [List.length_cons] at hn h hs ht
        have hd : Near m s.length t.length := by simp [Near] at *; omega
        have hsmall := bandD_le hd
        rw [bandD_cons hd]
        by_cases e : x = y
        · subst e
          rw [if_pos rfl]
          obtain ⟨w, w1, w2, w3, w4⟩ := add s t (.both x x) (by omega) (by simp) (by simp) hd rfl rfl
          exact ⟨w, w1, w2, w3, by rw [w4]; simp [mismatches]⟩
        · rw [if_neg e]
          rcases Nat.le_total (bandD m s t) (min (bandD m (x :: s) t) (bandD m s (y :: t))) with c | c
          · obtain ⟨w, w1, w2, w3, w4⟩ := add s t (.both x y) (by omega) (by simp) (by simp) hd rfl rfl
            exact ⟨w, w1, w2, w3, by rw [w4]; simp [mismatches, e]; omega⟩
          · rcases Nat.le_total (bandD m (x :: s) t) (bandD m s (y :: t)) with c' | c'
            · have hn' : Near m (x :: s).length t.length := by
                by_cases q : Near m (x :: s).length t.length
                · exact q
                · rw [bandD_far q] at c c'; omega
              obtain ⟨w, w1, w2, w3, w4⟩ := add (x :: s) t (.right y) (by simp; omega) (by simp) (by simp) hn' rfl rfl
              exact ⟨w, w1, w2, w3, by rw [w4]; simp [mismatches]; omega⟩
            · have hn' : Near m s.length (y :: t).length := by
                by_cases q : Near m s.length (y :: t).length
                · exact q
                · rw [bandD_far q] at c c'; omega
              obtain ⟨w, w1, w2, w3, w4⟩ := add s (y :: t) (.left x) (by simp; omega) (by simp) (by simp) hn' rfl rfl
              exact ⟨w, w1, w2, w3, by rw [w4]; simp [mismatches]; omega⟩

theorem bandD_isBand {m : Nat} {s t : Str} (hs : s.length < topSize) (ht : t.length < topSize) (h : Near m s.length t.length) :
    IsBandDistance m s t (bandD m s.reverse t.reverse) := by
  constructor
  · obtain ⟨w, w1, w2, w3, w4⟩ := bandD_reached (m := m) _ s.reverse t.reverse (Nat.le_refl _) (by simpa) (by simpa) (by simpa)
    exact ⟨w, by simpa using w1, by simpa using w2, w3, w4⟩
  · intro w h1 h2 h3
    have := bandD_least w h3 (by rwa [h1]) (by rwa [h2])
    rwa [h1, h2] at this

/-! ### Matchings and edits -/

theorem OneEdit.cons {s t : Str} (c : Char) (h : OneEdit s t) : OneEdit (c :: s) (c :: t) := by
  cases h with
  | insert u v d => exact OneEdit.insert (c :: u) v d
  | delete u v d => exact OneEdit.delete (c :: u) v d
  | replace u v d e => exact OneEdit.replace (c :: u) v d e

theorem Edits.cons {n : Nat} {s t : Str} (c : Char) (h : Edits n s t) : Edits n (c :: s) (c :: t) := by
  induction h with
  | done s => exact .done _
  | step h1 _ ih => exact .step (h1.cons c) ih

theorem edits_of_matching (w : List Column) : Edits (mismatches w) (lefts w) (rights w) := by
  induction w with
  | nil => exact .done _
  | cons c w ih =>
    cases c with
    | both c d =>
      by_cases e : c = d
      · subst e
        have : mismatches (.both c c :: w) = mismatches w := by simp [mismatches]
        rw [this]
        exact ih.cons c
      · have : mismatches (.both c d :: w) = mismatches w + 1 := by simp [mismatches, e]
        rw [this]
        exact .step (OneEdit.replace [] (lefts w) c d) (ih.cons d)
    | left c =>
      have : mismatches (.left c :: w) = mismatches w + 1 := by simp [mismatches]
      rw [this]
      exact .step (OneEdit.delete [] (lefts w) c) ih
    | right d =>
      have : mismatches (.right d :: w) = mismatches w + 1 := by simp [mismatches]
      rw [this]
      exact .step (OneEdit.insert [] (lefts w) d) (ih.cons d)

/-- Putting an edit in front of a matching costs at most one more. -/
theorem matching_after_edit {s t : Str} (h : OneEdit s t) (w : List Column) (hw : lefts w = t) :
    ∃ w', lefts w' = s ∧ rights w' = rights w ∧ mismatches w' ≤ mismatches w + 1 := by
  have key : ∀ (u v : Str) (w : List Column), lefts w = u ++ v →
      ∃ p q, w = p ++ q ∧ lefts p = u ∧ lefts q = v := by
    intro u
    induction u with
    | nil => intro v w hw; exact ⟨[], w, rfl, rfl, hw⟩
    | cons a u ih =>
      intro v w
      induction w with
      | nil => intro hw; simp [lefts] at hw
      | cons c w ihw =>
        intro hw
        cases c with
        | both c d =>
          have hw' : c :: lefts w = a :: (u ++ v) := hw
          simp only [List.cons.injEq] at hw'
          obtain ⟨p, q, e, e1, e2⟩ := ih v w hw'.2
          exact ⟨.both c d :: p, q, by rw [e]; rfl, by rw [← hw'.1, ← e1]; rfl, e2⟩
        | left c =>
          have hw' : c :: lefts w = a :: (u ++ v) := hw
          simp only [List.cons.injEq] at hw'
          obtain ⟨p, q, e, e1, e2⟩ := ih v w hw'.2
          exact ⟨.left c :: p, q, by rw [e]; rfl, by rw [← hw'.1, ← e1]; rfl, e2⟩
        | right d =>
          obtain ⟨p, q, e, e1, e2⟩ := ihw hw
          exact ⟨.right d :: p, q, by rw [e]; rfl, by rw [← e1]; rfl, e2⟩
  have drop : ∀ (c : Char) (v : Str) (q : List Column), lefts q = c :: v →
      ∃ r k, q = r ++ k ∧ lefts r = [c] ∧ lefts k = v ∧
        ((∃ r', r = r' ++ [.left c] ∧ lefts r' = []) ∨ ∃ r' d, r = r' ++ [.both c d] ∧ lefts r' = []) := by
    intro c v q
    induction q with
    | nil => intro h; simp [lefts] at h
    | cons a q ih =>
      intro h
      cases a with
      | both c' d =>
        have h' : c' :: lefts q = c :: v := h
        simp only [List.cons.injEq] at h'
        obtain ⟨rfl, h'⟩ := h'
        exact ⟨[.both c' d], q, rfl, rfl, h', .inr ⟨[], d, rfl, rfl⟩⟩
      | left c' =>
        have h' : c' :: lefts q = c :: v := h
        simp only [List.cons.injEq] at h'
        obtain ⟨rfl, h'⟩ := h'
        exact ⟨[.left c'], q, rfl, rfl, h', .inl ⟨[], rfl, rfl⟩⟩
      | right d =>
        obtain ⟨r, k, e, e1, e2, e3⟩ := ih h
        refine ⟨.right d :: r, k, by rw [e]; rfl, by rw [← e1]; rfl, e2, ?_⟩
        rcases e3 with ⟨r', f, f'⟩ | ⟨r', d', f, f'⟩
        · exact .inl ⟨.right d :: r', by rw [f]; rfl, by rw [← f']; rfl⟩
        · exact .inr ⟨.right d :: r', d', by rw [f]; rfl, by rw [← f']; rfl⟩
  cases h with
  | insert u v c =>
    obtain ⟨p, q, rfl, e1, e2⟩ := key u (c :: v) w hw
    obtain ⟨r, k, rfl, f1, f2, f3⟩ := drop c v q e2
    rcases f3 with ⟨r', rfl, f'⟩ | ⟨r', d, rfl, f'⟩
    · refine ⟨p ++ (r' ++ k), by simp [lefts_append, e1, f', f2], ?_, ?_⟩
      · simp [rights_append]; rfl
      · have := mismatches_cons (.left c) k
        simp [mismatches_append]; omega
    · refine ⟨p ++ (r' ++ .right d :: k), ?_, ?_, ?_⟩
      · rw [lefts_append, lefts_append, e1, f']; show u ++ ([] ++ lefts k) = _; rw [f2]; rfl
      · simp [rights_append]; rfl
      · have := mismatches_cons (.right d) k
        have := mismatches_cons (.both c d) k
        simp [mismatches_append]; omega
  | delete u v c =>
    obtain ⟨p, q, rfl, e1, e2⟩ := key u v w hw
    refine ⟨p ++ .left c :: q, ?_, ?_, ?_⟩
    · rw [lefts_append, e1]; show u ++ c :: lefts q = _; rw [e2]
    · simp [rights_append]; rfl
    · have : mismatches (Column.left c :: q) = mismatches q + 1 := by simp [mismatches]
      simp [mismatches_append, this]; omega
  | replace u v c d =>
    obtain ⟨p, q, rfl, e1, e2⟩ := key u (d :: v) w hw
    obtain ⟨r, k, rfl, f1, f2, f3⟩ := drop d v q e2
    rcases f3 with ⟨r', rfl, f'⟩ | ⟨r', d', rfl, f'⟩
    · refine ⟨p ++ (r' ++ .left c :: k), ?_, ?_, ?_⟩
      · rw [lefts_append, lefts_append, e1, f']; show u ++ ([] ++ c :: lefts k) = _; rw [f2]; rfl
      · simp [rights_append]; rfl
      · have := mismatches_cons (.left c) k
        have := mismatches_cons (.left d) k
        simp [mismatches_append]; omega
    · refine ⟨p ++ (r' ++ .both c d' :: k), ?_, ?_, ?_⟩
      · rw [lefts_append, lefts_append, e1, f']; show u ++ ([] ++ c :: lefts k) = _; rw [f2]; rfl
      · simp [rights_append]; rfl
      · have := mismatches_cons (.both c d') k
        have := mismatches_cons (.both d d') k
        simp [mismatches_append]; omega

theorem matching_self (s : Str) : ∃ w, lefts w = s ∧ rights w = s ∧ mismatches w = 0 := by
  induction s with
  | nil => exact ⟨[], rfl, rfl, rfl⟩
  | cons c s ih =>
    obtain ⟨w, h1, h2, h3⟩ := ih
    exact ⟨.both c c :: w, congrArg (c :: ·) h1, congrArg (c :: ·) h2, by rw [← h3]; simp [mismatches]⟩

theorem matching_of_edits {n : Nat} {s t : Str} (h : Edits n s t) :
    ∃ w, lefts w = s ∧ rights w = t ∧ mismatches w ≤ n := by
  induction h with
  | done s =>
    obtain ⟨w, h1, h2, h3⟩ := matching_self s
    exact ⟨w, h1, h2, by omega⟩
  | step h1 _ ih =>
    obtain ⟨w, e1, e2, e3⟩ := ih
    obtain ⟨w', f1, f2, f3⟩ := matching_after_edit h1 w e1
    exact ⟨w', f1, by rw [f2, e2], by omega⟩

/-- A cheap matching stays close to the diagonal. -/
theorem within_of_mismatches {m : Nat} {w : List Column} (h : mismatches w ≤ m) : Within m w := by
  have key : ∀ p : List Column, (lefts p).length ≤ (rights p).length + mismatches p ∧
      (rights p).length ≤ (lefts p).length + mismatches p := by
    intro p
    induction p with
    | nil => exact ⟨Nat.le_refl _, Nat.le_refl _⟩
    | cons c p ih =>
      cases c with
      | both c d => simp [lefts, rights, mismatches, List.countP_cons] at *; omega
      | left c => simp [lefts, rights, mismatches] at *; omega
      | right c => simp [lefts, rights, mismatches] at *; omega
  rintro p ⟨q, rfl⟩
  have := key p
  rw [mismatches_append] at h
  omega

/-- Within a band as wide as the distance, the least cost of a matching is the distance. -/
theorem distance_of_band {m : Nat} {s t : Str} {k d : Nat} (hb : IsBandDistance m s t k) (hd : IsDistance s t d) (h : d ≤ m) : k = d := by
  obtain ⟨w, w1, w2, w3⟩ := matching_of_edits hd.1
  have h1 := hb.2 w w1 w2 (within_of_mismatches (by omega))
  obtain ⟨w', v1, v2, _, v4⟩ := hb.1
  have h2 := edits_of_matching w'
  rw [v1, v2, v4] at h2
  have := hd.2 _ h2
  omega

theorem within_lengths (w : List Column) : Within ((lefts w).length + (rights w).length) w := by
  rintro p ⟨q, rfl⟩
  rw [lefts_append, rights_append, List.length_append, List.length_append]
  omega

/-- Without a limit on the offset, the least cost of a matching is the distance. -/
theorem distance_of_wide {s t : Str} {k : Nat} (hb : IsBandDistance (s.length + t.length) s t k) : IsDistance s t k := by
  constructor
  · obtain ⟨w', v1, v2, _, v4⟩ := hb.1
    have h2 := edits_of_matching w'
    rwa [v1, v2, v4] at h2
  · intro n hn
    obtain ⟨w, w1, w2, w3⟩ := matching_of_edits hn
    have h := within_lengths w
    rw [w1, w2] at h
    exact Nat.le_trans (hb.2 w w1 w2 h) w3

/-! ### The code computes the recurrence -/

theorem take_reverse_cons {a : Str} {i : Nat} (h : i < a.length) : (a.take (i + 1)).reverse = a[i] :: (a.take i).reverse := by
  rw [List.take_succ_eq_append_getElem h]; simp

/-- The value the recurrence gives to `(i, j)`. -/
def cell (a b : Str) (m i j : Nat) : Nat := bandD m (a.take i).reverse (b.take j).reverse

theorem cell_le {a b : Str} {m i j : Nat} (hi : i ≤ a.length) (hj : j ≤ b.length) (h : Near m i j) : cell a b m i j ≤ max i j := by
  have := bandD_le (m := m) (s := (a.take i).reverse) (t := (b.take j).reverse) (by simpa [hi, hj] using h)
  unfold cell
  simpa [hi, hj] using this

theorem cell_zero {a b : Str} {m j : Nat} (hj : j ≤ b.length) (h : Near m 0 j) : cell a b m 0 j = j := by
  simp only [Near] at h
  rw [cell]
  simp only [List.take_zero, List.reverse_nil]
  rw [bandD_nil (by simp; omega)]; simp; omega

theorem cell_succ_zero {a b : Str} {m i : Nat} (hi : i + 1 ≤ a.length) (h : Near m (i + 1) 0) : cell a b m (i + 1) 0 = i + 1 := by
  simp only [Near] at h
  rw [cell, take_reverse_cons (by omega)]
  simp only [List.take_zero, List.reverse_nil]
  rw [bandD_cons_nil (by simp; omega)]; simp; omega

theorem cell_succ {a b : Str} {m i j : Nat} (hi : i < a.length) (hj : j < b.length) (h : Near m i j) :
    cell a b m (i + 1) (j + 1) = if a[i]? = b[j]? then cell a b m i j
      else 1 + min (cell a b m i j) (min (cell a b m (i + 1) j) (cell a b m i (j + 1))) := by
  have l1 : (a.take i).reverse.length = i := by simp; omega
  have l2 : (b.take j).reverse.length = j := by simp; omega
  unfold cell
  rw [take_reverse_cons hi, take_reverse_cons hj, bandD_cons (by rw [l1, l2]; exact h)]
  have : (a[i]? = b[j]?) ↔ a[i] = b[j] := by
    rw [List.getElem?_eq_getElem hi, List.getElem?_eq_getElem hj]; simp
  by_cases e : a[i] = b[j]
  · rw [if_pos e, if_pos (this.2 e)]
  · rw [if_neg e, if_neg (fun h => e (this.1 h))]

theorem cell_far {a b : Str} {m i j : Nat} (hi : i ≤ a.length) (hj : j ≤ b.length) (h : ¬ Near m i j) : cell a b m i j = topSize :=
  bandD_far (by simpa [hi, hj] using h)

theorem succSize_eq {x : Nat} (h : x < topSize) : succSize x = 1 + x := by
  unfold succSize topSize at *; omega

/-- Every entry of the table is unset or right. -/
def SlowOk (a b : Str) (D : Table) : Prop :=
  ∀ i j, i ≤ a.length → j ≤ b.length → D i j = topSize ∨ D i j = cell a b (a.length + b.length) i j

theorem SlowOk.put {a b : Str} {D : Table} (h : SlowOk a b D) (i j : Nat) :
    SlowOk a b (D.put i j (cell a b (a.length + b.length) i j)) := by
  intro i' j' hi hj
  unfold Table.put
  split
  · rename_i e; rw [e.1, e.2]; exact .inr rfl
  · exact h i' j' hi hj

theorem slowCompute_ok {a b : Str} (ha : a.length < topSize) (hb : b.length < topSize) :
    ∀ (n i j : Nat) (D : Table), i + j < n → i ≤ a.length → j ≤ b.length → SlowOk a b D →
      (slowCompute a b i j D).1 = cell a b (a.length + b.length) i j ∧ SlowOk a b (slowCompute a b i j D).2 := by
  intro n
  induction n with
  | zero => intro i j D h; omega
  | succ n ih =>
    intro i j D h hi hj hD
    rw [slowCompute.eq_def]
    split
    · cases i with
      | zero =>
        have hc := cell_zero (a := a) (b := b) (m := a.length + b.length) (j := j) hj (by simp [Near]; omega)
        exact ⟨hc.symm, by simpa [hc] using hD.put 0 j⟩
      | succ i =>
        cases j with
        | zero =>
          have hc := cell_succ_zero (a := a) (b := b) (m := a.length + b.length) hi (by simp [Near]; omega)
          exact ⟨hc.symm, by simpa [hc] using hD.put (i + 1) 0⟩
        | succ j =>
          have hn : Near (a.length + b.length) i j := by simp [Near]; omega
          have hc := cell_succ (a := a) (b := b) (m := a.length + b.length) (i := i) (j := j) (by omega) (by omega) hn
          have r1 := ih i j D (by omega) (by omega) (by omega) hD
          by_cases e : a[i]? = b[j]?
          · simp only [e, if_true] at hc ⊢
            rw [r1.1, ← hc]
            exact ⟨rfl, r1.2.put (i + 1) (j + 1)⟩
          · simp only [e, if_false] at hc ⊢
            have r2 := ih (i + 1) j _ (by omega) (by omega) (by omega) r1.2
            have r3 := ih i (j + 1) _ (by omega) (by omega) (by omega) r2.2
            have hv : succSize (min (slowCompute a b i j D).1 (min (slowCompute a b (i + 1) j (slowCompute a b i j D).2).1
                (slowCompute a b i (j + 1) (slowCompute a b (i + 1) j (slowCompute a b i j D).2).2).1)) =
                cell a b (a.length + b.length) (i + 1) (j + 1) := by
              rw [r1.1, r2.1, r3.1, hc, succSize_eq]
              have := cell_le (a := a) (b := b) (i := i) (j := j) (by omega) (by omega) hn
              omega
            rw [hv]
            exact ⟨rfl, r3.2.put (i + 1) (j + 1)⟩
    · rename_i e
      exact ⟨(hD i j hi hj).resolve_left e, hD⟩

theorem diagonal_near {m i j : Nat} (hm : m < 2 ^ 59) (hi : i < 2 ^ 63) (hj : j < 2 ^ 63) :
    diagonal m i j ≤ twiceSize m ↔ Near m i j := by
  unfold diagonal twiceSize Near
  omega

theorem diagonal_inj {m i j j' : Nat} (hm : m < 2 ^ 59) (hi : i < 2 ^ 63) (hj : j < 2 ^ 63) (hj' : j' < 2 ^ 63) :
    diagonal m i j = diagonal m i j' ↔ j = j' := by
  unfold diagonal
  omega

def FastOk (a b : Str) (m : Nat) (D : Table) : Prop :=
  ∀ i j, i ≤ a.length → j ≤ b.length → D i (diagonal m i j) = topSize ∨ D i (diagonal m i j) = cell a b m i j

theorem FastOk.put {a b : Str} {m : Nat} {D : Table} (ha : a.length < 2 ^ 63) (hb : b.length < 2 ^ 63) (hm : m < 2 ^ 59) (h : FastOk a b m D)
    (i j : Nat) (hi : i ≤ a.length) (hj : j ≤ b.length) :
    FastOk a b m (D.put i (diagonal m i j) (cell a b m i j)) := by
  intro i' j' hi' hj'
  unfold Table.put
  split
  · rename_i e
    obtain ⟨rfl, e⟩ := e
    have := (diagonal_inj hm (by omega) (by omega) (by omega)).1 e
    rw [this]; exact .inr rfl
  · exact h i' j' hi' hj'

theorem fastCompute_ok {a b : Str} {m : Nat} (ha : a.length < 2 ^ 63) (hb : b.length < 2 ^ 63) (hm : m < 2 ^ 59) :
    ∀ (n i j : Nat) (D : Table), i + j < n → i ≤ a.length → j ≤ b.length → FastOk a b m D →
      (fastCompute a b m i j D).1 = cell a b m i j ∧ FastOk a b m (fastCompute a b m i j D).2 := by
  have htop : (2 : Nat) ^ 63 < topSize := by unfold topSize; omega
  intro n
  induction n with
  | zero => intro i j D h; omega
  | succ n ih =>
    intro i j D h hi hj hD
    rw [fastCompute.eq_def]
    by_cases hN : Near m i j
    · rw [if_pos ((diagonal_near hm (by omega) (by omega)).2 hN)]
      split
      · cases i with
        | zero =>
          have hc := cell_zero (a := a) (b := b) (m := m) (j := j) hj hN
          exact ⟨hc.symm, by simpa [hc] using hD.put ha hb hm 0 j hi hj⟩
        | succ i =>
          cases j with
          | zero =>
            have hc := cell_succ_zero (a := a) (b := b) (m := m) hi hN
            exact ⟨hc.symm, by simpa [hc] using hD.put ha hb hm (i + 1) 0 hi hj⟩
          | succ j =>
            have hn : Near m i j := by simp [Near] at *; omega
            have hc := cell_succ (a := a) (b := b) (m := m) (i := i) (j := j) (by omega) (by omega) hn
            have r1 := ih i j D (by omega) (by omega) (by omega) hD
            by_cases e : a[i]? = b[j]?
            · simp only [e, if_true] at hc ⊢
              rw [r1.1, ← hc]
              exact ⟨rfl, r1.2.put ha hb hm (i + 1) (j + 1) hi hj⟩
            · simp only [e, if_false] at hc ⊢
              have r2 := ih (i + 1) j _ (by omega) (by omega) (by omega) r1.2
              have r3 := ih i (j + 1) _ (by omega) (by omega) (by omega) r2.2
              have hv : succSize (min (fastCompute a b m i j D).1 (min (fastCompute a b m (i + 1) j (fastCompute a b m i j D).2).1
                  (fastCompute a b m i (j + 1) (fastCompute a b m (i + 1) j (fastCompute a b m i j D).2).2).1)) =
                  cell a b m (i + 1) (j + 1) := by
                rw [r1.1, r2.1, r3.1, hc, succSize_eq]
                have := cell_le (a := a) (b := b) (i := i) (j := j) (by omega) (by omega) hn
                omega
              rw [hv]
              exact ⟨rfl, r3.2.put ha hb hm (i + 1) (j + 1) hi hj⟩
      · rename_i e
        exact ⟨(hD i j hi hj).resolve_left e, hD⟩
    · rw [if_neg (fun h => hN ((diagonal_near hm (by omega) (by omega)).1 h))]
      exact ⟨(cell_far hi hj hN).symm, hD⟩

/-! ### Theorems -/

/-- **C67.** `SlowEditDistance(a, b)` is the least number of insertions, deletions and replacements of single characters that turn `a` into
`b`. (A `std::string` is shorter than `2^63`.) -/
theorem slow_is_distance (a b : Str) (ha : a.length < 2 ^ 63) (hb : b.length < 2 ^ 63) : IsDistance a b (slowEditDistance a b) := by
  have htop : (2 : Nat) ^ 63 < topSize := by unfold topSize; omega
  have h := (slowCompute_ok (a := a) (b := b) (by omega) (by omega) _ a.length b.length (fun _ _ => topSize) (Nat.lt_succ_self _)
    (Nat.le_refl _) (Nat.le_refl _) (fun _ _ _ _ => .inl rfl)).1
  have hw := bandD_isBand (m := a.length + b.length) (s := a) (t := b) (by omega) (by omega) (by simp [Near]; omega)
  have := distance_of_wide hw
  rw [slowEditDistance, h, cell]
  simpa using this

/-- **C67.** `FastEditDistance(a, b, max_offset)` is `size_t(-1)` if the lengths are more than `max_offset` apart, and otherwise the least cost
of a letter by letter matching in which the strings are never more than `max_offset` apart. -/
theorem fast_is_band_distance (a b : Str) (m : Nat) (ha : a.length < 2 ^ 63) (hb : b.length < 2 ^ 63) (hm : m < 2 ^ 59) :
    ∃ k, fastEditDistance a b m = some k ∧
      ((a.length ≤ b.length + m ∧ b.length ≤ a.length + m ∧ IsBandDistance m a b k) ∨
       (¬ (a.length ≤ b.length + m ∧ b.length ≤ a.length + m) ∧ k = topSize)) := by
  have htop : (2 : Nat) ^ 63 < topSize := by unfold topSize; omega
  have h := (fastCompute_ok (a := a) (b := b) ha hb hm _ a.length b.length (fun _ _ => topSize) (Nat.lt_succ_self _)
    (Nat.le_refl _) (Nat.le_refl _) (fun _ _ _ _ => .inl rfl)).1
  refine ⟨_, if_pos (by omega), ?_⟩
  rw [h]
  by_cases hn : Near m a.length b.length
  · refine .inl ⟨hn.1, hn.2, ?_⟩
    have := bandD_isBand (m := m) (s := a) (t := b) (by omega) (by omega) hn
    rw [cell]; simpa using this
  · exact .inr ⟨hn, cell_far (Nat.le_refl _) (Nat.le_refl _) hn⟩

/-- **C67.** "The result is equal to Levenshtein distance if it is <= max_offset", whichever of the two `it` means: if the distance is at most
`max_offset`, or if the result is. -/
theorem fast_is_distance (a b : Str) (m : Nat) (ha : a.length < 2 ^ 63) (hb : b.length < 2 ^ 63) (hm : m < 2 ^ 59) {k d : Nat}
    (hk : fastEditDistance a b m = some k) (hd : IsDistance a b d) (h : d ≤ m ∨ k ≤ m) : k = d := by
  have htop : (2 : Nat) ^ 63 < topSize := by unfold topSize; omega
  obtain ⟨k', hk', hc⟩ := fast_is_band_distance a b m ha hb hm
  rw [hk] at hk'
  cases hk'
  have up : ∀ {w : List Column}, lefts w = a → rights w = b → d ≤ mismatches w := by
    intro w w1 w2
    have := edits_of_matching w
    rw [w1, w2] at this
    exact hd.2 _ this
  rcases hc with ⟨_, _, hb⟩ | ⟨hn, rfl⟩
  · obtain ⟨w, w1, w2, _, w4⟩ := hb.1
    have := up w1 w2
    exact distance_of_band hb hd (by omega)
  · exfalso
    rcases h with h | h
    · obtain ⟨w, w1, w2, w3⟩ := matching_of_edits hd.1
      have := within_near (within_of_mismatches (m := m) (w := w) (by omega))
      rw [w1, w2] at this
      exact hn this
    · omega

/-- In general the result is never too small. -/
theorem distance_le_fast (a b : Str) (m : Nat) (ha : a.length < 2 ^ 63) (hb : b.length < 2 ^ 63) (hm : m < 2 ^ 59) {k d : Nat}
    (hk : fastEditDistance a b m = some k) (hd : IsDistance a b d) : d ≤ k := by
  have htop : (2 : Nat) ^ 63 < topSize := by unfold topSize; omega
  obtain ⟨k', hk', hc⟩ := fast_is_band_distance a b m ha hb hm
  rw [hk] at hk'
  cases hk'
  rcases hc with ⟨_, _, hb⟩ | ⟨hn, rfl⟩
  · obtain ⟨w, w1, w2, _, w4⟩ := hb.1
    have := edits_of_matching w
    rw [w1, w2, w4] at this
    exact hd.2 _ this
  · have hs := slow_is_distance a b ha hb
    have e : d = slowEditDistance a b := Nat.le_antisymm (hd.2 _ hs.1) (hs.2 _ hd.1)
    have hw := bandD_le (m := a.length + b.length) (s := a.reverse) (t := b.reverse) (by simp [Near]; omega)
    have hi := distance_of_wide (bandD_isBand (m := a.length + b.length) (s := a) (t := b) (by omega) (by omega) (by simp [Near]; omega))
    have := hd.2 _ hi.1
    simp at hw
    omega

theorem fastCompute_far {a b : Str} {m i j : Nat} {D : Table} (h : ¬ diagonal m i j ≤ twiceSize m) :
    (fastCompute a b m i j D).1 = topSize := by
  rw [fastCompute.eq_def, if_neg h]

/-- A limit of `2^63` does not mean "no limit": the width of the table overflows to one and the result is `size_t(-1)`, even for equal strings. -/
theorem fast_huge_offset (a : Str) (ha : a.length < 2 ^ 63) (m : Nat) (hm : m = 2 ^ 63) : fastEditDistance a a m = some topSize := by
  have h : ¬ diagonal m a.length a.length ≤ twiceSize m := by
    unfold diagonal twiceSize; omega
  rw [fastEditDistance, if_pos (by omega), fastCompute_far h]

/-- A limit of `size_t(-1)` throws. -/
theorem fast_max_offset_throws (a b : Str) : fastEditDistance a b topSize = none := by
  rw [fastEditDistance, if_neg (by unfold topSize; omega)]

/-! ### Examples -/

example : IsDistance ['a', 'b', 'c'] ['b', 'x', 'c'] (slowEditDistance ['a', 'b', 'c'] ['b', 'x', 'c']) :=
  slow_is_distance _ _ (by decide) (by decide)

/-- The distance of `abc` and `bxc` is two, and the matching that never leaves the diagonal costs two as well. -/
theorem slow_example : slowEditDistance ['a', 'b', 'c'] ['b', 'x', 'c'] = 2 := by
  simp [slowEditDistance, slowCompute, Table.put, topSize, succSize]

/-- With `max_offset = 0` letters are compared place by place: `abc` to `bca` costs 3 instead of 2. -/
theorem fast_example : fastEditDistance ['a', 'b', 'c'] ['b', 'c', 'a'] 0 = some 3 ∧
    fastEditDistance ['a', 'b', 'c'] ['b', 'c', 'a'] 1 = some 2 := by
  decide +kernel

end Current.Strings
