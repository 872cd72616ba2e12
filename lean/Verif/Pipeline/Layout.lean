import Verif.Pipeline.Model
set_option linter.unusedSimpArgs false
set_option linter.unusedVariables false

/-! # Pipelines: the types say who waits for whom. -/

namespace Current.Pipeline

/-- `U` of a worker. -/
def U (ws : List W) (i : Nat) : Nat := (uv ws i).1
/-- `V` of a worker. -/
def V (ws : List W) (i : Nat) : Nat := (uv ws i).2

/-- The stages are intervals. -/
structure Layout (ws : List W) : Prop where
  bounds : ∀ i, 1 ≤ i → i < nOf ws → 1 ≤ U ws i ∧ U ws i ≤ i ∧ i ≤ V ws i ∧ V ws i < nOf ws
  same : ∀ i j, 1 ≤ i → i < nOf ws → U ws i ≤ j → j ≤ V ws i → U ws j = U ws i ∧ V ws j = V ws i

theorem expand_length (i u v n : Nat) : (expand i u v n).length = n := by
  induction n generalizing i with
  | zero => rfl
  | succ n ih => simp [expand, ih]

/-- The number of workers of a block. -/
def Block.size : Block → Nat
  | .worker => 1
  | .parallel n => n + 1

theorem find_expand (i u v n z : Nat) : (expand i u v n).find? (fun w => decide (w.i = z)) = if i ≤ z ∧ z < i + n then some ⟨z, u, v⟩ else none := by
  induction n generalizing i with
  | zero =>
    simp only [expand, List.find?_nil]
    rw [if_neg (by omega)]
  | succ n ih =>
    simp only [expand, List.find?_cons]
    by_cases h : i = z
    · subst h; rw [if_pos (by omega)]; simp
    · simp only [h, decide_false]
      rw [ih]
      by_cases h2 : i + 1 ≤ z ∧ z < i + 1 + n
      · rw [if_pos h2, if_pos (by omega)]
      · rw [if_neg h2, if_neg (by omega)]

/-- What `find?` gives on a built list: the stage `[u, v]` of a worker. -/
theorem build_spec (bs : List Block) : ∀ (i z : Nat), i ≤ z → z < i + (build i bs).length →
    ∃ u v, (build i bs).find? (fun w => decide (w.i = z)) = some ⟨z, u, v⟩ ∧ i ≤ u ∧ u ≤ z ∧ z ≤ v ∧ v < i + (build i bs).length ∧
      ∀ y, u ≤ y → y ≤ v → (build i bs).find? (fun w => decide (w.i = y)) = some ⟨y, u, v⟩ := by
  induction bs with
  | nil => intro i z h1 h2; simp [build] at h2; omega
  | cons bl bs ih =>
    intro i z h1 h2
    cases bl with
    | worker =>
      simp only [build, List.length_cons, List.find?_cons] at *
      by_cases h : i = z
      · subst h
        refine ⟨i, i, by simp, Nat.le_refl _, Nat.le_refl _, Nat.le_refl _, by omega, ?_⟩
        intro y hy1 hy2
        have : i = y := by omega
        subst this
        simp
      · obtain ⟨u, v, h3, h4, h5, h6, h7, h8⟩ := ih (i + 1) z (by omega) (by omega)
        refine ⟨u, v, by simp [h, h3], by omega, h5, h6, by omega, ?_⟩
        intro y hy1 hy2
        have hne : ¬ i = y := by omega
        simp only [hne, decide_false]
        exact h8 y hy1 hy2
    | parallel n =>
      simp only [build, List.length_append, expand_length, List.find?_append, find_expand] at *
      by_cases h : z < i + (n + 1)
      · refine ⟨i, i + (n + 1) - 1, by rw [if_pos ⟨h1, h⟩]; rfl, Nat.le_refl _, h1, by omega, by omega, ?_⟩
        intro y hy1 hy2
        rw [if_pos (by omega)]
        rfl
      · obtain ⟨u, v, h3, h4, h5, h6, h7, h8⟩ := ih (i + (n + 1)) z (by omega) (by omega)
        refine ⟨u, v, by rw [if_neg (by omega)]; simpa using h3, by omega, h5, h6, by omega, ?_⟩
        intro y hy1 hy2
        rw [if_neg (by omega)]
        simpa using h8 y hy1 hy2

/-- The types of any pipeline are laid out in stages. -/
theorem build_layout (bs : List Block) : Layout (build 1 bs) := by
  have key : ∀ z, 1 ≤ z → z < nOf (build 1 bs) → ∃ u v, uv (build 1 bs) z = (u, v) ∧ 1 ≤ u ∧ u ≤ z ∧ z ≤ v ∧ v < nOf (build 1 bs) ∧
      ∀ y, u ≤ y → y ≤ v → uv (build 1 bs) y = (u, v) := by
    intro z h1 h2
    unfold nOf at *
    obtain ⟨u, v, h3, h4, h5, h6, h7, h8⟩ := build_spec bs 1 z h1 (by omega)
    refine ⟨u, v, by unfold uv; rw [if_neg (by omega), h3], h4, h5, h6, by omega, ?_⟩
    intro y hy1 hy2
    unfold uv
    rw [if_neg (by omega), h8 y hy1 hy2]
  constructor
  · intro i h1 h2
    obtain ⟨u, v, h3, h4⟩ := key i h1 h2
    unfold U V
    rw [h3]
    exact ⟨h4.1, h4.2.1, h4.2.2.1, h4.2.2.2.1⟩
  · intro i j h1 h2 h3 h4
    obtain ⟨u, v, h5, h6⟩ := key i h1 h2
    unfold U V at *
    rw [h5] at h3 h4 ⊢
    have := h6.2.2.2.2 j h3 h4
    rw [this]
    exact ⟨rfl, rfl⟩

/-- A worker shares its stage exactly if it is in a `ParallelPipeline` of more than one. -/
theorem find_isParallel (bs : List Block) : ∀ (i z : Nat) (w : W), (build i bs).find? (fun w => decide (w.i = z)) = some w → w.u ≠ w.v → isParallel i z bs = true := by
  induction bs with
  | nil => intro i z w h; simp [build] at h
  | cons bl bs ih =>
    intro i z w h hne
    cases bl with
    | worker =>
      simp only [build, List.find?_cons, isParallel] at *
      by_cases hz : i = z
      · simp only [hz, decide_true] at h
        cases h
        exact absurd rfl hne
      · simp only [hz, decide_false] at h
        exact ih _ _ _ h hne
    | parallel n =>
      simp only [build, List.find?_append, find_expand, isParallel] at *
      by_cases hz : i ≤ z ∧ z < i + (n + 1)
      · rw [if_pos hz] at h
        simp only [Option.some_or, Option.some.injEq] at h
        subst h
        simp only at hne
        simp only [Bool.or_eq_true, Bool.and_eq_true, decide_eq_true_eq]
        exact Or.inl ⟨hz, by omega⟩
      · rw [if_neg hz] at h
        simp only [Option.none_or] at h
        simp only [Bool.or_eq_true]
        exact Or.inr (ih _ _ _ h hne)

theorem uv_isParallel (bs : List Block) (z : Nat) (h : U (build 1 bs) z ≠ V (build 1 bs) z) : isParallel 1 z bs = true := by
  unfold U V uv at h
  by_cases hz : z = 0
  · rw [if_pos hz] at h; exact absurd rfl h
  · rw [if_neg hz] at h
    split at h
    · rename_i w hw; exact find_isParallel bs 1 z w hw h
    · exact absurd rfl h

/-! ### Minima -/

theorem minRange_le (a : Nat → Nat) (u d j : Nat) (h1 : u ≤ j) (h2 : j ≤ u + d) : minRange a u d ≤ a j := by
  induction d generalizing u with
  | zero =>
    have : j = u := by omega
    subst this; exact Nat.le_refl _
  | succ d ih =>
    simp only [minRange]
    by_cases h : j = u
    · subst h; exact Nat.min_le_left _ _
    · exact Nat.le_trans (Nat.min_le_right _ _) (ih (u + 1) (by omega) (by omega))

theorem minRange_mono (a b : Nat → Nat) (h : ∀ j, a j ≤ b j) (u d : Nat) : minRange a u d ≤ minRange b u d := by
  induction d generalizing u with
  | zero => exact h u
  | succ d ih =>
    simp only [minRange]
    have := h u
    have := ih (u + 1)
    omega

theorem minRange_mem (a : Nat → Nat) (u d : Nat) : ∃ j, u ≤ j ∧ j ≤ u + d ∧ minRange a u d = a j := by
  induction d generalizing u with
  | zero => exact ⟨u, Nat.le_refl _, Nat.le_refl _, rfl⟩
  | succ d ih =>
    obtain ⟨j, h1, h2, h3⟩ := ih (u + 1)
    simp only [minRange]
    by_cases h : a u ≤ minRange a (u + 1) d
    · exact ⟨u, Nat.le_refl _, by omega, by omega⟩
    · exact ⟨j, by omega, by omega, by omega⟩

variable {ws : List W}

/-- The stage before that of a worker: its last member. -/
theorem ready_worker (hl : Layout ws) {i : Nat} (h1 : 1 ≤ i) (h2 : i < nOf ws) (pub : Nat → Nat) :
    readyFor ws pub i = internalReady ws pub (U ws i - 1) := by
  unfold readyFor
  have := hl.bounds i h1 h2
  have e : (nOf ws + (uv ws i).1 - 1) % nOf ws = U ws i - 1 := by
    unfold U at *
    have : nOf ws + (uv ws i).1 - 1 = (uv ws i).1 - 1 + nOf ws := by omega
    rw [this, Nat.add_mod_right, Nat.mod_eq_of_lt (by omega)]
  rw [e]

theorem ready_source (pub : Nat → Nat) : readyFor ws pub 0 = grandTotal ws pub := by
  unfold readyFor grandTotal
  have e : (nOf ws + (uv ws 0).1 - 1) % nOf ws = nOf ws - 1 := by
    have : (uv ws 0).1 = 0 := by simp [uv]
    rw [this, Nat.mod_eq_of_lt (by unfold nOf; omega)]
    omega
  rw [e]

theorem internal_zero (pub : Nat → Nat) : internalReady ws pub 0 = pub 0 := by simp [internalReady, uv, minRange]

theorem internal_le (hl : Layout ws) {i j : Nat} (h1 : 1 ≤ i) (h2 : i < nOf ws) (pub : Nat → Nat) (h3 : U ws i ≤ j) (h4 : j ≤ V ws i) :
    internalReady ws pub i ≤ pub j := by
  have := hl.bounds i h1 h2
  unfold internalReady
  unfold U V at *
  exact minRange_le _ _ _ _ h3 (by omega)

/-- The stage before a stage ends right before it. -/
theorem prev_stage (hl : Layout ws) {i : Nat} (h1 : 1 ≤ i) (h2 : i < nOf ws) (h3 : 1 < U ws i) : V ws (U ws i - 1) = U ws i - 1 := by
  have hb := hl.bounds i h1 h2
  have hu := hl.same i (U ws i) h1 h2 (Nat.le_refl _) (by omega)
  have hb' := hl.bounds (U ws i - 1) (by omega) (by omega)
  rcases Nat.lt_or_ge (U ws i - 1) (V ws (U ws i - 1)) with h | h
  · have := hl.same (U ws i - 1) (U ws i) (by omega) (by omega) (by omega) (by omega)
    omega
  · omega

end Current.Pipeline
