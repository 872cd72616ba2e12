import Verif.Gbt.Tree
import Mathlib.Data.Rat.Floor
import Mathlib.Data.List.Sort
import Mathlib.Data.List.Dedup

set_option linter.unusedSimpArgs false
set_option linter.unusedVariables false

/-! # The input, the scores and the curve (`examples/gradient_boosted_trees/{gbt.cc,evaluate.cc,schema.h}`) -/

namespace Current.Gbt

/-! ### The input -/

/-- `GetNumberOfFeatures`, `schema.h:51-65`: numbers of 32 bits. -/
def numberOfFeatures (M : Option Nat) (names : Option (List String)) (rows : List (List Nat)) : Nat :=
  match M, names with
  | some m, _ => m
  | none, some ns => ns.length
  | none, none => (rows.foldl (fun a e => e.foldl max a) (2 ^ 32 - 1) + 1) % 2 ^ 32

/-- What the comment in `schema.h:31-33` says: the greatest index plus one. -/
def numberOfFeaturesSpec (rows : List (List Nat)) : Nat := (rows.flatten.map (· + 1)).foldl max 0

/-- C133 (a): with neither the number nor the names of the features given, the number of features is zero, whatever the matrix is. -/
theorem derived_number_is_zero (rows : List (List Nat)) (h : ∀ e ∈ rows, ∀ f ∈ e, f < 2 ^ 32) : numberOfFeatures none none rows = 0 := by
  have inner : ∀ (e : List Nat), (∀ f ∈ e, f < 2 ^ 32) → e.foldl max (2 ^ 32 - 1) = 2 ^ 32 - 1 := by
    intro e
    induction e with
    | nil => intro _; rfl
    | cons f e ih =>
      intro hf
      rw [List.foldl_cons, show max (2 ^ 32 - 1) f = 2 ^ 32 - 1 from by have := hf f (by simp); omega]
      exact ih (fun g hg => hf g (by simp [hg]))
  have outer : rows.foldl (fun a e => e.foldl max a) (2 ^ 32 - 1) = 2 ^ 32 - 1 := by
    induction rows with
    | nil => rfl
    | cons e rows ih =>
      rw [List.foldl_cons, inner e (h e (by simp))]
      exact ih (fun g hg => h g (by simp [hg]))
  show (rows.foldl (fun a e => e.foldl max a) (2 ^ 32 - 1) + 1) % 2 ^ 32 = 0
  rw [outer]
  decide

/-- While there may be features. -/
theorem derived_number_should_be : numberOfFeaturesSpec [[0, 3], [1]] = 4 ∧ numberOfFeatures none none [[0, 3], [1]] = 0 := by decide

/-- The body of the loop which transposes the matrix, `gbt.cc:133-134`. -/
def push (i : Nat) (a : (Nat → List Nat) × (Nat → Nat → Bool)) (f : Nat) : (Nat → List Nat) × (Nat → Nat → Bool) :=
  (fun f' => if f' = f then a.1 f' ++ [i] else a.1 f', fun f' p => if f' = f ∧ p = i then true else a.2 f' p)

/-- The loop which transposes the matrix, `gbt.cc:129-136`. Not modelled: features beyond the number of features, which the program writes out of bounds. -/
def transpose (rows : Nat → List Nat) (N : Nat) : (Nat → List Nat) × (Nat → Nat → Bool) :=
  (List.range N).foldl (fun a i => (rows i).foldl (push i) a) (fun _ => [], fun _ _ => false)

theorem transpose_row (i : Nat) (row : List Nat) (h : row.Nodup) : ∀ a : (Nat → List Nat) × (Nat → Nat → Bool),
    row.foldl (push i) a = ((fun f' => if f' ∈ row then a.1 f' ++ [i] else a.1 f'), (fun f' p => if f' ∈ row ∧ p = i then true else a.2 f' p)) := by
  induction row with
  | nil => intro a; simp
  | cons f row ih =>
    intro a
    obtain ⟨h1, h2⟩ := List.nodup_cons.1 h
    rw [List.foldl_cons, ih h2]
    simp only [push, Prod.mk.injEq]
    constructor
    · funext f'
      by_cases e : f' = f
      · subst e; simp [h1]
      · simp [e]
    · funext f' p
      by_cases e : f' = f
      · subst e; by_cases q : p = i <;> simp [h1, q]
      · simp [e]

theorem transpose_eq (rows : Nat → List Nat) (h : ∀ i, (rows i).Nodup) (N : Nat) :
    transpose rows N = ((fun f => (List.range N).filter (fun p => decide (f ∈ rows p))), (fun f p => decide (p < N) && decide (f ∈ rows p))) := by
  unfold transpose
  induction N with
  | zero => simp
  | succ N ih =>
    rw [List.range_succ, List.foldl_append, ih, List.foldl_cons, List.foldl_nil, transpose_row N (rows N) (h N)]
    simp only [Prod.mk.injEq]
    constructor
    · funext f
      rw [List.filter_append]
      by_cases e : f ∈ rows N <;> simp [e]
    · funext f p
      by_cases e : p = N
      · subst e; by_cases q : f ∈ rows p <;> simp [q]
      · have : p < N + 1 ↔ p < N := by omega
        simp [e, this]

/-- C133 (b): the lists and the matrix which the program makes of its input are those the builder relies on, if no example lists a feature twice. -/
theorem transposed_matrix_is_right (rows : Nat → List Nat) (h : ∀ i, (rows i).Nodup) (N : Nat) :
    (∀ f, (transpose rows N).1 f = members N ((transpose rows N).2 f)) ∧ ∀ f p, p < N → ((transpose rows N).2 f p = true ↔ f ∈ rows p) := by
  rw [transpose_eq rows h N]
  constructor
  · intro f
    unfold members
    apply List.filter_congr
    intro p hp
    simp [List.mem_range.1 hp]
  · intro f p hp
    simp [hp]

example : (fun f => (transpose (fun i => [[0, 2], [2], [1, 0]].getD i []) 3).1 f) 2 = [0, 1] ∧ (transpose (fun i => [[0, 2], [2], [1, 0]].getD i []) 3).1 0 = [0, 2] := by decide

/-! ### The score -/

/-- The conversion of a `double` to `int64_t`: towards zero. -/
def trunc (q : ℚ) : ℤ := q.num.tdiv q.den

/-- The score of an example while training, `gbt.cc:205-207`: the value returned by `Apply` (`train.h:151`) is of type `int64_t`. -/
def trainScore (leaves : List ℚ) : ℤ := leaves.foldl (fun a v => a + trunc v) 0
/-- The score in the evaluation, `evaluate.cc:50-61`: `int64_t += double`. -/
def evalScore (leaves : List ℚ) : ℤ := leaves.foldl (fun a v => trunc ((a : ℚ) + v)) 0

theorem trunc_int (z : ℤ) : trunc (z : ℚ) = z := by unfold trunc; simp

/-- C133 (c), partial: an example has the same score in the evaluation as it had while training, if the values of its leaves are integers. Missing: other leaves, for which see `scores_differ`. -/
theorem evaluation_agrees_partial (zs : List ℤ) : evalScore (zs.map (fun z : ℤ => (z : ℚ))) = trainScore (zs.map (fun z : ℤ => (z : ℚ))) := by
  unfold evalScore trainScore
  generalize (0 : ℤ) = a
  induction zs generalizing a with
  | nil => rfl
  | cons z zs ih =>
    simp only [List.map_cons, List.foldl_cons]
    rw [trunc_int, show (a : ℚ) + (z : ℚ) = ((a + z : ℤ) : ℚ) by push_cast; ring, trunc_int]
    exact ih _

/-- Two leaves with the values 5 and -1/2: five while training, four in the evaluation. -/
theorem scores_differ : trainScore [5, -1 / 2] = 5 ∧ evalScore [5, -1 / 2] = 4 := by decide +kernel

/-! ### The training set and the test set -/

/-- `gbt.cc:138-160` with a fraction other than zero: `c` is how many examples of a label are taken, the orders are those after the shuffle. -/
def divide (fraction : ℚ) (ex0 ex1 : List Nat) : List Nat × List Nat :=
  let c0 := (fraction * ex0.length).floor.toNat
  let c1 := (fraction * ex1.length).floor.toNat
  (ex0.take c0 ++ ex1.take c1, ex0.drop c0 ++ ex1.drop c1)

/-- The examples of a label, `gbt.cc:119-122`. -/
def withLabel (N : Nat) (label : Nat → Bool) (b : Bool) : List Nat := (List.range N).filter (fun i => label i == b)

/-- C133 (d): whatever the shuffle does, every example is in one of the two sets, in one only, and once. -/
theorem every_example_is_used (N : Nat) (label : Nat → Bool) (fraction : ℚ) (ex0 ex1 : List Nat) (h0 : ex0.Perm (withLabel N label false)) (h1 : ex1.Perm (withLabel N label true)) :
    ((divide fraction ex0 ex1).1 ++ (divide fraction ex0 ex1).2).Perm (List.range N) := by
  unfold divide
  simp only
  generalize (fraction * ex0.length).floor.toNat = c0
  generalize (fraction * ex1.length).floor.toNat = c1
  have e : ((ex0.take c0 ++ ex1.take c1) ++ (ex0.drop c0 ++ ex1.drop c1)).Perm (ex0 ++ ex1) := by
    have a : (ex0 ++ ex1).Perm ((ex0.take c0 ++ ex0.drop c0) ++ (ex1.take c1 ++ ex1.drop c1)) := by rw [List.take_append_drop, List.take_append_drop]
    refine List.Perm.trans ?_ a.symm
    rw [List.append_assoc, List.append_assoc]
    refine List.Perm.append_left _ ?_
    rw [← List.append_assoc, ← List.append_assoc]
    exact List.Perm.append_right _ List.perm_append_comm
  refine e.trans ((h0.append h1).trans ?_)
  refine List.Perm.trans ?_ (List.filter_append_perm (fun i => label i == false) (List.range N))
  refine List.Perm.append_left _ (List.Perm.of_eq ?_)
  unfold withLabel
  apply List.filter_congr
  intro i _
  cases label i <;> rfl

/-- With "the fraction of examples to use as the test set" being a quarter, a quarter of the examples is used for training. -/
theorem fraction_is_of_the_training_set : (divide (1 / 4) (List.range 8) ((List.range 4).map (· + 8))) = ([0, 1, 8], [2, 3, 4, 5, 6, 7, 9, 10, 11]) := by decide +kernel

/-! ### The curve -/

/-- The state of the loop, `gbt.cc:86-91`. -/
structure PR where
  area2 : ℚ := 0
  precision : ℚ := 1
  recall : ℚ := 0
  scanned : Nat := 0
  positives : ℚ := 0

/-- The body of the inner loop, `gbt.cc:96-102`. -/
def PR.point (P : Nat) (save : ℚ) (good total : Nat) (s : PR) (i : Nat) : PR :=
  let positives := save + 1 * ((i : ℚ) + 1) * good / total
  let recall := positives / P
  let precision := positives / ((s.scanned + 1 : Nat) : ℚ)
  ⟨s.area2 + (precision + s.precision) * (recall - s.recall), precision, recall, s.scanned + 1, positives⟩

/-- The body of the outer loop, `gbt.cc:93-104`. -/
def PR.group (P : Nat) (s : PR) (g : Nat × Nat) : PR := (List.range g.2).foldl (PR.point P s.positives g.1 g.2) s

/-- The number of the positive ones and the number of all, `gbt.cc:74-84`, by descending score. -/
def groups (score : Nat → ℤ) (label : Nat → Bool) (pts : List Nat) : List (Nat × Nat) :=
  (((pts.map score).dedup).insertionSort (fun a b => b ≤ a)).map (fun s => ((pts.filter (fun p => score p == s)).countP label, (pts.filter (fun p => score p == s)).length))

/-- `ComputeAreaUnderPrecisionRecallCurve`, `gbt.cc:67-108`, with rational numbers in place of doubles. -/
def areaUnderCurve (score : Nat → ℤ) (label : Nat → Bool) (pts : List Nat) : ℚ :=
  let s := (groups score label pts).foldl (PR.group (pts.countP label)) {}
  (1 / 2) * (s.area2 + s.precision * (1 - s.recall))

/-- The invariant of the loop. -/
structure PR.Ok (P : Nat) (s : PR) : Prop where
  a0 : 0 ≤ s.area2
  a1 : s.area2 ≤ 2 * s.recall
  p0 : 0 ≤ s.precision
  p1 : s.precision ≤ 1
  r : s.recall = s.positives / P
  q0 : 0 ≤ s.positives
  q1 : s.positives ≤ s.scanned

theorem PR.group_prefix {P : Nat} (hP : 0 < P) {s : PR} (h : s.Ok P) {good total : Nat} (hg : good ≤ total) (ht : 0 < total) (k : Nat) :
    ((List.range k).foldl (PR.point P s.positives good total) s).Ok P ∧ ((List.range k).foldl (PR.point P s.positives good total) s).positives = s.positives + (k : ℚ) * good / total ∧
      ((List.range k).foldl (PR.point P s.positives good total) s).scanned = s.scanned + k := by
  have hPq : (0 : ℚ) < P := by exact_mod_cast hP
  have htq : (0 : ℚ) < total := by exact_mod_cast ht
  have hr0 : (0 : ℚ) ≤ (good : ℚ) / total := div_nonneg (by positivity) (le_of_lt htq)
  have hr1 : (good : ℚ) / total ≤ 1 := by rw [div_le_one htq]; exact_mod_cast hg
  induction k with
  | zero => simp [h]
  | succ k ih =>
    rw [List.range_succ, List.foldl_append, List.foldl_cons, List.foldl_nil]
    generalize (List.range k).foldl (PR.point P s.positives good total) s = t at ih
    obtain ⟨ok, e1, e2⟩ := ih
    have hpos : (PR.point P s.positives good total t k).positives = t.positives + (good : ℚ) / total := by
      show s.positives + 1 * ((k : ℚ) + 1) * good / total = _
      rw [e1]; ring
    have hq0 : 0 ≤ t.positives + (good : ℚ) / total := by linarith [ok.q0]
    have hsc : (0 : ℚ) < ((t.scanned + 1 : Nat) : ℚ) := by positivity
    have hq1 : t.positives + (good : ℚ) / total ≤ ((t.scanned + 1 : Nat) : ℚ) := by push_cast; linarith [ok.q1]
    have hrec : (PR.point P s.positives good total t k).recall = (t.positives + (good : ℚ) / total) / P := by rw [← hpos]; rfl
    have hprec : (PR.point P s.positives good total t k).precision = (t.positives + (good : ℚ) / total) / ((t.scanned + 1 : Nat) : ℚ) := by rw [← hpos]; rfl
    have hpr0 : 0 ≤ (PR.point P s.positives good total t k).precision := by rw [hprec]; exact div_nonneg hq0 (le_of_lt hsc)
    have hpr1 : (PR.point P s.positives good total t k).precision ≤ 1 := by rw [hprec, div_le_one hsc]; exact hq1
    have hdr : 0 ≤ (PR.point P s.positives good total t k).recall - t.recall := by
      rw [hrec, ok.r, ← sub_div]
      exact div_nonneg (by linarith) (le_of_lt hPq)
    have harea : (PR.point P s.positives good total t k).area2 = t.area2 + ((PR.point P s.positives good total t k).precision + t.precision) * ((PR.point P s.positives good total t k).recall - t.recall) := rfl
    refine ⟨⟨?_, ?_, hpr0, hpr1, by rw [hrec, hpos], by rw [hpos]; exact hq0, ?_⟩, ?_, ?_⟩
    · rw [harea]
      have := mul_nonneg (add_nonneg hpr0 ok.p0) hdr
      linarith [ok.a0]
    · rw [harea]
      have := mul_le_mul_of_nonneg_right (by linarith [ok.p1] : (PR.point P s.positives good total t k).precision + t.precision ≤ 2) hdr
      linarith [ok.a1]
    · rw [hpos]; exact hq1
    · rw [hpos, e1]; push_cast; ring
    · show t.scanned + 1 = _
      rw [e2]; omega

theorem PR.group_ok {P : Nat} (hP : 0 < P) {s : PR} (h : s.Ok P) {g : Nat × Nat} (hg : g.1 ≤ g.2) (ht : 0 < g.2) :
    (PR.group P s g).Ok P ∧ (PR.group P s g).positives = s.positives + g.1 := by
  obtain ⟨a, b, _⟩ := PR.group_prefix hP h hg ht g.2
  refine ⟨a, ?_⟩
  unfold PR.group
  rw [b]
  have htq : (g.2 : ℚ) ≠ 0 := by exact_mod_cast (by omega : g.2 ≠ 0)
  field_simp

theorem PR.groups_ok {P : Nat} (hP : 0 < P) (gs : List (Nat × Nat)) (hg : ∀ g ∈ gs, g.1 ≤ g.2 ∧ 0 < g.2) : ∀ s : PR, s.Ok P →
    (gs.foldl (PR.group P) s).Ok P ∧ (gs.foldl (PR.group P) s).positives = s.positives + ((gs.map Prod.fst).sum : Nat) := by
  induction gs with
  | nil => intro s h; simp [h]
  | cons g gs ih =>
    intro s h
    obtain ⟨a, b⟩ := PR.group_ok hP h (hg g (by simp)).1 (hg g (by simp)).2
    obtain ⟨c, e⟩ := ih (fun x hx => hg x (by simp [hx])) _ a
    rw [List.foldl_cons]
    refine ⟨c, ?_⟩
    rw [e, b, List.map_cons, List.sum_cons]
    push_cast
    ring

theorem PR.init_ok (P : Nat) : ({} : PR).Ok P := by
  constructor <;> norm_num

theorem sum_pick (f : ℤ → Nat) (a : ℤ) (b : Nat) : ∀ ss : List ℤ, ss.Nodup → (ss.map (fun s => f s + if a = s then b else 0)).sum = (ss.map f).sum + if a ∈ ss then b else 0 := by
  intro ss
  induction ss with
  | nil => intro _; simp
  | cons s ss ih =>
    intro h
    obtain ⟨h1, h2⟩ := List.nodup_cons.1 h
    simp only [List.map_cons, List.sum_cons, ih h2, List.mem_cons]
    by_cases e : a = s
    · subst e; simp [h1]; omega
    · simp [e]; omega

theorem sum_groups (score : Nat → ℤ) (label : Nat → Bool) (ss : List ℤ) (hn : ss.Nodup) : ∀ pts : List Nat, (∀ p ∈ pts, score p ∈ ss) →
    (ss.map (fun s => (pts.filter (fun p => score p == s)).countP label)).sum = pts.countP label := by
  intro pts
  induction pts with
  | nil => intro _; simp
  | cons p pts ih =>
    intro h
    have e : (fun s => ((p :: pts).filter (fun p => score p == s)).countP label) = (fun s => (pts.filter (fun p => score p == s)).countP label + if score p = s then (if label p then 1 else 0) else 0) := by
      funext s
      by_cases q : score p = s
      · simp [q, List.filter_cons, List.countP_cons]
      · simp [q, List.filter_cons]
    rw [e, sum_pick _ _ _ ss hn, ih (fun x hx => h x (by simp [hx])), if_pos (h p (by simp)), List.countP_cons]

theorem groups_facts (score : Nat → ℤ) (label : Nat → Bool) (pts : List Nat) :
    (∀ g ∈ groups score label pts, g.1 ≤ g.2 ∧ 0 < g.2) ∧ ((groups score label pts).map Prod.fst).sum = pts.countP label := by
  constructor
  · intro g hg
    unfold groups at hg
    rw [List.mem_map] at hg
    obtain ⟨s, hs, rfl⟩ := hg
    rw [List.mem_insertionSort, List.mem_dedup, List.mem_map] at hs
    obtain ⟨p, hp, rfl⟩ := hs
    refine ⟨List.countP_le_length, ?_⟩
    apply List.length_pos_of_mem (a := p)
    rw [List.mem_filter]
    exact ⟨hp, by simp⟩
  · unfold groups
    rw [List.map_map]
    refine (sum_groups score label _ ?_ pts ?_)
    · exact (List.perm_insertionSort _ _).nodup_iff.2 (List.nodup_dedup _)
    · intro p hp
      rw [List.mem_insertionSort, List.mem_dedup]
      exact List.mem_map_of_mem hp

/-- C133 (e): for any scores and labels, if there is a positive example: the area is between zero and one. -/
theorem area_is_a_fraction (score : Nat → ℤ) (label : Nat → Bool) (pts : List Nat) (h : ∃ p ∈ pts, label p = true) : 0 ≤ areaUnderCurve score label pts ∧ areaUnderCurve score label pts ≤ 1 := by
  have hP : 0 < pts.countP label := List.countP_pos_iff.2 h
  obtain ⟨hg, hs⟩ := groups_facts score label pts
  obtain ⟨ok, e⟩ := PR.groups_ok hP _ hg {} (PR.init_ok _)
  unfold areaUnderCurve
  simp only
  generalize (groups score label pts).foldl (PR.group (pts.countP label)) {} = s at ok e
  have hPq : ((pts.countP label : Nat) : ℚ) ≠ 0 := by exact_mod_cast (by omega : pts.countP label ≠ 0)
  have hr : s.recall = 1 := by
    rw [ok.r, e, hs]
    simp only [zero_add]
    exact div_self hPq
  rw [hr]
  have := ok.a0
  have := ok.a1
  rw [hr] at this
  constructor <;> linarith

/-- A group all of which is positive, after nothing but such groups, keeps the precision at one. -/
theorem PR.pure_group {P : Nat} (hP : 0 < P) {s : PR} (h1 : s.area2 = 2 * s.recall) (h2 : s.precision = 1) (h3 : s.recall = s.positives / P) (h4 : s.positives = s.scanned) {t : Nat} (ht : 0 < t) (k : Nat) :
    ((List.range k).foldl (PR.point P s.positives t t) s).area2 = 2 * ((List.range k).foldl (PR.point P s.positives t t) s).recall ∧ ((List.range k).foldl (PR.point P s.positives t t) s).precision = 1 ∧
      ((List.range k).foldl (PR.point P s.positives t t) s).recall = ((List.range k).foldl (PR.point P s.positives t t) s).positives / P ∧
      ((List.range k).foldl (PR.point P s.positives t t) s).positives = ((List.range k).foldl (PR.point P s.positives t t) s).scanned ∧
      ((List.range k).foldl (PR.point P s.positives t t) s).scanned = s.scanned + k := by
  have htq : (t : ℚ) ≠ 0 := by exact_mod_cast (by omega : t ≠ 0)
  induction k with
  | zero => exact ⟨h1, h2, h3, h4, rfl⟩
  | succ k ih =>
    rw [List.range_succ, List.foldl_append, List.foldl_cons, List.foldl_nil]
    generalize (List.range k).foldl (PR.point P s.positives t t) s = u at ih
    obtain ⟨a, b, c, e, f⟩ := ih
    have hpos : (PR.point P s.positives t t u k).positives = ((u.scanned + 1 : Nat) : ℚ) := by
      show s.positives + 1 * ((k : ℚ) + 1) * t / t = _
      rw [f, h4]
      push_cast
      field_simp
      ring
    have hsc : ((u.scanned + 1 : Nat) : ℚ) ≠ 0 := by positivity
    have hprec : (PR.point P s.positives t t u k).precision = 1 := by
      have : (PR.point P s.positives t t u k).precision = (PR.point P s.positives t t u k).positives / ((u.scanned + 1 : Nat) : ℚ) := rfl
      rw [this, hpos, div_self hsc]
    have harea : (PR.point P s.positives t t u k).area2 = u.area2 + ((PR.point P s.positives t t u k).precision + u.precision) * ((PR.point P s.positives t t u k).recall - u.recall) := rfl
    refine ⟨?_, hprec, rfl, hpos, ?_⟩
    · rw [harea, hprec, b, a]; ring
    · show u.scanned + 1 = _; rw [f]; omega

/-- A group none of which is positive leaves the area as it is. -/
theorem PR.empty_group {P : Nat} {s : PR} (h3 : s.recall = s.positives / P) (t k : Nat) :
    ((List.range k).foldl (PR.point P s.positives 0 t) s).area2 = s.area2 ∧ ((List.range k).foldl (PR.point P s.positives 0 t) s).recall = s.recall ∧ ((List.range k).foldl (PR.point P s.positives 0 t) s).positives = s.positives := by
  induction k with
  | zero => simp
  | succ k ih =>
    rw [List.range_succ, List.foldl_append, List.foldl_cons, List.foldl_nil]
    generalize (List.range k).foldl (PR.point P s.positives 0 t) s = u at ih
    obtain ⟨a, b, c⟩ := ih
    have hpos : (PR.point P s.positives 0 t u k).positives = s.positives := by
      show s.positives + 1 * ((k : ℚ) + 1) * ((0 : Nat) : ℚ) / t = _
      simp
    have hrec : (PR.point P s.positives 0 t u k).recall = s.recall := by
      have : (PR.point P s.positives 0 t u k).recall = (PR.point P s.positives 0 t u k).positives / P := rfl
      rw [this, hpos, h3]
    have harea : (PR.point P s.positives 0 t u k).area2 = u.area2 + ((PR.point P s.positives 0 t u k).precision + u.precision) * ((PR.point P s.positives 0 t u k).recall - u.recall) := rfl
    refine ⟨?_, hrec, hpos⟩
    rw [harea, hrec, b, a]; ring

theorem PR.all_pure {P : Nat} (hP : 0 < P) (gs : List (Nat × Nat)) (hg : ∀ g ∈ gs, g.1 = g.2 ∧ 0 < g.2) : ∀ s : PR, s.area2 = 2 * s.recall → s.precision = 1 → s.recall = s.positives / P → s.positives = s.scanned →
    (gs.foldl (PR.group P) s).area2 = 2 * (gs.foldl (PR.group P) s).recall ∧ (gs.foldl (PR.group P) s).recall = (gs.foldl (PR.group P) s).positives / P := by
  induction gs with
  | nil => intro s a b c d; exact ⟨a, c⟩
  | cons g gs ih =>
    intro s a b c e
    obtain ⟨g1, g2⟩ := hg g (by simp)
    obtain ⟨x1, x2, x3, x4, _⟩ := PR.pure_group hP a b c e g2 g.2
    rw [List.foldl_cons]
    have : PR.group P s g = (List.range g.2).foldl (PR.point P s.positives g.2 g.2) s := by unfold PR.group; rw [g1]
    rw [this]
    exact ih (fun x hx => hg x (by simp [hx])) _ x1 x2 x3 x4

theorem PR.all_empty {P : Nat} (gs : List (Nat × Nat)) (hg : ∀ g ∈ gs, g.1 = 0) : ∀ s : PR, s.recall = s.positives / P → (gs.foldl (PR.group P) s).area2 = s.area2 ∧ (gs.foldl (PR.group P) s).recall = s.recall := by
  induction gs with
  | nil => intro s _; exact ⟨rfl, rfl⟩
  | cons g gs ih =>
    intro s c
    obtain ⟨x1, x2, x3⟩ := PR.empty_group c g.2 g.2
    have : PR.group P s g = (List.range g.2).foldl (PR.point P s.positives 0 g.2) s := by unfold PR.group; rw [hg g (by simp)]
    rw [List.foldl_cons, this]
    obtain ⟨y1, y2⟩ := ih (fun x hx => hg x (by simp [hx])) _ (by rw [x2, x3]; exact c)
    exact ⟨y1.trans x1, y2.trans x2⟩

/-- A list on which a property, once it fails, does not come back. -/
theorem split_sorted (good : ℤ → Prop) : ∀ l : List ℤ, l.Pairwise (fun a b => good b → good a) → ∃ l1 l2, l = l1 ++ l2 ∧ (∀ s ∈ l1, good s) ∧ ∀ s ∈ l2, ¬ good s := by
  intro l
  induction l with
  | nil => intro _; exact ⟨[], [], rfl, by simp, by simp⟩
  | cons a l ih =>
    intro h
    obtain ⟨h1, h2⟩ := List.pairwise_cons.1 h
    by_cases q : good a
    · obtain ⟨l1, l2, e, x, y⟩ := ih h2
      refine ⟨a :: l1, l2, by rw [e]; rfl, ?_, y⟩
      intro s hs
      rcases List.mem_cons.1 hs with rfl | hs
      · exact q
      · exact x s hs
    · refine ⟨[], a :: l, rfl, by simp, ?_⟩
      intro s hs
      rcases List.mem_cons.1 hs with rfl | hs
      · exact q
      · exact fun g => q (h1 s hs g)

/-- C133 (f): if every positive example has a greater score than every other one, the area is one. -/
theorem perfect_scores (score : Nat → ℤ) (label : Nat → Bool) (pts : List Nat) (h : ∃ p ∈ pts, label p = true) (hp : ∀ p ∈ pts, ∀ q ∈ pts, label p = true → label q = false → score q < score p) :
    areaUnderCurve score label pts = 1 := by
  have hP : 0 < pts.countP label := List.countP_pos_iff.2 h
  obtain ⟨hg, hs⟩ := groups_facts score label pts
  have hsort : (((pts.map score).dedup).insertionSort (fun a b => b ≤ a)).Pairwise (fun a b => b ≤ a) := by
    exact List.pairwise_insertionSort (fun a b : ℤ => b ≤ a) _
  have hmem : ∀ s, s ∈ ((pts.map score).dedup).insertionSort (fun a b => b ≤ a) → ∃ p ∈ pts, score p = s := by
    intro s hs
    rw [List.mem_insertionSort, List.mem_dedup, List.mem_map] at hs
    exact hs
  have hg' : ∃ l1 l2, ((pts.map score).dedup).insertionSort (fun a b => b ≤ a) = l1 ++ l2 ∧ (∀ s ∈ l1, ∃ p ∈ pts, score p = s ∧ label p = true) ∧ ∀ s ∈ l2, ¬ ∃ p ∈ pts, score p = s ∧ label p = true := by
    apply split_sorted (fun s => ∃ p ∈ pts, score p = s ∧ label p = true)
    refine List.Pairwise.imp_of_mem ?_ hsort
    intro a b ha hb hab ⟨p, p1, p2, p3⟩
    obtain ⟨q, q1, q2⟩ := hmem a ha
    cases hl : label q with
    | true => exact ⟨q, q1, q2, hl⟩
    | false => have := hp p p1 q q1 p3 hl; omega
  obtain ⟨l1, l2, e, x, y⟩ := hg'
  have eg : groups score label pts = (l1.map (fun s => ((pts.filter (fun p => score p == s)).countP label, (pts.filter (fun p => score p == s)).length))) ++
      (l2.map (fun s => ((pts.filter (fun p => score p == s)).countP label, (pts.filter (fun p => score p == s)).length))) := by
    unfold groups; rw [e, List.map_append]
  obtain ⟨ok, e0⟩ := PR.groups_ok hP _ hg {} (PR.init_ok _)
  have hPq : ((pts.countP label : Nat) : ℚ) ≠ 0 := by exact_mod_cast (by omega : pts.countP label ≠ 0)
  have hr : ((groups score label pts).foldl (PR.group (pts.countP label)) {}).recall = 1 := by
    rw [ok.r, e0, hs]
    simp only [zero_add]
    exact div_self hPq
  have ha : ((groups score label pts).foldl (PR.group (pts.countP label)) {}).area2 = 2 * ((groups score label pts).foldl (PR.group (pts.countP label)) {}).recall := by
    rw [eg, List.foldl_append]
    obtain ⟨z1, z2⟩ := PR.all_pure hP (l1.map (fun s => ((pts.filter (fun p => score p == s)).countP label, (pts.filter (fun p => score p == s)).length))) (by
      intro g hgm
      rw [List.mem_map] at hgm
      obtain ⟨s, hs1, rfl⟩ := hgm
      obtain ⟨p, p1, p2, p3⟩ := x s hs1
      refine ⟨?_, (hg _ (by rw [eg, List.mem_append]; exact Or.inl (List.mem_map.2 ⟨s, hs1, rfl⟩))).2⟩
      rw [List.countP_eq_length]
      intro q hq
      rw [List.mem_filter] at hq
      cases hl : label q with
      | true => rfl
      | false =>
        have := hp p p1 q hq.1 p3 hl
        have e3 := hq.2
        simp only [beq_iff_eq] at e3
        omega) {} (by norm_num) rfl (by simp) (by simp)
    obtain ⟨w1, w2⟩ := PR.all_empty (P := pts.countP label) (l2.map (fun s => ((pts.filter (fun p => score p == s)).countP label, (pts.filter (fun p => score p == s)).length))) (by
      intro g hgm
      rw [List.mem_map] at hgm
      obtain ⟨s, hs1, rfl⟩ := hgm
      simp only
      rw [List.countP_eq_zero]
      intro q hq hl
      rw [List.mem_filter] at hq
      exact y s hs1 ⟨q, hq.1, by simpa using hq.2, hl⟩) _ z2
    rw [w1, w2, z1]
  unfold areaUnderCurve
  simp only
  rw [ha, hr]
  norm_num

/-- Three examples, the middle one of which is the positive one: the area is a quarter. -/
example : areaUnderCurve (fun p => -(p : ℤ)) (fun p => p == 1) [0, 1, 2] = 1 / 4 := by decide +kernel

end Current.Gbt
