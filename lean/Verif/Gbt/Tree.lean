import Verif.Gbt.Subset
import Mathlib.Tactic.Ring
import Mathlib.Tactic.FieldSimp
import Mathlib.Tactic.Linarith
import Mathlib.Algebra.Order.Field.Rat
import Mathlib.Algebra.Order.Field.Basic

set_option linter.unusedSimpArgs false
set_option linter.unusedVariables false

/-! # The tree builder (`examples/gradient_boosted_trees/train.h`)

Sums are of integers without bounds and quotients are rational numbers: overflow of `int64_t` and the rounding of `double` are not modelled. Neither are the weights: they are all one. -/

namespace Current.Gbt

/-- `TreeNode`, `schema.h:68-78`. -/
structure Node where
  leaf : Bool := true
  value : ℚ := 0
  feature : Nat := 2 ^ 32 - 1
  yes : Nat := 2 ^ 32 - 1
  no : Nat := 2 ^ 32 - 1

/-- What a builder is given, `train.h:46-51` and `55-57`: the points having a feature, as lists and as a matrix; the objective function and the depth. -/
structure Data where
  g : Nat → List Nat
  matrix : Nat → Nat → Bool
  y : Nat → ℤ
  maxDepth : Nat

/-- The mutable state of the builder besides the set of points, `train.h:59-64`: the features, the position at which those not yet used begin, the nodes; and the value returned by the last call of `BuildTreeRecursively`. -/
structure World where
  feats : List Nat
  beg : Nat
  nodes : List Node
  ret : Nat

/-- The loops over the points which sum up, `train.h:178-189` and `240-250`: the sum, the sum of the squares, the number. -/
def sums (y : Nat → ℤ) (l : List Nat) : ℤ × ℤ × Nat := l.foldl (fun a p => (a.1 + y p, a.2.1 + y p * y p, a.2.2 + 1)) (0, 0, 0)

/-- One iteration of the loop over the candidates, `train.h:239-307`. The best candidate is the ratio and the position. If the denominator is zero, then the ratio is an infinity or not a number, neither of which is less than anything finite. -/
def consider (d : Data) (s : Sub) (s1 s2 : ℤ) (base : ℚ) (best : ℚ × Option Nat) (it : Nat × Nat) : ℚ × Option Nat :=
  let l := sums d.y ((d.g it.1).filter s.has)
  let l1 := l.1
  let l2 := l.2.1
  let ln := l.2.2
  if ln > 0 ∧ ln < s.size then
    let penalty : ℚ := ((l2 : ℚ) - (l1 : ℚ) * l1 * (1 / ln)) + (((s2 - l2 : ℤ) : ℚ) - ((s1 - l1 : ℤ) : ℚ) * (s1 - l1 : ℤ) * (1 / ((s.size - ln : Nat) : ℚ)))
    if base = 0 then best
    else if penalty / base < best.1 then (penalty / base, some it.2) else best
  else best

/-- The loop over the candidates, `train.h:237-308`. -/
def choose (d : Data) (s : Sub) (s1 s2 : ℤ) (base : ℚ) (w : World) : Option Nat :=
  (((w.feats.drop w.beg).zipIdx w.beg).foldl (consider d s s1 s2 base) (1 - 1 / 1000, none)).2

/-- `std::swap` of two elements. -/
def swap (l : List Nat) (i j : Nat) : List Nat := (l.set i (l.getD j 0)).set j (l.getD i 0)

/-- `BuildTreeRecursively`, `train.h:163-355`, given the function for the recursive calls. The dump of the tree is not modelled. -/
def buildWith (d : Data) (part : (Nat → Bool) → List Nat → List Nat) (rec : Sub × World → Sub × World) (depth : Nat) (v : Sub × World) : Sub × World :=
  let s := v.1
  let w := v.2
  let i := w.nodes.length
  let a := sums d.y s.points
  let s1 := a.1
  let s2 := a.2.1
  let tw := a.2.2
  let mean : ℚ := (s1 : ℚ) / tw
  let base : ℚ := ((s2 - s1 * s1 : ℤ) : ℚ) / tw
  let asLeaf : Sub × World := (s, { w with nodes := w.nodes ++ [{ leaf := true, value := mean }], ret := i })
  if s2 * tw - s1 * s1 = 0 then asLeaf
  else
    match choose d s s1 s2 base w with
    | none => asLeaf
    | some pos =>
      if depth < d.maxDepth then
        let f := w.feats.getD pos 0
        let w1 : World := { feats := swap w.feats pos w.beg, beg := w.beg + 1, nodes := w.nodes ++ [{ leaf := false, feature := f }], ret := w.ret }
        let r := partition part (d.matrix f)
          (fun u => let q := rec u; (q.1, { q.2 with nodes := q.2.nodes.modify i (fun nd => { nd with yes := q.2.ret }) }))
          (fun u => let q := rec u; (q.1, { q.2 with nodes := q.2.nodes.modify i (fun nd => { nd with no := q.2.ret }) }))
          (s, w1)
        let b := r.2.beg - 1
        (r.1, { r.2 with beg := b, feats := swap r.2.feats pos b, ret := i })
      else asLeaf

/-- The recursion, `train.h:333` and `338`: to the number of features which are left, since each level uses one. Without features there are no candidates, so the function given there is not called (`build_fuel`). -/
def build (d : Data) (part : (Nat → Bool) → List Nat → List Nat) : Nat → Nat → Sub × World → Sub × World
  | 0, depth => buildWith d part id depth
  | k + 1, depth => buildWith d part (build d part k (depth + 1)) depth

/-- The builder, `train.h:43-64`. -/
structure Builder where
  sub : Sub
  nodes : List Node
  trees : List Nat

/-- The constructor, `train.h:84-106`. -/
def Builder.init (n : Nat) : Builder := ⟨Sub.init n, [], []⟩

/-- `ParseFeaturesToConsider`, `train.h:66-81`: no features means all of them. -/
def parseFeatures (fs : List Nat) (m : Nat) : List Nat := if fs.isEmpty then List.range m else fs

/-- `BuildTree`, `train.h:108-144`: `used` says which points are in `points_to_use`. -/
def buildTree (part : (Nat → Bool) → List Nat → List Nat) (m : Nat) (b : Builder) (d : Data) (used : Nat → Bool) (fs : List Nat) : Builder :=
  let feats := parseFeatures fs m
  let r := partition part used (build d part feats.length 0) id (b.sub, (⟨feats, 0, b.nodes, 0⟩ : World))
  ⟨r.1, r.2.nodes, b.trees ++ [r.2.ret]⟩

/-- `Apply`, `train.h:150-160`, before the conversion of the value to `int64_t`: the loop, with as many iterations as are allowed; `none` if it has not come to a leaf. -/
def applyTree (nodes : List Node) (x : Nat → Bool) : Nat → Nat → Option ℚ
  | 0, _ => none
  | k + 1, i =>
    match nodes[i]? with
    | none => none
    | some nd => if nd.leaf then some nd.value else applyTree nodes x k (if x nd.feature then nd.yes else nd.no)

/-! ### Specification -/

/-- The points below `n` which are in a set. -/
def members (n : Nat) (S : Nat → Bool) : List Nat := (List.range n).filter S

/-- The mean of the objective function. -/
def meanOf (y : Nat → ℤ) (l : List Nat) : ℚ := (l.map (fun p => (y p : ℚ))).sum / l.length

/-- The sum of the squares of the differences from the mean. -/
def spread (y : Nat → ℤ) (l : List Nat) : ℚ := (l.map (fun p => ((y p : ℚ) - meanOf y l) ^ 2)).sum

/-- The spread which is left after splitting by a feature. -/
def penaltyOf (d : Data) (n : Nat) (S : Nat → Bool) (f : Nat) : ℚ := spread d.y (members n (fun p => S p && d.matrix f p)) + spread d.y (members n (fun p => S p && !d.matrix f p))

/-- What the penalty is divided by: not the spread but the number below, which can be negative. -/
def baseOf (y : Nat → ℤ) (l : List Nat) : ℚ := ((l.map (fun p => (y p : ℚ) ^ 2)).sum - (l.map (fun p => (y p : ℚ))).sum ^ 2) / l.length

/-- A feature which some points of the set have and some do not. -/
def Splits (d : Data) (n : Nat) (S : Nat → Bool) (f : Nat) : Prop := (∃ p, p < n ∧ S p = true ∧ d.matrix f p = true) ∧ (∃ p, p < n ∧ S p = true ∧ d.matrix f p = false)

/-- A feature which is good enough. -/
def Admissible (d : Data) (n : Nat) (S : Nat → Bool) (f : Nat) : Prop :=
  Splits d n S f ∧ baseOf d.y (members n S) ≠ 0 ∧ penaltyOf d n S f / baseOf d.y (members n S) < 999 / 1000

/-- The subtree at `i` is one for the points in `S`, with the features in `avail`, at depth `depth`. -/
inductive IsTree (d : Data) (n : Nat) (nodes : List Node) : Nat → (Nat → Prop) → Nat → (Nat → Bool) → Prop
  | leaf {i avail depth S} (nd : Node) : nodes[i]? = some nd → nd.leaf = true → members n S ≠ [] → nd.value = meanOf d.y (members n S) →
      (spread d.y (members n S) = 0 ∨ d.maxDepth ≤ depth ∨ ∀ f, avail f → ¬ Admissible d n S f) → IsTree d n nodes i avail depth S
  | inner {i avail depth S} (nd : Node) : nodes[i]? = some nd → nd.leaf = false → avail nd.feature → i < nd.yes → i < nd.no → depth < d.maxDepth → spread d.y (members n S) ≠ 0 →
      Admissible d n S nd.feature →
      (∀ f, avail f → Splits d n S f → penaltyOf d n S nd.feature / baseOf d.y (members n S) ≤ penaltyOf d n S f / baseOf d.y (members n S)) →
      IsTree d n nodes nd.yes (fun f => avail f ∧ f ≠ nd.feature) (depth + 1) (fun p => S p && d.matrix nd.feature p) →
      IsTree d n nodes nd.no (fun f => avail f ∧ f ≠ nd.feature) (depth + 1) (fun p => S p && !d.matrix nd.feature p) → IsTree d n nodes i avail depth S

/-- The lists and the matrix have the same points. -/
def DataOk (d : Data) (n : Nat) : Prop := ∀ f, d.g f = members n (d.matrix f)

/-! ### Sums -/

theorem sums_foldl (y : Nat → ℤ) (l : List Nat) : ∀ a : ℤ × ℤ × Nat, l.foldl (fun a p => (a.1 + y p, a.2.1 + y p * y p, a.2.2 + 1)) a =
    (a.1 + (l.map y).sum, a.2.1 + (l.map (fun p => y p * y p)).sum, a.2.2 + l.length) := by
  induction l with
  | nil => intro a; simp
  | cons p l ih => intro a; rw [List.foldl_cons, ih]; simp only [List.map_cons, List.sum_cons, List.length_cons, Prod.mk.injEq]; refine ⟨by ring, by ring, by ring⟩

theorem sums_eq (y : Nat → ℤ) (l : List Nat) : sums y l = ((l.map y).sum, (l.map (fun p => y p * y p)).sum, l.length) := by
  unfold sums; rw [sums_foldl]; simp

theorem cast_sum1 (y : Nat → ℤ) (l : List Nat) : (((l.map y).sum : ℤ) : ℚ) = (l.map (fun p => (y p : ℚ))).sum := by
  induction l with
  | nil => simp
  | cons p l ih => simp only [List.map_cons, List.sum_cons, Int.cast_add, ih]

theorem cast_sum2 (y : Nat → ℤ) (l : List Nat) : (((l.map (fun p => y p * y p)).sum : ℤ) : ℚ) = (l.map (fun p => (y p : ℚ) ^ 2)).sum := by
  induction l with
  | nil => simp
  | cons p l ih => simp only [List.map_cons, List.sum_cons, Int.cast_add, ih, Int.cast_mul]; ring

theorem sq_dev (y : Nat → ℤ) (c : ℚ) (l : List Nat) : (l.map (fun p => ((y p : ℚ) - c) ^ 2)).sum = (l.map (fun p => (y p : ℚ) ^ 2)).sum - 2 * c * (l.map (fun p => (y p : ℚ))).sum + c ^ 2 * l.length := by
  induction l with
  | nil => simp
  | cons p l ih => simp only [List.map_cons, List.sum_cons, ih, List.length_cons, Nat.cast_add, Nat.cast_one]; ring

theorem spread_eq (y : Nat → ℤ) (l : List Nat) (h : l ≠ []) : spread y l = (l.map (fun p => (y p : ℚ) ^ 2)).sum - (l.map (fun p => (y p : ℚ))).sum * (l.map (fun p => (y p : ℚ))).sum * (1 / l.length) := by
  have hl : (l.length : ℚ) ≠ 0 := by
    have := List.length_pos_iff.2 h
    exact_mod_cast (by omega : l.length ≠ 0)
  unfold spread
  rw [sq_dev]
  unfold meanOf
  field_simp
  ring

theorem spread_nonneg (y : Nat → ℤ) (l : List Nat) : 0 ≤ spread y l := by
  unfold spread
  generalize meanOf y l = c
  induction l with
  | nil => simp
  | cons p l ih => simp only [List.map_cons, List.sum_cons]; have := sq_nonneg ((y p : ℚ) - c); linarith

theorem perm_sum1 (f : Nat → ℚ) {l m : List Nat} (h : l.Perm m) : (l.map f).sum = (m.map f).sum := by
  induction h with
  | nil => rfl
  | cons x _ ih => simp [ih]
  | swap x y l => simp only [List.map_cons, List.sum_cons]; ring
  | trans _ _ a b => rw [a, b]

theorem perm_sumZ (f : Nat → ℤ) {l m : List Nat} (h : l.Perm m) : (l.map f).sum = (m.map f).sum := by
  induction h with
  | nil => rfl
  | cons x _ ih => simp [ih]
  | swap x y l => simp only [List.map_cons, List.sum_cons]; ring
  | trans _ _ a b => rw [a, b]

theorem sums_perm (y : Nat → ℤ) {l m : List Nat} (h : l.Perm m) : sums y l = sums y m := by
  rw [sums_eq, sums_eq, perm_sumZ _ h, perm_sumZ _ h, h.length_eq]

theorem sum_split (f : Nat → ℚ) (p : Nat → Bool) (l : List Nat) : (l.map f).sum = ((l.filter p).map f).sum + ((l.filter (fun x => !p x)).map f).sum := by
  rw [← perm_sum1 f (List.filter_append_perm p l), List.map_append, List.sum_append]

theorem len_split (p : Nat → Bool) (l : List Nat) : l.length = (l.filter p).length + (l.filter (fun x => !p x)).length := by
  rw [← (List.filter_append_perm p l).length_eq, List.length_append]

theorem members_and (n : Nat) (S p : Nat → Bool) : members n (fun x => S x && p x) = (members n S).filter p := by
  unfold members; rw [List.filter_filter]; congr 1; funext x; exact Bool.and_comm _ _

/-! ### The choice -/

theorem members_ne_nil {n : Nat} {S : Nat → Bool} : members n S ≠ [] ↔ ∃ p, p < n ∧ S p = true := by
  rw [List.ne_nil_iff_exists_cons] 
  constructor
  · rintro ⟨p, t, h⟩
    have : p ∈ members n S := by rw [h]; simp
    unfold members at this
    rw [List.mem_filter, List.mem_range] at this
    exact ⟨p, this⟩
  · rintro ⟨p, h1, h2⟩
    have : p ∈ members n S := by unfold members; rw [List.mem_filter, List.mem_range]; exact ⟨h1, h2⟩
    cases h : members n S with
    | nil => rw [h] at this; cases this
    | cons a t => exact ⟨a, t, rfl⟩

theorem has_eq {n : Nat} {s : Sub} {S : Nat → Bool} (h : Holds n s S) : ∀ i, i < n → s.has i = S i := h.sees.2.2

theorem size_eq {n : Nat} {s : Sub} {S : Nat → Bool} (h : Holds n s S) : s.size = (members n S).length := h.sees.2.1

open Classical in
/-- One candidate, in the words of the specification. -/
theorem consider_eq {d : Data} {n : Nat} (hd : DataOk d n) {s : Sub} {S : Nat → Bool} (h : Holds n s S) (best : ℚ × Option Nat) (it : Nat × Nat) :
    consider d s ((members n S).map d.y).sum ((members n S).map (fun p => d.y p * d.y p)).sum (baseOf d.y (members n S)) best it =
      if Splits d n S it.1 ∧ baseOf d.y (members n S) ≠ 0 ∧ penaltyOf d n S it.1 / baseOf d.y (members n S) < best.1 then
        (penaltyOf d n S it.1 / baseOf d.y (members n S), some it.2) else best := by
  have hg : (d.g it.1).filter s.has = members n (fun p => S p && d.matrix it.1 p) := by
    rw [hd it.1]
    unfold members
    rw [List.filter_filter]
    apply List.filter_congr
    intro x hx
    rw [has_eq h x (List.mem_range.1 hx)]
  have hlen := len_split (d.matrix it.1) (members n S)
  rw [← members_and, ← members_and] at hlen
  have hs1 : (members n (fun p => S p && d.matrix it.1 p)).length > 0 ↔ ∃ p, p < n ∧ S p = true ∧ d.matrix it.1 p = true := by
    rw [gt_iff_lt, List.length_pos_iff, members_ne_nil]; simp
  have hs2 : (members n (fun p => S p && d.matrix it.1 p)).length < (members n S).length ↔ ∃ p, p < n ∧ S p = true ∧ d.matrix it.1 p = false := by
    have : (members n (fun p => S p && d.matrix it.1 p)).length < (members n S).length ↔ 0 < (members n (fun p => S p && !d.matrix it.1 p)).length := by omega
    rw [this, List.length_pos_iff, members_ne_nil]; simp
  unfold consider
  simp only [hg, sums_eq, size_eq h]
  by_cases hsp : Splits d n S it.1
  · have hb := hs1.2 hsp.1
    have hc := hs2.2 hsp.2
    rw [if_pos ⟨hb, hc⟩]
    have hpen : ((((members n (fun p => S p && d.matrix it.1 p)).map (fun p => d.y p * d.y p)).sum : ℤ) : ℚ) - ((((members n (fun p => S p && d.matrix it.1 p)).map d.y).sum : ℤ) : ℚ) * (((members n (fun p => S p && d.matrix it.1 p)).map d.y).sum : ℤ) * (1 / ((members n (fun p => S p && d.matrix it.1 p)).length : ℚ)) +
        (((((members n S).map (fun p => d.y p * d.y p)).sum - ((members n (fun p => S p && d.matrix it.1 p)).map (fun p => d.y p * d.y p)).sum : ℤ) : ℚ) - ((((members n S).map d.y).sum - ((members n (fun p => S p && d.matrix it.1 p)).map d.y).sum : ℤ) : ℚ) * ((((members n S).map d.y).sum - ((members n (fun p => S p && d.matrix it.1 p)).map d.y).sum : ℤ) : ℚ) * (1 / (((members n S).length - (members n (fun p => S p && d.matrix it.1 p)).length : Nat) : ℚ)))
        = penaltyOf d n S it.1 := by
      unfold penaltyOf
      rw [spread_eq _ _ (List.length_pos_iff.1 hb), spread_eq _ _ (List.length_pos_iff.1 (by omega : 0 < (members n (fun p => S p && !d.matrix it.1 p)).length))]
      have e1 := sum_split (fun p => (d.y p : ℚ)) (d.matrix it.1) (members n S)
      have e2 := sum_split (fun p => (d.y p : ℚ) ^ 2) (d.matrix it.1) (members n S)
      rw [← members_and, ← members_and] at e1 e2
      have e3 : ((members n S).length - (members n (fun p => S p && d.matrix it.1 p)).length : Nat) = (members n (fun p => S p && !d.matrix it.1 p)).length := by omega
      rw [Int.cast_sub, Int.cast_sub, cast_sum2, cast_sum2, cast_sum1, cast_sum1, e3, e1, e2]
      simp only [add_sub_cancel_left]
    rw [hpen]
    by_cases hz : baseOf d.y (members n S) = 0
    · simp [hz]
    · simp [hz, hsp]
  · have : ¬ ((members n (fun p => S p && d.matrix it.1 p)).length > 0 ∧ (members n (fun p => S p && d.matrix it.1 p)).length < (members n S).length) := by
      rw [hs1, hs2]; exact hsp
    rw [if_neg this, if_neg (fun q => hsp q.1)]

theorem loop_spec {d : Data} {n : Nat} (hd : DataOk d n) {s : Sub} {S : Nat → Bool} (h : Holds n s S) : ∀ (l : List (Nat × Nat)) (best : ℚ × Option Nat),
    let r := l.foldl (consider d s ((members n S).map d.y).sum ((members n S).map (fun p => d.y p * d.y p)).sum (baseOf d.y (members n S))) best
    r.1 ≤ best.1 ∧ (∀ it ∈ l, Splits d n S it.1 → baseOf d.y (members n S) ≠ 0 → r.1 ≤ penaltyOf d n S it.1 / baseOf d.y (members n S)) ∧
      (r = best ∨ ∃ it ∈ l, r = (penaltyOf d n S it.1 / baseOf d.y (members n S), some it.2) ∧ Splits d n S it.1 ∧ baseOf d.y (members n S) ≠ 0 ∧ penaltyOf d n S it.1 / baseOf d.y (members n S) < best.1) := by
  intro l
  induction l with
  | nil => intro best; simp
  | cons x l ih =>
    intro best
    simp only [List.foldl_cons]
    obtain ⟨h1, h2, h3⟩ := ih (consider d s ((members n S).map d.y).sum ((members n S).map (fun p => d.y p * d.y p)).sum (baseOf d.y (members n S)) best x)
    have hx := consider_eq hd h best x
    generalize hc : consider d s ((members n S).map d.y).sum ((members n S).map (fun p => d.y p * d.y p)).sum (baseOf d.y (members n S)) best x = c at h1 h2 h3 hx
    by_cases q : Splits d n S x.1 ∧ baseOf d.y (members n S) ≠ 0 ∧ penaltyOf d n S x.1 / baseOf d.y (members n S) < best.1
    · rw [if_pos q] at hx
      have hx1 : c.1 = penaltyOf d n S x.1 / baseOf d.y (members n S) := by rw [hx]
      refine ⟨by linarith [q.2.2], ?_, ?_⟩
      · intro it hit hs hb
        rcases List.mem_cons.1 hit with rfl | hit
        · linarith
        · exact h2 it hit hs hb
      · right
        rcases h3 with h3 | ⟨it, hit, e, a1, a2, a3⟩
        · exact ⟨x, by simp, h3.trans hx, q⟩
        · exact ⟨it, by simp [hit], e, a1, a2, by linarith [q.2.2]⟩
    · rw [if_neg q] at hx
      subst hx
      refine ⟨h1, ?_, ?_⟩
      · intro it hit hs hb
        rcases List.mem_cons.1 hit with rfl | hit
        · have : ¬ penaltyOf d n S it.1 / baseOf d.y (members n S) < c.1 := fun z => q ⟨hs, hb, z⟩
          linarith [not_lt.1 this]
        · exact h2 it hit hs hb
      · rcases h3 with h3 | ⟨it, hit, e⟩
        · left; exact h3
        · right; exact ⟨it, by simp [hit], e⟩

theorem mem_slots {l : List Nat} {b : Nat} {it : Nat × Nat} : it ∈ (l.drop b).zipIdx b ↔ b ≤ it.2 ∧ l[it.2]? = some it.1 := by
  obtain ⟨f, pos⟩ := it
  rw [List.mem_zipIdx_iff_le_and_getElem?_sub]
  simp only [List.getElem?_drop]
  constructor
  · rintro ⟨a, e⟩; exact ⟨a, by rwa [show b + (pos - b) = pos by omega] at e⟩
  · rintro ⟨a, e⟩; exact ⟨a, by rwa [show b + (pos - b) = pos by omega]⟩

/-- The features which are left. -/
def Left (w : World) (f : Nat) : Prop := ∃ pos, w.beg ≤ pos ∧ w.feats[pos]? = some f

theorem choose_spec {d : Data} {n : Nat} (hd : DataOk d n) {s : Sub} {S : Nat → Bool} (h : Holds n s S) (w : World) :
    match choose d s ((members n S).map d.y).sum ((members n S).map (fun p => d.y p * d.y p)).sum (baseOf d.y (members n S)) w with
    | none => ∀ f, Left w f → ¬ Admissible d n S f
    | some pos => w.beg ≤ pos ∧ ∃ f, w.feats[pos]? = some f ∧ Admissible d n S f ∧
        ∀ f', Left w f' → Splits d n S f' → penaltyOf d n S f / baseOf d.y (members n S) ≤ penaltyOf d n S f' / baseOf d.y (members n S) := by
  obtain ⟨h1, h2, h3⟩ := loop_spec hd h ((w.feats.drop w.beg).zipIdx w.beg) (1 - 1 / 1000, none)
  unfold choose
  generalize ((w.feats.drop w.beg).zipIdx w.beg).foldl (consider d s ((members n S).map d.y).sum ((members n S).map (fun p => d.y p * d.y p)).sum (baseOf d.y (members n S))) (1 - 1 / 1000, none) = r at h1 h2 h3
  rcases h3 with rfl | ⟨it, hit, rfl, a1, a2, a3⟩
  · simp only
    intro f ⟨pos, hp, hf⟩ ⟨q1, q2, q3⟩
    have := h2 (f, pos) (mem_slots.2 ⟨hp, hf⟩) q1 q2
    simp only at this
    norm_num at this
    linarith
  · have hm := mem_slots.1 hit
    refine ⟨hm.1, it.1, hm.2, ⟨a1, a2, by norm_num at a3 ⊢; linarith⟩, ?_⟩
    intro f' ⟨pos, hp, hf⟩ hs
    exact h2 (f', pos) (mem_slots.2 ⟨hp, hf⟩) hs a2

/-! ### The recursion -/

theorem swap_get {l : List Nat} {i j : Nat} (hi : i < l.length) (hj : j < l.length) (k : Nat) : (swap l i j)[k]? = if k = j then l[i]? else if k = i then l[j]? else l[k]? := by
  unfold swap
  rw [List.getElem?_set, List.getElem?_set]
  simp only [List.length_set, List.getD_eq_getElem?_getD, List.getElem?_eq_getElem hi, List.getElem?_eq_getElem hj, Option.getD_some]
  by_cases a : k = j
  · subst a; simp [hj]
  · by_cases b : k = i
    · subst b; simp [hi, a, Ne.symm a]
    · simp [Ne.symm a, Ne.symm b, a, b]

theorem swap_length (l : List Nat) (i j : Nat) : (swap l i j).length = l.length := by unfold swap; simp

theorem swap_swap {l : List Nat} {i j : Nat} (hi : i < l.length) (hj : j < l.length) : swap (swap l i j) i j = l := by
  apply List.ext_getElem?
  intro k
  rw [swap_get (by rw [swap_length]; exact hi) (by rw [swap_length]; exact hj), swap_get hi hj, swap_get hi hj, swap_get hi hj]
  by_cases a : k = j
  · subst a; by_cases b : i = k <;> simp [b]
  · by_cases b : k = i
    · subst b; simp [a]
    · simp [a, b]

/-- No feature twice. -/
def Distinct (l : List Nat) : Prop := ∀ i j f : Nat, l[i]? = some f → l[j]? = some f → i = j

theorem lt_of_get {l : List Nat} {i f : Nat} (h : l[i]? = some f) : i < l.length := by
  by_contra hc
  rw [List.getElem?_eq_none (by omega)] at h
  cases h

theorem swap_distinct {l : List Nat} {i j : Nat} (hi : i < l.length) (hj : j < l.length) (h : Distinct l) : Distinct (swap l i j) := by
  intro a b f ha hb
  rw [swap_get hi hj] at ha hb
  by_cases a1 : a = j <;> by_cases a2 : a = i <;> by_cases b1 : b = j <;> by_cases b2 : b = i <;>
    simp only [a1, a2, b1, b2, if_true, if_false] at ha hb <;> first
      | omega
      | (have := h _ _ f ha hb; omega)
      | (simp_all; done)
      | (split at ha <;> first | omega | (have := h _ _ f ha hb; omega))
      | (split at hb <;> first | omega | (have := h _ _ f ha hb; omega))

/-- What `BuildTreeRecursively` does: the set of points and the features are as before, the nodes there were are untouched, and the new ones make up the tree. -/
structure BuildOk (d : Data) (n : Nat) (v v' : Sub × World) (depth : Nat) (S : Nat → Bool) : Prop where
  frame : Frame v.1 v'.1
  feats : v'.2.feats = v.2.feats
  beg : v'.2.beg = v.2.beg
  ret : v'.2.ret = v.2.nodes.length
  len : v.2.nodes.length < v'.2.nodes.length
  old : ∀ j, j < v.2.nodes.length → v'.2.nodes[j]? = v.2.nodes[j]?
  tree : IsTree d n v'.2.nodes v.2.nodes.length (Left v.2) depth S

theorem IsTree.lt {d : Data} {n : Nat} {nodes : List Node} {i : Nat} {avail : Nat → Prop} {depth : Nat} {S : Nat → Bool} (h : IsTree d n nodes i avail depth S) : i < nodes.length := by
  have : nodes[i]? ≠ none := by cases h with
    | leaf nd e => rw [e]; simp
    | inner nd e => rw [e]; simp
  rw [ne_eq, List.getElem?_eq_none_iff] at this
  omega

/-- A tree only depends on the nodes from its root on. -/
theorem IsTree.mono {d : Data} {n : Nat} {nodes nodes' : List Node} {i : Nat} {avail : Nat → Prop} {depth : Nat} {S : Nat → Bool} (h : IsTree d n nodes i avail depth S)
    (hn : ∀ j, i ≤ j → j < nodes.length → nodes'[j]? = nodes[j]?) : IsTree d n nodes' i avail depth S := by
  induction h with
  | leaf nd e a b c e' =>
    exact .leaf nd ((hn _ (le_refl _) (IsTree.lt (.leaf nd e a b c e'))).trans e) a b c e'
  | inner nd e a b c1 c2 c3 c4 c5 c6 ty tn ihy ihn =>
    exact .inner nd ((hn _ (le_refl _) (IsTree.lt (.inner nd e a b c1 c2 c3 c4 c5 c6 ty tn))).trans e) a b c1 c2 c3 c4 c5 c6 (ihy (fun j h1 h2 => hn j (by omega) h2)) (ihn (fun j h1 h2 => hn j (by omega) h2))

theorem IsTree.avail_congr {d : Data} {n : Nat} {nodes : List Node} {i : Nat} {avail avail' : Nat → Prop} {depth : Nat} {S : Nat → Bool} (h : IsTree d n nodes i avail depth S)
    (hn : ∀ f, avail f ↔ avail' f) : IsTree d n nodes i avail' depth S := by
  have : avail = avail' := funext (fun f => propext (hn f))
  exact this ▸ h

theorem buildWith_frame {d : Data} {part : (Nat → Bool) → List Nat → List Nat} (hp : PartOk part) {n : Nat} {rec : Sub × World → Sub × World} (hr : ∀ s x, Inv n s → Frame s (rec (s, x)).1)
    (depth : Nat) (s : Sub) (x : World) (hi : Inv n s) : Frame s (buildWith d part rec depth (s, x)).1 := by
  unfold buildWith
  simp only
  split
  · exact Frame.refl _
  · split
    · exact Frame.refl _
    · split
      · obtain ⟨s1, s2, _, _, _, _, _, hf⟩ := partition_spec hp (d.matrix (x.feats.getD _ 0))
          (fun u => let q := rec u; (q.1, { q.2 with nodes := q.2.nodes.modify x.nodes.length (fun nd => { nd with yes := q.2.ret }) }))
          (fun u => let q := rec u; (q.1, { q.2 with nodes := q.2.nodes.modify x.nodes.length (fun nd => { nd with no := q.2.ret }) }))
          (s, _) hi (fun s x hs => hr s x hs) (fun s x hs => hr s x hs)
        exact hf
      · exact Frame.refl _

theorem build_frame {d : Data} {part : (Nat → Bool) → List Nat → List Nat} (hp : PartOk part) {n : Nat} (k : Nat) : ∀ (depth : Nat) (s : Sub) (x : World), Inv n s → Frame s (build d part k depth (s, x)).1 := by
  induction k with
  | zero => intro depth s x hi; exact buildWith_frame hp (fun s x _ => Frame.refl s) depth s x hi
  | succ k ih => intro depth s x hi; exact buildWith_frame hp (fun s x h => ih (depth + 1) s x h) depth s x hi

theorem spread_zero_iff {d : Data} {n : Nat} {S : Nat → Bool} (hne : members n S ≠ []) :
    (((members n S).map (fun p => d.y p * d.y p)).sum * ((members n S).length : ℤ) - ((members n S).map d.y).sum * ((members n S).map d.y).sum = 0) ↔ spread d.y (members n S) = 0 := by
  rw [spread_eq _ _ hne]
  have hl : ((members n S).length : ℚ) ≠ 0 := by
    have := List.length_pos_iff.2 hne
    exact_mod_cast (by omega : (members n S).length ≠ 0)
  rw [← cast_sum1, ← cast_sum2]
  generalize ((members n S).map (fun p => d.y p * d.y p)).sum = a
  generalize ((members n S).map d.y).sum = b
  generalize hL : (members n S).length = L at hl
  constructor
  · intro h
    have : ((a * (L : ℤ) - b * b : ℤ) : ℚ) = 0 := by rw [h]; simp
    push_cast at this
    field_simp
    linarith
  · intro h
    field_simp at h
    have : ((a * (L : ℤ) - b * b : ℤ) : ℚ) = 0 := by push_cast; linarith
    exact_mod_cast this

theorem Left.swap_iff {w : World} {pos : Nat} (hd : Distinct w.feats) (hb : w.beg ≤ pos) {g : Nat} (hg : w.feats[pos]? = some g) {w1 : World} (h1 : w1.feats = swap w.feats pos w.beg) (h2 : w1.beg = w.beg + 1) (f : Nat) :
    Left w1 f ↔ (Left w f ∧ f ≠ g) := by
  have hp := lt_of_get hg
  unfold Left
  rw [h1, h2]
  constructor
  · rintro ⟨q, hq, hf⟩
    rw [swap_get hp (by omega)] at hf
    rw [if_neg (by omega)] at hf
    split at hf
    · rename_i e
      refine ⟨⟨w.beg, le_refl _, hf⟩, ?_⟩
      rintro rfl
      have := hd _ _ _ hf hg
      omega
    · rename_i e
      refine ⟨⟨q, by omega, hf⟩, ?_⟩
      rintro rfl
      exact e (hd _ _ _ hf hg)
  · rintro ⟨⟨q, hq, hf⟩, hne⟩
    have hqp : q ≠ pos := by rintro rfl; rw [hg] at hf; exact hne (Option.some.inj hf).symm
    by_cases e : q = w.beg
    · subst e
      refine ⟨pos, by omega, ?_⟩
      rw [swap_get hp (by omega), if_neg (Ne.symm hqp), if_pos rfl, hf]
    · refine ⟨q, by omega, ?_⟩
      rw [swap_get hp (by omega), if_neg e, if_neg hqp, hf]

theorem splits_nonempty {d : Data} {n : Nat} {S : Nat → Bool} {f : Nat} (h : Splits d n S f) : members n (fun p => S p && d.matrix f p) ≠ [] ∧ members n (fun p => S p && !d.matrix f p) ≠ [] := by
  rw [members_ne_nil, members_ne_nil]
  obtain ⟨⟨p, a, b, c⟩, ⟨q, e, f, g⟩⟩ := h
  exact ⟨⟨p, a, by simp [b, c]⟩, ⟨q, e, by simp [f, g]⟩⟩

theorem holds_of_perm {n : Nat} {s s' : Sub} {S p : Nat → Bool} (h : Holds n s S) (hi : Inv n s') (hp : s'.points.Perm (s.points.filter p)) : Holds n s' (fun i => S i && p i) := by
  refine ⟨hi, hp.trans ?_⟩
  rw [show (List.range n).filter (fun i => S i && p i) = ((List.range n).filter S).filter p from members_and n S p]
  exact h.2.filter p

theorem buildWith_ok {d : Data} {part : (Nat → Bool) → List Nat → List Nat} (hp : PartOk part) {n : Nat} (hd : DataOk d n) {rec : Sub × World → Sub × World} (k depth : Nat)
    (hr : ∀ s x, Inv n s → Frame s (rec (s, x)).1)
    (hrec : ∀ k', k = k' + 1 → ∀ (v : Sub × World) (S : Nat → Bool), Holds n v.1 S → members n S ≠ [] → Distinct v.2.feats → v.2.feats.length ≤ v.2.beg + k' → BuildOk d n v (rec v) (depth + 1) S)
    (v : Sub × World) (S : Nat → Bool) (h : Holds n v.1 S) (hne : members n S ≠ []) (hdis : Distinct v.2.feats) (hk : v.2.feats.length ≤ v.2.beg + k) :
    BuildOk d n v (buildWith d part rec depth v) depth S := by
  obtain ⟨s, w⟩ := v
  simp only at h hdis hk
  have hs : sums d.y s.points = (((members n S).map d.y).sum, ((members n S).map (fun p => d.y p * d.y p)).sum, (members n S).length) := by
    rw [sums_perm d.y h.2]; exact sums_eq _ _
  have hb : (((((members n S).map (fun p => d.y p * d.y p)).sum - ((members n S).map d.y).sum * ((members n S).map d.y).sum : ℤ) : ℚ) / ((members n S).length : ℚ)) = baseOf d.y (members n S) := by
    unfold baseOf
    rw [Int.cast_sub, Int.cast_mul, cast_sum2, cast_sum1]; ring
  have hm : ((((members n S).map d.y).sum : ℤ) : ℚ) / ((members n S).length : ℚ) = meanOf d.y (members n S) := by unfold meanOf; rw [cast_sum1]
  have leafOk : (spread d.y (members n S) = 0 ∨ d.maxDepth ≤ depth ∨ ∀ f, Left w f → ¬ Admissible d n S f) →
      BuildOk d n (s, w) (s, { w with nodes := w.nodes ++ [{ leaf := true, value := meanOf d.y (members n S) }], ret := w.nodes.length }) depth S := by
    intro hc
    refine ⟨Frame.refl _, rfl, rfl, rfl, by simp, ?_, ?_⟩
    · intro j hj
      exact List.getElem?_append_left hj
    · exact .leaf { leaf := true, value := meanOf d.y (members n S) } (by simp) rfl hne rfl hc
  unfold buildWith
  simp only [hs, hb, hm]
  by_cases hz : ((members n S).map (fun p => d.y p * d.y p)).sum * ((members n S).length : ℤ) - ((members n S).map d.y).sum * ((members n S).map d.y).sum = 0
  · rw [if_pos hz]
    exact leafOk (Or.inl ((spread_zero_iff hne).1 hz))
  rw [if_neg hz]
  have hz' : spread d.y (members n S) ≠ 0 := fun e => hz ((spread_zero_iff hne).2 e)
  have hc := choose_spec hd h w
  cases hq : choose d s ((members n S).map d.y).sum ((members n S).map (fun p => d.y p * d.y p)).sum (baseOf d.y (members n S)) w with
  | none =>
    rw [hq] at hc
    exact leafOk (Or.inr (Or.inr hc))
  | some pos =>
    rw [hq] at hc
    obtain ⟨hbp, f, hf, hadm, hmin⟩ := hc
    simp only
    by_cases hdep : depth < d.maxDepth
    swap
    · rw [if_neg hdep]
      exact leafOk (Or.inr (Or.inl (by omega)))
    rw [if_pos hdep]
    have hpl := lt_of_get hf
    have hfd : w.feats.getD pos 0 = f := by rw [List.getD_eq_getElem?_getD, hf]; rfl
    rw [hfd]
    obtain ⟨k', rfl⟩ : ∃ k', k = k' + 1 := ⟨k - 1, by omega⟩
    have hrec := hrec k' rfl
    generalize hw1 : ({ feats := swap w.feats pos w.beg, beg := w.beg + 1, nodes := w.nodes ++ [{ leaf := false, feature := f }], ret := w.ret } : World) = w1
    have w1f : w1.feats = swap w.feats pos w.beg := by rw [← hw1]
    have w1b : w1.beg = w.beg + 1 := by rw [← hw1]
    have w1n : w1.nodes = w.nodes ++ [{ leaf := false, feature := f }] := by rw [← hw1]
    obtain ⟨s1, s2, i1, i2, p1, p2, he, hfr⟩ := partition_spec hp (d.matrix f)
      (fun u => let q := rec u; (q.1, { q.2 with nodes := q.2.nodes.modify w.nodes.length (fun nd => { nd with yes := q.2.ret }) }))
      (fun u => let q := rec u; (q.1, { q.2 with nodes := q.2.nodes.modify w.nodes.length (fun nd => { nd with no := q.2.ret }) }))
      (s, w1) h.1 (fun s x hs => hr s x hs) (fun s x hs => hr s x hs)
    generalize partition part (d.matrix f)
      (fun u => let q := rec u; (q.1, { q.2 with nodes := q.2.nodes.modify w.nodes.length (fun nd => { nd with yes := q.2.ret }) }))
      (fun u => let q := rec u; (q.1, { q.2 with nodes := q.2.nodes.modify w.nodes.length (fun nd => { nd with no := q.2.ret }) }))
      (s, w1) = r at he hfr
    simp only at he
    have o1 := hrec (s1, w1) _ (holds_of_perm h i1 p1) (splits_nonempty hadm.1).1 (by simp only; rw [w1f]; exact swap_distinct hpl (by omega) hdis) (by simp only; rw [w1f, swap_length, w1b]; omega)
    generalize hq1 : rec (s1, w1) = q1 at he o1
    generalize hx2 : ({ q1.2 with nodes := q1.2.nodes.modify w.nodes.length (fun nd => { nd with yes := q1.2.ret }) } : World) = x2 at he
    have x2f : x2.feats = w1.feats := by rw [← hx2]; exact o1.feats
    have x2b : x2.beg = w1.beg := by rw [← hx2]; exact o1.beg
    have x2n : x2.nodes = q1.2.nodes.modify w.nodes.length (fun nd => { nd with yes := q1.2.ret }) := by rw [← hx2]
    have o2 := hrec (s2, x2) _ (holds_of_perm h i2 p2) (splits_nonempty hadm.1).2 (by simp only; rw [x2f, w1f]; exact swap_distinct hpl (by omega) hdis) (by simp only; rw [x2f, x2b, w1f, swap_length, w1b]; omega)
    generalize hq2 : rec (s2, x2) = q2 at he o2
    have w1l : w1.nodes.length = w.nodes.length + 1 := by rw [w1n]; simp
    have l1 : w.nodes.length + 1 < q1.2.nodes.length := by have := o1.len; simp only [w1l] at this; exact this
    have x2l : x2.nodes.length = q1.2.nodes.length := by rw [x2n]; simp
    have l2 : q1.2.nodes.length < q2.2.nodes.length := by have := o2.len; simp only [x2l] at this; exact this
    have r1 : q1.2.ret = w.nodes.length + 1 := by rw [o1.ret]; exact w1l
    have r2 : q2.2.ret = q1.2.nodes.length := by rw [o2.ret]; exact x2l
    -- the nodes after the first subtree, after the second one, and at the end
    have g1 : ∀ j, j < w.nodes.length + 1 → q1.2.nodes[j]? = (w.nodes ++ [({ leaf := false, feature := f } : Node)])[j]? := by
      intro j hj; rw [o1.old j (by simp only; omega)]; simp only; rw [w1n]
    have gx : ∀ j, x2.nodes[j]? = (fun nd : Node => if w.nodes.length = j then { nd with yes := q1.2.ret } else nd) <$> q1.2.nodes[j]? := by
      intro j
      rw [x2n, List.getElem?_modify]
    have g2 : ∀ j, j < q1.2.nodes.length → q2.2.nodes[j]? = x2.nodes[j]? := by
      intro j hj; exact o2.old j (by simp only; omega)
    have rn : r.2.nodes = q2.2.nodes.modify w.nodes.length (fun nd => { nd with no := q2.2.ret }) := by rw [he]
    have gr : ∀ j, r.2.nodes[j]? = (fun nd : Node => if w.nodes.length = j then { nd with no := q2.2.ret } else nd) <$> q2.2.nodes[j]? := by
      intro j
      rw [rn, List.getElem?_modify]
    have groot : r.2.nodes[w.nodes.length]? = some { leaf := false, feature := f, yes := w.nodes.length + 1, no := q1.2.nodes.length } := by
      rw [gr, g2 _ (by omega), gx, g1 _ (by omega)]
      simp [r1, r2]
    have gother : ∀ j, j ≠ w.nodes.length → r.2.nodes[j]? = q2.2.nodes[j]? := by
      intro j hj
      rw [gr]
      simp [Ne.symm hj]
    have gother1 : ∀ j, j ≠ w.nodes.length → j < q1.2.nodes.length → r.2.nodes[j]? = q1.2.nodes[j]? := by
      intro j hj hl
      rw [gother j hj, g2 j hl, gx]
      simp [Ne.symm hj]
    have hleft1 : ∀ f', Left w1 f' ↔ (Left w f' ∧ f' ≠ f) := Left.swap_iff hdis hbp hf w1f w1b
    have hleft2 : ∀ f', Left x2 f' ↔ (Left w f' ∧ f' ≠ f) := Left.swap_iff hdis hbp hf (x2f.trans w1f) (x2b.trans w1b)
    have rf : r.2.feats = swap w.feats pos w.beg := by rw [he]; exact o2.feats.trans (x2f.trans w1f)
    have rb : r.2.beg = w.beg + 1 := by rw [he]; exact o2.beg.trans (x2b.trans w1b)
    refine ⟨hfr, ?_, ?_, rfl, ?_, ?_, ?_⟩
    · simp only; rw [rf, rb, Nat.add_sub_cancel, swap_swap hpl (by omega)]
    · simp only; rw [rb, Nat.add_sub_cancel]
    · simp only; rw [rn]; simp; omega
    · intro j hj
      simp only at hj ⊢
      rw [gother1 j (by omega) (by omega), g1 j (by omega), List.getElem?_append_left hj]
    · refine .inner { leaf := false, feature := f, yes := w.nodes.length + 1, no := q1.2.nodes.length } groot rfl ⟨pos, hbp, hf⟩ (by simp only; omega) (by simp only; omega) hdep hz' hadm hmin ?_ ?_
      · have t := o1.tree
        simp only [w1l] at t
        refine (t.avail_congr hleft1).mono ?_
        intro j a b
        exact gother1 j (by omega) b
      · have t := o2.tree
        simp only [x2l] at t
        refine (t.avail_congr hleft2).mono ?_
        intro j a b
        exact gother j (by omega)

theorem build_ok {d : Data} {part : (Nat → Bool) → List Nat → List Nat} (hp : PartOk part) {n : Nat} (hd : DataOk d n) (k : Nat) : ∀ (depth : Nat) (v : Sub × World) (S : Nat → Bool),
    Holds n v.1 S → members n S ≠ [] → Distinct v.2.feats → v.2.feats.length ≤ v.2.beg + k → BuildOk d n v (build d part k depth v) depth S := by
  induction k with
  | zero =>
    intro depth v S h hne hdis hk
    exact buildWith_ok hp hd 0 depth (fun s x _ => Frame.refl s) (fun k' e => absurd e (by omega)) v S h hne hdis hk
  | succ k ih =>
    intro depth v S h hne hdis hk
    refine buildWith_ok hp hd (k + 1) depth (fun s x hi => build_frame hp k (depth + 1) s x hi) ?_ v S h hne hdis hk
    intro k' e
    obtain rfl : k = k' := by omega
    exact ih (depth + 1)

/-! ### The ensemble -/

/-- One call of `BuildTree`: the goal, the depth, the points to use and the features to use. -/
structure Call where
  y : Nat → ℤ
  maxDepth : Nat
  used : Nat → Bool
  feats : List Nat

/-- What `BuildTree` is given in a call. -/
def Call.data (c : Call) (g : Nat → List Nat) (matrix : Nat → Nat → Bool) : Data := ⟨g, matrix, c.y, c.maxDepth⟩

/-- The loop of `main`, `gbt.cc:183-214`, as far as the builder goes: call after call. -/
def runCalls (part : (Nat → Bool) → List Nat → List Nat) (m : Nat) (g : Nat → List Nat) (matrix : Nat → Nat → Bool) (b : Builder) (cs : List Call) : Builder :=
  cs.foldl (fun b c => buildTree part m b (c.data g matrix) c.used c.feats) b

/-- The call may be made: some point is used and no feature is given twice. -/
def Call.Ok (n : Nat) (c : Call) : Prop := (∃ p, p < n ∧ c.used p = true) ∧ c.feats.Nodup

/-- The features of a call: those given, or if none are, all of them. -/
def Call.avail (m : Nat) (c : Call) (f : Nat) : Prop := if c.feats = [] then f < m else f ∈ c.feats

theorem distinct_of_nodup {l : List Nat} (h : l.Nodup) : Distinct l := by
  intro i j f hi hj
  have a := lt_of_get hi
  exact (List.getElem?_inj a h).1 (hi.trans hj.symm)

theorem parse_distinct {fs : List Nat} (m : Nat) (h : fs.Nodup) : Distinct (parseFeatures fs m) := by
  unfold parseFeatures
  split
  · exact distinct_of_nodup List.nodup_range
  · exact distinct_of_nodup h

theorem left_parse (m : Nat) (c : Call) (nodes : List Node) (r : Nat) (f : Nat) : Left ⟨parseFeatures c.feats m, 0, nodes, r⟩ f ↔ c.avail m f := by
  have : Left ⟨parseFeatures c.feats m, 0, nodes, r⟩ f ↔ f ∈ parseFeatures c.feats m := by
    unfold Left
    simp only [Nat.zero_le, true_and]
    exact List.mem_iff_getElem?.symm
  rw [this]
  unfold parseFeatures Call.avail
  by_cases e : c.feats = []
  · simp [e]
  · have : c.feats.isEmpty = false := by simpa using e
    simp [e, this]

theorem buildTree_ok {part : (Nat → Bool) → List Nat → List Nat} (hp : PartOk part) {n m : Nat} {g : Nat → List Nat} {matrix : Nat → Nat → Bool} (hd : ∀ f, g f = members n (matrix f))
    (b : Builder) (h : Holds n b.sub (fun _ => true)) (c : Call) (hc : c.Ok n) :
    Holds n (buildTree part m b (c.data g matrix) c.used c.feats).sub (fun _ => true) ∧
    (buildTree part m b (c.data g matrix) c.used c.feats).trees = b.trees ++ [b.nodes.length] ∧
    (∀ j, j < b.nodes.length → (buildTree part m b (c.data g matrix) c.used c.feats).nodes[j]? = b.nodes[j]?) ∧
    IsTree (c.data g matrix) n (buildTree part m b (c.data g matrix) c.used c.feats).nodes b.nodes.length (c.avail m) 0 c.used := by
  have hda : DataOk (c.data g matrix) n := hd
  obtain ⟨s1, s2, i1, i2, p1, p2, he, hf⟩ := partition_spec hp c.used (build (c.data g matrix) part (parseFeatures c.feats m).length 0) id (b.sub, (⟨parseFeatures c.feats m, 0, b.nodes, 0⟩ : World)) h.1
    (fun s x hi => build_frame hp _ _ s x hi) (fun s x _ => Frame.refl s)
  unfold buildTree
  simp only
  generalize partition part c.used (build (c.data g matrix) part (parseFeatures c.feats m).length 0) id (b.sub, (⟨parseFeatures c.feats m, 0, b.nodes, 0⟩ : World)) = r at he hf
  have h1 : Holds n s1 c.used := by
    have := holds_of_perm h i1 p1
    simpa using this
  have o := build_ok hp hda (parseFeatures c.feats m).length 0 (s1, (⟨parseFeatures c.feats m, 0, b.nodes, 0⟩ : World)) c.used h1 (members_ne_nil.2 hc.1) (parse_distinct m hc.2) (by simp)
  simp only [id] at he
  refine ⟨⟨Frame.inv h.1 hf, (Frame.points h.1 hf).trans h.2⟩, ?_, ?_, ?_⟩
  · rw [he, o.ret]
  · intro j hj; rw [he]; exact o.old j hj
  · rw [he]; exact o.tree.avail_congr (left_parse m c b.nodes 0)

theorem runCalls_ok {part : (Nat → Bool) → List Nat → List Nat} (hp : PartOk part) {n m : Nat} {g : Nat → List Nat} {matrix : Nat → Nat → Bool} (hd : ∀ f, g f = members n (matrix f)) (cs : List Call) :
    ∀ b : Builder, Holds n b.sub (fun _ => true) → (∀ c ∈ cs, c.Ok n) →
      Holds n (runCalls part m g matrix b cs).sub (fun _ => true) ∧ (∀ j, j < b.nodes.length → (runCalls part m g matrix b cs).nodes[j]? = b.nodes[j]?) ∧
      ∃ ts, (runCalls part m g matrix b cs).trees = b.trees ++ ts ∧ ts.length = cs.length ∧
        ∀ (i : Nat) (c : Call) (t : Nat), cs[i]? = some c → ts[i]? = some t → IsTree (c.data g matrix) n (runCalls part m g matrix b cs).nodes t (c.avail m) 0 c.used := by
  induction cs with
  | nil => intro b h _; exact ⟨h, fun _ _ => rfl, [], by simp [runCalls], rfl, fun i c t hc => by simp at hc⟩
  | cons c cs ih =>
    intro b h hok
    obtain ⟨a1, a2, a3, a4⟩ := buildTree_ok hp hd (m := m) b h c (hok c (by simp))
    have hrun : runCalls part m g matrix b (c :: cs) = runCalls part m g matrix (buildTree part m b (c.data g matrix) c.used c.feats) cs := rfl
    rw [hrun]
    generalize buildTree part m b (c.data g matrix) c.used c.feats = b' at a1 a2 a3 a4
    obtain ⟨c1, c2, ts, c3, c4, c5⟩ := ih b' a1 (fun x hx => hok x (by simp [hx]))
    have hlen : b.nodes.length < b'.nodes.length := a4.lt
    refine ⟨c1, ?_, b.nodes.length :: ts, ?_, by simp [c4], ?_⟩
    · intro j hj; rw [c2 j (by omega), a3 j hj]
    · rw [c3, a2]; simp
    · intro i x t hx ht
      cases i with
      | zero =>
        simp only [List.getElem?_cons_zero, Option.some.injEq] at hx ht
        subst hx; subst ht
        exact a4.mono (fun j _ hj => c2 j hj)
      | succ i =>
        simp only [List.getElem?_cons_succ] at hx ht
        exact c5 i x t hx ht

/-- C132 (a): after any sequence of calls of `BuildTree`, with any goals, depths, points and features, and whatever `std::partition` does with the order: the ensemble has one tree per call, each of which is what the specification asks for: leaves have the means of their points, inner nodes the feature with the least ratio, no feature twice on a path, no deeper than asked for; and the builder can be used again with all of its points. -/
theorem ensemble_is_right {part : (Nat → Bool) → List Nat → List Nat} (hp : PartOk part) {n m : Nat} {g : Nat → List Nat} {matrix : Nat → Nat → Bool} (hd : ∀ f, g f = members n (matrix f))
    (cs : List Call) (hok : ∀ c ∈ cs, c.Ok n) :
    (runCalls part m g matrix (Builder.init n) cs).trees.length = cs.length ∧
    (∀ (i : Nat) (c : Call) (t : Nat), cs[i]? = some c → (runCalls part m g matrix (Builder.init n) cs).trees[i]? = some t →
      IsTree (c.data g matrix) n (runCalls part m g matrix (Builder.init n) cs).nodes t (c.avail m) 0 c.used) ∧
    (runCalls part m g matrix (Builder.init n) cs).sub.points.Perm (List.range n) := by
  have h0 : Holds n (Sub.init n) (fun _ => true) := ⟨inv_init n, by
    have hs : Seg (Sub.init n) [] (List.range n) [] := ⟨by simp [Sub.init], rfl, by simp [Sub.init]⟩
    rw [hs.points, filter_all]⟩
  obtain ⟨a, b, ts, c1, c2, c3⟩ := runCalls_ok hp (m := m) hd cs (Builder.init n) h0 hok
  have e : (runCalls part m g matrix (Builder.init n) cs).trees = ts := by rw [c1]; simp [Builder.init]
  refine ⟨by rw [e, c2], ?_, ?_⟩
  · intro i c t hc ht
    rw [e] at ht
    exact c3 i c t hc ht
  · have := a.2; rwa [filter_all] at this

/-! ### Applying a tree -/

/-- Whatever the features of a point are, `Apply` comes to a leaf, before it has visited as many nodes as there are. -/
theorem IsTree.apply_terminates {d : Data} {n : Nat} {nodes : List Node} {i : Nat} {avail : Nat → Prop} {depth : Nat} {S : Nat → Bool} (h : IsTree d n nodes i avail depth S) (x : Nat → Bool) :
    ∃ v, ∀ k, nodes.length ≤ i + k → applyTree nodes x k i = some v := by
  induction h with
  | @leaf i _ _ _ nd e a b c e' =>
    refine ⟨nd.value, ?_⟩
    intro k hk
    have := IsTree.lt (.leaf nd e a b c e' : IsTree d n nodes _ _ _ _)
    obtain ⟨k, rfl⟩ : ∃ j, k = j + 1 := ⟨k - 1, by omega⟩
    simp [applyTree, e, a]
  | @inner i _ _ _ nd e a b c1 c2 c3 c4 c5 c6 ty tn ihy ihn =>
    have hl := IsTree.lt (.inner nd e a b c1 c2 c3 c4 c5 c6 ty tn : IsTree d n nodes _ _ _ _)
    obtain ⟨v1, h1⟩ := ihy
    obtain ⟨v2, h2⟩ := ihn
    refine ⟨if x nd.feature then v1 else v2, ?_⟩
    intro k hk
    obtain ⟨k, rfl⟩ : ∃ j, k = j + 1 := ⟨k - 1, by omega⟩
    simp only [applyTree, e, a, Bool.false_eq_true, if_false]
    split
    · exact h1 k (by omega)
    · exact h2 k (by omega)

/-- The points of a set which agree with a point on the features of a path. -/
def agree (matrix : Nat → Nat → Bool) (S : Nat → Bool) (path : List Nat) (x : Nat → Bool) : Nat → Bool := fun q => S q && path.all (fun f => matrix f q == x f)

theorem IsTree.apply_mean {d : Data} {n : Nat} {nodes : List Node} {i : Nat} {avail : Nat → Prop} {depth : Nat} {S : Nat → Bool} (h : IsTree d n nodes i avail depth S) (x : Nat → Bool) :
    ∃ path : List Nat, path.Nodup ∧ (∀ f ∈ path, avail f) ∧ (path ≠ [] → depth + path.length ≤ d.maxDepth) ∧ members n (agree d.matrix S path x) ≠ [] ∧
      ∀ k, nodes.length ≤ i + k → applyTree nodes x k i = some (meanOf d.y (members n (agree d.matrix S path x))) := by
  induction h with
  | @leaf i avail depth S nd e a b c e' =>
    have hS : agree d.matrix S [] x = S := by funext q; simp [agree]
    refine ⟨[], List.nodup_nil, by simp, by simp, by rw [hS]; exact b, ?_⟩
    intro k hk
    have := IsTree.lt (.leaf nd e a b c e' : IsTree d n nodes _ _ _ _)
    obtain ⟨k, rfl⟩ : ∃ j, k = j + 1 := ⟨k - 1, by omega⟩
    simp [applyTree, e, a, hS, c]
  | @inner i avail depth S nd e a b c1 c2 c3 c4 c5 c6 ty tn ihy ihn =>
    have hl := IsTree.lt (.inner nd e a b c1 c2 c3 c4 c5 c6 ty tn : IsTree d n nodes _ _ _ _)
    cases hx : x nd.feature with
    | true =>
      obtain ⟨path, p1, p2, p3, p4, p5⟩ := ihy
      have hS : agree d.matrix S (nd.feature :: path) x = agree d.matrix (fun p => S p && d.matrix nd.feature p) path x := by
        funext q; simp only [agree, List.all_cons, hx, beq_true, Bool.and_assoc]
      refine ⟨nd.feature :: path, List.nodup_cons.2 ⟨fun hm => (p2 _ hm).2 rfl, p1⟩, ?_, ?_, by rw [hS]; exact p4, ?_⟩
      · intro f hf
        rcases List.mem_cons.1 hf with rfl | hf
        · exact b
        · exact (p2 f hf).1
      · intro _
        rw [List.length_cons]
        by_cases hp : path = []
        · subst hp; simp; omega
        · have := p3 hp; omega
      · intro k hk
        obtain ⟨k, rfl⟩ : ∃ j, k = j + 1 := ⟨k - 1, by omega⟩
        simp only [applyTree, e, a, Bool.false_eq_true, if_false, hx, if_true]
        rw [hS]
        exact p5 k (by omega)
    | false =>
      obtain ⟨path, p1, p2, p3, p4, p5⟩ := ihn
      have hS : agree d.matrix S (nd.feature :: path) x = agree d.matrix (fun p => S p && !d.matrix nd.feature p) path x := by
        funext q; simp only [agree, List.all_cons, hx, beq_false, Bool.and_assoc]
      refine ⟨nd.feature :: path, List.nodup_cons.2 ⟨fun hm => (p2 _ hm).2 rfl, p1⟩, ?_, ?_, by rw [hS]; exact p4, ?_⟩
      · intro f hf
        rcases List.mem_cons.1 hf with rfl | hf
        · exact b
        · exact (p2 f hf).1
      · intro _
        rw [List.length_cons]
        by_cases hp : path = []
        · subst hp; simp; omega
        · have := p3 hp; omega
      · intro k hk
        obtain ⟨k, rfl⟩ : ∃ j, k = j + 1 := ⟨k - 1, by omega⟩
        simp only [applyTree, e, a, Bool.false_eq_true, if_false, hx]
        rw [hS]
        exact p5 k (by omega)

/-- C132 (b): applying the tree of any call to any point, of the training set or not, takes no more steps than there are nodes, and the result is the mean of the goal over those points used in the call which agree with it on some of the features of the call, different ones, no more of them than the depth: there is at least one such point. -/
theorem apply_gives_a_mean {part : (Nat → Bool) → List Nat → List Nat} (hp : PartOk part) {n m : Nat} {g : Nat → List Nat} {matrix : Nat → Nat → Bool} (hd : ∀ f, g f = members n (matrix f))
    (cs : List Call) (hok : ∀ c ∈ cs, c.Ok n) (x : Nat → Bool) (i : Nat) (c : Call) (t : Nat) (hc : cs[i]? = some c) (ht : (runCalls part m g matrix (Builder.init n) cs).trees[i]? = some t) :
    ∃ path : List Nat, path.Nodup ∧ (∀ f ∈ path, c.avail m f) ∧ path.length ≤ c.maxDepth ∧ members n (agree matrix c.used path x) ≠ [] ∧
      applyTree (runCalls part m g matrix (Builder.init n) cs).nodes x (runCalls part m g matrix (Builder.init n) cs).nodes.length t = some (meanOf c.y (members n (agree matrix c.used path x))) := by
  have h := (ensemble_is_right hp (m := m) hd cs hok).2.1 i c t hc ht
  obtain ⟨path, p1, p2, p3, p4, p5⟩ := h.apply_mean x
  refine ⟨path, p1, p2, ?_, p4, p5 _ (by omega)⟩
  by_cases e : path = []
  · subst e; simp
  · have := p3 e; rw [Nat.zero_add] at this; exact this

/-! ### Which feature is chosen -/

/-- An inner node of a tree which is right, with the sets and the features there. -/
inductive At (d : Data) (n : Nat) (nodes : List Node) : Nat → (Nat → Prop) → (Nat → Bool) → Nat → (Nat → Prop) → (Nat → Bool) → Prop
  | here {i avail S} : At d n nodes i avail S i avail S
  | yes {i avail S j avail' S'} (nd : Node) : nodes[i]? = some nd → nd.leaf = false → At d n nodes nd.yes (fun f => avail f ∧ f ≠ nd.feature) (fun p => S p && d.matrix nd.feature p) j avail' S' → At d n nodes i avail S j avail' S'
  | no {i avail S j avail' S'} (nd : Node) : nodes[i]? = some nd → nd.leaf = false → At d n nodes nd.no (fun f => avail f ∧ f ≠ nd.feature) (fun p => S p && !d.matrix nd.feature p) j avail' S' → At d n nodes i avail S j avail' S'

theorem IsTree.at {d : Data} {n : Nat} {nodes : List Node} {i : Nat} {avail : Nat → Prop} {S : Nat → Bool} {j : Nat} {avail' : Nat → Prop} {S' : Nat → Bool} (ha : At d n nodes i avail S j avail' S') :
    ∀ {depth}, IsTree d n nodes i avail depth S → ∃ depth', IsTree d n nodes j avail' depth' S' := by
  induction ha with
  | here => intro depth h; exact ⟨depth, h⟩
  | yes nd e a _ ih =>
    intro depth h
    cases h with
    | leaf nd' e' a' => rw [e] at e'; cases e'; rw [a] at a'; cases a'
    | inner nd' e' _ _ _ _ _ _ _ _ ty _ => rw [e] at e'; cases e'; exact ih ty
  | no nd e a _ ih =>
    intro depth h
    cases h with
    | leaf nd' e' a' => rw [e] at e'; cases e'; rw [a] at a'; cases a'
    | inner nd' e' _ _ _ _ _ _ _ _ _ tn => rw [e] at e'; cases e'; exact ih tn

/-- C132 (c), partial: wherever a tree splits points for which the denominator is positive, the feature is one which leaves the least spread. Missing: the other points, for which see `worst_feature_is_chosen`. -/
theorem best_feature_is_chosen_partial {d : Data} {n : Nat} {nodes : List Node} {i : Nat} {avail : Nat → Prop} {depth : Nat} {S : Nat → Bool} (h : IsTree d n nodes i avail depth S)
    {j : Nat} {avail' : Nat → Prop} {S' : Nat → Bool} (ha : At d n nodes i avail S j avail' S') {nd : Node} (hn : nodes[j]? = some nd) (hl : nd.leaf = false) (hb : 0 < baseOf d.y (members n S'))
    (f : Nat) (hf : avail' f) (hs : Splits d n S' f) : penaltyOf d n S' nd.feature ≤ penaltyOf d n S' f := by
  obtain ⟨depth', t⟩ := IsTree.at ha h
  cases t with
  | leaf nd' e' a' => rw [hn] at e'; cases e'; rw [hl] at a'; cases a'
  | inner nd' e' _ _ _ _ _ _ _ hm _ _ =>
    rw [hn] at e'; cases e'
    exact (div_le_div_iff_of_pos_right hb).1 (hm f hf hs)

/-- Where the denominator is negative, the feature is one which leaves the greatest spread. -/
theorem worst_feature_is_chosen {d : Data} {n : Nat} {nodes : List Node} {i : Nat} {avail : Nat → Prop} {depth : Nat} {S : Nat → Bool} (h : IsTree d n nodes i avail depth S)
    {j : Nat} {avail' : Nat → Prop} {S' : Nat → Bool} (ha : At d n nodes i avail S j avail' S') {nd : Node} (hn : nodes[j]? = some nd) (hl : nd.leaf = false) (hb : baseOf d.y (members n S') < 0)
    (f : Nat) (hf : avail' f) (hs : Splits d n S' f) : penaltyOf d n S' f ≤ penaltyOf d n S' nd.feature := by
  obtain ⟨depth', t⟩ := IsTree.at ha h
  cases t with
  | leaf nd' e' a' => rw [hn] at e'; cases e'; rw [hl] at a'; cases a'
  | inner nd' e' _ _ _ _ _ _ _ hm _ _ =>
    rw [hn] at e'; cases e'
    exact (div_le_div_right_of_neg hb).1 (hm f hf hs)

theorem sum_sq_lt (y : Nat → ℤ) : ∀ l : List Nat, (∀ p ∈ l, 0 < y p) → 0 ≤ (l.map (fun p => (y p : ℚ))).sum ∧ (l.map (fun p => (y p : ℚ) ^ 2)).sum ≤ (l.map (fun p => (y p : ℚ))).sum ^ 2 ∧
    (l ≠ [] → 0 < (l.map (fun p => (y p : ℚ))).sum) ∧ (2 ≤ l.length → (l.map (fun p => (y p : ℚ) ^ 2)).sum < (l.map (fun p => (y p : ℚ))).sum ^ 2) := by
  intro l
  induction l with
  | nil => intro _; simp
  | cons p l ih =>
    intro h
    obtain ⟨a, b, c, e⟩ := ih (fun q hq => h q (by simp [hq]))
    have hp : (0 : ℚ) < y p := by exact_mod_cast h p (by simp)
    simp only [List.map_cons, List.sum_cons, List.length_cons]
    refine ⟨by linarith, ?_, fun _ => by linarith, ?_⟩
    · nlinarith [mul_nonneg (le_of_lt hp) a]
    · intro hl
      have hne : l ≠ [] := by rintro rfl; simp at hl
      nlinarith [mul_pos hp (c hne)]

/-- In particular: wherever the goals of all the points to be split are positive, the tree splits by a feature which leaves the greatest spread. -/
theorem positive_goals_choose_the_worst {d : Data} {n : Nat} {nodes : List Node} {i : Nat} {avail : Nat → Prop} {depth : Nat} {S : Nat → Bool} (h : IsTree d n nodes i avail depth S)
    {j : Nat} {avail' : Nat → Prop} {S' : Nat → Bool} (ha : At d n nodes i avail S j avail' S') {nd : Node} (hn : nodes[j]? = some nd) (hl : nd.leaf = false)
    (hpos : ∀ p, p < n → S' p = true → 0 < d.y p) (f : Nat) (hf : avail' f) (hs : Splits d n S' f) : penaltyOf d n S' f ≤ penaltyOf d n S' nd.feature := by
  refine worst_feature_is_chosen h ha hn hl ?_ f hf hs
  have hp : ∀ p ∈ members n S', 0 < d.y p := by
    intro p hp
    unfold members at hp
    rw [List.mem_filter, List.mem_range] at hp
    exact hpos p hp.1 hp.2
  have h2 : 2 ≤ (members n S').length := by
    have e := len_split (d.matrix f) (members n S')
    rw [← members_and, ← members_and] at e
    have a := List.length_pos_iff.2 (splits_nonempty hs).1
    have b := List.length_pos_iff.2 (splits_nonempty hs).2
    omega
  have := (sum_sq_lt d.y (members n S') hp).2.2.2 h2
  unfold baseOf
  refine div_neg_of_neg_of_pos (by linarith) ?_
  exact_mod_cast (by omega : 0 < (members n S').length)

/-! ### Runs -/

/-- Four points with the goals 0, 0, 10 and 10. The third and the fourth have feature 0, which says everything about the goal; the first and the third have feature 1, which says nothing. -/
def goal4 (p : Nat) : ℤ := if p < 2 then 0 else 10
def has4 (f p : Nat) : Bool := if f = 0 then p == 2 || p == 3 else p == 0 || p == 2
def run4 (depth : Nat) : Builder := runCalls stable 2 (fun f => members 4 (has4 f)) has4 (Builder.init 4) [⟨goal4, depth, fun _ => true, []⟩]

/-- The tree of depth one: it splits by the useless feature, and both of the leaves have the mean of all the points. -/
theorem useless_feature : (run4 1).nodes.map (fun nd => (nd.leaf, nd.value, nd.feature, nd.yes, nd.no)) =
    [(false, 0, 1, 1, 2), (true, 5, 2 ^ 32 - 1, 2 ^ 32 - 1, 2 ^ 32 - 1), (true, 5, 2 ^ 32 - 1, 2 ^ 32 - 1, 2 ^ 32 - 1)] := by decide +kernel

/-- While the other feature leaves no spread at all. -/
theorem useful_feature : penaltyOf ⟨fun f => members 4 (has4 f), has4, goal4, 1⟩ 4 (fun _ => true) 0 = 0 ∧ penaltyOf ⟨fun f => members 4 (has4 f), has4, goal4, 1⟩ 4 (fun _ => true) 1 = 100 := by decide +kernel

/-- Two points with the goals 0 and 5, and a feature which tells them apart: there is no split, the denominator being zero. -/
theorem no_split : (runCalls stable 1 (fun f => members 2 (fun p => p == 1)) (fun _ p => p == 1) (Builder.init 2) [⟨fun p => if p = 0 then 0 else 5, 9, fun _ => true, []⟩]).nodes.map (fun nd => (nd.leaf, nd.value)) =
    [(true, 5 / 2)] := by decide +kernel

/-- The goals 1, 1, -1 and -1: here the denominator is positive, and the useful feature is chosen. -/
theorem good_choice : (runCalls stable 2 (fun f => members 4 (has4 f)) has4 (Builder.init 4) [⟨fun p => if p < 2 then 1 else -1, 5, fun _ => true, [1, 0]⟩]).nodes.map (fun nd => (nd.leaf, nd.value, nd.feature)) =
    [(false, 0, 0), (true, -1, 2 ^ 32 - 1), (true, 1, 2 ^ 32 - 1)] := by decide +kernel

/-- The hypotheses of the theorems are met by these runs. -/
example : (∀ f, (fun f => members 4 (has4 f)) f = members 4 (has4 f)) ∧ ∀ c ∈ [(⟨goal4, 1, fun _ => true, []⟩ : Call)], c.Ok 4 :=
  ⟨fun _ => rfl, by intro c hc; simp at hc; subst hc; exact ⟨⟨0, by decide, rfl⟩, List.nodup_nil⟩⟩

end Current.Gbt
