import Mathlib.Algebra.Order.Field.Basic
import Mathlib.Tactic.FieldSimp
import Mathlib.Tactic.Ring
import Mathlib.Tactic.LinearCombination
import Mathlib.Analysis.Calculus.Deriv.Slope
import Mathlib.Analysis.Calculus.Deriv.Pow
import Mathlib.Analysis.Calculus.Deriv.Mul

/-!
# fncas: the numerical derivative (part of C74)

Model of `approximate_derivative` and `approximate_gradient` (`fncas/fncas/differentiate.h:38-67`), over an
arbitrary field in place of the doubles.
-/

namespace Current.Fncas.Approx

variable {α : Type} [Field α]

/-- `approximate_derivative` (differentiate.h:39-48). -/
def derivative (f : List α → α) (x : List α) (i : Nat) (eps : α) : α :=
  (f (x.set i (x.getD i 0 + eps)) - f (x.set i (x.getD i 0 - eps))) / (eps + eps)

/-- The loop of `approximate_gradient` (differentiate.h:57-65): one vector is perturbed and restored in place. The
result lists `g[i], g[i+1], …`; `n` is the number of components left. -/
def gradientLoop (f : List α → α) (eps : α) : Nat → Nat → List α → List α
  | 0, _, _ => []
  | n + 1, i, xx =>
    let v0 := xx.getD i 0
    let xx1 := xx.set i (v0 - eps)
    let f1 := f xx1
    let xx2 := xx1.set i (v0 + eps)
    let f2 := f xx2
    let xx3 := xx2.set i v0
    (f2 - f1) / (eps + eps) :: gradientLoop f eps n (i + 1) xx3

/-- `approximate_gradient` (differentiate.h:51-67). -/
def gradient (f : List α → α) (x : List α) (eps : α) : List α := gradientLoop f eps x.length 0 x

theorem set_getD_self (x : List α) (i : Nat) : x.set i (x.getD i 0) = x := by
  apply List.ext_getElem?
  intro j
  by_cases h : i < x.length
  · rw [List.getElem?_set]
    by_cases hj : i = j
    · subst hj; simp [h]
    · simp [hj]
  · rw [List.set_eq_of_length_le (by omega)]

theorem gradientLoop_eq (f : List α → α) (eps : α) : ∀ n i (x : List α),
    gradientLoop f eps n i x = (List.range' i n).map (fun j => derivative f x j eps)
  | 0, _, _ => rfl
  | n + 1, i, x => by
    rw [gradientLoop, List.range'_succ, List.map_cons]
    simp only [List.set_set, set_getD_self]
    rw [gradientLoop_eq f eps n (i + 1) x]
    rfl

/-- **C74 (numerical).** The numerical gradient is the vector of the numerical derivatives, each at the given point:
perturbing one coordinate leaves no trace in the others. -/
theorem gradient_is_the_derivatives (f : List α → α) (x : List α) (eps : α) :
    gradient f x eps = (List.range x.length).map (fun i => derivative f x i eps) := by
  rw [gradient, gradientLoop_eq, List.range_eq_range']

/-- **C74 (numerical).** The numerical derivative is exact for every function that is a polynomial of degree at most
two in the variable (with any dependence on the others), whatever the step. -/
theorem derivative_exact_for_quadratics (f : List α → α) (x : List α) (i : Nat) (a b c eps : α) (h2 : (2 : α) ≠ 0)
    (he : eps ≠ 0) (hf : ∀ t, f (x.set i t) = a * t ^ 2 + b * t + c) :
    derivative f x i eps = 2 * a * x.getD i 0 + b := by
  unfold derivative
  rw [hf, hf, div_eq_iff (by rw [← two_mul]; exact mul_ne_zero h2 he)]
  ring

/-- A function meeting the hypotheses: `3 x0^2 + x0 x1` as a function of `x0`. -/
example : ∀ t : ℚ, (fun x : List ℚ => 3 * x.getD 0 0 ^ 2 + x.getD 0 0 * x.getD 1 0) ([5, 7].set 0 t)
    = 3 * t ^ 2 + 7 * t + 0 := by
  intro t; simp; ring

open Filter Topology in
/-- **C74 (numerical).** Over the reals: wherever the function has a derivative `d` by its `i`-th variable, the numerical
derivative converges to `d` as the step goes to zero. -/
theorem derivative_converges (f : List ℝ → ℝ) (x : List ℝ) (i : Nat) (d : ℝ)
    (hf : HasDerivAt (fun t => f (x.set i t)) d (x.getD i 0)) :
    Tendsto (fun eps => derivative f x i eps) (𝓝[≠] 0) (𝓝 d) := by
  have h1 := hasDerivAt_iff_tendsto_slope_zero.mp hf
  have hn : Tendsto (fun t : ℝ => -t) (𝓝[≠] 0) (𝓝[≠] 0) := by
    apply tendsto_nhdsWithin_of_tendsto_nhds_of_eventually_within
    · have : Tendsto (fun t : ℝ => -t) (𝓝 0) (𝓝 (-0)) := (continuous_neg.tendsto 0)
      rw [neg_zero] at this
      exact this.mono_left nhdsWithin_le_nhds
    · filter_upwards [self_mem_nhdsWithin] with t ht
      simpa using ht
  have h2 := h1.comp hn
  have h3 := (h1.add h2).const_mul (1 / 2 : ℝ)
  have e : (1 / 2 : ℝ) * (d + d) = d := by ring
  rw [e] at h3
  refine h3.congr' ?_
  filter_upwards [self_mem_nhdsWithin] with t ht
  have ht : t ≠ 0 := ht
  simp only [derivative, Function.comp, smul_eq_mul, ← sub_eq_add_neg]
  field_simp
  ring

/-- A function meeting the hypothesis, that is not quadratic: `x0^3 x1` at `(5, 7)`. -/
example : HasDerivAt (fun t => (fun x : List ℝ => x.getD 0 0 ^ 3 * x.getD 1 0) ([5, 7].set 0 t)) (3 * 5 ^ 2 * 7)
    (([5, 7] : List ℝ).getD 0 0) := by
  have h := HasDerivAt.mul_const (hasDerivAt_pow 3 (5 : ℝ)) 7
  simpa using h

end Current.Fncas.Approx
