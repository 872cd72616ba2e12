import Mathlib.Algebra.Order.Field.Basic
import Mathlib.Algebra.Order.Ring.Rat
import Mathlib.Tactic.Linarith
import Mathlib.Tactic.Positivity
import Mathlib.Tactic.Ring
import Mathlib.Tactic.NormNum
import Mathlib.Tactic.FieldSimp

/-!
# fncas: the optimizers (C76)

Model of `fncas/fncas/mathutil.h` (vector helpers, Polak-Ribiere, backtracking line search) and of the three
optimizers of `fncas/fncas/optimize.h`, over an arbitrary ordered field. A value that is not `IsNormal`
(mathutil.h:51) is `none`. Simplifications: all such values behave as NaN does in comparisons (the code's
infinities and subnormals would compare as numbers do); the test of the norm of the gradient against `grad_eps`,
which takes a square root, is a parameter; logging, statistics and progress tracking have no effect.
-/

namespace Current.Fncas.Optimize

set_option linter.unusedSectionVars false

variable {α : Type} [Field α] [LinearOrder α] [IsStrictOrderedRing α]

/-- "Fight the underflow" (mathutil.h:62-65, 79-82, 97-100): `|a| < 1e-100` becomes zero. -/
def clamp (a : α) : α := if a < 1 / 10 ^ 100 ∧ -a < 1 / 10 ^ 100 then 0 else a

/-- `SumVectors(a, b, kb)` (mathutil.h:70-85); `SumVectors(a, b)` (mathutil.h:55-68) is `kb = 1`. -/
def sumVectors (a b : List α) (kb : α) : List α := List.zipWith (fun x y => clamp (x + kb * y)) a b

/-- `SumVectors(a, b, ka, kb)` (mathutil.h:87-103). -/
def sumVectors2 (a b : List α) (ka kb : α) : List α := List.zipWith (fun x y => clamp (ka * x + kb * y)) a b

/-- `DotProduct` (mathutil.h:105-111). -/
def dot (a b : List α) : α := (List.zipWith (· * ·) a b).foldl (· + ·) 0

/-- `L2Norm` (mathutil.h:113-116): the square of the norm. -/
def l2norm (v : List α) : α := dot v v

/-- `FlipSign` (mathutil.h:118-121). -/
def flipSign (v : List α) : List α := v.map (fun x => -x)

/-- `PolakRibiere` (mathutil.h:125-132): not normal (here: division by zero) gives zero. -/
def polakRibiere (g gPrev : List α) : α :=
  if l2norm gPrev = 0 then 0 else (l2norm g - dot g gPrev) / l2norm gPrev

/-- `a > b` where `none` is NaN. -/
def gtOpt (a b : Option α) : Bool :=
  match a, b with
  | some x, some y => decide (y < x)
  | _, _ => false

/-- The direction of the optimization (base.h:94): `true` is `Maximize`. -/
abbrev Maximize := Bool

/-- `value * sign` (mathutil.h:147-151) and `value *= -1` of the optimizers. -/
def signed (m : Maximize) (v : Option α) : Option α := if m then v.map (fun x => -x) else v

/-- `if (DIRECTION == Maximize) FlipSign(gradient)` (mathutil.h:161-163, optimize.h:459-461, 603-605, 734-737, 776-778). -/
def orient (m : Maximize) (v : List α) : List α := if m then flipSign v else v

/-- `ValueAndPoint` (mathutil.h:44-49). -/
structure VP (α : Type) where
  value : Option α
  point : List α
  deriving DecidableEq

/-- The loop of `Backtracking` (mathutil.h:167-176): at most `max_steps + 1` shrinkings. Returns the last `t` and
the last tested point with its value. -/
def btLoop (m : Maximize) (f : List α → Option α) (point dir : List α) (cur : Option α) (gn alpha beta : α) :
    Nat → α → VP α → α × VP α
  | 0, t, test => (t, test)
  | n + 1, t, test =>
    if gtOpt test.value (cur.map fun c => c - alpha * t * gn) || test.value.isNone then
      let t' := t * beta
      let p := sumVectors point dir t'
      btLoop m f point dir cur gn alpha beta n t' ⟨signed m (f p), p⟩
    else (t, test)

/-- `Backtracking` (mathutil.h:138-190): `none` is the `BacktrackingException`. -/
def backtracking (m : Maximize) (f : List α → Option α) (g : List α → List α) (point dir : List α)
    (alpha beta : α) (maxSteps : Nat) : Option (VP α) :=
  let cur := signed m (f point)
  let p := sumVectors point dir 1
  let gr := orient m (g point)
  let r := btLoop m f point dir cur (l2norm gr) alpha beta (maxSteps + 1) 1 ⟨signed m (f p), p⟩
  if r.2.value.isSome then some r.2 else none

/-- `NoImprovement` (optimize.h:134-157); comparisons with NaN are false. -/
def noImprovement (next current : Option α) (minRel minAbs : α) : Bool :=
  match next, current with
  | some n, some c =>
    if c - n < minAbs then true
    else if c > 1 / 10 ^ 6 ∧ n > 1 / 10 ^ 6 then decide (n > c * (1 - minRel))
    else if c < -(1 / 10 ^ 6) ∧ n < -(1 / 10 ^ 6) then decide (n > c * (1 + minRel))
    else false
  | _, _ => false

/-- The parameters of the optimizers (optimize.h:410-428, 544-575, 691-722) and the user's stopping criterion
(optimize.h:260-268). `small` is the test of the norm against `grad_eps`. -/
structure Params (α : Type) where
  maxSteps : Nat
  minSteps : Nat
  btAlpha : α
  btBeta : α
  btMaxSteps : Nat
  minAbs : α
  minRel : α
  patience : Nat
  small : List α → Bool
  stop : Nat → VP α → List α → Bool

/-- The result of an optimization, or the exception `FnCASOptimizationException`. -/
inductive Result (α : Type) where
  | ok (r : VP α) (iterations : Nat)
  | threw
  deriving DecidableEq

/-- The final flip of the sign (optimize.h:502-504, 648-650, 809-811). -/
def finish (m : Maximize) (c : VP α) (it : Nat) : Result α := .ok ⟨signed m c.value, c.point⟩ it

/-- One candidate of the gradient descent (optimize.h:471-484): `std::min` keeps the first unless the second is
less. -/
def gdTry (m : Maximize) (f : List α → Option α) (cur : VP α) (gr : List α) (acc : VP α × Bool) (step : α) :
    VP α × Bool :=
  let p := sumVectors cur.point gr (-step)
  match f p with
  | none => acc
  | some v =>
    let c : VP α := ⟨signed m (some v), p⟩
    (if gtOpt acc.1.value c.value then c else acc.1, true)

/-- The three candidates (optimize.h:469-484). -/
def gdBest (m : Maximize) (f : List α → Option α) (cur : VP α) (gr : List α) : VP α × Bool :=
  [1 / 100, 1 / 20, 1 / 5].foldl (gdTry m f cur gr) (cur, false)

/-- The loop of `GradientDescentOptimizer` (optimize.h:445-499). -/
def gdLoop (m : Maximize) (f : List α → Option α) (g : List α → List α) (P : Params α) :
    Nat → Nat → Nat → VP α → Result α
  | 0, it, _, cur => finish m cur it
  | n + 1, it, bad, cur =>
    let gr := orient m (g cur.point)
    if P.stop it cur gr then finish m cur it
    else
      let b := gdBest m f cur gr
      if b.2 then
        if noImprovement b.1.value cur.value P.minRel P.minAbs then
          if P.patience ≤ bad + 1 then finish m cur it else gdLoop m f g P n (it + 1) (bad + 1) b.1
        else gdLoop m f g P n (it + 1) 0 b.1
      else .threw

/-- `GradientDescentOptimizer` (optimize.h:400-520). The parameter `step_factor` (optimize.h:411, 421) is read and
never used. -/
def gradientDescent (m : Maximize) (f : List α → Option α) (g : List α → List α) (P : Params α) (x0 : List α) :
    Result α :=
  gdLoop m f g P P.maxSteps 0 0 ⟨signed m (f x0), x0⟩

/-- The loop of `GradientDescentOptimizerBT` (optimize.h:589-645). -/
def btOptLoop (m : Maximize) (f : List α → Option α) (g : List α → List α) (P : Params α) :
    Nat → Nat → Nat → VP α → Result α
  | 0, it, _, cur => finish m cur it
  | n + 1, it, bad, cur =>
    let gr := orient m (g cur.point)
    if P.stop it cur gr then finish m cur it
    else if P.small gr && decide (P.minSteps ≤ it) then finish m cur it
    else
      match backtracking m f g cur.point (flipSign gr) P.btAlpha P.btBeta P.btMaxSteps with
      | none => finish m cur it
      | some next =>
        if noImprovement next.value cur.value P.minRel P.minAbs then
          if P.patience ≤ bad + 1 then finish m cur it else btOptLoop m f g P n (it + 1) (bad + 1) next
        else btOptLoop m f g P n (it + 1) 0 next

/-- `GradientDescentOptimizerBT` (optimize.h:534-665). -/
def gradientDescentBT (m : Maximize) (f : List α → Option α) (g : List α → List α) (P : Params α) (x0 : List α) :
    Result α :=
  btOptLoop m f g P P.maxSteps 0 0 ⟨signed m (f x0), x0⟩

/-- The loop of `ConjugateGradientOptimizer` (optimize.h:747-806); `s` is the direction of search. -/
def cgLoop (m : Maximize) (f : List α → Option α) (g : List α → List α) (P : Params α) :
    Nat → Nat → Nat → VP α → List α → List α → Result α
  | 0, it, _, cur, _, _ => finish m cur it
  | n + 1, it, bad, cur, grad, s =>
    if P.stop it cur grad then finish m cur it
    else
      match backtracking m f g cur.point s P.btAlpha P.btBeta P.btMaxSteps with
      | none => finish m cur it
      | some next =>
        let grad' := orient m (g next.point)
        let omega := max (polakRibiere grad' grad) 0
        let s' := sumVectors2 s grad' omega (-1)
        let bad' := if noImprovement next.value cur.value P.minRel P.minAbs then bad + 1 else 0
        if noImprovement next.value cur.value P.minRel P.minAbs && decide (P.patience ≤ bad + 1) then finish m cur it
        else if P.small s' && decide (P.minSteps ≤ it) then finish m next it
        else cgLoop m f g P n (it + 1) bad' next grad' s'

/-- `ConjugateGradientOptimizer` (optimize.h:680-826), the `DefaultOptimizer`. -/
def conjugateGradient (m : Maximize) (f : List α → Option α) (g : List α → List α) (P : Params α) (x0 : List α) :
    Result α :=
  match f x0 with
  | none => .threw
  | some v =>
    let gr := orient m (g x0)
    cgLoop m f g P P.maxSteps 0 0 ⟨signed m (some v), x0⟩ gr (flipSign gr)

/-! ## Properties -/

/-- The value is the objective function at the point (up to the sign used internally). -/
def Consistent (m : Maximize) (f : List α → Option α) (c : VP α) : Prop := c.value = signed m (f c.point)

theorem signed_signed (m : Maximize) (v : Option α) : signed m (signed m v) = v := by
  cases m <;> cases v <;> simp [signed]

/-- What the user sees: the reported value is the objective function at the reported point. -/
def Honest (f : List α → Option α) (limit : Nat) : Result α → Prop
  | .ok r it => r.value = f r.point ∧ it ≤ limit
  | .threw => True

theorem finish_honest {m : Maximize} {f : List α → Option α} {c : VP α} {it limit : Nat} (h : Consistent m f c)
    (hi : it ≤ limit) : Honest f limit (finish m c it) := by
  refine ⟨?_, hi⟩
  show signed m c.value = f c.point
  rw [h, signed_signed]

theorem btLoop_consistent (m : Maximize) (f : List α → Option α) (point dir : List α) (cur : Option α) (gn a b : α) :
    ∀ n t test, Consistent m f test → Consistent m f (btLoop m f point dir cur gn a b n t test).2
  | 0, _, _, h => h
  | n + 1, t, test, h => by
    rw [btLoop]
    split
    · exact btLoop_consistent m f point dir cur gn a b n _ _ rfl
    · exact h

theorem backtracking_consistent {m : Maximize} {f : List α → Option α} {g : List α → List α} {point dir : List α}
    {a b : α} {k : Nat} {r : VP α} (h : backtracking m f g point dir a b k = some r) : Consistent m f r := by
  unfold backtracking at h
  simp only at h
  split at h
  · injection h with h; subst h
    exact btLoop_consistent _ _ _ _ _ _ _ _ _ _ _ rfl
  · cases h

/-- `≤` of values to minimise, where the current value is normal. -/
def NotWorse (new old : Option α) : Prop := ∀ v, old = some v → ∃ w, new = some w ∧ w ≤ v

theorem NotWorse.refl (a : Option α) : NotWorse a a := fun v h => ⟨v, h, le_refl v⟩
theorem NotWorse.trans {a b c : Option α} (h : NotWorse a b) (h' : NotWorse b c) : NotWorse a c := by
  intro v hv
  obtain ⟨w, hw, hle⟩ := h' v hv
  obtain ⟨u, hu, hle'⟩ := h w hw
  exact ⟨u, hu, le_trans hle' hle⟩

theorem gdTry_ok {m : Maximize} {f : List α → Option α} {cur : VP α} {gr : List α} {acc : VP α × Bool} (step : α)
    (h : Consistent m f acc.1) : Consistent m f (gdTry m f cur gr acc step).1 ∧
      NotWorse (gdTry m f cur gr acc step).1.value acc.1.value := by
  unfold gdTry
  simp only
  cases hf : f (sumVectors cur.point gr (-step)) with
  | none => exact ⟨h, NotWorse.refl _⟩
  | some v =>
    dsimp only
    split
    · rename_i hc
      refine ⟨by simp [Consistent, hf], ?_⟩
      intro u hu
      rw [hu] at hc
      refine ⟨if m then -v else v, by cases m <;> simp [signed], ?_⟩
      cases m <;> simp [signed, gtOpt] at hc ⊢ <;> linarith
    · exact ⟨h, NotWorse.refl _⟩

theorem gdBest_ok {m : Maximize} {f : List α → Option α} {cur : VP α} (gr : List α) (h : Consistent m f cur) :
    Consistent m f (gdBest m f cur gr).1 ∧ NotWorse (gdBest m f cur gr).1.value cur.value := by
  unfold gdBest
  simp only [List.foldl]
  have h1 := gdTry_ok (cur := cur) (gr := gr) (acc := (cur, false)) (1 / 100 : α) h
  have h2 := gdTry_ok (cur := cur) (gr := gr) (1 / 20 : α) h1.1
  have h3 := gdTry_ok (cur := cur) (gr := gr) (1 / 5 : α) h2.1
  exact ⟨h3.1, (h3.2.trans h2.2).trans h1.2⟩

theorem gdLoop_ok (m : Maximize) (f : List α → Option α) (g : List α → List α) (P : Params α) :
    ∀ n it bad cur, Consistent m f cur → Honest f (it + n) (gdLoop m f g P n it bad cur) ∧
      ∀ r k, gdLoop m f g P n it bad cur = .ok r k → NotWorse (signed m r.value) cur.value
  | 0, it, bad, cur, h => by
    refine ⟨finish_honest h (by omega), ?_⟩
    intro r k e
    simp only [gdLoop, finish, Result.ok.injEq] at e
    obtain ⟨rfl, rfl⟩ := e
    rw [signed_signed]; exact NotWorse.refl _
  | n + 1, it, bad, cur, h => by
    have hfin : Honest f (it + (n + 1)) (finish m cur it) ∧
        ∀ r k, finish m cur it = .ok r k → NotWorse (signed m r.value) cur.value := by
      refine ⟨finish_honest h (by omega), ?_⟩
      intro r k e
      simp only [finish, Result.ok.injEq] at e
      obtain ⟨rfl, rfl⟩ := e
      rw [signed_signed]; exact NotWorse.refl _
    have hb := gdBest_ok (orient m (g cur.point)) h
    have hrec : ∀ bad', Honest f (it + (n + 1)) (gdLoop m f g P n (it + 1) bad'
          (gdBest m f cur (orient m (g cur.point))).1) ∧
        ∀ r k, gdLoop m f g P n (it + 1) bad'
          (gdBest m f cur (orient m (g cur.point))).1 = .ok r k →
          NotWorse (signed m r.value) cur.value := by
      intro bad'
      have := gdLoop_ok m f g P n (it + 1) bad' _ hb.1
      rw [show it + 1 + n = it + (n + 1) from by omega] at this
      exact ⟨this.1, fun r k e => (this.2 r k e).trans hb.2⟩
    rw [gdLoop]
    simp only
    split
    · exact hfin
    split
    · split
      · split
        · exact hfin
        · exact hrec _
      · exact hrec _
    · exact ⟨trivial, fun r k e => by cases e⟩

/-- **C76 (gradient descent).** The reported value is the value of the objective function at the reported point,
the number of iterations does not exceed the limit, and the reported value is not worse than the value at the
starting point: not greater when minimising, not less when maximising. -/
theorem gradient_descent_never_worse (f : List α → Option α) (g : List α → List α) (P : Params α) (x0 : List α) (v : α)
    (h0 : f x0 = some v) (m : Maximize) {r : VP α} {k : Nat} (h : gradientDescent m f g P x0 = .ok r k) :
    k ≤ P.maxSteps ∧ ∃ w, r.value = some w ∧ f r.point = some w ∧ (if m then v ≤ w else w ≤ v) := by
  obtain ⟨h1, h2⟩ := gdLoop_ok m f g P P.maxSteps 0 0 ⟨signed m (f x0), x0⟩ rfl
  unfold gradientDescent at h
  rw [h] at h1
  have h3 := h2 r k h
  obtain ⟨w, hw, hle⟩ := h3 (if m then -v else v) (by rw [h0]; cases m <;> rfl)
  refine ⟨by simpa using h1.2, ?_⟩
  have hv := h1.1
  cases m with
  | false =>
    refine ⟨w, by simpa [signed] using hw, ?_, by simpa using hle⟩
    rw [← hv]; simpa [signed] using hw
  | true =>
    have hw' : r.value = some (-w) := by
      cases hr : r.value with
      | none => rw [hr] at hw; simp [signed] at hw
      | some u => rw [hr] at hw; simp [signed] at hw; rw [← hw]; simp
    refine ⟨-w, hw', by rw [← hv, hw'], ?_⟩
    have hle' : w ≤ -v := by simpa using hle
    show v ≤ -w
    linarith

theorem btOptLoop_honest (m : Maximize) (f : List α → Option α) (g : List α → List α) (P : Params α) :
    ∀ n it bad cur, Consistent m f cur → Honest f (it + n) (btOptLoop m f g P n it bad cur)
  | 0, it, bad, cur, h => finish_honest h (by omega)
  | n + 1, it, bad, cur, h => by
    have hfin : Honest f (it + (n + 1)) (finish m cur it) := finish_honest h (by omega)
    rw [btOptLoop]
    split
    · exact hfin
    split
    · exact hfin
    split
    · exact hfin
    · rename_i next hb
      have hc := backtracking_consistent hb
      have hrec : ∀ bad', Honest f (it + (n + 1)) (btOptLoop m f g P n (it + 1) bad' next) := by
        intro bad'
        have := btOptLoop_honest m f g P n (it + 1) bad' next hc
        rwa [show it + 1 + n = it + (n + 1) from by omega] at this
      split
      · split
        · exact hfin
        · exact hrec _
      · exact hrec _

theorem cgLoop_honest (m : Maximize) (f : List α → Option α) (g : List α → List α) (P : Params α) :
    ∀ n it bad cur grad s, Consistent m f cur → Honest f (it + n) (cgLoop m f g P n it bad cur grad s)
  | 0, it, bad, cur, grad, s, h => finish_honest h (by omega)
  | n + 1, it, bad, cur, grad, s, h => by
    have hfin : Honest f (it + (n + 1)) (finish m cur it) := finish_honest h (by omega)
    rw [cgLoop]
    split
    · exact hfin
    split
    · exact hfin
    · rename_i next hb
      have hc := backtracking_consistent hb
      dsimp only
      split
      · exact hfin
      split
      · exact finish_honest hc (by omega)
      · have := cgLoop_honest m f g P n (it + 1)
          (if noImprovement next.value cur.value P.minRel P.minAbs then bad + 1 else 0) next
          (orient m (g next.point))
          (sumVectors2 s (orient m (g next.point))
            (max (polakRibiere (orient m (g next.point)) grad) 0) (-1)) hc
        rwa [show it + 1 + n = it + (n + 1) from by omega] at this

/-- **C76 (all optimizers).** Whichever optimizer and direction: the reported value is the objective function at the
reported point, and the iterations do not exceed the limit. -/
theorem optimizers_report_the_value_at_the_point (f : List α → Option α) (g : List α → List α) (P : Params α)
    (x0 : List α) (m : Maximize) :
    Honest f P.maxSteps (gradientDescent m f g P x0) ∧ Honest f P.maxSteps (gradientDescentBT m f g P x0) ∧
    Honest f P.maxSteps (conjugateGradient m f g P x0) := by
  refine ⟨?_, ?_, ?_⟩
  · have := (gdLoop_ok m f g P P.maxSteps 0 0 ⟨signed m (f x0), x0⟩ rfl).1
    rwa [Nat.zero_add] at this
  · have := btOptLoop_honest m f g P P.maxSteps 0 0 ⟨signed m (f x0), x0⟩ rfl
    rwa [Nat.zero_add] at this
  · unfold conjugateGradient
    cases h : f x0 with
    | none => trivial
    | some v =>
      have := cgLoop_honest m f g P P.maxSteps 0 0 ⟨signed m (some v), x0⟩
        (orient m (g x0)) (flipSign (orient m (g x0)))
        (by simp [Consistent, h])
      rwa [Nat.zero_add] at this

/-- **C76 (gradient descent from a NaN).** If the objective function is not a number at the starting point, the
gradient descent never leaves it: whatever the candidates' values, the result is the starting point. -/
theorem gradient_descent_stuck_at_nan (m : Maximize) (f : List α → Option α) (g : List α → List α) (P : Params α)
    (x0 : List α) (h0 : f x0 = none) {r : VP α} {k : Nat} (h : gradientDescent m f g P x0 = .ok r k) :
    r.value = none ∧ r.point = x0 := by
  have key : ∀ n it bad, gdLoop m f g P n it bad ⟨none, x0⟩ = .ok r k → r.value = none ∧ r.point = x0 := by
    intro n
    induction n with
    | zero =>
      intro it bad e
      simp only [gdLoop, finish, Result.ok.injEq] at e
      obtain ⟨rfl, rfl⟩ := e
      exact ⟨by cases m <;> simp [signed], rfl⟩
    | succ n ih =>
      intro it bad e
      have ht : ∀ (gr : List α) (step : α) (b : Bool), (gdTry m f ⟨none, x0⟩ gr (⟨none, x0⟩, b) step).1 = ⟨none, x0⟩ := by
        intro gr step b
        unfold gdTry
        simp only
        cases f (sumVectors x0 gr (-step)) with
        | none => rfl
        | some v => simp [gtOpt]
      have hb : ∀ gr, (gdBest m f ⟨none, x0⟩ gr).1 = ⟨none, x0⟩ := by
        intro gr
        unfold gdBest
        simp only [List.foldl]
        have e1 : ∀ (acc : VP α × Bool), acc.1 = ⟨none, x0⟩ → ∀ step,
            (gdTry m f ⟨none, x0⟩ gr acc step).1 = ⟨none, x0⟩ := by
          rintro ⟨a, b⟩ rfl step; exact ht gr step b
        exact e1 _ (e1 _ (e1 _ rfl _) _) _
      rw [gdLoop] at e
      simp only [hb] at e
      have hfin : finish m ⟨none, x0⟩ it = .ok r k → r.value = none ∧ r.point = x0 := by
        intro e
        simp only [finish, Result.ok.injEq] at e
        obtain ⟨rfl, rfl⟩ := e
        exact ⟨by cases m <;> simp [signed], rfl⟩
      split at e
      · exact hfin e
      split at e
      · split at e
        · split at e
          · exact hfin e
          · exact ih _ _ e
        · exact ih _ _ e
      · cases e
  unfold gradientDescent at h
  rw [h0] at h
  have : (signed m none : Option α) = none := by cases m <;> rfl
  rw [this] at h
  exact key _ _ _ h

/-! ## The line search -/

/-- If the line search stops before its limit, the sufficient decrease condition holds of the result, with the
step it took. -/
theorem btLoop_armijo (m : Maximize) (f : List α → Option α) (point dir : List α) (c gn a b : α) :
    ∀ n t test, ∀ t' w p, btLoop m f point dir (some c) gn a b n t test = (t', ⟨some w, p⟩) →
      (∃ j ≤ n, t' = t * b ^ j) ∧ (w ≤ c - a * t' * gn ∨ t' = t * b ^ n)
  | 0, t, test, t', w, p, h => by
    simp only [btLoop, Prod.mk.injEq] at h
    obtain ⟨rfl, _⟩ := h
    exact ⟨⟨0, le_refl _, by simp⟩, .inr (by simp)⟩
  | n + 1, t, test, t', w, p, h => by
    rw [btLoop] at h
    split at h
    · obtain ⟨⟨j, hj, e⟩, h2⟩ := btLoop_armijo m f point dir c gn a b n _ _ t' w p h
      refine ⟨⟨j + 1, by omega, by rw [e, pow_succ]; ring⟩, ?_⟩
      rcases h2 with h2 | h2
      · exact .inl h2
      · exact .inr (by rw [h2, pow_succ]; ring)
    · rename_i hc
      obtain ⟨rfl, rfl⟩ := Prod.mk.inj h
      refine ⟨⟨0, by omega, by simp⟩, .inl ?_⟩
      simpa [gtOpt] using hc

/-- A step no longer than `1/L` satisfies the sufficient decrease condition with `alpha ≤ 1/2`, if the function
decreases along the direction as a function with an `L`-Lipschitz gradient does. -/
theorem short_step_is_enough {c gn a L t w : α} (ha : a ≤ 1 / 2) (hg : 0 ≤ gn) (ht : 0 ≤ t) (htL : t * L ≤ 1)
    (hw : w ≤ c - t * gn + L * t ^ 2 / 2 * gn) : w ≤ c - a * t * gn := by
  have h1 : 0 ≤ t * gn := mul_nonneg ht hg
  have h2 : L * t ^ 2 / 2 * gn ≤ t * gn / 2 := by
    have : t * L * (t * gn) ≤ 1 * (t * gn) := mul_le_mul_of_nonneg_right htL h1
    nlinarith
  have h3 : a * (t * gn) ≤ 1 / 2 * (t * gn) := mul_le_mul_of_nonneg_right ha h1
  nlinarith

/-- **C76 (the line search).** Minimising along the negated gradient, if the objective function is defined and
decreases as a function with an `L`-Lipschitz gradient does (`f(x - t g) ≤ f(x) - t |g|² + L t² |g|² / 2`) and the
allowed number of shrinkings reaches steps of length `1/L`, then the line search succeeds and its result is not
worse than its starting point. -/
theorem backtracking_improves (f : List α → Option α) (g : List α → List α) (x : List α) {c : α} (h0 : f x = some c)
    {a b L : α} {k : Nat} (ha0 : 0 ≤ a) (ha : a ≤ 1 / 2) (hb : 0 ≤ b) (hk : b ^ (k + 1) * L ≤ 1)
    (hg : 0 ≤ l2norm (g x))
    (hdesc : ∀ t, 0 ≤ t → ∃ w, f (sumVectors x (flipSign (g x)) t) = some w ∧
      w ≤ c - t * l2norm (g x) + L * t ^ 2 / 2 * l2norm (g x)) :
    ∃ w p, backtracking false f g x (flipSign (g x)) a b k = some ⟨some w, p⟩ ∧ f p = some w ∧ w ≤ c := by
  -- every tested point has a normal value, and is the one of its step
  have key : ∀ n t test, 0 ≤ t → (∃ w, test.value = some w ∧ f test.point = some w ∧
        w ≤ c - t * l2norm (g x) + L * t ^ 2 / 2 * l2norm (g x)) →
      ∃ t' w p, btLoop false f x (flipSign (g x)) (some c) (l2norm (g x)) a b n t test = (t', ⟨some w, p⟩) ∧
        f p = some w ∧ 0 ≤ t' ∧ w ≤ c - t' * l2norm (g x) + L * t' ^ 2 / 2 * l2norm (g x) := by
    intro n
    induction n with
    | zero =>
      rintro t ⟨v, p⟩ ht ⟨w, rfl, h2, h3⟩
      exact ⟨t, w, p, rfl, h2, ht, h3⟩
    | succ n ih =>
      rintro t ⟨v, p⟩ ht ⟨w, rfl, h2, h3⟩
      rw [btLoop]
      split
      · obtain ⟨w', e1, e2⟩ := hdesc (t * b) (mul_nonneg ht hb)
        exact ih _ _ (mul_nonneg ht hb) ⟨w', by simp [signed, e1], e1, e2⟩
      · exact ⟨t, w, p, rfl, h2, ht, h3⟩
  obtain ⟨w0, e1, e2⟩ := hdesc 1 (by norm_num)
  obtain ⟨t', w, p, r1, r2, r3, r4⟩ := key (k + 1) 1 ⟨signed false (f (sumVectors x (flipSign (g x)) 1)),
    sumVectors x (flipSign (g x)) 1⟩ (by norm_num) ⟨w0, by simp [signed, e1], e1, e2⟩
  refine ⟨w, p, ?_, r2, ?_⟩
  · unfold backtracking
    simp only [orient, Bool.false_eq_true, if_false]
    rw [show signed false (f x) = some c from by simp [signed, h0], r1]
    rfl
  · obtain ⟨_, h⟩ := btLoop_armijo false f x (flipSign (g x)) c (l2norm (g x)) a b (k + 1) 1 _ t' w p r1
    have hnn : 0 ≤ a * t' * l2norm (g x) := mul_nonneg (mul_nonneg ha0 r3) hg
    rcases h with h | h
    · linarith
    · have : w ≤ c - a * t' * l2norm (g x) :=
        short_step_is_enough ha hg r3 (by rw [h, one_mul]; exact hk) r4
      linarith

/-- The point the line search tries after `k` shrinkings, with the value to minimise there. -/
def tryStep (m : Maximize) (f : List α → Option α) (point dir : List α) (b : α) (k : Nat) : VP α :=
  ⟨signed m (f (sumVectors point dir (b ^ k))), sumVectors point dir (b ^ k)⟩

/-- The value to minimise after `k` shrinkings is a number, and it is not true that it exceeds the current value less
`alpha` times the step times the squared norm of the gradient. -/
def Accepts (m : Maximize) (f : List α → Option α) (g : List α → List α) (point dir : List α) (a b : α) (k : Nat) : Prop :=
  ∃ w, signed m (f (sumVectors point dir (b ^ k))) = some w ∧
    ∀ c, signed m (f point) = some c → w ≤ c - a * b ^ k * l2norm (orient m (g point))

theorem btLoop_first (m : Maximize) (f : List α → Option α) (g : List α → List α) (point dir : List α) (a b : α) :
    ∀ n k, ∃ j, k ≤ j ∧ j ≤ k + n ∧ (∀ i, k ≤ i → i < j → ¬ Accepts m f g point dir a b i) ∧
      (Accepts m f g point dir a b j ∨ j = k + n) ∧
      btLoop m f point dir (signed m (f point)) (l2norm (orient m (g point))) a b n (b ^ k) (tryStep m f point dir b k)
        = (b ^ j, tryStep m f point dir b j)
  | 0, k => ⟨k, le_refl _, by omega, fun i h1 h2 => by omega, .inr rfl, rfl⟩
  | n + 1, k => by
    rw [btLoop]
    have hiff : (gtOpt (tryStep m f point dir b k).value
        ((signed m (f point)).map fun c => c - a * b ^ k * l2norm (orient m (g point)))
          || (tryStep m f point dir b k).value.isNone) = true ↔ ¬ Accepts m f g point dir a b k := by
      unfold Accepts tryStep gtOpt
      cases signed m (f (sumVectors point dir (b ^ k))) <;> cases signed m (f point) <;> simp
    by_cases hA : Accepts m f g point dir a b k
    · rw [if_neg (fun h => hiff.mp h hA)]
      exact ⟨k, le_refl _, by omega, fun i h1 h2 => by omega, .inl hA, rfl⟩
    · rw [if_pos (hiff.mpr hA)]
      obtain ⟨j, h1, h2, h3, h4, h5⟩ := btLoop_first m f g point dir a b n (k + 1)
      refine ⟨j, by omega, by omega, ?_, ?_, ?_⟩
      · intro i hi1 hi2
        rcases Nat.eq_or_lt_of_le hi1 with rfl | h
        · exact hA
        · exact h3 i h hi2
      · rcases h4 with h4 | h4
        · exact .inl h4
        · exact .inr (by omega)
      · simp only [tryStep, pow_succ] at h5 ⊢
        exact h5

/-- **C76 (the line search).** What the line search returns: the first of the points `x + beta^k * direction` at which
the value is a number satisfying the sufficient decrease condition, or else the last point it may try,
`k = max_steps + 1`, provided the value there is a number; otherwise it throws. -/
theorem backtracking_first_step (m : Maximize) (f : List α → Option α) (g : List α → List α) (point dir : List α) (a b : α)
    (maxSteps : Nat) :
    ∃ k ≤ maxSteps + 1, (∀ i < k, ¬ Accepts m f g point dir a b i) ∧
      (Accepts m f g point dir a b k ∨ k = maxSteps + 1) ∧
      backtracking m f g point dir a b maxSteps
        = if (f (sumVectors point dir (b ^ k))).isSome then
            some ⟨signed m (f (sumVectors point dir (b ^ k))), sumVectors point dir (b ^ k)⟩ else none := by
  obtain ⟨k, _, h2, h3, h4, h5⟩ := btLoop_first m f g point dir a b (maxSteps + 1) 0
  refine ⟨k, by omega, fun i hi => h3 i (by omega) hi, ?_, ?_⟩
  · rcases h4 with h4 | h4
    · exact .inl h4
    · exact .inr (by omega)
  · unfold backtracking
    rw [pow_zero] at h5
    have e : tryStep m f point dir b 0 = ⟨signed m (f (sumVectors point dir 1)), sumVectors point dir 1⟩ := by
      simp [tryStep]
    rw [e] at h5
    simp only
    rw [h5]
    have hs : (signed m (f (sumVectors point dir (b ^ k)))).isSome = (f (sumVectors point dir (b ^ k))).isSome := by
      unfold signed
      cases m <;> cases f (sumVectors point dir (b ^ k)) <;> rfl
    simp only [tryStep, hs]

/-- The line search passes over a point where the function is no number: `log`-like `f` undefined at zero and below. -/
example : backtracking false (fun x : List ℚ => match x with | [x] => if 0 < x then some (x + 1 / x) else none | _ => none)
    (fun x => match x with | [x] => [1 - 1 / (x * x)] | _ => []) [1 / 2] [-1] (-1) (1 / 2) 3
      = some ⟨some (17 / 4), [1 / 4]⟩ := by
  decide +kernel

/-! ## Findings -/

/-- The default parameters of the optimizers with backtracking (optimize.h:544-552, 691-699), no stopping criterion;
`small` compares the squared norm with the square of `grad_eps = 1e-8`. -/
def defaults : Params ℚ where
  maxSteps := 250
  minSteps := 3
  btAlpha := 1 / 2
  btBeta := 4 / 5
  btMaxSteps := 100
  minAbs := 1 / 10 ^ 25
  minRel := 1 / 10 ^ 25
  patience := 2
  small v := decide (l2norm v < 1 / 10 ^ 16)
  stop _ _ _ := false

/-- `f(x) = 10^12 * x^2` of one variable. -/
def steep : List ℚ → Option ℚ
  | [x] => some (10 ^ 12 * (x * x))
  | _ => none

/-- Its gradient. -/
def steepGrad : List ℚ → List ℚ
  | [x] => [2 * 10 ^ 12 * x]
  | _ => []

/-- Whether a result is worse than `v`, by a factor of ten thousand. -/
def muchWorse (v : ℚ) : Result ℚ → Bool
  | .ok r _ => match r.value with | some w => decide (10000 * v < w) | none => false
  | .threw => false

/-- **C76 (finding).** The optimizers with backtracking may return a result far worse than the starting point, with
their default parameters and a convex parabola: minimising `10^12 x^2` from `x = 1`, both
`GradientDescentOptimizerBT` and the default `ConjugateGradientOptimizer` report a value more than ten thousand
times the starting value. (The line search gives up after 101 shrinkings and returns its last test point, and the
first non-improving step is accepted.) -/
theorem backtracking_optimizers_may_end_up_worse :
    steep [1] = some (10 ^ 12) ∧
    muchWorse (10 ^ 12) (gradientDescentBT false steep steepGrad defaults [1]) = true ∧
    muchWorse (10 ^ 12) (conjugateGradient false steep steepGrad defaults [1]) = true := by
  refine ⟨by decide +kernel, by decide +kernel, by decide +kernel⟩

/-- A function the gradient descent does improve: `x^2` from `x = 1` (the hypotheses of
`gradient_descent_never_worse` are met and the result is strictly better). -/
example : ∃ r k, gradientDescent false (fun x : List ℚ => match x with | [x] => some (x * x) | _ => none)
    (fun x => match x with | [x] => [2 * x] | _ => []) { defaults with maxSteps := 2 } [1] = .ok r k ∧
    r.value = some (81 / 625) := by
  refine ⟨⟨some (81 / 625), [9 / 25]⟩, 2, ?_, rfl⟩
  decide +kernel

/-- The hypotheses of `backtracking_improves` hold of `x^2` at `x = 1` with `L = 2` and the default parameters. -/
example : ∃ w p, backtracking false (fun x : List ℚ => match x with | [x] => some (x * x) | _ => none)
    (fun x => match x with | [x] => [2 * x] | _ => []) [1] (flipSign [2 * 1]) (1 / 2) (4 / 5) 100 = some ⟨some w, p⟩ ∧
    (match p with | [x] => some (x * x) | _ => none) = some w ∧ w ≤ 1 := by
  refine backtracking_improves (L := 2) _ (fun x : List ℚ => match x with | [x] => [2 * x] | _ => []) [1] (c := 1)
    (by norm_num) (by norm_num) (by norm_num) (by norm_num) (by norm_num) (by norm_num [l2norm, dot]) ?_
  intro t _
  refine ⟨clamp (1 + t * -(2 * 1)) * clamp (1 + t * -(2 * 1)), by simp [sumVectors, flipSign], ?_⟩
  have : clamp (1 + t * -(2 * 1)) * clamp (1 + t * -(2 * 1)) ≤ (1 - 2 * t) * (1 - 2 * t) := by
    unfold clamp
    split
    · nlinarith [mul_self_nonneg (1 - 2 * t)]
    · nlinarith
  refine le_trans this (le_of_eq ?_)
  simp [l2norm, dot]; ring

end Current.Fncas.Optimize
