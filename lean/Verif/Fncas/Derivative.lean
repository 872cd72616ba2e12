import Verif.Fncas.DiffProps

/-!
# fncas: the symbolic derivative is the derivative (C74), continued

The rules are sound (`derivOf_op`, `derivOf_fn`), the traversal with its table is sound, and the theorems.
-/

namespace Current.Fncas

open Classical in
/-- The derivatives of the functions at their regular points (calculus, from Mathlib). -/
theorem hasDerivAt_fn (f : Fn) {g : ℝ → ℝ} {g' t : ℝ} (hg : HasDerivAt g g' t) (hr : FnRegular f (g t)) :
    HasDerivAt (fun u => realNum.fn f (g u)) (factor f (g t) * g') t := by
  cases f with
  | sqr =>
    refine (hg.mul hg).congr_deriv ?_
    simp only [factor]; ring
  | sqrt =>
    refine (hg.sqrt (ne_of_gt hr)).congr_deriv ?_
    simp only [factor]; ring
  | exp => exact hg.exp
  | log =>
    refine (hg.log (ne_of_gt hr)).congr_deriv ?_
    simp only [factor]; ring
  | sin => exact hg.sin
  | cos => exact hg.cos
  | tan => exact (Real.hasDerivAt_tan hr).comp t hg
  | asin => exact (Real.hasDerivAt_arcsin (ne_of_gt hr.1) (ne_of_lt hr.2)).comp t hg
  | acos => exact (Real.hasDerivAt_arccos (ne_of_gt hr.1) (ne_of_lt hr.2)).comp t hg
  | atan => exact (Real.hasDerivAt_arctan (g t)).comp t hg
  | unitStep => exact hr.elim
  | ramp =>
    have hne : g t ≠ 0 := hr
    rcases lt_or_gt_of_ne hne with h | h
    · have hev : (fun u => realNum.fn .ramp (g u)) =ᶠ[nhds t] fun _ => (0 : ℝ) := by
        filter_upwards [hg.continuousAt.eventually (gt_mem_nhds h)] with u hu
        show (if g u > 0 then g u else 0) = 0
        rw [if_neg (not_lt.2 (le_of_lt hu))]
      have h0 : factor .ramp (g t) * g' = 0 := by
        show (if g t ≥ 0 then (1 : ℝ) else 0) * g' = 0
        rw [if_neg (not_le.2 h)]; ring
      rw [h0]
      exact (hasDerivAt_const t (0 : ℝ)).congr_of_eventuallyEq hev
    · have hev : (fun u => realNum.fn .ramp (g u)) =ᶠ[nhds t] g := by
        filter_upwards [hg.continuousAt.eventually (lt_mem_nhds h)] with u hu
        show (if g u > 0 then g u else 0) = g u
        rw [if_pos hu]
      have h1 : factor .ramp (g t) * g' = g' := by
        show (if g t ≥ 0 then (1 : ℝ) else 0) * g' = g'
        rw [if_pos h.le]; ring
      rw [h1]
      exact hg.congr_of_eventuallyEq hev

theorem at_self (e : Expr ℝ) (x : Nat → ℝ) (v : Nat) : e.at (Function.update x v (x v)) = e.at x := by
  rw [Function.update_eq_self]

/-- The term of a recorded node, at the points where a bigger expression is regular. -/
theorem term_of {n : Nat} {D : (Nat → ℝ) → Prop} {s : Store ℝ} {i : Nat} {e : Expr ℝ} (h : Denotes s i e)
    (hv : e.VarsBelow n) (hD : ∀ x, D x → e.Defined x) : Term n D s i (fun x => e.at x) :=
  ⟨e, h, hv, fun x hx => ⟨hD x hx, rfl⟩⟩

theorem derivOf_op {n v : Nat} {s : Store ℝ} {o : Op} {l r da db : Nat} {a b a' b' : Expr ℝ} (hs : s.Good)
    (ha : Denotes s l a) (hb : Denotes s r b) (hda : Denotes s da a') (hdb : Denotes s db b')
    (va : a.VarsBelow n) (vb : b.VarsBelow n) (va' : a'.VarsBelow n) (vb' : b'.VarsBelow n)
    (Ha : DerivOf v a a') (Hb : DerivOf v b b') :
    ∃ e', (dOp realNum o l r da db s).1.Good ∧ Ext s (dOp realNum o l r da db s).1 ∧
      (dOp realNum o l r da db s).1.df = s.df ∧ (dOp realNum o l r da db s).1.dim = s.dim ∧
      Denotes (dOp realNum o l r da db s).1 (dOp realNum o l r da db s).2 e' ∧ e'.VarsBelow n ∧
      DerivOf v (.op o a b) e' := by
  have reg : ∀ x, (Expr.op o a b).Regular x → a.Regular x ∧ b.Regular x := by
    intro x h; cases o <;> simp only [Expr.Regular] at h <;> tauto
  have T1 := term_of (D := fun x => (Expr.op o a b).Regular x) ha va (fun x h => (reg x h).1.defined)
  have T2 := term_of (D := fun x => (Expr.op o a b).Regular x) hb vb (fun x h => (reg x h).2.defined)
  have T3 := term_of (D := fun x => (Expr.op o a b).Regular x) hda va' (fun x h => (Ha x (reg x h).1).1)
  have T4 := term_of (D := fun x => (Expr.op o a b).Regular x) hdb vb' (fun x h => (Hb x (reg x h).2).1)
  have fin : ∀ (p : Store ℝ × Nat) (val : (Nat → ℝ) → ℝ), Out n (fun x => (Expr.op o a b).Regular x) s p val →
      (∀ x, (Expr.op o a b).Regular x →
        HasDerivAt (fun t => (Expr.op o a b).at (Function.update x v t)) (val x) (x v)) →
      ∃ e', p.1.Good ∧ Ext s p.1 ∧ p.1.df = s.df ∧ p.1.dim = s.dim ∧ Denotes p.1 p.2 e' ∧ e'.VarsBelow n ∧
        DerivOf v (.op o a b) e' := by
    intro p val hp hd
    obtain ⟨e', h1, h2, h3⟩ := hp.term
    refine ⟨e', hp.good, hp.ext, hp.df, hp.dim, h1, h2, fun x hx => ⟨(h3 x hx).1, ?_⟩⟩
    rw [(h3 x hx).2]; exact hd x hx
  cases o with
  | add =>
    refine fin _ _ (out_dAdd hs T3 T4) fun x hx => ?_
    exact (Ha x (reg x hx).1).2.add (Hb x (reg x hx).2).2
  | sub =>
    refine fin _ _ (out_dSub hs T3 T4) fun x hx => ?_
    exact (Ha x (reg x hx).1).2.sub (Hb x (reg x hx).2).2
  | mul =>
    refine fin _ _ (out_dMul hs T1 T2 T3 T4) fun x hx => ?_
    refine ((Ha x (reg x hx).1).2.mul (Hb x (reg x hx).2).2).congr_deriv ?_
    rw [at_self, at_self]; ring
  | div =>
    have hB : ∀ x, (Expr.op .div a b).Regular x → b.at x ≠ 0 := fun x h => h.2.2
    refine fin _ _ (out_dDiv hs T1 T2 T3 T4 hB) fun x hx => ?_
    refine ((Ha x (reg x hx).1).2.div (Hb x (reg x hx).2).2 (by rw [at_self]; exact hB x hx)).congr_deriv ?_
    rw [at_self, at_self, pow_two]; ring

theorem derivOf_fn {n v : Nat} {s : Store ℝ} {f : Fn} {i x dx : Nat} {a a' : Expr ℝ} {m : Build ℝ}
    (hm : dFn realNum f i x dx = some m) (hs : s.Good) (hi : Denotes s i (.fn f a))
    (ha : Denotes s x a) (hda : Denotes s dx a') (va : a.VarsBelow n) (va' : a'.VarsBelow n) (Ha : DerivOf v a a') :
    ∃ e', (m s).1.Good ∧ Ext s (m s).1 ∧ (m s).1.df = s.df ∧ (m s).1.dim = s.dim ∧
      Denotes (m s).1 (m s).2 e' ∧ e'.VarsBelow n ∧ DerivOf v (.fn f a) e' := by
  have hf : f ≠ .unitStep := by rintro rfl; simp [dFn] at hm
  have reg : ∀ y, (Expr.fn f a).Regular y → a.Regular y := fun y h => (regular_fn h).2 hf
  have T1 := term_of (D := fun y => (Expr.fn f a).Regular y) ha va (fun y h => (reg y h).defined)
  have T2 := term_of (D := fun y => (Expr.fn f a).Regular y) hda va' (fun y h => (Ha y (reg y h)).1)
  have T0 := term_of (D := fun y => (Expr.fn f a).Regular y) hi va (fun y h => h.defined)
  have hp := out_dFn hm hs ⟨a, hi⟩ T0 T1 T2 (fun y hy => (regular_fn hy).1)
  obtain ⟨e', h1, h2, h3⟩ := hp.term
  refine ⟨e', hp.good, hp.ext, hp.df, hp.dim, h1, h2, fun y hy => ⟨(h3 y hy).1, ?_⟩⟩
  rw [(h3 y hy).2]
  have hd := (Ha y (reg y hy)).2
  have hr : FnRegular f ((fun t => a.at (Function.update y v t)) (y v)) := by
    show FnRegular f (a.at (Function.update y v (y v)))
    rw [at_self]; exact (regular_fn hy).1
  have := hasDerivAt_fn f hd hr
  rw [at_self a y v] at this
  exact this

/-! ## The traversal -/

/-- Every recorded derivative in the table is right. -/
def MemoOK (n : Nat) (s : Store ℝ) : Prop :=
  ∀ v i d, s.df v i = some d →
    ∃ e e', Denotes s i e ∧ e.VarsBelow n ∧ Denotes s d e' ∧ e'.VarsBelow n ∧ DerivOf v e e'

theorem MemoOK.ext {n : Nat} {s s' : Store ℝ} (h : MemoOK n s) (he : Ext s s') (hd : s'.df = s.df) : MemoOK n s' := by
  intro v i d hv
  rw [hd] at hv
  obtain ⟨e, e', h1, h2, h3, h4, h5⟩ := h v i d hv
  exact ⟨e, e', he.denotes h1, h2, he.denotes h3, h4, h5⟩

theorem MemoOK.set {n : Nat} {s : Store ℝ} (h : MemoOK n s) {v i d : Nat} {e e' : Expr ℝ} (h1 : Denotes s i e)
    (h2 : e.VarsBelow n) (h3 : Denotes s d e') (h4 : e'.VarsBelow n) (h5 : DerivOf v e e') :
    MemoOK n (s.setDf v i d) := by
  have hx : Ext s (s.setDf v i d) := fun _ _ h => h
  intro v' i' d' hv
  simp only [Store.setDf] at hv
  by_cases c : v' = v ∧ i' = i
  · rw [if_pos c] at hv
    obtain ⟨rfl, rfl⟩ := c
    injection hv with hv; subst hv
    exact ⟨e, e', hx.denotes h1, h2, hx.denotes h3, h4, h5⟩
  · rw [if_neg c] at hv
    obtain ⟨e, e', g1, g2, g3, g4, g5⟩ := h v' i' d' hv
    exact ⟨e, e', hx.denotes g1, g2, hx.denotes g3, g4, g5⟩

/-- The invariant of the traversal. -/
structure DInv (n zero one : Nat) (s : Store ℝ) : Prop where
  good : s.Good
  memo : MemoOK n s
  zero : Denotes s zero (.val 0)
  one : Denotes s one (.val 1)

/-- The number of iterations the traversal takes: every occurrence of every subexpression is visited. -/
def Expr.dSteps {α : Type} : Expr α → Nat
  | .var _ => 1
  | .val _ => 1
  | .op _ a b => a.dSteps + b.dSteps + 2
  | .fn _ a => a.dSteps + 2

/-- What processing `visit i` achieves. -/
structure DVisited (n v zero one i : Nat) (e : Expr ℝ) (s s' : Store ℝ) : Prop where
  run : ∀ f rest, dLoop realNum v zero one (e.dSteps + f) s (.visit i :: rest) = dLoop realNum v zero one f s' rest
  short : ∀ f rest, f < e.dSteps → dLoop realNum v zero one f s (.visit i :: rest) = none
  inv : DInv n zero one s'
  ext : Ext s s'
  dim : s'.dim = s.dim
  here : ∃ d, s'.df v i = some d
  mono : ∀ j d, s.df v j = some d → ∃ d', s'.df v j = some d'

theorem derivOf_var_same (v : Nat) : DerivOf v (.var v) (.val 1) := by
  intro x _
  refine ⟨trivial, ?_⟩
  have : (fun t => (Expr.var v : Expr ℝ).at (Function.update x v t)) = fun t => t := by
    funext t; simp [Expr.at, Expr.eval]
  rw [this]; exact hasDerivAt_id' _

theorem derivOf_var_other {v w : Nat} (h : w ≠ v) : DerivOf v (.var w) (.val 0) := by
  intro x _
  refine ⟨trivial, ?_⟩
  have : (fun t => (Expr.var w : Expr ℝ).at (Function.update x v t)) = fun _ => x w := by
    funext t; simp [Expr.at, Expr.eval, h]
  rw [this]; exact hasDerivAt_const _ _

theorem derivOf_val (v : Nat) (c : ℝ) : DerivOf v (.val c) (.val 0) := by
  intro x _
  exact ⟨trivial, hasDerivAt_const _ _⟩

theorem setDf_inv {n zero one : Nat} {s : Store ℝ} (h : DInv n zero one s) {v i d : Nat} {e e' : Expr ℝ}
    (h1 : Denotes s i e) (h2 : e.VarsBelow n) (h3 : Denotes s d e') (h4 : e'.VarsBelow n) (h5 : DerivOf v e e') :
    DInv n zero one (s.setDf v i d) := by
  have hx : Ext s (s.setDf v i d) := fun _ _ h => h
  exact ⟨h.good, h.memo.set h1 h2 h3 h4 h5, hx.denotes h.zero, hx.denotes h.one⟩

theorem setDf_here (s : Store ℝ) (v i d : Nat) : (s.setDf v i d).df v i = some d := by simp [Store.setDf]

theorem setDf_mono (s : Store ℝ) (v i d : Nat) {j d' : Nat} (h : s.df v j = some d') :
    ∃ d'', (s.setDf v i d).df v j = some d'' := by
  simp only [Store.setDf]; split
  · exact ⟨d, rfl⟩
  · exact ⟨d', h⟩

theorem dvisit_ok (n v zero one : Nat) (e : Expr ℝ) : e.NoStep → e.VarsBelow n → ∀ i s, Denotes s i e →
    DInv n zero one s → ∃ s', DVisited n v zero one i e s s' := by
  induction e with
  | var w =>
    intro _ hv i s hd hi
    have hn : s.nodes[i]? = some (.var w) := by cases hd; assumption
    by_cases c : w = v
    · subst c
      refine ⟨s.setDf w i one, ?_, ?_, setDf_inv hi hd hv hi.one trivial (derivOf_var_same w), fun _ _ h => h, rfl,
        ⟨one, setDf_here ..⟩, fun j d h => setDf_mono _ _ _ _ h⟩
      · intro f rest; rw [Expr.dSteps, show 1 + f = f + 1 from by omega]; simp [dLoop, dStep, hn]
      · intro f rest hf; simp only [Expr.dSteps] at hf; rw [show f = 0 from by omega]; rfl
    · refine ⟨s.setDf v i zero, ?_, ?_, setDf_inv hi hd hv hi.zero trivial (derivOf_var_other c), fun _ _ h => h, rfl,
        ⟨zero, setDf_here ..⟩, fun j d h => setDf_mono _ _ _ _ h⟩
      · intro f rest; rw [Expr.dSteps, show 1 + f = f + 1 from by omega]; simp [dLoop, dStep, hn, c]
      · intro f rest hf; simp only [Expr.dSteps] at hf; rw [show f = 0 from by omega]; rfl
  | val k =>
    intro _ hv i s hd hi
    have hn : s.nodes[i]? = some (.val k) := by cases hd; assumption
    refine ⟨s.setDf v i zero, ?_, ?_, setDf_inv hi hd hv hi.zero trivial (derivOf_val v k), fun _ _ h => h, rfl,
        ⟨zero, setDf_here ..⟩, fun j d h => setDf_mono _ _ _ _ h⟩
    · intro f rest; rw [Expr.dSteps, show 1 + f = f + 1 from by omega]; simp [dLoop, dStep, hn]
    · intro f rest hf; simp only [Expr.dSteps] at hf; rw [show f = 0 from by omega]; rfl
  | op o a b iha ihb =>
    intro hns hv i s hd hi
    obtain ⟨l, r, hn, ha, hb⟩ : ∃ l r, s.nodes[i]? = some (.op o l r) ∧ Denotes s l a ∧ Denotes s r b := by
      cases hd with | op h1 h2 h3 => exact ⟨_, _, h1, h2, h3⟩
    obtain ⟨s1, v1⟩ := ihb hns.2 hv.2 r s hb hi
    obtain ⟨s2, v2⟩ := iha hns.1 hv.1 l s1 (v1.ext.denotes ha) v1.inv
    have he2 := v1.ext.trans v2.ext
    have hn2 := he2 i _ hn
    obtain ⟨da, hda⟩ := v2.here
    obtain ⟨db0, hdb0⟩ := v1.here
    obtain ⟨db, hdb⟩ := v2.mono r db0 hdb0
    obtain ⟨ea, ea', ga1, ga2, ga3, ga4, ga5⟩ := v2.inv.memo v l da hda
    obtain ⟨eb, eb', gb1, gb2, gb3, gb4, gb5⟩ := v2.inv.memo v r db hdb
    have := ga1.unique (he2.denotes ha); subst this
    have := gb1.unique (he2.denotes hb); subst this
    obtain ⟨e', k1, k2, k3, k4, k5, k6, k7⟩ := derivOf_op (o := o) (n := n) v2.inv.good ga1 gb1 ga3 gb3 ga2 gb2 ga4 gb4 ga5 gb5
    have hstep : ∀ s0 f rest, s0.nodes[i]? = some (.op o l r) → s0.df v l = some da → s0.df v r = some db →
        dLoop realNum v zero one (f + 1) s0 (.finish i :: rest)
          = dLoop realNum v zero one f ((dOp realNum o l r da db s0).1.setDf v i (dOp realNum o l r da db s0).2) rest := by
      intro s0 f rest h0 h1 h2
      simp [dLoop, dStep, h0, h1, h2]
    refine ⟨(dOp realNum o l r da db s2).1.setDf v i (dOp realNum o l r da db s2).2, ?_, ?_, ?_, ?_, ?_, ?_, ?_⟩
    · intro f rest
      rw [Expr.dSteps, show ea.dSteps + eb.dSteps + 2 + f = (eb.dSteps + (ea.dSteps + (1 + f))) + 1 from by omega]
      simp only [dLoop, dStep, hn, List.cons_append, List.nil_append]
      rw [v1.run, v2.run, show 1 + f = f + 1 from by omega, hstep _ _ _ hn2 hda hdb]
    · intro f rest hf
      simp only [Expr.dSteps] at hf
      cases f with
      | zero => rfl
      | succ f =>
        simp only [dLoop, dStep, hn, List.cons_append, List.nil_append]
        by_cases c1 : f < eb.dSteps
        · exact v1.short _ _ c1
        · rw [show f = eb.dSteps + (f - eb.dSteps) from by omega, v1.run]
          by_cases c2 : f - eb.dSteps < ea.dSteps
          · exact v2.short _ _ c2
          · rw [show f - eb.dSteps = ea.dSteps + 0 from by omega, v2.run]; rfl
    · refine setDf_inv ⟨k1, v2.inv.memo.ext k2 k3, k2.denotes v2.inv.zero, k2.denotes v2.inv.one⟩
        ((he2.trans k2).denotes hd) hv k5 k6 k7
    · exact (he2.trans k2).trans (fun _ _ h => h)
    · show (dOp realNum o l r da db s2).1.dim = _
      rw [k4, v2.dim, v1.dim]
    · exact ⟨_, setDf_here ..⟩
    · intro j d h
      obtain ⟨d1, h1⟩ := v1.mono j d h
      obtain ⟨d2, h2⟩ := v2.mono j d1 h1
      exact setDf_mono _ _ _ _ (by rw [k3]; exact h2)
  | fn fu a iha =>
    intro hns hv i s hd hi
    obtain ⟨l, hn, ha⟩ : ∃ l, s.nodes[i]? = some (.fn fu l) ∧ Denotes s l a := by
      cases hd with | fn h1 h2 => exact ⟨_, h1, h2⟩
    have hns' : a.NoStep ∧ fu ≠ .unitStep := by
      cases fu <;> simp only [Expr.NoStep] at hns <;> exact ⟨hns, by simp⟩
    obtain ⟨s2, v2⟩ := iha hns'.1 hv l s ha hi
    have hn2 := v2.ext i _ hn
    obtain ⟨da, hda⟩ := v2.here
    obtain ⟨ea, ea', ga1, ga2, ga3, ga4, ga5⟩ := v2.inv.memo v l da hda
    have := ga1.unique (v2.ext.denotes ha); subst this
    obtain ⟨m, hm⟩ : ∃ m, dFn realNum fu i l da = some m := by
      cases fu <;> first | exact ⟨_, rfl⟩ | exact absurd rfl hns'.2
    obtain ⟨e', k1, k2, k3, k4, k5, k6, k7⟩ := derivOf_fn hm v2.inv.good (v2.ext.denotes hd) ga1 ga3 ga2 ga4 ga5
    refine ⟨(m s2).1.setDf v i (m s2).2, ?_, ?_, ?_, ?_, ?_, ?_, ?_⟩
    · intro f rest
      rw [Expr.dSteps, show ea.dSteps + 2 + f = (ea.dSteps + (1 + f)) + 1 from by omega]
      simp only [dLoop, dStep, hn, List.cons_append, List.nil_append]
      rw [v2.run, show 1 + f = f + 1 from by omega]
      simp [dLoop, dStep, hn2, hda, hm]
    · intro f rest hf
      simp only [Expr.dSteps] at hf
      cases f with
      | zero => rfl
      | succ f =>
        simp only [dLoop, dStep, hn, List.cons_append, List.nil_append]
        by_cases c2 : f < ea.dSteps
        · exact v2.short _ _ c2
        · rw [show f = ea.dSteps + 0 from by omega, v2.run]; rfl
    · refine setDf_inv ⟨k1, v2.inv.memo.ext k2 k3, k2.denotes v2.inv.zero, k2.denotes v2.inv.one⟩
        ((v2.ext.trans k2).denotes hd) hv k5 k6 k7
    · exact (v2.ext.trans k2).trans (fun _ _ h => h)
    · show (m s2).1.dim = _
      rw [k4, v2.dim]
    · exact ⟨_, setDf_here ..⟩
    · intro j d h
      obtain ⟨d2, h2⟩ := v2.mono j d h
      exact setDf_mono _ _ _ _ (by rw [k3]; exact h2)

/-- The traversal of an expression with `unit_step` in it ends with the exception. -/
theorem dvisit_throws (n v zero one : Nat) (e : Expr ℝ) : ¬ e.NoStep → e.VarsBelow n → ∀ i s, Denotes s i e →
    DInv n zero one s → ∃ s' k, DInv n zero one s' ∧ Ext s s' ∧ s'.dim = s.dim ∧
      ∀ f rest, dLoop realNum v zero one (k + f) s (.visit i :: rest) = some (s', some .nonDifferentiable) := by
  induction e with
  | var w => intro h; exact absurd trivial h
  | val k => intro h; exact absurd trivial h
  | op o a b iha ihb =>
    intro hns hv i s hd hi
    obtain ⟨l, r, hn, ha, hb⟩ : ∃ l r, s.nodes[i]? = some (.op o l r) ∧ Denotes s l a ∧ Denotes s r b := by
      cases hd with | op h1 h2 h3 => exact ⟨_, _, h1, h2, h3⟩
    by_cases cb : b.NoStep
    · have ca : ¬ a.NoStep := fun h => hns ⟨h, cb⟩
      obtain ⟨s1, v1⟩ := dvisit_ok n v zero one b cb hv.2 r s hb hi
      obtain ⟨s2, k, g1, g2, g3, g4⟩ := iha ca hv.1 l s1 (v1.ext.denotes ha) v1.inv
      refine ⟨s2, b.dSteps + k + 1, g1, v1.ext.trans g2, g3.trans v1.dim, fun f rest => ?_⟩
      rw [show b.dSteps + k + 1 + f = (b.dSteps + (k + f)) + 1 from by omega]
      simp only [dLoop, dStep, hn, List.cons_append, List.nil_append]
      rw [v1.run, g4]
    · obtain ⟨s2, k, g1, g2, g3, g4⟩ := ihb cb hv.2 r s hb hi
      refine ⟨s2, k + 1, g1, g2, g3, fun f rest => ?_⟩
      rw [show k + 1 + f = (k + f) + 1 from by omega]
      simp only [dLoop, dStep, hn, List.cons_append, List.nil_append]
      rw [g4]
  | fn fu a iha =>
    intro hns hv i s hd hi
    obtain ⟨l, hn, ha⟩ : ∃ l, s.nodes[i]? = some (.fn fu l) ∧ Denotes s l a := by
      cases hd with | fn h1 h2 => exact ⟨_, h1, h2⟩
    by_cases ca : a.NoStep
    · have hf : fu = .unitStep := by
        cases fu <;> first | rfl | exact absurd ca hns
      subst hf
      obtain ⟨s1, v1⟩ := dvisit_ok n v zero one a ca hv l s ha hi
      obtain ⟨da, hda⟩ := v1.here
      have hn1 := v1.ext i _ hn
      refine ⟨s1, a.dSteps + 2, v1.inv, v1.ext, v1.dim, fun f rest => ?_⟩
      rw [show a.dSteps + 2 + f = (a.dSteps + (1 + f)) + 1 from by omega]
      simp only [dLoop, dStep, hn, List.cons_append, List.nil_append]
      rw [v1.run, show 1 + f = f + 1 from by omega]
      simp [dLoop, dStep, hn1, hda, dFn]
    · obtain ⟨s2, k, g1, g2, g3, g4⟩ := iha ca hv l s ha hi
      refine ⟨s2, k + 1, g1, g2, g3, fun f rest => ?_⟩
      rw [show k + 1 + f = (k + f) + 1 from by omega]
      simp only [dLoop, dStep, hn, List.cons_append, List.nil_append]
      rw [g4]

/-! ## The theorems -/

/-- What holds of a store between calls: the constants and the recorded derivatives are right. It holds of a
new store (`ready_fresh`) and is kept by recording (`ready_recording`) and by differentiation. -/
structure Ready (s : Store ℝ) : Prop where
  good : s.Good
  memo : MemoOK s.dim s

theorem ready_mkX (dim : Nat) : Ready (mkX (α := ℝ) dim).1 := by
  obtain ⟨h1, h2, h3, _, _⟩ := the_variables (α := ℝ) dim
  exact ⟨h1, fun v i d h => by rw [h3] at h; cases h⟩

theorem Ready.mono {s s' : Store ℝ} (h : Ready s) (hg : s'.Good) (he : Ext s s') (hd : s'.df = s.df)
    (hn : s'.dim = s.dim) : Ready s' := ⟨hg, by rw [hn]; exact h.memo.ext he hd⟩

theorem ready_start {s : Store ℝ} (h : Ready s) :
    DInv s.dim (mkVal realNum (realNum.lit 0) s).2 (mkVal realNum (realNum.lit 1) (mkVal realNum (realNum.lit 0) s).1).2
      (mkVal realNum (realNum.lit 1) (mkVal realNum (realNum.lit 0) s).1).1
    ∧ Ext s (mkVal realNum (realNum.lit 1) (mkVal realNum (realNum.lit 0) s).1).1
    ∧ (mkVal realNum (realNum.lit 1) (mkVal realNum (realNum.lit 0) s).1).1.dim = s.dim := by
  obtain ⟨a1, a2, a3, a4, a5⟩ := mkVal_facts realNum_exact h.good (realNum.lit 0)
  obtain ⟨b1, b2, b3, b4, b5⟩ := mkVal_facts realNum_exact a2 (realNum.lit 1)
  refine ⟨⟨b2, h.memo.ext (a1.trans b1) (b4.trans a4), ?_, ?_⟩, a1.trans b1, b5.trans a5⟩
  · have : Denotes (mkVal realNum (realNum.lit 0) s).1 (mkVal realNum (realNum.lit 0) s).2 (.val (realNum.lit 0)) := .val a3
    have := b1.denotes this
    simpa using this
  · have : Denotes (mkVal realNum (realNum.lit 1) (mkVal realNum (realNum.lit 0) s).1).1
      (mkVal realNum (realNum.lit 1) (mkVal realNum (realNum.lit 0) s).1).2 (.val (realNum.lit 1)) := .val b3
    simpa using this

/-- **C74.** Differentiating a recorded expression by any of its variables succeeds (if `unit_step` does not
occur in it), changes nothing that was recorded before, and records an expression `e'` which, at every point
where all parts of the expression are differentiable, is defined and equals the partial derivative. -/
theorem derivative_is_the_derivative {s : Store ℝ} (hs : Ready s) {i : Nat} {e : Expr ℝ} (hd : Denotes s i e)
    (hv : e.VarsBelow s.dim) (hns : e.NoStep) {v : Nat} (hvar : v < s.dim) :
    ∃ k s' d e', (∀ fuel, k ≤ fuel → differentiate realNum fuel i v s = some (s', .inl d)) ∧
      Ready s' ∧ Ext s s' ∧ s'.dim = s.dim ∧ Denotes s' d e' ∧ e'.VarsBelow s.dim ∧
      ∀ x, e.Regular x → e'.Defined x ∧
        HasDerivAt (fun t => e.at (Function.update x v t)) (e'.at x) (x v) := by
  cases hm : s.df v i with
  | some d =>
    obtain ⟨e0, e', h1, h2, h3, h4, h5⟩ := hs.memo v i d hm
    have := h1.unique hd; subst this
    exact ⟨0, s, d, e', fun fuel _ => by simp [differentiate, hvar, hm], hs, Ext.refl _, rfl, h3, h4, h5⟩
  | none =>
    obtain ⟨h1, h2, h3⟩ := ready_start hs
    obtain ⟨s', w⟩ := dvisit_ok s.dim v _ _ e hns hv i _ (h2.denotes hd) h1
    obtain ⟨d, hd'⟩ := w.here
    obtain ⟨e0, e', g1, g2, g3, g4, g5⟩ := w.inv.memo v i d hd'
    have := g1.unique ((h2.trans w.ext).denotes hd); subst this
    have hdim : s'.dim = s.dim := w.dim.trans h3
    refine ⟨e0.dSteps, s', d, e', fun fuel hf => ?_, ⟨w.inv.good, by rw [hdim]; exact w.inv.memo⟩, h2.trans w.ext, hdim,
      g3, g4, g5⟩
    have hr := w.run (fuel - e0.dSteps) []
    rw [show e0.dSteps + (fuel - e0.dSteps) = fuel from by omega] at hr
    have hr' : dLoop realNum v (mkVal realNum (realNum.lit 0) s).2
        (mkVal realNum (realNum.lit 1) (mkVal realNum (realNum.lit 0) s).1).2 fuel
        (mkVal realNum (realNum.lit 1) (mkVal realNum (realNum.lit 0) s).1).1 [.visit i] = some (s', none) := by
      rw [hr]; cases fuel - e0.dSteps <;> rfl
    simp only [differentiate, hvar, if_true, hm]
    rw [hr']
    simp [hd']

/-- **C74 (`unit_step`).** If `unit_step` occurs anywhere in the expression, differentiating it by any variable
(even one that does not occur under the `unit_step`) throws, unless that derivative is already recorded, and
leaves the library in a usable state with all that was recorded before. -/
theorem unit_step_is_not_differentiable {s : Store ℝ} (hs : Ready s) {i : Nat} {e : Expr ℝ} (hd : Denotes s i e)
    (hv : e.VarsBelow s.dim) (hns : ¬ e.NoStep) {v : Nat} (hvar : v < s.dim) (hnew : s.df v i = none) :
    ∃ k s', (∀ fuel, k ≤ fuel → differentiate realNum fuel i v s = some (s', .inr .nonDifferentiable)) ∧
      Ready s' ∧ Ext s s' ∧ s'.dim = s.dim := by
  obtain ⟨h1, h2, h3⟩ := ready_start hs
  obtain ⟨s', k, g1, g2, g3, g4⟩ := dvisit_throws s.dim v _ _ e hns hv i _ (h2.denotes hd) h1
  have hdim : s'.dim = s.dim := g3.trans h3
  refine ⟨k, s', fun fuel hf => ?_, ⟨g1.good, by rw [hdim]; exact g1.memo⟩, h2.trans g2, hdim⟩
  have hr := g4 (fuel - k) []
  rw [show k + (fuel - k) = fuel from by omega] at hr
  simp only [differentiate, hvar, if_true, hnew]
  rw [hr]

theorem gradientFrom_ok {f : Nat} {e : Expr ℝ} (hns : e.NoStep) : ∀ m v (s : Store ℝ), Ready s → Denotes s f e →
    e.VarsBelow s.dim → v + m = s.dim →
    ∃ k s' ds, (∀ fuel, k ≤ fuel → gradientFrom realNum fuel f m v s = some (s', .inl ds)) ∧ Ready s' ∧ Ext s s' ∧
      s'.dim = s.dim ∧ ds.length = m ∧
      ∀ j (hj : j < ds.length), ∃ e', Denotes s' ds[j] e' ∧ e'.VarsBelow s.dim ∧ DerivOf (v + j) e e' := by
  intro m
  induction m with
  | zero => intro v s hs _ _ _; exact ⟨0, s, [], fun _ _ => rfl, hs, Ext.refl _, rfl, rfl, fun j hj => by simp at hj⟩
  | succ m ih =>
    intro v s hs hd hv hm
    obtain ⟨k1, s1, d, e', r1, r2, r3, r4, r5, r6, r7⟩ := derivative_is_the_derivative hs hd hv hns (v := v) (by omega)
    obtain ⟨k2, s2, ds, q1, q2, q3, q4, q5, q6⟩ := ih (v + 1) s1 r2 (r3.denotes hd) (by rw [r4]; exact hv) (by omega)
    refine ⟨max k1 k2, s2, d :: ds, ?_, q2, r3.trans q3, q4.trans r4, by simp [q5], ?_⟩
    · intro fuel hf
      simp only [gradientFrom, r1 fuel (by omega), q1 fuel (by omega)]
    · intro j hj
      cases j with
      | zero => exact ⟨e', q3.denotes r5, r6, r7⟩
      | succ j =>
        obtain ⟨e2, w1, w2, w3⟩ := q6 j (by simpa using hj)
        rw [r4] at w2
        rw [show v + 1 + j = v + (j + 1) from by omega] at w3
        exact ⟨e2, w1, w2, w3⟩

theorem gradientEvalFrom_ok (s : Store ℝ) (n : Nat) (x : Nat → ℝ) (fuel : Nat) (hf : 3 * s.nodes.length + 1 ≤ fuel) :
    ∀ (ds : List Nat) (reuse : Bool) (c : Cache ℝ), (reuse = true → c.For realNum s x) →
      (∀ j (hj : j < ds.length), ∃ e', Denotes s ds[j] e' ∧ e'.VarsBelow n) →
      ∃ ys c', gradientEvalFrom realNum s n x fuel reuse c ds = some (some (ys, c')) ∧ ys.length = ds.length ∧
        ∀ j (hj : j < ds.length) (hj' : j < ys.length) e', Denotes s ds[j] e' → ys[j] = e'.at x
  | [], _, c, _, _ => ⟨[], c, rfl, rfl, fun j hj => by simp at hj⟩
  | d :: ds, reuse, c, hc, hds => by
    obtain ⟨e', h1, h2⟩ := hds 0 (by simp)
    have hev : ∃ c', evalNode realNum s n x fuel reuse c d = some (some (e'.eval realNum x, c')) ∧ c'.For realNum s x := by
      cases reuse with
      | false =>
        obtain ⟨k, hk, hh⟩ := evaluation_is_the_expression realNum s n x c h1 h2
        exact hh fuel (le_trans hk hf)
      | true =>
        obtain ⟨k, hk, hh⟩ := evaluation_reusing_the_cache realNum s n x c h1 h2 (hc rfl)
        exact hh fuel (le_trans hk hf)
    obtain ⟨c', he, hg⟩ := hev
    obtain ⟨ys, c'', g1, g2, g3⟩ := gradientEvalFrom_ok s n x fuel hf ds true c' (fun _ => hg)
      (fun j hj => hds (j + 1) (by simpa using hj))
    refine ⟨e'.at x :: ys, c'', ?_, by simp [g2], ?_⟩
    · simp only [gradientEvalFrom, he, g1]
    · intro j hj hj' e2 h2
      cases j with
      | zero => rw [h1.unique h2]; rfl
      | succ j => exact g3 j (by simpa using hj) (by simpa using hj') e2 (by simpa using h2)

/-- **C74 (the gradient, end to end).** For every function of `dim` variables written with the operators and
functions of the library (without `unit_step`): recording it, building its gradient and evaluating the gradient
at any point where all parts of the function are differentiable gives the vector of its partial derivatives at
that point, whatever earlier evaluations left in the cache. -/
theorem gradient_is_the_gradient (dim : Nat) (e : Expr ℝ) (he : e.VarsBelow dim) (hns : e.NoStep) (x : Nat → ℝ)
    (hx : e.Regular x) (stale : Cache ℝ) :
    let X := mkX (α := ℝ) dim
    let r := record realNum X.2 e X.1
    ∃ k s' ds, (∀ fuel, k ≤ fuel → gradient realNum fuel r.2 r.1 = some (s', .inl ds)) ∧
      ∃ k', ∀ fuel, k' ≤ fuel → ∃ ys c', gradientEval realNum s' dim x fuel stale ds = some (some (ys, c')) ∧
        ys.length = dim ∧
        ∀ v (hv : v < ys.length), HasDerivAt (fun t => e.at (Function.update x v t)) ys[v] (x v) := by
  intro X r
  obtain ⟨h1, h2, h3, h4, h5⟩ := the_variables (α := ℝ) dim
  obtain ⟨g1, g2, g3⟩ := record_denotes realNum_exact X.2 dim (Nat.le_of_eq h4.symm) e he X.1 h1 h5
  have hdf : ∀ (e : Expr ℝ) (s : Store ℝ), s.Good → (∀ j (hj : j < X.2.length), Denotes s X.2[j] (.var j)) → e.VarsBelow dim →
      (record realNum X.2 e s).1.df = s.df ∧ (record realNum X.2 e s).1.dim = s.dim := by
    intro e
    induction e with
    | var v => intro s _ _ _; exact ⟨rfl, rfl⟩
    | val c => intro s hs _ _; exact ⟨(mkVal_facts realNum_exact hs c).2.2.2.1, (mkVal_facts realNum_exact hs c).2.2.2.2⟩
    | op o a b iha ihb =>
      intro s hs hj hv
      obtain ⟨p1, p2, _⟩ := record_denotes realNum_exact X.2 dim (Nat.le_of_eq h4.symm) a hv.1 s hs hj
      obtain ⟨q1, q2⟩ := iha s hs hj hv.1
      obtain ⟨q3, q4⟩ := ihb _ p1 (fun j hj' => p2.denotes (hj j hj')) hv.2
      exact ⟨q3.trans q1, q4.trans q2⟩
    | fn f a iha => intro s hs hj hv; exact iha s hs hj hv
  obtain ⟨d1, d2⟩ := hdf e X.1 h1 h5 he
  have hdim : r.1.dim = dim := d2.trans h2
  have hready : Ready r.1 := (ready_mkX dim).mono g1 g2 d1 d2
  obtain ⟨m1, m2, m3, m4⟩ := mkDefaults_facts r.1.dim r.1 g1
  have hready' := hready.mono m1 m2 m4 m3
  obtain ⟨k, s', ds, q1, q2, q3, q4, q5, q6⟩ := gradientFrom_ok hns r.1.dim 0 (mkDefaults r.1.dim r.1) hready'
    (m2.denotes g3) (by rw [m3, hdim]; exact he) (by rw [m3]; omega)
  refine ⟨k, s', ds, q1, 3 * s'.nodes.length + 1, fun fuel hf => ?_⟩
  obtain ⟨ys, c', w1, w2, w3⟩ := gradientEvalFrom_ok s' dim x fuel hf ds false stale (by intro h; cases h)
    (fun j hj => (q6 j hj).imp fun e' h => ⟨h.1, by rw [← hdim, ← m3]; exact h.2.1⟩)
  refine ⟨ys, c', w1, by rw [w2, q5, hdim], fun v hv => ?_⟩
  have hv' : v < ds.length := by rw [← w2]; exact hv
  obtain ⟨e', f1, f2, f3⟩ := q6 v hv'
  rw [w3 v hv' hv e' f1]
  have := (f3 x hx).2
  rwa [Nat.zero_add] at this

/-! ### A concrete case -/

/-- `sin(x0 * x1) + ramp(x0) / sqrt(x1)`. -/
noncomputable def sample : Expr ℝ :=
  .op .add (.fn .sin (.op .mul (.var 0) (.var 1))) (.op .div (.fn .ramp (.var 0)) (.fn .sqrt (.var 1)))

/-- The hypotheses of `gradient_is_the_gradient` hold of it at `(1, 4)`. -/
example : sample.VarsBelow 2 ∧ sample.NoStep ∧ sample.Regular (fun i => if i = 0 then 1 else 4) := by
  refine ⟨by simp [sample, Expr.VarsBelow], by simp [sample, Expr.NoStep], ?_⟩
  simp only [sample, Expr.Regular, Expr.at, Expr.eval, realNum]
  norm_num

/-- And `unit_step(x0)` is one of the expressions of `unit_step_is_not_differentiable`. -/
example : ¬ (Expr.op .add (.var 1) (.fn .unitStep (.var 0)) : Expr ℝ).NoStep := by simp [Expr.NoStep]

end Current.Fncas
