import Verif.Fncas.Derivative

/-!
# fncas: the cost of evaluation and of differentiation (C75)

Evaluation is linear in the number of recorded nodes (`evaluation_is_the_expression`). Differentiation does not
look at its table for the operands, so that its cost is the size of the expression as a *tree*: for a function
that squares its intermediate result `k` times, which takes `k` nodes to record, the number of iterations and the
number of nodes recorded for the derivative are exponential in `k`.
-/

namespace Current.Fncas

/-- `x` squared `k` times by multiplying the intermediate result by itself: `y = x; repeat k times: y = y * y`. -/
def squared {α : Type} : Nat → Expr α
  | 0 => .var 0
  | k + 1 => .op .mul (squared k) (squared k)

/-- The user's program that records it, `y = y * y` repeated `k` times from the node `y`. -/
def recordSquared {α : Type} : Nat → Nat → Build α
  | 0, y => Build.ret y
  | k + 1, y => (recordSquared k y).bind fun z => mkOp .mul z z

theorem recordSquared_denotes {α : Type} {s : Store α} (hs : s.Good) {y : Nat} (hy : Denotes s y (.var 0)) (k : Nat) :
    (recordSquared k y s).1.Good ∧ Ext s (recordSquared k y s).1 ∧
      Denotes (recordSquared k y s).1 (recordSquared k y s).2 (squared k) ∧
      (recordSquared k y s).1.nodes.length = s.nodes.length + k ∧ (recordSquared k y s).1.df = s.df ∧
      (recordSquared k y s).1.dim = s.dim := by
  induction k with
  | zero => exact ⟨hs, Ext.refl _, hy, rfl, rfl, rfl⟩
  | succ k ih =>
    obtain ⟨h1, h2, h3, h4, h5, h6⟩ := ih
    obtain ⟨g1, g2, g3⟩ := recording_an_operation .mul h1 h3 h3
    refine ⟨g1, h2.trans g2, g3, ?_, h5, h6⟩
    simp only [recordSquared, Build.bind, mkOp, alloc, List.length_append, List.length_singleton, h4]; omega

theorem squared_steps {α : Type} (k : Nat) : (squared k : Expr α).dSteps + 2 = 3 * 2 ^ k := by
  induction k with
  | zero => rfl
  | succ k ih =>
    have : (squared (k + 1) : Expr α).dSteps = 2 * (squared k : Expr α).dSteps + 2 := by
      simp only [squared, Expr.dSteps]; omega
    rw [this, pow_succ]; omega

theorem squared_noStep {α : Type} : ∀ k, (squared k : Expr α).NoStep
  | 0 => trivial
  | k + 1 => ⟨squared_noStep k, squared_noStep k⟩

theorem squared_vars {α : Type} {n : Nat} (hn : 0 < n) : ∀ k, (squared k : Expr α).VarsBelow n
  | 0 => hn
  | k + 1 => ⟨squared_vars hn k, squared_vars hn k⟩

theorem squared_inj {α : Type} : ∀ {j k : Nat}, (squared j : Expr α) = squared k → j = k
  | 0, 0, _ => rfl
  | 0, _ + 1, h => by simp [squared] at h
  | _ + 1, 0, h => by simp [squared] at h
  | j + 1, k + 1, h => by simp only [squared, Expr.op.injEq] at h; rw [squared_inj h.2.1]

/-- No recorded derivative of a repeated square is the constant zero. -/
def NonZero (s : Store ℝ) : Prop :=
  ∀ j k d, Denotes s j (squared k) → s.df 0 j = some d → equalsTo realNum s d (realNum.lit 0) = false

theorem equalsTo_ext {s s' : Store ℝ} (he : Ext s s') {d : Nat} {e : Expr ℝ} (hd : Denotes s d e) (k : ℝ) :
    equalsTo realNum s' d k = equalsTo realNum s d k := by
  have : s'.nodes[d]? = s.nodes[d]? := by
    obtain ⟨n, hn⟩ : ∃ n, s.nodes[d]? = some n := by cases hd <;> exact ⟨_, by assumption⟩
    rw [hn, he _ _ hn]
  simp only [equalsTo, valueOf, this]

theorem NonZero.ext {n : Nat} {s s' : Store ℝ} (h : NonZero s) (hm : MemoOK n s) (he : Ext s s') (hd : s'.df = s.df) :
    NonZero s' := by
  intro j k d hj hdf
  rw [hd] at hdf
  obtain ⟨e, e', h1, _, h3, _, _⟩ := hm 0 j d hdf
  have := (he.denotes h1).unique hj; subst this
  rw [equalsTo_ext he h3]
  exact h j k d h1 hdf

theorem NonZero.set {s : Store ℝ} (h : NonZero s) {i d : Nat} (hd : equalsTo realNum s d (realNum.lit 0) = false) :
    NonZero (s.setDf 0 i d) := by
  intro j k d' hj hdf
  have hx : Denotes s j (squared k) := by
    have : Ext (s.setDf 0 i d) s := fun _ _ h => h
    exact this.denotes hj
  simp only [Store.setDf] at hdf
  by_cases c : True ∧ j = i
  · rw [if_pos (by simpa using c)] at hdf
    injection hdf with hdf; subst hdf
    exact hd
  · rw [if_neg (by simpa using c)] at hdf
    exact h j k d' hx hdf

theorem Ext.length_le {s s' : Store ℝ} (he : Ext s s') : s.nodes.length ≤ s'.nodes.length := by
  by_contra hlt
  push_neg at hlt
  have := he s'.nodes.length (s.nodes[s'.nodes.length]'hlt) (by simp [hlt])
  simp at this

theorem dMul_grows {s : Store ℝ} (hs : s.Good) {n : Nat} {a b da db : Nat} {A B U W : (Nat → ℝ) → ℝ}
    {D : (Nat → ℝ) → Prop} (ha : Term n D s a A) (hb : Term n D s b B) (hda : Term n D s da U) (hdb : Term n D s db W)
    (na : equalsTo realNum s a (realNum.lit 0) = false) (nb : equalsTo realNum s b (realNum.lit 0) = false)
    (nda : equalsTo realNum s da (realNum.lit 0) = false) (ndb : equalsTo realNum s db (realNum.lit 0) = false) :
    s.nodes.length + 1 ≤ (dMul realNum a b da db s).1.nodes.length ∧
      equalsTo realNum (dMul realNum a b da db s).1 (dMul realNum a b da db s).2 (realNum.lit 0) = false := by
  unfold dMul
  simp only [na, nb, nda, ndb, Bool.or_self, Bool.and_self, Bool.false_eq_true, if_false]
  have h1 := out_smul hs ha hdb
  have h2 := out_smul h1.good (hb.ext h1.ext) (hda.ext h1.ext)
  simp only [Build.bind, mkOp]
  constructor
  · simp only [alloc, List.length_append, List.length_singleton]
    have := h1.ext.length_le
    have := h2.ext.length_le
    omega
  · simp only [equalsTo, valueOf]
    rw [alloc_get]

theorem squared_not_zero {s : Store ℝ} {j k : Nat} (h : Denotes s j (squared k)) :
    equalsTo realNum s j (realNum.lit 0) = false := by
  cases k with
  | zero => cases h with | var h1 => simp [equalsTo, valueOf, h1]
  | succ k => cases h with | op h1 _ _ => simp [equalsTo, valueOf, h1]

theorem squared_visit (n zero one : Nat) (hn : 0 < n) (k : Nat) : ∀ i s, Denotes s i (squared k) → DInv n zero one s →
    NonZero s → ∃ s', DVisited n 0 zero one i (squared k) s s' ∧ NonZero s' ∧
      s.nodes.length + 2 ^ k ≤ s'.nodes.length + 1 := by
  induction k with
  | zero =>
    intro i s hd hi hz
    have hnode : s.nodes[i]? = some (.var 0) := by cases hd; assumption
    have h1 : equalsTo realNum s one (realNum.lit 0) = false := by
      have h := hi.one
      cases h with
      | val h => simp [equalsTo, valueOf, h, realNum]
    refine ⟨s.setDf 0 i one, ⟨?_, ?_, setDf_inv hi hd hn hi.one trivial (derivOf_var_same 0), fun _ _ h => h, rfl,
        ⟨one, setDf_here ..⟩, fun j d h => setDf_mono _ _ _ _ h⟩, hz.set h1, by simp [Store.setDf]⟩
    · intro f rest; rw [squared, Expr.dSteps, show 1 + f = f + 1 from by omega]; simp [dLoop, dStep, hnode]
    · intro f rest hf; simp only [squared, Expr.dSteps] at hf; rw [show f = 0 from by omega]; rfl
  | succ k ih =>
    intro i s hd hi hz
    obtain ⟨l, r, hnode, ha, hb⟩ : ∃ l r, s.nodes[i]? = some (.op .mul l r) ∧ Denotes s l (squared k) ∧
        Denotes s r (squared k) := by
      cases hd with | op h1 h2 h3 => exact ⟨_, _, h1, h2, h3⟩
    obtain ⟨s1, v1, z1, l1⟩ := ih r s hb hi hz
    obtain ⟨s2, v2, z2, l2⟩ := ih l s1 (v1.ext.denotes ha) v1.inv z1
    have he2 := v1.ext.trans v2.ext
    obtain ⟨s', w⟩ := dvisit_ok n 0 zero one (squared (k + 1)) (squared_noStep _) (squared_vars hn _) i s hd hi
    -- the store after the traversal is the one after the operands, with the product rule applied
    obtain ⟨da, hda⟩ := v2.here
    obtain ⟨db0, hdb0⟩ := v1.here
    obtain ⟨db, hdb⟩ := v2.mono r db0 hdb0
    have hn2 := he2 i _ hnode
    have hrun : dLoop realNum 0 zero one ((squared (k + 1) : Expr ℝ).dSteps + 0) s [.visit i]
        = some ((dOp realNum .mul l r da db s2).1.setDf 0 i (dOp realNum .mul l r da db s2).2, none) := by
      rw [squared, Expr.dSteps, show (squared k : Expr ℝ).dSteps + (squared k : Expr ℝ).dSteps + 2 + 0
        = ((squared k : Expr ℝ).dSteps + ((squared k : Expr ℝ).dSteps + (0 + 1))) + 1 from by omega]
      rw [dLoop.eq_3]
      simp only [dStep, hnode, List.cons_append, List.nil_append]
      rw [v1.run, v2.run]
      simp [dLoop, dStep, hn2, hda, hdb]
    have hs' : s' = (dOp realNum .mul l r da db s2).1.setDf 0 i (dOp realNum .mul l r da db s2).2 := by
      have := w.run 0 []
      rw [hrun] at this
      simp only [dLoop, Option.some.injEq, Prod.mk.injEq, and_true] at this
      exact this.symm
    obtain ⟨ea, ea', ga1, ga2, ga3, ga4, ga5⟩ := v2.inv.memo 0 l da hda
    obtain ⟨eb, eb', gb1, gb2, gb3, gb4, gb5⟩ := v2.inv.memo 0 r db hdb
    have ha2 := he2.denotes ha
    have hb2 := he2.denotes hb
    have := ga1.unique ha2; subst this
    have := gb1.unique hb2; subst this
    have T1 := term_of (n := n) (D := fun x => False) ha2 ga2 (fun x h => h.elim)
    have T2 := term_of (n := n) (D := fun x => False) hb2 gb2 (fun x h => h.elim)
    have T3 := term_of (n := n) (D := fun x => False) ga3 ga4 (fun x h => h.elim)
    have T4 := term_of (n := n) (D := fun x => False) gb3 gb4 (fun x h => h.elim)
    have grow := dMul_grows v2.inv.good T1 T2 T3 T4 (squared_not_zero ha2) (squared_not_zero hb2)
      (z2 l k da ha2 hda) (z2 r k db hb2 hdb)
    have hout := out_dMul v2.inv.good T1 T2 T3 T4
    refine ⟨s', w, ?_, ?_⟩
    · rw [hs']
      exact (z2.ext v2.inv.memo hout.ext hout.df).set grow.2
    · rw [hs']
      have : (dOp realNum .mul l r da db s2).1.nodes.length ≥ s2.nodes.length + 1 := grow.1
      show s.nodes.length + 2 ^ (k + 1) ≤ (dOp realNum .mul l r da db s2).1.nodes.length + 1
      rw [pow_succ]; omega

/-- **C75 (finding).** Squaring an intermediate result `k` times takes `k` more nodes to record and is evaluated in
linear time; differentiating it takes exactly `3 * 2^k - 2` iterations (it does not finish with fewer) and records
at least `2^k - 1` more nodes: exponential in the size of what the user wrote. -/
theorem differentiation_is_exponential (k : Nat) :
    ∃ (s : Store ℝ) (i : Nat), s.nodes.length = k + 2 ∧ Denotes s i (squared k) ∧
      (∀ fuel, fuel + 2 < 3 * 2 ^ k → differentiate realNum fuel i 0 s = none) ∧
      ∀ fuel, 3 * 2 ^ k ≤ fuel + 2 →
        ∃ s' d, differentiate realNum fuel i 0 s = some (s', .inl d) ∧ s.nodes.length + 2 ^ k ≤ s'.nodes.length + 1 := by
  obtain ⟨h1, h2, h3, h4, h5⟩ := the_variables (α := ℝ) 1
  have hlen : 0 < (mkX (α := ℝ) 1).2.length := by omega
  obtain ⟨r1, r2, r3, r4, r5, r6⟩ := recordSquared_denotes h1 (h5 0 hlen) k
  generalize hs : (recordSquared k (mkX (α := ℝ) 1).2[0] (mkX (α := ℝ) 1).1).1 = s at r1 r2 r3 r4 r5 r6
  generalize hi : (recordSquared k (mkX (α := ℝ) 1).2[0] (mkX (α := ℝ) 1).1).2 = i at r3
  have hdim : s.dim = 1 := r6.trans h2
  have hdf : ∀ v j, s.df v j = none := fun v j => by rw [r5]; exact h3 v j
  have hready : Ready s := ⟨r1, fun v j d h => by rw [hdf] at h; cases h⟩
  have hl : (mkX (α := ℝ) 1).1.nodes.length = 2 := rfl
  obtain ⟨g1, g2, g3⟩ := ready_start hready
  have gdf : (mkVal realNum (realNum.lit 1) (mkVal realNum (realNum.lit 0) s).1).1.df = s.df := by
    obtain ⟨a1, a2, a3, a4, a5⟩ := mkVal_facts realNum_exact r1 (realNum.lit 0)
    obtain ⟨b1, b2, b3, b4, b5⟩ := mkVal_facts realNum_exact a2 (realNum.lit 1)
    exact b4.trans a4
  rw [hdim] at g1
  obtain ⟨s', w, _, hgrow⟩ := squared_visit 1 _ _ (by decide) k i _ (g2.denotes r3) g1
    (fun j k d _ h => by rw [gdf, hdf] at h; cases h)
  have hst := squared_steps (α := ℝ) k
  refine ⟨s, i, by omega, r3, fun fuel hf => ?_, fun fuel hf => ?_⟩
  · simp only [differentiate, hdim, Nat.lt_one_iff, if_true, hdf]
    rw [w.short fuel [] (by omega)]
  · obtain ⟨d, hd⟩ := w.here
    have hr := w.run (fuel - (squared k : Expr ℝ).dSteps) []
    rw [show (squared k : Expr ℝ).dSteps + (fuel - (squared k : Expr ℝ).dSteps) = fuel from by omega] at hr
    refine ⟨s', d, ?_, ?_⟩
    · simp only [differentiate, hdim, Nat.lt_one_iff, if_true, hdf]
      rw [hr]
      cases fuel - (squared k : Expr ℝ).dSteps <;> simp [dLoop, hd]
    · have := g2.length_le
      omega

/-- **C75 (in general).** The number of iterations of a differentiation that finds nothing in its table for the
whole expression is the size of the expression as a tree, whatever is in the table for its parts and however much
its recording shares. -/
theorem differentiation_cost_is_the_tree_size {s : Store ℝ} (hs : Ready s) {i : Nat} {e : Expr ℝ} (hd : Denotes s i e)
    (hv : e.VarsBelow s.dim) (hns : e.NoStep) {v : Nat} (hvar : v < s.dim) (hnew : s.df v i = none) (fuel : Nat) :
    (∃ s' d, differentiate realNum fuel i v s = some (s', .inl d)) ↔ e.dSteps ≤ fuel := by
  obtain ⟨h1, h2, h3⟩ := ready_start hs
  obtain ⟨s', w⟩ := dvisit_ok s.dim v _ _ e hns hv i _ (h2.denotes hd) h1
  obtain ⟨d, hd'⟩ := w.here
  constructor
  · rintro ⟨s'', d', h⟩
    by_contra hlt
    simp only [differentiate, hvar, if_true, hnew] at h
    rw [w.short fuel [] (by omega)] at h
    cases h
  · intro hf
    refine ⟨s', d, ?_⟩
    have hr := w.run (fuel - e.dSteps) []
    rw [show e.dSteps + (fuel - e.dSteps) = fuel from by omega] at hr
    simp only [differentiate, hvar, if_true, hnew]
    rw [hr]
    cases fuel - e.dSteps <;> simp [dLoop, hd']

end Current.Fncas
