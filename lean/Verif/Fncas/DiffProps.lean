import Mathlib.Analysis.SpecialFunctions.Trigonometric.InverseDeriv
import Mathlib.Analysis.SpecialFunctions.Trigonometric.ArctanDeriv
import Mathlib.Analysis.SpecialFunctions.Sqrt
import Mathlib.Analysis.SpecialFunctions.Log.Deriv
import Mathlib.Analysis.SpecialFunctions.ExpDeriv
import Verif.Fncas.Eval
import Verif.Fncas.Diff

/-!
# fncas: the symbolic derivative is the derivative (C74)

The numbers are the real numbers here. The specification of "derivative" is Mathlib's `HasDerivAt`.
-/

namespace Current.Fncas

open Classical in
/-- The operations and functions on real numbers (node.h:47-75, 97-107). -/
noncomputable def realNum : Num ℝ where
  op
    | .add, a, b => a + b
    | .sub, a, b => a - b
    | .mul, a, b => a * b
    | .div, a, b => a / b
  fn
    | .sqr, a => a * a
    | .sqrt, a => Real.sqrt a
    | .exp, a => Real.exp a
    | .log, a => Real.log a
    | .sin, a => Real.sin a
    | .cos, a => Real.cos a
    | .tan, a => Real.tan a
    | .asin, a => Real.arcsin a
    | .acos, a => Real.arccos a
    | .atan, a => Real.arctan a
    | .unitStep, a => if a ≥ 0 then 1 else 0
    | .ramp, a => if a > 0 then a else 0
  lit n := n
  half := 1 / 2
  eq a b := decide (a = b)

theorem realNum_exact : realNum.Exact := by intro a b; simp [realNum]

/-- The value of an expression over the reals. -/
noncomputable abbrev Expr.at (e : Expr ℝ) (x : Nat → ℝ) : ℝ := e.eval realNum x

/-- The expression is defined at `x`: no division by zero, no root or logarithm outside its domain, and so on;
evaluating it in floating point meets no NaN and no infinity (other than by overflow). -/
def Expr.Defined (x : Nat → ℝ) : Expr ℝ → Prop
  | .var _ => True
  | .val _ => True
  | .op .div a b => a.Defined x ∧ b.Defined x ∧ b.at x ≠ 0
  | .op _ a b => a.Defined x ∧ b.Defined x
  | .fn .sqrt a => a.Defined x ∧ 0 ≤ a.at x
  | .fn .log a => a.Defined x ∧ 0 < a.at x
  | .fn .tan a => a.Defined x ∧ Real.cos (a.at x) ≠ 0
  | .fn .asin a => a.Defined x ∧ -1 ≤ a.at x ∧ a.at x ≤ 1
  | .fn .acos a => a.Defined x ∧ -1 ≤ a.at x ∧ a.at x ≤ 1
  | .fn _ a => a.Defined x

/-- The expression and all its parts are differentiable at `x` (and free of `unit_step`). -/
def Expr.Regular (x : Nat → ℝ) : Expr ℝ → Prop
  | .var _ => True
  | .val _ => True
  | .op .div a b => a.Regular x ∧ b.Regular x ∧ b.at x ≠ 0
  | .op _ a b => a.Regular x ∧ b.Regular x
  | .fn .sqrt a => a.Regular x ∧ 0 < a.at x
  | .fn .log a => a.Regular x ∧ 0 < a.at x
  | .fn .tan a => a.Regular x ∧ Real.cos (a.at x) ≠ 0
  | .fn .asin a => a.Regular x ∧ -1 < a.at x ∧ a.at x < 1
  | .fn .acos a => a.Regular x ∧ -1 < a.at x ∧ a.at x < 1
  | .fn .unitStep _ => False
  | .fn .ramp a => a.Regular x ∧ a.at x ≠ 0
  | .fn _ a => a.Regular x

/-- `unit_step` does not occur. -/
def Expr.NoStep {α : Type} : Expr α → Prop
  | .var _ => True
  | .val _ => True
  | .op _ a b => a.NoStep ∧ b.NoStep
  | .fn .unitStep _ => False
  | .fn _ a => a.NoStep

/-- `e'` is the derivative of `e` by the variable `v`, at every point where `e` is regular, and is defined
there. -/
def DerivOf (v : Nat) (e e' : Expr ℝ) : Prop :=
  ∀ x, e.Regular x → e'.Defined x ∧
    HasDerivAt (fun t => e.at (Function.update x v t)) (e'.at x) (x v)

theorem Expr.Regular.defined {x : Nat → ℝ} : ∀ {e : Expr ℝ}, e.Regular x → e.Defined x := by
  intro e
  induction e with
  | var v => exact fun _ => trivial
  | val c => exact fun _ => trivial
  | op o a b iha ihb =>
    intro h
    cases o <;> simp only [Expr.Regular, Expr.Defined] at h ⊢
    · exact ⟨iha h.1, ihb h.2⟩
    · exact ⟨iha h.1, ihb h.2⟩
    · exact ⟨iha h.1, ihb h.2⟩
    · exact ⟨iha h.1, ihb h.2.1, h.2.2⟩
  | fn f a iha =>
    intro h
    cases f <;> simp only [Expr.Regular, Expr.Defined] at h ⊢
    · exact iha h
    · exact ⟨iha h.1, h.2.le⟩
    · exact iha h
    · exact ⟨iha h.1, h.2⟩
    · exact iha h
    · exact iha h
    · exact ⟨iha h.1, h.2⟩
    · exact ⟨iha h.1, h.2.1.le, h.2.2.le⟩
    · exact ⟨iha h.1, h.2.1.le, h.2.2.le⟩
    · exact iha h
    · exact iha h.1

/-! ## What recording code produces -/

/-- Node `i` is an expression of `n` variables which, at the points satisfying `D`, is defined and has the
value `val`. -/
def Term (n : Nat) (D : (Nat → ℝ) → Prop) (s : Store ℝ) (i : Nat) (val : (Nat → ℝ) → ℝ) : Prop :=
  ∃ e, Denotes s i e ∧ e.VarsBelow n ∧ ∀ x, D x → e.Defined x ∧ e.at x = val x

theorem Term.ext {n D s s' i val} (h : Term n D s i val) (he : Ext s s') : Term n D s' i val := by
  obtain ⟨e, h1, h2⟩ := h
  exact ⟨e, he.denotes h1, h2⟩

theorem Term.congr {n D s i val val'} (h : Term n D s i val) (he : ∀ x, D x → val x = val' x) : Term n D s i val' := by
  obtain ⟨e, h1, h2, h3⟩ := h
  exact ⟨e, h1, h2, fun x hx => ⟨(h3 x hx).1, (h3 x hx).2.trans (he x hx)⟩⟩

/-- The outcome of recording code. -/
structure Out (n : Nat) (D : (Nat → ℝ) → Prop) (s : Store ℝ) (p : Store ℝ × Nat) (val : (Nat → ℝ) → ℝ) : Prop where
  good : p.1.Good
  ext : Ext s p.1
  df : p.1.df = s.df
  dim : p.1.dim = s.dim
  term : Term n D p.1 p.2 val

theorem Out.congr {n D s p val val'} (h : Out n D s p val) (he : ∀ x, D x → val x = val' x) : Out n D s p val' :=
  ⟨h.good, h.ext, h.df, h.dim, h.term.congr he⟩

theorem out_bind {n D s u w} {m : Build ℝ} {k : Nat → Build ℝ} (h : Out n D s (m s) u)
    (hk : ∀ s' i, s'.Good → Ext s s' → Term n D s' i u → Out n D s' (k i s') w) : Out n D s (m.bind k s) w := by
  have h2 := hk _ _ h.good h.ext h.term
  exact ⟨h2.good, h.ext.trans h2.ext, h2.df.trans h.df, h2.dim.trans h.dim, h2.term⟩

theorem out_ret {n D s i u} (hs : s.Good) (h : Term n D s i u) : Out n D s (s, i) u :=
  ⟨hs, Ext.refl _, rfl, rfl, h⟩

theorem out_val {n D s} (hs : s.Good) (c : ℝ) : Out n D s (mkVal realNum c s) (fun _ => c) := by
  obtain ⟨h1, h2, h3, h4, h5⟩ := mkVal_facts realNum_exact hs c
  exact ⟨h2, h1, h4, h5, .val c, .val h3, trivial, fun _ _ => ⟨trivial, rfl⟩⟩

theorem out_alloc {n D s} {nd : Node ℝ} {e : Expr ℝ} {val} (hs : s.Good)
    (hd : ∀ s' i, Ext s s' → s'.nodes[i]? = some nd → Denotes s' i e) (hv : e.VarsBelow n)
    (hx : ∀ x, D x → e.Defined x ∧ e.at x = val x) : Out n D s (alloc nd s) val :=
  ⟨good_alloc hs, ext_alloc _ _, rfl, rfl, e, hd _ _ (ext_alloc _ _) (alloc_get _ _), hv, hx⟩

theorem out_add {n D s l r u w} (hs : s.Good) (hl : Term n D s l u) (hr : Term n D s r w) :
    Out n D s (mkOp .add l r s) (fun x => u x + w x) := by
  obtain ⟨a, h1, h2, h3⟩ := hl
  obtain ⟨b, g1, g2, g3⟩ := hr
  refine out_alloc (e := .op .add a b) hs (fun s' i he hn => .op hn (he.denotes h1) (he.denotes g1)) ⟨h2, g2⟩ ?_
  intro x hx
  exact ⟨⟨(h3 x hx).1, (g3 x hx).1⟩, by rw [← (h3 x hx).2, ← (g3 x hx).2]; rfl⟩

theorem out_sub {n D s l r u w} (hs : s.Good) (hl : Term n D s l u) (hr : Term n D s r w) :
    Out n D s (mkOp .sub l r s) (fun x => u x - w x) := by
  obtain ⟨a, h1, h2, h3⟩ := hl
  obtain ⟨b, g1, g2, g3⟩ := hr
  refine out_alloc (e := .op .sub a b) hs (fun s' i he hn => .op hn (he.denotes h1) (he.denotes g1)) ⟨h2, g2⟩ ?_
  intro x hx
  exact ⟨⟨(h3 x hx).1, (g3 x hx).1⟩, by rw [← (h3 x hx).2, ← (g3 x hx).2]; rfl⟩

theorem out_mul {n D s l r u w} (hs : s.Good) (hl : Term n D s l u) (hr : Term n D s r w) :
    Out n D s (mkOp .mul l r s) (fun x => u x * w x) := by
  obtain ⟨a, h1, h2, h3⟩ := hl
  obtain ⟨b, g1, g2, g3⟩ := hr
  refine out_alloc (e := .op .mul a b) hs (fun s' i he hn => .op hn (he.denotes h1) (he.denotes g1)) ⟨h2, g2⟩ ?_
  intro x hx
  exact ⟨⟨(h3 x hx).1, (g3 x hx).1⟩, by rw [← (h3 x hx).2, ← (g3 x hx).2]; rfl⟩

theorem out_div {n D s l r u w} (hs : s.Good) (hl : Term n D s l u) (hr : Term n D s r w)
    (hne : ∀ x, D x → w x ≠ 0) : Out n D s (mkOp .div l r s) (fun x => u x / w x) := by
  obtain ⟨a, h1, h2, h3⟩ := hl
  obtain ⟨b, g1, g2, g3⟩ := hr
  refine out_alloc (e := .op .div a b) hs (fun s' i he hn => .op hn (he.denotes h1) (he.denotes g1)) ⟨h2, g2⟩ ?_
  intro x hx
  refine ⟨⟨(h3 x hx).1, (g3 x hx).1, ?_⟩, by rw [← (h3 x hx).2, ← (g3 x hx).2]; rfl⟩
  rw [(g3 x hx).2]; exact hne x hx

/-- The functions that are defined everywhere. -/
theorem out_fn {n D s l u} (f : Fn) (hf : f ≠ .sqrt ∧ f ≠ .log ∧ f ≠ .tan ∧ f ≠ .asin ∧ f ≠ .acos) (hs : s.Good)
    (hl : Term n D s l u) : Out n D s (mkFn f l s) (fun x => realNum.fn f (u x)) := by
  obtain ⟨a, h1, h2, h3⟩ := hl
  refine out_alloc (e := .fn f a) hs (fun s' i he hn => .fn hn (he.denotes h1)) h2 ?_
  intro x hx
  refine ⟨?_, by rw [← (h3 x hx).2]; rfl⟩
  have := (h3 x hx).1
  cases f <;> first | exact this | simp at hf

theorem out_sqrt {n D s l u} (hs : s.Good) (hl : Term n D s l u) (hp : ∀ x, D x → 0 ≤ u x) :
    Out n D s (mkFn .sqrt l s) (fun x => Real.sqrt (u x)) := by
  obtain ⟨a, h1, h2, h3⟩ := hl
  refine out_alloc (e := .fn .sqrt a) hs (fun s' i he hn => .fn hn (he.denotes h1)) h2 ?_
  intro x hx
  refine ⟨⟨(h3 x hx).1, ?_⟩, by rw [← (h3 x hx).2]; rfl⟩
  rw [(h3 x hx).2]; exact hp x hx

theorem out_neg {n D s l u} (hs : s.Good) (hl : Term n D s l u) : Out n D s (mkNeg realNum l s) (fun x => - u x) := by
  refine (out_bind (w := fun x => (0 : ℝ) - u x) (out_val hs _) ?_).congr (fun x _ => by ring)
  intro s' i hs' he ht
  have := out_sub hs' ht (hl.ext he)
  refine this.congr (fun x _ => ?_)
  simp [realNum]

theorem valueOf_term {n D s i u c} (h : Term n D s i u) (hv : valueOf s i = some c) : ∀ x, D x → u x = c := by
  obtain ⟨e, h1, h2, h3⟩ := h
  intro x hx
  rw [← (h3 x hx).2]
  unfold valueOf at hv
  cases h1 <;> simp_all [Expr.at, Expr.eval]

theorem equalsTo_term {n D s i u k} (h : Term n D s i u) (hv : equalsTo realNum s i k = true) : ∀ x, D x → u x = k := by
  intro x hx
  unfold equalsTo at hv
  cases hc : valueOf s i with
  | none => simp [hc] at hv
  | some c =>
    rw [hc] at hv
    rw [valueOf_term h hc x hx]
    exact (realNum_exact c k).1 hv

@[simp] theorem real_lit (k : Int) : realNum.lit k = (k : ℝ) := rfl

theorem out_dAdd {n D s l r u w} (hs : s.Good) (hl : Term n D s l u) (hr : Term n D s r w) :
    Out n D s (dAdd realNum l r s) (fun x => u x + w x) := by
  unfold dAdd
  have rest : Out n D s (if equalsTo realNum s r (realNum.lit 0) then (s, l)
      else if equalsTo realNum s l (realNum.lit 0) then (s, r) else mkOp .add l r s) (fun x => u x + w x) := by
    by_cases c1 : equalsTo realNum s r (realNum.lit 0) = true
    · rw [if_pos c1]
      refine (out_ret hs hl).congr (fun x hx => ?_)
      rw [equalsTo_term hr c1 x hx]; simp
    rw [if_neg c1]
    by_cases c2 : equalsTo realNum s l (realNum.lit 0) = true
    · rw [if_pos c2]
      refine (out_ret hs hr).congr (fun x hx => ?_)
      rw [equalsTo_term hl c2 x hx]; simp
    rw [if_neg c2]
    exact out_add hs hl hr
  cases h1 : valueOf s l with
  | none => exact rest
  | some c =>
    cases h2 : valueOf s r with
    | none => exact rest
    | some d =>
      refine (out_val hs _).congr (fun x hx => ?_)
      rw [valueOf_term hl h1 x hx, valueOf_term hr h2 x hx]; rfl

theorem out_dSub {n D s l r u w} (hs : s.Good) (hl : Term n D s l u) (hr : Term n D s r w) :
    Out n D s (dSub realNum l r s) (fun x => u x - w x) := by
  unfold dSub
  have rest : Out n D s (if equalsTo realNum s r (realNum.lit 0) then (s, l)
      else if equalsTo realNum s l (realNum.lit 0) then mkNeg realNum r s else mkOp .sub l r s)
      (fun x => u x - w x) := by
    by_cases c1 : equalsTo realNum s r (realNum.lit 0) = true
    · rw [if_pos c1]
      refine (out_ret hs hl).congr (fun x hx => ?_)
      rw [equalsTo_term hr c1 x hx]; simp
    rw [if_neg c1]
    by_cases c2 : equalsTo realNum s l (realNum.lit 0) = true
    · rw [if_pos c2]
      refine (out_neg hs hr).congr (fun x hx => ?_)
      rw [equalsTo_term hl c2 x hx]; simp
    rw [if_neg c2]
    exact out_sub hs hl hr
  cases h1 : valueOf s l with
  | none => exact rest
  | some c =>
    cases h2 : valueOf s r with
    | none => exact rest
    | some d =>
      refine (out_val hs _).congr (fun x hx => ?_)
      rw [valueOf_term hl h1 x hx, valueOf_term hr h2 x hx]; rfl

theorem out_smul {n D s l r u w} (hs : s.Good) (hl : Term n D s l u) (hr : Term n D s r w) :
    Out n D s (simplifiedMul realNum l r s) (fun x => u x * w x) := by
  unfold simplifiedMul
  by_cases c0 : (equalsTo realNum s l (realNum.lit 0) || equalsTo realNum s r (realNum.lit 0)) = true
  · rw [if_pos c0]
    refine (out_val hs _).congr (fun x hx => ?_)
    rcases Bool.or_eq_true _ _ |>.mp c0 with c | c
    · rw [equalsTo_term hl c x hx]; simp
    · rw [equalsTo_term hr c x hx]; simp
  rw [if_neg c0]
  have rest : Out n D s (if equalsTo realNum s r (realNum.lit 1) then (s, l)
      else if equalsTo realNum s l (realNum.lit 1) then (s, r) else mkOp .mul l r s) (fun x => u x * w x) := by
    by_cases c1 : equalsTo realNum s r (realNum.lit 1) = true
    · rw [if_pos c1]
      refine (out_ret hs hl).congr (fun x hx => ?_)
      rw [equalsTo_term hr c1 x hx]; simp
    rw [if_neg c1]
    by_cases c2 : equalsTo realNum s l (realNum.lit 1) = true
    · rw [if_pos c2]
      refine (out_ret hs hr).congr (fun x hx => ?_)
      rw [equalsTo_term hl c2 x hx]; simp
    rw [if_neg c2]
    exact out_mul hs hl hr
  cases h1 : valueOf s l with
  | none => exact rest
  | some c =>
    cases h2 : valueOf s r with
    | none => exact rest
    | some d =>
      refine (out_val hs _).congr (fun x hx => ?_)
      rw [valueOf_term hl h1 x hx, valueOf_term hr h2 x hx]; rfl

theorem out_dMul {n D s a b da db A B U W} (hs : s.Good) (ha : Term n D s a A) (hb : Term n D s b B)
    (hda : Term n D s da U) (hdb : Term n D s db W) :
    Out n D s (dMul realNum a b da db s) (fun x => A x * W x + B x * U x) := by
  have zl : (equalsTo realNum s a (realNum.lit 0) || equalsTo realNum s db (realNum.lit 0)) = true →
      ∀ x, D x → A x * W x = 0 := by
    intro c x hx
    rcases Bool.or_eq_true _ _ |>.mp c with c | c
    · rw [equalsTo_term ha c x hx]; simp
    · rw [equalsTo_term hdb c x hx]; simp
  have zr : (equalsTo realNum s b (realNum.lit 0) || equalsTo realNum s da (realNum.lit 0)) = true →
      ∀ x, D x → B x * U x = 0 := by
    intro c x hx
    rcases Bool.or_eq_true _ _ |>.mp c with c | c
    · rw [equalsTo_term hb c x hx]; simp
    · rw [equalsTo_term hda c x hx]; simp
  unfold dMul
  dsimp only
  by_cases cl : (equalsTo realNum s a (realNum.lit 0) || equalsTo realNum s db (realNum.lit 0)) = true
  · by_cases cr : (equalsTo realNum s b (realNum.lit 0) || equalsTo realNum s da (realNum.lit 0)) = true
    · rw [if_pos (by rw [cl, cr]; rfl)]
      refine (out_val hs _).congr (fun x hx => ?_)
      rw [zl cl x hx, zr cr x hx]; simp
    · rw [if_neg (fun h => cr ((Bool.and_eq_true _ _).mp h).2), if_pos cl]
      refine (out_smul hs hb hda).congr (fun x hx => ?_)
      rw [zl cl x hx]; simp
  · rw [if_neg (fun h => cl ((Bool.and_eq_true _ _).mp h).1), if_neg cl]
    by_cases cr : (equalsTo realNum s b (realNum.lit 0) || equalsTo realNum s da (realNum.lit 0)) = true
    · rw [if_pos cr]
      refine (out_smul hs ha hdb).congr (fun x hx => ?_)
      rw [zr cr x hx]; simp
    · rw [if_neg cr]
      refine out_bind (out_smul hs ha hdb) fun s1 p hs1 e1 t1 => ?_
      refine out_bind (out_smul hs1 (hb.ext e1) (hda.ext e1)) fun s2 q hs2 e2 t2 => ?_
      exact out_add hs2 (t1.ext e2) t2

theorem out_dDiv {n D s a b da db A B U W} (hs : s.Good) (ha : Term n D s a A) (hb : Term n D s b B)
    (hda : Term n D s da U) (hdb : Term n D s db W) (hB : ∀ x, D x → B x ≠ 0) :
    Out n D s (dDiv realNum a b da db s) (fun x => (B x * U x - A x * W x) / (B x * B x)) := by
  unfold dDiv
  refine out_bind (out_smul hs hb hda) fun s1 p hs1 e1 t1 => ?_
  refine out_bind (out_smul hs1 (ha.ext e1) (hdb.ext e1)) fun s2 q hs2 e2 t2 => ?_
  refine out_bind (out_sub hs2 (t1.ext e2) t2) fun s3 r hs3 e3 t3 => ?_
  have hb3 := ((hb.ext e1).ext e2).ext e3
  refine out_bind (out_mul hs3 hb3 hb3) fun s4 w hs4 e4 t4 => ?_
  exact out_div hs4 (t3.ext e4) t4 (fun x hx => mul_ne_zero (hB x hx) (hB x hx))

theorem out_root {n D s i u} (hs : s.Good) (h : Term n D s i u) (hp : ∀ x, D x → -1 < u x ∧ u x < 1) :
    Out n D s (rootOneMinusSq realNum i s) (fun x => Real.sqrt (1 - u x * u x)) := by
  unfold rootOneMinusSq
  refine out_bind (out_val hs _) fun s1 p hs1 e1 t1 => ?_
  refine out_bind (out_mul hs1 (h.ext e1) (h.ext e1)) fun s2 q hs2 e2 t2 => ?_
  refine out_bind (out_sub hs2 (t1.ext e2) t2) fun s3 r hs3 e3 t3 => ?_
  refine (out_sqrt hs3 t3 ?_).congr (fun x _ => by simp)
  intro x hx
  obtain ⟨h1, h2⟩ := hp x hx
  simp only [real_lit, Int.cast_one]
  nlinarith

theorem root_pos {u : ℝ} (h1 : -1 < u) (h2 : u < 1) : Real.sqrt (1 - u * u) ≠ 0 :=
  (Real.sqrt_pos.2 (by nlinarith)).ne'

theorem out_sqPlusOne {n D s i u} (hs : s.Good) (h : Term n D s i u) :
    Out n D s (sqPlusOne realNum i s) (fun x => u x * u x + 1) := by
  unfold sqPlusOne
  refine out_bind (out_mul hs h h) fun s1 p hs1 e1 t1 => ?_
  refine out_bind (out_val hs1 _) fun s2 q hs2 e2 t2 => ?_
  exact (out_add hs2 (t1.ext e2) t2).congr (fun x _ => by simp)

/-- The chain-rule factor of each function at a regular point: what `d_f` multiplies `dx` by, in the form it
records it. -/
noncomputable def factor : Fn → ℝ → ℝ
  | .sqr, a => 2 * a
  | .sqrt, a => 1 / (2 * Real.sqrt a)
  | .exp, a => Real.exp a
  | .log, a => 1 / a
  | .sin, a => Real.cos a
  | .cos, a => - Real.sin a
  | .tan, a => 1 / Real.cos a ^ 2
  | .asin, a => 1 / Real.sqrt (1 - a ^ 2)
  | .acos, a => -(1 / Real.sqrt (1 - a ^ 2))
  | .atan, a => 1 / (1 + a ^ 2)
  | .unitStep, _ => 0
  | .ramp, a => if a ≥ 0 then 1 else 0

/-- The side condition for the function itself. -/
def FnRegular : Fn → ℝ → Prop
  | .sqrt, a => 0 < a
  | .log, a => 0 < a
  | .tan, a => Real.cos a ≠ 0
  | .asin, a => -1 < a ∧ a < 1
  | .acos, a => -1 < a ∧ a < 1
  | .unitStep, _ => False
  | .ramp, a => a ≠ 0
  | _, _ => True

theorem regular_fn {x : Nat → ℝ} {f : Fn} {a : Expr ℝ} (h : (Expr.fn f a).Regular x) :
    FnRegular f (a.at x) ∧ (f ≠ .unitStep → a.Regular x) := by
  cases f <;> simp only [Expr.Regular] at h <;> simp_all [FnRegular]

theorem cos_double (a : ℝ) : Real.cos (a + a) + 1 = 2 * Real.cos a ^ 2 := by
  rw [← two_mul, Real.cos_two_mul]; ring

theorem out_dFn {n D s f i x dx a U m} (hm : dFn realNum f i x dx = some m) (hs : s.Good)
    (hi : ∃ e, Denotes s i (.fn f e)) (ho : Term n D s i (fun y => realNum.fn f (a y)))
    (hx : Term n D s x a) (hdx : Term n D s dx U) (hr : ∀ y, D y → FnRegular f (a y)) :
    Out n D s (m s) (fun y => factor f (a y) * U y) := by
  have noval : valueOf s i = none := by
    obtain ⟨e, h⟩ := hi
    cases h with | fn h1 _ => simp [valueOf, h1]
  cases f with
  | sqr =>
    simp only [dFn, Option.some.injEq] at hm; subst hm
    refine out_bind (out_val hs _) fun s1 p hs1 e1 t1 => ?_
    refine out_bind (out_smul hs1 (hx.ext e1) (hdx.ext e1)) fun s2 q hs2 e2 t2 => ?_
    exact (out_smul hs2 (t1.ext e2) t2).congr (fun y _ => by simp [factor]; ring)
  | sqrt =>
    simp only [dFn, Option.some.injEq] at hm; subst hm
    simp only [noval]
    refine out_bind (out_add hs ho ho) fun s1 p hs1 e1 t1 => ?_
    refine (out_div hs1 (hdx.ext e1) t1 ?_).congr (fun y hy => ?_)
    · intro y hy
      have : 0 < Real.sqrt (a y) := Real.sqrt_pos.2 (hr y hy)
      show Real.sqrt (a y) + Real.sqrt (a y) ≠ 0
      positivity
    · show U y / (Real.sqrt (a y) + Real.sqrt (a y)) = _
      simp only [factor]; rw [two_mul]; ring
  | exp =>
    simp only [dFn, Option.some.injEq] at hm; subst hm
    exact (out_smul hs ho hdx).congr (fun y _ => by simp [factor, realNum])
  | log =>
    simp only [dFn, Option.some.injEq] at hm; subst hm
    have hne : ∀ y, D y → a y ≠ 0 := fun y hy => (show 0 < a y from hr y hy).ne'
    cases hv : valueOf s x with
    | none =>
      simp only [hv]
      refine (out_div hs hdx hx hne).congr (fun y _ => by simp only [factor]; ring)
    | some c =>
      simp only [hv]
      have hc := valueOf_term hx hv
      refine out_bind (out_val hs _) fun s1 p hs1 e1 t1 => ?_
      refine out_bind (out_val hs1 _) fun s2 q hs2 e2 t2 => ?_
      refine out_bind (out_div hs2 (t1.ext e2) t2 (fun y hy => hc y hy ▸ hne y hy)) fun s3 r hs3 e3 t3 => ?_
      refine (out_smul hs3 t3 (((hdx.ext e1).ext e2).ext e3)).congr (fun y hy => ?_)
      simp [factor, hc y hy]
  | sin =>
    simp only [dFn, Option.some.injEq] at hm; subst hm
    refine out_bind (out_fn .cos (by decide) hs hx) fun s1 p hs1 e1 t1 => ?_
    refine (out_smul hs1 (hdx.ext e1) t1).congr (fun y _ => ?_)
    show U y * Real.cos (a y) = _
    simp only [factor]; ring
  | cos =>
    simp only [dFn, Option.some.injEq] at hm; subst hm
    refine out_bind (out_val hs _) fun s1 p hs1 e1 t1 => ?_
    refine out_bind (out_fn .sin (by decide) hs1 (hx.ext e1)) fun s2 q hs2 e2 t2 => ?_
    refine out_bind (out_smul hs2 ((hdx.ext e1).ext e2) t2) fun s3 r hs3 e3 t3 => ?_
    refine (out_smul hs3 ((t1.ext e2).ext e3) t3).congr (fun y _ => ?_)
    show ((-1 : Int) : ℝ) * (U y * Real.sin (a y)) = _
    simp only [factor]; push_cast; ring
  | tan =>
    simp only [dFn, Option.some.injEq] at hm; subst hm
    refine out_bind (out_val hs _) fun s1 four hs1 e1 t4 => ?_
    have hx1 := hx.ext e1
    have hd1 := hdx.ext e1
    refine out_bind (out_fn .cos (by decide) hs1 hx1) fun s2 c1 hs2 e2 tc1 => ?_
    have hx2 := hx1.ext e2
    refine out_bind (out_fn .cos (by decide) hs2 hx2) fun s3 c2 hs3 e3 tc2 => ?_
    refine out_bind (out_mul hs3 (tc1.ext e3) tc2) fun s4 cc hs4 e4 tcc => ?_
    refine out_bind (out_smul hs4 (((hd1.ext e2).ext e3).ext e4) tcc) fun s5 p hs5 e5 tp => ?_
    refine out_bind (out_smul hs5 ((((t4.ext e2).ext e3).ext e4).ext e5) tp) fun s6 A hs6 e6 tA => ?_
    have hx6 := (((hx2.ext e3).ext e4).ext e5).ext e6
    refine out_bind (out_add hs6 hx6 hx6) fun s7 xx hs7 e7 txx => ?_
    refine out_bind (out_fn .cos (by decide) hs7 txx) fun s8 c3 hs8 e8 tc3 => ?_
    refine out_bind (out_val hs8 _) fun s9 one hs9 e9 t1 => ?_
    -- the denominator is an operation node, not a value
    have hb := out_add hs9 (tc3.ext e9) t1
    have tA9 := ((tA.ext e7).ext e8).ext e9
    unfold Build.bind
    have nv : valueOf (mkOp .add c3 one s9).1 (mkOp .add c3 one s9).2 = none := by
      have h := alloc_get (Node.op .add c3 one) s9
      simp only [valueOf, mkOp, h]
    have val : ∀ y, realNum.fn .cos (a y + a y) + realNum.lit 1 = 2 * Real.cos (a y) ^ 2 := by
      intro y; show Real.cos (a y + a y) + ((1 : Int) : ℝ) = _
      rw [← cos_double]; norm_num
    have key : Out n D (mkOp .add c3 one s9).1
        (((mkOp .mul (mkOp .add c3 one s9).2 (mkOp .add c3 one s9).2).bind fun bb => mkOp .div A bb)
          (mkOp .add c3 one s9).1) (fun y => factor .tan (a y) * U y) := by
      refine out_bind (out_mul hb.good hb.term hb.term) fun s11 bb hs11 e11 tbb => ?_
      refine (out_div hs11 ((tA9.ext hb.ext).ext e11) tbb ?_).congr ?_
      · intro y hy
        rw [val y]
        have hc : Real.cos (a y) ≠ 0 := hr y hy
        positivity
      · intro y hy
        rw [val y]
        have hc : Real.cos (a y) ≠ 0 := hr y hy
        show ((4 : Int) : ℝ) * (U y * (Real.cos (a y) * Real.cos (a y))) / (2 * Real.cos (a y) ^ 2 * (2 * Real.cos (a y) ^ 2))
          = 1 / Real.cos (a y) ^ 2 * U y
        push_cast
        field_simp
        ring
    have key2 : Out n D s9 (((mkOp .mul (mkOp .add c3 one s9).2 (mkOp .add c3 one s9).2).bind fun bb => mkOp .div A bb)
          (mkOp .add c3 one s9).1) (fun y => factor .tan (a y) * U y) :=
      ⟨key.good, hb.ext.trans key.ext, key.df.trans hb.df, key.dim.trans hb.dim, key.term⟩
    simp only [nv]
    exact key2
  | asin =>
    simp only [dFn, Option.some.injEq] at hm; subst hm
    have hp : ∀ y, D y → -1 < a y ∧ a y < 1 := hr
    cases hv : valueOf s x with
    | none =>
      simp only [hv]
      refine out_bind (out_root hs hx hp) fun s1 p hs1 e1 t1 => ?_
      refine (out_div hs1 (hdx.ext e1) t1 (fun y hy => root_pos (hp y hy).1 (hp y hy).2)).congr (fun y _ => ?_)
      simp only [factor]; rw [pow_two]; ring
    | some c =>
      simp only [hv]
      refine out_bind (out_val hs _) fun s1 p hs1 e1 t1 => ?_
      refine out_bind (out_root hs1 (hx.ext e1) hp) fun s2 q hs2 e2 t2 => ?_
      refine out_bind (out_div hs2 (t1.ext e2) t2 (fun y hy => root_pos (hp y hy).1 (hp y hy).2)) fun s3 r hs3 e3 t3 => ?_
      refine (out_smul hs3 t3 (((hdx.ext e1).ext e2).ext e3)).congr (fun y hy => ?_)
      simp [factor, pow_two]
  | acos =>
    simp only [dFn, Option.some.injEq] at hm; subst hm
    have hp : ∀ y, D y → -1 < a y ∧ a y < 1 := hr
    cases hv : valueOf s x with
    | none =>
      simp only [hv]
      refine out_bind (out_val hs _) fun s0 m hs0 e0 t0 => ?_
      refine out_bind (out_mul hs0 t0 (hdx.ext e0)) fun s1 p hs1 e1 t1 => ?_
      refine out_bind (out_root hs1 ((hx.ext e0).ext e1) hp) fun s2 q hs2 e2 t2 => ?_
      refine (out_div hs2 (t1.ext e2) t2 (fun y hy => root_pos (hp y hy).1 (hp y hy).2)).congr (fun y _ => ?_)
      simp only [factor, real_lit]; push_cast; rw [pow_two]; ring
    | some c =>
      simp only [hv]
      refine out_bind (out_val hs _) fun s1 p hs1 e1 t1 => ?_
      refine out_bind (out_root hs1 (hx.ext e1) hp) fun s2 q hs2 e2 t2 => ?_
      refine out_bind (out_div hs2 (t1.ext e2) t2 (fun y hy => root_pos (hp y hy).1 (hp y hy).2)) fun s3 r hs3 e3 t3 => ?_
      refine (out_smul hs3 t3 (((hdx.ext e1).ext e2).ext e3)).congr (fun y hy => ?_)
      simp only [factor, real_lit]; push_cast; rw [pow_two]; ring
  | atan =>
    simp only [dFn, Option.some.injEq] at hm; subst hm
    have hp : ∀ y, D y → a y * a y + 1 ≠ 0 := fun y _ => by nlinarith [mul_self_nonneg (a y)]
    cases hv : valueOf s x with
    | none =>
      simp only [hv]
      refine out_bind (out_sqPlusOne hs hx) fun s1 p hs1 e1 t1 => ?_
      refine (out_div hs1 (hdx.ext e1) t1 hp).congr (fun y _ => ?_)
      simp only [factor]; rw [pow_two, add_comm]; ring
    | some c =>
      simp only [hv]
      refine out_bind (out_val hs _) fun s1 p hs1 e1 t1 => ?_
      refine out_bind (out_sqPlusOne hs1 (hx.ext e1)) fun s2 q hs2 e2 t2 => ?_
      refine out_bind (out_div hs2 (t1.ext e2) t2 hp) fun s3 r hs3 e3 t3 => ?_
      refine (out_smul hs3 t3 (((hdx.ext e1).ext e2).ext e3)).congr (fun y hy => ?_)
      simp only [factor, real_lit]; push_cast; rw [pow_two, add_comm]
  | unitStep => simp [dFn] at hm
  | ramp =>
    simp only [dFn, Option.some.injEq] at hm; subst hm
    refine out_bind (out_fn .unitStep (by decide) hs hx) fun s1 p hs1 e1 t1 => ?_
    exact (out_mul hs1 t1 (hdx.ext e1)).congr (fun y _ => by simp [factor, realNum])

end Current.Fncas
