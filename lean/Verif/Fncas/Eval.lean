import Mathlib.Data.Finset.Card
import Mathlib.Data.Finset.Range
import Verif.Fncas.Node

/-!
# fncas: what is recorded is what is evaluated (C73)

The specification is the ordinary expression tree `Expr` with its ordinary meaning `Expr.eval`. `Denotes s i e`
says that the node `i` of the recorded store unfolds to the expression `e`.
-/

namespace Current.Fncas

/-- An expression, the specification of what the user's function computes. -/
inductive Expr (α : Type) where
  | var (v : Nat)
  | val (c : α)
  | op (o : Op) (a b : Expr α)
  | fn (f : Fn) (a : Expr α)

variable {α : Type}

/-- The value of an expression at the point `x`. -/
def Expr.eval (N : Num α) (x : Nat → α) : Expr α → α
  | .var v => x v
  | .val c => c
  | .op o a b => N.op o (a.eval N x) (b.eval N x)
  | .fn f a => N.fn f (a.eval N x)

/-- Only variables `x[0] … x[n-1]` occur. -/
def Expr.VarsBelow (n : Nat) : Expr α → Prop
  | .var v => v < n
  | .val _ => True
  | .op _ a b => a.VarsBelow n ∧ b.VarsBelow n
  | .fn _ a => a.VarsBelow n

/-- The number of nodes of the expression as a tree. -/
def Expr.size : Expr α → Nat
  | .var _ => 1
  | .val _ => 1
  | .op _ a b => a.size + b.size + 1
  | .fn _ a => a.size + 1

/-- Node `i` of the store unfolds to the expression `e`. -/
inductive Denotes (s : Store α) : Nat → Expr α → Prop where
  | var {i v} : s.nodes[i]? = some (.var v) → Denotes s i (.var v)
  | val {i c} : s.nodes[i]? = some (.val c) → Denotes s i (.val c)
  | op {i o l r a b} : s.nodes[i]? = some (.op o l r) → Denotes s l a → Denotes s r b → Denotes s i (.op o a b)
  | fn {i f x a} : s.nodes[i]? = some (.fn f x) → Denotes s x a → Denotes s i (.fn f a)

theorem Denotes.lt {s : Store α} {i : Nat} {e : Expr α} (h : Denotes s i e) : i < s.nodes.length := by
  cases h with
  | var h => exact (List.getElem?_eq_some_iff.1 h).1
  | val h => exact (List.getElem?_eq_some_iff.1 h).1
  | op h _ _ => exact (List.getElem?_eq_some_iff.1 h).1
  | fn h _ => exact (List.getElem?_eq_some_iff.1 h).1

/-- A node denotes at most one expression. -/
theorem Denotes.unique {s : Store α} {i : Nat} {e e' : Expr α} (h : Denotes s i e) (h' : Denotes s i e') : e = e' := by
  induction h generalizing e' with
  | var h => cases h' <;> simp_all
  | val h => cases h' <;> simp_all
  | op h _ _ iha ihb =>
    cases h' with
    | op h2 ha hb =>
      rw [h] at h2; injection h2 with h2; injection h2 with h1 h2 h3; subst h1 h2 h3
      rw [iha ha, ihb hb]
    | var h2 => simp_all
    | val h2 => simp_all
    | fn h2 => simp_all
  | fn h _ iha =>
    cases h' with
    | fn h2 ha =>
      rw [h] at h2; injection h2 with h2; injection h2 with h1 h2; subst h1 h2
      rw [iha ha]
    | var h2 => simp_all
    | val h2 => simp_all
    | op h2 => simp_all

/-- Every computed value in the cache is the value of its node at `x`. -/
def Cache.For (N : Num α) (s : Store α) (x : Nat → α) (c : Cache α) : Prop :=
  ∀ i e, c.done i = true → Denotes s i e → c.value i = e.eval N x

/-- The number of nodes not yet computed. -/
def todo (s : Store α) (c : Cache α) : Nat :=
  ((Finset.range s.nodes.length).filter (fun i => c.done i = false)).card

theorem todo_put {s : Store α} {c : Cache α} {i : Nat} (v : α) (hi : i < s.nodes.length) (hc : c.done i = false) :
    todo s (c.put i v) + 1 = todo s c := by
  have e : (Finset.range s.nodes.length).filter (fun j => (c.put i v).done j = false)
      = ((Finset.range s.nodes.length).filter (fun j => c.done j = false)).erase i := by
    ext j
    simp only [Finset.mem_filter, Finset.mem_erase, Finset.mem_range, Cache.put]
    by_cases hj : j = i
    · simp [hj]
    · simp [hj]
  have hm : i ∈ (Finset.range s.nodes.length).filter (fun j => c.done j = false) := by
    simp [hi, hc]
  unfold todo
  rw [e, Finset.card_erase_of_mem hm]
  have : 0 < ((Finset.range s.nodes.length).filter (fun j => c.done j = false)).card := Finset.card_pos.2 ⟨i, hm⟩
  omega

theorem For_put {N : Num α} {s : Store α} {x : Nat → α} {c : Cache α} {i : Nat} {e : Expr α} {v : α}
    (h : c.For N s x) (hd : Denotes s i e) (hv : v = e.eval N x) : (c.put i v).For N s x := by
  intro j e' hj hd'
  by_cases hji : j = i
  · subst hji
    rw [hd'.unique hd]; simpa [Cache.put] using hv
  · simp only [Cache.put, hji, if_false] at hj ⊢
    exact h j e' hj hd'

/-- What processing one `visit i` achieves. -/
structure Visited (N : Num α) (s : Store α) (n : Nat) (x : Nat → α) (i : Nat) (e : Expr α) (c c' : Cache α)
    (k : Nat) : Prop where
  run : ∀ f rest, evalLoop N s n x (k + f) c (.visit i :: rest) = evalLoop N s n x f c' rest
  good : c'.For N s x
  here : c'.done i = true
  mono : ∀ j, c.done j = true → c'.done j = true
  added : ∀ j, c'.done j = true → c.done j = true ∨ ∃ e', Denotes s j e' ∧ e'.size ≤ e.size
  cost : k + 3 * todo s c' ≤ 1 + 3 * todo s c

theorem Expr.size_pos (e : Expr α) : 0 < e.size := by cases e <;> simp [Expr.size]

theorem visited_of_done {N : Num α} {s : Store α} {n : Nat} {x : Nat → α} {i : Nat} {e : Expr α} {c : Cache α}
    (hg : c.For N s x) (hd : c.done i = true) : Visited N s n x i e c c 1 :=
  ⟨fun f rest => by rw [show 1 + f = f + 1 from by omega]; simp [evalLoop, evalStep, hd],
    hg, hd, fun _ h => h, fun _ h => .inl h, by omega⟩

theorem visited_leaf {N : Num α} {s : Store α} {n : Nat} {x : Nat → α} {i : Nat} {e : Expr α} {c : Cache α} {v : α}
    (hg : c.For N s x) (hd : c.done i = false) (hden : Denotes s i e) (hv : v = e.eval N x)
    (hstep : evalStep N s n x c (.visit i) = some (c.put i v, [])) : Visited N s n x i e c (c.put i v) 1 where
  run f rest := by rw [show 1 + f = f + 1 from by omega]; simp [evalLoop, hstep]
  good := For_put hg hden hv
  here := by simp [Cache.put]
  mono j h := by simp only [Cache.put]; split <;> simp_all
  added j h := by
    by_cases hj : j = i
    · subst hj; exact .inr ⟨e, hden, Nat.le_refl _⟩
    · simp only [Cache.put, hj, if_false] at h; exact .inl h
  cost := by have := todo_put v hden.lt hd; omega

theorem visit_ok (N : Num α) (s : Store α) (n : Nat) (x : Nat → α) (e : Expr α) :
    ∀ i c, Denotes s i e → e.VarsBelow n → c.For N s x → ∃ k c', Visited N s n x i e c c' k := by
  induction e with
  | var v =>
    intro i c hden hv hg
    by_cases hc : c.done i = true
    · exact ⟨1, c, visited_of_done hg hc⟩
    · have hc' : c.done i = false := by simpa using hc
      have hn : s.nodes[i]? = some (.var v) := by cases hden; assumption
      refine ⟨1, _, visited_leaf (v := x v) hg hc' hden rfl ?_⟩
      have hv' : v < n := hv
      simp [evalStep, hc', hn, hv']
  | val k =>
    intro i c hden hv hg
    by_cases hc : c.done i = true
    · exact ⟨1, c, visited_of_done hg hc⟩
    · have hc' : c.done i = false := by simpa using hc
      have hn : s.nodes[i]? = some (.val k) := by cases hden; assumption
      refine ⟨1, _, visited_leaf (v := k) hg hc' hden rfl ?_⟩
      simp [evalStep, hc', hn]
  | op o a b iha ihb =>
    intro i c hden hv hg
    by_cases hc : c.done i = true
    · exact ⟨1, c, visited_of_done hg hc⟩
    have hc' : c.done i = false := by simpa using hc
    obtain ⟨l, r, hn, ha, hb⟩ : ∃ l r, s.nodes[i]? = some (.op o l r) ∧ Denotes s l a ∧ Denotes s r b := by
      cases hden with | op h1 h2 h3 => exact ⟨_, _, h1, h2, h3⟩
    obtain ⟨k1, c1, v1⟩ := ihb r c hb hv.2 hg
    obtain ⟨k2, c2, v2⟩ := iha l c1 ha hv.1 v1.good
    have hi2 : c2.done i = false := by
      rw [← Bool.not_eq_true]
      intro h
      rcases v2.added i h with h | ⟨e', he, hle⟩
      · rcases v1.added i h with h | ⟨e', he, hle⟩
        · exact hc h
        · have := he.unique hden; subst this; simp only [Expr.size] at hle; omega
      · have := he.unique hden; subst this; simp only [Expr.size] at hle; omega
    refine ⟨k1 + k2 + 2, c2.put i (N.op o (c2.value l) (c2.value r)), ?_, ?_, ?_, ?_, ?_, ?_⟩
    · intro f rest
      rw [show k1 + k2 + 2 + f = (k1 + (k2 + (1 + f))) + 1 from by omega]
      simp only [evalLoop, evalStep, hc', hn, Bool.false_eq_true, if_false, List.cons_append, List.nil_append]
      rw [v1.run, v2.run, show 1 + f = f + 1 from by omega]
      simp [evalLoop, evalStep, hn]
    · refine For_put v2.good hden ?_
      rw [v2.good l a v2.here ha, v2.good r b (v2.mono r v1.here) hb]; rfl
    · simp [Cache.put]
    · intro j h
      have := v2.mono j (v1.mono j h)
      simp only [Cache.put]; split <;> simp_all
    · intro j h
      by_cases hj : j = i
      · subst hj; exact .inr ⟨_, hden, Nat.le_refl _⟩
      · simp only [Cache.put, hj, if_false] at h
        rcases v2.added j h with h | ⟨e', he, hle⟩
        · rcases v1.added j h with h | ⟨e', he, hle⟩
          · exact .inl h
          · exact .inr ⟨e', he, by simp only [Expr.size]; omega⟩
        · exact .inr ⟨e', he, by simp only [Expr.size]; omega⟩
    · have := todo_put (N.op o (c2.value l) (c2.value r)) hden.lt hi2
      have h1 := v1.cost
      have h2 := v2.cost
      omega
  | fn fu a iha =>
    intro i c hden hv hg
    by_cases hc : c.done i = true
    · exact ⟨1, c, visited_of_done hg hc⟩
    have hc' : c.done i = false := by simpa using hc
    obtain ⟨l, hn, ha⟩ : ∃ l, s.nodes[i]? = some (.fn fu l) ∧ Denotes s l a := by
      cases hden with | fn h1 h2 => exact ⟨_, h1, h2⟩
    obtain ⟨k2, c2, v2⟩ := iha l c ha hv hg
    have hi2 : c2.done i = false := by
      rw [← Bool.not_eq_true]
      intro h
      rcases v2.added i h with h | ⟨e', he, hle⟩
      · exact hc h
      · have := he.unique hden; subst this; simp only [Expr.size] at hle; omega
    refine ⟨k2 + 2, c2.put i (N.fn fu (c2.value l)), ?_, ?_, ?_, ?_, ?_, ?_⟩
    · intro f rest
      rw [show k2 + 2 + f = (k2 + (1 + f)) + 1 from by omega]
      simp only [evalLoop, evalStep, hc', hn, Bool.false_eq_true, if_false, List.cons_append, List.nil_append]
      rw [v2.run, show 1 + f = f + 1 from by omega]
      simp [evalLoop, evalStep, hn]
    · refine For_put v2.good hden ?_
      rw [v2.good l a v2.here ha]; rfl
    · simp [Cache.put]
    · intro j h
      have := v2.mono j h
      simp only [Cache.put]; split <;> simp_all
    · intro j h
      by_cases hj : j = i
      · subst hj; exact .inr ⟨_, hden, Nat.le_refl _⟩
      · simp only [Cache.put, hj, if_false] at h
        rcases v2.added j h with h | ⟨e', he, hle⟩
        · exact .inl h
        · exact .inr ⟨e', he, by simp only [Expr.size]; omega⟩
    · have := todo_put (N.fn fu (c2.value l)) hden.lt hi2
      have h2 := v2.cost
      omega

theorem todo_le (s : Store α) (c : Cache α) : todo s c ≤ s.nodes.length := by
  unfold todo
  exact le_trans (Finset.card_filter_le _ _) (by simp)

/-- **C73 (evaluation).** Whatever values earlier evaluations left in the cache, evaluating a recorded
expression at `x` gives the value of that expression at `x`, for every interpretation of the operations, and
within a number of steps linear in the number of recorded nodes, however much the expression shares
subexpressions. -/
theorem evaluation_is_the_expression (N : Num α) (s : Store α) (n : Nat) (x : Nat → α) (stale : Cache α)
    {i : Nat} {e : Expr α} (h : Denotes s i e) (hv : e.VarsBelow n) :
    ∃ k, k ≤ 3 * s.nodes.length + 1 ∧ ∀ fuel, k ≤ fuel →
      ∃ c', evalNode N s n x fuel false stale i = some (some (e.eval N x, c')) ∧ c'.For N s x := by
  obtain ⟨k, c', v⟩ := visit_ok N s n x e i stale.invalidate h hv
    (by intro j e' hj; simp [Cache.invalidate] at hj)
  refine ⟨k, ?_, fun fuel hf => ⟨c', ?_, v.good⟩⟩
  · have := v.cost
    have := todo_le s stale.invalidate
    omega
  · have := v.run (fuel - k) []
    rw [show k + (fuel - k) = fuel from by omega] at this
    unfold evalNode
    simp only [Bool.false_eq_true, if_false]
    rw [this]
    cases hz : fuel - k <;> simp [evalLoop, v.here, v.good i e v.here h]

/-- **C73 (evaluation, with the cache).** The same with a cache that is valid for the point `x`. -/
theorem evaluation_reusing_the_cache (N : Num α) (s : Store α) (n : Nat) (x : Nat → α) (c : Cache α)
    {i : Nat} {e : Expr α} (h : Denotes s i e) (hv : e.VarsBelow n) (hc : c.For N s x) :
    ∃ k, k ≤ 3 * s.nodes.length + 1 ∧ ∀ fuel, k ≤ fuel →
      ∃ c', evalNode N s n x fuel true c i = some (some (e.eval N x, c')) ∧ c'.For N s x := by
  obtain ⟨k, c', v⟩ := visit_ok N s n x e i c h hv hc
  refine ⟨k, ?_, fun fuel hf => ⟨c', ?_, v.good⟩⟩
  · have := v.cost
    have := todo_le s c
    omega
  · have := v.run (fuel - k) []
    rw [show k + (fuel - k) = fuel from by omega] at this
    unfold evalNode
    simp only [if_true]
    rw [this]
    cases hz : fuel - k <;> simp [evalLoop, v.here, v.good i e v.here h]

/-! ## Recording -/

/-- Everything recorded in `s` is still there, unchanged, in `s'`. -/
def Ext (s s' : Store α) : Prop := ∀ (i : Nat) (n : Node α), s.nodes[i]? = some n → s'.nodes[i]? = some n

theorem Ext.refl (s : Store α) : Ext s s := fun _ _ h => h
theorem Ext.trans {s s' s'' : Store α} (h : Ext s s') (h' : Ext s' s'') : Ext s s'' := fun i n hi => h' i n (h i n hi)

theorem Ext.denotes {s s' : Store α} (h : Ext s s') {i : Nat} {e : Expr α} (hd : Denotes s i e) : Denotes s' i e := by
  induction hd with
  | var h1 => exact .var (h _ _ h1)
  | val h1 => exact .val (h _ _ h1)
  | op h1 _ _ iha ihb => exact .op (h _ _ h1) iha ihb
  | fn h1 _ iha => exact .fn (h _ _ h1) iha

/-- The map of shared constants points at nodes holding these constants. -/
def Store.Good (s : Store α) : Prop := ∀ p ∈ s.consts, s.nodes[p.2]? = some (.val p.1)

/-- The keys of the map of constants are compared by equality (true of real numbers; `+0.0 == -0.0` makes it
false of IEEE doubles, see `signed_zero_rewrites_an_earlier_expression`). -/
def Num.Exact (N : Num α) : Prop := ∀ a b, N.eq a b = true ↔ a = b

theorem ext_alloc (n : Node α) (s : Store α) : Ext s (alloc n s).1 := by
  intro i m h
  simp only [alloc]
  rw [List.getElem?_append_left (List.getElem?_eq_some_iff.1 h).1]; exact h

theorem good_alloc {n : Node α} {s : Store α} (h : s.Good) : (alloc n s).1.Good := by
  intro p hp
  exact ext_alloc n s _ _ (h p hp)

theorem alloc_get (n : Node α) (s : Store α) : (alloc n s).1.nodes[(alloc n s).2]? = some n := by
  simp [alloc]

theorem mkVal_facts {N : Num α} (hN : N.Exact) {s : Store α} (h : s.Good) (c : α) :
    Ext s (mkVal N c s).1 ∧ (mkVal N c s).1.Good ∧ (mkVal N c s).1.nodes[(mkVal N c s).2]? = some (.val c)
      ∧ (mkVal N c s).1.df = s.df ∧ (mkVal N c s).1.dim = s.dim := by
  unfold mkVal
  cases hf : s.consts.find? (fun p => N.eq p.1 c) with
  | some p =>
    have h1 := List.mem_of_find?_eq_some hf
    have h2 : p.1 = c := (hN _ _).1 (by simpa using List.find?_some hf)
    have h3 := h p h1
    rw [h2] at h3
    have e : s.nodes.set p.2 (.val c) = s.nodes := by
      obtain ⟨hl, he⟩ := List.getElem?_eq_some_iff.1 h3
      rw [← he]; exact List.set_getElem_self hl
    dsimp only
    rw [e]
    exact ⟨Ext.refl _, h, h3, rfl, rfl⟩
  | none =>
    dsimp only
    refine ⟨ext_alloc _ s, ?_, by simp, rfl, rfl⟩
    intro p hp
    rcases List.mem_append.1 hp with hp | hp
    · exact ext_alloc (.val c) s _ _ (h p hp)
    · simp at hp; subst hp; simp

/-- **C73 (recording).** Combining recorded expressions with an operator records the combined expression, and
leaves everything recorded before as it was. -/
theorem recording_an_operation (o : Op) {s : Store α} (hs : s.Good) {l r : Nat} {a b : Expr α}
    (ha : Denotes s l a) (hb : Denotes s r b) :
    (mkOp o l r s).1.Good ∧ Ext s (mkOp o l r s).1 ∧ Denotes (mkOp o l r s).1 (mkOp o l r s).2 (.op o a b) :=
  ⟨good_alloc hs, ext_alloc _ _, .op (alloc_get _ _) ((ext_alloc _ _).denotes ha) ((ext_alloc _ _).denotes hb)⟩

/-- **C73 (recording).** The same for applying a function. -/
theorem recording_a_function (f : Fn) {s : Store α} (hs : s.Good) {l : Nat} {a : Expr α} (ha : Denotes s l a) :
    (mkFn f l s).1.Good ∧ Ext s (mkFn f l s).1 ∧ Denotes (mkFn f l s).1 (mkFn f l s).2 (.fn f a) :=
  ⟨good_alloc hs, ext_alloc _ _, .fn (alloc_get _ _) ((ext_alloc _ _).denotes ha)⟩

/-- **C73 (recording).** The same for a constant. -/
theorem recording_a_constant {N : Num α} (hN : N.Exact) (c : α) {s : Store α} (hs : s.Good) :
    (mkVal N c s).1.Good ∧ Ext s (mkVal N c s).1 ∧ Denotes (mkVal N c s).1 (mkVal N c s).2 (.val c) :=
  have h := mkVal_facts hN hs c
  ⟨h.2.1, h.1, .val h.2.2.1⟩

/-- The unary minus records `0 - a`. -/
theorem recording_a_negation {N : Num α} (hN : N.Exact) {s : Store α} (hs : s.Good) {l : Nat} {a : Expr α}
    (ha : Denotes s l a) :
    (mkNeg N l s).1.Good ∧ Ext s (mkNeg N l s).1
      ∧ Denotes (mkNeg N l s).1 (mkNeg N l s).2 (.op .sub (.val (N.lit 0)) a) := by
  obtain ⟨h1, h2, h3⟩ := recording_a_constant hN (N.lit 0) hs
  obtain ⟨h4, h5, h6⟩ := recording_an_operation .sub h1 h3 (h2.denotes ha)
  exact ⟨h4, h2.trans h5, h6⟩

theorem mkVars_facts : ∀ n v (s : Store α), s.Good →
    (mkVars n v s).1.Good ∧ Ext s (mkVars n v s).1 ∧ (mkVars n v s).1.dim = s.dim ∧ (mkVars n v s).1.df = s.df ∧
    (mkVars n v s).2.length = n ∧
    ∀ j (hj : j < (mkVars n v s).2.length), Denotes (mkVars n v s).1 (mkVars n v s).2[j] (.var (v + j))
  | 0, v, s, h => ⟨h, Ext.refl _, rfl, rfl, rfl, fun j hj => by simp [mkVars] at hj⟩
  | n + 1, v, s, h => by
    obtain ⟨h1, h2, h3, h4, h5, h6⟩ := mkVars_facts n (v + 1) (mkVar v s).1 (good_alloc h)
    refine ⟨h1, (ext_alloc _ _).trans h2, h3, h4, by simp [mkVars, h5], ?_⟩
    intro j hj
    cases j with
    | zero => exact h2.denotes (.var (alloc_get _ _))
    | succ j =>
      have := h6 j (by simpa [mkVars] using hj)
      rw [show v + 1 + j = v + (j + 1) from by omega] at this
      exact this

theorem mkDefaults_facts : ∀ n (s : Store α), s.Good →
    (mkDefaults n s).Good ∧ Ext s (mkDefaults n s) ∧ (mkDefaults n s).dim = s.dim ∧ (mkDefaults n s).df = s.df
  | 0, s, h => ⟨h, Ext.refl _, rfl, rfl⟩
  | n + 1, s, h => by
    obtain ⟨h1, h2, h3, h4⟩ := mkDefaults_facts n (mkDefault s).1 (good_alloc h)
    exact ⟨h1, (ext_alloc _ _).trans h2, h3, h4⟩

/-- **C73 (the variables).** Constructing the vector of `dim` variables gives `x[0], …, x[dim-1]`. -/
theorem the_variables (dim : Nat) :
    (mkX (α := α) dim).1.Good ∧ (mkX (α := α) dim).1.dim = dim ∧ (∀ v i, (mkX (α := α) dim).1.df v i = none) ∧
    (mkX (α := α) dim).2.length = dim ∧
    ∀ j (hj : j < (mkX (α := α) dim).2.length), Denotes (mkX (α := α) dim).1 (mkX (α := α) dim).2[j] (.var j) := by
  obtain ⟨h1, h2, h3, h4⟩ := mkDefaults_facts dim (Store.fresh α dim) (by intro p hp; simp [Store.fresh] at hp)
  obtain ⟨g1, g2, g3, g4, g5, g6⟩ := mkVars_facts dim 0 _ h1
  refine ⟨g1, by rw [mkX, g3, h3]; rfl, ?_, g5, ?_⟩
  · intro v i; rw [mkX, g4, h4]; rfl
  · intro j hj; have := g6 j hj; rw [Nat.zero_add] at this; exact this

/-- Running the user's function on recorded terms, where the user's function is the expression `e` of the
variables `xs` (the user's intermediate results are not shared here; sharing is covered by
`recording_an_operation` being applied to the same node twice). -/
def record (N : Num α) (xs : List Nat) : Expr α → Build α
  | .var v => Build.ret (xs.getD v 0)
  | .val c => mkVal N c
  | .op o a b => (record N xs a).bind fun i => (record N xs b).bind fun j => mkOp o i j
  | .fn f a => (record N xs a).bind fun i => mkFn f i

theorem record_denotes {N : Num α} (hN : N.Exact) (xs : List Nat) (n : Nat) (hlen : n ≤ xs.length) (e : Expr α) :
    e.VarsBelow n → ∀ s : Store α, s.Good → (∀ j (hj : j < xs.length), Denotes s xs[j] (.var j)) →
      (record N xs e s).1.Good ∧ Ext s (record N xs e s).1 ∧ Denotes (record N xs e s).1 (record N xs e s).2 e := by
  induction e with
  | var v =>
    intro hv s hs hx
    have hv' : v < xs.length := Nat.lt_of_lt_of_le hv hlen
    refine ⟨hs, Ext.refl _, ?_⟩
    simp only [record, Build.ret, List.getD_eq_getElem?_getD, List.getElem?_eq_getElem hv', Option.getD_some]
    exact hx v hv'
  | val c => intro _ s hs _; exact recording_a_constant hN c hs
  | op o a b iha ihb =>
    intro hv s hs hx
    obtain ⟨h1, h2, h3⟩ := iha hv.1 s hs hx
    obtain ⟨g1, g2, g3⟩ := ihb hv.2 _ h1 (fun j hj => h2.denotes (hx j hj))
    obtain ⟨k1, k2, k3⟩ := recording_an_operation o g1 (g2.denotes h3) g3
    exact ⟨k1, (h2.trans g2).trans k2, k3⟩
  | fn f a iha =>
    intro hv s hs hx
    obtain ⟨h1, h2, h3⟩ := iha hv s hs hx
    obtain ⟨k1, k2, k3⟩ := recording_a_function f h1 h3
    exact ⟨k1, h2.trans k2, k3⟩

/-- **C73.** Recording the user's function of `dim` variables and evaluating the recording at any point gives
what the user's function gives at that point, whatever is in the cache. -/
theorem recorded_function_is_the_function {N : Num α} (hN : N.Exact) (dim : Nat) (e : Expr α) (he : e.VarsBelow dim)
    (x : Nat → α) (stale : Cache α) :
    let X := mkX (α := α) dim
    let r := record N X.2 e X.1
    ∃ k, k ≤ 3 * r.1.nodes.length + 1 ∧ ∀ fuel, k ≤ fuel →
      ∃ c', evalNode N r.1 dim x fuel false stale r.2 = some (some (e.eval N x, c')) := by
  intro X r
  obtain ⟨h1, h2, h3, h4, h5⟩ := the_variables (α := α) dim
  obtain ⟨g1, g2, g3⟩ := record_denotes hN X.2 dim (Nat.le_of_eq h4.symm) e he X.1 h1 h5
  obtain ⟨k, hk, hf⟩ := evaluation_is_the_expression N r.1 dim x stale g3 he
  exact ⟨k, hk, fun fuel hle => (hf fuel hle).imp fun _ h => h.1⟩

/-- **C73 (finding).** A default-constructed term is not zero and not an error: it is the variable `x[0]`. -/
theorem default_term_is_x0 (s : Store α) : Denotes (mkDefault s).1 (mkDefault s).2 (.var 0) := .var (alloc_get _ _)

/-! ### Numbers with two zeros -/

/-- A fragment of IEEE arithmetic: signed zeros, infinities and one finite number. -/
inductive Signed | pz | nz | one | pinf | ninf
  deriving DecidableEq, Repr

/-- Just enough of IEEE arithmetic for the example: `1 / ±0 = ±inf`, and `+0 == -0`. -/
def signedNum : Num Signed where
  op
    | .div, .one, .pz => .pinf
    | .div, .one, .nz => .ninf
    | _, _, _ => .one
  fn _ a := a
  lit n := if n = 0 then .pz else .one
  half := .one
  eq a b := a = b ∨ (a = .pz ∧ b = .nz) ∨ (a = .nz ∧ b = .pz)

/-- **C73 (finding).** With IEEE numbers the constants `+0.0` and `-0.0` share a node and the last one written
wins: mentioning `-0.0` after `1 / 0.0` was recorded changes the recorded `1 / 0.0` from `+inf` to `-inf`. -/
theorem signed_zero_rewrites_an_earlier_expression :
    ∃ (s s' : Store Signed) (i : Nat) (c : Cache Signed),
      s' = (mkVal signedNum .nz s).1 ∧
      (evalNode signedNum s 1 (fun _ => .one) 20 false c i).map (Option.map Prod.fst) = some (some .pinf) ∧
      (evalNode signedNum s' 1 (fun _ => .one) 20 false c i).map (Option.map Prod.fst) = some (some .ninf) := by
  refine ⟨((mkVal signedNum .one).bind fun a => (mkVal signedNum .pz).bind fun b => mkOp .div a b)
    (Store.fresh _ 1) |>.1, _, 2, ⟨fun _ => false, fun _ => .one⟩, rfl, by decide, by decide⟩

end Current.Fncas
