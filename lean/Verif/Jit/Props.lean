import Verif.Jit.Body
/-!
C97: the compiled function returns what the expression is worth; the compiled gradient writes what its components are worth.
-/
namespace Current.Jit
open Current.Fncas

variable {N : Num UInt64} {env : Env} {L : Layout} {X : Nat → UInt64} {s0 : State} {S : Store UInt64} {dim : Nat}

/-- The number of nodes not marked yet. -/
def left (S : Store UInt64) (g : Gen) : Nat := ((Finset.range S.nodes.length).filter (fun i => g.computed i = false)).card

theorem left_mark {g g' : Gen} {i : Nat} (hi : i < S.nodes.length) (hc : g.computed i = false)
    (hg : g'.computed = fun j => if j = i then true else g.computed j) : left S g' + 1 = left S g := by
  have e : (Finset.range S.nodes.length).filter (fun j => g'.computed j = false)
      = ((Finset.range S.nodes.length).filter (fun j => g.computed j = false)).erase i := by
    ext j
    simp only [Finset.mem_filter, Finset.mem_erase, Finset.mem_range, hg]
    by_cases hj : j = i
    · simp [hj]
    · simp [hj]
  have hm : i ∈ (Finset.range S.nodes.length).filter (fun j => g.computed j = false) := by simp [hi, hc]
  unfold left
  rw [e, Finset.card_erase_of_mem hm]
  have : 0 < ((Finset.range S.nodes.length).filter (fun j => g.computed j = false)).card := Finset.card_pos.2 ⟨i, hm⟩
  omega

theorem left_same {g g' : Gen} (h : g'.computed = g.computed) : left S g' = left S g := by unfold left; rw [h]

theorem left_le (S : Store UInt64) (g : Gen) : left S g ≤ S.nodes.length := by
  unfold left
  exact le_trans (Finset.card_filter_le _ _) (by simp)

/-- The heap holds the values of the nodes in `D`. -/
def Holds (N : Num UInt64) (S : Store UInt64) (L : Layout) (X : Nat → UInt64) (dim : Nat) (D : Nat → Prop) (s : State) : Prop :=
  ∀ j, D j → ∀ e, Denotes S j e → s.mem (word L.hp (j + dim)) = e.eval N X

/-- What the code for a node does. -/
def Computes (N : Num UInt64) (env : Env) (S : Store UInt64) (L : Layout) (X : Nat → UInt64) (s0 : State) (dim : Nat) (D D' : Nat → Prop) (m : Nat) (code : List UInt8) : Prop :=
  Provided N env L X s0.mem → m + dim < L.h → ∀ s, Body env L s0 s → Holds N S L X dim D s →
    ∃ s', Runs N env code s s' ∧ Body env L s0 s' ∧ Holds N S L X dim D' s' ∧ ∀ k < dim, s'.mem (word L.hp k) = s.mem (word L.hp k)

/-- What generating code for a node does. -/
structure Compiled (N : Num UInt64) (env : Env) (S : Store UInt64) (L : Layout) (X : Nat → UInt64) (s0 : State) (dim : Nat) (i : Nat) (e : Expr UInt64) (D : Nat → Prop)
    (g g' : Gen) (D' : Nat → Prop) (code : List UInt8) (k : Nat) : Prop where
  run : ∀ f rest, genLoop S dim (k + f) g (.visit i :: rest) = genLoop S dim f g' rest
  emitted : g'.code = g.code ++ code
  mono : ∀ j, D j → D' j
  here : D' i
  added : ∀ j, D' j → D j ∨ ∃ e', Denotes S j e' ∧ e'.size ≤ e.size
  marked : ∀ j, g'.computed j = true → g.computed j = true ∨ D' j
  kept : ∀ j, g.computed j = true → g'.computed j = true
  marks : ∀ j, D' j → D j ∨ g'.computed j = true
  max1 : g.maxDim ≤ g'.maxDim
  max2 : i ≤ g'.maxDim
  cost : k + 3 * left S g' ≤ 1 + 3 * left S g
  computes : Computes N env S L X s0 dim D D' g'.maxDim code

theorem Holds.put (hP : Provided N env L X s0.mem) {D : Nat → Prop} {s : State} (h : Holds N S L X dim D s) {i : Nat} {e : Expr UInt64} (hi : Denotes S i e)
    (hb : i + dim < L.h) (hD : ∀ j, D j → j + dim < L.h) {v : UInt64} (hv : v = e.eval N X) :
    Holds N S L X dim (fun j => D j ∨ j = i) (s.setMem (word L.hp (i + dim)) v) := by
  intro j hj e' he'
  have hsm := hP.hSmall
  by_cases hji : j = i
  · subst hji
    simp only [State.setMem, if_true]
    rw [hv, he'.unique hi]
  · have hDj : D j := by
      rcases hj with hj | hj
      · exact hj
      · exact absurd hj hji
    have : word L.hp (j + dim) ≠ word L.hp (i + dim) := by
      intro hc
      have := word_inj (by have := hD j hDj; omega) (by omega) hc
      omega
    simp only [State.setMem, if_neg this]
    exact h j hDj e' he'

theorem setMem_low (hP : Provided N env L X s0.mem) (s : State) {i : Nat} (hb : i + dim < L.h) (v : UInt64) (k : Nat) (hk : k < dim) :
    (s.setMem (word L.hp (i + dim)) v).mem (word L.hp k) = s.mem (word L.hp k) := by
  have hsm := hP.hSmall
  have : word L.hp k ≠ word L.hp (i + dim) := by
    intro hc
    have := word_inj (by omega) (by omega) hc
    omega
  simp only [State.setMem, if_neg this]

theorem compile_ok (e : Expr UInt64) : ∀ i g D, Denotes S i e → e.VarsBelow L.n →
    (∀ j, g.computed j = true → D j ∨ ∃ e', Denotes S j e' ∧ e.size < e'.size) → (∀ j, D j → j ≤ g.maxDim ∧ g.computed j = true) →
    ∃ k g' D' code, Compiled N env S L X s0 dim i e D g g' D' code k ∧ ∀ j, D' j → j ≤ g'.maxDim ∧ g'.computed j = true := by
  -- a node which is there already
  have hdone : ∀ (e : Expr UInt64) i (g : Gen) (D : Nat → Prop), Denotes S i e → (∀ j, g.computed j = true → D j ∨ ∃ e', Denotes S j e' ∧ e.size < e'.size) →
      (∀ j, D j → j ≤ g.maxDim ∧ g.computed j = true) → g.computed i = true →
      ∃ k g' D' code, Compiled N env S L X s0 dim i e D g g' D' code k ∧ ∀ j, D' j → j ≤ g'.maxDim ∧ g'.computed j = true := by
    intro e i g D hden hpend hD hc
    have hDi : D i := by
      rcases hpend i hc with h | ⟨e', he', hlt⟩
      · exact h
      · rw [he'.unique hden] at hlt; omega
    refine ⟨1, { g with maxDim := max g.maxDim i }, D, [], ?_, ?_⟩
    · refine ⟨?_, by simp, fun _ h => h, hDi, fun _ h => .inl h, fun _ h => .inl h, fun _ h => h, fun _ h => .inl h, Nat.le_max_left _ _, Nat.le_max_right _ _, ?_, ?_⟩
      · intro f rest
        rw [show 1 + f = f + 1 from by omega]
        simp [genLoop, genStep, hc]
      · have : left S ({ g with maxDim := max g.maxDim i } : Gen) = left S g := left_same rfl
        omega
      · intro _ _ s hs hh
        exact ⟨s, .nil s, hs, hh, fun _ _ => rfl⟩
    · intro j hj
      exact ⟨Nat.le_trans (hD j hj).1 (Nat.le_max_left _ _), (hD j hj).2⟩
  -- a leaf
  have hleaf : ∀ (e : Expr UInt64) i (g : Gen) (D : Nat → Prop) (c : List UInt8), Denotes S i e → (∀ j, D j → j ≤ g.maxDim ∧ g.computed j = true) → g.computed i = false →
      genStep S dim g (.visit i) = some (({ g with maxDim := max g.maxDim i, computed := fun j => if j = i then true else g.computed j } : Gen).emit c, []) →
      (Provided N env L X s0.mem → ∀ s, i + dim < L.h → Body env L s0 s → ∃ t, Runs N env c s (t.setMem (word L.hp (i + dim)) (e.eval N X)) ∧ Body env L s0 t ∧ t.mem = s.mem) →
      ∃ k g' D' code, Compiled N env S L X s0 dim i e D g g' D' code k ∧ ∀ j, D' j → j ≤ g'.maxDim ∧ g'.computed j = true := by
    intro e i g D c hden hD hc hstep hrun
    refine ⟨1, ({ g with maxDim := max g.maxDim i, computed := fun j => if j = i then true else g.computed j } : Gen).emit c, fun j => D j ∨ j = i, c, ⟨?_, rfl, fun _ h => .inl h, .inr rfl, ?_, ?_, ?_, ?_, Nat.le_max_left _ _, Nat.le_max_right _ _, ?_, ?_⟩, ?_⟩
    · intro f rest
      rw [show 1 + f = f + 1 from by omega]
      simp only [genLoop, hstep, List.nil_append]
    · rintro j (h | rfl)
      · exact .inl h
      · exact .inr ⟨e, hden, Nat.le_refl _⟩
    · intro j hj
      simp only [Gen.emit] at hj
      by_cases hji : j = i
      · exact .inr (.inr hji)
      · rw [if_neg hji] at hj; exact .inl hj
    · intro j hj
      simp only [Gen.emit]
      split
      · rfl
      · exact hj
    · rintro j (h | rfl)
      · exact .inl h
      · right; simp [Gen.emit]
    · have := left_mark (S := S) (g := g) (g' := ({ g with maxDim := max g.maxDim i, computed := fun j => if j = i then true else g.computed j } : Gen).emit c) hden.lt hc rfl
      omega
    · intro hP hm s hs hh
      have hm' : max g.maxDim i + dim < L.h := hm
      have hi : i + dim < L.h := by omega
      obtain ⟨t, h1, h2, h3⟩ := hrun hP s hi hs
      refine ⟨_, h1, h2.put hP hi _, ?_, ?_⟩
      · refine Holds.put hP ?_ hden hi ?_ rfl
        · intro j hj e' he'; rw [h3]; exact hh j hj e' he'
        · intro j hj; have := (hD j hj).1; omega
      · intro k hk
        rw [setMem_low hP t hi _ k hk, h3]
    · rintro j (h | rfl)
      · refine ⟨Nat.le_trans (hD j h).1 (Nat.le_max_left _ _), ?_⟩
        simp only [Gen.emit]
        split
        · rfl
        · exact (hD j h).2
      · exact ⟨Nat.le_max_right _ _, by simp [Gen.emit]⟩
  induction e with
  | var v =>
    intro i g D hden hv hpend hD
    by_cases hc : g.computed i = true
    · exact hdone _ i g D hden hpend hD hc
    · have hc' : g.computed i = false := by simpa using hc
      have hn : S.nodes[i]? = some (.var v) := by cases hden; assumption
      refine hleaf _ i g D (loadRdi v ++ storeRbx (i + dim)) hden hD hc' (by simp [genStep, hc', hn]) ?_
      intro hP s hi hs
      have hv' : v < L.n := hv
      refine ⟨s.setXmm 0 (X v), ?_, hs.setXmm _, rfl⟩
      have h1 := run_input (N := N) hP hs.rdi hv'
      rw [hs.input hP hv'] at h1
      exact h1.append (run_store (N := N) hP (s := s.setXmm 0 (X v)) hs.rbx hi)
  | val c =>
    intro i g D hden hv hpend hD
    by_cases hc : g.computed i = true
    · exact hdone _ i g D hden hpend hD hc
    · have hc' : g.computed i = false := by simpa using hc
      have hn : S.nodes[i]? = some (.val c) := by cases hden; assumption
      refine hleaf _ i g D (immToRbx (i + dim) c) hden hD hc' (by simp [genStep, hc', hn]) ?_
      intro hP s hi hs
      exact ⟨s.setReg rax c, run_imm hP hs.rbx hi c, hs.setRax c, rfl⟩
  | op o a b iha ihb =>
    intro i g D hden hv hpend hD
    by_cases hc : g.computed i = true
    · exact hdone _ i g D hden hpend hD hc
    have hc' : g.computed i = false := by simpa using hc
    obtain ⟨l, r, hn, ha, hb⟩ : ∃ l r, S.nodes[i]? = some (.op o l r) ∧ Denotes S l a ∧ Denotes S r b := by
      cases hden with | op h1 h2 h3 => exact ⟨_, _, h1, h2, h3⟩
    let g0 : Gen := { g with maxDim := max g.maxDim i, computed := fun j => if j = i then true else g.computed j }
    have hsz : (Expr.op o a b).size = a.size + b.size + 1 := rfl
    obtain ⟨k1, g1, D1, c1, v1, b1⟩ := ihb r g0 D hb hv.2 (by
        intro j hj
        by_cases hji : j = i
        · subst hji; exact .inr ⟨_, hden, by omega⟩
        · simp only [g0, if_neg hji] at hj
          rcases hpend j hj with h | ⟨e', he', hlt⟩
          · exact .inl h
          · exact .inr ⟨e', he', by omega⟩)
      (by
        intro j hj
        refine ⟨Nat.le_trans (hD j hj).1 (Nat.le_max_left _ _), ?_⟩
        simp only [g0]; split
        · rfl
        · exact (hD j hj).2)
    obtain ⟨k2, g2, D2, c2, v2, b2⟩ := iha l g1 D1 ha hv.1 (by
        intro j hj
        rcases v1.marked j hj with h | h
        · by_cases hji : j = i
          · subst hji; exact .inr ⟨_, hden, by omega⟩
          · simp only [g0, if_neg hji] at h
            rcases hpend j h with h | ⟨e', he', hlt⟩
            · exact .inl (v1.mono j h)
            · exact .inr ⟨e', he', by omega⟩
        · exact .inl h) b1
    have hmaxi : i ≤ g2.maxDim := Nat.le_trans (Nat.le_trans (Nat.le_max_right g.maxDim i) v1.max1) v2.max1
    have hmaxg : g.maxDim ≤ g2.maxDim := Nat.le_trans (Nat.le_trans (Nat.le_max_left g.maxDim i) v1.max1) v2.max1
    have hcomp : g2.computed i = true := v2.kept i (v1.kept i (by simp [g0]))
    let c3 := loadRbx (l + dim) ++ opRbx o (r + dim) ++ storeRbx (i + dim)
    refine ⟨k1 + k2 + 2, g2.emit c3, fun j => D2 j ∨ j = i, c1 ++ c2 ++ c3, ⟨?_, ?_, ?_, .inr rfl, ?_, ?_, ?_, ?_, hmaxg, hmaxi, ?_, ?_⟩, ?_⟩
    · intro f rest
      rw [show k1 + k2 + 2 + f = (k1 + (k2 + (1 + f))) + 1 from by omega]
      simp only [genLoop, genStep, hc', hn, Bool.false_eq_true, if_false, List.cons_append, List.nil_append]
      rw [v1.run, v2.run, show 1 + f = f + 1 from by omega]
      simp only [genLoop, genStep, hn, List.nil_append]
      rfl
    · simp only [Gen.emit, v2.emitted, v1.emitted, g0, List.append_assoc]
    · intro j hj; exact .inl (v2.mono j (v1.mono j hj))
    · rintro j (h | rfl)
      · rcases v2.added j h with h | ⟨e', he', hle⟩
        · rcases v1.added j h with h | ⟨e', he', hle⟩
          · exact .inl h
          · exact .inr ⟨e', he', by omega⟩
        · exact .inr ⟨e', he', by omega⟩
      · exact .inr ⟨_, hden, Nat.le_refl _⟩
    · intro j hj
      rcases v2.marked j hj with h | h
      · rcases v1.marked j h with h | h
        · by_cases hji : j = i
          · exact .inr (.inr hji)
          · simp only [g0, if_neg hji] at h; exact .inl h
        · exact .inr (.inl (v2.mono j h))
      · exact .inr (.inl h)
    · intro j hj
      refine v2.kept j (v1.kept j ?_)
      simp only [g0]; split
      · rfl
      · exact hj
    · rintro j (h | rfl)
      · exact .inr (b2 j h).2
      · exact .inr hcomp
    · have h0 := left_mark (S := S) (g := g) (g' := g0) hden.lt hc' rfl
      have h1 := v1.cost
      have h2 := v2.cost
      have h3 : left S (g2.emit c3) = left S g2 := left_same rfl
      omega
    · intro hP hm s hs hh
      have hm' : g2.maxDim + dim < L.h := hm
      have hl : l + dim < L.h := by have := (b2 l v2.here).1; omega
      have hr : r + dim < L.h := by have := (b2 r (v2.mono r v1.here)).1; omega
      have hi : i + dim < L.h := by omega
      obtain ⟨s1, p1, q1, r1, f1⟩ := v1.computes hP (by have := v2.max1; omega) s hs hh
      obtain ⟨s2, p2, q2, r2, f2⟩ := v2.computes hP hm' s1 q1 r1
      have e1 : s2.mem (word L.hp (l + dim)) = a.eval N X := r2 l v2.here a ha
      have e2 : s2.mem (word L.hp (r + dim)) = b.eval N X := r2 r (v2.mono r v1.here) b hb
      let s3 := s2.setXmm 0 (a.eval N X)
      have p3 : Runs N env (loadRbx (l + dim)) s2 s3 := by
        have := run_load (N := N) hP q2.rbx hl
        rw [e1] at this; exact this
      let s4 := s3.setXmm 0 (N.op o (a.eval N X) (b.eval N X))
      have p4 : Runs N env (opRbx o (r + dim)) s3 s4 := by
        have := run_op (N := N) hP (s := s3) q2.rbx o hr
        rw [show s3.mem (word L.hp (r + dim)) = b.eval N X from e2] at this
        exact this
      have q4 : Body env L s0 s4 := (q2.setXmm _).setXmm _
      have p5 := run_store (N := N) hP q4.rbx hi
      refine ⟨_, (p1.append p2).append ((p3.append p4).append p5), q4.put hP hi _, ?_, ?_⟩
      · refine Holds.put hP (s := s4) r2 hden hi ?_ rfl
        intro j hj; have := (b2 j hj).1; omega
      · intro k hk
        rw [setMem_low hP s4 hi _ k hk]
        show s2.mem _ = _
        rw [f2 k hk, f1 k hk]
    · rintro j (h | rfl)
      · exact b2 j h
      · exact ⟨hmaxi, hcomp⟩
  | fn fu a iha =>
    intro i g D hden hv hpend hD
    by_cases hc : g.computed i = true
    · exact hdone _ i g D hden hpend hD hc
    have hc' : g.computed i = false := by simpa using hc
    obtain ⟨l, hn, ha⟩ : ∃ l, S.nodes[i]? = some (.fn fu l) ∧ Denotes S l a := by
      cases hden with | fn h1 h2 => exact ⟨_, h1, h2⟩
    let g0 : Gen := { g with maxDim := max g.maxDim i, computed := fun j => if j = i then true else g.computed j }
    have hsz : (Expr.fn fu a).size = a.size + 1 := rfl
    obtain ⟨k2, g2, D2, c2, v2, b2⟩ := iha l g0 D ha hv (by
        intro j hj
        by_cases hji : j = i
        · subst hji; exact .inr ⟨_, hden, by omega⟩
        · simp only [g0, if_neg hji] at hj
          rcases hpend j hj with h | ⟨e', he', hlt⟩
          · exact .inl h
          · exact .inr ⟨e', he', by omega⟩)
      (by
        intro j hj
        refine ⟨Nat.le_trans (hD j hj).1 (Nat.le_max_left _ _), ?_⟩
        simp only [g0]; split
        · rfl
        · exact (hD j hj).2)
    have hmaxi : i ≤ g2.maxDim := Nat.le_trans (Nat.le_max_right g.maxDim i) v2.max1
    have hmaxg : g.maxDim ≤ g2.maxDim := Nat.le_trans (Nat.le_max_left g.maxDim i) v2.max1
    have hcomp : g2.computed i = true := v2.kept i (by simp [g0])
    let c3 := loadRbx (l + dim) ++ pushRdi ++ pushRdx ++ callIndex (fnIndex fu) ++ popRdx ++ popRdi ++ storeRbx (i + dim)
    refine ⟨k2 + 2, g2.emit c3, fun j => D2 j ∨ j = i, c2 ++ c3, ⟨?_, ?_, ?_, .inr rfl, ?_, ?_, ?_, ?_, hmaxg, hmaxi, ?_, ?_⟩, ?_⟩
    · intro f rest
      rw [show k2 + 2 + f = (k2 + (1 + f)) + 1 from by omega]
      simp only [genLoop, genStep, hc', hn, Bool.false_eq_true, if_false, List.cons_append, List.nil_append]
      rw [v2.run, show 1 + f = f + 1 from by omega]
      simp only [genLoop, genStep, hn, List.nil_append]
      rfl
    · simp only [Gen.emit, v2.emitted, g0, List.append_assoc]
    · intro j hj; exact .inl (v2.mono j hj)
    · rintro j (h | rfl)
      · rcases v2.added j h with h | ⟨e', he', hle⟩
        · exact .inl h
        · exact .inr ⟨e', he', by omega⟩
      · exact .inr ⟨_, hden, Nat.le_refl _⟩
    · intro j hj
      rcases v2.marked j hj with h | h
      · by_cases hji : j = i
        · exact .inr (.inr hji)
        · simp only [g0, if_neg hji] at h; exact .inl h
      · exact .inr (.inl h)
    · intro j hj
      refine v2.kept j ?_
      simp only [g0]; split
      · rfl
      · exact hj
    · rintro j (h | rfl)
      · exact .inr (b2 j h).2
      · exact .inr hcomp
    · have h0 := left_mark (S := S) (g := g) (g' := g0) hden.lt hc' rfl
      have h2 := v2.cost
      have h3 : left S (g2.emit c3) = left S g2 := left_same rfl
      omega
    · intro hP hm s hs hh
      have hm' : g2.maxDim + dim < L.h := hm
      have hl : l + dim < L.h := by have := (b2 l v2.here).1; omega
      have hi : i + dim < L.h := by omega
      obtain ⟨s2, p2, q2, r2, f2⟩ := v2.computes hP hm' s hs hh
      have e1 : s2.mem (word L.hp (l + dim)) = a.eval N X := r2 l v2.here a ha
      let s3 := s2.setXmm 0 (a.eval N X)
      have p3 : Runs N env (loadRbx (l + dim)) s2 s3 := by
        have := run_load (N := N) hP q2.rbx hl
        rw [e1] at this; exact this
      have q3 : Body env L s0 s3 := q2.setXmm _
      obtain ⟨s4, p4, q4, x4, m4⟩ := run_call (N := N) hP q3 fu
      have p5 := run_store (N := N) hP q4.rbx hi
      rw [x4] at p5
      have hD2 : ∀ j, D2 j → j + dim < L.h := by intro j hj; have := (b2 j hj).1; omega
      have hc3 : c3 = loadRbx (l + dim) ++ (pushRdi ++ pushRdx ++ callIndex (fnIndex fu) ++ popRdx ++ popRdi) ++ storeRbx (i + dim) := by
        simp only [c3, List.append_assoc]
      refine ⟨_, p2.append (hc3 ▸ ((p3.append p4).append p5)), q4.put hP hi _, ?_, ?_⟩
      · refine Holds.put hP (s := s4) ?_ hden hi hD2 rfl
        intro j hj e' he'
        rw [m4 _ (hD2 j hj)]
        exact r2 j hj e' he'
      · intro k hk
        rw [setMem_low hP s4 hi _ k hk, m4 k (by omega)]
        exact f2 k hk
    · rintro j (h | rfl)
      · exact b2 j h
      · exact ⟨hmaxi, hcomp⟩

end Current.Jit
