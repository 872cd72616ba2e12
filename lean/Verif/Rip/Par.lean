import Verif.Rip.Props
/-! `A + B`, the built-in blocks, and how a nested `|` expression is put together. -/
namespace Current.Rip
variable {M : Type}

/-- **Routing**: in `A + B` each side's object is what the messages of its own input types, in the order they came, make of it; the other ones do not
touch it. -/
theorem par_sides {A B : Type} (accepts : M → Bool) (a : Node A M) (b : Node B M) (ms : List M) :
    (ran (par accepts a b) ms).1 =
      ((ran a (ms.filter accepts)).1, (ran b (ms.filter (fun m => !accepts m))).1) := by
  induction ms using List.reverseRecOn with
  | nil => rfl
  | append_singleton r m ih =>
    rw [ran_snoc, List.filter_append, List.filter_append]
    by_cases h : accepts m = true
    · have e1 : [m].filter accepts = [m] := by simp [h]
      have e2 : [m].filter (fun m => !accepts m) = [] := by simp [h]
      rw [e1, e2, ran_snoc, List.append_nil]
      simp only [par, h, if_true]
      rw [show (ran { init := _, f := _, fin := _ } r : (A × B) × List (Cmd M)) = ran (par accepts a b) r from rfl, ih]
    · have e1 : [m].filter accepts = [] := by simp [h]
      have e2 : [m].filter (fun m => !accepts m) = [m] := by simp [h]
      rw [e1, e2, ran_snoc, List.append_nil]
      simp only [par, h, if_false, Bool.false_eq_true]
      rw [show (ran { init := _, f := _, fin := _ } r : (A × B) × List (Cmd M)) = ran (par accepts a b) r from rfl, ih]

theorem par_ran_perm {A B : Type} (accepts : M → Bool) (a : Node A M) (b : Node B M) (ms : List M) :
    (ran (par accepts a b) ms).2.Perm
      ((ran a (ms.filter accepts)).2 ++ (ran b (ms.filter (fun m => !accepts m))).2) := by
  induction ms using List.reverseRecOn with
  | nil => exact List.Perm.refl _
  | append_singleton r m ih =>
    have hs := par_sides accepts a b r
    rw [ran_snoc, List.filter_append, List.filter_append, hs]
    by_cases h : accepts m = true
    · have e1 : [m].filter accepts = [m] := by simp [h]
      have e2 : [m].filter (fun m => !accepts m) = [] := by simp [h]
      rw [e1, e2, ran_snoc, List.append_nil]
      simp only
      rw [show ((par accepts a b).f ((ran a (List.filter accepts r)).1, (ran b (List.filter (fun m => !accepts m) r)).1) m).2
        = (a.f (ran a (List.filter accepts r)).1 m).2 from by simp [par, h]]
      refine (ih.append_right _).trans ?_
      rw [List.append_assoc, List.append_assoc]
      exact List.Perm.append_left _ List.perm_append_comm
    · have e1 : [m].filter accepts = [] := by simp [h]
      have e2 : [m].filter (fun m => !accepts m) = [m] := by simp [h]
      rw [e1, e2, ran_snoc, List.append_nil]
      simp only
      rw [show ((par accepts a b).f ((ran a (List.filter accepts r)).1, (ran b (List.filter (fun m => !accepts m) r)).1) m).2
        = (b.f (ran b (List.filter (fun m => !accepts m) r)).1 m).2 from by simp [par, h]]
      rw [← List.append_assoc]
      exact ih.append_right _

/-- **`A + B` sends what `A` and `B` send**: the calls made by the combined block are the calls of the two sides, merged. -/
theorem par_sends_both {A B : Type} (accepts : M → Bool) (a : Node A M) (b : Node B M) (ms : List M) :
    (outs (par accepts a b) ms).Perm
      (outs a (ms.filter accepts) ++ outs b (ms.filter (fun m => !accepts m))) := by
  have hs := par_sides accepts a b ms
  have hp := par_ran_perm accepts a b ms
  unfold outs
  rw [hs]
  refine (hp.append_right _).trans ?_
  simp only [par, List.append_assoc]
  refine List.Perm.append_left _ ?_
  rw [← List.append_assoc]
  exact List.perm_append_comm

inductive Side where
  | first | second | third
  deriving DecidableEq

/-- **The way `A + B + C` is parenthesized does not matter** (the comment at `ripcurrent.h:283-297`): the same calls in the same order. `side m`: the one
block whose input types contain the type of `m`. -/
theorem par_assoc {A B C : Type} (side : M → Side) (a : Node A M) (b : Node B M) (c : Node C M) (ms : List M) :
    outs (par (fun m => decide (side m ≠ .third)) (par (fun m => decide (side m = .first)) a b) c) ms =
    outs (par (fun m => decide (side m = .first)) a (par (fun m => decide (side m = .second)) b c)) ms := by
  have key : ∀ ms, (ran (par (fun m => decide (side m ≠ .third)) (par (fun m => decide (side m = .first)) a b) c) ms).2 =
      (ran (par (fun m => decide (side m = .first)) a (par (fun m => decide (side m = .second)) b c)) ms).2 ∧
      (ran (par (fun m => decide (side m ≠ .third)) (par (fun m => decide (side m = .first)) a b) c) ms).1.1.1 =
      (ran (par (fun m => decide (side m = .first)) a (par (fun m => decide (side m = .second)) b c)) ms).1.1 ∧
      (ran (par (fun m => decide (side m ≠ .third)) (par (fun m => decide (side m = .first)) a b) c) ms).1.1.2 =
      (ran (par (fun m => decide (side m = .first)) a (par (fun m => decide (side m = .second)) b c)) ms).1.2.1 ∧
      (ran (par (fun m => decide (side m ≠ .third)) (par (fun m => decide (side m = .first)) a b) c) ms).1.2 =
      (ran (par (fun m => decide (side m = .first)) a (par (fun m => decide (side m = .second)) b c)) ms).1.2.2 := by
    intro ms
    induction ms using List.reverseRecOn with
    | nil => exact ⟨by simp [ran_nil, par], rfl, rfl, rfl⟩
    | append_singleton r m ih =>
      rw [ran_snoc, ran_snoc]
      generalize ran (par (fun m => decide (side m ≠ .third)) (par (fun m => decide (side m = .first)) a b) c) r = x at ih ⊢
      generalize ran (par (fun m => decide (side m = .first)) a (par (fun m => decide (side m = .second)) b c)) r = y at ih ⊢
      obtain ⟨i1, i2, i3, i4⟩ := ih
      cases hs : side m <;> simp [par, hs, i1, i2, i3, i4]
  obtain ⟨k1, k2, k3, k4⟩ := key ms
  unfold outs
  rw [k1]
  generalize ran (par (fun m => decide (side m ≠ .third)) (par (fun m => decide (side m = .first)) a b) c) ms = x at *
  generalize ran (par (fun m => decide (side m = .first)) a (par (fun m => decide (side m = .second)) b c)) ms = y at *
  simp [par, k2, k3, k4]

/-- `Pass` sends on exactly what it receives. -/
theorem pass_sends (ms : List M) : outs pass ms = ms.map Cmd.emit := by
  have : ∀ ms : List M, (ran pass ms).2 = ms.map Cmd.emit := by
    intro ms
    induction ms using List.reverseRecOn with
    | nil => rfl
    | append_singleton r m ih => rw [ran_snoc, List.map_append]; simp only [ih]; rfl
  unfold outs
  rw [this]
  simp [pass]

/-- `Drop` sends nothing. -/
theorem drop_sends (ms : List M) : outs (drop : Node Unit M) ms = [] := by
  have : ∀ ms : List M, (ran drop ms).2 = [] := by
    intro ms
    induction ms using List.reverseRecOn with
    | nil => rfl
    | append_singleton r m ih => rw [ran_snoc]; simp only [ih]; rfl
  unfold outs
  rw [this]
  simp [drop]

/-! ### Nested `|` -/

/-- An expression made of `|`; leaves are user's classes. -/
inductive Flow where
  | leaf (i : Nat)
  | seq (from_ into : Flow)

def leaves : Flow → List Nat
  | .leaf i => [i]
  | .seq a b => leaves a ++ leaves b

/-- The leaf that receives what is sent to the flow: `Scope::OnThreadSafeMessage`, `ripcurrent.h:702`, goes to `from_`. -/
def first : Flow → Nat
  | .leaf i => i
  | .seq a _ => first a

inductive Event where
  | stage (i : Nat)   -- the constructor (or the destructor) of a user's class
  | queue (i : Nat)   -- of the `MMPQWrapper` in front of it
  deriving DecidableEq, Repr

/-- Construction: `SharedSequenceImpl::Scope::Scope`, `ripcurrent.h:693-700`: `into_`, `into_mmpq_`, `from_`. -/
def construct : Flow → List Event
  | .leaf i => [.stage i]
  | .seq a b => construct b ++ [.queue (first b)] ++ construct a

/-- Destruction: members in the reverse order of declaration, `ripcurrent.h:783-787`. -/
def destroy : Flow → List Event
  | .leaf i => [.stage i]
  | .seq a b => destroy a ++ [.queue (first b)] ++ destroy b

/-- Where each class sends to: `Run(next)`; `none` is the end of the flow. -/
def targets (next : Option Nat) : Flow → List (Nat × Option Nat)
  | .leaf i => [(i, next)]
  | .seq a b => targets (some (first b)) a ++ targets next b

/-- The order of the model: last stage, its queue, the stage before, its queue, …, the first stage. -/
def rightToLeft : List Nat → List Event
  | [] => []
  | [i] => [.stage i]
  | i :: j :: r => rightToLeft (j :: r) ++ [.queue j, .stage i]

def chain (next : Option Nat) : List Nat → List (Nat × Option Nat)
  | [] => []
  | [i] => [(i, next)]
  | i :: j :: r => (i, some j) :: chain next (j :: r)

theorem leaves_first (f : Flow) : ∃ r, leaves f = first f :: r := by
  induction f with
  | leaf i => exact ⟨[], rfl⟩
  | seq a b iha _ =>
    obtain ⟨r, h⟩ := iha
    exact ⟨r ++ leaves b, by simp [leaves, first, h]⟩

theorem rightToLeft_append (j : Nat) (r : List Nat) : ∀ (i : Nat) (l : List Nat),
    rightToLeft (i :: l ++ j :: r) = rightToLeft (j :: r) ++ [.queue j] ++ rightToLeft (i :: l)
  | i, [] => by simp [rightToLeft]
  | i, k :: l => by
    have := rightToLeft_append j r k l
    simp only [List.cons_append] at this
    simp only [List.cons_append, rightToLeft, this]
    simp

theorem chain_append (next : Option Nat) (j : Nat) (r : List Nat) : ∀ (i : Nat) (l : List Nat),
    chain next (i :: l ++ j :: r) = chain (some j) (i :: l) ++ chain next (j :: r)
  | i, [] => by simp [chain]
  | i, k :: l => by
    have := chain_append next j r k l
    simp only [List.cons_append] at this
    simp only [List.cons_append, chain, this]

/-- **The way `A | B | C | …` is parenthesized does not matter**: the constructors run right to left with each queue right after the stage it feeds, the
destructors in the opposite order, and each stage sends to the queue of the next one. -/
theorem seq_assoc (f : Flow) :
    construct f = rightToLeft (leaves f) ∧ destroy f = (rightToLeft (leaves f)).reverse ∧
    ∀ next, targets next f = chain next (leaves f) := by
  induction f with
  | leaf i => exact ⟨rfl, rfl, fun _ => rfl⟩
  | seq a b iha ihb =>
    obtain ⟨ra, ha⟩ := leaves_first a
    obtain ⟨rb, hb⟩ := leaves_first b
    refine ⟨?_, ?_, fun next => ?_⟩
    · rw [construct, leaves, ha, hb, rightToLeft_append, iha.1, ihb.1, ha, hb]
    · rw [destroy, leaves, ha, hb, rightToLeft_append, iha.2.1, ihb.2.1, ha, hb]
      simp
    · rw [targets, leaves, ha, hb, chain_append, iha.2.2, ihb.2.2, ha, hb]

theorem seq_assoc_demo : construct (.seq (.seq (.leaf 0) (.leaf 1)) (.leaf 2)) =
    [.stage 2, .queue 2, .stage 1, .queue 1, .stage 0] ∧
    construct (.seq (.leaf 0) (.seq (.leaf 1) (.leaf 2))) = [.stage 2, .queue 2, .stage 1, .queue 1, .stage 0] := by decide

end Current.Rip
