import Verif.NLP.Props
set_option linter.unusedSimpArgs false
set_option linter.unusedVariables false

/-! # The NLP module: evaluation by callbacks and exceptions reports exactly the results of the specification. -/

namespace Current.NLP
open Current.Persist Current.Strings

variable {σ : Type}

/-- Calling a callback on the values of a list, until it throws. -/
def feed (emit : Val → Act σ) : List Val → Act σ
  | [] => Act.ok
  | v :: l => (emit v).andThen (feed emit l)

/-- A callback throws no signal of a block of the given size or smaller. -/
def Avoids (n : Nat) (emit : Val → Act σ) : Prop :=
  ∀ v s sh, (emit v s).2 = some (.block sh) → n < sh.size

/-- An action throws no signal of a block of the given size or smaller. -/
def ActAvoids (n : Nat) (a : Act σ) : Prop := ∀ s sh, (a s).2 = some (.block sh) → n < sh.size

theorem andThen_assoc (a b c : Act σ) : (a.andThen b).andThen c = a.andThen (b.andThen c) := by
  funext s
  simp only [Act.andThen]
  cases h : a s with
  | mk s' e => cases e <;> simp [h]

theorem ok_andThen (a : Act σ) : Act.ok.andThen a = a := rfl

theorem andThen_ok (a : Act σ) : a.andThen Act.ok = a := by
  funext s
  simp only [Act.andThen, Act.ok]
  cases h : a s with
  | mk s' e => cases e <;> simp [h]

theorem feed_append (emit : Val → Act σ) (l m : List Val) : feed emit (l ++ m) = (feed emit l).andThen (feed emit m) := by
  induction l with
  | nil => rfl
  | cons v l ih => simp only [List.cons_append, feed, ih, andThen_assoc]

theorem feed_map (emit : Val → Act σ) (f : Val → Val) (l : List Val) : feed emit (l.map f) = feed (fun x => emit (f x)) l := by
  induction l with
  | nil => rfl
  | cons v l ih => simp only [List.map_cons, feed, ih]

theorem feed_flatMap (emit : Val → Act σ) (g : Val → List Val) (l : List Val) : feed emit (l.flatMap g) = feed (fun x => feed emit (g x)) l := by
  induction l with
  | nil => rfl
  | cons v l ih => simp only [List.flatMap_cons, feed_append, feed, ih]

theorem feed_filter (emit : Val → Act σ) (p : Val → Bool) (l : List Val) :
    feed emit (l.filter p) = feed (fun x => if p x then emit x else Act.ok) l := by
  induction l with
  | nil => rfl
  | cons v l ih =>
    simp only [List.filter_cons]
    cases h : p v
    · simp [feed, h, ih, ok_andThen]
    · simp [feed, h, ih]

theorem forEach_feed (emit : Val → Act σ) (f : Nat → Act σ) (g : Nat → List Val) (ks : List Nat) (h : ∀ k ∈ ks, f k = feed emit (g k)) :
    Act.forEach f ks = feed emit (ks.flatMap g) := by
  induction ks with
  | nil => rfl
  | cons k ks ih =>
    simp only [Act.forEach, List.flatMap_cons, feed_append]
    rw [h k List.mem_cons_self, ih (fun k hk => h k (List.mem_cons_of_mem _ hk))]

theorem Avoids.mono {n m : Nat} {emit : Val → Act σ} (h : Avoids n emit) (hm : m ≤ n) : Avoids m emit :=
  fun v s sh he => Nat.lt_of_le_of_lt hm (h v s sh he)

theorem ActAvoids.andThen {n : Nat} {a b : Act σ} (ha : ActAvoids n a) (hb : ActAvoids n b) : ActAvoids n (a.andThen b) := by
  intro s sh h
  simp only [Act.andThen] at h
  cases hc : a s with
  | mk s' e =>
    cases e with
    | none => rw [hc] at h; exact hb s' sh h
    | some e => rw [hc] at h; exact ha s sh (by rw [hc]; exact h)

theorem ActAvoids.ok {n : Nat} : ActAvoids n (Act.ok (σ := σ)) := by
  intro s sh h; simp [Act.ok] at h

theorem ActAvoids.feed {n : Nat} {emit : Val → Act σ} (h : Avoids n emit) (l : List Val) : ActAvoids n (feed emit l) := by
  induction l with
  | nil => exact ActAvoids.ok
  | cons v l ih => exact ActAvoids.andThen (h v) ih

theorem throw_avoids {n : Nat} {sh : Shape} (h : n < sh.size) : ActAvoids n (Act.throw (σ := σ) (.block sh)) := by
  intro s sh' he
  simp only [Act.throw, Option.some.injEq, Signal.block.injEq] at he
  exact he ▸ h

/-- The common part of the yes/no blocks: report once, then leave by an exception. -/
theorem catch_once {n : Nat} {emit : Val → Act σ} (ha : Avoids n emit) {sh : Shape} (hn : sh.size ≤ n) (l : List Val) :
    Act.catching (.block sh) (feed (fun _ => (emit .unit).andThen (Act.throw (.block sh))) l) Act.ok
      = feed emit (l.head?.toList.map (fun _ => .unit)) := by
  funext s
  cases l with
  | nil => rfl
  | cons v l =>
    simp only [feed, List.head?_cons, Option.toList_some, List.map_cons, List.map_nil, andThen_ok, Act.catching, Act.andThen, Act.throw, Act.ok]
    cases hc : emit .unit s with
    | mk s' e =>
      cases e with
      | none => simp
      | some e =>
        simp only
        rw [if_neg]
        rintro rfl
        have := ha .unit s sh (by rw [hc])
        omega

/-- The static objects hold the functions of the expression. -/
def Holds (st : Store) (e : Expr) : Prop := ∀ p ∈ e.fns, st p.1 = some p.2

theorem Holds.left {st : Store} {l m : List (Shape × Fn)} (h : ∀ p ∈ l ++ m, st p.1 = some p.2) : ∀ p ∈ l, st p.1 = some p.2 :=
  fun p hp => h p (List.mem_append_left _ hp)
theorem Holds.right {st : Store} {l m : List (Shape × Fn)} (h : ∀ p ∈ l ++ m, st p.1 = some p.2) : ∀ p ∈ m, st p.1 = some p.2 :=
  fun p hp => h p (List.mem_append_right _ hp)

/-- Under a `Unit` block, a callback which does not look at the value is called at most once. -/
theorem feed_unit {q : List Term} {e : Expr} (hp : Proper e) (hu : e.ty = .unit) (i j : Nat) (emit : Val → Act σ) (g : List Val) :
    feed (fun _ => feed emit g) (results q e i j) = feed emit (if (results q e i j).isEmpty then [] else g) := by
  have := unit_once (q := q) hp hu i j
  cases h : results q e i j with
  | nil => rfl
  | cons v l =>
    cases l with
    | nil => simp [feed, andThen_ok]
    | cons w l => rw [h] at this; simp at this

/-- Finding the first split point at which both parts of a yes/no sequence match. -/
theorem forEach_unit (t : Act σ) (f : Nat → Act σ) (m : Nat → Bool) (ks : List Nat)
    (h : ∀ k ∈ ks, f k = if m k then t else Act.ok) :
    Act.forEach f ks = feed (fun _ => t) ((ks.filter m).map (fun _ => Val.unit)) := by
  induction ks with
  | nil => rfl
  | cons k ks ih =>
    simp only [Act.forEach, List.filter_cons]
    rw [h k List.mem_cons_self, ih (fun k hk => h k (List.mem_cons_of_mem _ hk))]
    cases m k
    · rfl
    · rfl

theorem feed_const_unit {q : List Term} {e : Expr} (hp : Proper e) (hu : e.ty = .unit) (i j : Nat) (t : Act σ) :
    feed (fun _ => t) (results q e i j) = if (results q e i j).isEmpty then Act.ok else t := by
  have := unit_once (q := q) hp hu i j
  cases h : results q e i j with
  | nil => rfl
  | cons v l =>
    cases l with
    | nil => simp [feed, andThen_ok]
    | cons w l => rw [h] at this; simp at this

theorem eval_seq {st : Store} {q : List Term} {a b : Expr} {i j n : Nat} {emit : Val → Act σ}
    (hp : Proper a ∧ Proper b) (hj : i ≤ j ∧ j ≤ q.length) (ha : Avoids n emit) (hn : (Shape.seq a.shape b.shape).size ≤ n)
    (iha : ∀ {i j} {emit : Val → Act σ}, i ≤ j ∧ j ≤ q.length → Avoids a.shape.size emit → eval st q a.shape i j emit = feed emit (results q a i j))
    (ihb : ∀ {i j} {emit : Val → Act σ}, i ≤ j ∧ j ≤ q.length → Avoids b.shape.size emit → eval st q b.shape i j emit = feed emit (results q b i j)) :
    eval st q (.seq a.shape b.shape) i j emit = feed emit (results q (.seq a b) i j) := by
  simp only [Shape.size] at hn
  simp only [eval, results, loop_eq, catVal_eq]
  by_cases hu : a.ty = .unit ∧ b.ty = .unit
  · rw [if_pos (show a.shape.ty = .unit ∧ b.shape.ty = .unit from hu), if_pos hu]
    have e1 : ∀ k ∈ splits i j, (eval st q a.shape i k fun _ => eval st q b.shape k j fun _ => (emit .unit).andThen (Act.throw (.block (.seq a.shape b.shape))))
        = if (!(results q a i k).isEmpty && !(results q b k j).isEmpty) then (emit .unit).andThen (Act.throw (.block (.seq a.shape b.shape))) else Act.ok := by
      intro k hk
      have hk := mem_splits.1 hk
      have hthrow : ∀ m, m ≤ a.shape.size + b.shape.size → ActAvoids (σ := σ) m ((emit .unit).andThen (Act.throw (.block (.seq a.shape b.shape)))) := by
        intro m hm
        exact ActAvoids.andThen (ha.mono (by omega) .unit) (throw_avoids (by simp only [Shape.size]; omega))
      have hb : (eval st q b.shape k j fun _ => (emit .unit).andThen (Act.throw (.block (.seq a.shape b.shape))))
          = if (results q b k j).isEmpty then Act.ok else (emit .unit).andThen (Act.throw (.block (.seq a.shape b.shape))) := by
        rw [ihb ⟨hk.2, hj.2⟩ (fun _ => hthrow _ (by omega)), feed_const_unit hp.2 hu.2]
      rw [hb, iha ⟨hk.1, by omega⟩, feed_const_unit hp.1 hu.1]
      · cases (results q a i k).isEmpty <;> cases (results q b k j).isEmpty <;> rfl
      · intro v
        cases (results q b k j).isEmpty
        · exact hthrow _ (by omega)
        · exact ActAvoids.ok
    rw [forEach_unit _ _ _ _ e1, catch_once ha (by simp only [Shape.size]; omega), List.head?_map]
    cases ((splits i j).filter fun k => !(results q a i k).isEmpty && !(results q b k j).isEmpty).head? <;> rfl
  · rw [if_neg (show ¬(a.shape.ty = .unit ∧ b.shape.ty = .unit) from hu), if_neg hu]
    by_cases hb : b.ty = .unit
    · rw [if_pos (show b.shape.ty = .unit from hb), if_pos hb]
      apply forEach_feed
      intro k hk
      have hk := mem_splits.1 hk
      have e1 : eval st q a.shape i k emit = feed emit (results q a i k) := iha ⟨hk.1, by omega⟩ (ha.mono (by omega))
      rw [e1, ihb ⟨hk.2, hj.2⟩ (fun _ => ActAvoids.feed (ha.mono (by omega)) _), feed_unit hp.2 hb]
    · rw [if_neg (show ¬ b.shape.ty = .unit from hb), if_neg hb]
      by_cases hA : a.ty = .unit
      · rw [if_pos (show a.shape.ty = .unit from hA), if_pos hA]
        apply forEach_feed
        intro k hk
        have hk := mem_splits.1 hk
        have e1 : eval st q b.shape k j emit = feed emit (results q b k j) := ihb ⟨hk.2, hj.2⟩ (ha.mono (by omega))
        rw [e1, iha ⟨hk.1, by omega⟩ (fun _ => ActAvoids.feed (ha.mono (by omega)) _), feed_unit hp.1 hA]
      · rw [if_neg (show ¬ a.shape.ty = .unit from hA), if_neg hA]
        apply forEach_feed
        intro k hk
        have hk := mem_splits.1 hk
        have e1 : ∀ x, (eval st q b.shape k j fun y => emit (both a.shape.ty b.shape.ty x y)) = feed (fun y => emit (both a.ty b.ty x y)) (results q b k j) :=
          fun x => ihb ⟨hk.2, hj.2⟩ (fun y => ha.mono (by omega) _)
        simp only [e1]
        rw [iha ⟨hk.1, by omega⟩ (fun x => ActAvoids.feed (fun y => ha.mono (by omega) _) _), feed_flatMap]
        simp only [feed_map]

/-- Evaluation calls the callback on the results of the specification, one by one, until it throws, and lets its exceptions through. -/
theorem eval_eq {st : Store} {q : List Term} {e : Expr} (hp : Proper e) (hs : Holds st e) {i j : Nat} (hj : i ≤ j ∧ j ≤ q.length)
    {emit : Val → Act σ} (ha : Avoids e.shape.size emit) :
    eval st q e.shape i j emit = feed emit (results q e i j) := by
  induction e generalizing i j emit with
  | none =>
    simp only [Expr.shape, eval, results]
    split <;> simp [feed, andThen_ok]
  | keyword w =>
    simp only [Expr.shape, eval, results]
    by_cases h : j = i + 1
    · simp only [h, if_true, true_and]
      have : i < q.length := by omega
      rw [List.getElem?_eq_getElem this]
      simp only [Option.map_some, Option.some.injEq]
      split <;> simp [feed, andThen_ok]
    · simp [h, feed]
  | dict n t =>
    simp only [Expr.shape, eval, results]
    by_cases h : j = i + 1
    · simp only [h, if_true, true_and]
      have : i < q.length := by omega
      rw [List.getElem?_eq_getElem this]
      simp only [Option.bind_some]
      cases q[i].field n <;> simp [feed, andThen_ok]
    · simp [h, feed]
  | void e ih =>
    simp only [Expr.shape, eval, results, Shape.size] at *
    rw [ih hp hs hj]
    · exact catch_once ha (by simp only [Shape.size]; omega) _
    · intro _
      exact ActAvoids.andThen (ha.mono (by omega) .unit) (throw_avoids (by simp only [Shape.size]; omega))
  | or a b iha ihb =>
    have hsa : Holds st a := Holds.left hs
    have hsb : Holds st b := Holds.right hs
    simp only [Expr.shape, eval, results, Shape.size, catVal_eq] at ha ⊢
    by_cases hu : a.ty = .unit ∧ b.ty = .unit
    · rw [if_pos (show a.shape.ty = .unit ∧ b.shape.ty = .unit from hu), if_pos hu]
      rw [iha hp.1 hsa hj (fun _ => throw_avoids (by simp only [Shape.size]; omega)),
        ihb hp.2 hsb hj (fun _ => throw_avoids (by simp only [Shape.size]; omega)), ← feed_append]
      funext s
      cases results q a i j ++ results q b i j with
      | nil => rfl
      | cons v l =>
        simp only [List.head?_cons, Option.toList_some, List.map_cons, List.map_nil, feed, andThen_ok]
        simp [Act.catching, Act.andThen, Act.throw]
    · rw [if_neg (show ¬(a.shape.ty = .unit ∧ b.shape.ty = .unit) from hu), if_neg hu, feed_append,
        iha hp.1 hsa hj (ha.mono (by omega)), ihb hp.2 hsb hj (ha.mono (by omega))]
  | and a b iha ihb =>
    have hsa : Holds st a := Holds.left hs
    have hsb : Holds st b := Holds.right hs
    simp only [Expr.shape, eval, results, Shape.size, catVal_eq] at ha ⊢
    have e1 : ∀ x, (eval st q b.shape i j fun y => emit (both a.shape.ty b.shape.ty x y)) = feed (fun y => emit (both a.ty b.ty x y)) (results q b i j) :=
      fun x => ihb hp.2 hsb hj (fun y => ha.mono (by omega) _)
    simp only [e1]
    rw [iha hp.1 hsa hj (fun x => ActAvoids.feed (fun y => ha.mono (by omega) _) _), feed_flatMap]
    simp only [feed_map]
  | seq a b iha ihb =>
    exact eval_seq hp hj ha (Nat.le_refl _) (fun h h' => iha hp.1 (Holds.left hs) h h') (fun h h' => ihb hp.2 (Holds.right hs) h h')
  | rseq a b iha ihb =>
    have iha := fun {i j} {emit : Val → Act σ} h h' => @iha hp.1 (Holds.left hs) i j h emit h'
    have ihb := fun {i j} {emit : Val → Act σ} h h' => @ihb hp.2 (Holds.right hs) i j h emit h'
    by_cases hu : a.shape.ty = .unit ∨ b.shape.ty = .unit
    · have hsh : (Expr.rseq a b).shape = .seq a.shape b.shape := by simp only [Expr.shape, if_pos hu]
      have hr : results q (.rseq a b) i j = results q (.seq a b) i j := by
        simp only [results]
        have hu : a.ty = .unit ∨ b.ty = .unit := hu
        rcases hu with hu | hu <;> simp only [hu, if_true, and_true, true_and] <;> (repeat' split) <;> first | rfl | simp_all
      rw [hsh, hr]
      rw [hsh] at ha
      exact eval_seq hp hj ha (Nat.le_refl _) iha ihb
    · have hsh : (Expr.rseq a b).shape = .rseq a.shape b.shape := by simp only [Expr.shape, if_neg hu]
      rw [hsh] at ha ⊢
      simp only [not_or] at hu
      have h1 : ¬ a.ty = .unit := hu.1
      have h2 : ¬ b.ty = .unit := hu.2
      simp only [eval, results, Shape.size, loop_eq, catVal_eq, h1, h2, and_self, if_false] at ha ⊢
      apply forEach_feed
      intro k hk
      have hk := mem_splits.1 hk
      have e1 : ∀ y, (eval st q a.shape i k fun x => emit (both a.shape.ty b.shape.ty x y)) = feed (fun x => emit (both a.ty b.ty x y)) (results q a i k) :=
        fun y => iha ⟨hk.1, by omega⟩ (fun x => ha.mono (by omega) _)
      simp only [e1]
      rw [ihb ⟨hk.2, hj.2⟩ (fun y => ActAvoids.feed (fun x => ha.mono (by omega) _) _), feed_flatMap]
      simp only [feed_map]
  | map out f e ih =>
    have hf : st (.map out e.shape) = some (.map f) := hs _ (List.mem_append_right _ List.mem_cons_self)
    simp only [Expr.shape, eval, results, Shape.size, hf] at ha ⊢
    rw [ih hp.2 (Holds.left hs) hj (fun x => ha.mono (by omega) _), feed_map]
  | filter p e ih =>
    have hf : st (.filter e.shape) = some (.filter p) := hs _ (List.mem_append_right _ List.mem_cons_self)
    simp only [Expr.shape, eval, results, Shape.size, hf] at ha ⊢
    rw [ih hp (Holds.left hs) hj, feed_filter]
    intro x
    show ActAvoids _ (if p x = true then emit x else Act.ok)
    split
    · exact ha.mono (by omega) x
    · exact ActAvoids.ok

end Current.NLP
