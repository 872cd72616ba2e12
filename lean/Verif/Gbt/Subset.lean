set_option linter.unusedSimpArgs false
set_option linter.unusedVariables false

/-! # The iterable subset (`examples/gradient_boosted_trees/iterable_subset.h`)

A set of points which can be split in two by a predicate, each half being worked on by a callback, which may split further. -/

namespace Current.Gbt

/-- What `std::partition` may do: any function which puts those with the predicate first. It is a parameter of the model. -/
structure PartOk (part : (Nat → Bool) → List Nat → List Nat) : Prop where
  perm : ∀ p l, (part p l).Perm l
  split : ∀ p l, ∃ a b, part p l = a ++ b ∧ (∀ x ∈ a, p x = true) ∧ (∀ x ∈ b, p x = false)

/-- `IterableSubset`, `iterable_subset.h:36-48`: `b` and `e` are the pointers `begin_` and `end_` as positions. -/
structure Sub where
  cur : Nat
  color : Nat → Nat
  idx : List Nat
  b : Nat
  e : Nat

/-- The constructor, `iterable_subset.h:51-61`. With `n = 0` the program takes the address of an element of an empty vector. -/
def Sub.init (n : Nat) : Sub := ⟨0, fun _ => 0, List.range n, 0, n⟩

/-- Iteration over `*this`, `iterable_subset.h:63-64`. -/
def Sub.points (s : Sub) : List Nat := (s.idx.take s.e).drop s.b
/-- `size()`, `iterable_subset.h:66`. -/
def Sub.size (s : Sub) : Nat := s.e - s.b
/-- `operator[]`, `iterable_subset.h:68-71`. -/
def Sub.has (s : Sub) (i : Nat) : Bool := decide (s.color i = s.cur)

/-- `for (size_t index : *this) color_[index] = c`. -/
def paint (color : Nat → Nat) (l : List Nat) (c : Nat) : Nat → Nat := fun i => if i ∈ l then c else color i

/-- `Partition(p, f_yes, f_no)`, `iterable_subset.h:73-121`. The callbacks may change the rest of the world, `α`, and the subset, by calling `Partition` again. Not modelled: callbacks which throw. -/
def partition {α : Type} (part : (Nat → Bool) → List Nat → List Nat) (p : Nat → Bool) (fYes fNo : Sub × α → Sub × α) (w : Sub × α) : Sub × α :=
  let s := w.1
  let saveB := s.b
  let saveE := s.e
  let saveC := s.cur
  let mid := s.b + s.points.countP p
  let s1 : Sub := { s with idx := s.idx.take s.b ++ part p s.points ++ s.idx.drop s.e, e := mid, cur := s.cur + 1 }
  let s1 := { s1 with color := paint s1.color s1.points s1.cur }
  let w2 := fYes (s1, w.2)
  let s2 : Sub := { w2.1 with b := mid, e := saveE, cur := w2.1.cur + 1 }
  let s2 := { s2 with color := paint s2.color s2.points s2.cur }
  let w3 := fNo (s2, w2.2)
  let s3 : Sub := { w3.1 with b := saveB }
  let s3 := { s3 with color := paint s3.color s3.points saveC, cur := saveC }
  (s3, w3.2)

/-! ### The invariant -/

/-- The vector in three parts, the middle one being the set. -/
def Seg (s : Sub) (A M C : List Nat) : Prop := s.idx = A ++ (M ++ C) ∧ s.b = A.length ∧ s.e = A.length + M.length

theorem Seg.points {s : Sub} {A M C : List Nat} (h : Seg s A M C) : s.points = M := by
  obtain ⟨h1, h2, h3⟩ := h
  unfold Sub.points
  rw [h1, h2, h3, ← List.append_assoc, List.take_append_of_le_length (by simp), List.take_of_length_le (by simp)]
  simp

theorem Seg.size {s : Sub} {A M C : List Nat} (h : Seg s A M C) : s.size = M.length := by
  obtain ⟨h1, h2, h3⟩ := h
  unfold Sub.size; omega

/-- The state is one of a subset of `n` points. -/
structure Inv (n : Nat) (s : Sub) : Prop where
  seg : ∃ A M C, Seg s A M C
  perm : s.idx.Perm (List.range n)
  mem : ∀ i, i < n → (i ∈ s.points ↔ s.color i = s.cur)
  low : ∀ i, i < n → s.color i ≤ s.cur

/-- Nothing has changed but the order of the points in the set. -/
def Frame (s s' : Sub) : Prop := s'.cur = s.cur ∧ s'.color = s.color ∧ ∀ A M C, Seg s A M C → ∃ M', Seg s' A M' C ∧ M'.Perm M

theorem Frame.refl (s : Sub) : Frame s s := ⟨rfl, rfl, fun A M C h => ⟨M, h, List.Perm.refl _⟩⟩

theorem Frame.trans {a b c : Sub} (h1 : Frame a b) (h2 : Frame b c) : Frame a c := by
  refine ⟨by rw [h2.1, h1.1], by rw [h2.2.1, h1.2.1], ?_⟩
  intro A M C h
  obtain ⟨M1, s1, p1⟩ := h1.2.2 A M C h
  obtain ⟨M2, s2, p2⟩ := h2.2.2 A M1 C s1
  exact ⟨M2, s2, p2.trans p1⟩

theorem Frame.points {n : Nat} {s s' : Sub} (hi : Inv n s) (h : Frame s s') : s'.points.Perm s.points := by
  obtain ⟨A, M, C, hs⟩ := hi.seg
  obtain ⟨M', hs', hp⟩ := h.2.2 A M C hs
  rw [hs.points, hs'.points]
  exact hp

theorem Frame.inv {n : Nat} {s s' : Sub} (hi : Inv n s) (h : Frame s s') : Inv n s' := by
  obtain ⟨A, M, C, hs⟩ := hi.seg
  obtain ⟨M', hs', hp⟩ := h.2.2 A M C hs
  refine ⟨⟨A, M', C, hs'⟩, ?_, ?_, ?_⟩
  · rw [hs'.1]
    refine List.Perm.trans ?_ (hs.1 ▸ hi.perm)
    exact (hp.append_right C).append_left A
  · intro i hlt
    rw [h.1, h.2.1, ← hi.mem i hlt]
    exact (Frame.points hi h).mem_iff
  · intro i hlt
    rw [h.1, h.2.1]
    exact hi.low i hlt

theorem inv_init (n : Nat) : Inv n (Sub.init n) := by
  have hs : Seg (Sub.init n) [] (List.range n) [] := ⟨by simp [Sub.init], rfl, by simp [Sub.init]⟩
  refine ⟨⟨_, _, _, hs⟩, List.Perm.refl _, ?_, ?_⟩
  · intro i hi; rw [hs.points]; simp [Sub.init, hi]
  · intro i _; simp [Sub.init]

theorem countP_split {p : Nat → Bool} {a b : List Nat} (ha : ∀ x ∈ a, p x = true) (hb : ∀ x ∈ b, p x = false) : (a ++ b).countP p = a.length := by
  rw [List.countP_append, List.countP_eq_length.2 ha]
  have : b.countP p = 0 := by rw [List.countP_eq_zero]; intro x hx; rw [hb x hx]; simp
  omega

theorem paint_restore {color : Nat → Nat} {l : List Nat} {c : Nat} (h : ∀ i ∈ l, color i = c) : paint color l c = color := by
  funext i
  unfold paint
  split
  · rename_i hi; exact (h i hi).symm
  · rfl

theorem paint_paint (color : Nat → Nat) (l : List Nat) (c d : Nat) : paint (paint color l c) l d = paint color l d := by
  funext i
  unfold paint
  split <;> rfl

theorem paint_append (color : Nat → Nat) (l m l' m' : List Nat) (c d x : Nat) (h1 : ∀ i, i ∈ l' ↔ i ∈ l) (h2 : ∀ i, i ∈ m' ↔ i ∈ m) :
    paint (paint (paint color l c) m d) (l' ++ m') x = paint color (l ++ m) x := by
  funext i
  unfold paint
  simp only [List.mem_append, h1, h2]
  by_cases a : i ∈ l <;> by_cases b : i ∈ m <;> simp [a, b]

/-- The states which the callbacks of `Partition` get, and what it leaves behind if they leave behind what they found. -/
theorem partition_spec {α : Type} {part : (Nat → Bool) → List Nat → List Nat} (hp : PartOk part) {n : Nat} (p : Nat → Bool) (fYes fNo : Sub × α → Sub × α) (w : Sub × α) (hi : Inv n w.1)
    (hy : ∀ s x, Inv n s → Frame s (fYes (s, x)).1) (hn : ∀ s x, Inv n s → Frame s (fNo (s, x)).1) :
    ∃ s1 s2, Inv n s1 ∧ Inv n s2 ∧ s1.points.Perm (w.1.points.filter p) ∧ s2.points.Perm (w.1.points.filter (fun i => !p i)) ∧
      (partition part p fYes fNo w).2 = (fNo (s2, (fYes (s1, w.2)).2)).2 ∧ Frame w.1 (partition part p fYes fNo w).1 := by
  obtain ⟨A, M, C, hs⟩ := hi.seg
  have hpts := hs.points
  obtain ⟨Y, N, hYN, hY, hN⟩ := hp.split p M
  have hperm : (Y ++ N).Perm M := hYN ▸ hp.perm p M
  have hcount : M.countP p = Y.length := by rw [← hperm.countP_eq p, countP_split hY hN]
  have hlen : Y.length + N.length = M.length := by have := hperm.length_eq; simpa using this
  have hfy : Y.Perm (M.filter p) := by
    have := hperm.filter p
    rw [List.filter_append, List.filter_eq_self.2 hY, List.filter_eq_nil_iff.2 (by intro x hx; rw [hN x hx]; simp), List.append_nil] at this
    exact this
  have hfn : N.Perm (M.filter (fun i => !p i)) := by
    have := hperm.filter (fun i => !p i)
    rw [List.filter_append, List.filter_eq_nil_iff.2 (by intro x hx; rw [hY x hx]; simp), List.filter_eq_self.2 (by intro x hx; rw [hN x hx]; rfl), List.nil_append] at this
    exact this
  obtain ⟨hs1, hs2, hs3⟩ := hs
  -- the points are all different and below `n`
  have hnd : (A ++ (Y ++ (N ++ C))).Nodup ∧ ∀ i, i ∈ A ++ (Y ++ (N ++ C)) ↔ i < n := by
    have : (A ++ (Y ++ (N ++ C))).Perm (List.range n) := by
      refine List.Perm.trans ?_ (hs1 ▸ hi.perm)
      rw [← List.append_assoc Y]
      exact (hperm.append_right C).append_left A
    exact ⟨this.nodup_iff.2 List.nodup_range, fun i => by rw [this.mem_iff, List.mem_range]⟩
  have hdisj : ∀ i, i ∈ Y → i ∉ N := by
    intro i h1 h2
    have a := hY i h1
    rw [hN i h2] at a
    cases a
  have hM : ∀ i, i ∈ M ↔ i ∈ Y ∨ i ∈ N := by intro i; rw [← hperm.mem_iff]; simp
  have hMn : ∀ i, i ∈ M → i < n := by
    intro i h
    refine (hnd.2 i).1 ?_
    rcases (hM i).1 h with h | h <;> simp [h]
  -- the state for `f_yes`
  let s1 : Sub := ⟨w.1.cur + 1, paint w.1.color Y (w.1.cur + 1), A ++ (Y ++ (N ++ C)), A.length, A.length + Y.length⟩
  have sg1 : Seg s1 A Y (N ++ C) := ⟨rfl, rfl, rfl⟩
  have i1 : Inv n s1 := by
    refine ⟨⟨_, _, _, sg1⟩, ?_, ?_, ?_⟩
    · refine List.Perm.trans ?_ (hs1 ▸ hi.perm)
      show (A ++ (Y ++ (N ++ C))).Perm _
      rw [← List.append_assoc Y]
      exact (hperm.append_right C).append_left A
    · intro i hlt
      rw [sg1.points]
      show i ∈ Y ↔ paint w.1.color Y (w.1.cur + 1) i = w.1.cur + 1
      unfold paint
      have := hi.low i hlt
      split
      · rename_i h; simp [h]
      · rename_i h; simp only [h, false_iff]; omega
    · intro i hlt
      show paint w.1.color Y (w.1.cur + 1) i ≤ w.1.cur + 1
      unfold paint
      have := hi.low i hlt
      split <;> omega
  obtain ⟨Y', sg1', hY'⟩ := (hy s1 w.2 i1).2.2 _ _ _ sg1
  have fc := (hy s1 w.2 i1).1
  have fcol := (hy s1 w.2 i1).2.1
  -- the state for `f_no`
  let s2 : Sub := ⟨w.1.cur + 2, paint (paint w.1.color Y (w.1.cur + 1)) N (w.1.cur + 2), A ++ (Y' ++ (N ++ C)), A.length + Y.length, A.length + Y.length + N.length⟩
  have sg2 : Seg s2 (A ++ Y') N C := ⟨by simp [s2], by simp [s2, hY'.length_eq], by simp [s2, hY'.length_eq]⟩
  have i2 : Inv n s2 := by
    refine ⟨⟨_, _, _, sg2⟩, ?_, ?_, ?_⟩
    · refine List.Perm.trans ?_ i1.perm
      exact ((hY'.append_right (N ++ C))).append_left A
    · intro i hlt
      rw [sg2.points]
      show i ∈ N ↔ paint (paint w.1.color Y (w.1.cur + 1)) N (w.1.cur + 2) i = w.1.cur + 2
      have := hi.low i hlt
      unfold paint
      split
      · rename_i h; simp [h]
      · rename_i h
        simp only [h, false_iff]
        split <;> omega
    · intro i hlt
      show paint (paint w.1.color Y (w.1.cur + 1)) N (w.1.cur + 2) i ≤ w.1.cur + 2
      have := hi.low i hlt
      unfold paint
      split
      · omega
      · split <;> omega
  obtain ⟨N', sg2', hN'⟩ := (hn s2 (fYes (s1, w.2)).2 i2).2.2 _ _ _ sg2
  have gc := (hn s2 (fYes (s1, w.2)).2 i2).1
  have gcol := (hn s2 (fYes (s1, w.2)).2 i2).2.1
  refine ⟨s1, s2, i1, i2, ?_, ?_, ?_⟩
  · rw [sg1.points, hpts]; exact hfy
  · rw [sg2.points, hpts]; exact hfn
  -- the program goes through these states
  have e1 : ({ ({ w.1 with idx := w.1.idx.take w.1.b ++ part p w.1.points ++ w.1.idx.drop w.1.e, e := w.1.b + w.1.points.countP p, cur := w.1.cur + 1 } : Sub) with
      color := paint w.1.color ({ w.1 with idx := w.1.idx.take w.1.b ++ part p w.1.points ++ w.1.idx.drop w.1.e, e := w.1.b + w.1.points.countP p, cur := w.1.cur + 1 } : Sub).points (w.1.cur + 1) } : Sub) = s1 := by
    have ei : w.1.idx.take w.1.b ++ part p w.1.points ++ w.1.idx.drop w.1.e = A ++ (Y ++ (N ++ C)) := by
      rw [hpts, hYN, hs1, hs2, hs3, List.take_left]
      have : (A ++ (M ++ C)).drop (A.length + M.length) = C := by rw [← List.append_assoc, ← List.length_append, List.drop_left]
      rw [this]
      simp
    have sg : Seg ({ w.1 with idx := w.1.idx.take w.1.b ++ part p w.1.points ++ w.1.idx.drop w.1.e, e := w.1.b + w.1.points.countP p, cur := w.1.cur + 1 } : Sub) A Y (N ++ C) :=
      ⟨ei, hs2, by simp only; rw [hpts, hcount, hs2]⟩
    rw [sg.points]
    simp only [s1, Sub.mk.injEq, true_and]
    refine ⟨ei, hs2, ?_⟩
    rw [hpts, hcount, hs2]
  have emid : w.1.b + w.1.points.countP p = A.length + Y.length := by rw [hpts, hcount, hs2]
  have e2 : ({ ({ (fYes (s1, w.2)).1 with b := w.1.b + w.1.points.countP p, e := w.1.e, cur := (fYes (s1, w.2)).1.cur + 1 } : Sub) with
      color := paint (fYes (s1, w.2)).1.color ({ (fYes (s1, w.2)).1 with b := w.1.b + w.1.points.countP p, e := w.1.e, cur := (fYes (s1, w.2)).1.cur + 1 } : Sub).points ((fYes (s1, w.2)).1.cur + 1) } : Sub) = s2 := by
    have sg : Seg ({ (fYes (s1, w.2)).1 with b := w.1.b + w.1.points.countP p, e := w.1.e, cur := (fYes (s1, w.2)).1.cur + 1 } : Sub) (A ++ Y') N C := by
      refine ⟨?_, ?_, ?_⟩
      · simp only; rw [sg1'.1]; simp
      · simp only; rw [emid]; simp [hY'.length_eq]
      · simp only; rw [hs3]; simp [hY'.length_eq]; omega
    rw [sg.points]
    simp only [s2, Sub.mk.injEq]
    rw [fc, fcol]
    exact ⟨rfl, rfl, sg1'.1, emid, by rw [hs3]; omega⟩
  have ep : partition part p fYes fNo w = (({ ({ (fNo (s2, (fYes (s1, w.2)).2)).1 with b := w.1.b } : Sub) with
      color := paint (fNo (s2, (fYes (s1, w.2)).2)).1.color ({ (fNo (s2, (fYes (s1, w.2)).2)).1 with b := w.1.b } : Sub).points w.1.cur, cur := w.1.cur } : Sub), (fNo (s2, (fYes (s1, w.2)).2)).2) := by
    unfold partition
    simp only
    rw [e1, e2]
  have sg3 : Seg ({ (fNo (s2, (fYes (s1, w.2)).2)).1 with b := w.1.b } : Sub) A (Y' ++ N') C := by
    refine ⟨?_, hs2, ?_⟩
    · simp only; rw [sg2'.1]; simp
    · simp only; rw [sg2'.2.2]; simp; omega
  refine ⟨by rw [ep], ?_⟩
  rw [ep]
  refine ⟨rfl, ?_, ?_⟩
  · show paint _ _ _ = _
    rw [sg3.points, gcol]
    show paint (paint (paint w.1.color Y (w.1.cur + 1)) N (w.1.cur + 2)) (Y' ++ N') w.1.cur = w.1.color
    rw [paint_append _ _ _ _ _ _ _ _ (fun i => hY'.mem_iff) (fun i => hN'.mem_iff)]
    apply paint_restore
    intro i hm
    have hm' : i ∈ M := (hM i).2 (by simpa using hm)
    have := (hi.mem i (hMn i hm')).1 (by rw [hpts]; exact hm')
    exact this
  · intro A0 M0 C0 h0
    have hA : A0 = A ∧ M0 = M ∧ C0 = C := by
      obtain ⟨h1, h2, h3⟩ := h0
      have e := h1.symm.trans hs1
      have l1 : A0.length = A.length := by omega
      have l2 : M0.length = M.length := by omega
      obtain ⟨r1, r2⟩ := List.append_inj e l1
      obtain ⟨r3, r4⟩ := List.append_inj r2 l2
      exact ⟨r1, r3, r4⟩
    obtain ⟨rfl, rfl, rfl⟩ := hA
    exact ⟨Y' ++ N', ⟨sg3.1, sg3.2.1, sg3.2.2⟩, (hY'.append hN').trans hperm⟩

/-! ### Programs of nested partitions -/

/-- A user's program: looking at the set, and partitioning it. -/
inductive Prog
  | skip
  | look (then_ : Prog)
  | split (p : Nat → Bool) (yes no then_ : Prog)

/-- Running a program: the log has what it sees, newest first: the points in the order of the iteration, the size, and `operator[]`. -/
def Prog.run (part : (Nat → Bool) → List Nat → List Nat) : Prog → Sub × List (List Nat × Nat × (Nat → Bool)) → Sub × List (List Nat × Nat × (Nat → Bool))
  | .skip, w => w
  | .look k, w => k.run part (w.1, (w.1.points, w.1.size, w.1.has) :: w.2)
  | .split p y n k, w => k.run part (partition part p (y.run part) (n.run part) w)

/-- Specification: the sets which a program should see, in order, if it is given a set. -/
def Prog.sets : Prog → (Nat → Bool) → List (Nat → Bool)
  | .skip, _ => []
  | .look k, s => s :: k.sets s
  | .split p y n k, s => y.sets (fun i => s i && p i) ++ n.sets (fun i => s i && !p i) ++ k.sets s

/-- What is seen is right for a set: the points of the set, each once; their number; and the membership of each point. -/
def Sees (n : Nat) (o : List Nat × Nat × (Nat → Bool)) (s : Nat → Bool) : Prop :=
  o.1.Perm ((List.range n).filter s) ∧ o.2.1 = ((List.range n).filter s).length ∧ ∀ i, i < n → o.2.2 i = s i

/-- The state has the set `set`. -/
def Holds (n : Nat) (s : Sub) (set : Nat → Bool) : Prop := Inv n s ∧ s.points.Perm ((List.range n).filter set)

theorem Holds.sees {n : Nat} {s : Sub} {set : Nat → Bool} (h : Holds n s set) : Sees n (s.points, s.size, s.has) set := by
  refine ⟨h.2, ?_, ?_⟩
  · obtain ⟨A, M, C, hs⟩ := h.1.seg
    simp only
    rw [hs.size, ← h.2.length_eq, hs.points]
  · intro i hi
    have h1 := h.1.mem i hi
    have h2 := h.2.mem_iff (a := i)
    simp only [List.mem_filter, List.mem_range, hi, true_and] at h2
    simp only [Sub.has]
    by_cases hc : s.color i = s.cur
    · simp [hc, h2.1 (h1.2 hc)]
    · have : ¬ set i = true := fun hs => hc (h1.1 (h2.2 hs))
      simp only [Bool.not_eq_true] at this
      simp [hc, this]

theorem Prog.frame {part : (Nat → Bool) → List Nat → List Nat} (hp : PartOk part) {n : Nat} (pr : Prog) : ∀ w : Sub × List (List Nat × Nat × (Nat → Bool)), Inv n w.1 → Frame w.1 (pr.run part w).1 := by
  induction pr with
  | skip => intro w _; exact Frame.refl _
  | look k ih => intro w h; exact ih _ h
  | split p y no k ihy ihn ihk =>
    intro w h
    obtain ⟨s1, s2, _, _, _, _, _, hf⟩ := partition_spec hp p (y.run part) (no.run part) w h (fun s x hs => ihy (s, x) hs) (fun s x hs => ihn (s, x) hs)
    exact hf.trans (ihk _ (Frame.inv h hf))

/-- Pairwise, with the log newest first. -/
inductive Matches (n : Nat) : List (List Nat × Nat × (Nat → Bool)) → List (Nat → Bool) → Prop
  | nil : Matches n [] []
  | cons {o : List Nat × Nat × (Nat → Bool)} {s : Nat → Bool} {os : List (List Nat × Nat × (Nat → Bool))} {ss : List (Nat → Bool)} : Sees n o s → Matches n os ss → Matches n (o :: os) (s :: ss)

theorem Matches.append {n : Nat} {a b : List (List Nat × Nat × (Nat → Bool))} {x y : List (Nat → Bool)} (h1 : Matches n a x) (h2 : Matches n b y) : Matches n (a ++ b) (x ++ y) := by
  induction h1 with
  | nil => exact h2
  | cons h _ ih => exact .cons h ih

theorem Prog.run_matches {part : (Nat → Bool) → List Nat → List Nat} (hp : PartOk part) {n : Nat} (pr : Prog) : ∀ (w : Sub × List (List Nat × Nat × (Nat → Bool))) (set : Nat → Bool), Holds n w.1 set →
    ∃ new, (pr.run part w).2 = new ++ w.2 ∧ Matches n new.reverse (pr.sets set) := by
  induction pr with
  | skip => intro w set _; exact ⟨[], rfl, .nil⟩
  | look k ih =>
    intro w set h
    obtain ⟨new, h1, h2⟩ := ih (w.1, (w.1.points, w.1.size, w.1.has) :: w.2) set h
    refine ⟨new ++ [(w.1.points, w.1.size, w.1.has)], by rw [Prog.run, h1]; simp, ?_⟩
    rw [List.reverse_append]
    exact .cons h.sees h2
  | split p y no k ihy ihn ihk =>
    intro w set h
    obtain ⟨s1, s2, i1, i2, p1, p2, he, hf⟩ := partition_spec hp p (y.run part) (no.run part) w h.1 (fun s x hs => Prog.frame hp y (s, x) hs) (fun s x hs => Prog.frame hp no (s, x) hs)
    have h1 : Holds n s1 (fun i => set i && p i) := by
      refine ⟨i1, p1.trans ?_⟩
      have := h.2.filter p
      rw [List.filter_filter] at this
      refine this.trans (List.Perm.of_eq ?_)
      congr 1
      funext i
      exact Bool.and_comm _ _
    have h2 : Holds n s2 (fun i => set i && !p i) := by
      refine ⟨i2, p2.trans ?_⟩
      have := h.2.filter (fun i => !p i)
      rw [List.filter_filter] at this
      refine this.trans (List.Perm.of_eq ?_)
      congr 1
      funext i
      exact Bool.and_comm _ _
    have h3 : Holds n (partition part p (y.run part) (no.run part) w).1 set := ⟨Frame.inv h.1 hf, (Frame.points h.1 hf).trans h.2⟩
    obtain ⟨n1, e1, m1⟩ := ihy (s1, w.2) _ h1
    obtain ⟨n2, e2, m2⟩ := ihn (s2, (y.run part (s1, w.2)).2) _ h2
    obtain ⟨n3, e3, m3⟩ := ihk (partition part p (y.run part) (no.run part) w) _ h3
    refine ⟨n3 ++ n2 ++ n1, ?_, ?_⟩
    · rw [Prog.run, e3, he, e2, e1]; simp
    · simp only [List.reverse_append, Prog.sets]
      rw [List.append_assoc]
      exact m1.append (m2.append m3)

theorem filter_all (l : List Nat) : l.filter (fun _ => true) = l := List.filter_eq_self.2 (fun _ _ => rfl)

/-- C131: for any nesting of partitions by any predicates, whatever `std::partition` does with the order: the program sees, at each point, exactly the points it should, each once, with the right size and the right answers of `operator[]`; afterwards the set is all points again. -/
theorem nested_partitions_see_the_right_sets {part : (Nat → Bool) → List Nat → List Nat} (hp : PartOk part) (n : Nat) (pr : Prog) :
    Matches n (pr.run part (Sub.init n, [])).2.reverse (pr.sets (fun _ => true)) ∧ (pr.run part (Sub.init n, [])).1.points.Perm (List.range n) ∧
      ∀ i, i < n → (pr.run part (Sub.init n, [])).1.has i = true := by
  have h0 : Holds n (Sub.init n) (fun _ => true) := ⟨inv_init n, by
    have hs : Seg (Sub.init n) [] (List.range n) [] := ⟨by simp [Sub.init], rfl, by simp [Sub.init]⟩
    rw [hs.points, filter_all]⟩
  obtain ⟨new, h1, h2⟩ := Prog.run_matches hp pr (Sub.init n, []) _ h0
  have hf := Prog.frame hp pr (Sub.init n, []) h0.1
  have h3 : Holds n (pr.run part (Sub.init n, [])).1 (fun _ => true) := ⟨Frame.inv h0.1 hf, (Frame.points h0.1 hf).trans h0.2⟩
  refine ⟨?_, ?_, h3.sees.2.2⟩
  · rw [h1]; simpa using h2
  · have := h3.2; rwa [filter_all] at this

/-- A stable partition is one that `std::partition` may be. -/
def stable (p : Nat → Bool) (l : List Nat) : List Nat := l.filter p ++ l.filter (fun i => !p i)

theorem stable_ok : PartOk stable := by
  constructor
  · intro p l
    exact List.filter_append_perm p l
  · intro p l
    exact ⟨l.filter p, l.filter (fun i => !p i), rfl, fun x hx => (List.mem_filter.1 hx).2, fun x hx => by have := (List.mem_filter.1 hx).2; simpa using this⟩

/-- Numbers up to ten: the even ones, of those the ones below five; then the odd ones. -/
def demo : Prog := .split (fun i => i % 2 == 0) (.split (· < 5) (.look .skip) (.look .skip) (.look .skip)) (.look .skip) (.look .skip)

example : ((demo.run stable (Sub.init 10, [])).2.map (fun o => (o.1, o.2.1, (List.range 10).filter o.2.2))).reverse =
    [([0, 2, 4], 3, [0, 2, 4]), ([6, 8], 2, [6, 8]), ([0, 2, 4, 6, 8], 5, [0, 2, 4, 6, 8]), ([1, 3, 5, 7, 9], 5, [1, 3, 5, 7, 9]), ([0, 2, 4, 6, 8, 1, 3, 5, 7, 9], 10, [0, 1, 2, 3, 4, 5, 6, 7, 8, 9])] := by rfl

end Current.Gbt
