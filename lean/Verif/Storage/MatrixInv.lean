import Verif.Storage.Model
/-!
The invariant of the matrices, and what the two primitive changes do to the contents.
-/
namespace Current.Storage
variable {K R C E P : Type} [DecidableEq K] [DecidableEq R] [DecidableEq C]

/-- The index says what `g` says. -/
def Index.Agrees {A B : Type} [DecidableEq A] [DecidableEq B] (g : A → B → Option Ptr) : Index A B → Prop
  | .single m => Wf m ∧ ∀ a p, find m a = some p ↔ ∃ b, g a b = some p
  | .multi m => Wf m ∧ (∀ a b, find ((find m a).getD []) b = g a b) ∧ ∀ a s, find m a = some s → s ≠ [] ∧ Wf s

/-- A function of two arguments, changed at one point. -/
def upd2 {A B D : Type} [DecidableEq A] [DecidableEq B] (g : A → B → D) (a : A) (b : B) (v : D) : A → B → D :=
  fun x y => if x = a ∧ y = b then v else g x y

theorem sub_wf {A B : Type} [DecidableEq A] [DecidableEq B] {m : AMap A (AMap B Ptr)} (h : ∀ a s, find m a = some s → s ≠ [] ∧ Wf s) (a : A) :
    Wf ((find m a).getD []) := by
  cases hs : find m a with
  | none => exact wf_nil
  | some s => exact (h a s hs).2

theorem Index.put_agrees {A B : Type} [DecidableEq A] [DecidableEq B] {g : A → B → Option Ptr} {idx : Index A B} (h : idx.Agrees g) (a : A) (b : B) (p : Ptr)
    (hs : idx.isSingle = true → ∀ b', b' ≠ b → g a b' = none) : (idx.put a b p).Agrees (upd2 g a b (some p)) := by
  cases idx with
  | single m =>
    obtain ⟨hw, h⟩ := h
    have hs := hs rfl
    refine ⟨wf_put hw _ _, fun x q => ?_⟩
    rw [find_put]
    simp only [upd, upd2]
    by_cases hx : x = a
    · subst hx
      simp only [if_true, Option.some.injEq, true_and]
      constructor
      · rintro rfl; exact ⟨b, by simp⟩
      · rintro ⟨b', hb'⟩
        by_cases hb : b' = b
        · simpa [hb] using hb'
        · rw [if_neg hb, hs b' hb] at hb'; cases hb'
    · simp only [hx, if_false, false_and, h]
  | multi m =>
    obtain ⟨hw, h1, h2⟩ := h
    refine ⟨wf_put hw _ _, fun x y => ?_, fun x s hx => ?_⟩
    · rw [find_put]
      simp only [upd, upd2]
      by_cases hx : x = a
      · subst hx
        simp only [if_true, Option.getD_some, true_and, find_put, upd]
        split
        · rfl
        · exact h1 _ _
      · simp only [hx, if_false, false_and]; exact h1 _ _
    · rw [find_put] at hx
      simp only [upd] at hx
      split at hx
      · simp only [Option.some.injEq] at hx
        subst hx
        refine ⟨?_, wf_put (sub_wf h2 a) _ _⟩
        intro h0
        have := (find_empty _).1 h0 b
        rw [find_put] at this
        simp at this
      · exact h2 x s hx

theorem Index.del_agrees {A B : Type} [DecidableEq A] [DecidableEq B] {g : A → B → Option Ptr} {idx : Index A B} (h : idx.Agrees g) (a : A) (b : B)
    (hs : idx.isSingle = true → ∀ b', b' ≠ b → g a b' = none) : (idx.del a b).Agrees (upd2 g a b none) := by
  cases idx with
  | single m =>
    obtain ⟨hw, h⟩ := h
    have hs := hs rfl
    refine ⟨wf_del hw _, fun x q => ?_⟩
    rw [find_del]
    simp only [upd, upd2]
    by_cases hx : x = a
    · subst hx
      simp only [if_true, true_and, reduceCtorEq, false_iff, not_exists]
      intro b'
      by_cases hb : b' = b
      · simp [hb]
      · rw [if_neg hb, hs b' hb]; simp
    · simp only [hx, if_false, false_and, h]
  | multi m =>
    obtain ⟨hw, h1, h2⟩ := h
    unfold Index.del
    have hfind : ∀ y, find (Storage.del ((find m a).getD []) b) y = if y = b then none else g a y := by
      intro y; rw [find_del]; simp only [upd]; split
      · rfl
      · exact h1 _ _
    by_cases he : (Storage.del ((find m a).getD []) b).isEmpty = true
    · simp only [he, if_true]
      have he' := List.isEmpty_iff.1 he
      have hnone := (find_empty _).1 he'
      refine ⟨wf_del hw _, fun x y => ?_, fun x s hx => ?_⟩
      · rw [find_del]
        simp only [upd, upd2]
        by_cases hx : x = a
        · subst hx
          simp only [if_true, Option.getD_none, true_and]
          rw [← hfind y, hnone y]; rfl
        · simp only [hx, if_false, false_and]; exact h1 _ _
      · rw [find_del] at hx
        simp only [upd] at hx
        split at hx
        · cases hx
        · exact h2 x s hx
    · rw [Bool.not_eq_true] at he
      simp only [he, Bool.false_eq_true, if_false]
      refine ⟨wf_put hw _ _, fun x y => ?_, fun x s hx => ?_⟩
      · rw [find_put]
        simp only [upd, upd2]
        by_cases hx : x = a
        · subst hx
          simp only [if_true, Option.getD_some, true_and]
          exact hfind y
        · simp only [hx, if_false, false_and]; exact h1 _ _
      · rw [find_put] at hx
        simp only [upd] at hx
        split at hx
        · simp only [Option.some.injEq] at hx
          subst hx
          refine ⟨?_, wf_del (sub_wf h2 a) _⟩
          intro h0; rw [h0] at he; simp at he
        · exact h2 x s hx

theorem Index.put_isSingle {A B : Type} [DecidableEq A] [DecidableEq B] (idx : Index A B) (a : A) (b : B) (p : Ptr) : (idx.put a b p).isSingle = idx.isSingle := by
  cases idx <;> rfl
theorem Index.del_isSingle {A B : Type} [DecidableEq A] [DecidableEq B] (idx : Index A B) (a : A) (b : B) : (idx.del a b).isSingle = idx.isSingle := by
  cases idx <;> rfl

/-- What a matrix holds. -/
def Matrix.content (m : Matrix R C E) (k : R × C) : Option E := (find m.map k).bind m.obj

/-- The contents, the modification times, and which indexes are single: all a user can see (`same_view_same_observations`). -/
structure MView (R C E : Type) where
  content : R × C → Option E
  lm : R × C → Option Time
  rowUnique : Bool
  colUnique : Bool

def Matrix.view (m : Matrix R C E) : MView R C E := ⟨m.content, find m.lm, m.fwd.isSingle, m.tr.isSingle⟩

/-- Every pointer is to a live object under its own key, every live object is owned, both indexes agree with the map, every entry has a modification time. -/
structure Matrix.Inv (S : Schema K R C E P) (m : Matrix R C E) : Prop where
  fresh : ∀ p e, find m.heap p = some e → p < m.next
  live : ∀ k p, find m.map k = some p → ∃ e, find m.heap p = some e ∧ S.rc e = k
  owned : ∀ p e, find m.heap p = some e → find m.map (S.rc e) = some p
  fwd : m.fwd.Agrees fun r c => find m.map (r, c)
  tr : m.tr.Agrees fun c r => find m.map (r, c)
  lm : ∀ k e, m.content k = some e → ∃ t, find m.lm k = some t
  wfMap : Wf m.map
  wfLm : Wf m.lm
  wfHeap : Wf m.heap

theorem Matrix.Inv.content_iff {S : Schema K R C E P} {m : Matrix R C E} (h : m.Inv S) (k : R × C) (e : E) :
    m.content k = some e ↔ ∃ p, find m.map k = some p ∧ find m.heap p = some e := by
  unfold Matrix.content Matrix.obj
  cases hk : find m.map k <;> simp

theorem Matrix.Inv.content_none {S : Schema K R C E P} {m : Matrix R C E} (h : m.Inv S) (k : R × C) : m.content k = none ↔ find m.map k = none := by
  unfold Matrix.content Matrix.obj
  cases hk : find m.map k with
  | none => simp
  | some p => obtain ⟨e, he, _⟩ := h.live k p hk; simp [he]

theorem Matrix.Inv.content_key {S : Schema K R C E P} {m : Matrix R C E} (h : m.Inv S) {k : R × C} {e : E} (hc : m.content k = some e) : S.rc e = k := by
  obtain ⟨p, hp, he⟩ := (h.content_iff k e).1 hc
  obtain ⟨e', he', hk⟩ := h.live k p hp
  rw [he] at he'; cases he'; exact hk

/-- No other entry in the way of `k`. -/
def MView.Free (v : MView R C E) (k : R × C) : Prop :=
  (v.rowUnique = true → ∀ c, c ≠ k.2 → v.content (k.1, c) = none) ∧ (v.colUnique = true → ∀ r, r ≠ k.1 → v.content (r, k.2) = none)

theorem Matrix.Inv.free {S : Schema K R C E P} {m : Matrix R C E} (h : m.Inv S) {k : R × C} {p : Ptr} (hp : find m.map k = some p) : m.view.Free k := by
  refine ⟨fun hs c hc => ?_, fun hs r hr => ?_⟩
  · rw [show m.view.content = m.content from rfl, h.content_none]
    cases hq : find m.map (k.1, c) with
    | none => rfl
    | some q =>
      exfalso
      have ha := h.fwd
      cases hidx : m.fwd with
      | multi _ => rw [show m.view.rowUnique = m.fwd.isSingle from rfl, hidx] at hs; cases hs
      | single x =>
        rw [hidx] at ha
        have h1 := (ha.2 k.1 p).2 ⟨k.2, hp⟩
        have h2 := (ha.2 k.1 q).2 ⟨c, hq⟩
        rw [h1] at h2; cases h2
        obtain ⟨e1, a1, b1⟩ := h.live _ _ hp
        obtain ⟨e2, a2, b2⟩ := h.live _ _ hq
        rw [a1] at a2; cases a2
        rw [b1] at b2
        exact hc (by rw [b2])
  · rw [show m.view.content = m.content from rfl, h.content_none]
    cases hq : find m.map (r, k.2) with
    | none => rfl
    | some q =>
      exfalso
      have ha := h.tr
      cases hidx : m.tr with
      | multi _ => rw [show m.view.colUnique = m.tr.isSingle from rfl, hidx] at hs; cases hs
      | single x =>
        rw [hidx] at ha
        have h1 := (ha.2 k.2 p).2 ⟨k.1, hp⟩
        have h2 := (ha.2 k.2 q).2 ⟨r, hq⟩
        rw [h1] at h2; cases h2
        obtain ⟨e1, a1, b1⟩ := h.live _ _ hp
        obtain ⟨e2, a2, b2⟩ := h.live _ _ hq
        rw [a1] at a2; cases a2
        rw [b1] at b2
        exact hr (by rw [b2])

theorem agrees_congr {A B : Type} [DecidableEq A] [DecidableEq B] {g g' : A → B → Option Ptr} {idx : Index A B} (h : idx.Agrees g) (e : g = g') : idx.Agrees g' := e ▸ h

theorem upd_pair_fwd {m : AMap (R × C) Ptr} (k : R × C) (v : Option Ptr) :
    upd2 (fun r c => find m (r, c)) k.1 k.2 v = fun r c => upd (find m) k v (r, c) := by
  funext r c
  simp only [upd2, upd, Prod.ext_iff]

theorem upd_pair_tr {m : AMap (R × C) Ptr} (k : R × C) (v : Option Ptr) :
    upd2 (fun c r => find m (r, c)) k.2 k.1 v = fun c r => upd (find m) k v (r, c) := by
  funext c r
  simp only [upd2, upd, Prod.ext_iff, and_comm]

theorem Matrix.Inv.find_free {S : Schema K R C E P} {m : Matrix R C E} (h : m.Inv S) (k : R × C) (p : Ptr) :
    find (m.free k) p = if find m.map k = some p then none else find m.heap p := by
  unfold Matrix.free
  cases hk : find m.map k with
  | none => simp
  | some q =>
    simp only [find_del, upd, Option.some.injEq]
    by_cases hpq : p = q
    · simp [hpq]
    · simp [hpq, show ¬ q = p from fun e => hpq e.symm]

theorem Matrix.doUpdate_spec {S : Schema K R C E P} {m : Matrix R C E} (h : m.Inv S) (us : Time) (e : E) (hf : m.view.Free (S.rc e)) :
    (m.doUpdate us (S.rc e) e).Inv S ∧
    (m.doUpdate us (S.rc e) e).view = ⟨upd m.content (S.rc e) (some e), upd (find m.lm) (S.rc e) (some us), m.fwd.isSingle, m.tr.isSingle⟩ := by
  have hnew : find m.heap m.next = none := by
    cases hn : find m.heap m.next with
    | none => rfl
    | some x => exact absurd (h.fresh _ _ hn) (Nat.lt_irrefl _)
  have hheap : ∀ p, find (m.doUpdate us (S.rc e) e).heap p = if p = m.next then some e else if find m.map (S.rc e) = some p then none else find m.heap p := by
    intro p
    show find (put (m.free (S.rc e)) m.next e) p = _
    rw [find_put]; simp only [upd]
    split
    · rfl
    · exact h.find_free _ _
  have hmap : find (m.doUpdate us (S.rc e) e).map = upd (find m.map) (S.rc e) (some m.next) := find_put _ _ _
  have hlm : find (m.doUpdate us (S.rc e) e).lm = upd (find m.lm) (S.rc e) (some us) := find_put _ _ _
  have hmapne : ∀ k p, find m.map k = some p → p ≠ m.next := by
    intro k p hp hpn
    obtain ⟨x, hx, _⟩ := h.live k p hp
    rw [hpn, hnew] at hx; cases hx
  have hcontent : (m.doUpdate us (S.rc e) e).content = upd m.content (S.rc e) (some e) := by
    funext k
    show (find (m.doUpdate us (S.rc e) e).map k).bind (fun p => find (m.doUpdate us (S.rc e) e).heap p) = _
    rw [hmap]
    simp only [upd]
    by_cases hk : k = S.rc e
    · simp [hk, hheap]
    · simp only [hk, if_false]
      unfold Matrix.content Matrix.obj
      cases hp : find m.map k with
      | none => rfl
      | some p =>
        simp only [Option.bind_some, hheap, hmapne k p hp, if_false]
        rw [if_neg]
        intro hc
        obtain ⟨e1, a1, b1⟩ := h.live _ _ hp
        obtain ⟨e2, a2, b2⟩ := h.live _ _ hc
        rw [a1] at a2; cases a2
        exact hk (b1.symm.trans b2)
  refine ⟨⟨?_, ?_, ?_, ?_, ?_, ?_, wf_put h.wfMap _ _, wf_put h.wfLm _ _, ?_⟩, ?_⟩
  · intro p x hx
    rw [hheap] at hx
    show p < m.next + 1
    split at hx
    · rename_i hp; rw [hp]; exact Nat.lt_succ_self _
    · split at hx
      · cases hx
      · exact Nat.lt_succ_of_lt (h.fresh p x hx)
  · intro k p hp
    rw [hmap] at hp
    simp only [upd] at hp
    split at hp
    · rename_i hk
      cases hp
      exact ⟨e, by rw [hheap, if_pos rfl], hk.symm⟩
    · rename_i hk
      obtain ⟨x, hx, hkx⟩ := h.live k p hp
      refine ⟨x, ?_, hkx⟩
      rw [hheap, if_neg (hmapne k p hp), if_neg]
      · exact hx
      · intro hc
        obtain ⟨y, hy, hky⟩ := h.live _ _ hc
        rw [hx] at hy; cases hy
        exact hk (hkx.symm.trans hky)
  · intro p x hx
    rw [hheap] at hx
    rw [hmap]
    simp only [upd]
    split at hx
    · rename_i hp; cases hx; subst hp; simp
    · split at hx
      · cases hx
      · rename_i hn hne
        have ho := h.owned p x hx
        rw [if_neg]
        · exact ho
        · intro hc; rw [hc] at ho; exact hne ho
  · refine agrees_congr (Index.put_agrees h.fwd (S.rc e).1 (S.rc e).2 m.next ?_) ?_
    · intro hs c hc
      exact (h.content_none _).1 (hf.1 hs c hc)
    · rw [upd_pair_fwd]; rw [hmap]
  · refine agrees_congr (Index.put_agrees h.tr (S.rc e).2 (S.rc e).1 m.next ?_) ?_
    · intro hs r hr
      exact (h.content_none _).1 (hf.2 hs r hr)
    · rw [upd_pair_tr]; rw [hmap]
  · intro k x hx
    rw [hcontent] at hx
    rw [hlm]
    simp only [upd] at hx ⊢
    split
    · exact ⟨us, rfl⟩
    · rename_i hk; rw [if_neg hk] at hx; exact h.lm k x hx
  · show Wf (put (m.free (S.rc e)) m.next e)
    refine wf_put ?_ _ _
    unfold Matrix.free
    split
    · exact wf_del h.wfHeap _
    · exact h.wfHeap
  · unfold Matrix.view
    rw [hcontent, hlm]
    simp only [Matrix.doUpdate, Index.put_isSingle]

theorem Matrix.doEraseKeep_spec {S : Schema K R C E P} {m : Matrix R C E} (h : m.Inv S) (k : R × C) (hf : m.view.Free k) :
    (m.doEraseKeep k).Inv S ∧
    (m.doEraseKeep k).view = ⟨upd m.content k none, find m.lm, m.fwd.isSingle, m.tr.isSingle⟩ := by
  have hheap : ∀ p, find (m.doEraseKeep k).heap p = if find m.map k = some p then none else find m.heap p := h.find_free k
  have hmap : find (m.doEraseKeep k).map = upd (find m.map) k none := find_del _ _
  have hcontent : (m.doEraseKeep k).content = upd m.content k none := by
    funext x
    show (find (m.doEraseKeep k).map x).bind (fun p => find (m.doEraseKeep k).heap p) = _
    rw [hmap]
    simp only [upd]
    by_cases hx : x = k
    · simp [hx]
    · simp only [hx, if_false]
      unfold Matrix.content Matrix.obj
      cases hp : find m.map x with
      | none => rfl
      | some p =>
        simp only [Option.bind_some, hheap]
        rw [if_neg]
        intro hc
        obtain ⟨e1, a1, b1⟩ := h.live _ _ hp
        obtain ⟨e2, a2, b2⟩ := h.live _ _ hc
        rw [a1] at a2; cases a2
        exact hx (b1.symm.trans b2)
  refine ⟨⟨?_, ?_, ?_, ?_, ?_, ?_, wf_del h.wfMap _, h.wfLm, ?_⟩, ?_⟩
  · intro p x hx
    rw [hheap] at hx
    split at hx
    · cases hx
    · exact h.fresh p x hx
  · intro x p hp
    rw [hmap] at hp
    simp only [upd] at hp
    split at hp
    · cases hp
    · rename_i hk
      obtain ⟨e, he, hke⟩ := h.live x p hp
      refine ⟨e, ?_, hke⟩
      rw [hheap, if_neg]
      · exact he
      · intro hc
        obtain ⟨y, hy, hky⟩ := h.live _ _ hc
        rw [he] at hy; cases hy
        exact hk (hke.symm.trans hky)
  · intro p x hx
    rw [hheap] at hx
    rw [hmap]
    simp only [upd]
    split at hx
    · cases hx
    · rename_i hne
      have ho := h.owned p x hx
      rw [if_neg]
      · exact ho
      · intro hc; rw [hc] at ho; exact hne ho
  · refine agrees_congr (Index.del_agrees h.fwd k.1 k.2 ?_) ?_
    · intro hs c hc
      exact (h.content_none _).1 (hf.1 hs c hc)
    · rw [upd_pair_fwd]; rw [hmap]
  · refine agrees_congr (Index.del_agrees h.tr k.2 k.1 ?_) ?_
    · intro hs r hr
      exact (h.content_none _).1 (hf.2 hs r hr)
    · rw [upd_pair_tr]; rw [hmap]
  · intro x e hx
    rw [hcontent] at hx
    simp only [upd] at hx
    split at hx
    · cases hx
    · exact h.lm x e hx
  · show Wf (m.free k)
    unfold Matrix.free
    split
    · exact wf_del h.wfHeap _
    · exact h.wfHeap
  · unfold Matrix.view
    rw [hcontent]
    simp only [Matrix.doEraseKeep, Index.del_isSingle]

/-- Changing modification times only, keeping one for every entry. -/
theorem Matrix.Inv.withLm {S : Schema K R C E P} {m : Matrix R C E} (h : m.Inv S) (l : AMap (R × C) Time) (hw : Wf l)
    (hl : ∀ k e, m.content k = some e → ∃ t, find l k = some t) : { m with lm := l }.Inv S :=
  ⟨h.fresh, h.live, h.owned, h.fwd, h.tr, hl, h.wfMap, hw, h.wfHeap⟩

theorem Matrix.doErase_spec {S : Schema K R C E P} {m : Matrix R C E} (h : m.Inv S) (us : Time) (k : R × C) (hf : m.view.Free k) :
    (m.doErase us k).Inv S ∧
    (m.doErase us k).view = ⟨upd m.content k none, upd (find m.lm) k (some us), m.fwd.isSingle, m.tr.isSingle⟩ := by
  have h' : { m with lm := put m.lm k us }.Inv S := by
    refine h.withLm _ (wf_put h.wfLm _ _) ?_
    intro x e hx
    rw [find_put]; simp only [upd]
    split
    · exact ⟨_, rfl⟩
    · exact h.lm x e hx
  have := Matrix.doEraseKeep_spec h' k hf
  refine ⟨this.1, this.2.trans ?_⟩
  rw [find_put]; rfl

theorem Matrix.forget_spec {S : Schema K R C E P} {m : Matrix R C E} (h : m.Inv S) (k : R × C) (hf : m.view.Free k) :
    (m.undo (.forget k)).Inv S ∧
    (m.undo (.forget k)).view = ⟨upd m.content k none, upd (find m.lm) k none, m.fwd.isSingle, m.tr.isSingle⟩ := by
  obtain ⟨i1, i2⟩ := Matrix.doEraseKeep_spec h k hf
  have hcontent : (m.doEraseKeep k).content = upd m.content k none := congrArg MView.content i2
  have heq : m.undo (.forget k) = { m.doEraseKeep k with lm := del m.lm k } := rfl
  rw [heq]
  constructor
  · refine i1.withLm _ (wf_del h.wfLm _) ?_
    intro x e hx
    rw [hcontent] at hx
    rw [find_del]
    simp only [upd] at hx ⊢
    split at hx
    · cases hx
    · rename_i hk; rw [if_neg hk]; exact h.lm x e hx
  · have : ({ m.doEraseKeep k with lm := del m.lm k } : Matrix R C E).view = ⟨(m.doEraseKeep k).content, find (del m.lm k), m.fwd.isSingle, m.tr.isSingle⟩ := by
      unfold Matrix.view
      simp only [Matrix.doEraseKeep, Index.del_isSingle]
      rfl
    rw [this, hcontent, find_del]

end Current.Storage
