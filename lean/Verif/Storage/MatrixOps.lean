import Verif.Storage.MatrixInv
/-!
What `Add` and the erasing functions of the matrices do: to the contents, and to the journal.
-/
namespace Current.Storage
variable {K R C E P : Type} [DecidableEq K] [DecidableEq R] [DecidableEq C]

/-- A logged change: replaying its event does it, running its closure undoes it, on anything that looks the same. -/
structure MStep (S : Schema K R C E P) (m : Matrix R C E) (ev : MEv R C E) (u : MUndo R C E) (m' : Matrix R C E) : Prop where
  inv : m'.Inv S
  replay : ∀ g : Matrix R C E, g.Inv S → g.view = m.view → (g.replay S ev).Inv S ∧ (g.replay S ev).view = m'.view
  undo : ∀ g : Matrix R C E, g.Inv S → g.view = m'.view → (g.undo u).Inv S ∧ (g.undo u).view = m.view

/-- Several of them. -/
inductive MChain (S : Schema K R C E P) : Matrix R C E → List (MEv R C E × MUndo R C E) → Matrix R C E → Prop where
  | nil (m : Matrix R C E) : MChain S m [] m
  | cons {m m' m'' : Matrix R C E} {ev : MEv R C E} {u : MUndo R C E} {l : List (MEv R C E × MUndo R C E)} :
      MStep S m ev u m' → MChain S m' l m'' → MChain S m ((ev, u) :: l) m''

theorem MChain.inv {S : Schema K R C E P} {m m' : Matrix R C E} {l : List (MEv R C E × MUndo R C E)} (h : MChain S m l m') (hm : m.Inv S) : m'.Inv S := by
  induction h with
  | nil => exact hm
  | cons hs _ ih => exact ih hs.inv

theorem MChain.append {S : Schema K R C E P} {m m' m'' : Matrix R C E} {l l' : List (MEv R C E × MUndo R C E)} (h : MChain S m l m') (h' : MChain S m' l' m'') :
    MChain S m (l ++ l') m'' := by
  induction h with
  | nil => exact h'
  | cons hs _ ih => exact .cons hs (ih h')

theorem MView.free_upd {v : MView R C E} {k : R × C} (h : v.Free k) (w : MView R C E) (x : Option E) (hc : w.content = upd v.content k x)
    (hr : w.rowUnique = v.rowUnique) (hcu : w.colUnique = v.colUnique) : w.Free k := by
  refine ⟨fun hs c hc' => ?_, fun hs r hr' => ?_⟩
  · rw [hc, upd_other]
    · exact h.1 (hr ▸ hs) c hc'
    · intro e; exact hc' (congrArg Prod.snd e)
  · rw [hc, upd_other]
    · exact h.2 (hcu ▸ hs) r hr'
    · intro e; exact hr' (congrArg Prod.fst e)

theorem view_content {g m : Matrix R C E} (h : g.view = m.view) : g.content = m.content := congrArg MView.content h
theorem view_lm {g m : Matrix R C E} (h : g.view = m.view) : find g.lm = find m.lm := congrArg MView.lm h
theorem view_row {g m : Matrix R C E} (h : g.view = m.view) : g.fwd.isSingle = m.fwd.isSingle := congrArg MView.rowUnique h
theorem view_col {g m : Matrix R C E} (h : g.view = m.view) : g.tr.isSingle = m.tr.isSingle := congrArg MView.colUnique h

theorem Matrix.view_eq (m : Matrix R C E) : m.view = ⟨m.content, find m.lm, m.fwd.isSingle, m.tr.isSingle⟩ := rfl

/-- Entries present are free of conflicts. -/
theorem Matrix.Inv.free_of_content {S : Schema K R C E P} {m : Matrix R C E} (h : m.Inv S) {k : R × C} {e : E} (hc : m.content k = some e) : m.view.Free k := by
  obtain ⟨p, hp, _⟩ := (h.content_iff k e).1 hc
  exact h.free hp

theorem step_overwrite {S : Schema K R C E P} {m : Matrix R C E} (h : m.Inv S) (us t : Time) (e prev : E) (hc : m.content (S.rc e) = some prev)
    (hl : find m.lm (S.rc e) = some t) : MStep S m (.updated us e) (.restore t (S.rc e) prev) (m.doUpdate us (S.rc e) e) := by
  have hf := h.free_of_content hc
  obtain ⟨i1, i2⟩ := Matrix.doUpdate_spec h us e hf
  have hk : S.rc prev = S.rc e := h.content_key hc
  refine ⟨i1, ?_, ?_⟩
  · intro g hg hv
    obtain ⟨j1, j2⟩ := Matrix.doUpdate_spec hg us e (hv ▸ hf)
    refine ⟨j1, ?_⟩
    rw [i2]; refine j2.trans ?_
    rw [view_content hv, view_lm hv, view_row hv, view_col hv]
  · intro g hg hv
    rw [i2] at hv
    have hgf : g.view.Free (S.rc prev) := by
      rw [hk, hv]
      exact MView.free_upd hf _ (some e) rfl rfl rfl
    obtain ⟨j1, j2⟩ := Matrix.doUpdate_spec hg t prev hgf
    have hu : g.undo (.restore t (S.rc e) prev) = g.doUpdate t (S.rc prev) prev := by rw [hk]; rfl
    rw [hu]
    refine ⟨j1, j2.trans ?_⟩
    rw [show g.content = _ from congrArg MView.content hv, show find g.lm = _ from congrArg MView.lm hv, show g.fwd.isSingle = _ from congrArg MView.rowUnique hv,
      show g.tr.isSingle = _ from congrArg MView.colUnique hv, hk]
    simp only [upd_upd]
    rw [← hc, ← hl, upd_id, upd_id]
    rfl

theorem step_delete {S : Schema K R C E P} {m : Matrix R C E} (h : m.Inv S) (us t : Time) (prev : E) (k : R × C) (hc : m.content k = some prev)
    (hl : find m.lm k = some t) : MStep S m (.deleted us (S.rc prev)) (.restore t k prev) (m.doErase us k) := by
  have hf := h.free_of_content hc
  have hk : S.rc prev = k := h.content_key hc
  obtain ⟨i1, i2⟩ := Matrix.doErase_spec h us k hf
  refine ⟨i1, ?_, ?_⟩
  · intro g hg hv
    obtain ⟨j1, j2⟩ := Matrix.doErase_spec hg us k (hv ▸ hf)
    have hr : g.replay S (.deleted us (S.rc prev)) = g.doErase us k := by rw [hk]; rfl
    rw [hr]
    refine ⟨j1, ?_⟩
    rw [i2]; refine j2.trans ?_
    rw [view_content hv, view_lm hv, view_row hv, view_col hv]
  · intro g hg hv
    rw [i2] at hv
    have hgf : g.view.Free (S.rc prev) := by
      rw [hk, hv]
      exact MView.free_upd hf _ none rfl rfl rfl
    obtain ⟨j1, j2⟩ := Matrix.doUpdate_spec hg t prev hgf
    have hu : g.undo (.restore t k prev) = g.doUpdate t (S.rc prev) prev := by rw [hk]; rfl
    rw [hu]
    refine ⟨j1, j2.trans ?_⟩
    rw [show g.content = _ from congrArg MView.content hv, show find g.lm = _ from congrArg MView.lm hv, show g.fwd.isSingle = _ from congrArg MView.rowUnique hv,
      show g.tr.isSingle = _ from congrArg MView.colUnique hv, hk]
    simp only [upd_upd]
    rw [← hc, ← hl, upd_id, upd_id]
    rfl

theorem step_new {S : Schema K R C E P} {m : Matrix R C E} (h : m.Inv S) (us : Time) (e : E) (hc : m.content (S.rc e) = none) (hf : m.view.Free (S.rc e)) :
    MStep S m (.updated us e) (match find m.lm (S.rc e) with | some t => .eraseTo t (S.rc e) | none => .forget (S.rc e)) (m.doUpdate us (S.rc e) e) := by
  obtain ⟨i1, i2⟩ := Matrix.doUpdate_spec h us e hf
  refine ⟨i1, ?_, ?_⟩
  · intro g hg hv
    obtain ⟨j1, j2⟩ := Matrix.doUpdate_spec hg us e (hv ▸ hf)
    refine ⟨j1, ?_⟩
    rw [i2]; refine j2.trans ?_
    rw [view_content hv, view_lm hv, view_row hv, view_col hv]
  · intro g hg hv
    rw [i2] at hv
    have hgf : g.view.Free (S.rc e) := by
      rw [hv]
      exact MView.free_upd hf _ (some e) rfl rfl rfl
    have ec : g.content = _ := congrArg MView.content hv
    have el : find g.lm = _ := congrArg MView.lm hv
    have er : g.fwd.isSingle = _ := congrArg MView.rowUnique hv
    have et : g.tr.isSingle = _ := congrArg MView.colUnique hv
    cases hl : find m.lm (S.rc e) with
    | some t =>
      obtain ⟨j1, j2⟩ := Matrix.doErase_spec hg t (S.rc e) hgf
      refine ⟨j1, j2.trans ?_⟩
      rw [ec, el, er, et]
      simp only [upd_upd]
      rw [← hc, ← hl, upd_id, upd_id]
      rfl
    | none =>
      obtain ⟨j1, j2⟩ := Matrix.forget_spec hg (S.rc e) hgf
      refine ⟨j1, j2.trans ?_⟩
      rw [ec, el, er, et]
      simp only [upd_upd]
      rw [← hc, upd_id, show upd (find m.lm) (S.rc e) none = find m.lm by rw [← hl]; exact upd_id _ _]
      rfl

/-! ### Conflicts -/

theorem conflict_row {S : Schema K R C E P} {m : Matrix R C E} (h : m.Inv S) {r : R} :
    match m.fwd.conflict r with
    | none => m.fwd.isSingle = true → ∀ c, m.content (r, c) = none
    | some p => m.fwd.isSingle = true ∧ ∃ e, m.obj p = some e ∧ S.row e = r ∧ m.content (r, S.col e) = some e := by
  have ha := h.fwd
  cases hidx : m.fwd with
  | multi x => simp [Index.conflict, Index.isSingle]
  | single x =>
    rw [hidx] at ha
    simp only [Index.conflict]
    cases hf : find x r with
    | none =>
      intro _ c
      rw [h.content_none]
      cases hp : find m.map (r, c) with
      | none => rfl
      | some p => have := (ha.2 r p).2 ⟨c, hp⟩; rw [hf] at this; cases this
    | some p =>
      obtain ⟨c, hc⟩ := (ha.2 r p).1 hf
      obtain ⟨e, he, hk⟩ := h.live _ _ hc
      have h1 : S.row e = r := congrArg Prod.fst hk
      have h2 : S.col e = c := congrArg Prod.snd hk
      exact ⟨rfl, e, he, h1, (h.content_iff _ _).2 ⟨p, by rw [h2]; exact hc, he⟩⟩

theorem conflict_col {S : Schema K R C E P} {m : Matrix R C E} (h : m.Inv S) {c : C} :
    match m.tr.conflict c with
    | none => m.tr.isSingle = true → ∀ r, m.content (r, c) = none
    | some p => m.tr.isSingle = true ∧ ∃ e, m.obj p = some e ∧ S.col e = c ∧ m.content (S.row e, c) = some e := by
  have ha := h.tr
  cases hidx : m.tr with
  | multi x => simp [Index.conflict, Index.isSingle]
  | single x =>
    rw [hidx] at ha
    simp only [Index.conflict]
    cases hf : find x c with
    | none =>
      intro _ r
      rw [h.content_none]
      cases hp : find m.map (r, c) with
      | none => rfl
      | some p => have := (ha.2 c p).2 ⟨r, hp⟩; rw [hf] at this; cases this
    | some p =>
      obtain ⟨r, hc⟩ := (ha.2 c p).1 hf
      obtain ⟨e, he, hk⟩ := h.live _ _ hc
      have h1 : S.row e = r := congrArg Prod.fst hk
      have h2 : S.col e = c := congrArg Prod.snd hk
      exact ⟨rfl, e, he, h2, (h.content_iff _ _).2 ⟨p, by rw [h1]; exact hc, he⟩⟩

/-- What `Add(e)` must do to the contents: the new entry is there, what shares its row (if rows are unique) or its column (if columns are unique) is gone, the rest stays. -/
def MView.added (S : Schema K R C E P) (v : MView R C E) (e : E) : R × C → Option E := fun k =>
  if k = S.rc e then some e
  else if (v.rowUnique = true ∧ k.1 = S.row e) ∨ (v.colUnique = true ∧ k.2 = S.col e) then none
  else v.content k

/-- The statement about the modification times: the entry added and the entries removed have the time of one of the clock readings; whatever did not change keeps its time. -/
def TimesOk (S : Schema K R C E P) (m m' : Matrix R C E) (e : E) (times : List Time) : Prop :=
  (∃ t ∈ times, find m'.lm (S.rc e) = some t) ∧ (∀ k, m.content k = m'.content k → k ≠ S.rc e → find m'.lm k = find m.lm k) ∧
  ∀ k, m.content k ≠ m'.content k → ∃ t ∈ times, find m'.lm k = some t

theorem finishAdd_spec {S : Schema K R C E P} {m m₂ : Matrix R C E} (e : E) {log : List (MEv R C E × MUndo R C E)} (h₂ : m₂.Inv S) (hlog : MChain S m log m₂)
    (hcn : m.content (S.rc e) = none)
    (hA : ∀ x, m₂.content x = if (m.fwd.isSingle = true ∧ x.1 = S.row e) ∨ (m.tr.isSingle = true ∧ x.2 = S.col e) then none else m.content x)
    (hB : find m₂.lm (S.rc e) = find m.lm (S.rc e)) (hr : m₂.fwd.isSingle = m.fwd.isSingle) (ht : m₂.tr.isSingle = m.tr.isSingle)
    (hD : ∀ x, m.content x = m₂.content x → find m₂.lm x = find m.lm x) (now : Time) (times : List Time) (hnow : now ∈ times)
    (hE : ∀ x, m.content x ≠ m₂.content x → ∃ t ∈ times, find m₂.lm x = some t) :
    ∃ m' log', Matrix.finishAdd S m.lm m₂ now e log = some (m', log') ∧ MChain S m log' m' ∧ m'.content = m.view.added S e ∧ log' ≠ [] ∧ TimesOk S m m' e times := by
  have hc2 : m₂.content (S.rc e) = none := by rw [hA]; split <;> simp [hcn]
  have hf : m₂.view.Free (S.rc e) := by
    refine ⟨fun hs c hc => ?_, fun hs r hr' => ?_⟩
    · show m₂.content _ = none
      rw [hA, if_pos]; left; exact ⟨hr ▸ hs, rfl⟩
    · show m₂.content _ = none
      rw [hA, if_pos]; right; exact ⟨ht ▸ hs, rfl⟩
  have hs := step_new h₂ now e hc2 hf
  obtain ⟨i1, i2⟩ := Matrix.doUpdate_spec h₂ now e hf
  have ic : (m₂.doUpdate now (S.rc e) e).content = upd m₂.content (S.rc e) (some e) := congrArg MView.content i2
  have il : find (m₂.doUpdate now (S.rc e) e).lm = upd (find m₂.lm) (S.rc e) (some now) := congrArg MView.lm i2
  have hcont : (m₂.doUpdate now (S.rc e) e).content = m.view.added S e := by
    rw [ic]; funext x
    unfold MView.added upd
    by_cases hx : x = S.rc e
    · simp [hx]
    · simp only [hx, if_false]; exact hA x
  have htimes : TimesOk S m (m₂.doUpdate now (S.rc e) e) e times := by
    refine ⟨⟨now, hnow, by rw [il]; simp⟩, ?_, ?_⟩
    · intro k hk hne
      rw [il, upd_other hne]
      apply hD
      rw [ic, upd_other hne] at hk
      exact hk
    · intro k hk
      by_cases hne : k = S.rc e
      · exact ⟨now, hnow, by rw [il, hne]; simp⟩
      · rw [il, upd_other hne]
        apply hE
        rw [ic, upd_other hne] at hk
        exact hk
  unfold Matrix.finishAdd
  dsimp only
  rw [← hB]
  cases hl : find m₂.lm (S.rc e) with
  | some t => rw [hl] at hs; exact ⟨_, _, rfl, hlog.append (.cons hs (.nil _)), hcont, by simp, htimes⟩
  | none => rw [hl] at hs; exact ⟨_, _, rfl, hlog.append (.cons hs (.nil _)), hcont, by simp, htimes⟩

/-- `Add` never fails an assertion, does what it must, and logs it properly. -/
theorem add_chain {S : Schema K R C E P} {m : Matrix R C E} (h : m.Inv S) (t₁ t₂ t₃ : Time) (e : E) :
    ∃ m' log, m.add S t₁ t₂ t₃ e = some (m', log) ∧ MChain S m log m' ∧ m'.content = m.view.added S e ∧ log ≠ [] ∧ TimesOk S m m' e [t₁, t₂, t₃] := by
  unfold Matrix.add
  simp only
  cases hk : find m.map (S.rc e) with
  | some p =>
    obtain ⟨prev, hprev, hkey⟩ := h.live _ _ hk
    have hc : m.content (S.rc e) = some prev := (h.content_iff _ _).2 ⟨p, hk, hprev⟩
    obtain ⟨t, ht⟩ := h.lm _ _ hc
    have hs := step_overwrite h t₁ t e prev hc ht
    have hf := h.free_of_content hc
    obtain ⟨i1, i2⟩ := Matrix.doUpdate_spec h t₁ e hf
    have ic : (m.doUpdate t₁ (S.rc e) e).content = upd m.content (S.rc e) (some e) := congrArg MView.content i2
    have il : find (m.doUpdate t₁ (S.rc e) e).lm = upd (find m.lm) (S.rc e) (some t₁) := congrArg MView.lm i2
    refine ⟨m.doUpdate t₁ (S.rc e) e, _, ?_, .cons hs (.nil _), ?_, by simp, ⟨t₁, by simp, by rw [il]; simp⟩, ?_, ?_⟩
    · simp only [Matrix.obj, hprev, ht]
    · rw [ic]
      funext x
      unfold MView.added upd
      by_cases hx : x = S.rc e
      · simp [hx]
      · simp only [hx, if_false]
        split
        · rename_i hcase
          rcases hcase with ⟨a, b⟩ | ⟨a, b⟩
          · have := hf.1 a x.2 (fun hc => hx (Prod.ext b hc))
            rw [show ((S.rc e).1, x.2) = x from Prod.ext b.symm rfl] at this
            exact this
          · have := hf.2 a x.1 (fun hc => hx (Prod.ext hc b))
            rw [show (x.1, (S.rc e).2) = x from Prod.ext rfl b.symm] at this
            exact this
        · rfl
    · intro k _ hne; rw [il, upd_other hne]
    · intro k hk
      refine ⟨t₁, by simp, ?_⟩
      rw [ic] at hk
      by_cases hx : k = S.rc e
      · rw [il, hx]; simp
      · rw [upd_other hx] at hk; exact absurd rfl hk
  | none =>
    have hcn : m.content (S.rc e) = none := (h.content_none _).2 hk
    have hrow := conflict_row h (r := (S.rc e).1)
    have hcol := conflict_col h (c := (S.rc e).2)
    cases hfp : m.fwd.conflict (S.rc e).1 with
    | none =>
      rw [hfp] at hrow
      cases htq : m.tr.conflict (S.rc e).2 with
      | none =>
        rw [htq] at hcol
        refine finishAdd_spec e h (.nil m) hcn ?_ rfl rfl rfl (fun _ _ => rfl) t₁ _ (by simp) (fun _ hh => absurd rfl hh)
        intro x
        split
        · rename_i hcase
          rcases hcase with ⟨a, b⟩ | ⟨a, b⟩
          · have := hrow a x.2
            rw [show ((S.rc e).1, x.2) = x from Prod.ext b.symm rfl] at this
            exact this
          · have := hcol a x.1
            rw [show (x.1, (S.rc e).2) = x from Prod.ext rfl b.symm] at this
            exact this
        · rfl
      | some q =>
        rw [htq] at hcol
        obtain ⟨hcs, b, hb, hbc, hbcont⟩ := hcol
        have hbk : S.rc b = (S.row b, (S.rc e).2) := by rw [← hbc]; rfl
        rw [← hbk] at hbcont
        obtain ⟨tb, htb⟩ := h.lm _ _ hbcont
        have hne : S.rc b ≠ S.rc e := by intro hc; rw [hc, hcn] at hbcont; cases hbcont
        have hs := step_delete h t₁ tb b (S.rc b) hbcont htb
        obtain ⟨i1, i2⟩ := Matrix.doErase_spec h t₁ (S.rc b) (h.free_of_content hbcont)
        have ic : (m.doErase t₁ (S.rc b)).content = upd m.content (S.rc b) none := congrArg MView.content i2
        have il : find (m.doErase t₁ (S.rc b)).lm = upd (find m.lm) (S.rc b) (some t₁) := congrArg MView.lm i2
        simp only [hb, htb]
        refine finishAdd_spec e i1 (.cons hs (.nil _)) hcn ?_ ?_ (congrArg MView.rowUnique i2) (congrArg MView.colUnique i2) ?_ t₂ _ (by simp) ?_
        · intro x
          rw [ic]
          by_cases hx : x = S.rc b
          · subst hx; rw [upd_same, if_pos]; right; exact ⟨hcs, hbc⟩
          · rw [upd_other hx]
            split
            · rename_i hcase
              rcases hcase with ⟨a, b'⟩ | ⟨a, b'⟩
              · have := hrow a x.2
                rw [show ((S.rc e).1, x.2) = x from Prod.ext b'.symm rfl] at this
                exact this
              · have := (h.free_of_content hbcont).2 a x.1 (fun hc => hx (Prod.ext hc (b'.trans hbc.symm)))
                rw [show (x.1, (S.rc b).2) = x from Prod.ext rfl (hbc.trans b'.symm)] at this
                exact this
            · rfl
        · rw [il, upd_other hne.symm]
        · intro x hx
          rw [ic] at hx
          rw [il, upd_other]
          intro hxb; rw [hxb, upd_same, hbcont] at hx; cases hx
        · intro x hx
          rw [ic] at hx
          by_cases hxb : x = S.rc b
          · exact ⟨t₁, by simp, by rw [il, hxb, upd_same]⟩
          · rw [upd_other hxb] at hx; exact absurd rfl hx
    | some p =>
      rw [hfp] at hrow
      obtain ⟨hrs, a, ha, har, hacont⟩ := hrow
      have hak : S.rc a = ((S.rc e).1, S.col a) := by rw [← har]; rfl
      rw [← hak] at hacont
      obtain ⟨ta, hta⟩ := h.lm _ _ hacont
      have hne : S.rc a ≠ S.rc e := by intro hc; rw [hc, hcn] at hacont; cases hacont
      have hs := step_delete h t₁ ta a (S.rc a) hacont hta
      obtain ⟨i1, i2⟩ := Matrix.doErase_spec h t₁ (S.rc a) (h.free_of_content hacont)
      have ic : (m.doErase t₁ (S.rc a)).content = upd m.content (S.rc a) none := congrArg MView.content i2
      have il : find (m.doErase t₁ (S.rc a)).lm = upd (find m.lm) (S.rc a) (some t₁) := congrArg MView.lm i2
      cases htq : m.tr.conflict (S.rc e).2 with
      | none =>
        rw [htq] at hcol
        simp only [ha, hta]
        refine finishAdd_spec e i1 (.cons hs (.nil _)) hcn ?_ ?_ (congrArg MView.rowUnique i2) (congrArg MView.colUnique i2) ?_ t₂ _ (by simp) ?_
        · intro x
          rw [ic]
          by_cases hx : x = S.rc a
          · subst hx; rw [upd_same, if_pos]; left; exact ⟨hrs, har⟩
          · rw [upd_other hx]
            split
            · rename_i hcase
              rcases hcase with ⟨a', b'⟩ | ⟨a', b'⟩
              · have := (h.free_of_content hacont).1 a' x.2 (fun hc => hx (Prod.ext (b'.trans har.symm) hc))
                rw [show ((S.rc a).1, x.2) = x from Prod.ext (har.trans b'.symm) rfl] at this
                exact this
              · have := hcol a' x.1
                rw [show (x.1, (S.rc e).2) = x from Prod.ext rfl b'.symm] at this
                exact this
            · rfl
        · rw [il, upd_other hne.symm]
        · intro x hx
          rw [ic] at hx
          rw [il, upd_other]
          intro hxb; rw [hxb, upd_same, hacont] at hx; cases hx
        · intro x hx
          rw [ic] at hx
          by_cases hxb : x = S.rc a
          · exact ⟨t₁, by simp, by rw [il, hxb, upd_same]⟩
          · rw [upd_other hxb] at hx; exact absurd rfl hx
      | some q =>
        rw [htq] at hcol
        obtain ⟨hcs, b, hb, hbc, hbcont⟩ := hcol
        have hbk : S.rc b = (S.row b, (S.rc e).2) := by rw [← hbc]; rfl
        rw [← hbk] at hbcont
        obtain ⟨tb, htb⟩ := h.lm _ _ hbcont
        have hneb : S.rc b ≠ S.rc e := by intro hc; rw [hc, hcn] at hbcont; cases hbcont
        have hab : S.rc b ≠ S.rc a := by
          intro hc
          apply hneb
          have h1 : S.row b = S.row a := congrArg Prod.fst hc
          exact Prod.ext (h1.trans har) hbc
        simp only [ha, hb, ← hak, ← hbk, hta, htb]
        have hbcont' : (m.doErase t₁ (S.rc a)).content (S.rc b) = some b := by rw [ic, upd_other hab]; exact hbcont
        have htb' : find (m.doErase t₁ (S.rc a)).lm (S.rc b) = some tb := by rw [il, upd_other hab]; exact htb
        have hs' := step_delete i1 t₂ tb b (S.rc b) hbcont' htb'
        obtain ⟨j1, j2⟩ := Matrix.doErase_spec i1 t₂ (S.rc b) (i1.free_of_content hbcont')
        have jc : ((m.doErase t₁ (S.rc a)).doErase t₂ (S.rc b)).content = upd (upd m.content (S.rc a) none) (S.rc b) none := by
          rw [← ic]; exact congrArg MView.content j2
        have jl : find ((m.doErase t₁ (S.rc a)).doErase t₂ (S.rc b)).lm = upd (upd (find m.lm) (S.rc a) (some t₁)) (S.rc b) (some t₂) := by
          rw [← il]; exact congrArg MView.lm j2
        have jr : ((m.doErase t₁ (S.rc a)).doErase t₂ (S.rc b)).fwd.isSingle = m.fwd.isSingle :=
          (congrArg MView.rowUnique j2).trans (congrArg MView.rowUnique i2)
        have jt : ((m.doErase t₁ (S.rc a)).doErase t₂ (S.rc b)).tr.isSingle = m.tr.isSingle :=
          (congrArg MView.colUnique j2).trans (congrArg MView.colUnique i2)
        refine finishAdd_spec e j1 (.cons hs (.cons hs' (.nil _))) hcn ?_ ?_ jr jt ?_ t₃ _ (by simp) ?_
        · intro x
          rw [jc]
          by_cases hxb : x = S.rc b
          · subst hxb; rw [upd_same, if_pos]; right; exact ⟨hcs, hbc⟩
          · rw [upd_other hxb]
            by_cases hx : x = S.rc a
            · subst hx; rw [upd_same, if_pos]; left; exact ⟨hrs, har⟩
            · rw [upd_other hx]
              split
              · rename_i hcase
                rcases hcase with ⟨a', b'⟩ | ⟨a', b'⟩
                · have := (h.free_of_content hacont).1 a' x.2 (fun hc => hx (Prod.ext (b'.trans har.symm) hc))
                  rw [show ((S.rc a).1, x.2) = x from Prod.ext (har.trans b'.symm) rfl] at this
                  exact this
                · have := (h.free_of_content hbcont).2 a' x.1 (fun hc => hxb (Prod.ext hc (b'.trans hbc.symm)))
                  rw [show (x.1, (S.rc b).2) = x from Prod.ext rfl (hbc.trans b'.symm)] at this
                  exact this
              · rfl
        · rw [jl, upd_other hneb.symm, upd_other hne.symm]
        · intro x hx
          rw [jc] at hx
          have hxb : x ≠ S.rc b := by intro hc; rw [hc, upd_same, hbcont] at hx; cases hx
          rw [upd_other hxb] at hx
          have hxa : x ≠ S.rc a := by intro hc; rw [hc, upd_same, hacont] at hx; cases hx
          rw [jl, upd_other hxb, upd_other hxa]
        · intro x hx
          rw [jc] at hx
          by_cases hxb : x = S.rc b
          · exact ⟨t₂, by simp, by rw [jl, hxb, upd_same]⟩
          · rw [upd_other hxb] at hx
            by_cases hxa : x = S.rc a
            · exact ⟨t₁, by simp, by rw [jl, upd_other hxb, hxa, upd_same]⟩
            · rw [upd_other hxa] at hx; exact absurd rfl hx

/-- The erasing functions, once the object is found. -/
theorem eraseAt_chain {S : Schema K R C E P} {m : Matrix R C E} (h : m.Inv S) (now : Time) (p : Ptr) (prev : E) (k : E → R × C) (ho : m.obj p = some prev)
    (hc : m.content (k prev) = some prev) :
    ∃ m' log, m.eraseAt S now p k = some (m', log) ∧ MChain S m log m' ∧ m'.content = upd m.content (k prev) none ∧
      find m'.lm = upd (find m.lm) (k prev) (some now) ∧ log ≠ [] := by
  obtain ⟨t, ht⟩ := h.lm _ _ hc
  obtain ⟨_, i2⟩ := Matrix.doErase_spec h now (k prev) (h.free_of_content hc)
  refine ⟨m.doErase now (k prev), _, ?_, .cons (step_delete h now t prev (k prev) hc ht) (.nil _), congrArg MView.content i2, congrArg MView.lm i2, by simp⟩
  simp only [Matrix.eraseAt, ho, ht]

/-- Operations on a matrix. -/
inductive MOp (R C E : Type) where
  | add (t₁ t₂ t₃ : Time) (e : E)
  | erase (now : Time) (k : R × C)
  | eraseRow (now : Time) (r : R)
  | eraseCol (now : Time) (c : C)
  deriving DecidableEq, Repr

def Matrix.op (S : Schema K R C E P) (m : Matrix R C E) : MOp R C E → MResult R C E
  | .add t₁ t₂ t₃ e => m.add S t₁ t₂ t₃ e
  | .erase now k => m.erase S now k
  | .eraseRow now r => m.eraseRow S now r
  | .eraseCol now c => m.eraseCol S now c

/-- What each operation must do to the contents. -/
def MOp.spec (S : Schema K R C E P) (v : MView R C E) : MOp R C E → R × C → Option E
  | .add _ _ _ e => v.added S e
  | .erase _ k => fun x => if x = k then none else v.content x
  | .eraseRow _ r => fun x => if v.rowUnique = true ∧ x.1 = r then none else v.content x
  | .eraseCol _ c => fun x => if v.colUnique = true ∧ x.2 = c then none else v.content x

theorem MChain.view {S : Schema K R C E P} {m m' : Matrix R C E} {l : List (MEv R C E × MUndo R C E)} (h : MChain S m l m') (hm : m.Inv S) :
    m'.fwd.isSingle = m.fwd.isSingle ∧ m'.tr.isSingle = m.tr.isSingle := by
  induction h with
  | nil => exact ⟨rfl, rfl⟩
  | @cons m m1 m2 ev u l hs _ ih =>
    obtain ⟨a, b⟩ := ih hs.inv
    have := hs.replay m hm rfl
    have h1 : m1.fwd.isSingle = m.fwd.isSingle := by
      rw [← view_row this.2]; cases ev <;> simp [Matrix.replay, Matrix.doUpdate, Matrix.doErase, Matrix.doEraseKeep, Index.put_isSingle, Index.del_isSingle]
    have h2 : m1.tr.isSingle = m.tr.isSingle := by
      rw [← view_col this.2]; cases ev <;> simp [Matrix.replay, Matrix.doUpdate, Matrix.doErase, Matrix.doEraseKeep, Index.put_isSingle, Index.del_isSingle]
    exact ⟨a.trans h1, b.trans h2⟩

/-- Every operation: never an assertion, the contents as specified, the log proper. -/
theorem op_chain {S : Schema K R C E P} {m : Matrix R C E} (h : m.Inv S) (o : MOp R C E) :
    ∃ m' log, m.op S o = some (m', log) ∧ MChain S m log m' ∧ m'.content = o.spec S m.view := by
  cases o with
  | add t₁ t₂ t₃ e =>
    obtain ⟨m', log, a, b, c, _⟩ := add_chain h t₁ t₂ t₃ e
    exact ⟨m', log, a, b, c⟩
  | erase now k =>
    simp only [Matrix.op, Matrix.erase]
    cases hk : find m.map k with
    | none =>
      refine ⟨m, [], rfl, .nil m, ?_⟩
      funext x
      simp only [MOp.spec]
      split
      · rename_i hx; rw [hx]; exact (h.content_none k).2 hk
      · rfl
    | some p =>
      obtain ⟨e, he, _⟩ := h.live _ _ hk
      obtain ⟨m', log, a, b, c, _⟩ := eraseAt_chain h now p e (fun _ => k) he ((h.content_iff _ _).2 ⟨p, hk, he⟩)
      exact ⟨m', log, a, b, c⟩
  | eraseRow now r =>
    simp only [Matrix.op, Matrix.eraseRow]
    have hrow := conflict_row h (r := r)
    cases hp : m.fwd.conflict r with
    | none =>
      rw [hp] at hrow
      refine ⟨m, [], rfl, .nil m, ?_⟩
      funext x
      simp only [MOp.spec]
      split
      · rename_i hx; rw [← hx.2] at hrow; exact hrow hx.1 x.2
      · rfl
    | some p =>
      rw [hp] at hrow
      obtain ⟨hs, e, he, hr, hc⟩ := hrow
      obtain ⟨m', log, a, b, c, _⟩ := eraseAt_chain h now p e (fun e => (r, S.col e)) he hc
      refine ⟨m', log, a, b, c.trans ?_⟩
      funext x
      simp only [MOp.spec, upd]
      by_cases hx : x = (r, S.col e)
      · subst hx
        simp only [if_true]
        rw [if_pos]; exact ⟨hs, trivial⟩
      · rw [if_neg hx]
        split
        · rename_i hxr
          have := (h.free_of_content hc).1 hs x.2 (fun hc' => hx (Prod.ext hxr.2 hc'))
          rw [show ((r, S.col e).1, x.2) = x from Prod.ext hxr.2.symm rfl] at this
          exact this
        · rfl
  | eraseCol now cc =>
    simp only [Matrix.op, Matrix.eraseCol]
    have hcol := conflict_col h (c := cc)
    cases hp : m.tr.conflict cc with
    | none =>
      rw [hp] at hcol
      refine ⟨m, [], rfl, .nil m, ?_⟩
      funext x
      simp only [MOp.spec]
      split
      · rename_i hx; rw [← hx.2] at hcol; exact hcol hx.1 x.1
      · rfl
    | some p =>
      rw [hp] at hcol
      obtain ⟨hs, e, he, hr, hc⟩ := hcol
      obtain ⟨m', log, a, b, c, _⟩ := eraseAt_chain h now p e (fun e => (S.row e, cc)) he hc
      refine ⟨m', log, a, b, c.trans ?_⟩
      funext x
      simp only [MOp.spec, upd]
      by_cases hx : x = (S.row e, cc)
      · subst hx
        simp only [if_true]
        rw [if_pos]; exact ⟨hs, trivial⟩
      · rw [if_neg hx]
        split
        · rename_i hxr
          have := (h.free_of_content hc).2 hs x.1 (fun hc' => hx (Prod.ext hc' hxr.2))
          rw [show (x.1, (S.row e, cc).2) = x from Prod.ext rfl hxr.2.symm] at this
          exact this
        · rfl

end Current.Storage
