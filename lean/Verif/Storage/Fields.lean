import Verif.Storage.Containers
/-!
The fields of a storage together: every operation on any of them logs changes which can be replayed and undone.
-/
namespace Current.Storage
variable {F K R C E P : Type} [DecidableEq F] [DecidableEq K] [DecidableEq R] [DecidableEq C]

/-- One field of a storage: `CURRENT_STORAGE_FIELD(name, entry)`, `storage.h:60-305`. -/
inductive Field (K R C E : Type) where
  | dict (d : Dict K E)
  | matrix (m : Matrix R C E)

/-- The declared kind of a field. -/
inductive Kind where
  | dictionary
  | matrix (s : Shape)
  deriving DecidableEq, Repr

def Kind.empty : Kind → Field K R C E
  | .dictionary => .dict {}
  | .matrix s => .matrix s.empty

/-- All fields of a storage, by name. -/
abbrev Fields (F K R C E : Type) := F → Field K R C E

inductive FOp (K R C E P : Type) where
  | dict (o : DOp K E P)
  | matrix (o : MOp R C E)

inductive FEv (K R C E P : Type) where
  | dict (ev : DEv K E P)
  | matrix (ev : MEv R C E)

inductive FUndo (K R C E : Type) where
  | dict (u : DUndo K E)
  | matrix (u : MUndo R C E)

/-- An entry of the journal: an element of `commit_log` and the element of `rollback_log` pushed with it, `base.h:199-203`. The event's type names the field. -/
abbrev Logged (F K R C E P : Type) := (F × FEv K R C E P) × (F × FUndo K R C E)

/-- An operation on a field. An operation on the wrong kind of container does not compile; here it does nothing. -/
def Fields.op (S : F → Schema K R C E P) (σ : Fields F K R C E) (f : F) (o : FOp K R C E P) : Option (Fields F K R C E × List (Logged F K R C E P)) :=
  match σ f, o with
  | .dict d, .dict o => (d.op (S f) o).map fun r => (upd σ f (.dict r.1), r.2.map fun l => ((f, .dict l.1), (f, .dict l.2)))
  | .matrix m, .matrix o => (m.op (S f) o).map fun r => (upd σ f (.matrix r.1), r.2.map fun l => ((f, .matrix l.1), (f, .matrix l.2)))
  | _, _ => some (σ, [])

/-- Applying a mutation from the log: `entry.Call(fields_)`, `storage.h:345`. -/
def Fields.replay (S : F → Schema K R C E P) (σ : Fields F K R C E) (ev : F × FEv K R C E P) : Fields F K R C E :=
  match σ ev.1, ev.2 with
  | .dict d, .dict e => upd σ ev.1 (.dict (d.replay (S ev.1) e))
  | .matrix m, .matrix e => upd σ ev.1 (.matrix (m.replay (S ev.1) e))
  | _, _ => σ

/-- Calling an element of `rollback_log`. -/
def Fields.undo (σ : Fields F K R C E) (u : F × FUndo K R C E) : Fields F K R C E :=
  match σ u.1, u.2 with
  | .dict d, .dict x => upd σ u.1 (.dict (d.undo x))
  | .matrix m, .matrix x => upd σ u.1 (.matrix (m.undo x))
  | _, _ => σ

/-- Several mutations. -/
def Fields.replayAll (S : F → Schema K R C E P) (σ : Fields F K R C E) (evs : List (F × FEv K R C E P)) : Fields F K R C E := evs.foldl (Fields.replay S) σ

/-- What a user can see of a field: its contents and its modification times. -/
inductive FView (K R C E : Type) where
  | dict (v : DView K E)
  | matrix (v : MView R C E)

def Field.view : Field K R C E → FView K R C E
  | .dict d => .dict d.view
  | .matrix m => .matrix m.view

def Field.Inv (S : Schema K R C E P) : Field K R C E → Prop
  | .dict d => d.Inv S
  | .matrix m => m.Inv S

def Fields.Inv (S : F → Schema K R C E P) (σ : Fields F K R C E) : Prop := ∀ f, (σ f).Inv (S f)

def Fields.view (σ : Fields F K R C E) : F → FView K R C E := fun f => (σ f).view

theorem Kind.inv (S : Schema K R C E P) (k : Kind) : (k.empty : Field K R C E).Inv S := by
  cases k with
  | dictionary => exact ⟨by simp [find], by simp [find], wf_nil, wf_nil⟩
  | matrix s => exact Shape.inv S s

/-- A logged change of the storage. -/
structure FStep (S : F → Schema K R C E P) (σ : Fields F K R C E) (l : Logged F K R C E P) (σ' : Fields F K R C E) : Prop where
  inv : σ'.Inv S
  replay : ∀ g : Fields F K R C E, g.Inv S → g.view = σ.view → (g.replay S l.1).Inv S ∧ (g.replay S l.1).view = σ'.view
  undo : ∀ g : Fields F K R C E, g.Inv S → g.view = σ'.view → (g.undo l.2).Inv S ∧ (g.undo l.2).view = σ.view

inductive FChain (S : F → Schema K R C E P) : Fields F K R C E → List (Logged F K R C E P) → Fields F K R C E → Prop where
  | nil (σ : Fields F K R C E) : FChain S σ [] σ
  | cons {σ σ' σ'' : Fields F K R C E} {l : Logged F K R C E P} {ls : List (Logged F K R C E P)} : FStep S σ l σ' → FChain S σ' ls σ'' → FChain S σ (l :: ls) σ''

theorem FChain.append {S : F → Schema K R C E P} {σ σ' σ'' : Fields F K R C E} {l l' : List (Logged F K R C E P)} (h : FChain S σ l σ') (h' : FChain S σ' l' σ'') :
    FChain S σ (l ++ l') σ'' := by
  induction h with
  | nil => exact h'
  | cons hs _ ih => exact .cons hs (ih h')

theorem FChain.inv {S : F → Schema K R C E P} {σ σ' : Fields F K R C E} {l : List (Logged F K R C E P)} (h : FChain S σ l σ') (hσ : σ.Inv S) : σ'.Inv S := by
  induction h with
  | nil => exact hσ
  | cons hs _ ih => exact ih hs.inv

/-- Replaying the logged events, in order, on anything that looks the same. -/
theorem FChain.replay {S : F → Schema K R C E P} {σ σ' : Fields F K R C E} {l : List (Logged F K R C E P)} (h : FChain S σ l σ') (g : Fields F K R C E) (hg : g.Inv S)
    (hv : g.view = σ.view) : (g.replayAll S (l.map (·.1))).Inv S ∧ (g.replayAll S (l.map (·.1))).view = σ'.view := by
  induction h generalizing g with
  | nil => exact ⟨hg, hv⟩
  | cons hs _ ih =>
    obtain ⟨a, b⟩ := hs.replay g hg hv
    exact ih _ a b

/-- Calling the logged closures, last first. -/
theorem FChain.undo {S : F → Schema K R C E P} {σ σ' : Fields F K R C E} {l : List (Logged F K R C E P)} (h : FChain S σ l σ') (hσ : σ.Inv S) (g : Fields F K R C E) (hg : g.Inv S)
    (hv : g.view = σ'.view) : (((l.map (·.2)).reverse).foldl Fields.undo g).Inv S ∧ (((l.map (·.2)).reverse).foldl Fields.undo g).view = σ.view := by
  induction h generalizing g with
  | nil => exact ⟨hg, hv⟩
  | cons hs _ ih =>
    obtain ⟨a, b⟩ := ih hs.inv g hg hv
    simp only [List.map_cons, List.reverse_cons, List.foldl_append, List.foldl_cons, List.foldl_nil]
    exact hs.undo _ a b

theorem view_upd (σ : Fields F K R C E) (f : F) (x : Field K R C E) : Fields.view (upd σ f x) = upd σ.view f x.view := by
  funext a; simp only [Fields.view, upd]; split <;> rfl

theorem inv_upd {S : F → Schema K R C E P} {σ : Fields F K R C E} (h : σ.Inv S) (f : F) (x : Field K R C E) (hx : x.Inv (S f)) : Fields.Inv S (upd σ f x) := by
  intro a
  simp only [upd]
  split
  · rename_i e; rw [e]; exact hx
  · exact h a

theorem view_dict {g : Fields F K R C E} {f : F} {v : DView K E} (h : g.view f = .dict v) : ∃ d, g f = .dict d ∧ d.view = v := by
  unfold Fields.view at h
  cases hf : g f with
  | dict d => rw [hf] at h; exact ⟨d, rfl, by cases h; rfl⟩
  | matrix m => rw [hf] at h; cases h

theorem view_matrix {g : Fields F K R C E} {f : F} {v : MView R C E} (h : g.view f = .matrix v) : ∃ m, g f = .matrix m ∧ m.view = v := by
  unfold Fields.view at h
  cases hf : g f with
  | matrix d => rw [hf] at h; exact ⟨d, rfl, by cases h; rfl⟩
  | dict m => rw [hf] at h; cases h

theorem fstep_dict {S : F → Schema K R C E P} {σ : Fields F K R C E} (hσ : σ.Inv S) {f : F} {d d' : Dict K E} (hf : σ f = .dict d) {ev : DEv K E P} {u : DUndo K E}
    (hs : DStep (S f) d ev u d') : FStep S σ ((f, .dict ev), (f, .dict u)) (upd σ f (.dict d')) := by
  refine ⟨inv_upd hσ f _ hs.inv, ?_, ?_⟩
  · intro g hg hv
    obtain ⟨x, hx, hxv⟩ := view_dict (g := g) (f := f) (v := d.view) (by rw [hv]; unfold Fields.view; rw [hf]; rfl)
    have hxi : x.Inv (S f) := by have := hg f; rw [hx] at this; exact this
    obtain ⟨a, b⟩ := hs.replay x hxi hxv
    simp only [Fields.replay, hx]
    refine ⟨inv_upd hg f _ a, ?_⟩
    rw [view_upd, view_upd, hv]
    simp only [Field.view, b]
  · intro g hg hv
    obtain ⟨x, hx, hxv⟩ := view_dict (g := g) (f := f) (v := d'.view) (by rw [hv, view_upd, upd_same]; rfl)
    have hxi : x.Inv (S f) := by have := hg f; rw [hx] at this; exact this
    obtain ⟨a, b⟩ := hs.undo x hxi hxv
    simp only [Fields.undo, hx]
    refine ⟨inv_upd hg f _ a, ?_⟩
    rw [view_upd, hv, view_upd, upd_upd]
    have : σ.view f = (Field.dict d).view := by unfold Fields.view; rw [hf]
    rw [← upd_id σ.view f, this]
    simp only [upd_upd]
    simp only [Field.view, b]

theorem fstep_matrix {S : F → Schema K R C E P} {σ : Fields F K R C E} (hσ : σ.Inv S) {f : F} {d d' : Matrix R C E} (hf : σ f = .matrix d) {ev : MEv R C E} {u : MUndo R C E}
    (hs : MStep (S f) d ev u d') : FStep S σ ((f, .matrix ev), (f, .matrix u)) (upd σ f (.matrix d')) := by
  refine ⟨inv_upd hσ f _ hs.inv, ?_, ?_⟩
  · intro g hg hv
    obtain ⟨x, hx, hxv⟩ := view_matrix (g := g) (f := f) (v := d.view) (by rw [hv]; unfold Fields.view; rw [hf]; rfl)
    have hxi : x.Inv (S f) := by have := hg f; rw [hx] at this; exact this
    obtain ⟨a, b⟩ := hs.replay x hxi hxv
    simp only [Fields.replay, hx]
    refine ⟨inv_upd hg f _ a, ?_⟩
    rw [view_upd, view_upd, hv]
    simp only [Field.view, b]
  · intro g hg hv
    obtain ⟨x, hx, hxv⟩ := view_matrix (g := g) (f := f) (v := d'.view) (by rw [hv, view_upd, upd_same]; rfl)
    have hxi : x.Inv (S f) := by have := hg f; rw [hx] at this; exact this
    obtain ⟨a, b⟩ := hs.undo x hxi hxv
    simp only [Fields.undo, hx]
    refine ⟨inv_upd hg f _ a, ?_⟩
    rw [view_upd, hv, view_upd, upd_upd]
    have : σ.view f = (Field.matrix d).view := by unfold Fields.view; rw [hf]
    rw [← upd_id σ.view f, this]
    simp only [upd_upd]
    simp only [Field.view, b]

theorem fchain_matrix {S : F → Schema K R C E P} {f : F} {m m' : Matrix R C E} {log : List (MEv R C E × MUndo R C E)} (h : MChain (S f) m log m') {σ : Fields F K R C E} (hσ : σ.Inv S)
    (hf : σ f = .matrix m) : FChain S σ (log.map fun l => ((f, .matrix l.1), (f, .matrix l.2))) (upd σ f (.matrix m')) := by
  induction h generalizing σ with
  | nil m => rw [← hf, upd_id]; exact .nil _
  | @cons a b c ev u l hs _ ih =>
    have h1 := fstep_matrix hσ hf hs
    have h2 := ih h1.inv (by simp)
    rw [upd_upd] at h2
    exact .cons h1 h2

/-- Every operation on any field: never a failed assertion, and a proper log. -/
theorem fop_chain {S : F → Schema K R C E P} (hS : ∀ f, (S f).KeepsKeys) {σ : Fields F K R C E} (hσ : σ.Inv S) (f : F) (o : FOp K R C E P) :
    ∃ σ' log, σ.op S f o = some (σ', log) ∧ FChain S σ log σ' := by
  unfold Fields.op
  have hf := hσ f
  cases hx : σ f with
  | dict d =>
    rw [hx] at hf
    cases o with
    | matrix o => exact ⟨σ, [], rfl, .nil _⟩
    | dict o =>
      obtain ⟨d', _, h⟩ := dop_chain (hS f) hf o
      rcases h with ⟨h, rfl⟩ | ⟨ev, u, h, hs⟩
      · refine ⟨σ, [], ?_, .nil _⟩
        simp only [h, Option.map_some, List.map_nil]
        rw [← hx, upd_id]
      · refine ⟨upd σ f (.dict d'), _, by simp only [h, Option.map_some, List.map_cons, List.map_nil], .cons (fstep_dict hσ hx hs) (.nil _)⟩
  | matrix m =>
    rw [hx] at hf
    cases o with
    | dict o => exact ⟨σ, [], rfl, .nil _⟩
    | matrix o =>
      obtain ⟨m', log, h, hc, _⟩ := op_chain hf o
      exact ⟨upd σ f (.matrix m'), _, by simp only [h, Option.map_some], fchain_matrix hc hσ hx⟩

/-! ### Looking the same -/

/-- Two matrices cannot be told apart: every lookup gives the same, every iteration the same entries, in some order (the order of a map's iteration is a function of its keys for ordered
fields, unspecified for unordered ones). -/
structure Matrix.SameObservations (a b : Matrix R C E) : Prop where
  get : ∀ k, a.get k = b.get k
  lastModified : ∀ k, a.lastModified k = b.lastModified k
  size : a.size = b.size
  iterate : a.iterate.Perm b.iterate
  getRow : ∀ r, a.getRow r = b.getRow r
  getCol : ∀ c, a.getCol c = b.getCol c
  row : ∀ r, (a.row r).Perm (b.row r)
  col : ∀ c, (a.colEntries c).Perm (b.colEntries c)
  rows : a.fwd.keys.Perm b.fwd.keys
  cols : a.tr.keys.Perm b.tr.keys
  doesNotConflict : ∀ k, a.doesNotConflict k = b.doesNotConflict k

theorem nodup_of_fst {A B : Type} {l : List (A × B)} (h : (l.map (·.1)).Nodup) : l.Nodup := by
  induction l with
  | nil => simp
  | cons p m ih =>
    simp only [List.map_cons, List.nodup_cons] at h
    exact List.nodup_cons.2 ⟨fun hm => h.1 (List.mem_map_of_mem hm), ih h.2⟩

theorem same_view_same_observations {S : Schema K R C E P} {a b : Matrix R C E} (ha : a.Inv S) (hb : b.Inv S) (h : a.view = b.view) : a.SameObservations b := by
  have hc := view_content h
  have hrs := view_row h
  have hcs := view_col h
  have hget : ∀ k, a.get k = b.get k := by intro k; rw [ha.get, hb.get, hc]
  have hrow : ∀ r, a.getRow r = b.getRow r := by
    intro r
    cases hs : a.fwd.isSingle with
    | true =>
      have hs' : b.fwd.isSingle = true := by rw [← hrs]; exact hs
      apply Option.ext
      intro x
      rw [ha.getRow hs, hb.getRow hs']
      simp only [hget]
    | false =>
      have hs' : b.fwd.isSingle = false := by rw [← hrs]; exact hs
      unfold Matrix.getRow
      cases hi : a.fwd with
      | single _ => rw [hi] at hs; cases hs
      | multi _ => cases hj : b.fwd with
        | single _ => rw [hj] at hs'; cases hs'
        | multi _ => rfl
  have hcol : ∀ c, a.getCol c = b.getCol c := by
    intro c
    cases hs : a.tr.isSingle with
    | true =>
      have hs' : b.tr.isSingle = true := by rw [← hcs]; exact hs
      apply Option.ext
      intro x
      rw [ha.getCol hs, hb.getCol hs']
      simp only [hget]
    | false =>
      have hs' : b.tr.isSingle = false := by rw [← hcs]; exact hs
      unfold Matrix.getCol
      cases hi : a.tr with
      | single _ => rw [hi] at hs; cases hs
      | multi _ => cases hj : b.tr with
        | single _ => rw [hj] at hs'; cases hs'
        | multi _ => rfl
  have hiter : a.iterate.Perm b.iterate := by
    refine (List.perm_ext_iff_of_nodup (nodup_of_fst ha.consistent.iterateOnce) (nodup_of_fst hb.consistent.iterateOnce)).2 ?_
    rintro ⟨k, x⟩
    rw [ha.consistent.iterateAll, hb.consistent.iterateAll, hget]
  refine ⟨hget, fun k => congrFun (view_lm h) k, ?_, hiter, hrow, hcol, ?_, ?_, ?_, ?_, ?_⟩
  · rw [ha.consistent.size, hb.consistent.size]; exact hiter.length_eq
  · intro r
    cases hs : a.fwd.isSingle with
    | false =>
      have hs' : b.fwd.isSingle = false := by rw [← hrs]; exact hs
      obtain ⟨a1, a2, _⟩ := sub_spec ha.fwd hs a.obj r
      obtain ⟨b1, b2, _⟩ := sub_spec hb.fwd hs' b.obj r
      refine (List.perm_ext_iff_of_nodup (nodup_of_fst a1) (nodup_of_fst b1)).2 ?_
      rintro ⟨c, x⟩
      rw [a2, b2]
      rw [show Option.map a.obj (find a.map (r, c)) = Option.map b.obj (find b.map (r, c)) from hget (r, c)]
    | true =>
      have hs' : b.fwd.isSingle = true := by rw [← hrs]; exact hs
      unfold Matrix.row
      cases hi : a.fwd with
      | multi _ => rw [hi] at hs; cases hs
      | single _ => cases hj : b.fwd with
        | multi _ => rw [hj] at hs'; cases hs'
        | single _ => simp [Index.sub]
  · intro c
    cases hs : a.tr.isSingle with
    | false =>
      have hs' : b.tr.isSingle = false := by rw [← hcs]; exact hs
      obtain ⟨a1, a2, _⟩ := sub_spec ha.tr hs a.obj c
      obtain ⟨b1, b2, _⟩ := sub_spec hb.tr hs' b.obj c
      refine (List.perm_ext_iff_of_nodup (nodup_of_fst a1) (nodup_of_fst b1)).2 ?_
      rintro ⟨r, x⟩
      rw [a2, b2]
      rw [show Option.map a.obj (find a.map (r, c)) = Option.map b.obj (find b.map (r, c)) from hget (r, c)]
    | true =>
      have hs' : b.tr.isSingle = true := by rw [← hcs]; exact hs
      unfold Matrix.colEntries
      cases hi : a.tr with
      | multi _ => rw [hi] at hs; cases hs
      | single _ => cases hj : b.tr with
        | multi _ => rw [hj] at hs'; cases hs'
        | single _ => simp [Index.sub]
  · refine (List.perm_ext_iff_of_nodup ha.consistent.rows.1 hb.consistent.rows.1).2 fun r => ?_
    rw [ha.consistent.rows.2, hb.consistent.rows.2, hc]
  · refine (List.perm_ext_iff_of_nodup ha.consistent.cols.1 hb.consistent.cols.1).2 fun r => ?_
    rw [ha.consistent.cols.2, hb.consistent.cols.2, hc]
  · intro k
    have e1 : (a.fwd.conflict k.1).isNone = (b.fwd.conflict k.1).isNone := by
      have := hrow k.1
      unfold Matrix.getRow at this
      cases h1 : a.fwd.conflict k.1 <;> cases h2 : b.fwd.conflict k.1 <;> simp [h1, h2] at this ⊢
    have e2 : (a.tr.conflict k.2).isNone = (b.tr.conflict k.2).isNone := by
      have := hcol k.2
      unfold Matrix.getCol at this
      cases h1 : a.tr.conflict k.2 <;> cases h2 : b.tr.conflict k.2 <;> simp [h1, h2] at this ⊢
    unfold Matrix.doesNotConflict
    rw [e1, e2]

/-- Two dictionaries cannot be told apart. -/
structure Dict.SameObservations (a b : Dict K E) : Prop where
  get : ∀ k, find a.map k = find b.map k
  lastModified : ∀ k, find a.lm k = find b.lm k
  iterate : a.map.Perm b.map

/-- Two fields cannot be told apart. -/
def Field.SameObservations : Field K R C E → Field K R C E → Prop
  | .dict a, .dict b => a.SameObservations b
  | .matrix a, .matrix b => a.SameObservations b
  | _, _ => False

theorem Field.same_observations {S : Schema K R C E P} {a b : Field K R C E} (ha : a.Inv S) (hb : b.Inv S) (h : a.view = b.view) : a.SameObservations b := by
  cases a with
  | dict a =>
    cases b with
    | matrix b => cases h
    | dict b =>
      have h : a.view = b.view := by injection h
      exact ⟨fun k => congrFun (dview_map h) k, fun k => congrFun (dview_lm h) k, perm_of_find ha.wfMap hb.wfMap fun k => congrFun (dview_map h) k⟩
  | matrix a =>
    cases b with
    | dict b => cases h
    | matrix b => exact same_view_same_observations ha hb (by injection h)

end Current.Storage
