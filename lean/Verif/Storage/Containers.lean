import Verif.Storage.MatrixOps
/-!
C31–C34: what users of the containers see, after any sequence of operations.
-/
namespace Current.Storage
variable {K R C E P : Type} [DecidableEq K] [DecidableEq R] [DecidableEq C]

/-! ### Matrices -/

theorem inv_empty (S : Schema K R C E P) (f : Index R C) (t : Index C R) (hf : f = .single [] ∨ f = .multi []) (ht : t = .single [] ∨ t = .multi []) :
    ({ fwd := f, tr := t } : Matrix R C E).Inv S := by
  refine ⟨by simp [find], by simp [find], by simp [find], ?_, ?_, by simp [Matrix.content, find], wf_nil, wf_nil, wf_nil⟩
  · rcases hf with rfl | rfl <;> simp [Index.Agrees, find, wf_nil]
  · rcases ht with rfl | rfl <;> simp [Index.Agrees, find, wf_nil]

/-- A sequence of operations. `none`: a failed assertion, or an object used after it was freed. -/
def Matrix.ops (S : Schema K R C E P) : Matrix R C E → List (MOp R C E) → Option (Matrix R C E)
  | m, [] => some m
  | m, o :: os => match m.op S o with
    | none => none
    | some (m', _) => Matrix.ops S m' os

/-- What the contents must be after a sequence of operations. -/
def specContent (S : Schema K R C E P) (rowUnique colUnique : Bool) : (R × C → Option E) → List (MOp R C E) → R × C → Option E
  | f, [] => f
  | f, o :: os => specContent S rowUnique colUnique (o.spec S ⟨f, fun _ => none, rowUnique, colUnique⟩) os

theorem spec_lm (S : Schema K R C E P) (o : MOp R C E) (v w : MView R C E) (h : v.content = w.content) (hr : v.rowUnique = w.rowUnique) (hc : v.colUnique = w.colUnique) :
    o.spec S v = o.spec S w := by
  cases o <;> funext k <;> simp only [MOp.spec, MView.added, h, hr, hc]

theorem ops_spec {S : Schema K R C E P} {m : Matrix R C E} (h : m.Inv S) (os : List (MOp R C E)) :
    ∃ m', m.ops S os = some m' ∧ m'.Inv S ∧ m'.content = specContent S m.fwd.isSingle m.tr.isSingle m.content os ∧ m'.fwd.isSingle = m.fwd.isSingle ∧
      m'.tr.isSingle = m.tr.isSingle := by
  induction os generalizing m with
  | nil => exact ⟨m, rfl, h, rfl, rfl, rfl⟩
  | cons o os ih =>
    obtain ⟨m1, log, a, b, c⟩ := op_chain h o
    obtain ⟨v1, v2⟩ := b.view h
    obtain ⟨m', d, e, f, g1, g2⟩ := ih (b.inv h)
    refine ⟨m', by simp only [Matrix.ops, a]; exact d, e, ?_, g1.trans v1, g2.trans v2⟩
    rw [f, v1, v2, c]
    simp only [specContent]
    rw [spec_lm S o m.view ⟨m.content, fun _ => none, m.fwd.isSingle, m.tr.isSingle⟩ rfl rfl rfl]

theorem Matrix.Inv.get {S : Schema K R C E P} {m : Matrix R C E} (h : m.Inv S) (k : R × C) : m.get k = (m.content k).map some := by
  unfold Matrix.get Matrix.content Matrix.obj
  cases hk : find m.map k with
  | none => rfl
  | some p => obtain ⟨e, he, _⟩ := h.live k p hk; simp [he]

theorem Matrix.Inv.getRow {S : Schema K R C E P} {m : Matrix R C E} (h : m.Inv S) (hs : m.fwd.isSingle = true) (r : R) (oe : Option E) :
    m.getRow r = some oe ↔ ∃ c, m.get (r, c) = some oe := by
  have hrow := conflict_row h (r := r)
  unfold Matrix.getRow
  cases hp : m.fwd.conflict r with
  | none =>
    rw [hp] at hrow
    simp only [Option.map_none, reduceCtorEq, false_iff, not_exists]
    intro c; rw [h.get, hrow hs c]; simp
  | some p =>
    rw [hp] at hrow
    obtain ⟨_, e, he, hr, hc⟩ := hrow
    simp only [Option.map_some, he, Option.some.injEq]
    constructor
    · intro hh; subst hh; exact ⟨S.col e, by rw [h.get, hc]; rfl⟩
    · rintro ⟨c, hcc⟩
      rw [h.get] at hcc
      by_cases hce : c = S.col e
      · rw [hce, hc] at hcc; simpa using hcc
      · have := (h.free_of_content hc).1 hs c hce
        rw [show m.content (r, c) = none from this] at hcc; simp at hcc

theorem Matrix.Inv.getCol {S : Schema K R C E P} {m : Matrix R C E} (h : m.Inv S) (hs : m.tr.isSingle = true) (c : C) (oe : Option E) :
    m.getCol c = some oe ↔ ∃ r, m.get (r, c) = some oe := by
  have hcol := conflict_col h (c := c)
  unfold Matrix.getCol
  cases hp : m.tr.conflict c with
  | none =>
    rw [hp] at hcol
    simp only [Option.map_none, reduceCtorEq, false_iff, not_exists]
    intro r; rw [h.get, hcol hs r]; simp
  | some p =>
    rw [hp] at hcol
    obtain ⟨_, e, he, hr, hc⟩ := hcol
    simp only [Option.map_some, he, Option.some.injEq]
    constructor
    · intro hh; subst hh; exact ⟨S.row e, by rw [h.get, hc]; rfl⟩
    · rintro ⟨r, hcc⟩
      rw [h.get] at hcc
      by_cases hre : r = S.row e
      · rw [hre, hc] at hcc; simpa using hcc
      · have := (h.free_of_content hc).2 hs r hre
        rw [show m.content (r, c) = none from this] at hcc; simp at hcc

/-- A view of a row (column) of a multi index: each column once, with the object. -/
theorem sub_spec {A B : Type} [DecidableEq A] [DecidableEq B] {g : A → B → Option Ptr} {idx : Index A B} (h : idx.Agrees g) (hs : idx.isSingle = false) (obj : Ptr → Option E) (a : A) :
    (((idx.sub a).map fun p => (p.1, obj p.2)).map (·.1)).Nodup ∧
    (∀ b oe, (b, oe) ∈ (idx.sub a).map (fun p => (p.1, obj p.2)) ↔ (g a b).map obj = some oe) ∧ (a ∈ idx.keys ↔ ∃ b, g a b ≠ none) ∧ idx.keys.Nodup := by
  cases idx with
  | single m => cases hs
  | multi m =>
    obtain ⟨hw, h1, h2⟩ := h
    have hsub := sub_wf h2 a
    refine ⟨?_, ?_, ?_, hw⟩
    · rw [List.map_map]; exact hsub
    · intro b oe
      simp only [Index.sub, List.mem_map, Prod.mk.injEq, Prod.exists]
      constructor
      · rintro ⟨x, p, hm, rfl, rfl⟩
        rw [mem_iff_find hsub, h1] at hm
        rw [hm]; rfl
      · intro hg
        rw [← h1] at hg
        cases hf : find ((find m a).getD []) b with
        | none => rw [hf] at hg; cases hg
        | some p =>
          rw [hf] at hg
          exact ⟨b, p, (mem_iff_find hsub b p).2 hf, rfl, by simpa using hg⟩
    · simp only [Index.keys]
      constructor
      · intro hm
        cases hf : find m a with
        | none => exact absurd hm (find_none_iff.1 hf)
        | some s =>
          have hne := (h2 a s hf).1
          have : ¬ ∀ b, find s b = none := fun hh => hne ((find_empty s).2 hh)
          rw [Classical.not_forall] at this
          obtain ⟨b, hb⟩ := this
          refine ⟨b, ?_⟩
          rw [← h1, hf]; exact hb
      · rintro ⟨b, hb⟩
        apply Classical.byContradiction
        intro hm
        rw [← h1, find_none_iff.2 hm] at hb
        exact hb rfl

theorem single_keys {A B : Type} [DecidableEq A] [DecidableEq B] {g : A → B → Option Ptr} {idx : Index A B} (h : idx.Agrees g) (hs : idx.isSingle = true) (a : A) :
    (a ∈ idx.keys ↔ ∃ b, g a b ≠ none) ∧ idx.keys.Nodup := by
  cases idx with
  | multi m => cases hs
  | single m =>
    obtain ⟨hw, h1⟩ := h
    refine ⟨?_, hw⟩
    simp only [Index.keys]
    constructor
    · intro hm
      cases hf : find m a with
      | none => exact absurd hm (find_none_iff.1 hf)
      | some p => obtain ⟨b, hb⟩ := (h1 a p).1 hf; exact ⟨b, by rw [hb]; simp⟩
    · rintro ⟨b, hb⟩
      cases hg : g a b with
      | none => exact absurd hg hb
      | some p =>
        apply Classical.byContradiction
        intro hm
        have := (h1 a p).2 ⟨b, hg⟩
        rw [find_none_iff.2 hm] at this; cases this

/-- What all three matrices guarantee in a state: reading never meets a freed object; iterating gives every entry once, under its own row and column; the keys of `Rows()` and
`Cols()` are the rows and columns with entries, each once; the size counts. -/
structure Consistent (S : Schema K R C E P) (m : Matrix R C E) (content : R × C → Option E) : Prop where
  get : ∀ k, m.get k = (content k).map some
  key : ∀ k e, content k = some e → S.row e = k.1 ∧ S.col e = k.2
  iterateOnce : (m.iterate.map (·.1)).Nodup
  iterateAll : ∀ k oe, (k, oe) ∈ m.iterate ↔ m.get k = some oe
  size : m.size = m.iterate.length
  rows : m.fwd.keys.Nodup ∧ ∀ r, r ∈ m.fwd.keys ↔ ∃ c, content (r, c) ≠ none
  cols : m.tr.keys.Nodup ∧ ∀ c, c ∈ m.tr.keys ↔ ∃ r, content (r, c) ≠ none
  lastModified : ∀ k, content k ≠ none → m.lastModified k ≠ none

theorem Matrix.Inv.consistent {S : Schema K R C E P} {m : Matrix R C E} (h : m.Inv S) : Consistent S m m.content := by
  have hkeys : ∀ r c, (find m.map (r, c) ≠ none) ↔ m.content (r, c) ≠ none := fun r c => not_congr (h.content_none (r, c)).symm
  refine ⟨h.get, ?_, ?_, ?_, by simp [Matrix.size, Matrix.iterate], ?_, ?_, ?_⟩
  · intro k e he
    have := h.content_key he
    exact ⟨congrArg Prod.fst this, congrArg Prod.snd this⟩
  · have : m.iterate.map (·.1) = m.map.map (·.1) := by simp [Matrix.iterate]
    rw [this]; exact h.wfMap
  · intro k oe
    simp only [Matrix.iterate, List.mem_map, Prod.mk.injEq, Prod.exists, Matrix.get]
    constructor
    · rintro ⟨a, b, p, hm, he, rfl⟩
      subst he
      rw [(mem_iff_find h.wfMap _ _).1 hm]; rfl
    · intro hg
      cases hf : find m.map k with
      | none => rw [hf] at hg; cases hg
      | some p => rw [hf] at hg; exact ⟨k.1, k.2, p, (mem_iff_find h.wfMap _ _).2 hf, rfl, by simpa using hg⟩
  · cases hs : m.fwd.isSingle with
    | true =>
      refine ⟨?_, fun r => (single_keys h.fwd hs r).1.trans (exists_congr fun c => hkeys r c)⟩
      have ha := h.fwd
      cases hi : m.fwd with
      | single x => rw [hi] at ha; exact ha.1
      | multi x => rw [hi] at ha; exact ha.1
    | false =>
      refine ⟨?_, fun r => (sub_spec h.fwd hs m.obj r).2.2.1.trans (exists_congr fun c => hkeys r c)⟩
      have ha := h.fwd
      cases hi : m.fwd with
      | single x => rw [hi] at ha; exact ha.1
      | multi x => rw [hi] at ha; exact ha.1
  · cases hs : m.tr.isSingle with
    | true =>
      refine ⟨?_, fun c => (single_keys h.tr hs c).1.trans (exists_congr fun r => hkeys r c)⟩
      have ha := h.tr
      cases hi : m.tr with
      | single x => rw [hi] at ha; exact ha.1
      | multi x => rw [hi] at ha; exact ha.1
    | false =>
      refine ⟨?_, fun c => (sub_spec h.tr hs m.obj c).2.2.1.trans (exists_congr fun r => hkeys r c)⟩
      have ha := h.tr
      cases hi : m.tr with
      | single x => rw [hi] at ha; exact ha.1
      | multi x => rw [hi] at ha; exact ha.1
  · intro k hk
    cases hc : m.content k with
    | none => exact absurd hc hk
    | some e => obtain ⟨t, ht⟩ := h.lm k e hc; unfold Matrix.lastModified; rw [ht]; simp

/-- C32: a `OneToOne` after any operations. No assertion fails and no freed object is touched; the contents are what the operations say (`MOp.spec`: `Add(e)` removes exactly what shares
its row or its column); no two entries share a row or a column; the lookups by row and by column agree with the lookup by both. -/
theorem one_to_one (S : Schema K R C E P) (os : List (MOp R C E)) :
    ∃ m, Matrix.oneToOne.ops S os = some m ∧ Consistent S m (specContent S true true (fun _ => none) os) ∧
      (∀ r c c' e e', m.get (r, c) = some e → m.get (r, c') = some e' → c = c') ∧
      (∀ r r' c e e', m.get (r, c) = some e → m.get (r', c) = some e' → r = r') ∧
      (∀ r e, m.getRow r = some e ↔ ∃ c, m.get (r, c) = some e) ∧ (∀ c e, m.getCol c = some e ↔ ∃ r, m.get (r, c) = some e) ∧
      (∀ k, m.doesNotConflict k = true ↔ (∀ c, m.get (k.1, c) = none) ∧ ∀ r, m.get (r, k.2) = none) := by
  obtain ⟨m, a, b, c, d1, d2⟩ := ops_spec (inv_empty S (.single []) (.single []) (Or.inl rfl) (Or.inl rfl)) os
  have hcont : m.content = specContent S true true (fun _ => none) os := c
  have key : ∀ k e, m.get k = some e → ∃ e', m.content k = some e' := by
    intro k e hg; rw [b.get] at hg
    cases hx : m.content k with
    | none => rw [hx] at hg; cases hg
    | some e' => exact ⟨e', rfl⟩
  have none_iff : ∀ k, m.get k = none ↔ m.content k = none := by intro k; rw [b.get]; simp
  refine ⟨m, a, hcont ▸ b.consistent, ?_, ?_, b.getRow d1, b.getCol d2, ?_⟩
  · intro r cc c' e e' h1 h2
    obtain ⟨x, hx⟩ := key _ _ h1
    obtain ⟨y, hy⟩ := key _ _ h2
    apply Classical.byContradiction
    intro hne
    have := (b.free_of_content hx).1 d1 c' (fun e => hne e.symm)
    rw [show m.content (r, c') = none from this] at hy; cases hy
  · intro r r' cc e e' h1 h2
    obtain ⟨x, hx⟩ := key _ _ h1
    obtain ⟨y, hy⟩ := key _ _ h2
    apply Classical.byContradiction
    intro hne
    have := (b.free_of_content hx).2 d2 r' (fun e => hne e.symm)
    rw [show m.content (r', cc) = none from this] at hy; cases hy
  · intro k
    have hrow := conflict_row b (r := k.1)
    have hcol := conflict_col b (c := k.2)
    unfold Matrix.doesNotConflict
    simp only [Bool.and_eq_true, Option.isNone_iff_eq_none, none_iff]
    constructor
    · rintro ⟨h1, h2⟩
      rw [h1] at hrow; rw [h2] at hcol
      exact ⟨hrow d1, hcol d2⟩
    · rintro ⟨h1, h2⟩
      constructor
      · cases hp : m.fwd.conflict k.1 with
        | none => rfl
        | some p => rw [hp] at hrow; obtain ⟨_, e, _, _, hc⟩ := hrow; rw [h1] at hc; cases hc
      · cases hp : m.tr.conflict k.2 with
        | none => rfl
        | some p => rw [hp] at hcol; obtain ⟨_, e, _, _, hc⟩ := hcol; rw [h2] at hc; cases hc

/-- C33: a `OneToMany` after any operations: every column belongs to at most one row; `Add(e)` removes exactly what shares its column; the row view, the lookup by column and the lookup by
both agree. -/
theorem one_to_many (S : Schema K R C E P) (os : List (MOp R C E)) :
    ∃ m, Matrix.oneToMany.ops S os = some m ∧ Consistent S m (specContent S false true (fun _ => none) os) ∧
      (∀ r r' c e e', m.get (r, c) = some e → m.get (r', c) = some e' → r = r') ∧
      (∀ r, ((m.row r).map (·.1)).Nodup ∧ ∀ c e, (c, e) ∈ m.row r ↔ m.get (r, c) = some e) ∧ (∀ c e, m.getCol c = some e ↔ ∃ r, m.get (r, c) = some e) ∧
      (∀ k, m.doesNotConflict k = true ↔ ∀ r, m.get (r, k.2) = none) := by
  obtain ⟨m, a, b, c, d1, d2⟩ := ops_spec (inv_empty S (.multi []) (.single []) (Or.inr rfl) (Or.inl rfl)) os
  have hcont : m.content = specContent S false true (fun _ => none) os := c
  have key : ∀ k e, m.get k = some e → ∃ e', m.content k = some e' := by
    intro k e hg; rw [b.get] at hg
    cases hx : m.content k with
    | none => rw [hx] at hg; cases hg
    | some e' => exact ⟨e', rfl⟩
  have none_iff : ∀ k, m.get k = none ↔ m.content k = none := by intro k; rw [b.get]; simp
  refine ⟨m, a, hcont ▸ b.consistent, ?_, ?_, b.getCol d2, ?_⟩
  · intro r r' cc e e' h1 h2
    obtain ⟨x, hx⟩ := key _ _ h1
    obtain ⟨y, hy⟩ := key _ _ h2
    apply Classical.byContradiction
    intro hne
    have := (b.free_of_content hx).2 d2 r' (fun e => hne e.symm)
    rw [show m.content (r', cc) = none from this] at hy; cases hy
  · intro r
    obtain ⟨s1, s2, _⟩ := sub_spec b.fwd d1 m.obj r
    exact ⟨s1, s2⟩
  · intro k
    have hcol := conflict_col b (c := k.2)
    have hfwd : m.fwd.conflict k.1 = none := by
      cases hi : m.fwd with
      | multi x => rfl
      | single x => rw [hi] at d1; cases d1
    unfold Matrix.doesNotConflict
    simp only [hfwd, Option.isNone_none, Bool.true_and, Option.isNone_iff_eq_none, none_iff]
    constructor
    · intro h2
      rw [h2] at hcol
      exact hcol d2
    · intro h2
      cases hp : m.tr.conflict k.2 with
      | none => rfl
      | some p => rw [hp] at hcol; obtain ⟨_, e, _, _, hc⟩ := hcol; rw [h2] at hc; cases hc

/-- C34: a `ManyToMany` after any operations: the row view, the column view and the lookup by both describe the same entries; rows and columns without entries do not appear
(`Consistent.rows`, `Consistent.cols`). -/
theorem many_to_many (S : Schema K R C E P) (os : List (MOp R C E)) :
    ∃ m, Matrix.manyToMany.ops S os = some m ∧ Consistent S m (specContent S false false (fun _ => none) os) ∧
      (∀ r, ((m.row r).map (·.1)).Nodup ∧ ∀ c e, (c, e) ∈ m.row r ↔ m.get (r, c) = some e) ∧
      (∀ c, ((m.colEntries c).map (·.1)).Nodup ∧ ∀ r e, (r, e) ∈ m.colEntries c ↔ m.get (r, c) = some e) := by
  obtain ⟨m, a, b, c, d1, d2⟩ := ops_spec (inv_empty S (.multi []) (.multi []) (Or.inr rfl) (Or.inr rfl)) os
  have hcont : m.content = specContent S false false (fun _ => none) os := c
  refine ⟨m, a, hcont ▸ b.consistent, ?_, ?_⟩
  · intro r
    obtain ⟨s1, s2, _⟩ := sub_spec b.fwd d1 m.obj r
    exact ⟨s1, s2⟩
  · intro c
    obtain ⟨s1, s2, _⟩ := sub_spec b.tr d2 m.obj c
    exact ⟨s1, s2⟩

/-- The clock readings an operation makes. -/
def MOp.times : MOp R C E → List Time
  | .add t₁ t₂ t₃ _ => [t₁, t₂, t₃]
  | .erase now _ => [now]
  | .eraseRow now _ => [now]
  | .eraseCol now _ => [now]

/-- Whether the operation writes an entry at `k`. -/
def MOp.Writes (S : Schema K R C E P) (k : R × C) : MOp R C E → Prop
  | .add _ _ _ e => k = (S.row e, S.col e)
  | _ => False

theorem op_times {S : Schema K R C E P} {m : Matrix R C E} (h : m.Inv S) (o : MOp R C E) :
    ∃ m' log, m.op S o = some (m', log) ∧
      ∀ k, (o.Writes S k ∨ m'.content k ≠ m.content k → ∃ t ∈ o.times, m'.lastModified k = some t) ∧
        (¬ o.Writes S k → m'.content k = m.content k → m'.lastModified k = m.lastModified k) := by
  have nothing : ∀ (o : MOp R C E), (∀ k, ¬ o.Writes S k) → ∀ k, (o.Writes S k ∨ m.content k ≠ m.content k → ∃ t ∈ o.times, m.lastModified k = some t) ∧
        (¬ o.Writes S k → m.content k = m.content k → m.lastModified k = m.lastModified k) :=
    fun o hw k => ⟨fun hh => hh.elim (fun x => absurd x (hw k)) (fun x => absurd rfl x), fun _ _ => rfl⟩
  have erased : ∀ (o : MOp R C E) (m' : Matrix R C E) (k₀ : R × C) (now : Time) (e : E), (∀ k, ¬ o.Writes S k) → o.times = [now] → m.content k₀ = some e →
      m'.content = upd m.content k₀ none → find m'.lm = upd (find m.lm) k₀ (some now) →
      ∀ k, (o.Writes S k ∨ m'.content k ≠ m.content k → ∃ t ∈ o.times, m'.lastModified k = some t) ∧
        (¬ o.Writes S k → m'.content k = m.content k → m'.lastModified k = m.lastModified k) := by
    intro o m' k₀ now e hw ht hc h1 h2 k
    unfold Matrix.lastModified
    rw [h1, h2, ht]
    by_cases hk : k = k₀
    · subst hk
      refine ⟨fun _ => ⟨now, by simp, by simp⟩, fun _ hh => ?_⟩
      rw [upd_same, hc] at hh; cases hh
    · rw [upd_other hk, upd_other hk]
      exact ⟨fun hh => hh.elim (fun x => absurd x (hw k)) (fun x => absurd rfl x), fun _ _ => rfl⟩
  cases o with
  | add t₁ t₂ t₃ e =>
    obtain ⟨m', log, a, _, _, _, ⟨d, hd, hd'⟩, f, g⟩ := add_chain h t₁ t₂ t₃ e
    refine ⟨m', log, a, fun k => ⟨?_, fun hw hc => f k hc.symm hw⟩⟩
    rintro (hw | hc)
    · exact ⟨d, hd, by rw [show k = S.rc e from hw]; exact hd'⟩
    · exact g k fun hh => hc hh.symm
  | erase now k =>
    simp only [Matrix.op, Matrix.erase]
    cases hk : find m.map k with
    | none => exact ⟨m, [], rfl, nothing _ fun _ => id⟩
    | some p =>
      obtain ⟨e, he, _⟩ := h.live _ _ hk
      have hc := (h.content_iff _ _).2 ⟨p, hk, he⟩
      obtain ⟨m', log, a, _, c, d, _⟩ := eraseAt_chain h now p e (fun _ => k) he hc
      exact ⟨m', log, a, erased _ m' k now e (fun _ => id) rfl hc c d⟩
  | eraseRow now r =>
    simp only [Matrix.op, Matrix.eraseRow]
    have hrow := conflict_row h (r := r)
    cases hp : m.fwd.conflict r with
    | none => exact ⟨m, [], rfl, nothing _ fun _ => id⟩
    | some p =>
      rw [hp] at hrow
      obtain ⟨hs, e, he, hr, hc⟩ := hrow
      obtain ⟨m', log, a, _, c, d, _⟩ := eraseAt_chain h now p e (fun e => (r, S.col e)) he hc
      exact ⟨m', log, a, erased _ m' _ now e (fun _ => id) rfl hc c d⟩
  | eraseCol now cc =>
    simp only [Matrix.op, Matrix.eraseCol]
    have hcol := conflict_col h (c := cc)
    cases hp : m.tr.conflict cc with
    | none => exact ⟨m, [], rfl, nothing _ fun _ => id⟩
    | some p =>
      rw [hp] at hcol
      obtain ⟨hs, e, he, hr, hc⟩ := hcol
      obtain ⟨m', log, a, _, c, d, _⟩ := eraseAt_chain h now p e (fun e => (S.row e, cc)) he hc
      exact ⟨m', log, a, erased _ m' _ now e (fun _ => id) rfl hc c d⟩

/-- The matrices the storage offers. -/
inductive Shape where
  | oneToOne | oneToMany | manyToMany
  deriving DecidableEq, Repr

def Shape.empty : Shape → Matrix R C E
  | .oneToOne => .oneToOne
  | .oneToMany => .oneToMany
  | .manyToMany => .manyToMany

theorem Shape.inv (S : Schema K R C E P) (s : Shape) : (s.empty : Matrix R C E).Inv S := by
  cases s
  · exact inv_empty S (.single []) (.single []) (Or.inl rfl) (Or.inl rfl)
  · exact inv_empty S (.multi []) (.single []) (Or.inr rfl) (Or.inl rfl)
  · exact inv_empty S (.multi []) (.multi []) (Or.inr rfl) (Or.inr rfl)

/-- `LastModified` of the matrices, for the last of any sequence of operations: what it wrote or removed has one of the times it read from the clock, everything else keeps its time
— entries, removed entries and keys never used. -/
theorem matrix_last_modified (S : Schema K R C E P) (s : Shape) (os : List (MOp R C E)) (o : MOp R C E) :
    ∃ m m' : Matrix R C E, s.empty.ops S os = some m ∧ s.empty.ops S (os ++ [o]) = some m' ∧
      ∀ k, (o.Writes S k ∨ m'.get k ≠ m.get k → ∃ t ∈ o.times, m'.lastModified k = some t) ∧
        (¬ o.Writes S k → m'.get k = m.get k → m'.lastModified k = m.lastModified k) := by
  obtain ⟨m, a, b, _⟩ := ops_spec (Shape.inv S s) os
  obtain ⟨m', log, c, d⟩ := op_times b o
  obtain ⟨m'', log', c', e', _⟩ := op_chain b o
  rw [c] at c'; cases c'
  refine ⟨m, m', a, ?_, ?_⟩
  · have : ∀ (os : List (MOp R C E)) (g : Matrix R C E), g.ops S os = some m → g.ops S (os ++ [o]) = some m' := by
      intro os
      induction os with
      | nil => intro g hg; cases hg; simp only [List.nil_append, Matrix.ops, c]
      | cons o' os ih =>
        intro g hg
        simp only [List.cons_append, Matrix.ops] at hg ⊢
        split at hg
        · cases hg
        · exact ih _ hg
    exact this os _ a
  · intro k
    have hget : m'.get k = m.get k ↔ m'.content k = m.content k := by
      rw [b.get, (e'.inv b).get]
      constructor
      · intro hh
        cases h1 : m'.content k <;> cases h2 : m.content k <;> simp [h1, h2] at hh ⊢
        exact hh
      · intro hh; rw [hh]
    rw [Ne, hget]; exact d k

/-- Cells of a board: row, column, what is there. -/
def cellSchema : Schema Nat Nat Nat (Nat × Nat × Nat) Nat := ⟨fun e => e.1, fun e => e.1, fun e => e.2.1, fun p e => (e.1, e.2.1, p)⟩

/-- Two conflicts at once: adding (1, 2) throws out (1, 1) and (2, 2). -/
example : ∃ m, Matrix.oneToOne.ops cellSchema [.add 1 2 3 (1, 1, 10), .add 4 5 6 (2, 2, 20), .add 7 8 9 (3, 3, 30), .add 10 11 12 (1, 2, 40)] = some m ∧
    m.iterate = [((3, 3), some (3, 3, 30)), ((1, 2), some (1, 2, 40))] ∧ m.getRow 1 = some (some (1, 2, 40)) ∧ m.getCol 1 = none ∧ m.getRow 2 = none ∧
    m.lastModified (1, 1) = some 10 ∧ m.lastModified (2, 2) = some 11 ∧ m.lastModified (1, 2) = some 12 :=
  ⟨_, rfl, rfl, rfl, rfl, rfl, rfl, rfl, rfl⟩

/-- A column moves, and a row that becomes empty is gone. -/
example : ∃ m, Matrix.oneToMany.ops cellSchema [.add 1 2 3 (1, 1, 10), .add 4 5 6 (2, 2, 20), .add 7 8 9 (2, 1, 30)] = some m ∧
    m.row 2 = [(2, some (2, 2, 20)), (1, some (2, 1, 30))] ∧ m.row 1 = [] ∧ m.fwd.keys = [2] ∧ m.getCol 1 = some (some (2, 1, 30)) :=
  ⟨_, rfl, rfl, rfl, rfl, rfl⟩

/-! ### Dictionary -/

inductive DOp (K E P : Type) where
  | add (now : Time) (e : E)
  | erase (now : Time) (k : K)
  | patch (now : Time) (k : K) (p : P)
  deriving DecidableEq, Repr

def Dict.op (S : Schema K R C E P) (d : Dict K E) : DOp K E P → Option (Dict K E × List (DEv K E P × DUndo K E))
  | .add now e => d.add S now e
  | .erase now k => d.erase S now k
  | .patch now k p => d.patch S now k p

/-- What a dictionary shows. -/
structure DView (K E : Type) where
  content : K → Option E
  lm : K → Option Time

def Dict.view (d : Dict K E) : DView K E := ⟨find d.map, find d.lm⟩

/-- What each operation must do. -/
def DOp.spec (S : Schema K R C E P) (v : DView K E) : DOp K E P → DView K E
  | .add now e => ⟨fun k => if k = S.key e then some e else v.content k, fun k => if k = S.key e then some now else v.lm k⟩
  | .erase now k => ⟨fun x => if x = k then none else v.content x, fun x => if x = k ∧ v.content k ≠ none then some now else v.lm x⟩
  | .patch now k p => ⟨fun x => if x = k then (v.content k).map (S.patch p) else v.content x, fun x => if x = k ∧ v.content k ≠ none then some now else v.lm x⟩

/-- Every entry is under its own key and has a modification time. -/
structure Dict.Inv (S : Schema K R C E P) (d : Dict K E) : Prop where
  key : ∀ k e, find d.map k = some e → S.key e = k
  lm : ∀ k e, find d.map k = some e → ∃ t, find d.lm k = some t
  wfMap : Wf d.map
  wfLm : Wf d.lm

/-- Patches do not change keys. -/
def Schema.KeepsKeys (S : Schema K R C E P) : Prop := ∀ p e, S.key (S.patch p e) = S.key e

structure DStep (S : Schema K R C E P) (d : Dict K E) (ev : DEv K E P) (u : DUndo K E) (d' : Dict K E) : Prop where
  inv : d'.Inv S
  replay : ∀ g : Dict K E, g.Inv S → g.view = d.view → (g.replay S ev).Inv S ∧ (g.replay S ev).view = d'.view
  undo : ∀ g : Dict K E, g.Inv S → g.view = d'.view → (g.undo u).Inv S ∧ (g.undo u).view = d.view

theorem Dict.set_spec {S : Schema K R C E P} {d : Dict K E} (h : d.Inv S) (us : Time) (k : K) (e : E) (hk : S.key e = k) :
    (d.set us k e).Inv S ∧ (d.set us k e).view = ⟨upd (find d.map) k (some e), upd (find d.lm) k (some us)⟩ := by
  refine ⟨⟨?_, ?_, wf_put h.wfMap _ _, wf_put h.wfLm _ _⟩, ?_⟩
  · intro x y hx
    simp only [Dict.set, find_put, upd] at hx
    split at hx
    · rename_i e'; cases hx; rw [e']; exact hk
    · exact h.key x y hx
  · intro x y hx
    simp only [Dict.set, find_put, upd] at hx ⊢
    split
    · exact ⟨_, rfl⟩
    · rename_i hne; rw [if_neg hne] at hx; exact h.lm x y hx
  · simp [Dict.view, Dict.set, find_put]

theorem Dict.del_spec {S : Schema K R C E P} {d : Dict K E} (h : d.Inv S) (l : AMap K Time) (hw : Wf l) (k : K) (hl : ∀ x, x ≠ k → find l x = find d.lm x) :
    ({ map := del d.map k, lm := l } : Dict K E).Inv S ∧ ({ map := del d.map k, lm := l } : Dict K E).view = ⟨upd (find d.map) k none, find l⟩ := by
  refine ⟨⟨?_, ?_, wf_del h.wfMap _, hw⟩, ?_⟩
  · intro x y hx
    simp only [find_del, upd] at hx
    split at hx
    · cases hx
    · exact h.key x y hx
  · intro x y hx
    simp only [find_del, upd] at hx
    split at hx
    · cases hx
    · rename_i hne; rw [show find ({ map := del d.map k, lm := l } : Dict K E).lm x = find l x from rfl, hl x hne]; exact h.lm x y hx
  · simp [Dict.view, find_del]

theorem dview_map {g d : Dict K E} (h : g.view = d.view) : find g.map = find d.map := congrArg DView.content h
theorem dview_lm {g d : Dict K E} (h : g.view = d.view) : find g.lm = find d.lm := congrArg DView.lm h

/-- Every operation on a dictionary: never an assertion, the effect as specified, the log proper: at most one change. -/
theorem dop_chain {S : Schema K R C E P} (hS : S.KeepsKeys) {d : Dict K E} (h : d.Inv S) (o : DOp K E P) :
    ∃ d', d'.view = o.spec S d.view ∧ ((d.op S o = some (d', []) ∧ d' = d) ∨ ∃ ev u, d.op S o = some (d', [(ev, u)]) ∧ DStep S d ev u d') := by
  have lmput : ∀ (g : Dict K E) (k : K) (t : Time) x, x ≠ k → find (put g.lm k t) x = find g.lm x := fun g k t x hx => by rw [find_put, upd_other hx]
  have lmdel : ∀ (g : Dict K E) (k : K) x, x ≠ k → find (del g.lm k) x = find g.lm x := fun g k x hx => by rw [find_del, upd_other hx]
  -- undoing by restoring
  have restore : ∀ (d' : Dict K E) (k : K) (t : Time) (prev : E), find d.map k = some prev → find d.lm k = some t →
      (∀ x, x ≠ k → find d'.map x = find d.map x ∧ find d'.lm x = find d.lm x) →
      ∀ g : Dict K E, g.Inv S → g.view = d'.view → (g.undo (.restore k t prev)).Inv S ∧ (g.undo (.restore k t prev)).view = d.view := by
    intro d' k t prev hp ht hd g hg hv
    obtain ⟨j1, j2⟩ := Dict.set_spec hg t k prev (h.key _ _ hp)
    refine ⟨j1, j2.trans ?_⟩
    rw [dview_map hv, dview_lm hv]
    unfold Dict.view
    congr 1
    · funext x; simp only [upd]; split
      · rename_i hx; rw [hx, hp]
      · rename_i hx; exact (hd x hx).1
    · funext x; simp only [upd]; split
      · rename_i hx; rw [hx, ht]
      · rename_i hx; exact (hd x hx).2
  cases o with
  | add now e =>
    obtain ⟨i1, i2⟩ := Dict.set_spec h now (S.key e) e rfl
    have hrep : ∀ g : Dict K E, g.Inv S → g.view = d.view → (g.replay S (.updated now e)).Inv S ∧ (g.replay S (.updated now e)).view = (d.set now (S.key e) e).view := by
      intro g hg hv
      obtain ⟨j1, j2⟩ := Dict.set_spec hg now (S.key e) e rfl
      refine ⟨j1, ?_⟩
      rw [i2]; refine j2.trans ?_
      rw [dview_map hv, dview_lm hv]
    refine ⟨d.set now (S.key e) e, i2, Or.inr ?_⟩
    simp only [Dict.op, Dict.add]
    cases hp : find d.map (S.key e) with
    | some prev =>
      obtain ⟨t, ht⟩ := h.lm _ _ hp
      rw [ht]
      refine ⟨_, _, rfl, i1, hrep, restore _ _ _ _ hp ht ?_⟩
      intro x hx; simp [Dict.set, find_put, upd_other hx]
    | none =>
      cases ht : find d.lm (S.key e) with
      | some t =>
        refine ⟨_, _, rfl, i1, hrep, ?_⟩
        intro g hg hv
        rw [i2] at hv
        obtain ⟨j1, j2⟩ := Dict.del_spec hg (put g.lm (S.key e) t) (wf_put hg.wfLm _ _) (S.key e) (lmput g _ _)
        refine ⟨j1, j2.trans ?_⟩
        rw [find_put, show find g.map = _ from congrArg DView.content hv, show find g.lm = _ from congrArg DView.lm hv]
        simp only [upd_upd]
        unfold Dict.view
        rw [← hp, ← ht, upd_id, upd_id]
      | none =>
        refine ⟨_, _, rfl, i1, hrep, ?_⟩
        intro g hg hv
        rw [i2] at hv
        obtain ⟨j1, j2⟩ := Dict.del_spec hg (del g.lm (S.key e)) (wf_del hg.wfLm _) (S.key e) (lmdel g _)
        refine ⟨j1, j2.trans ?_⟩
        rw [find_del, show find g.map = _ from congrArg DView.content hv, show find g.lm = _ from congrArg DView.lm hv]
        simp only [upd_upd]
        unfold Dict.view
        congr 1
        · rw [← hp]; exact upd_id _ _
        · rw [← ht]; exact upd_id _ _
  | erase now k =>
    simp only [Dict.op, Dict.erase]
    cases hp : find d.map k with
    | none =>
      refine ⟨d, ?_, Or.inl ⟨rfl, rfl⟩⟩
      simp only [DOp.spec, Dict.view, hp]
      congr 1
      · funext x; split
        · rename_i hx; rw [hx, hp]
        · rfl
      · funext x; simp
    | some prev =>
      obtain ⟨t, ht⟩ := h.lm _ _ hp
      have hk := h.key _ _ hp
      obtain ⟨i1, i2⟩ := Dict.del_spec h (put d.lm k now) (wf_put h.wfLm _ _) k (lmput d _ _)
      refine ⟨_, ?_, Or.inr ⟨.deleted now (S.key prev), .restore k t prev, by simp only [ht], i1, ?_, restore _ _ _ _ hp ht ?_⟩⟩
      · rw [i2, find_put]
        simp only [DOp.spec, Dict.view, hp]
        congr 1
        funext x; simp [upd]
      · intro g hg hv
        obtain ⟨j1, j2⟩ := Dict.del_spec hg (put g.lm k now) (wf_put hg.wfLm _ _) k (lmput g _ _)
        rw [hk]
        refine ⟨j1, ?_⟩
        rw [i2]; refine j2.trans ?_
        rw [find_put, find_put, dview_map hv, dview_lm hv]
      · intro x hx; simp [find_del, find_put, upd_other hx]
  | patch now k p =>
    simp only [Dict.op, Dict.patch]
    cases hp : find d.map k with
    | none =>
      refine ⟨d, ?_, Or.inl ⟨rfl, rfl⟩⟩
      simp only [DOp.spec, Dict.view, hp]
      congr 1
      · funext x; split
        · rename_i hx; rw [hx, hp]; rfl
        · rfl
      · funext x; simp
    | some prev =>
      obtain ⟨t, ht⟩ := h.lm _ _ hp
      have hk : S.key (S.patch p prev) = k := (hS p prev).trans (h.key _ _ hp)
      obtain ⟨i1, i2⟩ := Dict.set_spec h now k (S.patch p prev) hk
      refine ⟨_, ?_, Or.inr ⟨.patched now k p, .restore k t prev, by simp only [ht], i1, ?_, restore _ _ _ _ hp ht ?_⟩⟩
      · rw [i2]
        simp only [DOp.spec, Dict.view, hp]
        congr 1
        funext x; simp [upd]
      · intro g hg hv
        have hgp : find g.map k = some prev := by rw [dview_map hv]; exact hp
        obtain ⟨j1, j2⟩ := Dict.set_spec hg now k (S.patch p prev) hk
        have hr : g.replay S (.patched now k p) = g.set now k (S.patch p prev) := by simp only [Dict.replay, hgp]
        rw [hr]
        refine ⟨j1, ?_⟩
        rw [i2]; refine j2.trans ?_
        rw [dview_map hv, dview_lm hv]
      · intro x hx; simp [Dict.set, find_put, upd_other hx]

def Dict.ops (S : Schema K R C E P) : Dict K E → List (DOp K E P) → Option (Dict K E)
  | d, [] => some d
  | d, o :: os => match d.op S o with
    | none => none
    | some (d', _) => Dict.ops S d' os

/-- The map that the operations describe. -/
def specDict (S : Schema K R C E P) : DView K E → List (DOp K E P) → DView K E
  | v, [] => v
  | v, o :: os => specDict S (o.spec S v) os

/-- C31: a dictionary after any operations is the map they describe: `operator[]`, `Has`, `LastModified` say so, iterating gives every present key once, with its value. Patches must not
change keys (see `patched_key_breaks_replay`). -/
theorem dictionary_is_a_map (S : Schema K R C E P) (hS : S.KeepsKeys) (os : List (DOp K E P)) :
    ∃ d, Dict.ops S {} os = some d ∧
      (∀ k, find d.map k = (specDict S ⟨fun _ => none, fun _ => none⟩ os).content k) ∧
      (∀ k, find d.lm k = (specDict S ⟨fun _ => none, fun _ => none⟩ os).lm k) ∧
      (d.map.map (·.1)).Nodup ∧ (∀ k e, (k, e) ∈ d.map ↔ find d.map k = some e) ∧ (∀ k e, (k, e) ∈ d.map → S.key e = k) := by
  have key : ∀ (os : List (DOp K E P)) (d : Dict K E), d.Inv S → ∃ d', Dict.ops S d os = some d' ∧ d'.view = specDict S d.view os ∧ d'.Inv S := by
    intro os
    induction os with
    | nil => intro d h; exact ⟨d, rfl, rfl, h⟩
    | cons o os ih =>
      intro d h
      obtain ⟨d1, hv, hop⟩ := dop_chain hS h o
      rcases hop with ⟨hop, rfl⟩ | ⟨ev, u, hop, hst⟩
      · obtain ⟨d', a, b, c⟩ := ih d1 h
        refine ⟨d', by simp only [Dict.ops, hop]; exact a, ?_, c⟩
        rw [b]; simp only [specDict]; rw [← hv]
      · obtain ⟨d', a, b, c⟩ := ih d1 hst.inv
        refine ⟨d', by simp only [Dict.ops, hop]; exact a, ?_, c⟩
        rw [b, hv]; rfl
  have hinv : ({} : Dict K E).Inv S := ⟨by simp [find], by simp [find], wf_nil, wf_nil⟩
  obtain ⟨d, a, b, c⟩ := key os {} hinv
  have hv0 : ({} : Dict K E).view = ⟨fun _ => none, fun _ => none⟩ := by
    unfold Dict.view; congr
  rw [hv0] at b
  refine ⟨d, a, fun k => by rw [← b]; rfl, fun k => by rw [← b]; rfl, c.wfMap, fun k e => mem_iff_find c.wfMap k e, ?_⟩
  intro k e hm
  exact c.key k e ((mem_iff_find c.wfMap k e).1 hm)

theorem cellSchema_keeps : cellSchema.KeepsKeys := fun _ _ => rfl

example : ((Dict.ops cellSchema {} [.add 1 (1, 0, 10), .add 2 (2, 0, 20), .patch 3 1 11, .erase 4 2, .erase 5 3]).map fun d =>
    (d.map, find d.lm 1, find d.lm 2, find d.lm 3)) = some ([(1, (1, 0, 11))], some 3, some 4, none) := by
  decide

end Current.Storage
