import Verif.Tsv.Props
/-!
C82: rows and tables.
-/
namespace Current.Tsv

/-- The packer and the unpacker after the same rows. -/
structure Linked (p : Packer) (u : Unpacker) : Prop where
  going : p.done = false
  right : Right p.data p.offsets
  nodup : (p.offsets.map (·.1)).Nodup
  start : p.first = true → u.row = [] ∧ u.dim = 0 ∧ p.offsets = [] ∧ p.data = [] ∧ p.current.length = p.dim ∧ p.dim ≤ 254
  later : p.first = false → u.row = p.current ∧ u.dim = p.dim ∧ p.current.length = p.dim ∧ 1 ≤ p.dim ∧ p.dim ≤ 254 ∧ ∀ t ∈ p.current, t ∈ p.offsets.map (·.1)

theorem addRow_spec {p p' : Packer} {u : Unpacker} {row : List Bytes} (h : addRow p row = some p') (hl : Linked p u) :
    ∃ x, p'.data = p.data ++ x ∧ (∀ y, Does (p'.data ++ y) x u { row := row, dim := row.length, out := u.out ++ [row] }) ∧
      Linked p' { row := row, dim := row.length, out := u.out ++ [row] } ∧ p'.current = row ∧ p'.first = false ∧
      (p.first = false → row.length = p.current.length) ∧
      (∀ t, t ∈ p'.offsets.map (·.1) ↔ t ∈ row ∨ t ∈ p.offsets.map (·.1)) ∧
      p'.data.length + (p.offsets.map fun y => y.1.length + 4).sum =
        p.data.length + (p'.offsets.map fun y => y.1.length + 4).sum + 5 * written p.first p.current row + 1 := by
  unfold addRow at h
  rw [if_neg (by rw [hl.going]; decide)] at h
  by_cases hrow : row = []
  · rw [if_pos hrow] at h; simp at h
  rw [if_neg hrow] at h
  dsimp only at h
  have hpos : 1 ≤ row.length := by
    cases row with
    | nil => exact absurd rfl hrow
    | cons _ _ => simp
  -- The packer once the number of columns is known.
  obtain ⟨q, hq, hqc, hqd, hqf, hqo, hqdim, hq254, hq1, hqdone⟩ : ∃ q : Packer,
      (if p.dim = 0 then if row.length ≤ 254 then some { p with dim := row.length, current := p.current ++ List.replicate row.length [] } else none
        else if row.length = p.dim then some p else none) = some q ∧ (p.first = false → q.current = p.current) ∧ q.data = p.data ∧ q.first = p.first ∧ q.offsets = p.offsets ∧
        q.dim = row.length ∧ row.length ≤ 254 ∧ q.current.length = row.length ∧ q.done = false := by
    by_cases h0 : p.dim = 0
    · rw [if_pos h0] at h ⊢
      by_cases h254 : row.length ≤ 254
      · rw [if_pos h254]
        refine ⟨_, rfl, ?_, rfl, rfl, rfl, rfl, h254, ?_, hl.going⟩
        · intro hf
          have := (hl.later hf).2.2.2.1
          omega
        · have : p.current.length = 0 := by
            cases hf : p.first with
            | true => rw [(hl.start hf).2.2.2.2.1, h0]
            | false => rw [(hl.later hf).2.2.1, h0]
          simp [this]
      · rw [if_neg h254] at h; simp at h
    · rw [if_neg h0] at h ⊢
      by_cases hd : row.length = p.dim
      · rw [if_pos hd]
        have : p.current.length = p.dim ∧ p.dim ≤ 254 := by
          cases hf : p.first with
          | true => exact ⟨(hl.start hf).2.2.2.2.1, (hl.start hf).2.2.2.2.2⟩
          | false => exact ⟨(hl.later hf).2.2.1, (hl.later hf).2.2.2.2.1⟩
        exact ⟨p, rfl, fun _ => rfl, rfl, rfl, rfl, hd.symm, by omega, by omega, hl.going⟩
      · rw [if_neg hd] at h; simp at h
  rw [hq] at h
  dsimp only at h
  cases hc : columns 0 row q with
  | none => rw [hc] at h; simp at h
  | some r =>
    rw [hc] at h
    dsimp only at h
    have hsp := columns_spec row [] q.current q r u hc rfl hq1 (by simpa using hq254)
      (by
        rw [hqf]
        cases hf : p.first with
        | true => simpa using (hl.start hf).1
        | false => rw [hqc hf]; simpa using (hl.later hf).1)
      (by rw [hqd, hqo]; exact hl.right) (by rw [hqo]; exact hl.nodup)
      (by
        intro t ht
        rw [hqf] at ht
        rw [hqo]
        cases hf : p.first with
        | true => rw [hf] at ht; simp at ht
        | false =>
          rw [hf, hqc hf] at ht
          exact (hl.later hf).2.2.2.2.2 t (by simpa using ht))
    obtain ⟨x, e1, e2, e3, e4, e5, e6, e7, e8, e9, e10⟩ := hsp
    by_cases hs : small (r.data ++ [rowDone]) = true
    · rw [if_pos hs] at h
      simp only [Option.some.injEq] at h
      subst h
      dsimp only
      rw [List.nil_append] at e5
      refine ⟨x ++ [rowDone], by rw [e1, hqd]; simp, ?_, ?_, e5, rfl, ?_, ?_, ?_⟩
      · intro y
        have d1 := e10 ([rowDone] ++ y)
        rw [← List.append_assoc] at d1
        have d2 := does_row (r.data ++ [rowDone] ++ y) { u with row := row } hrow
          (by
            dsimp only
            cases hf : p.first with
            | true => exact .inl (hl.start hf).2.1
            | false =>
              right
              rw [(hl.later hf).2.1, ← (hl.later hf).2.2.1, ← hqc hf, hq1])
        exact does_trans d1 d2
      · refine ⟨by rw [e8, hqdone], right_append e2 _, e3, (fun h => by simp at h), fun _ => ⟨e5.symm, ?_, ?_, ?_, ?_, ?_⟩⟩
        · show row.length = r.dim
          rw [e6, hqdim]
        · show r.current.length = r.dim
          rw [e5, e6, hqdim]
        · show 1 ≤ r.dim
          rw [e6, hqdim]; exact hpos
        · show r.dim ≤ 254
          rw [e6, hqdim]; exact hq254
        · intro t ht
          rw [e5] at ht
          exact (e4 t).2 (.inl ht)
      · intro hf
        rw [← hq1, hqc hf]
      · intro t
        rw [e4, hqo]
      · have hw : written q.first q.current row = written p.first p.current row := by
          rw [hqf]
          cases hf : p.first with
          | true => rfl
          | false => rw [hqc hf]
        rw [hw, hqd, hqo] at e9
        simp only [List.length_append, List.length_cons, List.length_nil]
        omega
    · rw [if_neg hs] at h; simp at h

/-- The cells written for a list of rows. -/
def writtenAll : Bool → List Bytes → List (List Bytes) → Nat
  | _, _, [] => 0
  | f, old, r :: rs => written f old r + writtenAll false r rs

theorem writtenAll_false : ∀ (old : List Bytes) (rows : List (List Bytes)), writtenAll false old rows = changesAfter old rows
  | _, [] => rfl
  | old, r :: rs => by
    simp only [writtenAll, changesAfter, written, writtenAll_false r rs]
    rfl

theorem writtenAll_true (old : List Bytes) (rows : List (List Bytes)) : writtenAll true old rows = changes rows := by
  cases rows with
  | nil => rfl
  | cons r rs => simp only [writtenAll, changes, written, writtenAll_false r rs]; rfl

theorem addRows_spec : ∀ {rows : List (List Bytes)} {p p' : Packer} {u : Unpacker}, addRows p rows = some p' → Linked p u →
    ∃ x, p'.data = p.data ++ x ∧ (∀ y, ∃ u', Does (p'.data ++ y) x u u' ∧ u'.out = u.out ++ rows) ∧ p'.done = false ∧
      (p'.offsets.map (·.1)).Nodup ∧
      (∀ t, t ∈ p'.offsets.map (·.1) ↔ (∃ r ∈ rows, t ∈ r) ∨ t ∈ p.offsets.map (·.1)) ∧
      p'.data.length + (p.offsets.map fun y => y.1.length + 4).sum =
        p.data.length + (p'.offsets.map fun y => y.1.length + 4).sum + 5 * writtenAll p.first p.current rows + rows.length
  | [], p, p', u, h, hl => by
    simp only [addRows, Option.some.injEq] at h
    subst h
    exact ⟨[], by simp, fun y => ⟨u, does_nil _ _, by simp⟩, hl.going, hl.nodup, by simp, by simp [writtenAll]⟩
  | r :: rs, p, p', u, h, hl => by
    rw [addRows] at h
    cases hr : addRow p r with
    | none => rw [hr] at h; simp at h
    | some q =>
      rw [hr] at h
      dsimp only at h
      obtain ⟨x, e1, e2, e3, e4, e5, e6, e7, e8⟩ := addRow_spec hr hl
      obtain ⟨z, f1, f2, f3, f4, f5, f6⟩ := addRows_spec h e3
      refine ⟨x ++ z, by rw [f1, e1]; simp, ?_, f3, f4, ?_, ?_⟩
      · intro y
        obtain ⟨u', g1, g2⟩ := f2 y
        refine ⟨u', ?_, by rw [g2]; simp⟩
        have d := e2 (z ++ y)
        rw [← List.append_assoc, ← f1] at d
        exact does_trans d g1
      · intro t
        rw [f5, e7]
        simp only [List.mem_cons]
        grind
      · rw [e4, e5] at f6
        simp only [writtenAll, List.length_cons]
        omega

theorem linked_make {dim : Nat} {p : Packer} (h : make dim = some p) : Linked p {} ∧ p.data = [] ∧ p.offsets = [] ∧ p.first = true := by
  unfold make at h
  by_cases c : dim ≤ 254
  · rw [if_pos c] at h
    simp only [Option.some.injEq] at h
    subst h
    exact ⟨⟨rfl, fun x hx => absurd hx (List.not_mem_nil), by simp, fun _ => ⟨rfl, rfl, rfl, rfl, by simp, c⟩, fun h => by simp at h⟩, rfl, rfl, rfl⟩
  · rw [if_neg c] at h; simp at h

/-- **C82.** What was packed is unpacked: all the rows, in order; and the packed string has the size of its parts. -/
theorem unpack_pack {dim : Nat} {rows : List (List Bytes)} {d : Bytes} (h : pack dim rows = some d) :
    unpack d = some rows ∧ ∃ strings, Strings rows strings ∧ d.length = sizeOf rows strings := by
  unfold pack at h
  cases hm : make dim with
  | none => rw [hm] at h; simp at h
  | some p =>
    rw [hm] at h
    dsimp only at h
    cases ha : addRows p rows with
    | none => rw [ha] at h; simp at h
    | some q =>
      rw [ha] at h
      dsimp only at h
      obtain ⟨l1, l2, l3, l4⟩ := linked_make hm
      obtain ⟨x, e1, e2, e3, e4, e5, e6⟩ := addRows_spec ha l1
      unfold finalize at h
      rw [if_neg (by rw [e3]; decide)] at h
      simp only [packed, if_true, Option.some.injEq] at h
      subst h
      rw [l2, List.nil_append] at e1
      constructor
      · obtain ⟨u', g1, g2⟩ := e2 []
        unfold unpack
        rw [List.append_nil] at g1
        have := g1 []
        rw [List.append_nil, ← e1] at this
        rw [this, loop.eq_def]
        simpa using g2
      · refine ⟨q.offsets.map (·.1), ⟨e4, ?_⟩, ?_⟩
        · intro s
          rw [e5, l3]; simp
        · rw [l2, l3, l4, writtenAll_true] at e6
          unfold sizeOf
          rw [List.map_map]
          simp only [List.map_nil, List.sum_nil, List.length_nil, Nat.add_zero, Nat.zero_add] at e6
          rw [e6]
          have : ((fun s : Bytes => s.length + 4) ∘ fun x : Bytes × Nat => x.1) = fun y : Bytes × Nat => y.1.length + 4 := rfl
          rw [this]
          omega

end Current.Tsv
