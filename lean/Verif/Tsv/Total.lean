import Verif.Tsv.Round
/-!
C82: which tables can be packed.
-/
namespace Current.Tsv

theorem sum_perm {l m : List Nat} (h : l.Perm m) : l.sum = m.sum := by
  induction h with
  | nil => rfl
  | cons _ _ ih => simp [ih]
  | swap _ _ _ => simp; omega
  | trans _ _ h1 h2 => rw [h1, h2]

/-- The strings packed so far are among the strings of the table. -/
theorem sum_le (f : Bytes → Nat) : ∀ (keys strings : List Bytes), keys.Nodup → (∀ t ∈ keys, t ∈ strings) → (keys.map f).sum ≤ (strings.map f).sum
  | [], _, _, _ => by simp
  | k :: ks, strings, hn, hs => by
    have hk := hs k (List.mem_cons_self ..)
    have hp := List.perm_cons_erase hk
    rw [List.nodup_cons] at hn
    have := sum_le f ks (strings.erase k) hn.2 (fun t ht => by
      have hne : t ≠ k := fun e => hn.1 (e ▸ ht)
      exact (List.mem_erase_of_ne hne).2 (hs t (List.mem_cons_of_mem _ ht)))
    rw [sum_perm (hp.map f)]
    simp only [List.map_cons, List.sum_cons]
    omega

theorem keys_sum (offsets : List (Bytes × Nat)) : (offsets.map fun y => y.1.length + 4).sum = ((offsets.map (·.1)).map fun s => s.length + 4).sum := by
  rw [List.map_map]; rfl

theorem getOffset_total {p : Packer} {s : Bytes} {strings : List Bytes} (hs : s.length ≤ 65535) (hin : s ∈ strings) (hr : Right p.data p.offsets)
    (hn : (p.offsets.map (·.1)).Nodup) (hk : ∀ t ∈ p.offsets.map (·.1), t ∈ strings)
    (hroom : p.data.length + (strings.map fun s => s.length + 4).sum < 2 ^ 32 + (p.offsets.map fun y => y.1.length + 4).sum) :
    ∃ q o, getOffset p s = some (q, o) := by
  unfold getOffset
  dsimp only
  by_cases c : offsetOf s p.offsets = 0
  · rw [if_pos c]
    have hnew := offsetOf_zero (fun x hx => (hr x hx).1) c
    have hle := sum_le (fun s => s.length + 4) (s :: p.offsets.map (·.1)) strings (List.nodup_cons.2 ⟨hnew, hn⟩)
      (by
        intro t ht
        simp only [List.mem_cons] at ht
        rcases ht with rfl | ht
        · exact hin
        · exact hk t ht)
    simp only [List.map_cons, List.sum_cons] at hle
    rw [keys_sum] at hroom
    unfold storeString
    rw [if_pos (by omega)]
    dsimp only
    rw [if_pos (by
      rw [small_iff]
      simp only [List.length_append, List.length_cons, List.length_nil, le2]
      omega)]
    exact ⟨_, _, rfl⟩
  · rw [if_neg c]
    exact ⟨_, _, rfl⟩

theorem columns_total {strings : List Bytes} : ∀ (ss : List Bytes) (pre old : List Bytes) (p : Packer), p.current = pre ++ old → old.length = ss.length →
    pre.length + ss.length ≤ 254 → Right p.data p.offsets → (p.offsets.map (·.1)).Nodup → (∀ t ∈ p.offsets.map (·.1), t ∈ strings) →
    (∀ s ∈ ss, s.length ≤ 65535 ∧ s ∈ strings) →
    p.data.length + 5 * written p.first old ss + (strings.map fun s => s.length + 4).sum < 2 ^ 32 + (p.offsets.map fun y => y.1.length + 4).sum →
    ∃ p', columns pre.length ss p = some p' := by
  intro ss
  induction ss with
  | nil => intro pre old p _ _ _ _ _ _ _ _; exact ⟨p, rfl⟩
  | cons s ss ih =>
    intro pre old p hc hl h254 hr hn hk hss hroom
    obtain ⟨a, old, rfl⟩ : ∃ a o, old = a :: o := by
      cases old with
      | nil => simp at hl
      | cons a o => exact ⟨a, o, rfl⟩
    simp only [List.length_cons, Nat.add_right_cancel_iff] at hl h254
    have hget : p.current.getD pre.length [] = a := by rw [hc]; simp
    have hpl : pre.length + 1 = (pre ++ [s]).length := by simp
    rw [columns, hget]
    by_cases c : s ≠ a ∨ p.first = true
    · rw [if_pos c]
      have hw : written p.first (a :: old) (s :: ss) = 1 + written p.first old ss := by
        unfold written
        cases hf : p.first with
        | true => simp; omega
        | false =>
          have : a ≠ s := by
            rcases c with c | c
            · exact fun e => c e.symm
            · rw [hf] at c; simp at c
          simp [differences, this]
      rw [hw] at hroom
      obtain ⟨q, o, hg⟩ := getOffset_total (p := { p with current := p.current.set pre.length s }) (s := s) (strings := strings)
        (hss s (List.mem_cons_self ..)).1 (hss s (List.mem_cons_self ..)).2 hr hn hk (by dsimp only; omega)
      rw [hg]
      dsimp only
      obtain ⟨x, e1, e2, e3, e4, e5, e6, e7, e8, e9, e10, e11, e12⟩ := getOffset_spec hg hr hn
      dsimp only at e1 e6 e7 e8 e9 e10 e11
      have hset : p.current.set pre.length s = (pre ++ [s]) ++ old := by rw [hc]; simp
      rw [hset] at e7
      rw [hpl]
      refine ih (pre ++ [s]) old _ e7 hl (by rw [← hpl]; omega) (by dsimp only; rw [List.append_assoc]; exact right_append e2 _) e5 ?_
        (fun t ht => hss t (List.mem_cons_of_mem _ ht)) ?_
      · intro t ht
        rw [e6] at ht
        rcases ht with rfl | ht
        · exact (hss t (List.mem_cons_self ..)).2
        · exact hk t ht
      · dsimp only
        rw [e9]
        simp only [List.length_append, List.length_cons, List.length_nil, le4]
        omega
    · rw [if_neg c]
      simp only [ne_eq, not_or, Decidable.not_not, Bool.not_eq_true] at c
      obtain ⟨rfl, hf⟩ := c
      rw [hpl]
      refine ih (pre ++ [s]) old p (by rw [hc]; simp) hl (by rw [← hpl]; omega) hr hn hk (fun t ht => hss t (List.mem_cons_of_mem _ ht)) ?_
      have : written p.first (s :: old) (s :: ss) = written p.first old ss := by
        rw [hf]; simp [written, differences]
      rw [this] at hroom
      exact hroom

/-- The number of columns is the given one, or not known yet. -/
def Fresh (dim : Nat) (p : Packer) : Prop := p.dim = dim ∨ p.dim = 0 ∧ p.first = true

theorem addRow_total {strings : List Bytes} {p : Packer} {u : Unpacker} {dim : Nat} {row : List Bytes} (hl : Linked p u) (hdim : Fresh dim p)
    (h1 : 1 ≤ dim) (h254 : dim ≤ 254) (hrow : row.length = dim) (hk : ∀ t ∈ p.offsets.map (·.1), t ∈ strings) (hss : ∀ s ∈ row, s.length ≤ 65535 ∧ s ∈ strings)
    (hroom : p.data.length + 5 * written p.first p.current row + 1 + (strings.map fun s => s.length + 4).sum < 2 ^ 32 + (p.offsets.map fun y => y.1.length + 4).sum) :
    ∃ p', addRow p row = some p' ∧ p'.dim = dim := by
  have hne : row ≠ [] := by intro e; rw [e] at hrow; simp at hrow; omega
  unfold addRow
  rw [if_neg (by rw [hl.going]; decide), if_neg hne]
  dsimp only
  obtain ⟨q, hq, hqc, hqd, hqf, hqo, hq1, hqdim⟩ : ∃ q : Packer,
      (if p.dim = 0 then if row.length ≤ 254 then some { p with dim := row.length, current := p.current ++ List.replicate row.length [] } else none
        else if row.length = p.dim then some p else none) = some q ∧ (p.first = false → q.current = p.current) ∧ q.data = p.data ∧ q.first = p.first ∧ q.offsets = p.offsets ∧
        q.current.length = row.length ∧ q.dim = dim := by
    by_cases h0 : p.dim = 0
    · rw [if_pos h0, if_pos (by omega)]
      refine ⟨_, rfl, ?_, rfl, rfl, rfl, ?_, hrow⟩
      · intro hf
        have := (hl.later hf).2.2.2.1
        omega
      · have : p.current.length = 0 := by
          cases hf : p.first with
          | true => rw [(hl.start hf).2.2.2.2.1, h0]
          | false => rw [(hl.later hf).2.2.1, h0]
        simp [this]
    · have hd : p.dim = dim := by
        rcases hdim with h | h
        · exact h
        · exact absurd h.1 h0
      rw [if_neg h0, if_pos (by omega)]
      have : p.current.length = p.dim := by
        cases hf : p.first with
        | true => exact (hl.start hf).2.2.2.2.1
        | false => exact (hl.later hf).2.2.1
      exact ⟨p, rfl, fun _ => rfl, rfl, rfl, rfl, by omega, hd⟩
  rw [hq]
  dsimp only
  have hw : written q.first q.current row = written p.first p.current row := by
    rw [hqf]
    cases hf : p.first with
    | true => rfl
    | false => rw [hqc hf]
  obtain ⟨r, hr⟩ := columns_total (strings := strings) row [] q.current q rfl hq1 (by simp; omega) (by rw [hqd, hqo]; exact hl.right) (by rw [hqo]; exact hl.nodup)
    (by rw [hqo]; exact hk) hss (by rw [hw, hqd, hqo]; omega)
  simp only [List.length_nil] at hr
  rw [hr]
  dsimp only
  have hsp := columns_spec row [] q.current q r u hr rfl hq1 (by simp; omega)
      (by
        rw [hqf]
        cases hf : p.first with
        | true => simpa using (hl.start hf).1
        | false => rw [hqc hf]; simpa using (hl.later hf).1)
      (by rw [hqd, hqo]; exact hl.right) (by rw [hqo]; exact hl.nodup)
      (by
        intro t ht
        rw [hqf] at ht
        rw [hqo]
        cases hf : p.first with
        | true => rw [hf] at ht; simp at ht
        | false =>
          rw [hf, hqc hf] at ht
          exact (hl.later hf).2.2.2.2.2 t (by simpa using ht))
  obtain ⟨x, e1, e2, e3, e4, e5, e6, e7, e8, e9, e10⟩ := hsp
  have hle := sum_le (fun s => s.length + 4) (r.offsets.map (·.1)) strings e3 (by
    intro t ht
    rw [e4, hqo] at ht
    rcases ht with ht | ht
    · exact (hss t ht).2
    · exact hk t ht)
  rw [hw, hqd, hqo] at e9
  rw [← keys_sum] at hle
  rw [if_pos (by
    rw [small_iff]
    simp only [List.length_append, List.length_cons, List.length_nil]
    omega)]
  exact ⟨_, rfl, by show r.dim = dim; rw [e6, hqdim]⟩

theorem addRows_total {strings : List Bytes} : ∀ {rows : List (List Bytes)} {p : Packer} {u : Unpacker} {dim : Nat}, Linked p u → Fresh dim p → Table dim rows →
    (∀ t ∈ p.offsets.map (·.1), t ∈ strings) → (∀ r ∈ rows, ∀ s ∈ r, s ∈ strings) →
    p.data.length + 5 * writtenAll p.first p.current rows + rows.length + (strings.map fun s => s.length + 4).sum < 2 ^ 32 + (p.offsets.map fun y => y.1.length + 4).sum →
    ∃ p', addRows p rows = some p'
  | [], p, u, dim, _, _, _, _, _, _ => ⟨p, rfl⟩
  | r :: rs, p, u, dim, hl, hf, ht, hk, hs, hroom => by
    simp only [writtenAll, List.length_cons] at hroom
    obtain ⟨q, hq, hqd⟩ := addRow_total (strings := strings) (row := r) hl hf ht.pos ht.le (ht.width r (List.mem_cons_self ..)) hk
      (fun s h => ⟨ht.len r (List.mem_cons_self ..) s h, hs r (List.mem_cons_self ..) s h⟩) (by omega)
    obtain ⟨x, e1, e2, e3, e4, e5, e6, e7, e8⟩ := addRow_spec hq hl
    rw [addRows, hq]
    dsimp only
    refine addRows_total e3 (.inl hqd) ⟨ht.pos, ht.le, fun r h => ht.width r (List.mem_cons_of_mem _ h), fun r h => ht.len r (List.mem_cons_of_mem _ h)⟩ ?_
      (fun r h => hs r (List.mem_cons_of_mem _ h)) ?_
    · intro t h
      rw [e7] at h
      rcases h with h | h
      · exact hs r (List.mem_cons_self ..) t h
      · exact hk t h
    · rw [e4, e5]
      omega

/-- **C82.** Every table that fits into 4 GB is packed, whether or not its number of columns is given beforehand. -/
theorem pack_total {dim : Nat} {rows : List (List Bytes)} {strings : List Bytes} (h : Table dim rows) (hs : Strings rows strings) (hsize : sizeOf rows strings < 2 ^ 32)
    (given : Nat) (hg : given = 0 ∨ given = dim) : ∃ d, pack given rows = some d := by
  have hle : given ≤ 254 := by
    have := h.le
    omega
  unfold pack make
  rw [if_pos hle]
  dsimp only
  have hm : make given = some { dim := given, current := List.replicate given [] } := by unfold make; rw [if_pos hle]
  obtain ⟨l1, l2, l3, l4⟩ := linked_make hm
  obtain ⟨q, hq⟩ := addRows_total (strings := strings) (rows := rows) (dim := dim) l1
    (by
      rcases hg with rfl | rfl
      · exact .inr ⟨rfl, rfl⟩
      · exact .inl rfl)
    h (fun t ht => absurd ht (by simp)) (fun r hr s hss => (hs.mem s).2 ⟨r, hr, hss⟩)
    (by
      unfold sizeOf at hsize
      dsimp only
      rw [writtenAll_true]
      simp
      omega)
  rw [hq]
  dsimp only
  obtain ⟨x, e1, e2, e3, e4, e5, e6⟩ := addRows_spec hq l1
  unfold finalize
  rw [if_neg (by rw [e3]; decide)]
  exact ⟨q.data, rfl⟩

/-! ### Only tables are packed -/

theorem columns_len : ∀ (ss : List Bytes) (i : Nat) (p p' : Packer), columns i ss p = some p' → (∀ t ∈ p.offsets.map (·.1), t.length ≤ 65535) →
    (∀ t ∈ p'.offsets.map (·.1), t.length ≤ 65535)
  | [], i, p, p', h, hp => by
    simp only [columns, Option.some.injEq] at h
    subst h; exact hp
  | s :: ss, i, p, p', h, hp => by
    rw [columns] at h
    split at h
    · cases hg : getOffset { p with current := p.current.set i s } s with
      | none => rw [hg] at h; simp at h
      | some q =>
        obtain ⟨q, o⟩ := q
        rw [hg] at h
        dsimp only at h
        refine columns_len ss (i + 1) _ p' h ?_
        dsimp only
        unfold getOffset at hg
        dsimp only at hg
        split at hg
        · unfold storeString at hg
          by_cases c : s.length % 65536 = s.length
          · rw [if_pos c] at hg
            dsimp only at hg
            split at hg
            · rename_i hx
              split at hx
              · simp only [Option.some.injEq, Prod.mk.injEq] at hg hx
                obtain ⟨rfl, rfl⟩ := hg
                intro t ht
                simp only [List.map_cons, List.mem_cons] at ht
                rcases ht with rfl | ht
                · omega
                · exact hp t ht
              · simp at hx
            · simp at hg
          · rw [if_neg c] at hg; simp at hg
        · simp only [Option.some.injEq, Prod.mk.injEq] at hg
          obtain ⟨rfl, rfl⟩ := hg
          exact hp
    · exact columns_len ss (i + 1) p p' h hp

theorem addRow_len {p p' : Packer} {row : List Bytes} (h : addRow p row = some p') (hp : ∀ t ∈ p.offsets.map (·.1), t.length ≤ 65535) :
    (∀ t ∈ p'.offsets.map (·.1), t.length ≤ 65535) := by
  unfold addRow at h
  split at h
  · simp at h
  split at h
  · simp at h
  dsimp only at h
  split at h
  · simp at h
  rename_i q hq
  split at h
  · simp at h
  rename_i r hr
  split at h
  · simp only [Option.some.injEq] at h
    subst h
    refine columns_len row 0 q r hr ?_
    split at hq
    · split at hq
      · simp only [Option.some.injEq] at hq
        subst hq; exact hp
      · simp at hq
    · split at hq
      · simp only [Option.some.injEq] at hq
        subst hq; exact hp
      · simp at hq
  · simp at h

theorem addRows_table : ∀ {rows : List (List Bytes)} {p p' : Packer} {u : Unpacker}, addRows p rows = some p' → Linked p u → p.first = false →
    (∀ t ∈ p.offsets.map (·.1), t.length ≤ 65535) → ∀ r ∈ rows, r.length = p.dim ∧ ∀ s ∈ r, s.length ≤ 65535
  | [], _, _, _, _, _, _, _ => by simp
  | r :: rs, p, p', u, h, hl, hf, hp => by
    rw [addRows] at h
    cases hr : addRow p r with
    | none => rw [hr] at h; simp at h
    | some q =>
      rw [hr] at h
      dsimp only at h
      obtain ⟨x, e1, e2, e3, e4, e5, e6, e7, e8⟩ := addRow_spec hr hl
      have hq := addRow_len hr hp
      have hd : r.length = p.dim := by rw [e6 hf, (hl.later hf).2.2.1]
      have := addRows_table h e3 e5 hq
      intro r' hr'
      simp only [List.mem_cons] at hr'
      rcases hr' with rfl | hr'
      · exact ⟨hd, fun s hs => hq s ((e7 s).2 (.inl hs))⟩
      · have h' := this r' hr'
        have : q.dim = p.dim := by rw [← (e3.later e5).2.1]; exact hd
        rw [this] at h'
        exact h'

/-- **C82.** Nothing else is packed: rows of different widths, without columns or with too many of them, and strings that are too long end the program. -/
theorem pack_table {given : Nat} {rows : List (List Bytes)} {d : Bytes} (h : pack given rows = some d) (hne : rows ≠ []) :
    ∃ dim, Table dim rows ∧ (given = 0 ∨ given = dim) := by
  unfold pack at h
  cases hm : make given with
  | none => rw [hm] at h; simp at h
  | some p =>
    rw [hm] at h
    dsimp only at h
    cases rows with
    | nil => exact absurd rfl hne
    | cons r rs =>
      cases ha : addRows p (r :: rs) with
      | none => rw [ha] at h; simp at h
      | some q =>
        clear h
        rw [addRows] at ha
        obtain ⟨l1, l2, l3, l4⟩ := linked_make hm
        cases hr : addRow p r with
        | none => rw [hr] at ha; simp at ha
        | some p₁ =>
          rw [hr] at ha
          dsimp only at ha
          obtain ⟨x, e1, e2, e3, e4, e5, e6, e7, e8⟩ := addRow_spec hr l1
          have hq := addRow_len hr (by rw [l3]; simp)
          have hrest := addRows_table ha e3 e5 hq
          have hd : p₁.dim = r.length := by rw [← (e3.later e5).2.1]
          refine ⟨r.length, ⟨?_, ?_, ?_, ?_⟩, ?_⟩
          · rw [← hd]; exact (e3.later e5).2.2.2.1
          · rw [← hd]; exact (e3.later e5).2.2.2.2.1
          · intro r' hr'
            simp only [List.mem_cons] at hr'
            rcases hr' with rfl | hr'
            · rfl
            · rw [(hrest r' hr').1, hd]
          · intro r' hr'
            simp only [List.mem_cons] at hr'
            rcases hr' with rfl | hr'
            · exact fun s hs => hq s ((e7 s).2 (.inl hs))
            · exact (hrest r' hr').2
          · have hpd : p.dim = given := by
              unfold make at hm
              split at hm
              · simp only [Option.some.injEq] at hm; subst hm; rfl
              · simp at hm
            rcases Nat.eq_zero_or_pos given with h0 | h0
            · exact .inl h0
            · right
              unfold addRow at hr
              rw [if_neg (by rw [l1.going]; decide)] at hr
              split at hr
              · simp at hr
              dsimp only at hr
              rw [if_neg (by omega)] at hr
              by_cases c : r.length = p.dim
              · omega
              · rw [if_neg c] at hr; simp at hr

/-- **C82.** The packed string only grows: the one of the first rows is a prefix of the one of all. -/
theorem pack_prefix {dim : Nat} {rows more : List (List Bytes)} {d : Bytes} (h : pack dim (rows ++ more) = some d) :
    ∃ d₀, pack dim rows = some d₀ ∧ d₀ <+: d := by
  have happ : ∀ (l m : List (List Bytes)) (p q : Packer), addRows p (l ++ m) = some q → ∃ r, addRows p l = some r ∧ addRows r m = some q := by
    intro l m
    induction l with
    | nil => intro p q h; exact ⟨p, rfl, h⟩
    | cons a l ih =>
      intro p q h
      rw [List.cons_append, addRows] at h
      cases ha : addRow p a with
      | none => rw [ha] at h; simp at h
      | some p' =>
        rw [ha] at h
        obtain ⟨r, h1, h2⟩ := ih p' q h
        exact ⟨r, by rw [addRows, ha]; exact h1, h2⟩
  have hlink : ∀ (l : List (List Bytes)) (p q : Packer) (u : Unpacker), addRows p l = some q → Linked p u → ∃ v, Linked q v := by
    intro l
    induction l with
    | nil =>
      intro p q u h hl
      simp only [addRows, Option.some.injEq] at h
      subst h; exact ⟨u, hl⟩
    | cons a l ih =>
      intro p q u h hl
      rw [addRows] at h
      cases ha : addRow p a with
      | none => rw [ha] at h; simp at h
      | some p' =>
        rw [ha] at h
        obtain ⟨x, e1, e2, e3, -⟩ := addRow_spec ha hl
        exact ih p' q _ h e3
  unfold pack at h ⊢
  cases hm : make dim with
  | none => rw [hm] at h; simp at h
  | some p =>
    rw [hm] at h
    dsimp only at h
    cases ha : addRows p (rows ++ more) with
    | none => rw [ha] at h; simp at h
    | some q =>
      rw [ha] at h
      dsimp only at h ⊢
      obtain ⟨r, h1, h2⟩ := happ rows more p q ha
      obtain ⟨l1, l2, l3, l4⟩ := linked_make hm
      obtain ⟨v, hv⟩ := hlink rows p r _ h1 l1
      obtain ⟨x, e1, e2, e3, -⟩ := addRows_spec h2 hv
      obtain ⟨x', e1', e2', e3', -⟩ := addRows_spec h1 l1
      rw [h1]
      dsimp only
      unfold finalize at h ⊢
      rw [if_neg (by rw [e3]; decide)] at h
      rw [if_neg (by rw [e3']; decide)]
      simp only [packed, if_true, Option.some.injEq] at h ⊢
      subst h
      exact ⟨r.data, rfl, ⟨x, e1.symm⟩⟩

/-! ### Concrete tables -/

def demo : List (List Bytes) := [[[65], []], [[65], [66, 0, 67]], [[66, 0, 67], [66, 0, 67]]]

example : Table 2 demo ∧ Strings demo [[65], [], [66, 0, 67]] ∧ sizeOf demo [[65], [], [66, 0, 67]] = 39 := by
  refine ⟨⟨by decide, by decide, by decide, by decide⟩, ⟨by decide, ?_⟩, by decide⟩
  intro s
  simp only [demo, List.mem_cons, List.not_mem_nil, or_false]
  constructor
  · rintro (rfl | rfl | rfl) <;> simp
  · rintro ⟨r, (rfl | rfl | rfl), hs⟩ <;> simp at hs <;> grind

example : (pack 0 demo).map List.length = some 39 ∧ (pack 2 demo) = pack 0 demo ∧ pack 3 demo = none ∧ (pack 0 demo).bind unpack = some demo := by decide +kernel

/-- Finding: `Unpack` does not check the offsets it finds: the string at offset 200 of six bytes is read (undefined behaviour, `none` here). -/
theorem unpack_reads_outside : unpack [0, 200, 0, 0, 0, 254] = none ∧ stringAt [0, 200, 0, 0, 0, 254] 200 = none := by decide +kernel

end Current.Tsv
