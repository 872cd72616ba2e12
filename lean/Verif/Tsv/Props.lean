import Verif.Tsv.Model
/-!
C82: what was packed is unpacked.
-/
namespace Current.Tsv

theorem u8 (n : Nat) : (UInt8.ofNat n).toNat = n % 256 := UInt8.toNat_ofNat'

theorem read2_le2 (n : Nat) (h : n < 65536) (r : Bytes) : read2 (le2 n ++ r) = some n := by
  simp only [le2, List.cons_append, List.nil_append, read2, u8]
  congr 1
  omega

theorem read4_le4 (n : Nat) (h : n < 2 ^ 32) (r : Bytes) : read4 (le4 n ++ r) = some n := by
  simp only [le4, List.cons_append, List.nil_append, read4, u8]
  congr 1
  omega

theorem read2_append {d : Bytes} {n : Nat} (h : read2 d = some n) (x : Bytes) : read2 (d ++ x) = some n := by
  match d, h with
  | a :: b :: r, h => exact h

theorem stringAt_append {d : Bytes} {o : Nat} {s : Bytes} (h : stringAt d o = some s) (x : Bytes) : stringAt (d ++ x) o = some s := by
  unfold stringAt at h ⊢
  cases hr : read2 (d.drop o) with
  | none => rw [hr] at h; simp at h
  | some n =>
    rw [hr] at h
    dsimp only at h
    by_cases hn : o + 2 + n ≤ d.length
    · rw [if_pos hn] at h
      have ho : o ≤ d.length := by omega
      rw [List.drop_append_of_le_length ho, read2_append hr]
      dsimp only
      rw [if_pos (by rw [List.length_append]; omega), List.drop_append_of_le_length (by omega), List.take_append_of_le_length (by rw [List.length_drop]; omega)]
      exact h
    · rw [if_neg hn] at h; simp at h

theorem stringAt_stored (d s : Bytes) (h : s.length < 65536) (y : Bytes) : stringAt (d ++ (le2 s.length ++ (s ++ y))) d.length = some s := by
  unfold stringAt
  rw [List.drop_left, read2_le2 _ h]
  dsimp only
  have e : d.length + 2 = (d ++ le2 s.length).length := by simp [le2]
  rw [if_pos (by simp [le2]; omega), ← List.append_assoc, e, List.drop_left, List.take_left]

/-! ### The offsets -/

/-- The offsets point to their strings. -/
def Right (data : Bytes) (offsets : List (Bytes × Nat)) : Prop := ∀ x ∈ offsets, 1 ≤ x.2 ∧ x.2 < 2 ^ 32 ∧ stringAt data x.2 = some x.1

theorem right_append {data : Bytes} {offsets : List (Bytes × Nat)} (h : Right data offsets) (x : Bytes) : Right (data ++ x) offsets :=
  fun y hy => ⟨(h y hy).1, (h y hy).2.1, stringAt_append (h y hy).2.2 x⟩

theorem offsetOf_mem {s : Bytes} : ∀ {l : List (Bytes × Nat)}, offsetOf s l ≠ 0 → (s, offsetOf s l) ∈ l
  | [], h => absurd rfl h
  | (k, o) :: l, h => by
    unfold offsetOf at h ⊢
    by_cases c : k = s
    · rw [if_pos c]; subst c; exact List.mem_cons_self ..
    · rw [if_neg c] at h ⊢
      exact List.mem_cons_of_mem _ (offsetOf_mem h)

theorem offsetOf_zero {s : Bytes} : ∀ {l : List (Bytes × Nat)}, (∀ x ∈ l, 1 ≤ x.2) → offsetOf s l = 0 → s ∉ l.map (·.1)
  | [], _, _ => by simp
  | (k, o) :: l, hl, h => by
    unfold offsetOf at h
    by_cases c : k = s
    · rw [if_pos c] at h
      have := hl (k, o) (List.mem_cons_self ..)
      simp only at this
      omega
    · rw [if_neg c] at h
      have := offsetOf_zero (fun x hx => hl x (List.mem_cons_of_mem _ hx)) h
      simp only [List.map_cons, List.mem_cons, not_or]
      exact ⟨fun e => c e.symm, this⟩

/-- What the loop does with some bytes, wherever they are and whatever follows. -/
def Does (data x : Bytes) (u u' : Unpacker) : Prop := ∀ rest, loop data (x ++ rest) u = loop data rest u'

theorem does_nil (data : Bytes) (u : Unpacker) : Does data [] u u := fun _ => rfl

theorem does_trans {data x y : Bytes} {u v w : Unpacker} (h : Does data x u v) (h' : Does data y v w) : Does data (x ++ y) u w := by
  intro rest
  rw [List.append_assoc, h, h']

theorem does_store (data s : Bytes) (hs : s.length < 65536) (u : Unpacker) : Does data (storage :: (le2 s.length ++ (s ++ [0]))) u u := by
  intro rest
  rw [List.cons_append, loop.eq_def]
  dsimp only
  rw [if_pos rfl, List.append_assoc, read2_le2 _ hs]
  dsimp only
  have e : (le2 s.length ++ ((s ++ [0]) ++ rest)).drop (s.length + 3) = rest := by
    rw [← List.append_assoc]
    exact List.drop_left' (by simp [le2])
  rw [if_pos (by simp [le2]), e]

theorem does_cell {data s : Bytes} {o i : Nat} (hi : i < 254) (ho : o < 2 ^ 32) (hs : stringAt data o = some s) (u : Unpacker) :
    Does data (UInt8.ofNat i :: le4 o) u { u with row := update u.row i s } := by
  intro rest
  have e : (UInt8.ofNat i).toNat = i := by rw [u8]; omega
  have n1 : UInt8.ofNat i ≠ storage := by
    intro h
    have := congrArg UInt8.toNat h
    rw [e] at this
    simp [storage] at this
    omega
  have n2 : UInt8.ofNat i ≠ rowDone := by
    intro h
    have := congrArg UInt8.toNat h
    rw [e] at this
    simp [rowDone] at this
    omega
  rw [List.cons_append, loop.eq_def]
  dsimp only
  rw [if_neg n1, if_neg n2, read4_le4 o ho]
  dsimp only
  rw [hs]
  dsimp only
  rw [e]
  rfl

theorem does_row (data : Bytes) (u : Unpacker) (h : u.row ≠ []) (hd : u.dim = 0 ∨ u.dim = u.row.length) :
    Does data [rowDone] u { row := u.row, dim := u.row.length, out := u.out ++ [u.row] } := by
  intro rest
  rw [List.cons_append, List.nil_append, loop.eq_def]
  dsimp only
  rw [if_neg (by decide), if_pos rfl, if_neg h, if_pos hd]

/-! ### Packing -/

theorem small_iff (d : Bytes) : small d = true ↔ d.length < 2 ^ 32 := by
  unfold small
  simp only [decide_eq_true_eq]
  omega

/-- What `GetOffsetOf` promises. -/
theorem getOffset_spec {p p' : Packer} {s : Bytes} {o : Nat} (h : getOffset p s = some (p', o)) (hr : Right p.data p.offsets)
    (hn : (p.offsets.map (·.1)).Nodup) :
    ∃ x, p'.data = p.data ++ x ∧ Right p'.data p'.offsets ∧ o < 2 ^ 32 ∧ stringAt p'.data o = some s ∧
      (p'.offsets.map (·.1)).Nodup ∧ (∀ t, t ∈ p'.offsets.map (·.1) ↔ t = s ∨ t ∈ p.offsets.map (·.1)) ∧
      p'.current = p.current ∧ p'.dim = p.dim ∧ p'.first = p.first ∧ p'.done = p.done ∧
      (p'.data.length + (p.offsets.map fun y => y.1.length + 4).sum = p.data.length + (p'.offsets.map fun y => y.1.length + 4).sum) ∧
      ∀ data u, Does data x u u := by
  unfold getOffset at h
  dsimp only at h
  by_cases c : offsetOf s p.offsets = 0
  · rw [if_pos c] at h
    unfold storeString at h
    by_cases hl : s.length % 65536 = s.length
    · rw [if_pos hl] at h
      dsimp only at h
      by_cases hsm : small (p.data ++ [storage] ++ le2 s.length ++ s ++ [0]) = true
      · rw [if_pos hsm] at h
        dsimp only at h
        simp only [Option.some.injEq, Prod.mk.injEq] at h
        obtain ⟨rfl, rfl⟩ := h
        rw [small_iff] at hsm
        have hs : s.length < 65536 := by omega
        have ho : (p.data ++ [storage]).length % 2 ^ 32 = (p.data ++ [storage]).length := by
          apply Nat.mod_eq_of_lt
          simp only [List.length_append] at hsm ⊢
          omega
        have hst : stringAt (p.data ++ [storage] ++ le2 s.length ++ s ++ [0]) (p.data ++ [storage]).length = some s := by
          have := stringAt_stored (p.data ++ [storage]) s hs [0]
          simpa only [List.append_assoc] using this
        refine ⟨storage :: (le2 s.length ++ (s ++ [0])), by simp, ?_, Nat.mod_lt _ (by decide), by rw [ho]; exact hst, ?_, by simp, rfl, rfl, rfl, rfl, ?_,
          fun data u => does_store data s hs u⟩
        · intro y hy
          simp only [List.mem_cons] at hy
          rcases hy with rfl | hy
          · dsimp only
            rw [ho]
            exact ⟨by simp, by simp only [List.length_append] at hsm ⊢; omega, hst⟩
          · have := right_append hr ([storage] ++ (le2 s.length ++ (s ++ [0]))) y hy
            simpa only [List.append_assoc] using this
        · simp only [List.map_cons, List.nodup_cons]
          exact ⟨offsetOf_zero (fun x hx => (hr x hx).1) c, hn⟩
        · simp [le2]
          omega
      · rw [if_neg hsm] at h; simp at h
    · rw [if_neg hl] at h; simp at h
  · rw [if_neg c] at h
    simp only [Option.some.injEq, Prod.mk.injEq] at h
    obtain ⟨rfl, rfl⟩ := h
    have hm := offsetOf_mem c
    have := hr _ hm
    refine ⟨[], by simp, hr, this.2.1, this.2.2, hn, ?_, rfl, rfl, rfl, rfl, rfl, fun data u => does_nil data u⟩
    intro t
    constructor
    · exact .inr
    · rintro (rfl | ht)
      · exact List.mem_map.2 ⟨_, hm, rfl⟩
      · exact ht

theorem update_old (pre : List Bytes) (a s : Bytes) (l : List Bytes) : update (pre ++ a :: l) pre.length s = pre ++ s :: l := by
  unfold update
  rw [if_neg (by simp)]
  simp

theorem update_new (pre : List Bytes) (s : Bytes) : update pre pre.length s = pre ++ [s] := by
  unfold update
  rw [if_pos (Nat.le_refl _), show pre.length + 1 - pre.length = 1 from by omega]
  simp

/-- The cells of a row that are written. -/
def written (first : Bool) (old new : List Bytes) : Nat := if first then new.length else differences old new

/-- What the loop over the columns promises. -/
theorem columns_spec : ∀ (ss : List Bytes) (pre old : List Bytes) (p p' : Packer) (u : Unpacker), columns pre.length ss p = some p' →
    p.current = pre ++ old → old.length = ss.length → pre.length + ss.length ≤ 254 → u.row = (if p.first then pre else p.current) →
    Right p.data p.offsets → (p.offsets.map (·.1)).Nodup →
    (∀ t ∈ pre ++ (if p.first then [] else old), t ∈ p.offsets.map (·.1)) →
    ∃ x, p'.data = p.data ++ x ∧ Right p'.data p'.offsets ∧ (p'.offsets.map (·.1)).Nodup ∧
      (∀ t, t ∈ p'.offsets.map (·.1) ↔ t ∈ ss ∨ t ∈ p.offsets.map (·.1)) ∧
      p'.current = pre ++ ss ∧ p'.dim = p.dim ∧ p'.first = p.first ∧ p'.done = p.done ∧
      (p'.data.length + (p.offsets.map fun y => y.1.length + 4).sum =
        p.data.length + (p'.offsets.map fun y => y.1.length + 4).sum + 5 * written p.first old ss) ∧
      ∀ y, Does (p'.data ++ y) x u { u with row := pre ++ ss } := by
  intro ss
  induction ss with
  | nil =>
    intro pre old p p' u h hc hl h254 hu hr hn hmem
    simp only [columns, Option.some.injEq] at h
    subst h
    have ho : old = [] := List.length_eq_zero_iff.1 hl
    subst ho
    refine ⟨[], by simp, hr, hn, by simp, hc, rfl, rfl, rfl, ?_, ?_⟩
    · unfold written; split <;> simp [differences]
    · intro y
      have : u.row = pre := by rw [hu, hc]; split <;> simp
      have e : ({ u with row := pre ++ [] } : Unpacker) = u := by rw [List.append_nil, ← this]
      rw [e]
      exact does_nil _ _
  | cons s ss ih =>
    intro pre old p p' u h hc hl h254 hu hr hn hmem
    obtain ⟨a, old, rfl⟩ : ∃ a o, old = a :: o := by
      cases old with
      | nil => simp at hl
      | cons a o => exact ⟨a, o, rfl⟩
    simp only [List.length_cons, Nat.add_right_cancel_iff] at hl h254
    have hget : p.current.getD pre.length [] = a := by rw [hc]; simp
    rw [columns, hget] at h
    have hpl : pre.length + 1 = (pre ++ [s]).length := by simp
    by_cases c : s ≠ a ∨ p.first = true
    · rw [if_pos c] at h
      cases hg : getOffset { p with current := p.current.set pre.length s } s with
      | none => rw [hg] at h; simp at h
      | some q =>
        obtain ⟨q, o⟩ := q
        rw [hg] at h
        dsimp only at h
        obtain ⟨x, e1, e2, e3, e4, e5, e6, e7, e8, e9, e10, e11, e12⟩ := getOffset_spec hg hr hn
        dsimp only at e1 e6 e7 e8 e9 e10 e11
        have hset : p.current.set pre.length s = (pre ++ [s]) ++ old := by rw [hc]; simp
        rw [hset] at e7
        rw [hpl] at h
        have hrow : ∀ y, Does (q.data ++ y) (x ++ (UInt8.ofNat pre.length :: le4 o)) u
            { u with row := if p.first then pre ++ [s] else (pre ++ [s]) ++ old } := by
          intro y
          have d1 := e12 (q.data ++ y) u
          have d2 := does_cell (i := pre.length) (by omega) e3 (stringAt_append e4 y) u
          have e : update u.row pre.length s = if p.first then pre ++ [s] else (pre ++ [s]) ++ old := by
            rw [hu]
            cases hf : p.first with
            | true => simp only [if_true]; exact update_new pre s
            | false =>
              rw [hc]
              simp only [Bool.false_eq_true, if_false]
              rw [update_old]; simp
          rw [e] at d2
          exact does_trans d1 d2
        have := ih (pre ++ [s]) old { q with data := q.data ++ [UInt8.ofNat pre.length] ++ le4 o } p' { u with row := if p.first then pre ++ [s] else (pre ++ [s]) ++ old } h
          e7 (by omega) (by rw [← hpl]; omega) (by dsimp only; rw [e9, e7]) (by dsimp only; rw [List.append_assoc]; exact right_append e2 _) e5
          (by
            dsimp only
            intro t ht
            rw [e6]
            rw [e9] at ht
            simp only [List.mem_append, List.mem_singleton] at ht
            rcases ht with (ht | ht) | ht
            · exact .inr (hmem t (List.mem_append_left _ ht))
            · exact .inl ht
            · right
              apply hmem
              cases hf : p.first with
              | true => rw [hf] at ht; simp at ht
              | false =>
                rw [hf] at ht
                simp only [Bool.false_eq_true, if_false] at ht
                simp [ht])
        obtain ⟨z, f1, f2, f3, f4, f5, f6, f7, f8, f9, f10⟩ := this
        dsimp only at f1 f4 f6 f7 f8 f9
        refine ⟨x ++ ([UInt8.ofNat pre.length] ++ le4 o) ++ z, ?_, f2, f3, ?_, by rw [f5]; simp, by rw [f6, e8], by rw [f7, e9], by rw [f8, e10], ?_, ?_⟩
        · rw [f1, e1]; simp
        · intro t
          rw [f4, e6]
          simp only [List.mem_cons]
          grind
        · have hw : written p.first (a :: old) (s :: ss) = 1 + written p.first old ss := by
            unfold written
            cases hf : p.first with
            | true => simp; omega
            | false =>
              have : a ≠ s := by
                rcases c with c | c
                · exact fun e => c e.symm
                · rw [hf] at c; simp at c
              simp [differences, this]
          rw [hw]
          rw [e9] at f9
          simp only [List.length_append, List.length_cons, List.length_nil, le4] at f9
          omega
        · intro y
          have g1 := hrow ([UInt8.ofNat pre.length] ++ le4 o ++ z ++ y)
          have g2 := f10 y
          have ed : q.data ++ ([UInt8.ofNat pre.length] ++ le4 o ++ z ++ y) = p'.data ++ y := by rw [f1]; simp
          rw [ed] at g1
          have := does_trans g1 g2
          simpa using this
    · rw [if_neg c] at h
      simp only [ne_eq, not_or, Decidable.not_not, Bool.not_eq_true] at c
      obtain ⟨rfl, hf⟩ := c
      rw [hpl] at h
      have := ih (pre ++ [s]) old p p' u h (by rw [hc]; simp) hl (by rw [← hpl]; omega) (by rw [hu, hf]; simp) hr hn
        (by
          intro t ht
          apply hmem
          rw [hf] at ht ⊢
          simpa using ht)
      obtain ⟨z, f1, f2, f3, f4, f5, f6, f7, f8, f9, f10⟩ := this
      refine ⟨z, f1, f2, f3, ?_, by rw [f5]; simp, f6, f7, f8, ?_, ?_⟩
      · intro t
        rw [f4]
        simp only [List.mem_cons]
        constructor
        · rintro (h | h)
          · exact .inl (.inr h)
          · exact .inr h
        · rintro ((h | h) | h)
          · right; subst h; apply hmem; rw [hf]; simp
          · exact .inl h
          · exact .inr h
      · rw [f9]
        have : written p.first (s :: old) (s :: ss) = written p.first old ss := by
          rw [hf]; simp [written, differences]
        rw [this]
      · intro y
        have := f10 y
        simpa using this

end Current.Tsv
