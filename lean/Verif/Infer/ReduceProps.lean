import Verif.Infer.Reduce
/-! `reduce` describes the values of both sides (`infer.h:274-471`), and depends on nothing else. -/
namespace Current.Infer
open Current.Persist (Str dec)
open Current.Json (J find)

/-! ### Names -/

theorem last_none (k : Str) : ∀ fs : Fs, fs.last k = none ↔ k ∉ fs.names
  | .nil => by simp [Fs.last, Fs.names]
  | .cons k' s r => by
    have ih := last_none k r
    simp only [Fs.last, Fs.names, List.mem_cons, not_or]
    cases h : r.last k with
    | none =>
      simp only
      have hr := ih.1 h
      constructor
      · intro h'
        refine ⟨fun e => ?_, hr⟩
        rw [if_pos e.symm] at h'
        exact nomatch h'
      · intro h'
        rw [if_neg (fun e => h'.1 e.symm)]
    | some t =>
      simp only
      constructor
      · exact fun h' => nomatch h'
      · intro h'
        rw [ih.2 h'.2] at h
        exact nomatch h

theorem last_describes (keep : Str → Bool) (p : Str) (vs : List J) (k : Str) : ∀ (fs : Fs) (t : S),
    DescribesFields keep p fs vs → fs.last k = some t → Describes keep (member p k) t (fieldValues k vs)
  | .nil, _, _, h => nomatch h
  | .cons k' s r, t, hd, h => by
    simp only [DescribesFields] at hd
    simp only [Fs.last] at h
    cases hr : r.last k with
    | some t' =>
      rw [hr] at h
      simp only [Option.some.injEq] at h
      exact last_describes keep p vs k r t hd.2 (h ▸ hr)
    | none =>
      rw [hr] at h
      simp only at h
      by_cases e : k' = k
      · rw [if_pos e] at h
        simp only [Option.some.injEq] at h
        rw [← h, ← e]
        exact hd.1
      · rw [if_neg e] at h
        exact nomatch h

theorem names_reduceFields : ∀ (fs gs : Fs), (reduceFields fs gs).map (·.1) = fs.names
  | .nil, _ => by simp only [reduceFields, Fs.names, List.map_nil]
  | .cons k s r, gs => by
    have ih := names_reduceFields r gs
    simp only [reduceFields, Fs.names]
    cases gs.last k <;> simp only [List.map_cons, ih]

theorem names_onlyRight (ns : List Str) : ∀ gs : Fs, (onlyRight ns gs).map (·.1) = gs.names.filter fun k => decide (k ∉ ns)
  | .nil => by simp [onlyRight, Fs.names]
  | .cons k s r => by
    have ih := names_onlyRight ns r
    simp only [onlyRight, Fs.names]
    by_cases h : k ∈ ns
    · rw [if_pos h, ih, List.filter_cons_of_neg (by simp [h])]
    · rw [if_neg h, List.filter_cons_of_pos (by simp [h]), List.map_cons, ih]

theorem names_sequence : ∀ (l : Pending) (fs : Fs), sequence l = .ok fs → fs.names = l.map (·.1)
  | [], fs, h => by
    simp only [sequence, Except.ok.injEq] at h
    rw [← h]
    rfl
  | (_, .error e) :: _, fs, h => nomatch h
  | (k, .ok s) :: r, fs, h => by
    simp only [sequence] at h
    cases hr : sequence r with
    | error e =>
      rw [hr] at h
      exact nomatch h
    | ok gs =>
      rw [hr] at h
      simp only [Except.ok.injEq] at h
      rw [← h]
      simp only [Fs.names, List.map_cons, names_sequence r gs hr]

theorem sequence_describes (keep : Str → Bool) (p : Str) (vs : List J) : ∀ (l : Pending) (fs : Fs), sequence l = .ok fs →
    (∀ ks ∈ l, ∀ s, ks.2 = .ok s → Describes keep (member p ks.1) s (fieldValues ks.1 vs)) → DescribesFields keep p fs vs
  | [], fs, h, _ => by
    simp only [sequence, Except.ok.injEq] at h
    rw [← h]
    simp only [DescribesFields]
  | (_, .error e) :: _, fs, h, _ => nomatch h
  | (k, .ok s) :: r, fs, h, hd => by
    simp only [sequence] at h
    cases hr : sequence r with
    | error e =>
      rw [hr] at h
      exact nomatch h
    | ok gs =>
      rw [hr] at h
      simp only [Except.ok.injEq] at h
      rw [← h]
      simp only [DescribesFields]
      exact ⟨hd (k, .ok s) (by simp) s rfl, sequence_describes keep p vs r gs hr fun ks hks => hd ks (List.mem_cons_of_mem _ hks)⟩

/-! ### A field absent on one side -/

theorem absent_null (keep : Str → Bool) (p : Str) (vs : List J) (fs : Fs) (i n : Nat) (h : Describes keep p (.obj fs i n) vs)
    (k : Str) (hk : keep (member p k) = true) (hn : k ∉ fs.names) : AllNull (fieldValues k vs) ∧ fieldValues k vs ≠ [] := by
  simp only [Describes] at h
  obtain ⟨⟨_, c2, c3, _⟩, _, h3, _, _⟩ := h
  constructor
  · intro w hw
    obtain ⟨v, hv, hf⟩ := List.mem_filterMap.1 hw
    cases v with
    | obj m =>
      simp only [fieldOf] at hf
      split at hf
      · simp only [Option.some.injEq] at hf
        exact hf.symm
      · rename_i x hx hfx
        refine absurd ((h3 k).2 ⟨hk, _, hv, m, x, rfl, hfx, ?_⟩) hn
        cases x with
        | arr l =>
          cases l with
          | nil => exact absurd rfl hx
          | cons a l => rfl
        | _ => rfl
      · simp only [Option.some.injEq] at hf
        exact hf.symm
    | _ => exact nomatch hf
  · rw [c2] at c3
    obtain ⟨v, hv, ho⟩ := List.countP_pos_iff.1 c3
    cases v with
    | obj m =>
      intro e
      rw [fieldValues, List.filterMap_eq_nil_iff] at e
      have := e _ hv
      simp only [fieldOf] at this
      split at this <;> exact nomatch this
    | _ => exact nomatch ho

theorem onlyRight_describes (keep : Str → Bool) (p : Str) (xs ys : List J) (ns : List Str) : ∀ gs : Fs,
    DescribesFields keep p gs ys →
    (∀ k ∈ gs.names, k ∉ ns → AllNull (fieldValues k xs) ∧ fieldValues k xs ≠ []) →
    ∀ ks ∈ onlyRight ns gs, ∀ s, ks.2 = .ok s → Describes keep (member p ks.1) s (fieldValues ks.1 (xs ++ ys))
  | .nil, _, _, ks, h, _, _ => by simp [onlyRight] at h
  | .cons k t r, hd, hn, ks, h, s, hs => by
    simp only [DescribesFields] at hd
    have ih := onlyRight_describes keep p xs ys ns r hd.2 (fun k' hk' => hn k' (by simp [Fs.names, hk']))
    simp only [onlyRight] at h
    by_cases hk : k ∈ ns
    · rw [if_pos hk] at h
      exact ih ks h s hs
    · rw [if_neg hk] at h
      rcases List.mem_cons.1 h with h | h
      · rw [h] at hs ⊢
        simp only [Except.ok.injEq] at hs
        rw [← hs]
        obtain ⟨h1, h2⟩ := hn k (by simp [Fs.names]) hk
        rw [fieldValues_append]
        exact describes_perm keep _ _ _ _ (addNulls_describes keep _ t _ _ 1 hd.1 h2 h1 (by omega)) List.perm_append_comm
      · exact ih ks h s hs

mutual
/-- What is reduced describes the values of both sides. -/
theorem reduce_describes (keep : Str → Bool) : ∀ (a b c : S) (p : Str) (xs ys : List J), Describes keep p a xs →
    Describes keep p b ys → reduce a b = .ok c → Describes keep p c (xs ++ ys)
  | .uninit, b, c, p, xs, ys, ha, hb, h => by
    simp only [reduce, Except.ok.injEq] at h
    simp only [Describes] at ha
    rw [← h, ha]
    exact hb
  | .null n, b, c, p, xs, ys, ha, hb, h => by
    simp only [reduce, Except.ok.injEq] at h
    simp only [Describes] at ha
    rw [← h]
    exact describes_perm keep _ _ _ _ (addNulls_describes keep p b ys xs n hb ha.1 ha.2.2 ha.2.1) List.perm_append_comm
  | .str v i n, b, c, p, xs, ys, ha, hb, h => by
    cases b with
    | uninit =>
      simp only [reduce, Except.ok.injEq] at h
      simp only [Describes] at hb
      rw [← h, hb, List.append_nil]
      exact ha
    | null m =>
      simp only [reduce, Except.ok.injEq] at h
      simp only [Describes] at hb
      rw [← h]
      exact addNulls_describes keep p _ xs ys m ha hb.1 hb.2.2 hb.2.1
    | str v' i' n' =>
      simp only [reduce, Except.ok.injEq] at h
      rw [← h]
      simp only [Describes] at ha hb ⊢
      rw [stringsOf_append]
      exact ⟨common_append ha.1 hb.1, histogram_merge _ _ _ _ ha.2 hb.2⟩
    | _ => simp [reduce] at h
  | .int su u mc i n, b, c, p, xs, ys, ha, hb, h => by
    cases b with
    | uninit =>
      simp only [reduce, Except.ok.injEq] at h
      simp only [Describes] at hb
      rw [← h, hb, List.append_nil]
      exact ha
    | null m =>
      simp only [reduce, Except.ok.injEq] at h
      simp only [Describes] at hb
      rw [← h]
      exact addNulls_describes keep p _ xs ys m ha hb.1 hb.2.2 hb.2.1
    | int su' u' mc' i' n' =>
      simp only [reduce, Except.ok.injEq] at h
      rw [← h]
      simp only [Describes] at ha hb ⊢
      obtain ⟨a1, a2, a3, a4⟩ := ha
      obtain ⟨b1, b2, b3, b4⟩ := hb
      rw [intsOf_append]
      refine ⟨common_append a1 b1, ?_, ?_, ?_⟩
      · rw [List.sum_append_int, a2, b2]
      · rw [Bool.and_eq_true, a3, b3]
        simp only [List.mem_append, or_imp, forall_and]
      · rw [Bool.and_eq_true, a4, b4]
        refine ⟨fun hh x hx => ?_, fun hh => ⟨fun x hx => hh x (List.mem_append_left _ hx), fun x hx => hh x (List.mem_append_right _ hx)⟩⟩
        rcases List.mem_append.1 hx with hx | hx
        · exact hh.1 x hx
        · exact hh.2 x hx
    | dbl i' n' =>
      simp only [reduce, Except.ok.injEq] at h
      rw [← h]
      simp only [Describes] at ha hb ⊢
      obtain ⟨b1, v, hv, b2⟩ := hb
      exact ⟨common_append (common_isNum ha.1) b1, v, List.mem_append_right _ hv, b2⟩
    | _ => simp [reduce] at h
  | .dbl i n, b, c, p, xs, ys, ha, hb, h => by
    cases b with
    | uninit =>
      simp only [reduce, Except.ok.injEq] at h
      simp only [Describes] at hb
      rw [← h, hb, List.append_nil]
      exact ha
    | null m =>
      simp only [reduce, Except.ok.injEq] at h
      simp only [Describes] at hb
      rw [← h]
      exact addNulls_describes keep p _ xs ys m ha hb.1 hb.2.2 hb.2.1
    | dbl i' n' =>
      simp only [reduce, Except.ok.injEq] at h
      rw [← h]
      simp only [Describes] at ha hb ⊢
      obtain ⟨a1, v, hv, a2⟩ := ha
      exact ⟨common_append a1 hb.1, v, List.mem_append_left _ hv, a2⟩
    | int su' u' mc' i' n' =>
      simp only [reduce, Except.ok.injEq] at h
      rw [← h]
      simp only [Describes] at ha hb ⊢
      obtain ⟨a1, v, hv, a2⟩ := ha
      exact ⟨common_append a1 (common_isNum hb.1), v, List.mem_append_left _ hv, a2⟩
    | _ => simp [reduce] at h
  | .bool f t n, b, c, p, xs, ys, ha, hb, h => by
    cases b with
    | uninit =>
      simp only [reduce, Except.ok.injEq] at h
      simp only [Describes] at hb
      rw [← h, hb, List.append_nil]
      exact ha
    | null m =>
      simp only [reduce, Except.ok.injEq] at h
      simp only [Describes] at hb
      rw [← h]
      exact addNulls_describes keep p _ xs ys m ha hb.1 hb.2.2 hb.2.1
    | bool f' t' n' =>
      simp only [reduce, Except.ok.injEq] at h
      rw [← h]
      simp only [Describes] at ha hb ⊢
      refine ⟨?_, by rw [List.countP_append, ← ha.2, ← hb.2]⟩
      have := common_append ha.1 hb.1
      rwa [show f + t + (f' + t') = f + f' + (t + t') from by omega] at this
    | _ => simp [reduce] at h
  | .arr e i n, b, c, p, xs, ys, ha, hb, h => by
    cases b with
    | uninit =>
      simp only [reduce, Except.ok.injEq] at h
      simp only [Describes] at hb
      rw [← h, hb, List.append_nil]
      exact ha
    | null m =>
      simp only [reduce, Except.ok.injEq] at h
      simp only [Describes] at hb
      rw [← h]
      exact addNulls_describes keep p _ xs ys m ha hb.1 hb.2.2 hb.2.1
    | arr e' i' n' =>
      simp only [reduce] at h
      simp only [Describes] at ha hb
      cases he : reduce e e' with
      | error er =>
        rw [he] at h
        exact nomatch h
      | ok x =>
        rw [he] at h
        simp only [Except.ok.injEq] at h
        rw [← h]
        simp only [Describes]
        rw [elementValues_append]
        exact ⟨common_append ha.1 hb.1, by simp [ha.2.1], reduce_describes keep e e' x _ _ _ ha.2.2 hb.2.2 he⟩
    | _ => simp [reduce] at h
  | .obj fs i n, b, c, p, xs, ys, ha, hb, h => by
    cases b with
    | uninit =>
      simp only [reduce, Except.ok.injEq] at h
      simp only [Describes] at hb
      rw [← h, hb, List.append_nil]
      exact ha
    | null m =>
      simp only [reduce, Except.ok.injEq] at h
      simp only [Describes] at hb
      rw [← h]
      exact addNulls_describes keep p _ xs ys m ha hb.1 hb.2.2 hb.2.1
    | obj gs i' n' =>
      simp only [reduce] at h
      have ha0 := ha
      have hb0 := hb
      simp only [Describes] at ha hb
      obtain ⟨a1, a2, a3, a4, a5⟩ := ha
      obtain ⟨b1, b2, b3, b4, b5⟩ := hb
      have hnames : (reduceFields fs gs ++ onlyRight fs.names gs).map (·.1) =
          fs.names ++ gs.names.filter fun k => decide (k ∉ fs.names) := by
        rw [List.map_append, names_reduceFields, names_onlyRight]
      have hnd : (fs.names ++ gs.names.filter fun k => decide (k ∉ fs.names)).Nodup := by
        rw [List.nodup_append]
        refine ⟨a2, b2.sublist List.filter_sublist, fun x hx y hy e => ?_⟩
        have := (List.mem_filter.1 hy).2
        simp only [decide_eq_true_eq] at this
        exact this (e ▸ hx)
      rw [settle_nodup _ (by rw [hnames]; exact hnd)] at h
      cases hs : sequence (reduceFields fs gs ++ onlyRight fs.names gs) with
      | error er =>
        rw [hs] at h
        exact nomatch h
      | ok r =>
        rw [hs] at h
        simp only [Except.ok.injEq] at h
        rw [← h]
        have hrn := names_sequence _ _ hs
        rw [hnames] at hrn
        have hmem : ∀ k, k ∈ r.names ↔ k ∈ fs.names ∨ k ∈ gs.names := by
          intro k
          rw [hrn, List.mem_append, List.mem_filter]
          simp only [decide_eq_true_eq]
          constructor
          · rintro (h | h)
            · exact .inl h
            · exact .inr h.1
          · rintro (h | h)
            · exact .inl h
            · by_cases hf : k ∈ fs.names
              · exact .inl hf
              · exact .inr ⟨h, hf⟩
        simp only [Describes]
        refine ⟨common_append a1 b1, by rw [hrn]; exact hnd, fun k => ?_, fun k hk => ?_, ?_⟩
        · rw [hmem, a3, b3]
          constructor
          · rintro (⟨hk, v, hv, hh⟩ | ⟨hk, v, hv, hh⟩)
            · exact ⟨hk, v, List.mem_append_left _ hv, hh⟩
            · exact ⟨hk, v, List.mem_append_right _ hv, hh⟩
          · rintro ⟨hk, v, hv, hh⟩
            rcases List.mem_append.1 hv with hv | hv
            · exact .inl ⟨hk, v, hv, hh⟩
            · exact .inr ⟨hk, v, hv, hh⟩
        · rcases (hmem k).1 hk with h | h
          · exact a4 k h
          · exact b4 k h
        · refine sequence_describes keep p _ _ r hs fun ks hks s hsk => ?_
          rcases List.mem_append.1 hks with hks | hks
          · refine reduceFields_describes keep fs gs p xs ys a5 (fun k t => last_describes keep p ys k gs t b5) (fun k hk hn => ?_)
              ks hks s hsk
            exact absent_null keep p ys gs i' n' hb0 k ((a3 k).1 hk).1 ((last_none k gs).1 hn)
          · refine onlyRight_describes keep p xs ys fs.names gs b5 (fun k hk hn => ?_) ks hks s hsk
            exact absent_null keep p xs fs i n ha0 k ((b3 k).1 hk).1 hn
    | _ => simp [reduce] at h
theorem reduceFields_describes (keep : Str → Bool) : ∀ (fs gs : Fs) (p : Str) (xs ys : List J), DescribesFields keep p fs xs →
    (∀ k t, gs.last k = some t → Describes keep (member p k) t (fieldValues k ys)) →
    (∀ k ∈ fs.names, gs.last k = none → AllNull (fieldValues k ys) ∧ fieldValues k ys ≠ []) →
    ∀ ks ∈ reduceFields fs gs, ∀ s, ks.2 = .ok s → Describes keep (member p ks.1) s (fieldValues ks.1 (xs ++ ys))
  | .nil, gs, p, xs, ys, _, _, _, ks, h, _, _ => by simp [reduceFields] at h
  | .cons k t r, gs, p, xs, ys, hd, hg, hn, ks, h, s, hs => by
    simp only [DescribesFields] at hd
    have ih := reduceFields_describes keep r gs p xs ys hd.2 hg (fun k' hk' => hn k' (by simp [Fs.names, hk']))
    simp only [reduceFields] at h
    cases hl : gs.last k with
    | none =>
      rw [hl] at h
      simp only at h
      rcases List.mem_cons.1 h with h | h
      · rw [h] at hs ⊢
        simp only [Except.ok.injEq] at hs
        rw [← hs]
        obtain ⟨h1, h2⟩ := hn k (by simp [Fs.names]) hl
        rw [fieldValues_append]
        exact addNulls_describes keep _ t _ _ 1 hd.1 h2 h1 (by omega)
      · exact ih ks h s hs
    | some u =>
      rw [hl] at h
      simp only at h
      rcases List.mem_cons.1 h with h | h
      · rw [h] at hs ⊢
        simp only at hs ⊢
        rw [fieldValues_append]
        exact reduce_describes keep t u s _ _ _ hd.1 (hg k u hl) hs
      · exact ih ks h s hs
end

end Current.Infer
