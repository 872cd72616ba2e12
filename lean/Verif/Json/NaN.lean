import Verif.Json.TextProps
/-!
What happens to a document with a NaN or an infinity in it: `Writer` stops there (`writer.h:545-550`), `ResultingJSON` does not look at
the result of `Accept`, and what is returned cannot be read.
-/
namespace Current.Json
open Current.Persist (Str dec decInt)

mutual
/-- A NaN or an infinity is somewhere in the document. -/
def hasNan : J → Bool
  | .dbl d => d.isNanOrInf
  | .arr l => hasNanAll l
  | .obj m => hasNanMembers m
  | _ => false
def hasNanAll : List J → Bool
  | [] => false
  | j :: js => hasNan j || hasNanAll js
def hasNanMembers : List (Str × J) → Bool
  | [] => false
  | (_, j) :: m => hasNan j || hasNanMembers m
end

mutual
/-- All the numbers in the document but the NaNs and the infinities can be read back. -/
def OthersOk (fp : Fp) : J → Prop
  | .int i => InRange i
  | .dbl d => d.isNanOrInf = false → DblOk fp d
  | .arr l => OthersOkAll fp l
  | .obj m => OthersOkMembers fp m
  | _ => True
def OthersOkAll (fp : Fp) : List J → Prop
  | [] => True
  | j :: js => OthersOk fp j ∧ OthersOkAll fp js
def OthersOkMembers (fp : Fp) : List (Str × J) → Prop
  | [] => True
  | (_, j) :: m => OthersOk fp j ∧ OthersOkMembers fp m
end

mutual
theorem jok_of_finite (fp : Fp) : ∀ (j : J), OthersOk fp j → hasNan j = false → JOk fp j
  | .null, _, _ => by simp [JOk]
  | .bool _, _, _ => by simp [JOk]
  | .int i, h, _ => by simp only [OthersOk, JOk] at h ⊢; exact h
  | .dbl d, h, hn => by simp only [OthersOk, JOk, hasNan] at h hn ⊢; exact h hn
  | .str _, _, _ => by simp [JOk]
  | .arr l, h, hn => by simp only [OthersOk, JOk, hasNan] at h hn ⊢; exact jok_of_finiteAll fp l h hn
  | .obj m, h, hn => by simp only [OthersOk, JOk, hasNan] at h hn ⊢; exact jok_of_finiteMembers fp m h hn
theorem jok_of_finiteAll (fp : Fp) : ∀ (l : List J), OthersOkAll fp l → hasNanAll l = false → JOkAll fp l
  | [], _, _ => by simp [JOkAll]
  | j :: js, h, hn => by
    simp only [OthersOkAll, JOkAll, hasNanAll, Bool.or_eq_false_iff] at h hn ⊢
    exact ⟨jok_of_finite fp j h.1 hn.1, jok_of_finiteAll fp js h.2 hn.2⟩
theorem jok_of_finiteMembers (fp : Fp) : ∀ (m : List (Str × J)), OthersOkMembers fp m → hasNanMembers m = false → JOkMembers fp m
  | [], _, _ => by simp [JOkMembers]
  | (k, j) :: m, h, hn => by
    simp only [OthersOkMembers, JOkMembers, hasNanMembers, Bool.or_eq_false_iff] at h hn ⊢
    exact ⟨jok_of_finite fp j h.1 hn.1, jok_of_finiteMembers fp m h.2 hn.2⟩
end

mutual
/-- What has been written when the first NaN or infinity is met. -/
def cut (fp : Fp) : J → Str
  | .arr l => '[' :: cutAll fp true l
  | .obj m => '{' :: cutMembers fp true m
  | _ => []
def cutAll (fp : Fp) : Bool → List J → Str
  | _, [] => []
  | first, j :: js => (if first then [] else [',']) ++ (if hasNan j then cut fp j else text fp j ++ cutAll fp false js)
def cutMembers (fp : Fp) : Bool → List (Str × J) → Str
  | _, [] => []
  | first, (k, j) :: m => (if first then [] else [',']) ++ (writeString k ++ ':' ::
      (if hasNan j then cut fp j else text fp j ++ cutMembers fp false m))
end

mutual
theorem accept_cut (fp : Fp) : ∀ (j : J), OthersOk fp j → hasNan j = true → ∀ w,
    ∃ w', accept fp j w = (false, w') ∧ w'.out = w.pre.out ++ cut fp j
  | .null, _, hn, _ => by simp [hasNan] at hn
  | .bool _, _, hn, _ => by simp [hasNan] at hn
  | .int _, _, hn, _ => by simp [hasNan] at hn
  | .dbl d, _, hn, w => by
    simp only [hasNan] at hn
    exact ⟨w.pre, by simp [accept, hn], by simp [cut]⟩
  | .str _, _, hn, _ => by simp [hasNan] at hn
  | .arr l, h, hn, w => by
    simp only [OthersOk, hasNan] at h hn
    obtain ⟨w', h1, h2⟩ := acceptAll_cut fp l h hn w.pre.levels 0 (w.pre.out ++ ['['])
    have e : w.startArray = ⟨w.pre.out ++ ['['], ⟨0, true⟩ :: w.pre.levels⟩ := rfl
    exact ⟨w', by simp only [accept, e, h1], by simp [h2, cut]⟩
  | .obj m, h, hn, w => by
    simp only [OthersOk, hasNan] at h hn
    obtain ⟨w', h1, h2⟩ := acceptMembers_cut fp m h hn w.pre.levels 0 (w.pre.out ++ ['{'])
    have e : w.startObject = ⟨w.pre.out ++ ['{'], ⟨2 * 0, false⟩ :: w.pre.levels⟩ := rfl
    exact ⟨w', by simp only [accept, e, h1], by simp [h2, cut]⟩
theorem acceptAll_cut (fp : Fp) : ∀ (l : List J), OthersOkAll fp l → hasNanAll l = true → ∀ ls n out,
    ∃ w', acceptAll fp l ⟨out, ⟨n, true⟩ :: ls⟩ = (false, w') ∧ w'.out = out ++ cutAll fp (decide (n = 0)) l
  | [], _, hn, _, _, _ => by simp [hasNanAll] at hn
  | j :: js, h, hn, ls, n, out => by
    simp only [OthersOkAll, hasNanAll] at h hn
    by_cases hj : hasNan j = true
    · obtain ⟨w', h1, h2⟩ := accept_cut fp j h.1 hj ⟨out, ⟨n, true⟩ :: ls⟩
      refine ⟨w', by simp only [acceptAll, h1], ?_⟩
      rw [h2]
      simp only [cutAll, hj, if_true]
      by_cases hn : n = 0
      · simp [Writer.pre, hn]
      · simp [Writer.pre, Writer.put, hn, Nat.pos_of_ne_zero hn]
    · have hj' : hasNan j = false := by simpa using hj
      rw [hj', Bool.false_or] at hn
      have h1 := accept_eq fp j (jok_of_finite fp j h.1 hj') ⟨out, ⟨n, true⟩ :: ls⟩
      simp only [acceptAll, h1, cutAll, hj', Bool.false_eq_true, if_false]
      by_cases h0 : n = 0
      · subst h0
        obtain ⟨w', h2, h3⟩ := acceptAll_cut fp js h.2 hn ls 1 (out ++ text fp j)
        refine ⟨w', ?_, by simp [h3]⟩
        rw [← h2]
        simp [Writer.pre, Writer.put]
      · obtain ⟨w', h2, h3⟩ := acceptAll_cut fp js h.2 hn ls (n + 1) (out ++ [','] ++ text fp j)
        refine ⟨w', ?_, by simp [h3, h0]⟩
        rw [← h2]
        simp [Writer.pre, Writer.put, Nat.pos_of_ne_zero h0]
theorem acceptMembers_cut (fp : Fp) : ∀ (m : List (Str × J)), OthersOkMembers fp m → hasNanMembers m = true → ∀ ls n out,
    ∃ w', acceptMembers fp m ⟨out, ⟨2 * n, false⟩ :: ls⟩ = (false, w') ∧ w'.out = out ++ cutMembers fp (decide (n = 0)) m
  | [], _, hn, _, _, _ => by simp [hasNanMembers] at hn
  | (k, j) :: m, h, hn, ls, n, out => by
    simp only [OthersOkMembers, hasNanMembers] at h hn
    have hpre : (Writer.put (Writer.pre ⟨out, ⟨2 * n, false⟩ :: ls⟩) (writeString k)).pre =
        ⟨out ++ (if n = 0 then [] else [',']) ++ writeString k ++ [':'], ⟨2 * (n + 1), false⟩ :: ls⟩ := by
      by_cases h0 : n = 0
      · subst h0
        simp [Writer.pre, Writer.put]
      · have : 0 < n := Nat.pos_of_ne_zero h0
        simp [Writer.pre, Writer.put, this, h0, Nat.mul_add_mod, Nat.mul_add]
    by_cases hj : hasNan j = true
    · obtain ⟨w', h1, h2⟩ := accept_cut fp j h.1 hj (Writer.put (Writer.pre ⟨out, ⟨2 * n, false⟩ :: ls⟩) (writeString k))
      refine ⟨w', by simp only [acceptMembers, h1], ?_⟩
      rw [h2, hpre]
      simp only [cutMembers, hj, if_true]
      by_cases hn : n = 0 <;> simp [hn]
    · have hj' : hasNan j = false := by simpa using hj
      rw [hj', Bool.false_or] at hn
      have h1 := accept_eq fp j (jok_of_finite fp j h.1 hj') (Writer.put (Writer.pre ⟨out, ⟨2 * n, false⟩ :: ls⟩) (writeString k))
      obtain ⟨w', h2, h3⟩ := acceptMembers_cut fp m h.2 hn ls (n + 1)
        (out ++ (if n = 0 then [] else [',']) ++ writeString k ++ [':'] ++ text fp j)
      refine ⟨w', ?_, ?_⟩
      · rw [← h2]
        simp only [acceptMembers]
        rw [h1, hpre]
        rfl
      · rw [h3]
        simp only [cutMembers, hj', Bool.false_eq_true, if_false]
        by_cases h0 : n = 0 <;> simp [h0]
end

mutual
theorem cut_oneLine (fp : Fp) : ∀ (j : J), OthersOk fp j → OneLine (cut fp j)
  | .null, _ => oneLine_nil
  | .bool _, _ => oneLine_nil
  | .int _, _ => oneLine_nil
  | .dbl _, _ => oneLine_nil
  | .str _, _ => oneLine_nil
  | .arr l, h => by
    simp only [OthersOk] at h
    exact oneLine_cons (by decide) (cutAll_oneLine fp true l h)
  | .obj m, h => by
    simp only [OthersOk] at h
    exact oneLine_cons (by decide) (cutMembers_oneLine fp true m h)
theorem cutAll_oneLine (fp : Fp) : ∀ (b : Bool) (l : List J), OthersOkAll fp l → OneLine (cutAll fp b l)
  | _, [], _ => oneLine_nil
  | b, j :: js, h => by
    simp only [OthersOkAll] at h
    have h1 := cut_oneLine fp j h.1
    have h2 := cutAll_oneLine fp false js h.2
    simp only [cutAll]
    refine oneLine_append ?_ ?_
    · cases b
      · exact oneLine_cons (by decide) oneLine_nil
      · exact oneLine_nil
    · by_cases hj : hasNan j = true
      · rw [if_pos hj]; exact h1
      · rw [if_neg hj]; exact oneLine_append (text_oneLine fp j (jok_of_finite fp j h.1 (by simpa using hj))) h2
theorem cutMembers_oneLine (fp : Fp) : ∀ (b : Bool) (l : List (Str × J)), OthersOkMembers fp l → OneLine (cutMembers fp b l)
  | _, [], _ => oneLine_nil
  | b, (k, j) :: m, h => by
    simp only [OthersOkMembers] at h
    have h1 := cut_oneLine fp j h.1
    have h2 := cutMembers_oneLine fp false m h.2
    simp only [cutMembers]
    refine oneLine_append ?_ (oneLine_append (writeString_oneLine k) (oneLine_cons (by decide) ?_))
    · cases b
      · exact oneLine_cons (by decide) oneLine_nil
      · exact oneLine_nil
    · by_cases hj : hasNan j = true
      · rw [if_pos hj]; exact h1
      · rw [if_neg hj]; exact oneLine_append (text_oneLine fp j (jok_of_finite fp j h.1 (by simpa using hj))) h2
end

theorem cut_noWs (fp : Fp) (j : J) : skipWs (cut fp j) = cut fp j := by
  cases j <;> simp [cut, skipWs]

theorem cutAll_next {fp : Fp} {l : List J} (h : hasNanAll l = true) : ∃ t, cutAll fp false l = ',' :: t ∧ t = cutAll fp true l := by
  cases l with
  | nil => simp [hasNanAll] at h
  | cons j js => exact ⟨cutAll fp true (j :: js), by simp [cutAll], rfl⟩

theorem cutMembers_next {fp : Fp} {l : List (Str × J)} (h : hasNanMembers l = true) :
    ∃ t, cutMembers fp false l = ',' :: t ∧ t = cutMembers fp true l := by
  cases l with
  | nil => simp [hasNanMembers] at h
  | cons j js => exact ⟨cutMembers fp true (j :: js), by simp [cutMembers], rfl⟩

theorem cutAll_head {fp : Fp} {l : List J} (h : OthersOkAll fp l) (hn : hasNanAll l = true) (t : Str) :
    skipWs (cutAll fp true l) ≠ ']' :: t := by
  cases l with
  | nil => simp [hasNanAll] at hn
  | cons j js =>
    simp only [OthersOkAll] at h
    simp only [cutAll, if_true, List.nil_append]
    by_cases hj : hasNan j = true
    · rw [if_pos hj, cut_noWs]
      cases j <;> simp [cut]
    · rw [if_neg hj]
      have hv := isValue_text fp j (jok_of_finite fp j h.1 (by simpa using hj))
      have := skip_value hv ws_nil (cutAll fp false js)
      rw [List.nil_append] at this
      rw [this]
      obtain ⟨c, t', e, -, h2, -⟩ := value_head hv
      rw [e]
      intro h
      simp only [List.cons_append, List.cons.injEq] at h
      exact h2 h.1

mutual
theorem parseValue_cut (fp : Fp) : ∀ (j : J), OthersOk fp j → hasNan j = true → ∀ n, 2 * (cut fp j).length + 1 ≤ n →
    parseValue fp n (cut fp j) = none
  | .null, _, hn, _, _ => by simp [hasNan] at hn
  | .bool _, _, hn, _, _ => by simp [hasNan] at hn
  | .int _, _, hn, _, _ => by simp [hasNan] at hn
  | .dbl _, _, _, n, _ => by cases n <;> simp [cut, parseValue]
  | .str _, _, hn, _, _ => by simp [hasNan] at hn
  | .arr l, h, hn, n, hl => by
    simp only [OthersOk, hasNan, cut, List.length_cons] at h hn hl ⊢
    match n, hl with
    | n + 1, hl =>
      have := parseElements_cut fp l h hn n (by omega)
      have hh := cutAll_head h hn
      rw [parseValue_array]
      split
      · rename_i e; exact absurd e (hh _)
      · rw [this]; rfl
  | .obj m, h, hn, n, hl => by
    simp only [OthersOk, hasNan, cut, List.length_cons] at h hn hl ⊢
    match n, hl with
    | n + 1, hl =>
      have := parseMembers_cut fp m h hn n (by omega)
      have hh : ∀ t, skipWs (cutMembers fp true m) ≠ '}' :: t := by
        cases m with
        | nil => simp [hasNanMembers] at hn
        | cons p m =>
          intro t
          simp only [cutMembers, if_true, List.nil_append, writeString, List.cons_append]
          rw [skipWs_cons (by decide)]
          simp
      rw [parseValue_object]
      split
      · rename_i e; exact absurd e (hh _)
      · rw [this]; rfl
theorem parseElements_cut (fp : Fp) : ∀ (l : List J), OthersOkAll fp l → hasNanAll l = true → ∀ n, 2 * (cutAll fp true l).length + 2 ≤ n →
    parseElements fp n (skipWs (cutAll fp true l)) = none
  | [], _, hn, _, _ => by simp [hasNanAll] at hn
  | j :: js, h, hn, n, hl => by
    simp only [OthersOkAll, hasNanAll] at h hn
    simp only [cutAll, if_true, List.nil_append] at hl ⊢
    match n, hl with
    | n + 1, hl =>
      by_cases hj : hasNan j = true
      · rw [if_pos hj] at hl ⊢
        rw [cut_noWs, parseElements, parseValue_cut fp j h.1 hj n (by omega)]
      · rw [if_neg hj] at hl ⊢
        have hj' : hasNan j = false := by simpa using hj
        rw [hj', Bool.false_or] at hn
        have hv := isValue_text fp j (jok_of_finite fp j h.1 hj')
        have hs := skip_value hv ws_nil (cutAll fp false js)
        rw [List.nil_append] at hs
        obtain ⟨t, e1, e2⟩ := cutAll_next (fp := fp) hn
        rw [List.length_append] at hl
        have hl1 : (cutAll fp false js).length = t.length + 1 := by rw [e1]; rfl
        have hp := value_complete hv (cutAll fp false js)
          (by rw [e1]; exact sep_cons (by decide) (by decide) (by decide) (by decide)) n (by omega)
        rw [hs, parseElements, hp]
        simp only [e1, skipWs_cons (show ¬ isWs ',' by decide)]
        have := parseElements_cut fp js h.2 hn n (by rw [← e2]; omega)
        rw [e2, this]; rfl
theorem parseMembers_cut (fp : Fp) : ∀ (l : List (Str × J)), OthersOkMembers fp l → hasNanMembers l = true →
    ∀ n, 2 * (cutMembers fp true l).length + 2 ≤ n → parseMembers fp n (skipWs (cutMembers fp true l)) = none
  | [], _, hn, _, _ => by simp [hasNanMembers] at hn
  | (k, j) :: m, h, hn, n, hl => by
    simp only [OthersOkMembers, hasNanMembers] at h hn
    simp only [cutMembers, if_true, List.nil_append] at hl ⊢
    match n, hl with
    | n + 1, hl =>
      have hk : ∀ r, parseMembers fp (n + 1) (skipWs (writeString k ++ ':' :: r)) =
          match parseValue fp n (skipWs r) with
          | none => none
          | some (j, r) =>
            match skipWs r with
            | ',' :: r => (parseMembers fp n (skipWs r)).map fun p => ((k, j) :: p.1, p.2)
            | '}' :: r => some ([(k, j)], r)
            | _ => none := by
        intro r
        have e : writeString k ++ ':' :: r = '"' :: (escaped k ++ '"' :: (':' :: r)) := by simp [writeString]
        rw [e, skipWs_cons (by decide), parseMembers, if_pos rfl, parseString_complete (isChars_escaped k)]
        simp only [skipWs_cons (show ¬ isWs ':' by decide)]
        rfl
      rw [hk]
      by_cases hj : hasNan j = true
      · rw [if_pos hj] at hl ⊢
        rw [cut_noWs, parseValue_cut fp j h.1 hj n (by simp at hl; omega)]
      · rw [if_neg hj] at hl ⊢
        have hj' : hasNan j = false := by simpa using hj
        rw [hj', Bool.false_or] at hn
        have hv := isValue_text fp j (jok_of_finite fp j h.1 hj')
        have hs := skip_value hv ws_nil (cutMembers fp false m)
        rw [List.nil_append] at hs
        obtain ⟨t, e1, e2⟩ := cutMembers_next (fp := fp) hn
        rw [List.length_append, List.length_cons, List.length_append] at hl
        have hl1 : (cutMembers fp false m).length = t.length + 1 := by rw [e1]; rfl
        have hp := value_complete hv (cutMembers fp false m)
          (by rw [e1]; exact sep_cons (by decide) (by decide) (by decide) (by decide)) n (by omega)
        rw [hs, hp]
        simp only [e1, skipWs_cons (show ¬ isWs ',' by decide)]
        have := parseMembers_cut fp m h.2 hn n (by rw [← e2]; omega)
        rw [e2, this]; rfl
end

/-- **C66.** A document with a NaN or an infinity anywhere in it is written without any error, and what is written cannot be read:
it is cut short where the number would be. -/
theorem nan_unreadable (fp : Fp) (j : J) (h : OthersOk fp j) (hn : hasNan j = true) :
    resultingJSON fp j = cut fp j ∧ parseText fp (resultingJSON fp j) = none := by
  obtain ⟨w', h1, h2⟩ := accept_cut fp j h hn ⟨[], []⟩
  have hz : '\x00' ∉ cut fp j := oneLine_not_mem (cut_oneLine fp j h) (by decide)
  have e : resultingJSON fp j = cut fp j := by
    unfold resultingJSON
    rw [h1]
    simp only [h2, Writer.pre, List.nil_append]
    exact cString_eq hz
  refine ⟨e, ?_⟩
  rw [e]
  unfold parseText
  simp only [cString_eq hz, cut_noWs]
  split
  · rfl
  · rw [parseValue_cut fp j h hn _ (Nat.le_refl _)]

end Current.Json
