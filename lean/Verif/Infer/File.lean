import Verif.Infer.Complete
/-! Inference from a file: when it succeeds, and what it says does not depend on the order of the lines. -/
namespace Current.Infer
open Current.Persist (Str dec)
open Current.Json (J find)

/-! ### What is fine and consistent, is inferred -/

mutual
theorem infer_ok (keep : Str → Bool) (hb : Blind keep) : ∀ (j : J) (p : Str), DistinctKeys j → Fine keep p j →
    Consistent keep p [j] → ∃ s, infer keep p j = .ok s
  | .obj m, p, hd, hf, hc => by
    simp only [DistinctKeys] at hd
    simp only [Fine] at hf
    obtain ⟨fs, hfs⟩ := members_ok keep hb m p m hd.2 (find_nodup m hd.1) hf hc
    exact ⟨.obj fs 1 0, by simp only [infer, hfs]⟩
  | .arr l, p, hd, hf, hc => by
    simp only [DistinctKeys] at hd
    simp only [Fine] at hf
    obtain ⟨⟨v, hv, hve⟩, hf⟩ := hf
    have hvs : elementValues [.arr l] = l.filter fun v => !isEmptyArray v := by
      simp [elementValues, elementsOf]
    have hc' := consistent_element hc
    rw [hvs] at hc'
    obtain ⟨e, he⟩ := elements_ok keep hb l p 0 .uninit [] hd hf (by simp only [Describes]) hc'
    have hD := elements_describes keep hb l p 0 .uninit e [] hd (by simp only [Describes]) he
    simp only [infer]
    have hl : l.isEmpty = false := by
      cases l with
      | nil => simp at hv
      | cons a l => rfl
    rw [if_neg (by rw [hl]; exact Bool.false_ne_true), he]
    cases e with
    | uninit =>
      simp only [Describes, List.nil_append, List.filter_eq_nil_iff] at hD
      exact absurd (hD v hv) (by rw [hve]; simp)
    | _ => exact ⟨_, rfl⟩
  | .str t, p, _, _, _ => by simp only [infer]; exact ⟨_, rfl⟩
  | .int i, p, _, _, _ => by
    simp only [infer]
    cases Current.Json.asInt64 (.int i) <;> exact ⟨_, rfl⟩
  | .dbl d, p, _, _, _ => by simp only [infer]; exact ⟨_, rfl⟩
  | .bool b, p, _, _, _ => by
    simp only [infer]
    cases b <;> exact ⟨_, rfl⟩
  | .null, p, _, _, _ => by simp only [infer]; exact ⟨_, rfl⟩
theorem members_ok (keep : Str → Bool) (hb : Blind keep) : ∀ (m : List (Str × J)) (p : Str) (m₀ : List (Str × J)),
    DistinctMembers m → (∀ kv ∈ m, find kv.1 m₀ = some kv.2) → FineMembers keep p m → Consistent keep p [.obj m₀] →
    ∃ fs, inferMembers keep p m = .ok fs
  | [], _, _, _, _, _, _ => ⟨.nil, by simp only [inferMembers]⟩
  | (k, v) :: m, p, m₀, hd, hn, hf, hc => by
    simp only [DistinctMembers] at hd
    simp only [FineMembers] at hf
    obtain ⟨fs, hfs⟩ := members_ok keep hb m p m₀ hd.2 (fun kv hkv => hn kv (List.mem_cons_of_mem _ hkv)) hf.2 hc
    simp only [inferMembers]
    by_cases he : isEmptyArray v = true
    · rw [if_pos he]
      exact ⟨fs, hfs⟩
    · rw [if_neg he]
      have he' : isEmptyArray v = false := by simpa using he
      by_cases hk : keep (member p k) = true
      · rw [if_pos hk]
        obtain ⟨h1, h2⟩ := hf.1 he' hk
        rw [if_pos ((valid_iff k).2 h1)]
        have hfk : fieldValues k [.obj m₀] = [v] := by
          simp only [fieldValues, List.filterMap_cons, fieldOf_some k m₀ v (hn (k, v) (by simp)) he', List.filterMap_nil]
        have hc' := consistent_field hc k hk
        rw [hfk] at hc'
        obtain ⟨s, hs⟩ := infer_ok keep hb v _ hd.1 h2 hc'
        exact ⟨.cons k s fs, by simp only [hs, hfs]⟩
      · rw [if_neg hk]
        exact ⟨fs, hfs⟩
theorem elements_ok (keep : Str → Bool) (hb : Blind keep) : ∀ (l : List J) (p : Str) (i : Nat) (acc : S) (vs : List J),
    DistinctElements l → FineElements keep p l → Describes keep (element p 0) acc vs →
    Consistent keep (element p 0) (vs ++ l.filter fun v => !isEmptyArray v) → ∃ s, inferElements keep p i acc l = .ok s
  | [], _, _, acc, _, _, _, _, _ => ⟨acc, by simp only [inferElements]⟩
  | v :: l, p, i, acc, vs, hd, hf, ha, hc => by
    simp only [DistinctElements] at hd
    simp only [FineElements] at hf
    simp only [inferElements]
    by_cases he : isEmptyArray v = true
    · rw [if_pos he]
      rw [List.filter_cons_of_neg (by simp [he])] at hc
      exact elements_ok keep hb l p (i + 1) acc vs hd.2 hf.2 ha hc
    · rw [if_neg he]
      have he' : isEmptyArray v = false := by simpa using he
      rw [List.filter_cons_of_pos (by simp [he]), ← List.singleton_append, ← List.append_assoc] at hc
      have hc1 := consistent_left hc
      have hc2 := consistent_right hc1
      obtain ⟨s, hs⟩ := infer_ok keep hb v _ hd.1 (hf.1 he') hc2
      have h1 := infer_describes keep hb v _ s hd.1 hs
      obtain ⟨acc', hr⟩ := reduce_ok keep acc s _ _ _ ha h1 hc1
      have h2 := reduce_describes keep acc s acc' _ _ _ ha h1 hr
      obtain ⟨r, hr'⟩ := elements_ok keep hb l p (i + 1) acc' _ hd.2 hf.2 h2 hc
      rw [infer_sim keep v _ _ (blind_sim hb p i), hs]
      simp only [hr]
      exact ⟨r, hr'⟩
end

mutual
theorem infer_fine (keep : Str → Bool) (hb : Blind keep) : ∀ (j : J) (p : Str) (s : S), infer keep p j = .ok s → Fine keep p j
  | .obj m, p, s, h => by
    simp only [infer] at h
    simp only [Fine]
    cases hm : inferMembers keep p m with
    | error e =>
      rw [hm] at h
      exact nomatch h
    | ok fs => exact members_fine keep hb m p fs hm
  | .arr l, p, s, h => by
    simp only [infer] at h
    simp only [Fine]
    split at h
    · exact nomatch h
    · cases he : inferElements keep p 0 .uninit l with
      | error e =>
        rw [he] at h
        exact nomatch h
      | ok e =>
        rw [he] at h
        refine ⟨?_, elements_fine keep hb l p 0 .uninit e he⟩
        apply Classical.byContradiction
        intro hn
        have hall : ∀ v ∈ l, isEmptyArray v = true := by
          intro v hv
          cases hv' : isEmptyArray v with
          | true => rfl
          | false => exact absurd ⟨v, hv, hv'⟩ hn
        rw [elements_empty keep p l hall] at he
        simp only [Except.ok.injEq] at he
        rw [← he] at h
        exact nomatch h
  | .str t, p, _, _ => by simp only [Fine]
  | .int i, p, _, _ => by simp only [Fine]
  | .dbl d, p, _, _ => by simp only [Fine]
  | .bool b, p, _, _ => by simp only [Fine]
  | .null, p, _, _ => by simp only [Fine]
theorem elements_empty (keep : Str → Bool) (p : Str) : ∀ (l : List J), (∀ v ∈ l, isEmptyArray v = true) → ∀ {i : Nat} {acc : S},
    inferElements keep p i acc l = .ok acc
  | [], _, _, _ => by simp only [inferElements]
  | v :: l, h, i, acc => by
    simp only [inferElements]
    rw [if_pos (h v (by simp))]
    exact elements_empty keep p l (fun v hv => h v (List.mem_cons_of_mem _ hv))
theorem members_fine (keep : Str → Bool) (hb : Blind keep) : ∀ (m : List (Str × J)) (p : Str) (fs : Fs),
    inferMembers keep p m = .ok fs → FineMembers keep p m
  | [], _, _, _ => by simp only [FineMembers]
  | (k, v) :: m, p, fs, h => by
    simp only [inferMembers] at h
    simp only [FineMembers]
    by_cases he : isEmptyArray v = true
    · rw [if_pos he] at h
      exact ⟨fun h' => (by rw [he] at h'; exact nomatch h'), members_fine keep hb m p fs h⟩
    · rw [if_neg he] at h
      by_cases hk : keep (member p k) = true
      · rw [if_pos hk] at h
        by_cases hid : isValidIdentifier k = true
        · rw [if_pos hid] at h
          cases hi : infer keep (member p k) v with
          | error e =>
            rw [hi] at h
            exact nomatch h
          | ok s =>
            rw [hi] at h
            simp only at h
            cases hm : inferMembers keep p m with
            | error e =>
              rw [hm] at h
              exact nomatch h
            | ok gs => exact ⟨fun _ _ => ⟨(valid_iff k).1 hid, infer_fine keep hb v _ s hi⟩, members_fine keep hb m p gs hm⟩
        · rw [if_neg hid] at h
          exact nomatch h
      · rw [if_neg hk] at h
        exact ⟨fun _ h' => absurd h' hk, members_fine keep hb m p fs h⟩
theorem elements_fine (keep : Str → Bool) (hb : Blind keep) : ∀ (l : List J) (p : Str) (i : Nat) (acc s : S),
    inferElements keep p i acc l = .ok s → FineElements keep p l
  | [], _, _, _, _, _ => by simp only [FineElements]
  | v :: l, p, i, acc, s, h => by
    simp only [inferElements] at h
    simp only [FineElements]
    by_cases he : isEmptyArray v = true
    · rw [if_pos he] at h
      exact ⟨fun h' => (by rw [he] at h'; exact nomatch h'), elements_fine keep hb l p _ _ s h⟩
    · rw [if_neg he, infer_sim keep v _ _ (blind_sim hb p i)] at h
      cases hi : infer keep (element p 0) v with
      | error e =>
        rw [hi] at h
        exact nomatch h
      | ok t =>
        rw [hi] at h
        simp only at h
        cases hr : reduce acc t with
        | error e =>
          rw [hr] at h
          exact nomatch h
        | ok acc' =>
          rw [hr] at h
          exact ⟨fun _ => infer_fine keep hb v _ t hi, elements_fine keep hb l p _ _ s h⟩
end

theorem inferMore_ok (keep : Str → Bool) (hb : Blind keep) : ∀ (js : List J) (s : S) (vs : List J), (∀ j ∈ js, DistinctKeys j) →
    Describes keep [] s vs → (∀ j ∈ js, Fine keep [] j) → Consistent keep [] (vs ++ js) → ∃ r, inferMore keep s js = .ok r
  | [], s, _, _, _, _, _ => ⟨s, rfl⟩
  | j :: js, s, vs, hd, hs, hf, hc => by
    rw [← List.singleton_append, ← List.append_assoc] at hc
    have hc1 := consistent_left hc
    obtain ⟨t, ht⟩ := infer_ok keep hb j [] (hd j (by simp)) (hf j (by simp)) (consistent_right hc1)
    have h1 := infer_describes keep hb j [] t (hd j (by simp)) ht
    obtain ⟨s', hr⟩ := reduce_ok keep s t _ _ _ hs h1 hc1
    have h2 := reduce_describes keep s t s' _ _ _ hs h1 hr
    obtain ⟨r, hr'⟩ := inferMore_ok keep hb js s' _ (fun j hj => hd j (List.mem_cons_of_mem _ hj)) h2
      (fun j hj => hf j (List.mem_cons_of_mem _ hj)) hc
    exact ⟨r, by simp only [inferMore, ht, hr, hr']⟩

theorem inferMore_fine (keep : Str → Bool) (hb : Blind keep) : ∀ (js : List J) (s r : S), inferMore keep s js = .ok r →
    ∀ j ∈ js, Fine keep [] j
  | [], _, _, _, _, h => by simp at h
  | j :: js, s, r, h, j', hj' => by
    simp only [inferMore] at h
    cases hi : infer keep [] j with
    | error e =>
      rw [hi] at h
      exact nomatch h
    | ok t =>
      rw [hi] at h
      simp only at h
      cases hr : reduce s t with
      | error e =>
        rw [hr] at h
        exact nomatch h
      | ok s' =>
        rw [hr] at h
        rcases List.mem_cons.1 hj' with e | e
        · rw [e]
          exact infer_fine keep hb j [] t hi
        · exact inferMore_fine keep hb js s' r h j' e

/-- **When inference succeeds**: exactly when every document, on its own, has valid keys and no array of nothing but empty
arrays, and at every place which is not ignored the values of all the documents are of one kind. -/
theorem inference_succeeds_iff (keep : Str → Bool) (hb : Blind keep) (js : List J) (hj : js ≠ []) (hd : ∀ j ∈ js, DistinctKeys j) :
    (∃ s, inferFile keep js = .ok (some s)) ↔ (∀ j ∈ js, Fine keep [] j) ∧ Consistent keep [] js := by
  constructor
  · rintro ⟨s, h⟩
    refine ⟨?_, describes_consistent keep [] s js (file_describes keep hb js s hd h)⟩
    cases js with
    | nil => exact absurd rfl hj
    | cons j js =>
      simp only [inferFile] at h
      cases hi : infer keep [] j with
      | error e =>
        rw [hi] at h
        exact nomatch h
      | ok t =>
        rw [hi] at h
        simp only at h
        cases hr : inferMore keep t js with
        | error e =>
          rw [hr] at h
          exact nomatch h
        | ok r =>
          intro j' hj'
          rcases List.mem_cons.1 hj' with e | e
          · rw [e]
            exact infer_fine keep hb j [] t hi
          · exact inferMore_fine keep hb js t r hr j' e
  · rintro ⟨hf, hc⟩
    cases js with
    | nil => exact absurd rfl hj
    | cons j js =>
      rw [← List.singleton_append] at hc
      obtain ⟨t, ht⟩ := infer_ok keep hb j [] (hd j (by simp)) (hf j (by simp)) (consistent_left hc)
      have h1 := infer_describes keep hb j [] t (hd j (by simp)) ht
      obtain ⟨r, hr⟩ := inferMore_ok keep hb js t [j] (fun j hj => hd j (List.mem_cons_of_mem _ hj)) h1
        (fun j hj => hf j (List.mem_cons_of_mem _ hj)) hc
      exact ⟨r, by simp only [inferFile, ht, hr]⟩

/-! ### The type of a place -/

/-- What the schema says about the type: which, and whether it is an `Optional`. -/
inductive Summary where
  | nothing
  | str (optional : Bool)
  | int (optional : Bool) (canBeUnsigned canBeMicroseconds : Bool)
  | dbl (optional : Bool)
  | bool (optional : Bool)
  | arr (optional : Bool)
  | obj (optional : Bool)
deriving DecidableEq, Repr

def summary : S → Summary
  | .uninit => .nothing
  | .null _ => .nothing
  | .str _ _ n => .str (decide (0 < n))
  | .int _ u c _ n => .int (decide (0 < n)) u c
  | .dbl _ n => .dbl (decide (0 < n))
  | .bool _ _ n => .bool (decide (0 < n))
  | .arr _ _ n => .arr (decide (0 < n))
  | .obj _ _ n => .obj (decide (0 < n))

theorem opt_eq {kind kind' : J → Bool} {i i' n n' : Nat} {vs : List J} (h : Common kind i n vs) (h' : Common kind' i' n' vs) :
    decide (0 < n) = decide (0 < n') := by
  rw [decide_eq_decide, h.2.2.2, h'.2.2.2]

theorem bool_iff {a b : Bool} {P : Prop} (h : a = true ↔ P) (h' : b = true ↔ P) : a = b := by
  rw [Bool.eq_iff_iff, h, h']

/-- Two schemas describing the same values say the same about the type. -/
theorem summary_unique (keep keep' : Str → Bool) (p p' : Str) (s t : S) (vs : List J) (hs : Describes keep p s vs)
    (ht : Describes keep' p' t vs) : summary s = summary t := by
  obtain ⟨s1, s2⟩ := describes_kind keep p s vs hs
  obtain ⟨t1, t2⟩ := describes_kind keep' p' t vs ht
  have hk : kindS s = kindS t := by
    by_cases h1 : 0 < kindS s
    · obtain ⟨v, hv, hv0⟩ := s2 h1
      rw [← s1 v hv hv0, ← t1 v hv hv0]
    · by_cases h2 : 0 < kindS t
      · obtain ⟨v, hv, hv0⟩ := t2 h2
        rw [← s1 v hv hv0, ← t1 v hv hv0]
      · omega
  cases s with
  | uninit => cases t <;> simp_all [kindS, summary]
  | null n => cases t <;> simp_all [kindS, summary]
  | str h i n =>
    cases t with
    | str h' i' n' =>
      simp only [Describes] at hs ht
      simp only [summary, opt_eq hs.1 ht.1]
    | _ => simp [kindS] at hk
  | bool f b n =>
    cases t with
    | bool f' b' n' =>
      simp only [Describes] at hs ht
      simp only [summary, opt_eq hs.1 ht.1]
    | _ => simp [kindS] at hk
  | arr e i n =>
    cases t with
    | arr e' i' n' =>
      simp only [Describes] at hs ht
      simp only [summary, opt_eq hs.1 ht.1]
    | _ => simp [kindS] at hk
  | obj e i n =>
    cases t with
    | obj e' i' n' =>
      simp only [Describes] at hs ht
      simp only [summary, opt_eq hs.1 ht.1]
    | _ => simp [kindS] at hk
  | int su u c i n =>
    cases t with
    | int su' u' c' i' n' =>
      simp only [Describes] at hs ht
      simp only [summary, opt_eq hs.1 ht.1, bool_iff hs.2.2.1 ht.2.2.1, bool_iff hs.2.2.2 ht.2.2.2]
    | dbl i' n' =>
      simp only [Describes] at hs ht
      obtain ⟨v, hv, h1, h2⟩ := ht.2
      rcases hs.1.1 v hv with h | h
      · rw [h] at h1
        exact nomatch h1
      · rw [h] at h2
        exact nomatch h2
    | _ => simp [kindS] at hk
  | dbl i n =>
    cases t with
    | dbl i' n' =>
      simp only [Describes] at hs ht
      simp only [summary, opt_eq hs.1 ht.1]
    | int su' u' c' i' n' =>
      simp only [Describes] at hs ht
      obtain ⟨v, hv, h1, h2⟩ := hs.2
      rcases ht.1.1 v hv with h | h
      · rw [h] at h1
        exact nomatch h1
      · rw [h] at h2
        exact nomatch h2
    | _ => simp [kindS] at hk

/-- Two schemas describing the same values have the same places. -/
theorem summary_everywhere (keep : Str → Bool) (q : List Seg) : ∀ (p : Str) (s t : S) (vs : List J), Describes keep p s vs →
    Describes keep p t vs → (schemaAt q s).map summary = (schemaAt q t).map summary := by
  induction q with
  | nil =>
    intro p s t vs hs ht
    simp only [schemaAt, Option.map_some, Option.some.injEq]
    exact summary_unique keep keep p p s t vs hs ht
  | cons g q ih =>
    intro p s t vs hs ht
    have hsum := summary_unique keep keep p p s t vs hs ht
    cases g with
    | field k =>
      cases s with
      | obj fs i n =>
        cases t with
        | obj gs i' n' =>
          simp only [Describes] at hs ht
          simp only [schemaAt]
          cases hf : fs.last k with
          | none =>
            have h1 := (last_none k fs).1 hf
            rw [hs.2.2.1, ← ht.2.2.1] at h1
            rw [(last_none k gs).2 h1]
          | some a =>
            cases hg : gs.last k with
            | none =>
              have h1 := (last_none k gs).1 hg
              rw [ht.2.2.1, ← hs.2.2.1] at h1
              rw [(last_none k fs).2 h1] at hf
              exact nomatch hf
            | some b =>
              exact ih _ a b _ (last_describes keep p vs k fs a hs.2.2.2.2 hf) (last_describes keep p vs k gs b ht.2.2.2.2 hg)
        | _ => simp [summary] at hsum
      | _ => cases t <;> simp_all [summary, schemaAt]
    | element =>
      cases s with
      | arr e i n =>
        cases t with
        | arr e' i' n' =>
          simp only [Describes] at hs ht
          exact ih _ e e' _ hs.2.2 ht.2.2
        | _ => simp [summary] at hsum
      | _ => cases t <;> simp_all [summary, schemaAt]

/-- **The order of the lines does not matter**: with the lines in another order, inference succeeds as well, and gives every place
the same type, `Optional` or not. -/
theorem order_irrelevant (keep : Str → Bool) (hb : Blind keep) (js js' : List J) (hd : ∀ j ∈ js, DistinctKeys j)
    (hp : js.Perm js') (s : S) (h : inferFile keep js = .ok (some s)) :
    ∃ s', inferFile keep js' = .ok (some s') ∧ ∀ q, (schemaAt q s).map summary = (schemaAt q s').map summary := by
  have hj : js ≠ [] := by
    intro e
    rw [e] at h
    exact nomatch h
  have hj' : js' ≠ [] := by
    intro e
    rw [e] at hp
    exact hj (List.Perm.eq_nil hp)
  obtain ⟨h1, h2⟩ := (inference_succeeds_iff keep hb js hj hd).1 ⟨s, h⟩
  have hd' : ∀ j ∈ js', DistinctKeys j := fun j hj => hd j (hp.mem_iff.2 hj)
  obtain ⟨s', hs'⟩ := (inference_succeeds_iff keep hb js' hj' hd').2
    ⟨fun j hj => h1 j (hp.mem_iff.2 hj), consistent_perm h2 hp⟩
  refine ⟨s', hs', fun q => ?_⟩
  exact summary_everywhere keep q [] s s' js' (describes_perm keep s [] _ _ (file_describes keep hb js s hd h) hp)
    (file_describes keep hb js' s' hd' hs')

end Current.Infer
