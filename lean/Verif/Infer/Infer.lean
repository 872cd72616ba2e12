import Verif.Infer.ReduceProps
/-! The schema inferred from one document, and from a file, describes the values (`infer.h:473-534`, `:742-760`). -/
namespace Current.Infer
open Current.Persist (Str dec)
open Current.Json (J find asInt64)

/-! ### Paths -/

/-- Two paths below which the same is ignored. -/
def Sim (keep : Str → Bool) (p q : Str) : Prop := ∀ r, keep (p ++ r) = keep (q ++ r)

theorem sim_member {keep : Str → Bool} {p q : Str} (h : Sim keep p q) (k : Str) : Sim keep (member p k) (member q k) := by
  intro r
  simp only [member, List.append_assoc]
  exact h _

theorem sim_element {keep : Str → Bool} {p q : Str} (h : Sim keep p q) (i : Nat) : Sim keep (element p i) (element q i) := by
  intro r
  simp only [element, List.append_assoc]
  exact h _

theorem keep_member {keep : Str → Bool} {p q : Str} (h : Sim keep p q) (k : Str) : keep (member p k) = keep (member q k) := h _

mutual
theorem infer_sim (keep : Str → Bool) : ∀ (j : J) (p q : Str), Sim keep p q → infer keep p j = infer keep q j
  | .obj m, p, q, h => by simp only [infer, members_sim keep m p q h]
  | .arr l, p, q, h => by simp only [infer, elements_sim keep l 0 .uninit p q h]
  | .str _, _, _, _ => by simp only [infer]
  | .int _, _, _, _ => by simp only [infer]
  | .dbl _, _, _, _ => by simp only [infer]
  | .bool _, _, _, _ => by simp only [infer]
  | .null, _, _, _ => by simp only [infer]
theorem members_sim (keep : Str → Bool) : ∀ (m : List (Str × J)) (p q : Str), Sim keep p q →
    inferMembers keep p m = inferMembers keep q m
  | [], _, _, _ => by simp only [inferMembers]
  | (k, v) :: m, p, q, h => by
    simp only [inferMembers, members_sim keep m p q h, infer_sim keep v _ _ (sim_member h k), keep_member h k]
theorem elements_sim (keep : Str → Bool) : ∀ (l : List J) (i : Nat) (acc : S) (p q : Str), Sim keep p q →
    inferElements keep p i acc l = inferElements keep q i acc l
  | [], _, _, _, _, _ => by simp only [inferElements]
  | v :: l, i, acc, p, q, h => by
    simp only [inferElements, infer_sim keep v _ _ (sim_element h i), elements_sim keep l _ _ p q h]
end

theorem blind_sim {keep : Str → Bool} (h : Blind keep) (p : Str) (i : Nat) : Sim keep (element p i) (element p 0) :=
  fun r => h p i r

/-! ### Identifiers -/

/-- The keys accepted. -/
theorem valid_iff (s : Str) : isValidIdentifier s = true ↔ Acceptable s := by
  simp only [isValidIdentifier]
  by_cases hr : s = ['N', 'U', 'L', 'L'] ∨ s = ['n', 'u', 'l', 'l'] ∨ s = ['t', 'r', 'u', 'e'] ∨ s = ['f', 'a', 'l', 's', 'e']
  · rw [if_pos hr]
    refine ⟨(fun h => nomatch h), fun h => absurd ?_ h.2⟩
    simpa using hr
  · rw [if_neg hr]
    cases s with
    | nil =>
      refine ⟨(fun h => nomatch h), fun h => ?_⟩
      obtain ⟨⟨c, r, e, _⟩, _⟩ := h
      exact nomatch e
    | cons c r =>
      simp only [Bool.and_eq_true, Bool.or_eq_true, decide_eq_true_eq, List.all_eq_true, Char.isAlphanum]
      constructor
      · intro h
        exact ⟨⟨c, r, rfl, h.1, h.2⟩, by simpa using hr⟩
      · rintro ⟨⟨c', r', e, h1, h2⟩, _⟩
        cases e
        exact ⟨h1, h2⟩

/-! ### Documents -/

theorem find_nodup : ∀ (m : List (Str × J)), (m.map (·.1)).Nodup → ∀ kv ∈ m, find kv.1 m = some kv.2
  | [], _, _, h => by simp at h
  | (k, v) :: m, hn, kv, h => by
    simp only [List.map_cons, List.nodup_cons] at hn
    simp only [find]
    rcases List.mem_cons.1 h with h | h
    · rw [h]
      simp
    · rw [if_neg (fun e : k = kv.1 => hn.1 (by rw [e]; exact List.mem_map_of_mem (f := (·.1)) h)), find_nodup m hn.2 kv h]

theorem find_mem : ∀ (m : List (Str × J)) (k : Str) (v : J), find k m = some v → (k, v) ∈ m
  | [], _, _, h => nomatch h
  | (k', v') :: m, k, v, h => by
    simp only [find] at h
    split at h
    · rename_i e
      simp only [Option.some.injEq] at h
      rw [← h, e]
      simp
    · exact List.mem_cons_of_mem _ (find_mem m k v h)

theorem distinctMembers_mem : ∀ (m : List (Str × J)), DistinctMembers m → ∀ kv ∈ m, DistinctKeys kv.2
  | [], _, _, h => by simp at h
  | (k, v) :: m, hd, kv, h => by
    simp only [DistinctMembers] at hd
    rcases List.mem_cons.1 h with h | h
    · rw [h]
      exact hd.1
    · exact distinctMembers_mem m hd.2 kv h

theorem isEmptyArray_eq (v : J) (h : isEmptyArray v = true) : v = .arr [] := by
  cases v with
  | arr l =>
    cases l with
    | nil => rfl
    | cons a l => exact nomatch h
  | _ => exact nomatch h

theorem fieldOf_some (k : Str) (m : List (Str × J)) (v : J) (h : find k m = some v) (hv : isEmptyArray v = false) :
    fieldOf k (.obj m) = some v := by
  simp only [fieldOf, h]
  cases v with
  | arr l =>
    cases l with
    | nil => exact nomatch hv
    | cons a l => rfl
  | _ => rfl

theorem asInt64_isInt (i : Int) (v : Int) (h : asInt64 (.int i) = some v) : i = v ∧ isInt (.int i) = true := by
  simp only [asInt64] at h
  split at h
  · rename_i hr
    simp only [Option.some.injEq] at h
    refine ⟨h, ?_⟩
    simp only [isInt, decide_eq_true_eq]
    omega
  · exact nomatch h

theorem asInt64_none (i : Int) (h : asInt64 (.int i) = none) : isInt (.int i) = false := by
  simp only [asInt64] at h
  split at h
  · exact nomatch h
  · rename_i hr
    simp only [isInt, decide_eq_false_iff_not]
    omega

mutual
/-- The schema inferred from one document describes it. -/
theorem infer_describes (keep : Str → Bool) (hb : Blind keep) : ∀ (j : J) (p : Str) (s : S), DistinctKeys j →
    infer keep p j = .ok s → Describes keep p s [j]
  | .obj m, p, s, hd, h => by
    simp only [DistinctKeys] at hd
    simp only [infer] at h
    cases hm : inferMembers keep p m with
    | error e =>
      rw [hm] at h
      exact nomatch h
    | ok fs =>
      rw [hm] at h
      simp only [Except.ok.injEq] at h
      rw [← h]
      obtain ⟨h1, h2, h3, h4⟩ := members_describes keep hb m p fs m hd.2 hd.1 (find_nodup m hd.1) hm
      simp only [Describes]
      refine ⟨⟨by simp [isObj], by simp [isObj], by omega, by simp⟩, h1, fun k => ?_, h3, h4⟩
      rw [h2]
      constructor
      · rintro ⟨hk, x, hx, he⟩
        exact ⟨hk, _, by simp, m, x, rfl, find_nodup m hd.1 _ hx, he⟩
      · rintro ⟨hk, v, hv, m', x, rfl, hx, he⟩
        simp only [List.mem_singleton, J.obj.injEq] at hv
        exact ⟨hk, x, find_mem m k x (hv ▸ hx), he⟩
  | .arr l, p, s, hd, h => by
    simp only [DistinctKeys] at hd
    simp only [infer] at h
    cases l with
    | nil => exact nomatch h
    | cons v l =>
      rw [if_neg (by simp)] at h
      cases he : inferElements keep p 0 .uninit (v :: l) with
      | error e =>
        rw [he] at h
        exact nomatch h
      | ok e =>
        rw [he] at h
        have hel := elements_describes keep hb (v :: l) p 0 .uninit e [] hd (by simp only [Describes]) he
        simp only [List.nil_append] at hel
        have hvs : elementValues [.arr (v :: l)] = (v :: l).filter fun v => !isEmptyArray v := by
          simp [elementValues, elementsOf]
        have hne : e ≠ .uninit → (v :: l).filter (fun v => !isEmptyArray v) ≠ [] := by
          intro h0 hn
          rw [hn] at hel
          cases e with
          | uninit => exact h0 rfl
          | null n =>
            simp only [Describes] at hel
            exact hel.1 rfl
          | arr e i n =>
            simp only [Describes, Common] at hel
            simp at hel
            omega
          | obj fs i n =>
            simp only [Describes, Common] at hel
            simp at hel
            omega
          | str v i n =>
            simp only [Describes, Common] at hel
            simp at hel
            omega
          | int _ _ _ i n =>
            simp only [Describes, Common] at hel
            simp at hel
            omega
          | dbl i n =>
            simp only [Describes, Common] at hel
            simp at hel
          | bool f t n =>
            simp only [Describes, Common] at hel
            simp at hel
            omega
        have hs : e ≠ .uninit ∧ s = .arr e 1 0 := by
          cases e with
          | uninit => exact nomatch h
          | _ =>
            simp only [Except.ok.injEq] at h
            exact ⟨by simp, h.symm⟩
        rw [hs.2]
        simp only [Describes]
        rw [hvs]
        exact ⟨⟨by simp [isArr], by simp [isArr], by omega, by simp⟩, hne hs.1, hel⟩
  | .str t, p, s, _, h => by
    simp only [infer, Except.ok.injEq] at h
    rw [← h]
    simp only [Describes]
    exact ⟨⟨by simp [isStr], by simp [isStr], by omega, by simp⟩, histogram_one t⟩
  | .int i, p, s, _, h => by
    simp only [infer] at h
    cases hi : asInt64 (.int i) with
    | some v =>
      rw [hi] at h
      simp only [Except.ok.injEq] at h
      obtain ⟨e, hi'⟩ := asInt64_isInt i v hi
      subst e
      rw [← h]
      simp only [Describes]
      refine ⟨⟨by simp [hi'], by simp [hi'], by omega, by simp⟩, by simp [intsOf], ?_, ?_⟩
      · simp [intsOf]
      · simp [intsOf]
    | none =>
      rw [hi] at h
      simp only [Except.ok.injEq] at h
      rw [← h]
      simp only [Describes]
      exact ⟨⟨by simp [isNum], by simp [isNum], by omega, by simp⟩, _, List.mem_singleton.2 rfl, rfl, asInt64_none i hi⟩
  | .dbl d, p, s, _, h => by
    simp only [infer, Except.ok.injEq] at h
    rw [← h]
    simp only [Describes]
    exact ⟨⟨by simp [isNum], by simp [isNum], by omega, by simp⟩, _, List.mem_singleton.2 rfl, rfl, rfl⟩
  | .bool b, p, s, _, h => by
    simp only [infer] at h
    cases b with
    | true =>
      simp only [if_true, Except.ok.injEq] at h
      rw [← h]
      simp only [Describes]
      exact ⟨⟨by simp [isBool], by simp [isBool], by omega, by simp⟩, by simp [isTrue]⟩
    | false =>
      simp only [Bool.false_eq_true, if_false, Except.ok.injEq] at h
      rw [← h]
      simp only [Describes]
      exact ⟨⟨by simp [isBool], by simp [isBool], by omega, by simp⟩, by simp [isTrue]⟩
  | .null, p, s, _, h => by
    simp only [infer, Except.ok.injEq] at h
    rw [← h]
    simp only [Describes]
    exact ⟨by simp, by omega, by simp⟩
theorem members_describes (keep : Str → Bool) (hb : Blind keep) : ∀ (m : List (Str × J)) (p : Str) (fs : Fs) (m₀ : List (Str × J)),
    DistinctMembers m → (m.map (·.1)).Nodup → (∀ kv ∈ m, find kv.1 m₀ = some kv.2) → inferMembers keep p m = .ok fs →
    fs.names.Nodup ∧ (∀ k, k ∈ fs.names ↔ keep (member p k) = true ∧ ∃ v, (k, v) ∈ m ∧ isEmptyArray v = false) ∧
      (∀ k ∈ fs.names, Acceptable k) ∧ DescribesFields keep p fs [.obj m₀]
  | [], p, fs, m₀, _, _, _, h => by
    simp only [inferMembers, Except.ok.injEq] at h
    rw [← h]
    refine ⟨by simp [Fs.names], by simp [Fs.names], by simp [Fs.names], by simp only [DescribesFields]⟩
  | (k, v) :: m, p, fs, m₀, hd, hn, hf, h => by
    simp only [DistinctMembers] at hd
    simp only [List.map_cons, List.nodup_cons] at hn
    have ih := fun fs => members_describes keep hb m p fs m₀ hd.2 hn.2 (fun kv hkv => hf kv (List.mem_cons_of_mem _ hkv))
    simp only [inferMembers] at h
    by_cases he : isEmptyArray v = true
    · rw [if_pos he] at h
      obtain ⟨i1, i2, i3, i4⟩ := ih fs h
      refine ⟨i1, fun k' => ?_, i3, i4⟩
      rw [i2]
      constructor
      · rintro ⟨hk, x, hx, hx'⟩
        exact ⟨hk, x, List.mem_cons_of_mem _ hx, hx'⟩
      · rintro ⟨hk, x, hx, hx'⟩
        rcases List.mem_cons.1 hx with e | e
        · simp only [Prod.mk.injEq] at e
          rw [e.2, he] at hx'
          exact nomatch hx'
        · exact ⟨hk, x, e, hx'⟩
    · rw [if_neg he] at h
      have he' : isEmptyArray v = false := by simpa using he
      by_cases hk : keep (member p k) = true
      · rw [if_pos hk] at h
        by_cases hid : isValidIdentifier k = true
        · rw [if_pos hid] at h
          cases hi : infer keep (member p k) v with
          | error e =>
            rw [hi] at h
            exact nomatch h
          | ok s =>
            rw [hi] at h
            simp only at h
            cases hm : inferMembers keep p m with
            | error e =>
              rw [hm] at h
              exact nomatch h
            | ok gs =>
              rw [hm] at h
              simp only [Except.ok.injEq] at h
              rw [← h]
              obtain ⟨i1, i2, i3, i4⟩ := ih gs hm
              have hkg : k ∉ gs.names := by
                intro hg
                obtain ⟨_, x, hx, _⟩ := (i2 k).1 hg
                exact hn.1 (List.mem_map_of_mem (f := (·.1)) hx)
              refine ⟨?_, fun k' => ?_, fun k' hk' => ?_, ?_⟩
              · simp only [Fs.names, List.nodup_cons]
                exact ⟨hkg, i1⟩
              · simp only [Fs.names, List.mem_cons]
                rw [i2]
                constructor
                · rintro (e | ⟨hk', x, hx, hx'⟩)
                  · rw [e]
                    exact ⟨hk, v, .inl rfl, he'⟩
                  · exact ⟨hk', x, .inr hx, hx'⟩
                · rintro ⟨hk', x, hx, hx'⟩
                  rcases hx with e | e
                  · simp only [Prod.mk.injEq] at e
                    exact .inl e.1
                  · exact .inr ⟨hk', x, e, hx'⟩
              · simp only [Fs.names, List.mem_cons] at hk'
                rcases hk' with e | e
                · rw [e]
                  exact (valid_iff k).1 hid
                · exact i3 k' e
              · simp only [DescribesFields]
                refine ⟨?_, i4⟩
                have hfk : fieldValues k [.obj m₀] = [v] := by
                  simp only [fieldValues, List.filterMap_cons, fieldOf_some k m₀ v (hf (k, v) (by simp)) he', List.filterMap_nil]
                rw [hfk]
                exact infer_describes keep hb v _ s hd.1 hi
        · rw [if_neg hid] at h
          exact nomatch h
      · rw [if_neg hk] at h
        obtain ⟨i1, i2, i3, i4⟩ := ih fs h
        refine ⟨i1, fun k' => ?_, i3, i4⟩
        rw [i2]
        constructor
        · rintro ⟨hk, x, hx, hx'⟩
          exact ⟨hk, x, List.mem_cons_of_mem _ hx, hx'⟩
        · rintro ⟨hk', x, hx, hx'⟩
          rcases List.mem_cons.1 hx with e | e
          · simp only [Prod.mk.injEq] at e
            exact absurd (e.1 ▸ hk') hk
          · exact ⟨hk', x, e, hx'⟩
theorem elements_describes (keep : Str → Bool) (hb : Blind keep) : ∀ (l : List J) (p : Str) (i : Nat) (acc s : S) (vs : List J),
    DistinctElements l → Describes keep (element p 0) acc vs → inferElements keep p i acc l = .ok s →
    Describes keep (element p 0) s (vs ++ l.filter fun v => !isEmptyArray v)
  | [], p, i, acc, s, vs, _, ha, h => by
    simp only [inferElements, Except.ok.injEq] at h
    rw [← h]
    simpa using ha
  | v :: l, p, i, acc, s, vs, hd, ha, h => by
    simp only [DistinctElements] at hd
    simp only [inferElements] at h
    by_cases he : isEmptyArray v = true
    · rw [if_pos he] at h
      rw [List.filter_cons_of_neg (by simp [he])]
      exact elements_describes keep hb l p (i + 1) acc s vs hd.2 ha h
    · rw [if_neg he] at h
      rw [List.filter_cons_of_pos (by simp [he])]
      rw [infer_sim keep v _ _ (blind_sim hb p i)] at h
      cases hi : infer keep (element p 0) v with
      | error e =>
        rw [hi] at h
        exact nomatch h
      | ok t =>
        rw [hi] at h
        simp only at h
        cases hr : reduce acc t with
        | error e =>
          rw [hr] at h
          exact nomatch h
        | ok acc' =>
          rw [hr] at h
          simp only at h
          have h1 := infer_describes keep hb v _ t hd.1 hi
          have h2 := reduce_describes keep acc t acc' _ _ _ ha h1 hr
          have h3 := elements_describes keep hb l p (i + 1) acc' s _ hd.2 h2 h
          rwa [List.append_assoc, List.singleton_append] at h3
end

theorem inferMore_describes (keep : Str → Bool) (hb : Blind keep) : ∀ (js : List J) (s r : S) (vs : List J),
    (∀ j ∈ js, DistinctKeys j) → Describes keep [] s vs → inferMore keep s js = .ok r → Describes keep [] r (vs ++ js)
  | [], s, r, vs, _, hs, h => by
    simp only [inferMore, Except.ok.injEq] at h
    rw [← h, List.append_nil]
    exact hs
  | j :: js, s, r, vs, hd, hs, h => by
    simp only [inferMore] at h
    cases hi : infer keep [] j with
    | error e =>
      rw [hi] at h
      exact nomatch h
    | ok t =>
      rw [hi] at h
      simp only at h
      cases hr : reduce s t with
      | error e =>
        rw [hr] at h
        exact nomatch h
      | ok s' =>
        rw [hr] at h
        simp only at h
        have h1 := infer_describes keep hb j [] t (hd j (by simp)) hi
        have h2 := reduce_describes keep s t s' _ _ _ hs h1 hr
        have h3 := inferMore_describes keep hb js s' r _ (fun j hj => hd j (List.mem_cons_of_mem _ hj)) h2 h
        rwa [List.append_assoc, List.singleton_append] at h3

/-- **The schema of a file describes its documents**, as if they had been looked at all at once. -/
theorem file_describes (keep : Str → Bool) (hb : Blind keep) (js : List J) (s : S) (hd : ∀ j ∈ js, DistinctKeys j)
    (h : inferFile keep js = .ok (some s)) : Describes keep [] s js := by
  cases js with
  | nil => exact nomatch h
  | cons j js =>
    simp only [inferFile] at h
    cases hi : infer keep [] j with
    | error e =>
      rw [hi] at h
      exact nomatch h
    | ok t =>
      rw [hi] at h
      simp only at h
      cases hr : inferMore keep t js with
      | error e =>
        rw [hr] at h
        exact nomatch h
      | ok r =>
        rw [hr] at h
        simp only [Except.ok.injEq, Option.some.injEq] at h
        rw [← h]
        exact inferMore_describes keep hb js t r [j] (fun j hj => hd j (List.mem_cons_of_mem _ hj))
          (infer_describes keep hb j [] t (hd j (by simp)) hi) hr

end Current.Infer
