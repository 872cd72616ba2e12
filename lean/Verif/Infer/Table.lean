import Verif.Infer.Compile
/-! `DescribeSchema`: the table of fields, types and counts (`infer.h:536-633`). -/
namespace Current.Infer
open Current.Persist (Str dec)
open Current.Json (J find)

/-! ### Model -/

inductive TypeName where
  | string | integer | double | bool | array | object
deriving DecidableEq, Repr

/-- The rest of a line. Simplification: the mean and the standard deviation, which are floating point, are left out. -/
inductive Extra where
  | none
  | strings (distinct : Nat) (top : List (Str × Nat))
  | bools (f t : Nat)
  | fields (names : List Str)

/-- A line of the table: `Uninitialized`, which has `N/A` for a count; `Null`, whose only count is that of nulls; and the others,
with the columns `Set` and `Unset/Null`. -/
inductive Line where
  | uninit (path : Str)
  | null (path : Str) (occurrences : Nat)
  | values (path : Str) (type : TypeName) (set unset : Nat) (extra : Extra)

def Line.path : Line → Str
  | .uninit p => p
  | .null p _ => p
  | .values p _ _ _ _ => p

/-- The most common values, the most common first (`infer.h:561-567`): `counters` from the back; one is printed before their number
is looked at. -/
def topValues (n : Nat) (values : List (Str × Nat)) : List (Str × Nat) :=
  (values.mergeSort fun a b => !before a b).take (max n 1)

/-- `path_ = save_path.empty() ? field : (save_path + '.' + field)` (`infer.h:623`). -/
def fieldPath (path k : Str) : Str := if path.isEmpty then k else path ++ '.' :: k

/-- `path_ += "[]"` (`infer.h:597`). -/
def elementPath (path : Str) : Str := path ++ ['[', ']']

/-- The lines of the *last* field of that name. -/
def lastLines (k : Str) : List (Str × List Line) → Option (List Line)
  | [] => .none
  | (k', l) :: r =>
    match lastLines k r with
    | some x => some x
    | .none => if k' = k then some l else .none

/-- `for (const auto& field : field_names) … x.field_schema[x.field_index.at(field)].second.Call(*this)` (`infer.h:622-625`). -/
def joined (all : List (Str × List Line)) : List Line := all.flatMap fun kl => (lastLines kl.1 all).getD kl.2

mutual
/-- `HumanReadableSchemaExporter::operator()` (`infer.h:544-628`). -/
def lines (n : Nat) (path : Str) : S → List Line
  | .uninit => [.uninit path]
  | .null k => [.null path k]
  | .str v i m => [.values path .string i m (.strings v.length (topValues n v))]
  | .int _ _ _ i m => [.values path .integer i m .none]
  | .dbl i m => [.values path .double i m .none]
  | .bool f t m => [.values path .bool (f + t) m (.bools f t)]
  | .arr e i m => .values path .array i m .none :: lines n (elementPath path) e
  | .obj fs i m => .values path .object i m (.fields fs.names) :: joined (fieldLines n path fs)
def fieldLines (n : Nat) (path : Str) : Fs → List (Str × List Line)
  | .nil => []
  | .cons k s r => (k, lines n (fieldPath path k) s) :: fieldLines n path r
end

/-! ### Specification -/

/-- A place, as it is written in the table. -/
def pathText : Str → List Seg → Str
  | path, [] => path
  | path, .field k :: q => pathText (match path with | [] => k | c :: r => c :: (r ++ '.' :: k)) q
  | path, .element :: q => pathText (path ++ ['[', ']']) q

/-- The type a list of values has. -/
def HasType : TypeName → List J → Prop
  | .string, vs => ∀ v ∈ vs, v = .null ∨ isStr v = true
  | .integer, vs => ∀ v ∈ vs, v = .null ∨ isInt v = true
  | .double, vs => (∀ v ∈ vs, v = .null ∨ isNum v = true) ∧ ∃ v ∈ vs, isNum v = true ∧ isInt v = false
  | .bool, vs => ∀ v ∈ vs, v = .null ∨ isBool v = true
  | .array, vs => ∀ v ∈ vs, v = .null ∨ isArr v = true
  | .object, vs => ∀ v ∈ vs, v = .null ∨ isObj v = true

/-- The details of a line. -/
def ExtraOk (n : Nat) : Extra → List J → Prop
  | .none, _ => True
  | .strings d top, vs =>
    top.length = min (max n 1) d ∧ d ≤ 100 ∧ top.Pairwise (fun a b => b.2 ≤ a.2) ∧ (top.map (·.1)).Nodup ∧
      (∀ kv ∈ top, 0 < kv.2 ∧ kv.2 ≤ (stringsOf vs).count kv.1) ∧
      ((∃ l : List Str, l.length ≤ 100 ∧ ∀ s ∈ stringsOf vs, s ∈ l) →
        (∀ kv ∈ top, kv.2 = (stringsOf vs).count kv.1) ∧
        (∀ s ∈ stringsOf vs, s ∈ top.map (·.1) ∨ ∀ kv ∈ top, (stringsOf vs).count s ≤ kv.2))
  | .bools f t, vs => f = vs.countP (fun v => isBool v && !isTrue v) ∧ t = vs.countP isTrue
  | .fields names, vs =>
    names.Nodup ∧ ∀ k ∈ names, ∃ v ∈ vs, ∃ m x, v = .obj m ∧ find k m = some x ∧ isEmptyArray x = false

/-- A line says the right thing about the values at its place: how many there are which are not null, and whether there are
nulls, missing fields or empty arrays. -/
def LineOk (n : Nat) : Line → List J → Prop
  | .uninit _, vs => vs = []
  | .null _ _, vs => vs ≠ [] ∧ ∀ v ∈ vs, v = .null
  | .values _ type set unset extra, vs =>
    HasType type vs ∧ set = vs.countP (fun v => !v.isNull) ∧ 0 < set ∧ (0 < unset ↔ J.null ∈ vs) ∧ ExtraOk n extra vs

/-! ### Proofs -/

theorem pathText_field (path k : Str) (q : List Seg) : pathText path (.field k :: q) = pathText (fieldPath path k) q := by
  cases path <;> rfl

theorem pathText_element (path : Str) (q : List Seg) : pathText path (.element :: q) = pathText (elementPath path) q := rfl

theorem isNull_iff (v : J) : v.isNull = true ↔ v = .null := by
  cases v <;> simp [J.isNull]

theorem common_count {kind : J → Bool} {i n : Nat} {vs : List J} (h : Common kind i n vs) (hk : kind .null = false) :
    i = vs.countP (fun v => !v.isNull) := by
  rw [h.2.1]
  refine List.countP_congr fun v hv => ?_
  rcases h.1 v hv with e | e
  · rw [e, hk]
    simp [J.isNull]
  · rw [e]
    have : v.isNull = false := by
      cases hn : v.isNull with
      | false => rfl
      | true =>
        rw [(isNull_iff v).1 hn, hk] at e
        exact nomatch e
    rw [this]
    simp

theorem lastLines_none (k : Str) : ∀ l : List (Str × List Line), k ∉ l.map (·.1) → lastLines k l = none
  | [], _ => rfl
  | (k', s) :: r, h => by
    simp only [List.map_cons, List.mem_cons, not_or] at h
    simp only [lastLines]
    rw [lastLines_none k r h.2]
    simp only
    rw [if_neg (fun e => h.1 e.symm)]

theorem lastLines_mem : ∀ l : List (Str × List Line), (l.map (·.1)).Nodup → ∀ kl ∈ l, lastLines kl.1 l = some kl.2
  | [], _, _, h => by simp at h
  | (k', s) :: r, hn, kl, h => by
    simp only [List.map_cons, List.nodup_cons] at hn
    simp only [lastLines]
    rcases List.mem_cons.1 h with h | h
    · rw [h]
      rw [lastLines_none k' r hn.1]
      simp
    · rw [lastLines_mem r hn.2 kl h]

theorem fieldLines_names (n : Nat) (path : Str) : ∀ fs : Fs, (fieldLines n path fs).map (·.1) = fs.names
  | .nil => by simp only [fieldLines, Fs.names, List.map_nil]
  | .cons k s r => by simp only [fieldLines, Fs.names, List.map_cons, fieldLines_names n path r]

theorem mem_joined (l : List (Str × List Line)) (hn : (l.map (·.1)).Nodup) (x : Line) :
    x ∈ joined l ↔ ∃ kl ∈ l, x ∈ kl.2 := by
  simp only [joined, List.mem_flatMap]
  constructor
  · rintro ⟨kl, hkl, hx⟩
    rw [lastLines_mem l hn kl hkl, Option.getD_some] at hx
    exact ⟨kl, hkl, hx⟩
  · rintro ⟨kl, hkl, hx⟩
    refine ⟨kl, hkl, ?_⟩
    rw [lastLines_mem l hn kl hkl, Option.getD_some]
    exact hx

theorem before_trans (a b c : Str × Nat) (h : (!before a b) = true) (h' : (!before b c) = true) : (!before a c) = true := by
  simp only [before, Bool.not_eq_true', Bool.or_eq_false_iff, Bool.and_eq_false_iff, decide_eq_false_iff_not] at h h' ⊢
  refine ⟨by omega, ?_⟩
  rcases h.2 with h1 | h1
  · left; omega
  · rcases h'.2 with h2 | h2
    · left; omega
    · right
      exact List.not_lt.2 (List.le_trans (List.not_lt.1 h2) (List.not_lt.1 h1))

theorem before_total (a b : Str × Nat) : ((!before a b) || !before b a) = true := by
  cases h : before a b with
  | false => rfl
  | true =>
    simp only [before, Bool.or_eq_true, Bool.and_eq_true, decide_eq_true_eq] at h
    have : before b a = false := by
      simp only [before, Bool.or_eq_false_iff, Bool.and_eq_false_iff, decide_eq_false_iff_not]
      rcases h with h | h
      · exact ⟨by omega, .inl (by omega)⟩
      · exact ⟨by omega, .inr (List.lt_asymm h.2)⟩
    rw [this]
    rfl

theorem countIn_not_mem (s : Str) : ∀ h : List (Str × Nat), s ∉ h.map (·.1) → countIn s h = 0
  | [], _ => rfl
  | kv :: h, hn => by
    simp only [List.map_cons, List.mem_cons, not_or] at hn
    simp only [countIn]
    rw [if_neg (fun e => hn.1 e.symm), countIn_not_mem s h hn.2]

theorem countIn_nodup : ∀ (h : List (Str × Nat)), (h.map (·.1)).Nodup → ∀ kv ∈ h, countIn kv.1 h = kv.2
  | [], _, _, hm => by simp at hm
  | a :: h, hn, kv, hm => by
    simp only [List.map_cons, List.nodup_cons] at hn
    simp only [countIn]
    rcases List.mem_cons.1 hm with e | e
    · rw [e, if_pos rfl, countIn_not_mem _ _ hn.1]
      omega
    · rw [if_neg (fun e' => hn.1 (by rw [e']; exact List.mem_map_of_mem (f := (·.1)) e)), countIn_nodup h hn.2 kv e]
      omega

theorem topValues_spec (n : Nat) (h : List (Str × Nat)) (vs : List J) (H : Histogram h (stringsOf vs)) :
    ExtraOk n (.strings h.length (topValues n h)) vs := by
  obtain ⟨h1, h2, h3, h4, h5⟩ := H
  have hperm := List.mergeSort_perm h (fun a b => !before a b)
  have hsort := List.pairwise_mergeSort before_trans before_total h
  have hsub : ∀ kv ∈ topValues n h, kv ∈ h := fun kv hkv => hperm.mem_iff.1 (List.mem_of_mem_take hkv)
  have hdesc : (h.mergeSort fun a b => !before a b).Pairwise (fun a b => b.2 ≤ a.2) := by
    refine hsort.imp fun {a b} hab => ?_
    simp only [before, Bool.not_eq_true', Bool.or_eq_false_iff, decide_eq_false_iff_not] at hab
    omega
  simp only [ExtraOk]
  refine ⟨?_, h2, hdesc.sublist (List.take_sublist ..), ?_, fun kv hkv => ⟨h3 kv (hsub kv hkv), ?_⟩, fun hd => ⟨fun kv hkv => ?_, fun s hs => ?_⟩⟩
  · simp only [topValues, List.length_take, hperm.length_eq]
  · refine List.Nodup.sublist (List.Sublist.map _ (List.take_sublist ..)) ?_
    exact (hperm.map _).nodup_iff.2 h1
  · rw [← countIn_nodup h h1 kv (hsub kv hkv)]
    exact h4 kv.1
  · rw [← h5 hd kv.1, countIn_nodup h h1 kv (hsub kv hkv)]
  · have hc := h5 hd
    have hpos : 0 < countIn s h := by
      rw [hc s]
      exact List.count_pos_iff.2 hs
    obtain ⟨kv, hkv, e⟩ := List.mem_map.1 (countIn_pos s h hpos)
    have hkv' := hperm.mem_iff.2 hkv
    rw [← List.take_append_drop (max n 1) (h.mergeSort fun a b => !before a b)] at hkv' hdesc
    rcases List.mem_append.1 hkv' with hm | hm
    · exact .inl (List.mem_map.2 ⟨kv, hm, e⟩)
    · refine .inr fun x hx => ?_
      rw [← hc s, ← e, countIn_nodup h h1 kv hkv]
      exact (List.pairwise_append.1 hdesc).2.2 x hx kv hm

mutual
theorem lines_spec (keep : Str → Bool) (n : Nat) : ∀ (s : S) (p path : Str) (vs : List J), Describes keep p s vs →
    ∀ x ∈ lines n path s, ∃ q, kept keep p q ∧ x.path = pathText path q ∧ LineOk n x (valuesAt q vs)
  | .uninit, p, path, vs, h, x, hx => by
    simp only [lines, List.mem_singleton] at hx
    simp only [Describes] at h
    rw [hx]
    exact ⟨[], trivial, rfl, h⟩
  | .null k, p, path, vs, h, x, hx => by
    simp only [lines, List.mem_singleton] at hx
    simp only [Describes] at h
    rw [hx]
    exact ⟨[], trivial, rfl, h.1, h.2.2⟩
  | .str v i m, p, path, vs, h, x, hx => by
    simp only [lines, List.mem_singleton] at hx
    simp only [Describes] at h
    rw [hx]
    exact ⟨[], trivial, rfl, h.1.1, common_count h.1 rfl, h.1.2.2.1, h.1.2.2.2, topValues_spec n v vs h.2⟩
  | .int su u c i m, p, path, vs, h, x, hx => by
    simp only [lines, List.mem_singleton] at hx
    simp only [Describes] at h
    rw [hx]
    exact ⟨[], trivial, rfl, h.1.1, common_count h.1 rfl, h.1.2.2.1, h.1.2.2.2, trivial⟩
  | .dbl i m, p, path, vs, h, x, hx => by
    simp only [lines, List.mem_singleton] at hx
    simp only [Describes] at h
    rw [hx]
    exact ⟨[], trivial, rfl, ⟨h.1.1, h.2⟩, common_count h.1 rfl, h.1.2.2.1, h.1.2.2.2, trivial⟩
  | .bool f t m, p, path, vs, h, x, hx => by
    simp only [lines, List.mem_singleton] at hx
    simp only [Describes] at h
    rw [hx]
    refine ⟨[], trivial, rfl, h.1.1, common_count h.1 rfl, h.1.2.2.1, h.1.2.2.2, ?_, h.2⟩
    have hc := h.1.2.1
    have hs : ∀ l : List J, l.countP isBool = l.countP (fun v => isBool v && !isTrue v) + l.countP isTrue := by
      intro l
      induction l with
      | nil => rfl
      | cons v l ih =>
        simp only [List.countP_cons, ih]
        cases v with
        | bool b => cases b <;> simp [isBool, isTrue] <;> omega
        | _ => simp [isBool, isTrue]
    rw [hs vs, ← h.2] at hc
    simp only [valuesAt]
    omega
  | .arr e i m, p, path, vs, h, x, hx => by
    simp only [lines, List.mem_cons] at hx
    simp only [Describes] at h
    rcases hx with hx | hx
    · rw [hx]
      exact ⟨[], trivial, rfl, h.1.1, common_count h.1 rfl, h.1.2.2.1, h.1.2.2.2, trivial⟩
    · obtain ⟨q, h1, h2, h3⟩ := lines_spec keep n e _ _ _ h.2.2 x hx
      exact ⟨.element :: q, h1, h2, h3⟩
  | .obj fs i m, p, path, vs, h, x, hx => by
    simp only [lines, List.mem_cons] at hx
    simp only [Describes] at h
    rcases hx with hx | hx
    · rw [hx]
      exact ⟨[], trivial, rfl, h.1.1, common_count h.1 rfl, h.1.2.2.1, h.1.2.2.2, h.2.1, fun k hk => ((h.2.2.1 k).1 hk).2⟩
    · rw [mem_joined _ (by rw [fieldLines_names]; exact h.2.1)] at hx
      obtain ⟨kl, hkl, hx⟩ := hx
      exact fieldLines_spec keep n fs p path vs h.2.2.2.2 (fun k hk => ((h.2.2.1 k).1 hk).1) kl hkl x hx
theorem fieldLines_spec (keep : Str → Bool) (n : Nat) : ∀ (fs : Fs) (p path : Str) (vs : List J), DescribesFields keep p fs vs →
    (∀ k ∈ fs.names, keep (member p k) = true) → ∀ kl ∈ fieldLines n path fs, ∀ x ∈ kl.2,
    ∃ q, kept keep p q ∧ x.path = pathText path q ∧ LineOk n x (valuesAt q vs)
  | .nil, p, path, vs, _, _, kl, hkl, x, hx => by simp [fieldLines] at hkl
  | .cons k s r, p, path, vs, h, hk, kl, hkl, x, hx => by
    simp only [DescribesFields] at h
    simp only [fieldLines, List.mem_cons] at hkl
    rcases hkl with hkl | hkl
    · rw [hkl] at hx
      obtain ⟨q, h1, h2, h3⟩ := lines_spec keep n s _ _ _ h.1 x hx
      exact ⟨.field k :: q, ⟨hk k (by simp [Fs.names]), h1⟩, (h2.trans (pathText_field _ _ _).symm), h3⟩
    · exact fieldLines_spec keep n r p path vs h.2 (fun k' hk' => hk k' (by simp [Fs.names, hk'])) kl hkl x hx
end

theorem fieldLines_last (n : Nat) (path k : Str) : ∀ (fs : Fs) (t : S), fs.last k = some t →
    (k, lines n (fieldPath path k) t) ∈ fieldLines n path fs
  | .nil, _, h => nomatch h
  | .cons k' s r, t, h => by
    simp only [Fs.last] at h
    simp only [fieldLines, List.mem_cons]
    cases hr : r.last k with
    | some t' =>
      rw [hr] at h
      simp only [Option.some.injEq] at h
      exact .inr (fieldLines_last n path k r t (h ▸ hr))
    | none =>
      rw [hr] at h
      simp only at h
      split at h
      · rename_i e
        simp only [Option.some.injEq] at h
        rw [← h, e]
        exact .inl rfl
      · exact nomatch h

theorem lines_complete (keep : Str → Bool) (n : Nat) (q : List Seg) : ∀ (s : S) (p path : Str) (vs : List J) (t : S),
    Describes keep p s vs → schemaAt q s = some t → ∃ x ∈ lines n path s, x.path = pathText path q := by
  induction q with
  | nil =>
    intro s p path vs t _ _
    cases s <;> simp only [lines] <;> exact ⟨_, List.mem_cons_self .., rfl⟩
  | cons g q ih =>
    intro s p path vs t hd h
    cases g with
    | field k =>
      cases s with
      | obj fs i m =>
        simp only [Describes] at hd
        simp only [schemaAt] at h
        cases hl : fs.last k with
        | none =>
          rw [hl] at h
          exact nomatch h
        | some u =>
          rw [hl] at h
          obtain ⟨x, hx, hp⟩ := ih u _ (fieldPath path k) _ t (last_describes keep p vs k fs u hd.2.2.2.2 hl) h
          refine ⟨x, ?_, hp.trans (pathText_field _ _ _).symm⟩
          simp only [lines]
          refine List.mem_cons_of_mem _ ?_
          rw [mem_joined _ (by rw [fieldLines_names]; exact hd.2.1)]
          exact ⟨_, fieldLines_last n path k fs u hl, hx⟩
      | _ => exact nomatch h
    | element =>
      cases s with
      | arr e i m =>
        simp only [Describes] at hd
        obtain ⟨x, hx, hp⟩ := ih e _ (elementPath path) _ t hd.2.2 h
        exact ⟨x, by simp only [lines]; exact List.mem_cons_of_mem _ hx, hp⟩
      | _ => exact nomatch h

/-- **The table is right**: every line of `DescribeSchema` names a place, and its type, its `Set` count, and its having or not having
an `Unset/Null` count are those of all the values at that place; and every place where a value other than an empty array has
been seen has a line. -/
theorem table_right (keep : Str → Bool) (hb : Blind keep) (n : Nat) (js : List J) (s : S) (top : Str)
    (hd : ∀ j ∈ js, DistinctKeys j) (h : inferFile keep js = .ok (some s)) :
    (∀ x ∈ lines n top s, ∃ q, kept keep [] q ∧ x.path = pathText top q ∧ LineOk n x (valuesAt q js)) ∧
    (∀ q, kept keep [] q → (∃ v ∈ valuesAt q js, v ≠ .null) → ∃ x ∈ lines n top s, x.path = pathText top q) := by
  have hD := file_describes keep hb js s hd h
  refine ⟨lines_spec keep n s [] top js hD, fun q hq ⟨v, hv, hv0⟩ => ?_⟩
  cases hs : schemaAt q s with
  | none => exact absurd ((describes_at keep q [] s js hD hq).2 hs v hv) hv0
  | some t => exact lines_complete keep n q s [] top js t hD hs

end Current.Infer
