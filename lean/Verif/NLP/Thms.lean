import Verif.NLP.Eval
set_option linter.unusedSimpArgs false
set_option linter.unusedVariables false

/-! # The NLP module: theorems about whole programs and queries. -/

namespace Current.NLP
open Current.Persist Current.Strings

/-! ### The static objects hold the right functions -/

theorem define_keeps (st : Store) (s s' : Shape) (f g : Fn) (h : st s' = some g) : st.define s f s' = some g := by
  unfold Store.define
  cases h' : st s with
  | some _ => exact h
  | none =>
    simp only
    split
    · rename_i he; subst he; rw [h] at h'; cases h'
    · exact h

theorem build_keeps (e : Expr) (st : Store) (s : Shape) (g : Fn) (h : st s = some g) : e.build st s = some g := by
  induction e generalizing st with
  | none | keyword | dict => exact h
  | void e ih => exact ih st h
  | or a b iha ihb | and a b iha ihb | seq a b iha ihb | rseq a b iha ihb => exact ihb _ (iha _ h)
  | map out f e ih => exact define_keeps _ _ _ _ _ (ih _ h)
  | filter p e ih => exact define_keeps _ _ _ _ _ (ih _ h)

theorem define_defines (st : Store) (s : Shape) (f : Fn) : st.define s f s = some ((st s).getD f) := by
  unfold Store.define
  cases h : st s with
  | some g => simp [h]
  | none => simp

theorem define_other (st : Store) (s s' : Shape) (f : Fn) (h : s' ≠ s) : st.define s f s' = st s' := by
  unfold Store.define
  cases h' : st s with
  | some g => rfl
  | none => simp [h]

/-- Every function in the store comes from an expression evaluated so far, and every `Map` and `Filter` evaluated so far has its object. -/
def Covers (st : Store) (l : List (Shape × Fn)) : Prop :=
  (∀ s f, st s = some f → (s, f) ∈ l) ∧ ∀ p ∈ l, (st p.1).isSome

theorem Covers.define {st : Store} {l : List (Shape × Fn)} (h : Covers st l) (s : Shape) (f : Fn) : Covers (st.define s f) (l ++ [(s, f)]) := by
  constructor
  · intro s' g hg
    by_cases he : s' = s
    · subst he
      rw [define_defines] at hg
      cases hs : st s' with
      | some f' => rw [hs] at hg; exact List.mem_append_left _ (h.1 _ _ (by rw [hs]; exact hg))
      | none => rw [hs] at hg; simp at hg; subst hg; simp
    · rw [define_other _ _ _ _ he] at hg
      exact List.mem_append_left _ (h.1 _ _ hg)
  · intro p hp
    rcases List.mem_append.1 hp with hp | hp
    · have := h.2 p hp
      rw [Option.isSome_iff_exists] at this
      obtain ⟨g, hg⟩ := this
      rw [define_keeps _ _ _ _ _ hg]; rfl
    · have : p = (s, f) := by simpa using hp
      subst this
      rw [define_defines]; rfl

theorem Covers.build {st : Store} {l : List (Shape × Fn)} (e : Expr) (h : Covers st l) : Covers (e.build st) (l ++ e.fns) := by
  induction e generalizing st l with
  | none | keyword | dict => simpa [Expr.build, Expr.fns] using h
  | void e ih => exact ih h
  | or a b iha ihb | and a b iha ihb | seq a b iha ihb | rseq a b iha ihb =>
    simp only [Expr.build, Expr.fns, ← List.append_assoc]
    exact ihb (iha h)
  | map out f e ih =>
    simp only [Expr.build, Expr.fns, ← List.append_assoc]
    exact (ih h).define _ _
  | filter p e ih =>
    simp only [Expr.build, Expr.fns, ← List.append_assoc]
    exact (ih h).define _ _

theorem covers_buildAll (es : List Expr) : Covers (buildAll es) (es.flatMap Expr.fns) := by
  have : ∀ (es : List Expr) (st : Store) (l : List (Shape × Fn)), Covers st l → Covers (es.foldl Expr.build st) (l ++ es.flatMap Expr.fns) := by
    intro es
    induction es with
    | nil => intro st l h; simpa using h
    | cons e es ih =>
      intro st l h
      simp only [List.foldl_cons, List.flatMap_cons, ← List.append_assoc]
      exact ih _ _ (h.build e)
  have h := this es (fun _ => none) [] ⟨by simp, by simp⟩
  simpa [buildAll] using h

/-- In a coherent program every `Map` and `Filter` runs its own function. -/
theorem coherent_holds {es : List Expr} (hc : Coherent es) {e : Expr} (he : e ∈ es) : Holds (buildAll es) e := by
  intro p hp
  have hcov := covers_buildAll es
  have := hcov.2 p (List.mem_flatMap.2 ⟨e, he, hp⟩)
  rw [Option.isSome_iff_exists] at this
  obtain ⟨g, hg⟩ := this
  obtain ⟨e', he', hp'⟩ := List.mem_flatMap.1 (hcov.1 _ _ hg)
  have := hc e' he' e he _ hp' p hp rfl
  rw [hg, ← this]

/-! ### Matching queries -/

theorem feed_collect (l acc : List Val) : feed (σ := List Val) (fun v acc => (acc ++ [v], none)) l acc = (acc ++ l, none) := by
  induction l generalizing acc with
  | nil => simp [feed, Act.ok]
  | cons v l ih => simp [feed, Act.andThen, ih]

theorem feed_first (l : List Val) (s : Option Val) : feed (σ := Option Val) (fun v _ => (some v, some (.user 0))) l s =
    match l with
    | [] => (s, none)
    | v :: _ => (some v, some (.user 0)) := by
  cases l <;> simp [feed, Act.ok, Act.andThen]

/-- `MatchQueryIntoVector` returns exactly the results of the specification, in its order; nothing is thrown, and no term outside the query is read. -/
theorem matchIntoVector_is_results_partial {es : List Expr} (hc : Coherent es) {e : Expr} (he : e ∈ es) (hp : Proper e) (q : List Term) :
    matchIntoVector (buildAll es) q e.shape = (results q e 0 q.length, none) := by
  unfold matchIntoVector
  rw [eval_eq hp (coherent_holds hc he) ⟨Nat.zero_le _, Nat.le_refl _⟩]
  · rw [feed_collect]; rfl
  · intro v s sh h; simp at h

/-- `JustMatchQuery` returns the first of them, or nothing if there are none. -/
theorem justMatch_is_first_partial {es : List Expr} (hc : Coherent es) {e : Expr} (he : e ∈ es) (hp : Proper e) (q : List Term) :
    justMatch (buildAll es) q e.shape = ((results q e 0 q.length).head?, none) := by
  unfold justMatch
  rw [eval_eq hp (coherent_holds hc he) ⟨Nat.zero_le _, Nat.le_refl _⟩]
  · rw [feed_first]
    cases results q e 0 q.length <;> simp
  · intro v s sh h; simp at h

/-- What the vector contains, in words: the values with which the schema matches the whole query. -/
theorem vector_is_matches_partial {es : List Expr} (hc : Coherent es) {e : Expr} (he : e ∈ es) (hp : Proper e) (q : List Term) (v : Val) :
    v ∈ (matchIntoVector (buildAll es) q e.shape).1 ↔ Matches q e 0 q.length v := by
  rw [matchIntoVector_is_results_partial hc he hp]
  exact mem_results hp

/-- `JustMatchQuery` finds a match if there is one, and what it finds is the first element of the vector. -/
theorem justMatch_agrees_partial {es : List Expr} (hc : Coherent es) {e : Expr} (he : e ∈ es) (hp : Proper e) (q : List Term) :
    (justMatch (buildAll es) q e.shape).1 = (matchIntoVector (buildAll es) q e.shape).1.head? ∧
    ((justMatch (buildAll es) q e.shape).1 = none ↔ ¬ ∃ v, Matches q e 0 q.length v) := by
  rw [matchIntoVector_is_results_partial hc he hp, justMatch_is_first_partial hc he hp]
  refine ⟨rfl, ?_⟩
  simp only [← mem_results hp, List.head?_eq_none_iff]
  cases results q e 0 q.length with
  | nil => simp
  | cons v l => simp

/-- A `Unit` block yields at most one result. -/
theorem unit_block_once_partial {es : List Expr} (hc : Coherent es) {e : Expr} (he : e ∈ es) (hp : Proper e) (hu : e.ty = .unit) (q : List Term) :
    (matchIntoVector (buildAll es) q e.shape).1.length ≤ 1 := by
  rw [matchIntoVector_is_results_partial hc he hp]
  exact unit_once hp hu _ _

/-- A match of a part of the query depends on the terms of that part only. -/
theorem matches_local {q q' : List Term} (e : Expr) {i j : Nat} (h : ∀ k, i ≤ k → k < j → q[k]? = q'[k]?) (v : Val) :
    Matches q e i j v ↔ Matches q' e i j v := by
  induction e generalizing i j v with
  | none => rfl
  | keyword w =>
    simp only [Matches]
    constructor
    · rintro ⟨h1, h2, t, h3, h4⟩; exact ⟨h1, h2, t, by rw [← h i (Nat.le_refl _) (by omega)]; exact h3, h4⟩
    · rintro ⟨h1, h2, t, h3, h4⟩; exact ⟨h1, h2, t, by rw [h i (Nat.le_refl _) (by omega)]; exact h3, h4⟩
  | dict n t =>
    simp only [Matches]
    constructor
    · rintro ⟨h1, t, h3, h4⟩; exact ⟨h1, t, by rw [← h i (Nat.le_refl _) (by omega)]; exact h3, h4⟩
    · rintro ⟨h1, t, h3, h4⟩; exact ⟨h1, t, by rw [h i (Nat.le_refl _) (by omega)]; exact h3, h4⟩
  | void e ih => simp only [Matches, ih h]
  | or a b iha ihb => simp only [Matches, iha h, ihb h]
  | and a b iha ihb => simp only [Matches, iha h, ihb h]
  | seq a b iha ihb | rseq a b iha ihb =>
    simp only [Matches]
    constructor
    · rintro ⟨k, x, y, h1, h2, hx, hy, rfl⟩
      exact ⟨k, x, y, h1, h2, (iha (fun m hm hm' => h m hm (by omega)) x).1 hx, (ihb (fun m hm hm' => h m (by omega) hm') y).1 hy, rfl⟩
    · rintro ⟨k, x, y, h1, h2, hx, hy, rfl⟩
      exact ⟨k, x, y, h1, h2, (iha (fun m hm hm' => h m hm (by omega)) x).2 hx, (ihb (fun m hm hm' => h m (by omega) hm') y).2 hy, rfl⟩
  | map out f e ih => simp only [Matches, ih h]
  | filter p e ih => simp only [Matches, ih h]

/-- An evaluation which is stopped early sees a prefix of the results: for any callback of the user that throws only exceptions of its own, evaluation is the plain loop over the results. -/
theorem eval_any_callback {σ : Type} {es : List Expr} (hc : Coherent es) {e : Expr} (he : e ∈ es) (hp : Proper e) (q : List Term) {i j : Nat} (hj : i ≤ j ∧ j ≤ q.length)
    (emit : Val → Act σ) (hu : ∀ v s sh, (emit v s).2 ≠ some (.block sh)) :
    eval (buildAll es) q e.shape i j emit = feed emit (results q e i j) :=
  eval_eq hp (coherent_holds hc he) hj (fun v s sh h => absurd h (hu v s sh))

/-! ### Annotation -/

/-- A dictionary as one of the registered per-term annotators. -/
def setField (n : Nat) (v : Val) (t : Term) : Term := { t with field := fun m => if m = n then some v else t.field m }

/-- The annotators of a list of dictionaries, with field numbers. -/
def dictionaries (ds : List (Nat × List (Str × Val))) : Annotators :=
  ds.foldl (fun an d => an.dictionary d.1 d.2) ⟨none, []⟩

theorem dictionaries_perTerm (ds : List (Nat × List (Str × Val))) :
    dictionaries ds = ⟨none, ds.flatMap (fun d => d.2.map (fun e => (e.1, setField d.1 e.2)))⟩ := by
  have : ∀ (ds : List (Nat × List (Str × Val))) (l), ds.foldl (fun an d => Annotators.dictionary an d.1 d.2) ⟨none, l⟩
      = ⟨none, l ++ ds.flatMap (fun d => d.2.map (fun e => (e.1, setField d.1 e.2)))⟩ := by
    intro ds
    induction ds with
    | nil => intro l; simp
    | cons d ds ih =>
      intro l
      have e : Annotators.dictionary ⟨none, l⟩ d.1 d.2 = ⟨none, l ++ d.2.map (fun e => (e.1, setField d.1 e.2))⟩ := rfl
      rw [List.foldl_cons, e, ih]
      simp
  simpa [dictionaries] using this ds []

theorem fold_orig (l : List (Nat × Val)) (t : Term) :
    (l.foldl (fun t (p : Nat × Val) => setField p.1 p.2 t) t).orig = t.orig ∧ (l.foldl (fun t (p : Nat × Val) => setField p.1 p.2 t) t).norm = t.norm := by
  induction l generalizing t with
  | nil => exact ⟨rfl, rfl⟩
  | cons p l ih => exact ih (setField p.1 p.2 t)

theorem fold_field (l : List (Nat × Val)) (t : Term) (n : Nat) :
    (l.foldl (fun t (p : Nat × Val) => setField p.1 p.2 t) t).field n = match ((l.filter (fun p => p.1 = n)).map (·.2)).getLast? with
      | some v => some v
      | none => t.field n := by
  induction l generalizing t with
  | nil => rfl
  | cons p l ih =>
    rw [List.foldl_cons, ih]
    by_cases h : p.1 = n
    · rw [List.filter_cons_of_pos (by simpa using h), List.map_cons, List.getLast?_cons]
      cases hl : ((l.filter (fun p => p.1 = n)).map (·.2)).getLast? with
      | some v => simp
      | none => simp [setField, h]
    · rw [List.filter_cons_of_neg (by simpa using h)]
      have : (setField p.1 p.2 t).field n = t.field n := by simp [setField, Ne.symm h]
      rw [this]

/-- The fields set on a term, as (field, value) pairs in order. -/
def settings (ds : List (Nat × List (Str × Val))) (w : Str) : List (Nat × Val) :=
  ds.flatMap (fun d => (d.2.filter (fun e => e.1 = w)).map (fun e => (d.1, e.2)))

theorem dictionaries_term (ds : List (Nat × List (Str × Val))) (s : Str) :
    (dictionaries ds).term s = (settings ds (toLower s)).foldl (fun t (p : Nat × Val) => setField p.1 p.2 t) ⟨s, toLower s, fun _ => none⟩ := by
  rw [dictionaries_perTerm]
  simp only [Annotators.term, Annotators.static]
  have : ((ds.flatMap (fun d => d.2.map (fun e => (e.1, setField d.1 e.2)))).filter (fun e => e.1 = toLower s)).map (·.2)
      = (settings ds (toLower s)).map (fun p => setField p.1 p.2) := by
    unfold settings
    induction ds with
    | nil => rfl
    | cons d ds ih =>
      simp only [List.flatMap_cons, List.filter_append, List.map_append, ih]
      congr 1
      induction d.2 with
      | nil => rfl
      | cons e l ihl =>
        simp only [List.map_cons, List.filter_cons]
        by_cases h : e.1 = toLower s
        · simpa [h] using ihl
        · simpa [h] using ihl
  rw [this, List.foldl_map]

theorem mem_settings {ds : List (Nat × List (Str × Val))} {w : Str} {n : Nat} {v : Val} :
    (n, v) ∈ settings ds w ↔ ∃ d ∈ ds, d.1 = n ∧ (w, v) ∈ d.2 := by
  simp only [settings, List.mem_flatMap, List.mem_map, List.mem_filter, decide_eq_true_eq]
  constructor
  · rintro ⟨d, hd, ⟨k, v'⟩, ⟨he, rfl⟩, h⟩
    simp only [Prod.mk.injEq] at h
    obtain ⟨rfl, rfl⟩ := h
    exact ⟨d, hd, rfl, he⟩
  · rintro ⟨d, hd, rfl, he⟩
    exact ⟨d, hd, (w, v), ⟨he, rfl⟩, rfl⟩

/-- Annotation: the terms of a query are its maximal non-blank parts, in order; each is normalized to lower case, and its field of a dictionary is set exactly if the normalized term is a
key of that dictionary, to the value of that key. -/
theorem annotation (ds : List (Nat × List (Str × Val))) (hk : ∀ d ∈ ds, ∀ e ∈ d.2, ∀ e' ∈ d.2, e.1 = e'.1 → e = e')
    (hf : ∀ d ∈ ds, ∀ d' ∈ ds, d.1 = d'.1 → d = d') (s : Str) :
    ((dictionaries ds).query s).map (·.orig) = (fields isSpace s).filter (· ≠ []) ∧
    ∀ t ∈ (dictionaries ds).query s, t.norm = toLower t.orig ∧
      ∀ n v, t.field n = some v ↔ ∃ d ∈ ds, d.1 = n ∧ (t.norm, v) ∈ d.2 := by
  have horig : ∀ w, ((dictionaries ds).term w).orig = w ∧ ((dictionaries ds).term w).norm = toLower w := by
    intro w
    rw [dictionaries_term]
    exact fold_orig _ _
  have hsplit := (split_is_fields isSpace false s).1
  constructor
  · unfold Annotators.query
    rw [List.map_map]
    have : ((fun x : Term => x.orig) ∘ (dictionaries ds).term) = id := by funext w; exact (horig w).1
    rw [this, List.map_id, hsplit]
    rfl
  · intro t ht
    unfold Annotators.query at ht
    obtain ⟨w, _, rfl⟩ := List.mem_map.1 ht
    refine ⟨by rw [(horig w).2, (horig w).1], ?_⟩
    intro n v
    rw [(horig w).2, dictionaries_term, fold_field, ← mem_settings]
    cases hl : (((settings ds (toLower w)).filter (fun p => p.1 = n)).map (·.2)).getLast? with
    | none =>
      simp only [reduceCtorEq, false_iff]
      intro h
      rw [List.getLast?_eq_none_iff, List.map_eq_nil_iff] at hl
      have : (n, v) ∈ (settings ds (toLower w)).filter (fun p => p.1 = n) := List.mem_filter.2 ⟨h, by simp⟩
      rw [hl] at this
      cases this
    | some v' =>
      have hm := List.mem_of_getLast? hl
      obtain ⟨⟨n', v''⟩, hm2, rfl⟩ := List.mem_map.1 hm
      obtain ⟨hm', hn⟩ := List.mem_filter.1 hm2
      have hn : n' = n := by simpa using hn
      subst hn
      simp only [Option.some.injEq]
      constructor
      · rintro rfl; exact hm'
      · intro h
        obtain ⟨d, hd, hdn, he⟩ := mem_settings.1 hm'
        obtain ⟨d', hd', hdn', he'⟩ := mem_settings.1 h
        have := hf d hd d' hd' (hdn.trans hdn'.symm)
        subst this
        have := hk d hd _ he _ he' rfl
        simpa using this

theorem toLower_idem (s : Str) : toLower (toLower s) = toLower s := by
  have h1 := toLower_toUpper s
  have h2 := toLower_toUpper (toLower s)
  rw [h1.2, h1.1] at h2
  exact h2.1.symm

/-- A keyword which is not in lower case matches nothing, whatever the query. -/
theorem keyword_upper_never {ds : List (Nat × List (Str × Val))} (hk : ∀ d ∈ ds, ∀ e ∈ d.2, ∀ e' ∈ d.2, e.1 = e'.1 → e = e')
    (hf : ∀ d ∈ ds, ∀ d' ∈ ds, d.1 = d'.1 → d = d') {w : Str} (hw : toLower w ≠ w) (s : Str) (i j : Nat) (v : Val) :
    ¬ Matches ((dictionaries ds).query s) (.keyword w) i j v := by
  rintro ⟨_, _, t, ht, hn⟩
  have := ((annotation ds hk hf s).2 t (List.mem_of_getElem? ht)).1
  rw [hn] at this
  exact hw (by rw [this, toLower_idem])

/-! ### A concrete schema, and two programs outside of the hypotheses -/

section Example

/-- The digits of the calculator of `nlp/test.cc`, as field 0 of type `base 1`. -/
def digits : List (Nat × List (Str × Val)) := [(0, [("one".toList, .atom 1 "1".toList), ("two".toList, .atom 1 "2".toList)])]
def digit : Expr := .dict 0 (.base 1)
def kw (s : String) : Expr := .keyword s.toList
/-- `Map(digit >> plus >> digit, Number, ...)`. -/
def plusDigits : Expr := .map (.base 2) (fun v => match v with
  | .tup [.atom _ a, .atom _ b] => .atom 2 (a ++ '+' :: b)
  | v => v) (.seq (.seq digit (kw "plus")) digit)
/-- `As(digit, Number)`. -/
def asNumber : Expr := .map (.base 2) (fun v => match v with
  | .atom _ a => .atom 2 a
  | v => v) digit
/-- `Maybe((what | (how >> (much | many))) >> (is | are)) >> (As(digit, Number) | Map(digit >> plus >> digit, ...))`. -/
def formula : Expr :=
  .seq (.maybe (.seq (.or (kw "what") (.seq (kw "how") (.or (kw "much") (kw "many")))) (.or (kw "is") (kw "are")))) (.or asNumber plusDigits)

theorem formula_proper : Proper formula ∧ formula.ty = .base 2 := by
  simp only [formula, Expr.maybe, kw, asNumber, plusDigits, digit, Proper]
  decide

theorem formula_coherent : Coherent [formula] := by
  intro e₁ h₁ e₂ h₂ p₁ hp₁ p₂ hp₂ h
  simp only [List.mem_singleton] at h₁ h₂
  subst h₁; subst h₂
  simp only [formula, Expr.maybe, kw, asNumber, plusDigits, digit, Expr.fns, List.nil_append, List.append_nil, List.singleton_append, List.mem_cons, List.not_mem_nil, or_false] at hp₁ hp₂
  rcases hp₁ with rfl | rfl <;> rcases hp₂ with rfl | rfl
  · rfl
  · simp [Expr.shape] at h
  · simp [Expr.shape] at h
  · rfl

theorem formula_query :
    matchIntoVector (buildAll [formula]) ((dictionaries digits).query "How MUCH is  Two plus one".toList) formula.shape = ([.atom 2 "2+1".toList], none) ∧
    justMatch (buildAll [formula]) ((dictionaries digits).query "two".toList) formula.shape = (some (.atom 2 "2".toList), none) ∧
    justMatch (buildAll [formula]) ((dictionaries digits).query "how two".toList) formula.shape = (none, none) := ⟨rfl, rfl, rfl⟩

/-- Two filters over the same block: the second one of the program silently runs the function of the first one. -/
theorem second_filter_ignored :
    let one : Expr := .filter (fun v => match v with | .atom _ ['1'] => true | _ => false) digit
    let two : Expr := .filter (fun v => match v with | .atom _ ['2'] => true | _ => false) digit
    let q := (dictionaries digits).query "two".toList
    results q two 0 q.length = [.atom 1 "2".toList] ∧
    (matchIntoVector (buildAll [two]) q two.shape).1 = [.atom 1 "2".toList] ∧
    (matchIntoVector (buildAll [one, two]) q two.shape).1 = [] := ⟨rfl, rfl, rfl⟩

/-- A `Map` to `Unit` may answer more than once, and then a sequence with it reports the same result repeatedly. -/
theorem map_to_unit_repeats :
    let m : Expr := .map .unit (fun _ => .unit) (.or digit asNumber)
    let e : Expr := .seq m digit
    let q := (dictionaries digits).query "one two".toList
    m.ty = .unit ∧ results q e 0 q.length = [.atom 1 "2".toList] ∧
    (matchIntoVector (buildAll [e]) q e.shape).1 = [.atom 1 "2".toList, .atom 1 "2".toList] := ⟨rfl, rfl, rfl⟩

end Example

end Current.NLP
