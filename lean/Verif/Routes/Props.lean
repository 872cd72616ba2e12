import Verif.Routes.Static
/-!
C59, C60, C61: findings and concrete cases.
-/
namespace Current.Routes
open Current.Persist Current.Url

variable {H : Type}

/-! ### Findings about static files -/

theorem items_append (emb : StaticFile → H) (o : StaticOptions) (l1 l2 : List Item) (s : Serving H) (hs : s.err = none) :
    s.items emb o (l1 ++ l2) = if (s.items emb o l1).err = none then (s.items emb o l1).items emb o l2 else s.items emb o l1 := by
  induction l1 generalizing s with
  | nil => simp [Serving.items, hs]
  | cons i l1 ih =>
    rw [List.cons_append, Serving.items, Serving.items]
    by_cases h : (s.item emb o i).err = none
    · rw [if_pos h, if_pos h, ih _ h]
    · rw [if_neg h, if_neg h, if_neg h]

/-- The options say "in the priority order (first found will be served)"; in fact two index files in one directory make
`ServeStaticFilesFrom` throw, whatever the order. -/
theorem two_index_files_throw (emb : StaticFile → H) (o : StaticOptions) (l1 l2 l3 : List Item) (i j : Item) {t : Table H} (g : Good t)
    (hi : ¬ Hidden o i) (hj : ¬ Hidden o j) (hii : i.basename ∈ o.indexFilenames) (hjj : j.basename ∈ o.indexFilenames)
    (hd : dirRoute o i = dirRoute o j) (s : Serving H) (h : serveStatic emb o (l1 ++ i :: l2 ++ j :: l3) t = some s) : s.err ≠ none := by
  intro hs
  unfold serveStatic at h
  cases hv : validateRoute o.routePrefix with
  | some e => rw [hv] at h; obtain rfl := Option.some.inj h; cases hs
  | none =>
    rw [hv] at h
    simp only at h
    split at h
    · rename_i he
      rw [items_append _ _ _ _ _ rfl] at he
      split at he
      · rename_i h1
        obtain ⟨done, hp, hdone⟩ := Partway.items o (l1 ++ i :: l2) (Partway.start emb g) rfl
        have hw : Wants o (l1 ++ i :: l2) (dirRoute o i) ⟨i.content, i.mime, true, slashUrl o i⟩ := ⟨i, by simp, hi, Or.inr ⟨hii, rfl, rfl⟩⟩
        have hserved := hp.served _ _ ((hdone h1 _ _).2 (Or.inr hw))
        generalize Serving.items emb o (l1 ++ i :: l2) ⟨t, [], none⟩ = s1 at *
        have hsome : (assocFind s1.table (dirRoute o j)).isSome := by
          rw [← hd]
          cases hx : assocFind s1.table (dirRoute o i) with
          | none => simp [Table.view, hx] at hserved
          | some _ => rfl
        have herr : (s1.item emb o j).err ≠ none := by
          unfold Serving.item
          split
          · rename_i hx; exact absurd (Or.inl hx) hj
          split
          · simp
          split
          · simp
          split
          · rename_i hx; exact absurd (Or.inr hx) hj
          split
          · simp
          · simp [hjj, Serving.addIndex, hsome]
        unfold Serving.items at he
        simp only [if_neg herr] at he
        exact herr he
      · rename_i h1; exact h1 he
    · rename_i he
      rw [Option.map_eq_some_iff] at h
      obtain ⟨_, _, rfl⟩ := h
      exact he hs

/-- Files in hidden directories are to be ignored, but the type of the file is looked at first: one file of an unknown type in
such a directory makes `ServeStaticFilesFrom` throw. -/
theorem hidden_unknown_type_throws (emb : StaticFile → H) (o : StaticOptions) (s : Serving H) (i : Item) (hb : i.basename.head? ≠ some '.')
    (hm : i.mime = []) : (s.item emb o i).err = some .unknownType := by
  unfold Serving.item
  rw [if_neg hb, if_pos hm]

/-- The assertions of `ServeStaticFilesFrom` hold whatever the directory contains: components and names are not empty and
contain no slash. -/
theorem static_no_assertion (emb : StaticFile → H) (o : StaticOptions) (hp : ValidPath o.routePrefix) (hpub : o.publicPrefix ≠ []) (i : Item)
    (hi : i.basename ≠ [] ∧ '/' ∉ i.basename ∧ ∀ c ∈ i.components, c ≠ [] ∧ '/' ∉ c) (s : Serving H) (hs : s.err = none) :
    (s.item emb o i).err ≠ some .assertion := by
  have hlast : ∀ x y : Str, y ≠ [] → '/' ∉ y → (x ++ y).getLast? ≠ some '/' := by
    intro x y hy hn h
    rw [List.getLast?_append, List.getLast?_eq_some_getLast hy] at h
    simp at h
    exact hn (h ▸ List.getLast_mem hy)
  have hjoin : ∀ l : List Str, (∀ c ∈ l, c ≠ [] ∧ '/' ∉ c) → l ≠ [] → ∃ x y, Strings.join l ['/'] = x ++ y ∧ y ≠ [] ∧ '/' ∉ y := by
    intro l hl hne
    rw [Strings.join_is_joined]
    induction l with
    | nil => exact absurd rfl hne
    | cons c l ih =>
      cases l with
      | nil => exact ⟨[], c, by simp [Strings.joined], hl c (by simp)⟩
      | cons d l =>
        obtain ⟨x, y, h1, h2, h3⟩ := ih (fun c hc => hl c (by simp [hc])) (by simp)
        refine ⟨c ++ ['/'] ++ x, y, ?_, h2, h3⟩
        rw [Strings.joined_cons] at h1 ⊢
        simp only [List.map_cons, List.flatten_cons]
        simp only [List.append_assoc, ← h1]
  have hdir : dirRoute o i = ['/'] ∨ ((dirRoute o i).head? = some '/' ∧ (dirRoute o i).getLast? ≠ some '/') := by
    unfold dirRoute
    by_cases hc : i.components = []
    · rw [hc]
      simp only [or_true, if_true, List.append_nil, Strings.join]
      rcases hp.2.1 with h | h
      · exact Or.inl h
      · exact Or.inr ⟨hp.1, h⟩
    · right
      obtain ⟨x, y, h1, h2, h3⟩ := hjoin _ hi.2.2 hc
      constructor
      · have := hp.1
        cases hq : o.routePrefix with
        | nil => rw [hq] at this; simp at this
        | cons c p => rw [hq] at this; simpa using this
      · rw [h1, ← List.append_assoc]
        exact hlast _ _ h2 h3
  have hfile : (fileRoute o i).head? = some '/' ∧ (fileRoute o i).getLast? ≠ some '/' := by
    unfold fileRoute
    refine ⟨?_, hlast _ _ hi.1 hi.2.1⟩
    rcases hdir with h | h
    · rw [h]; rfl
    · cases hq : dirRoute o i with
      | nil => rw [hq] at h; simp at h
      | cons c p => rw [hq] at h; simpa using h.1
  have hurl : (slashUrl o i).length > 0 ∧ (slashUrl o i).getLast? = some '/' := by
    have hl : (slashUrl o i).getLast? = some '/' := by
      unfold slashUrl
      by_cases hc : i.components = []
      · simp only [hc, if_true, List.append_nil]
        by_cases h : o.publicPrefix.getLast? = some '/'
        · simp [h]
        · simp [h]
      · simp only [hc, if_false, ← List.append_assoc]
        simp
    refine ⟨?_, hl⟩
    cases hq : slashUrl o i with
    | nil => rw [hq] at hl; simp at hl
    | cons c p => simp
  have hadd : ∀ (s : Serving H) (r : Str) (h : H), s.err ≠ some .assertion → (s.add r h).err ≠ some .assertion := by
    intro s r h hs
    unfold Serving.add
    split
    · exact hs
    · simp
  unfold Serving.item
  by_cases c1 : i.basename.head? = some '.'
  · rw [if_pos c1]; simp [hs]
  rw [if_neg c1]
  by_cases c2 : i.mime = []
  · rw [if_pos c2]; simp
  rw [if_neg c2, if_neg (not_not.2 hdir)]
  by_cases c3 : hasSlashDot (dirRoute o i) = true
  · rw [if_pos c3]; simp [hs]
  rw [if_neg c3, if_neg (not_not.2 hfile)]
  simp only
  have h1 : (if i.basename ∈ o.indexFilenames then s.addIndex emb o i else s).err ≠ some .assertion := by
    split
    · unfold Serving.addIndex
      split
      · simp
      · exact hadd _ _ _ (by simp [hs])
    · simp [hs]
  generalize (if i.basename ∈ o.indexFilenames then s.addIndex emb o i else s) = s1 at h1
  split
  · exact hadd _ _ _ h1
  · exact h1

/-! ### The routes of files and directories -/

/-- The path of something inside of a directory served under `root`: a slash before each name. -/
def below (root : Str) (names : List Str) : Str := (if root = ['/'] then [] else root) ++ (names.map (['/'] ++ ·)).flatten

theorem dirRoute_eq (o : StaticOptions) (i : Item) :
    dirRoute o i = if i.components = [] then o.routePrefix else below o.routePrefix i.components := by
  unfold dirRoute below
  rw [Strings.join_is_joined]
  cases hc : i.components with
  | nil => simp [Strings.joined]
  | cons c l =>
    rw [Strings.joined_cons]
    by_cases h : o.routePrefix = ['/'] <;> simp [h]

/-- C61: a file is served under the prefix, its directories and its name, with single slashes between them. -/
theorem fileRoute_eq (o : StaticOptions) (i : Item) (hp : o.routePrefix ≠ []) (hc : [] ∉ i.components) :
    fileRoute o i = below o.routePrefix (i.components ++ [i.basename]) := by
  unfold fileRoute
  rw [dirRoute_eq]
  cases hcc : i.components with
  | nil =>
    unfold below
    by_cases h : o.routePrefix = ['/'] <;> simp [h]
  | cons c l =>
    have hne : below o.routePrefix (c :: l) ≠ ['/'] := by
      intro h
      rw [hcc] at hc
      unfold below at h
      have hl := congrArg List.length h
      have hcl : c ≠ [] := fun h => hc (by simp [h])
      have := List.length_pos_of_ne_nil hcl
      simp at hl
      omega
    simp only [reduceCtorEq, if_false, hne]
    simp [below]

/-- C61: the redirect goes to the public prefix and the directories, with a slash at the end. -/
theorem slashUrl_eq (o : StaticOptions) (i : Item) :
    slashUrl o i = (if o.publicPrefix.getLast? = some '/' then o.publicPrefix else o.publicPrefix ++ ['/']) ++
      (i.components.map (· ++ ['/'])).flatten := by
  have hj : ∀ l : List Str, l ≠ [] → Strings.join l ['/'] ++ ['/'] = (l.map (· ++ ['/'])).flatten := by
    intro l
    rw [Strings.join_is_joined]
    induction l with
    | nil => intro h; exact absurd rfl h
    | cons c l ih =>
      intro _
      rw [Strings.joined_cons]
      cases l with
      | nil => simp
      | cons d l =>
        have := ih (by simp)
        rw [Strings.joined_cons] at this
        rw [List.map_cons, List.flatten_cons, List.map_cons, List.flatten_cons, ← this]
        simp
  unfold slashUrl
  by_cases hc : i.components = []
  · by_cases h : o.publicPrefix.getLast? = some '/' <;> simp [hc, h]
  · rw [if_neg hc, hj _ hc]
    by_cases h : o.publicPrefix.getLast? = some '/' <;> simp [h]

/-! ### Concrete cases -/

section examples

def pFoo : Str := ['/', 'f', 'o', 'o']
def pFooBar : Str := ['/', 'f', 'o', 'o', '/', 'b', 'a', 'r']

/-- `/foo` with one or two arguments, `/foo/bar` with none, `/` with any number. -/
def exampleOps : List (Op Nat) :=
  [.register pFoo 1 6 .throwOnAttempt, .register pFooBar 2 1 .throwOnAttempt, .register ['/'] 3 65535 .throwOnAttempt]

def exampleTable : Table Nat := ((World.run ⟨[], []⟩ exampleOps).map World.table).getD []

example : ((World.run ⟨[], []⟩ exampleOps).map fun w => (w.scopes.length, w.table.count)) = some (3, 3) := by decide +kernel

/-- The theorem about scopes applies to these calls, and to letting a merged scope go. -/
example : ∀ o ∈ exampleOps ++ [.merge 0 0, .release 1], o.Fits := by simp [exampleOps, Op.Fits]

example : ((World.run ⟨[], []⟩ (exampleOps ++ [.merge 0 0, .release 1])).map fun w => (w.scopes, w.table.count)) =
    some ([[(['/'], 65535)]], 1) := by decide +kernel

/-- An update of a route that is there leaves the scopes as they were and changes the handler; one that is not there throws. -/
example : (register exampleTable pFoo 9 2 .silentlyUpdate).toOption.map (fun r => (r.2, Table.view r.1 pFoo 1, Table.view r.1 pFoo 2)) =
    some ([], some 9, some 1) := by decide +kernel
example : (register exampleTable pFoo 9 3 .silentlyUpdate) matches .error .missing := by decide +kernel
example : (register exampleTable pFoo 9 3 .throwOnAttempt) matches .error .exists_ := by decide +kernel

/-- The longest base path wins, escapes are decoded, repeated and trailing slashes do not count. -/
example : findHandler exampleTable pFooBar = some (2, ⟨pFooBar, []⟩) := by decide +kernel
example : (findHandler exampleTable (pFoo ++ ['/', '/', 'a', '%', '2', '0', 'b', '/', 'c', '/'])).map (fun r => (r.1, r.2.base, r.2.iter)) =
    some (1, pFoo, [['a', ' ', 'b'], ['c']]) := by decide +kernel
example : (findHandler exampleTable (pFooBar ++ ['/', 'x', '/', 'y'])).map (fun r => (r.1, r.2.base, r.2.iter)) =
    some (3, ['/'], [['f', 'o', 'o'], ['b', 'a', 'r'], ['x'], ['y']]) := by decide +kernel

theorem example_splits : Splits (pFooBar ++ ['/', 'x']) pFooBar ['/', 'x'] := ⟨rfl, rfl, Or.inr ⟨by decide, Or.inr rfl⟩⟩

/-- More than 15 components are never arguments. -/
theorem at_most_15 {t : Table H} (hv : ∀ p n, (t.view p n).isSome → n ≤ 15) {path : Str} {h : H} {a : PathArgs}
    (hf : findHandler t path = some (h, a)) : a.size ≤ 15 := by
  have hp : path.head? = some '/' := by
    unfold findHandler at hf
    split at hf
    · cases hf
    split at hf
    · cases hf
    · rename_i h; simpa using h
  have := found_of_find (t := t) hp
  rw [hf] at this
  obtain ⟨rest, _, h2, h3, _⟩ := this
  have hl := congrArg List.length h2
  simp [PathArgs.iter] at hl
  rw [PathArgs.size, hl]
  exact hv a.base _ (by rw [h3]; rfl)

def exampleOptions : StaticOptions := .make ['/', 's'] [] [['i']]
def exampleItems : List Item :=
  [⟨['i'], [], ['t'], ['1']⟩, ⟨['a'], [['d']], ['t'], ['2']⟩, ⟨['i'], [['d']], ['t'], ['3']⟩, ⟨['b'], [['.', 'g']], ['t'], ['4']⟩]

example : ((serveStatic id exampleOptions exampleItems []).map fun s => (s.err, s.scope.map Prod.fst)) =
    some (none, [['/', 's'], ['/', 's', '/', 'i'], ['/', 's', '/', 'd', '/', 'a'], ['/', 's', '/', 'd'], ['/', 's', '/', 'd', '/', 'i']]) := by
  decide +kernel

/-- A file of an unknown type after the others: everything is undone. -/
example : ((serveStatic id exampleOptions (exampleItems ++ [⟨['x'], [], [], []⟩]) []).map fun s => (s.err, s.table.count)) =
    some (some .unknownType, 0) := by decide +kernel

example : ¬ Hidden exampleOptions ⟨['a'], [['d']], ['t'], ['2']⟩ ∧ Hidden exampleOptions ⟨['b'], [['.', 'g']], ['t'], ['4']⟩ := by
  unfold Hidden; decide +kernel

end examples

end Current.Routes
