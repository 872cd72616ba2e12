import Verif.Routes.Find
import Verif.Routes.Scopes
/-!
`ComposeURLPath`, and `ServeStaticFilesFrom` (C60, C61).
-/
namespace Current.Routes
open Current.Persist Current.Url

variable {H : Type}

/-! ### `ComposeURLPath` -/

theorem foldl_compose (l : List Str) (acc : Str) : l.foldl (fun r c => r ++ (['/'] ++ c)) acc = acc ++ (l.map (['/'] ++ ·)).flatten := by
  induction l generalizing acc with
  | nil => simp
  | cons x l ih => rw [List.foldl_cons, ih]; simp

/-- `ComposeURLPath()`: the base path (nothing for `/`) and a slash before each argument; `/` if that is nothing. -/
theorem compose_eq (a : PathArgs) (hne : [] ∉ a.iter) :
    a.compose = (let s := (if a.base = ['/'] then [] else a.base) ++ (a.iter.map (['/'] ++ ·)).flatten; if s = [] then ['/'] else s) := by
  have hx : ∀ l : List Str, (l.map (['/'] ++ ·)).flatten = [] ↔ l = [] := by intro l; cases l <;> simp
  have hone : (a.iter.map (['/'] ++ ·)).flatten ≠ ['/'] := by
    intro h
    generalize a.iter = l at *
    cases l with
    | nil => simp at h
    | cons x l =>
      cases x with
      | nil => simp at hne
      | cons c x => simp at h
  unfold PathArgs.compose PathArgs.composeArgs
  simp only [foldl_compose, List.nil_append]
  by_cases hb : a.base = ['/']
  · simp [hb]
  · by_cases hb0 : a.base = []
    · simp [hb0]
    · by_cases hl : a.iter = []
      · simp [hb, hb0, hl]
      · have hl' := fun h => hl ((hx a.iter).1 h)
        rw [if_neg (by simp [hb, hb0]), if_neg (by rw [if_neg hl']; exact hone), if_neg hl', if_neg hb]
        rw [if_neg]
        intro h
        exact hl' (List.append_eq_nil_iff.1 h).2

theorem pieces_ne_nil (s : Str) : [] ∉ pieces s := by
  fun_induction pieces s with
  | case1 => simp
  | case2 => assumption
  | case3 c s h ih =>
    rw [List.mem_cons]
    rintro (h | h)
    · cases h
    · exact ih h

theorem decodeURI_ne_nil {s : Str} (h : s ≠ []) : decodeURI s ≠ [] := by
  fun_cases decodeURI s
  case case1 => exact absurd rfl h
  all_goals exact List.cons_ne_nil _ _

/-- A text without empty components. -/
def Tidy (s : Str) : Prop := (∀ a b, s ≠ a ++ '/' :: '/' :: b) ∧ s.getLast? ≠ some '/'

theorem pieces_tidy (s : Str) (ht : Tidy s) (hs : s = [] ∨ s.head? = some '/') : ((pieces s).map (['/'] ++ ·)).flatten = s := by
  rcases hs with rfl | hs
  · simp [pieces]
  · cases s with
    | nil => simp at hs
    | cons x s =>
      simp at hs
      subst hs
      rw [pieces_slash]
      cases s with
      | nil => exact absurd rfl ht.2
      | cons c r =>
        have hc : c ≠ '/' := by rintro rfl; exact ht.1 [] r rfl
        rw [pieces, if_neg hc]
        have hd := List.takeWhile_append_dropWhile (p := fun c : Char => decide (c ≠ '/')) (l := r)
        generalize htw : r.takeWhile (· ≠ '/') = w at *
        generalize hdw : r.dropWhile (· ≠ '/') = d at *
        have hhead : d = [] ∨ d.head? = some '/' := by
          cases d with
          | nil => exact Or.inl rfl
          | cons y d =>
            right
            have := List.head?_dropWhile_not (p := fun c : Char => decide (c ≠ '/')) (l := r)
            rw [hdw] at this
            simpa using this
        have htd : Tidy d := by
          constructor
          · intro a b he
            exact ht.1 ('/' :: c :: w ++ a) b (by rw [← hd, he]; simp)
          · intro hl
            apply ht.2
            rw [← hd, show '/' :: c :: (w ++ d) = ('/' :: c :: w) ++ d from rfl, List.getLast?_append, hl]
            rfl
        have hlen : d.length < r.length + 2 := by rw [← hd]; simp; omega
        rw [List.map_cons, List.flatten_cons, pieces_tidy d htd hhead]
        simp only [List.cons_append, List.nil_append]
        rw [hd]
termination_by s.length
decreasing_by simp_all

/-- C60: for a path without repeated or trailing slashes whose arguments contain no escapes, `ComposeURLPath()` is the path of
the request. -/
theorem compose_found {t : Table H} {path : Str} {h : H} {a : PathArgs} (hf : findHandler t path = some (h, a))
    (ht : path = ['/'] ∨ Tidy path) (hd : ∀ s ∈ pieces path, decodeURI s = s) : a.compose = path := by
  have hp : path.head? = some '/' := by
    unfold findHandler at hf
    split at hf
    · cases hf
    split at hf
    · cases hf
    · rename_i h; simpa using h
  have := found_of_find (t := t) hp
  rw [hf] at this
  obtain ⟨rest, hs, hargs, _⟩ := this
  rw [compose_eq a (by
    rw [hargs]
    intro hm
    obtain ⟨x, hx, he⟩ := List.mem_map.1 hm
    exact decodeURI_ne_nil (fun h => pieces_ne_nil rest (h ▸ hx)) he)]
  rcases ht with ht | ht
  · -- the root
    have hb : a.base = ['/'] ∧ rest = [] := by
      have hw := hs.whole
      have hsl := hs.slash
      rw [ht] at hw
      cases hb : a.base with
      | nil => rw [hb] at hsl; simp at hsl
      | cons c b =>
        rw [hb] at hw hsl
        simp at hsl
        subst hsl
        simp at hw
        simp [hw]
    rw [hargs, hb.1, hb.2, ht]
    simp [pieces]
  · have hsub : (pieces rest).map decodeURI = pieces rest := by
      have hall : ∀ s ∈ pieces rest, s ∈ pieces path := by
        intro s hm
        rw [hs.whole]
        rcases hs.boundary with hb | ⟨_, hb⟩
        · rw [hb]; simpa [pieces_slash] using hm
        · exact mem_pieces_append _ _ hb s hm
      conv_rhs => rw [← List.map_id (pieces rest)]
      exact List.map_congr_left fun s hm => hd s (hall s hm)
    rw [hargs, hsub]
    rcases hs.boundary with hb | ⟨hb, hr⟩
    · have hw := hs.whole
      rw [hb] at hw
      rw [if_pos hb, List.nil_append]
      have : path = '/' :: rest := by rw [hw]; rfl
      have hflat : ((pieces rest).map (['/'] ++ ·)).flatten = path := by
        rw [← pieces_slash rest, ← this]
        exact pieces_tidy path ht (Or.inr hp)
      simp only [hflat]
      rw [if_neg (by rw [this]; simp)]
    · have htr : Tidy rest := by
        constructor
        · intro x y he
          exact ht.1 (a.base ++ x) y (by rw [hs.whole, he]; simp)
        · intro hl
          apply ht.2
          rw [hs.whole, List.getLast?_append, hl]
          rfl
      have hnr : a.base ≠ ['/'] := by intro h; rw [h] at hb; exact hb rfl
      simp only [if_neg hnr, pieces_tidy rest htr hr, ← hs.whole]
      rw [if_neg (by intro h; rw [h] at hp; simp at hp)]
where
  mem_pieces_append (x y : Str) (hy : y = [] ∨ y.head? = some '/') (s : Str) (hm : s ∈ pieces y) : s ∈ pieces (x ++ y) := by
    fun_induction pieces x with
    | case1 => simpa using hm
    | case2 x ih => rw [List.cons_append, pieces_slash]; exact ih
    | case3 c x h ih =>
      rw [List.cons_append, pieces, if_neg h]
      have h1 : (x ++ y).dropWhile (fun c => decide (c ≠ '/')) = x.dropWhile (fun c => decide (c ≠ '/')) ++ y := by
        rw [List.dropWhile_append]
        split
        · rename_i he
          have he' : x.dropWhile (fun c => decide (c ≠ '/')) = [] := by simpa using he
          rw [he', List.nil_append]
          rcases hy with rfl | hy
          · simp
          · cases y with
            | nil => simp at hy
            | cons c y => simp at hy; subst hy; simp
        · rfl
      rw [h1]
      exact List.mem_cons_of_mem _ ih

/-! ### `ServeStaticFilesFrom` -/

/-- `StaticFileServer`, `posix_server.h:110-124`. -/
structure StaticFile where
  content : Str
  contentType : Str
  servesDirectory : Bool
  redirectUrl : Str := []
deriving DecidableEq, Repr

/-- What a request is answered with. -/
inductive Reply where
  | content (body type : Str)
  | notFound
  | found (location : Str)
  | methodNotAllowed
deriving DecidableEq, Repr

/-- `StaticFileServer::operator()`, `posix_server.h:126-158`. -/
def StaticFile.reply (f : StaticFile) (get trailingSlash : Bool) : Reply :=
  if get then
    if f.servesDirectory = trailingSlash then .content f.content f.contentType
    else if !f.servesDirectory && trailingSlash then .notFound
    else .found f.redirectUrl
  else .methodNotAllowed

/-- A file `ScanDir` reports, with what `GetFileMimeType` says of its name (empty: unknown) and what reading it gives. -/
structure Item where
  basename : Str
  components : List Str
  mime : Str
  content : Str
deriving DecidableEq, Repr

/-- `ServeStaticFilesFromOptions`, `posix_server.h:89-106`. -/
structure StaticOptions where
  routePrefix : Str
  publicPrefix : Str
  indexFilenames : List Str

/-- The constructor, `posix_server.h:100-105`. -/
def StaticOptions.make (routePrefix publicPrefix : Str) (indexFilenames : List Str) : StaticOptions :=
  ⟨routePrefix, if publicPrefix = [] then routePrefix else publicPrefix, indexFilenames⟩

/-- `route_for_directory`, `posix_server.h:301-303`. -/
def dirRoute (o : StaticOptions) (i : Item) : Str :=
  o.routePrefix ++ (if o.routePrefix = ['/'] ∨ i.components = [] then [] else ['/']) ++ Strings.join i.components ['/']

/-- `route_for_file`, `posix_server.h:313-314`. -/
def fileRoute (o : StaticOptions) (i : Item) : Str :=
  dirRoute o i ++ (if dirRoute o i = ['/'] then [] else ['/']) ++ i.basename

/-- `trailing_slash_redirect_url`, `posix_server.h:334-336`. -/
def slashUrl (o : StaticOptions) (i : Item) : Str :=
  o.publicPrefix ++ (if o.publicPrefix.getLast? = some '/' then [] else ['/']) ++
    (if i.components = [] then [] else Strings.join i.components ['/'] ++ ['/'])

/-- `find("/.") != npos`. -/
def hasSlashDot : Str → Bool
  | '/' :: '.' :: _ => true
  | _ :: s => hasSlashDot s
  | [] => false

inductive StaticErr where
  | route (e : Err) | twoIndexFiles | unknownType | assertion
deriving DecidableEq, Repr

/-- The table, the scope accumulated so far and the exception, if any. -/
structure Serving (H : Type) where
  table : Table H
  scope : Scope
  err : Option StaticErr := none

/-- `scope += Register(route, *static_file_server)`. -/
def Serving.add (s : Serving H) (route : Str) (h : H) : Serving H :=
  match register s.table route h 1 .throwOnAttempt with
  | .ok (t, sc) => { s with table := t, scope := s.scope ++ sc }
  | .error e => { s with err := some (.route e) }

/-- The part that serves an index file under its directory too, `posix_server.h:327-345`. -/
def Serving.addIndex (emb : StaticFile → H) (o : StaticOptions) (s : Serving H) (i : Item) : Serving H :=
  if (assocFind s.table (dirRoute o i)).isSome then { s with err := some .twoIndexFiles }
  else if ¬ ((slashUrl o i).length > 0 ∧ (slashUrl o i).getLast? = some '/') then { s with err := some .assertion }
  else s.add (dirRoute o i) (emb ⟨i.content, i.mime, true, slashUrl o i⟩)

/-- The lambda given to `ScanDir`, `posix_server.h:288-352`. -/
def Serving.item (emb : StaticFile → H) (o : StaticOptions) (s : Serving H) (i : Item) : Serving H :=
  if i.basename.head? = some '.' then s
  else if i.mime = [] then { s with err := some .unknownType }
  else if ¬ (dirRoute o i = ['/'] ∨ ((dirRoute o i).head? = some '/' ∧ (dirRoute o i).getLast? ≠ some '/')) then
    { s with err := some .assertion }
  else if hasSlashDot (dirRoute o i) then s
  else if ¬ ((fileRoute o i).head? = some '/' ∧ (fileRoute o i).getLast? ≠ some '/') then { s with err := some .assertion }
  else
    let s' := if i.basename ∈ o.indexFilenames then s.addIndex emb o i else s
    if s'.err = none then s'.add (fileRoute o i) (emb ⟨i.content, i.mime, false, []⟩) else s'

/-- `ScanDir` over the files of a directory and its subdirectories; an exception ends it. -/
def Serving.items (emb : StaticFile → H) (o : StaticOptions) : List Item → Serving H → Serving H
  | [], s => s
  | i :: rest, s => let s' := s.item emb o i; if s'.err = none then s'.items emb o rest else s'

/-- `ServeStaticFilesFrom`, `posix_server.h:281-354`. On an exception the local `scope` is destroyed. `none`: the program
terminates. A failed assertion, which ends the program too, is reported as an error here. -/
def serveStatic (emb : StaticFile → H) (o : StaticOptions) (items : List Item) (t : Table H) : Option (Serving H) :=
  match validateRoute o.routePrefix with
  | some e => some ⟨t, [], some (.route e)⟩
  | none =>
    let s := Serving.items emb o items ⟨t, [], none⟩
    if s.err = none then some s
    else (release s.table s.scope).map fun t' => ⟨t', [], s.err⟩

/-! #### Specification -/

/-- A file in a hidden directory or with a hidden name. -/
def Hidden (o : StaticOptions) (i : Item) : Prop := i.basename.head? = some '.' ∨ hasSlashDot (dirRoute o i) = true

/-- The routes a set of files asks for, with their servers. -/
def Wants (o : StaticOptions) (items : List Item) (p : Str) (f : StaticFile) : Prop :=
  ∃ i ∈ items, ¬ Hidden o i ∧
    (p = fileRoute o i ∧ f = ⟨i.content, i.mime, false, []⟩ ∨
     i.basename ∈ o.indexFilenames ∧ p = dirRoute o i ∧ f = ⟨i.content, i.mime, true, slashUrl o i⟩)

/-- What is true between two files. -/
structure Partway (emb : StaticFile → H) (t0 : Table H) (done : Str → StaticFile → Prop) (s : Serving H) : Prop where
  good : Good s.table
  apart : s.scope.Pairwise Apart
  fresh : ∀ p n, InScope s.scope p n → t0.view p n = none ∧ (s.table.view p n).isSome
  same : ∀ p n, ¬ InScope s.scope p n → s.table.view p n = t0.view p n
  served : ∀ p f, done p f → s.table.view p 0 = some (emb f)
  only : ∀ p n, InScope s.scope p n → n = 0 ∧ ∃ f, done p f

theorem covers_one (path p : Str) (n : Nat) : Covers path 1 p n ↔ p = path ∧ n = 0 := by
  unfold Covers
  constructor
  · rintro ⟨h1, _, h2⟩
    refine ⟨h1, ?_⟩
    by_contra hc
    cases n with
    | zero => exact hc rfl
    | succ n => simp [Nat.testBit_succ] at h2
  · rintro ⟨rfl, rfl⟩
    exact ⟨rfl, by omega, rfl⟩

theorem Partway.add {emb : StaticFile → H} {t0 : Table H} {done : Str → StaticFile → Prop} {s : Serving H} (hp : Partway emb t0 done s)
    (route : Str) (f : StaticFile) (hs : s.err = none) :
    Partway emb t0 (if (s.add route (emb f)).err = none then fun p g => done p g ∨ p = route ∧ g = f else done) (s.add route (emb f)) := by
  unfold Serving.add
  cases hr : register s.table route (emb f) 1 .throwOnAttempt with
  | error e => simpa using ⟨hp.good, hp.apart, hp.fresh, hp.same, hp.served, hp.only⟩
  | ok r =>
    obtain ⟨t, sc⟩ := r
    have hsc := register_scope _ _ _ (by decide) _ _ _ hr
    simp only [reduceCtorEq, if_false] at hsc
    subst hsc
    simp only [hs, if_true]
    have hv := register_view _ _ _ _ _ _ _ hr
    have hok := (register_ok s.table route (emb f) (mask := 1) (by decide) .throwOnAttempt).1 ⟨_, hr⟩
    have hfree : s.table.view route 0 = none := by
      have := hok.2 0 ((covers_one _ _ _).2 ⟨rfl, rfl⟩)
      simpa using this
    have hin : ∀ p n, InScope (s.scope ++ [(route, 1)]) p n ↔ InScope s.scope p n ∨ (p = route ∧ n = 0) := by
      intro p n
      simp only [InScope, List.mem_append, List.mem_singleton]
      constructor
      · rintro ⟨e, he | rfl, hc⟩
        · exact Or.inl ⟨e, he, hc⟩
        · exact Or.inr ((covers_one _ _ _).1 hc)
      · rintro (⟨e, he, hc⟩ | hc)
        · exact ⟨e, Or.inl he, hc⟩
        · exact ⟨_, Or.inr rfl, (covers_one _ _ _).2 hc⟩
    have hnot : ¬ InScope s.scope route 0 := by
      intro h
      have := (hp.fresh _ _ h).2
      rw [hfree] at this
      cases this
    refine ⟨register_good hp.good _ _ (by decide) _ _ _ hr, ?_, ?_, ?_, ?_, ?_⟩
    · rw [List.pairwise_append]
      refine ⟨hp.apart, by simp, ?_⟩
      intro e he b hb
      simp only [List.mem_singleton] at hb
      subst hb
      intro p n h1 h2
      obtain ⟨rfl, rfl⟩ := (covers_one _ _ _).1 h2
      exact hnot ⟨e, he, h1⟩
    · intro p n h
      rw [hin] at h
      rcases h with h | ⟨rfl, rfl⟩
      · refine ⟨(hp.fresh p n h).1, ?_⟩
        simp only
        rw [hv]
        split
        · rfl
        · exact (hp.fresh p n h).2
      · refine ⟨(hp.same _ _ hnot).symm.trans hfree, ?_⟩
        simp only
        rw [hv, if_pos ((covers_one _ _ _).2 ⟨rfl, rfl⟩)]
        rfl
    · intro p n h
      rw [hin] at h
      simp only
      rw [hv, if_neg (fun hc => h (Or.inr ((covers_one _ _ _).1 hc)))]
      exact hp.same p n fun h' => h (Or.inl h')
    · rintro p g (h | ⟨rfl, rfl⟩)
      · simp only
        rw [hv, if_neg]
        · exact hp.served p g h
        · intro hc
          obtain ⟨rfl, _⟩ := (covers_one _ _ _).1 hc
          have := hp.served p g h
          rw [hfree] at this
          cases this
      · simp only
        rw [hv, if_pos ((covers_one _ _ _).2 ⟨rfl, rfl⟩)]
    · intro p n h
      rw [hin] at h
      rcases h with h | ⟨rfl, rfl⟩
      · obtain ⟨h1, g, h2⟩ := hp.only p n h
        exact ⟨h1, g, Or.inl h2⟩
      · exact ⟨rfl, f, Or.inr ⟨rfl, rfl⟩⟩

theorem Partway.congr {emb : StaticFile → H} {t0 : Table H} {done done' : Str → StaticFile → Prop} {s : Serving H} (hp : Partway emb t0 done s)
    (h : ∀ p f, done p f ↔ done' p f) : Partway emb t0 done' s :=
  ⟨hp.good, hp.apart, hp.fresh, hp.same, fun p f hd => hp.served p f ((h p f).2 hd), fun p n hi => by
    obtain ⟨h1, f, h2⟩ := hp.only p n hi
    exact ⟨h1, f, (h p f).1 h2⟩⟩

theorem Partway.fail {emb : StaticFile → H} {t0 : Table H} {done : Str → StaticFile → Prop} {s : Serving H} (hp : Partway emb t0 done s)
    (e : Option StaticErr) : Partway emb t0 done { s with err := e } := ⟨hp.good, hp.apart, hp.fresh, hp.same, hp.served, hp.only⟩

theorem Partway.item {emb : StaticFile → H} {t0 : Table H} {done : Str → StaticFile → Prop} {s : Serving H} (hp : Partway emb t0 done s)
    (o : StaticOptions) (i : Item) (hs : s.err = none) :
    ∃ done', Partway emb t0 done' (s.item emb o i) ∧
      ((s.item emb o i).err = none → ∀ p f, done' p f ↔ done p f ∨ Wants o [i] p f) := by
  have hw : ∀ p f, Wants o [i] p f ↔ ¬ Hidden o i ∧ (p = fileRoute o i ∧ f = ⟨i.content, i.mime, false, []⟩ ∨
     i.basename ∈ o.indexFilenames ∧ p = dirRoute o i ∧ f = ⟨i.content, i.mime, true, slashUrl o i⟩) := by
    intro p f; simp [Wants]
  unfold Serving.item
  split
  · rename_i h
    refine ⟨done, hp, fun _ p f => ?_⟩
    rw [hw]
    simp [Hidden, h]
  rename_i hd
  split
  · exact ⟨done, hp.fail _, fun h => by simp at h⟩
  split
  · exact ⟨done, hp.fail _, fun h => by simp at h⟩
  split
  · rename_i h
    refine ⟨done, hp, fun _ p f => ?_⟩
    rw [hw]
    simp [Hidden, h]
  rename_i hsd
  split
  · exact ⟨done, hp.fail _, fun h => by simp at h⟩
  have hvis : ¬ Hidden o i := by
    rintro (h | h)
    · exact hd h
    · exact hsd h
  simp only
  by_cases hidx : i.basename ∈ o.indexFilenames
  · rw [if_pos hidx]
    unfold Serving.addIndex
    split
    · simp only [reduceCtorEq, if_false]
      exact ⟨done, hp.fail _, fun h => by simp at h⟩
    split
    · simp only [reduceCtorEq, if_false]
      exact ⟨done, hp.fail _, fun h => by simp at h⟩
    have h1 := hp.add (dirRoute o i) ⟨i.content, i.mime, true, slashUrl o i⟩ hs
    generalize s.add (dirRoute o i) (emb ⟨i.content, i.mime, true, slashUrl o i⟩) = s1 at h1
    split
    · rename_i he
      rw [if_pos he] at h1
      have h2 := h1.add (fileRoute o i) ⟨i.content, i.mime, false, []⟩ he
      refine ⟨_, h2, fun hn p f => ?_⟩
      rw [if_pos hn, hw]
      constructor
      · rintro ((h | h) | h)
        · exact Or.inl h
        · exact Or.inr ⟨hvis, Or.inr ⟨hidx, h⟩⟩
        · exact Or.inr ⟨hvis, Or.inl h⟩
      · rintro (h | ⟨_, h | ⟨_, h⟩⟩)
        · exact Or.inl (Or.inl h)
        · exact Or.inr h
        · exact Or.inl (Or.inr h)
    · rename_i he
      exact ⟨_, h1, fun h => absurd h he⟩
  · rw [if_neg hidx, if_pos hs]
    have h2 := hp.add (fileRoute o i) ⟨i.content, i.mime, false, []⟩ hs
    refine ⟨_, h2, fun hn p f => ?_⟩
    rw [if_pos hn, hw]
    simp [hvis, hidx]

theorem Partway.items {emb : StaticFile → H} {t0 : Table H} (o : StaticOptions) (l : List Item) {done : Str → StaticFile → Prop} {s : Serving H}
    (hp : Partway emb t0 done s) (hs : s.err = none) :
    ∃ done', Partway emb t0 done' (s.items emb o l) ∧
      ((s.items emb o l).err = none → ∀ p f, done' p f ↔ done p f ∨ Wants o l p f) := by
  induction l generalizing done s with
  | nil => exact ⟨done, hp, fun _ p f => by simp [Wants]⟩
  | cons i l ih =>
    obtain ⟨d1, h1, h2⟩ := hp.item o i hs
    unfold Serving.items
    simp only
    split
    · rename_i he
      obtain ⟨d2, h3, h4⟩ := ih h1 he
      refine ⟨d2, h3, fun hn p f => ?_⟩
      rw [h4 hn, h2 he]
      simp only [Wants, List.mem_cons, List.not_mem_nil, or_false, exists_eq_left, or_and_right, exists_or, or_assoc]
    · rename_i he
      exact ⟨d1, h1, fun h => absurd h he⟩

theorem Partway.start (emb : StaticFile → H) {t0 : Table H} (g : Good t0) : Partway emb t0 (fun _ _ => False) ⟨t0, [], none⟩ :=
  ⟨g, by simp, by simp [InScope], by simp, by simp, by simp [InScope]⟩

theorem Partway.restore {emb : StaticFile → H} {t0 : Table H} {done : Str → StaticFile → Prop} {s : Serving H} (hp : Partway emb t0 done s) :
    ∃ t', release s.table s.scope = some t' ∧ ∀ p n, t'.view p n = t0.view p n := by
  obtain ⟨t', h1, _, h3, h4⟩ := release_spec hp.good s.scope hp.apart fun p n h => (hp.fresh p n h).2
  refine ⟨t', h1, fun p n => ?_⟩
  by_cases h : InScope s.scope p n
  · rw [h3 p n h, (hp.fresh p n h).1]
  · rw [h4 p n h, hp.same p n h]

/-- C61: if `ServeStaticFilesFrom` throws, whatever the files and whichever of them it was at, the server serves what it served
before. -/
theorem static_all_or_nothing (emb : StaticFile → H) (o : StaticOptions) (items : List Item) {t : Table H} (g : Good t) :
    ∃ s, serveStatic emb o items t = some s ∧ (s.err ≠ none → ∀ p n, s.table.view p n = t.view p n) := by
  unfold serveStatic
  cases validateRoute o.routePrefix with
  | some e => exact ⟨_, rfl, fun _ _ _ => rfl⟩
  | none =>
    obtain ⟨done, hp, _⟩ := Partway.items o items (Partway.start emb g) rfl
    generalize Serving.items emb o items ⟨t, [], none⟩ = s at hp
    simp only
    split
    · rename_i he
      exact ⟨s, rfl, fun h => absurd he h⟩
    · obtain ⟨t', h1, h2⟩ := hp.restore
      exact ⟨⟨t', [], s.err⟩, by rw [h1]; rfl, fun _ => h2⟩

/-- C61: on success every file that is not hidden is served under its route, every index file under its directory too, no other
route changes, and the end of the returned scope brings back the table there was. -/
theorem static_serves (emb : StaticFile → H) (o : StaticOptions) (items : List Item) {t : Table H} (g : Good t) (s : Serving H)
    (h : serveStatic emb o items t = some s) (hs : s.err = none) :
    (∀ p f, Wants o items p f → s.table.view p 0 = some (emb f)) ∧
    (∀ p n, (n ≠ 0 ∨ ∀ f, ¬ Wants o items p f) → s.table.view p n = t.view p n) ∧
    ∃ t', release s.table s.scope = some t' ∧ ∀ p n, t'.view p n = t.view p n := by
  unfold serveStatic at h
  cases hv : validateRoute o.routePrefix with
  | some e =>
    rw [hv] at h
    obtain rfl := Option.some.inj h
    cases hs
  | none =>
    rw [hv] at h
    obtain ⟨done, hp, hd⟩ := Partway.items o items (Partway.start emb g) rfl
    generalize Serving.items emb o items ⟨t, [], none⟩ = s1 at hp hd h
    simp only at h
    split at h
    · rename_i he
      obtain rfl := Option.some.inj h
      have hd' : ∀ p f, done p f ↔ Wants o items p f := fun p f => by rw [hd he]; simp
      refine ⟨fun p f hw => hp.served p f ((hd' p f).2 hw), ?_, hp.restore⟩
      intro p n hn
      apply hp.same
      intro hi
      obtain ⟨h0, f, hf⟩ := hp.only p n hi
      rcases hn with hn | hn
      · exact hn h0
      · exact hn f ((hd' p f).1 hf)
    · rename_i he
      rw [Option.map_eq_some_iff] at h
      obtain ⟨_, _, rfl⟩ := h
      exact absurd hs he

/-- A file's own path, or a directory's path with or without a slash at the end, reaches the handler registered for it. -/
theorem find_exact {t : Table H} {path : Str} (hv : ValidPath path) {h : H} (hr : t.view path 0 = some h) (n : Nat) :
    findHandler t (path ++ List.replicate n '/') = some (h, ⟨path, []⟩) := by
  have hhead : (path ++ List.replicate n '/').head? = some '/' := by
    have := hv.1
    cases path with
    | nil => simp at this
    | cons c p => simpa using this
  have hpc : pieces (List.replicate n '/') = [] := by
    have := pieces_slashes n []
    rw [List.append_nil] at this
    rw [this, pieces]
  obtain ⟨a, h1, h2, h3⟩ := (find_some (t := t) hhead h path []).2 ⟨List.replicate n '/', ⟨rfl, hv.1, by
      rcases hv.2.1 with h | h
      · exact Or.inl h
      · right
        refine ⟨h, ?_⟩
        cases n with
        | zero => left; rfl
        | succ n => right; simp [List.replicate_succ]⟩, by rw [hpc]; rfl, hr, by
      intro base' rest' hs hlt
      exfalso
      have hlen := congrArg List.length hs.whole
      simp at hlen
      exact no_base_in_slashes (tail := []) (n := n) hs (by simp) hv.1 hlt (by omega)⟩
  rw [h1]
  have : a.args = [] := by simpa [PathArgs.iter] using h3
  cases a
  simp_all

/-- Every route that is served was valid to register. -/
theorem wants_valid (emb : StaticFile → H) (o : StaticOptions) (items : List Item) (s s' : Serving H) (hs : s.err = none)
    (he : s' = s.items emb o items) (hn : s'.err = none) (p : Str) (f : StaticFile) (hw : Wants o items p f) :
    ValidPath p ∧ (f.servesDirectory = false → p.getLast? ≠ some '/') := by
  have hadd : ∀ (s : Serving H) (r : Str) (h : H), s.err = none → (s.add r h).err = none → ValidPath r := by
    intro s r h hs hn
    unfold Serving.add at hn
    cases hr : register s.table r h 1 .throwOnAttempt with
    | error e => rw [hr] at hn; simp at hn
    | ok x => exact ((register_ok s.table r h (mask := 1) (by decide) .throwOnAttempt).1 ⟨_, hr⟩).1
  have haddIdx : ∀ (s : Serving H) (i : Item), s.err = none → (s.addIndex emb o i).err = none → ValidPath (dirRoute o i) := by
    intro s i hs hn
    unfold Serving.addIndex at hn
    split at hn
    · simp at hn
    split at hn
    · simp at hn
    exact hadd _ _ _ hs hn
  have hitem : ∀ (s : Serving H) (i : Item), s.err = none → (s.item emb o i).err = none → ¬ Hidden o i →
      (ValidPath (fileRoute o i) ∧ (fileRoute o i).getLast? ≠ some '/') ∧ (i.basename ∈ o.indexFilenames → ValidPath (dirRoute o i)) := by
    intro s i hs hn hh
    unfold Serving.item at hn
    split at hn
    · rename_i h; exact absurd (Or.inl h) hh
    split at hn
    · simp at hn
    split at hn
    · simp at hn
    split at hn
    · rename_i h; exact absurd (Or.inr h) hh
    split at hn
    · simp at hn
    rename_i hfr
    have hfr' : (fileRoute o i).getLast? ≠ some '/' := by
      intro hc
      exact hfr fun h => h.2 hc
    simp only at hn
    generalize hs' : (if i.basename ∈ o.indexFilenames then s.addIndex emb o i else s) = s1 at hn
    by_cases h1 : s1.err = none
    · rw [if_pos h1] at hn
      refine ⟨⟨hadd _ _ _ h1 hn, hfr'⟩, fun hi => ?_⟩
      rw [if_pos hi] at hs'
      exact haddIdx s i hs (by rw [hs']; exact h1)
    · rw [if_neg h1] at hn
      exact absurd hn h1
  subst he
  induction items generalizing s with
  | nil => simp [Wants] at hw
  | cons i l ih =>
    unfold Serving.items at hn
    simp only at hn
    split at hn
    · rename_i h1
      obtain ⟨j, hj, hv, hp⟩ := hw
      rcases List.mem_cons.1 hj with rfl | hj
      · have := hitem s j hs h1 hv
        rcases hp with ⟨rfl, _⟩ | ⟨h, rfl, rfl⟩
        · exact ⟨this.1.1, fun _ => this.1.2⟩
        · exact ⟨this.2 h, fun h => by cases h⟩
      · exact ih (s.item emb o i) h1 ⟨j, hj, hv, hp⟩ hn
    · rename_i h1
      exact absurd hn h1

/-- C61, from the outside: after `ServeStaticFilesFrom` succeeded, a GET for a file is answered with its content, for a file with a
slash behind it with "not found", for a directory with an index file by its content if there is a slash and with a redirect to the
path with a slash if not. -/
theorem static_requests (emb : StaticFile → H) (o : StaticOptions) (items : List Item) {t : Table H} (g : Good t) (s : Serving H)
    (h : serveStatic emb o items t = some s) (hs : s.err = none) (i : Item) (hi : i ∈ items) (hv : ¬ Hidden o i) :
    (∃ f a, findHandler s.table (fileRoute o i) = some (emb f, a) ∧ a.base = fileRoute o i ∧ a.args = [] ∧
      f.reply true (hadTrailingSlash (fileRoute o i)) = .content i.content i.mime) ∧
    (∃ f a, findHandler s.table (fileRoute o i ++ ['/']) = some (emb f, a) ∧
      f.reply true (hadTrailingSlash (fileRoute o i ++ ['/'])) = .notFound) ∧
    (i.basename ∈ o.indexFilenames →
      (∃ f a, findHandler s.table (dirRoute o i ++ ['/']) = some (emb f, a) ∧
        f.reply true (hadTrailingSlash (dirRoute o i ++ ['/'])) = .content i.content i.mime) ∧
      (∃ f a, findHandler s.table (dirRoute o i) = some (emb f, a) ∧
        f.reply true (hadTrailingSlash (dirRoute o i)) =
          if dirRoute o i = ['/'] then .content i.content i.mime else .found (slashUrl o i))) := by
  obtain ⟨h1, _, _⟩ := static_serves emb o items g s h hs
  have hvalid : ∀ p f, Wants o items p f → ValidPath p ∧ (f.servesDirectory = false → p.getLast? ≠ some '/') := by
    unfold serveStatic at h
    cases hr : validateRoute o.routePrefix with
    | some e => rw [hr] at h; obtain rfl := Option.some.inj h; cases hs
    | none =>
      rw [hr] at h
      simp only at h
      split at h
      · rename_i he
        exact fun p f hw => wants_valid emb o items ⟨t, [], none⟩ _ rfl rfl he p f hw
      · rename_i he
        rw [Option.map_eq_some_iff] at h
        obtain ⟨_, _, rfl⟩ := h
        exact absurd hs he
  have hslash : ∀ p : Str, hadTrailingSlash (p ++ ['/']) = true := by intro p; simp [hadTrailingSlash]
  have hw : Wants o items (fileRoute o i) ⟨i.content, i.mime, false, []⟩ := ⟨i, hi, hv, Or.inl ⟨rfl, rfl⟩⟩
  obtain ⟨hvf, hfr⟩ := hvalid _ _ hw
  have hfr := hfr rfl
  have hf0 := find_exact hvf (h1 _ _ hw) 0
  have hf1 := find_exact hvf (h1 _ _ hw) 1
  simp only [List.replicate_zero, List.append_nil] at hf0
  refine ⟨⟨_, _, hf0, rfl, rfl, ?_⟩, ⟨_, _, hf1, ?_⟩, ?_⟩
  · have : hadTrailingSlash (fileRoute o i) = false := by simpa [hadTrailingSlash] using hfr
    simp [StaticFile.reply, this]
  · simp [StaticFile.reply, hslash]
  · intro hidx
    have hw : Wants o items (dirRoute o i) ⟨i.content, i.mime, true, slashUrl o i⟩ := ⟨i, hi, hv, Or.inr ⟨hidx, rfl, rfl⟩⟩
    obtain ⟨hvd, _⟩ := hvalid _ _ hw
    have hd0 := find_exact hvd (h1 _ _ hw) 0
    have hd1 := find_exact hvd (h1 _ _ hw) 1
    simp only [List.replicate_zero, List.append_nil] at hd0
    refine ⟨⟨_, _, hd1, ?_⟩, ⟨_, _, hd0, ?_⟩⟩
    · simp [StaticFile.reply, hslash]
    · by_cases hroot : dirRoute o i = ['/']
      · rw [if_pos hroot, hroot]
        rfl
      · rw [if_neg hroot]
        have : hadTrailingSlash (dirRoute o i) = false := by
          have := hvd.2.1.resolve_left hroot
          simpa [hadTrailingSlash] using this
        simp [StaticFile.reply, this]

end Current.Routes
