import Verif.Rest.LifeRegs
import Mathlib.Data.List.Nodup
/-!
Specification for C114: the routes a `RESTfulStorage` is documented to serve; and that the constructor and `RegisterAlias` try to
register exactly those.
-/
set_option linter.unusedSectionVars false
namespace Current.RestLife
open Current.Persist Current.Routes

/-! ### Specification -/

/-- `<prefix>/<component>[/<name>]<suffix>`. -/
def place (pre : Str) (component : String) (name : Str) (suffix : String) : Str :=
  pre ++ component.toList ++ (if name.isEmpty then [] else "/".toList ++ name) ++ suffix.toList

/-- What is served about `target` — a field, or the commands and queries, which have no name — under the name `name`: the path, the
number of arguments, the endpoint. -/
inductive Endpoint (pre : Str) (fields : List (Str × Kind)) (target name : Str) : Str → Nat → Ep → Prop
  | data {k n} : (target, k) ∈ fields → n ≤ 15 → Endpoint pre fields target name (place pre "/data" name "") n (.data target)
  | key {n sfx} : (target, .dictionary) ∈ fields → n ≤ 15 → sfx ∈ [".key", ".0", ".K"] →
      Endpoint pre fields target name (place pre "/data" name sfx) n (.data target)
  | row {n sfx} : (target, .matrix) ∈ fields → n ≤ 1 → sfx ∈ [".1", ".row", ".left", ".l", ".L"] →
      Endpoint pre fields target name (place pre "/data" name sfx) n (.row target)
  | col {n sfx} : (target, .matrix) ∈ fields → n ≤ 1 → sfx ∈ [".2", ".col", ".right", ".r", ".R"] →
      Endpoint pre fields target name (place pre "/data" name sfx) n (.col target)
  | schema {k sfx} : (target, k) ∈ fields → sfx ∈ ["", ".internal_json", ".h", ".cpp", ".fs", ".md", ".json", ".ts"] →
      Endpoint pre fields target name (place pre "/schema" name sfx) 0 (.schema target sfx.toList)
  | query {n} : target = [] → n ≤ 1 → Endpoint pre fields target name (place pre "/cqs/query" name "") n .query
  | command {n} : target = [] → n ≤ 1 → Endpoint pre fields target name (place pre "/cqs/command" name "") n .command

/-- What the object number `id` serves once it is constructed. -/
inductive Documented (structured : Bool) (pre : Str) (fields : List (Str × Kind)) (id : Nat) : Str → Nat → Hd → Prop
  | endpoint {target p n e} : Endpoint pre fields target target p n e → Documented structured pre fields id p n (.own id e)
  | root : structured = true → pre = [] → Documented structured pre fields id "/".toList 0 (.top id)
  | top : structured = true → pre ≠ [] → Documented structured pre fields id pre 0 (.top id)
  | status : structured = true → Documented structured pre fields id (pre ++ "/status".toList) 0 (.status id)

/-- The names of the fields are distinct C++ identifiers; the prefix is empty or a valid path other than `/`. -/
structure Config (pre : Str) (fields : List (Str × Kind)) : Prop where
  pre : pre = [] ∨ ValidPath pre ∧ pre ≠ ['/']
  names : ∀ f ∈ fields, f.1 ≠ [] ∧ ∀ c ∈ f.1, Url.isAlnum c = true ∨ c = '_'
  distinct : (fields.map Prod.fst).Nodup

/-! ### The lists -/

theorem mmInsert_perm (m : List (Str × Route)) (x : Str × Route) : (mmInsert m x).Perm (x :: m) := by
  unfold mmInsert
  refine List.perm_middle.trans ?_
  rw [List.takeWhile_append_dropWhile]

theorem foldl_mmInsert_perm (l m : List (Str × Route)) : (l.foldl mmInsert m).Perm (l ++ m) := by
  induction l generalizing m with
  | nil => exact .refl _
  | cons x l ih =>
    rw [List.foldl_cons]
    refine (ih _).trans ?_
    refine ((mmInsert_perm m x).append_left l).trans ?_
    exact List.perm_middle

def queryRoute : Str × Route := ([], ⟨kQuery, [], maskNone ||| maskOne, .query⟩)
def commandRoute : Str × Route := ([], ⟨kCommand, [], maskNone ||| maskOne, .command⟩)

theorem handlersOf_perm (fields : List (Str × Kind)) :
    (handlersOf fields).Perm (commandRoute :: queryRoute :: (fields.flatMap fun f => (fieldRoutes f.1 f.2).map fun r => (f.1, r))) := by
  unfold handlersOf
  refine (mmInsert_perm _ _).trans (.cons _ ?_)
  refine (mmInsert_perm _ _).trans (.cons _ ?_)
  have := foldl_mmInsert_perm (fields.flatMap fun f => (fieldRoutes f.1 f.2).map fun r => (f.1, r)) []
  rwa [List.append_nil] at this

theorem mem_handlersOf (fields : List (Str × Kind)) (x : Str × Route) :
    x ∈ handlersOf fields ↔ x = commandRoute ∨ x = queryRoute ∨ ∃ k, (x.1, k) ∈ fields ∧ x.2 ∈ fieldRoutes x.1 k := by
  rw [(handlersOf_perm fields).mem_iff]
  simp only [List.mem_cons, List.mem_flatMap, List.mem_map]
  constructor
  · rintro (h | h | ⟨f, hf, r, hr, rfl⟩)
    · exact Or.inl h
    · exact Or.inr (Or.inl h)
    · exact Or.inr (Or.inr ⟨f.2, hf, hr⟩)
  · rintro (h | h | ⟨k, hf, hr⟩)
    · exact Or.inl h
    · exact Or.inr (Or.inl h)
    · exact Or.inr (Or.inr ⟨(x.1, k), hf, x.2, hr, rfl⟩)

theorem covers_any (path p : Str) (n : Nat) : Routes.Covers path maskAny p n ↔ p = path ∧ n ≤ 15 := by
  have : ∀ n, n ≤ 15 → Nat.testBit 65535 n = true := by
    intro n hn
    have : ∀ n < 16, Nat.testBit 65535 n = true := by decide
    exact this n (by omega)
  unfold Routes.Covers maskAny
  constructor
  · rintro ⟨h1, h2, _⟩; exact ⟨h1, h2⟩
  · rintro ⟨h1, h2⟩; exact ⟨h1, h2, this n h2⟩

theorem covers_none (path p : Str) (n : Nat) : Routes.Covers path maskNone p n ↔ p = path ∧ n = 0 := by
  have : ∀ n < 16, (Nat.testBit 1 n = true ↔ n = 0) := by decide
  unfold Routes.Covers maskNone
  constructor
  · rintro ⟨h1, h2, h3⟩; exact ⟨h1, (this n (by omega)).1 h3⟩
  · rintro ⟨h1, rfl⟩; exact ⟨h1, by omega, by decide⟩

theorem covers_one (path p : Str) (n : Nat) : Routes.Covers path (maskNone ||| maskOne) p n ↔ p = path ∧ n ≤ 1 := by
  have : ∀ n < 16, (Nat.testBit 3 n = true ↔ n ≤ 1) := by decide
  have e : maskNone ||| maskOne = 3 := by decide
  rw [e]
  unfold Routes.Covers
  constructor
  · rintro ⟨h1, h2, h3⟩; exact ⟨h1, (this n (by omega)).1 h3⟩
  · rintro ⟨h1, h2⟩; exact ⟨h1, by omega, (this n (by omega)).2 h2⟩

theorem place_eq (pre name : Str) (r : Route) (component suffix : String) (hc : component.toList = '/' :: r.res)
    (hs : suffix.toList = r.sfx) : place pre component name suffix = pathOf pre name r := by
  have h1 : "/".toList = ['/'] := rfl
  unfold place pathOf
  rw [hc, hs, h1]
  cases name <;> simp

/-- The routes tried for `target` under `name` are those of the specification. -/
theorem endpoint_iff (pre : Str) (fields : List (Str × Kind)) (target name p : Str) (n : Nat) (e : Ep) :
    Endpoint pre fields target name p n e ↔
      ∃ x ∈ handlersOf fields, x.1 = target ∧ Routes.Covers (pathOf pre name x.2) x.2.mask p n ∧ x.2.ep = e := by
  constructor
  · intro h
    cases h with
    | data hk hle =>
      refine ⟨(target, ⟨kData, [], maskAny, .data target⟩), (mem_handlersOf _ _).2 (.inr (.inr ⟨_, hk, ?_⟩)), rfl, ?_, rfl⟩
      · simp [fieldRoutes]
      · rw [covers_any]; exact ⟨place_eq _ _ _ _ _ rfl rfl, hle⟩
    | @key n sfx hk hle hs =>
      refine ⟨(target, ⟨kData, sfx.toList, maskAny, .data target⟩), (mem_handlersOf _ _).2 (.inr (.inr ⟨_, hk, ?_⟩)), rfl, ?_, rfl⟩
      · simp only [List.mem_cons, List.not_mem_nil, or_false] at hs
        rcases hs with rfl | rfl | rfl <;> simp [fieldRoutes, keySuffixes]
      · rw [covers_any]; exact ⟨place_eq _ _ _ _ _ rfl rfl, hle⟩
    | @row n sfx hk hle hs =>
      refine ⟨(target, ⟨kData, sfx.toList, maskNone ||| maskOne, .row target⟩), (mem_handlersOf _ _).2 (.inr (.inr ⟨_, hk, ?_⟩)), rfl, ?_, rfl⟩
      · simp only [List.mem_cons, List.not_mem_nil, or_false] at hs
        rcases hs with rfl | rfl | rfl | rfl | rfl <;> simp [fieldRoutes, rowSuffixes]
      · rw [covers_one]; exact ⟨place_eq _ _ _ _ _ rfl rfl, hle⟩
    | @col n sfx hk hle hs =>
      refine ⟨(target, ⟨kData, sfx.toList, maskNone ||| maskOne, .col target⟩), (mem_handlersOf _ _).2 (.inr (.inr ⟨_, hk, ?_⟩)), rfl, ?_, rfl⟩
      · simp only [List.mem_cons, List.not_mem_nil, or_false] at hs
        rcases hs with rfl | rfl | rfl | rfl | rfl <;> simp [fieldRoutes, colSuffixes]
      · rw [covers_one]; exact ⟨place_eq _ _ _ _ _ rfl rfl, hle⟩
    | @schema k sfx hk hs =>
      refine ⟨(target, ⟨kSchema, sfx.toList, maskNone, .schema target sfx.toList⟩), (mem_handlersOf _ _).2 (.inr (.inr ⟨_, hk, ?_⟩)), rfl, ?_, rfl⟩
      · simp only [List.mem_cons, List.not_mem_nil, or_false] at hs
        rcases hs with rfl | rfl | rfl | rfl | rfl | rfl | rfl | rfl <;> simp [fieldRoutes, languages]
      · rw [covers_none]; exact ⟨place_eq _ _ _ _ _ rfl rfl, rfl⟩
    | query ht hle =>
      refine ⟨queryRoute, (mem_handlersOf _ _).2 (.inr (.inl rfl)), ht.symm, ?_, rfl⟩
      rw [show queryRoute.2.mask = maskNone ||| maskOne from rfl, covers_one]; exact ⟨place_eq _ _ _ _ _ rfl rfl, hle⟩
    | command ht hle =>
      refine ⟨commandRoute, (mem_handlersOf _ _).2 (.inl rfl), ht.symm, ?_, rfl⟩
      rw [show commandRoute.2.mask = maskNone ||| maskOne from rfl, covers_one]; exact ⟨place_eq _ _ _ _ _ rfl rfl, hle⟩
  · rintro ⟨⟨f, r⟩, hx, rfl, hc, rfl⟩
    rcases (mem_handlersOf _ _).1 hx with h | h | ⟨k, hk, hr⟩
    · injection h with h1 h2
      subst h1; subst h2
      rw [covers_one] at hc
      obtain ⟨rfl, hle⟩ := hc
      have := Endpoint.command (pre := pre) (fields := fields) (name := name) (n := n) rfl hle
      rwa [place_eq pre name commandRoute.2 _ _ rfl rfl] at this
    · injection h with h1 h2
      subst h1; subst h2
      rw [covers_one] at hc
      obtain ⟨rfl, hle⟩ := hc
      have := Endpoint.query (pre := pre) (fields := fields) (name := name) (n := n) rfl hle
      rwa [place_eq pre name queryRoute.2 _ _ rfl rfl] at this
    · simp only [fieldRoutes, List.mem_append, List.mem_cons, List.not_mem_nil, or_false, List.mem_map] at hr
      rcases hr with (rfl | hr) | rfl | ⟨s, hs, rfl⟩
      · rw [covers_any] at hc
        obtain ⟨rfl, hle⟩ := hc
        have := Endpoint.data (pre := pre) (name := name) (n := n) hk hle
        rwa [place_eq pre name ⟨kData, [], maskAny, .data f⟩ _ _ rfl rfl] at this
      · cases k with
        | dictionary =>
          simp only [List.mem_map] at hr
          obtain ⟨s, hs, rfl⟩ := hr
          rw [covers_any] at hc
          obtain ⟨rfl, hle⟩ := hc
          have key : ∀ sfx ∈ [".key", ".0", ".K"], s = sfx.toList →
              Endpoint pre fields f name (pathOf pre name ⟨kData, s, maskAny, .data f⟩) n (.data f) := by
            intro sfx hs' he
            rw [he]
            have := Endpoint.key (pre := pre) (name := name) (n := n) hk hle hs'
            rwa [place_eq pre name ⟨kData, sfx.toList, maskAny, .data f⟩ _ _ rfl rfl] at this
          simp only [keySuffixes, List.mem_cons, List.not_mem_nil, or_false] at hs
          rcases hs with rfl | rfl | rfl
          · exact key ".key" (by simp) rfl
          · exact key ".0" (by simp) rfl
          · exact key ".K" (by simp) rfl
        | matrix =>
          simp only [List.mem_append, List.mem_map] at hr
          rcases hr with ⟨s, hs, rfl⟩ | ⟨s, hs, rfl⟩
          · rw [covers_one] at hc
            obtain ⟨rfl, hle⟩ := hc
            have key : ∀ sfx ∈ [".1", ".row", ".left", ".l", ".L"], '.' :: s = sfx.toList →
                Endpoint pre fields f name (pathOf pre name ⟨kData, '.' :: s, maskNone ||| maskOne, .row f⟩) n (.row f) := by
              intro sfx hs he
              rw [he]
              have := Endpoint.row (pre := pre) (name := name) (n := n) hk hle hs
              rwa [place_eq pre name ⟨kData, sfx.toList, maskNone ||| maskOne, .row f⟩ _ _ rfl rfl] at this
            simp only [rowSuffixes, List.mem_cons, List.not_mem_nil, or_false] at hs
            rcases hs with rfl | rfl | rfl | rfl | rfl
            · exact key ".1" (by simp) rfl
            · exact key ".row" (by simp) rfl
            · exact key ".left" (by simp) rfl
            · exact key ".l" (by simp) rfl
            · exact key ".L" (by simp) rfl
          · rw [covers_one] at hc
            obtain ⟨rfl, hle⟩ := hc
            have key : ∀ sfx ∈ [".2", ".col", ".right", ".r", ".R"], '.' :: s = sfx.toList →
                Endpoint pre fields f name (pathOf pre name ⟨kData, '.' :: s, maskNone ||| maskOne, .col f⟩) n (.col f) := by
              intro sfx hs he
              rw [he]
              have := Endpoint.col (pre := pre) (name := name) (n := n) hk hle hs
              rwa [place_eq pre name ⟨kData, sfx.toList, maskNone ||| maskOne, .col f⟩ _ _ rfl rfl] at this
            simp only [colSuffixes, List.mem_cons, List.not_mem_nil, or_false] at hs
            rcases hs with rfl | rfl | rfl | rfl | rfl
            · exact key ".2" (by simp) rfl
            · exact key ".col" (by simp) rfl
            · exact key ".right" (by simp) rfl
            · exact key ".r" (by simp) rfl
            · exact key ".R" (by simp) rfl
      · rw [covers_none] at hc
        obtain ⟨rfl, rfl⟩ := hc
        have := Endpoint.schema (pre := pre) (name := name) (sfx := "") hk (by simp)
        rwa [place_eq pre name ⟨kSchema, [], maskNone, .schema f []⟩ _ _ rfl rfl] at this
      · rw [covers_none] at hc
        obtain ⟨rfl, rfl⟩ := hc
        have key : ∀ sfx ∈ ["", ".internal_json", ".h", ".cpp", ".fs", ".md", ".json", ".ts"], '.' :: s = sfx.toList →
            Endpoint pre fields f name (pathOf pre name ⟨kSchema, '.' :: s, maskNone, .schema f ('.' :: s)⟩) 0 (.schema f ('.' :: s)) := by
          intro sfx hs he
          rw [he]
          have := Endpoint.schema (pre := pre) (name := name) hk hs
          rwa [place_eq pre name ⟨kSchema, sfx.toList, maskNone, .schema f sfx.toList⟩ _ _ rfl rfl] at this
        simp only [languages, List.mem_cons, List.not_mem_nil, or_false] at hs
        rcases hs with rfl | rfl | rfl | rfl | rfl | rfl | rfl
        · exact key ".internal_json" (by simp) rfl
        · exact key ".h" (by simp) rfl
        · exact key ".cpp" (by simp) rfl
        · exact key ".fs" (by simp) rfl
        · exact key ".md" (by simp) rfl
        · exact key ".json" (by simp) rfl
        · exact key ".ts" (by simp) rfl

/-! ### What the constructor registers -/

/-- The two routes of the top level. -/
def topEntries (structured : Bool) (pre : Str) (id : Nat) : List Entry :=
  if structured then [(if pre = [] then ['/'] else pre, maskNone, .top id), (pre ++ kStatus, maskNone, .status id)] else []

def entries (structured : Bool) (pre : Str) (fields : List (Str × Kind)) (id : Nat) : List Entry :=
  (handlersOf fields).map (entryOf id pre) ++ topEntries structured pre id

theorem covers_documented (structured : Bool) (pre : Str) (fields : List (Str × Kind)) (id : Nat) (p : Str) (n : Nat) (h : Hd) :
    (∃ x ∈ entries structured pre fields id, x.Covers p n ∧ x.2.2 = h) ↔ Documented structured pre fields id p n h := by
  constructor
  · rintro ⟨x, hx, hc, rfl⟩
    rcases List.mem_append.1 hx with hx | hx
    · obtain ⟨y, hy, rfl⟩ := List.mem_map.1 hx
      exact .endpoint (target := y.1) ((endpoint_iff ..).2 ⟨y, hy, rfl, hc, rfl⟩)
    · unfold topEntries at hx
      split at hx
      · rename_i hs
        simp only [List.mem_cons, List.not_mem_nil, or_false] at hx
        rcases hx with rfl | rfl
        · have hc : Routes.Covers (if pre = [] then ['/'] else pre) maskNone p n := hc
          rw [covers_none] at hc
          obtain ⟨rfl, rfl⟩ := hc
          by_cases hp : pre = []
          · rw [if_pos hp]; exact .root hs hp
          · rw [if_neg hp]; exact .top hs hp
        · have hc : Routes.Covers (pre ++ kStatus) maskNone p n := hc
          rw [covers_none] at hc
          obtain ⟨rfl, rfl⟩ := hc
          exact .status hs
      · cases hx
  · intro h
    cases h with
    | endpoint he =>
      obtain ⟨y, hy, rfl, hc, rfl⟩ := (endpoint_iff ..).1 he
      exact ⟨entryOf id pre y, List.mem_append_left _ (List.mem_map_of_mem hy), hc, rfl⟩
    | root hs hp =>
      refine ⟨(['/'], maskNone, .top id), List.mem_append_right _ (by simp [topEntries, hs, hp]), ?_, rfl⟩
      exact (covers_none ..).2 ⟨rfl, rfl⟩
    | top hs hp =>
      refine ⟨(pre, maskNone, .top id), List.mem_append_right _ (by simp [topEntries, hs, hp]), ?_, rfl⟩
      exact (covers_none ..).2 ⟨rfl, rfl⟩
    | status hs =>
      refine ⟨(pre ++ kStatus, maskNone, .status id), List.mem_append_right _ (by simp [topEntries, hs]), ?_, rfl⟩
      exact (covers_none ..).2 ⟨rfl, rfl⟩

theorem handlers_mask {fields : List (Str × Kind)} {x : Str × Route} (hx : x ∈ handlersOf fields) : x.2.mask ≠ 0 ∧ x.2.mask < 65536 := by
  obtain ⟨f, r⟩ := x
  have key : ∀ m, m = maskAny ∨ m = maskNone ∨ m = maskNone ||| maskOne → m ≠ 0 ∧ m < 65536 := by
    rintro m (rfl | rfl | rfl) <;> decide
  rcases (mem_handlersOf _ _).1 hx with h | h | ⟨k, hk, hr⟩
  · rw [h]; exact key _ (by simp [commandRoute])
  · rw [h]; exact key _ (by simp [queryRoute])
  · simp only [fieldRoutes, List.mem_append, List.mem_cons, List.not_mem_nil, or_false, List.mem_map] at hr
    rcases hr with (rfl | hr) | rfl | ⟨s, hs, rfl⟩
    · exact key _ (by simp)
    · cases k with
      | dictionary =>
        simp only [List.mem_map] at hr
        obtain ⟨s, hs, rfl⟩ := hr
        exact key _ (by simp)
      | matrix =>
        simp only [List.mem_append, List.mem_map] at hr
        rcases hr with ⟨s, hs, rfl⟩ | ⟨s, hs, rfl⟩ <;> exact key _ (by simp)
    · exact key _ (by simp)
    · exact key _ (by simp)

theorem entries_mask {structured : Bool} {pre : Str} {fields : List (Str × Kind)} {id : Nat} :
    ∀ x ∈ entries structured pre fields id, x.MaskOk := by
  intro x hx
  rcases List.mem_append.1 hx with hx | hx
  · obtain ⟨y, hy, rfl⟩ := List.mem_map.1 hx
    exact handlers_mask hy
  · unfold topEntries at hx
    split at hx
    · simp only [List.mem_cons, List.not_mem_nil, or_false] at hx
      have h1 : maskNone ≠ 0 ∧ maskNone < 65536 := by decide
      rcases hx with rfl | rfl <;> exact h1
    · cases hx

/-! ### Distinct and valid paths -/

/-- The suffixes: empty, or a dot and letters. -/
def SuffixOk (s : Str) : Prop := s = [] ∨ ∃ r, s = '.' :: r ∧ r ≠ [] ∧ ∀ c ∈ r, Url.isAlnum c = true ∨ c = '_'

theorem route_shape {f : Str} {k : Kind} {r : Route} (hr : r ∈ fieldRoutes f k) : (r.res = kData ∨ r.res = kSchema) ∧ SuffixOk r.sfx := by
  have alnum : ∀ s ∈ languages ++ rowSuffixes ++ colSuffixes, s ≠ [] ∧ ∀ c ∈ s, Url.isAlnum c = true ∨ c = '_' := by decide
  have keys : ∀ s ∈ keySuffixes, ∃ r, s = '.' :: r ∧ r ≠ [] ∧ ∀ c ∈ r, Url.isAlnum c = true ∨ c = '_' := by
    intro s hs
    simp only [keySuffixes, List.mem_cons, List.not_mem_nil, or_false] at hs
    rcases hs with rfl | rfl | rfl <;> exact ⟨_, rfl, by decide, by decide⟩
  simp only [fieldRoutes, List.mem_append, List.mem_cons, List.not_mem_nil, or_false, List.mem_map] at hr
  rcases hr with (rfl | hr) | rfl | ⟨s, hs, rfl⟩
  · exact ⟨.inl rfl, .inl rfl⟩
  · cases k with
    | dictionary =>
      simp only [List.mem_map] at hr
      obtain ⟨s, hs, rfl⟩ := hr
      exact ⟨.inl rfl, .inr (keys s hs)⟩
    | matrix =>
      simp only [List.mem_append, List.mem_map] at hr
      rcases hr with ⟨s, hs, rfl⟩ | ⟨s, hs, rfl⟩
      · exact ⟨.inl rfl, .inr ⟨s, rfl, alnum s (by simp [hs])⟩⟩
      · exact ⟨.inl rfl, .inr ⟨s, rfl, alnum s (by simp [hs])⟩⟩
  · exact ⟨.inr rfl, .inl rfl⟩
  · exact ⟨.inr rfl, .inr ⟨s, rfl, alnum s (by simp [hs])⟩⟩

theorem not_alnum_dot (c : Char) (h : Url.isAlnum c = true ∨ c = '_') : c ≠ '.' ∧ c ≠ '/' := by
  constructor <;> rintro rfl <;> revert h <;> decide

theorem name_suffix {f g s s' : Str} (hf : ∀ c ∈ f, Url.isAlnum c = true ∨ c = '_') (hg : ∀ c ∈ g, Url.isAlnum c = true ∨ c = '_')
    (hs : SuffixOk s) (hs' : SuffixOk s') (h : f ++ s = g ++ s') : f = g ∧ s = s' := by
  induction f generalizing g with
  | nil =>
    cases g with
    | nil => exact ⟨rfl, h⟩
    | cons c g =>
      rcases hs with rfl | ⟨r, rfl, _⟩
      · cases h
      · injection h with h _
        exact absurd h.symm (not_alnum_dot c (hg c (by simp))).1
  | cons a f ih =>
    cases g with
    | nil =>
      rcases hs' with rfl | ⟨r, rfl, _⟩
      · cases h
      · injection h with h _
        exact absurd h (not_alnum_dot a (hf a (by simp))).1
    | cons c g =>
      injection h with h1 h2
      obtain ⟨rfl, rfl⟩ := ih (fun c hc => hf c (by simp [hc])) (fun c hc => hg c (by simp [hc])) h2
      exact ⟨by rw [h1], rfl⟩

theorem field_paths {pre f g : Str} {k k' : Kind} {r r' : Route} (hf : f ≠ [] ∧ ∀ c ∈ f, Url.isAlnum c = true ∨ c = '_')
    (hg : g ≠ [] ∧ ∀ c ∈ g, Url.isAlnum c = true ∨ c = '_') (hr : r ∈ fieldRoutes f k) (hr' : r' ∈ fieldRoutes g k')
    (h : pathOf pre f r = pathOf pre g r') : f = g ∧ r.res = r'.res ∧ r.sfx = r'.sfx := by
  obtain ⟨h1, h2⟩ := route_shape hr
  obtain ⟨h1', h2'⟩ := route_shape hr'
  unfold pathOf at h
  rw [if_neg hf.1, if_neg hg.1] at h
  simp only [List.append_assoc] at h
  have h := List.append_cancel_left (List.append_cancel_left h)
  rcases h1 with h1 | h1 <;> rcases h1' with h1' | h1' <;> rw [h1, h1'] at h ⊢
  · have h := List.append_cancel_left h
    injection h with _ h
    obtain ⟨e1, e2⟩ := name_suffix hf.2 hg.2 h2 h2' h
    exact ⟨e1, rfl, e2⟩
  · simp [kData, kSchema] at h
  · simp [kData, kSchema] at h
  · have h := List.append_cancel_left h
    injection h with _ h
    obtain ⟨e1, e2⟩ := name_suffix hf.2 hg.2 h2 h2' h
    exact ⟨e1, rfl, e2⟩

/-- What follows the prefix in a route of a field. -/
theorem field_tail {pre f : Str} {k : Kind} {r : Route} (hf : f ≠ []) (hr : r ∈ fieldRoutes f k) :
    ∃ tail, (pathOf pre f r = pre ++ '/' :: (kData ++ '/' :: tail) ∨ pathOf pre f r = pre ++ '/' :: (kSchema ++ '/' :: tail)) := by
  obtain ⟨h1, _⟩ := route_shape hr
  refine ⟨f ++ r.sfx, ?_⟩
  unfold pathOf
  rw [if_neg hf]
  rcases h1 with h1 | h1 <;> simp [h1]

theorem entries_paths_nodup (structured : Bool) {pre : Str} {fields : List (Str × Kind)} (cfg : Config pre fields) (id : Nat) :
    ((entries structured pre fields id).map Prod.fst).Nodup := by
  have hp : ((handlersOf fields).map (entryOf id pre)).Perm
      ((commandRoute :: queryRoute :: (fields.flatMap fun f => (fieldRoutes f.1 f.2).map fun r => (f.1, r))).map (entryOf id pre)) :=
    (handlersOf_perm fields).map _
  unfold entries
  rw [((hp.append_right _).map _).nodup_iff]
  have hpre : pre ≠ ['/'] := by
    rcases cfg.pre with h | h
    · rw [h]; simp
    · exact h.2
  -- the routes of the fields
  have hfields : (fields.flatMap fun f => (fieldRoutes f.1 f.2).map fun r => pathOf pre f.1 r).Nodup := by
    rw [List.nodup_flatMap]
    constructor
    · rintro ⟨f, k⟩ hf
      have hn := cfg.names _ hf
      have base : ((fieldRoutes f k).map fun r => (r.res, r.sfx)).Nodup := by
        cases k <;> simp [fieldRoutes, keySuffixes, rowSuffixes, colSuffixes, languages, kData, kSchema]
      have : (fieldRoutes f k).Pairwise fun r r' => (r.res, r.sfx) ≠ (r'.res, r'.sfx) := List.pairwise_map.1 base
      refine List.pairwise_map.2 (this.imp_of_mem ?_)
      intro r r' hr hr' hne he
      obtain ⟨_, h2, h3⟩ := field_paths hn hn hr hr' he
      exact hne (by rw [h2, h3])
    · have hd := List.pairwise_map.1 cfg.distinct
      refine hd.imp_of_mem ?_
      intro f g hf hg hne x hx hy
      obtain ⟨r, hr, rfl⟩ := List.mem_map.1 hx
      obtain ⟨r', hr', he⟩ := List.mem_map.1 hy
      exact hne (field_paths (cfg.names _ hf) (cfg.names _ hg) hr hr' he.symm).1
  have hshape : ∀ x ∈ (fields.flatMap fun f => (fieldRoutes f.1 f.2).map fun r => pathOf pre f.1 r),
      ∃ tail, (x = pre ++ '/' :: (kData ++ '/' :: tail) ∨ x = pre ++ '/' :: (kSchema ++ '/' :: tail)) := by
    intro x hx
    obtain ⟨f, hf, hx⟩ := List.mem_flatMap.1 hx
    obtain ⟨r, hr, rfl⟩ := List.mem_map.1 hx
    exact field_tail (cfg.names _ hf).1 hr
  have hmap : ((fields.flatMap fun f => (fieldRoutes f.1 f.2).map fun r => (f.1, r)).map (entryOf id pre)).map Prod.fst =
      (fields.flatMap fun f => (fieldRoutes f.1 f.2).map fun r => pathOf pre f.1 r) := by
    rw [List.map_map, List.map_flatMap]
    refine List.flatMap_congr ?_
    intro f _
    rw [List.map_map]
    rfl
  have hq : (entryOf id pre queryRoute).1 = pre ++ '/' :: kQuery := by simp [entryOf, pathOf, queryRoute]
  have hc : (entryOf id pre commandRoute).1 = pre ++ '/' :: kCommand := by simp [entryOf, pathOf, commandRoute]
  rw [List.map_append, List.map_cons, List.map_cons, List.map_cons, List.map_cons, hmap, hq, hc]
  have happ : ∀ a : Str, a ≠ [] → pre ≠ pre ++ a := by
    intro a ha h
    have := congrArg List.length h
    simp at this
    exact ha this
  rw [List.nodup_append]
  refine ⟨?_, ?_, ?_⟩
  · rw [List.nodup_cons, List.nodup_cons]
    refine ⟨?_, ?_, hfields⟩
    · intro h
      rcases List.mem_cons.1 h with h | h
      · have := List.append_cancel_left h
        simp [kCommand, kQuery] at this
      · obtain ⟨tail, h | h⟩ := hshape _ h
        · have := List.append_cancel_left h
          simp [kCommand, kData] at this
        · have := List.append_cancel_left h
          simp [kCommand, kSchema] at this
    · intro h
      obtain ⟨tail, h | h⟩ := hshape _ h
      · have := List.append_cancel_left h
        simp [kQuery, kData] at this
      · have := List.append_cancel_left h
        simp [kQuery, kSchema] at this
  · unfold topEntries
    split
    · simp only [List.map_cons, List.map_nil, List.nodup_cons, List.mem_singleton, List.not_mem_nil, not_false_eq_true,
        List.nodup_nil, and_true]
      split
      · rename_i h; rw [h]; decide
      · exact happ _ (by decide)
    · simp
  · intro a ha b hb hab
    subst hab
    have hb' : a = (if pre = [] then ['/'] else pre) ∨ a = pre ++ kStatus := by
      unfold topEntries at hb
      split at hb
      · simpa using hb
      · simp at hb
    have ha' : ∃ x y tail, a = pre ++ '/' :: x :: y :: tail ∧ ((x, y) = ('c', 'q') ∨ (x, y) = ('d', 'a') ∨ (x, y) = ('s', 'c')) := by
      rcases List.mem_cons.1 ha with h | h
      · exact ⟨_, _, _, h, .inl rfl⟩
      rcases List.mem_cons.1 h with h | h
      · exact ⟨_, _, _, h, .inl rfl⟩
      obtain ⟨tail, h | h⟩ := hshape _ h
      · exact ⟨_, _, _, h, .inr (.inl rfl)⟩
      · exact ⟨_, _, _, h, .inr (.inr rfl)⟩
    obtain ⟨x, y, tail, rfl, hxy⟩ := ha'
    rcases hb' with h | h
    · split at h
      · rename_i hp; rw [hp] at h; simp at h
      · exact happ _ (by simp) h.symm
    · have := List.append_cancel_left h
      simp only [kStatus, List.cons.injEq, true_and] at this
      obtain ⟨rfl, rfl, _⟩ := this
      revert hxy; decide

theorem valid_of_prefix {pre tail : Str} (hp : pre = [] ∨ ValidPath pre ∧ pre ≠ ['/']) (ht : tail ≠ []) (hl : tail.getLast? ≠ some '/')
    (hc : ∀ c ∈ tail, Url.isAlnum c = true ∨ c = '_' ∨ c = '.' ∨ c = '/') : ValidPath (pre ++ '/' :: tail) := by
  have hcs : ∀ c, (Url.isAlnum c = true ∨ c = '_' ∨ c = '.' ∨ c = '/') → (Url.isAlnum c = true ∨
      c ∈ ['/', '-', '.', '_', '~', '!', '$', '&', '\'', '(', ')', '*', '+', ',', ';', '=', ':', '@']) := by
    rintro c (h | rfl | rfl | rfl)
    · exact .inl h
    all_goals exact .inr (by decide)
  refine ⟨?_, .inr ?_, ?_⟩
  · rcases hp with rfl | h
    · rfl
    · rw [List.head?_append, h.1.1]; rfl
  · have : '/' :: tail = ['/'] ++ tail := rfl
    rw [this, ← List.append_assoc, List.getLast?_append_of_ne_nil _ ht]
    exact hl
  · intro c hc'
    rcases List.mem_append.1 hc' with h | h
    · rcases hp with rfl | hp
      · cases h
      · exact hp.1.2.2 c h
    · rcases List.mem_cons.1 h with rfl | h
      · exact .inr (by decide)
      · exact hcs c (hc c h)

theorem entries_valid (structured : Bool) {pre : Str} {fields : List (Str × Kind)} (cfg : Config pre fields) (id : Nat) :
    ∀ x ∈ entries structured pre fields id, ValidPath x.1 := by
  intro x hx
  rcases List.mem_append.1 hx with hx | hx
  · obtain ⟨⟨f, r⟩, hy, rfl⟩ := List.mem_map.1 hx
    rcases (mem_handlersOf _ _).1 hy with h | h | ⟨k, hk, hr⟩
    · rw [h]
      have : (entryOf id pre commandRoute).1 = pre ++ '/' :: kCommand := by simp [entryOf, pathOf, commandRoute]
      rw [this]
      exact valid_of_prefix cfg.pre (by decide) (by decide) (by decide)
    · rw [h]
      have : (entryOf id pre queryRoute).1 = pre ++ '/' :: kQuery := by simp [entryOf, pathOf, queryRoute]
      rw [this]
      exact valid_of_prefix cfg.pre (by decide) (by decide) (by decide)
    · obtain ⟨h1, h2⟩ := route_shape hr
      have hn := cfg.names _ hk
      have e : (entryOf id pre (f, r)).1 = pre ++ '/' :: (r.res ++ ('/' :: (f ++ r.sfx))) := by
        simp only [entryOf, pathOf, if_neg hn.1]
        simp
      rw [e]
      have hlast : ∀ s : Str, s ≠ [] → (∀ c ∈ s, Url.isAlnum c = true ∨ c = '_') → s.getLast? ≠ some '/' := by
        intro s _ hs hl
        exact (not_alnum_dot _ (hs _ (List.mem_of_getLast? hl))).2 rfl
      refine valid_of_prefix cfg.pre (by simp) ?_ ?_
      · have : (r.res ++ ('/' :: (f ++ r.sfx))).getLast? = (f ++ r.sfx).getLast? := by
          have e2 : r.res ++ ('/' :: (f ++ r.sfx)) = (r.res ++ ['/']) ++ (f ++ r.sfx) := by simp
          rw [e2, List.getLast?_append_of_ne_nil _ (by simp [hn.1])]
        rw [this]
        rcases h2 with h2 | ⟨s, h2, h3, h4⟩
        · rw [h2, List.append_nil]
          exact hlast f hn.1 hn.2
        · have h2 : r.sfx = '.' :: s := h2
          have e2 : f ++ r.sfx = (f ++ ['.']) ++ s := by simp [h2]
          rw [e2, List.getLast?_append_of_ne_nil _ h3]
          exact hlast s h3 h4
      · intro c hc
        simp only [List.mem_append, List.mem_cons] at hc
        rcases hc with hc | rfl | hc | hc
        · have : ∀ c ∈ kData ++ kSchema, Url.isAlnum c = true := by decide
          rcases h1 with h1 | h1
          · exact .inl (this c (by rw [h1] at hc; simp [hc]))
          · exact .inl (this c (by rw [h1] at hc; simp [hc]))
        · simp
        · rcases hn.2 c hc with h | h
          · exact .inl h
          · exact .inr (.inl h)
        · rcases h2 with h2 | ⟨s, h2, h3, h4⟩
          · rw [h2] at hc; cases hc
          · rw [h2] at hc
            rcases List.mem_cons.1 hc with rfl | hc
            · simp
            · rcases h4 c hc with h | h
              · exact .inl h
              · exact .inr (.inl h)
  · unfold topEntries at hx
    split at hx
    · simp only [List.mem_cons, List.not_mem_nil, or_false] at hx
      rcases hx with rfl | rfl
      · dsimp only
        split
        · exact ⟨rfl, .inl rfl, by decide⟩
        · rename_i hne
          rcases cfg.pre with h | h
          · exact absurd h hne
          · exact h.1
      · exact valid_of_prefix (tail := ['s', 't', 'a', 't', 'u', 's']) cfg.pre (by decide) (by decide) (by decide)
    · cases hx

end Current.RestLife
