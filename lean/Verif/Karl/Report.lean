import Verif.Karl.Model
import Verif.Persist.Props
import Mathlib.Order.Defs.LinearOrder
import Mathlib.Data.List.Induction
import Mathlib.Data.Nat.Basic
/-!
# Karl: the fleet report

`BuildStatusAndRespondWithIt`, `karl/karl.h:780-985`: which services are listed, under which machine, with which of their
keepalives, and what their dependencies are resolved to.

Simplifications: `from` and `to` are taken after the parsing of the query (`karl.h:783-813`); everything that is copied from
the chosen keepalive unchanged (start time, uptime, runtime) is one value of type `R`; the build information, the URLs of the
status pages and the per-server information are looked up by codename or ip in the storage and are left out; rendering is
not modelled.  `unresolved` keeps the addresses, the code keeps their status page URLs.
-/
namespace Current.Karl
namespace Report
open Current.Persist (Mem Codec Outcome IdxTs)

/-- `KarlPersistedKeepalive`: the location and the parts of the keepalive that matter -/
structure Entry (C S K R : Type) where
  location : K
  codename : C
  service : S
  deps : List K
  rest : R

/-- `ProtoReport`, `karl.h:819-823` (`up` and `at_` are `currently`) -/
structure Proto (K R : Type) where
  up : Bool
  at_ : Int
  deps : List K
  rest : R

/-- `ServiceToReport`, as far as it is modelled -/
structure Row (C S K R : Type) where
  up : Bool
  at_ : Int
  service : S
  codename : C
  location : K
  deps : List C
  unresolved : List K
  rest : R
  deriving DecidableEq

/-- `report_for_codename`, `codenames_per_service`, `service_key_into_codename`, `karl.h:824-826`.  The second is a
`std::map` of `std::set`s: a list with growing keys. -/
structure Acc (C S K R : Type) where
  rep : C → Option (Proto K R)
  per : List (S × List C)
  key : K → Option C

section
variable {C S K I R : Type} [LinearOrder C] [LinearOrder S] [DecidableEq K] [DecidableEq I]

/-- `std::set<std::string>::insert` -/
def addSet (c : C) : List C → List C
  | [] => [c]
  | d :: ds => if c < d then c :: d :: ds else if d < c then d :: addSet c ds else d :: ds

/-- `codenames_per_service[service].insert(codename)`, `karl.h:834` -/
def addName (s : S) (c : C) : List (S × List C) → List (S × List C)
  | [] => [(s, [c])]
  | (t, cs) :: r => if s < t then (s, [c]) :: (t, cs) :: r
                    else if t < s then (t, cs) :: addName s c r else (t, addSet c cs) :: r

/-- one round of the loop over the keepalives, `karl.h:829-858` -/
def collect (timeout now : Int) (a : Acc C S K R) (x : IdxTs × Entry C S K R) : Acc C S K R :=
  { key := put a.key x.2.location (some x.2.codename),
    per := addName x.2.service x.2.codename a.per,
    rep := put a.rep x.2.codename (some ⟨decide (now - x.1.us < timeout), x.1.us, x.2.deps, x.2.rest⟩) }

/-- `karl.h:919-930`: the dependencies found among the locations, and the others -/
def resolve (key : K → Option C) : List K → List C × List K
  | [] => ([], [])
  | k :: ks => match key k with
    | some c => (c :: (resolve key ks).1, (resolve key ks).2)
    | none => ((resolve key ks).1, k :: (resolve key ks).2)

/-- `resolved_codenames[codename]`, `karl.h:890-903` -/
def locate {V : Type} (claires : C → Option (Claire K V)) (zombie : C → K) (c : C) : K :=
  match claires c with
  | some x => x.location
  | none => zombie c

/-- `karl.h:910-916`: the codename is left out -/
def skipped {V : Type} (claires : C → Option (Claire K V)) (activeOnly : Bool) (c : C) : Bool :=
  activeOnly && (match claires c with | some x => decide (x.reg ≠ .active) | none => false)

/-- `result.machines`: by ip and codename -/
abbrev Machines (I C S K R : Type) := I → C → Option (Row C S K R)

/-- the body of the loops over services and codenames, `karl.h:907-958`; `report_for_codename.at(codename)` throws when
there is nothing for the codename: `none` -/
def listOne {V : Type} (claires : C → Option (Claire K V)) (zombie : C → K) (ip : K → I) (activeOnly : Bool)
    (a : Acc C S K R) (s : S) (m : Option (Machines I C S K R)) (c : C) : Option (Machines I C S K R) :=
  match m, a.rep c with
  | some m, some p =>
    if skipped claires activeOnly c then some m else
      some (put m (ip (locate claires zombie c)) (put (m (ip (locate claires zombie c))) c
        (some ⟨p.up, p.at_, s, c, locate claires zombie c, (resolve a.key p.deps).1, (resolve a.key p.deps).2, p.rest⟩)))
  | _, _ => none

def collectAll (timeout now : Int) (es : List (IdxTs × Entry C S K R)) : Acc C S K R :=
  es.foldl (collect timeout now) ⟨fun _ => none, [], fun _ => none⟩

/-- `BuildStatusAndRespondWithIt`.  `none` is an exception, which the HTTP server answers with 500. -/
def fleet {V : Type} (timeout now from_ to_ : Int) (keepalives : Mem (Entry C S K R)) (claires : C → Option (Claire K V))
    (zombie : C → K) (ip : K → I) (activeOnly : Bool) : Option (Machines I C S K R) :=
  match keepalives.iterateTime from_ to_ with
  | .ok es =>
    let a := collectAll timeout now es
    a.per.foldl (fun m sc => sc.2.foldl (listOne claires zombie ip activeOnly a sc.1) m) (some fun _ _ => none)
  | _ => none

/-! ## Specification -/

/-- `x` is the last of the entries that satisfy `p` -/
def LastWith {A : Type} (p : A → Prop) (es : List A) (x : A) : Prop :=
  ∃ l r, es = l ++ x :: r ∧ p x ∧ ∀ y ∈ r, ¬ p y

/-- the keepalives received between `from_` and `to_`, both included -/
def window (from_ to_ : Int) (all : List (IdxTs × Entry C S K R)) : List (IdxTs × Entry C S K R) :=
  all.filter fun x => decide (from_ ≤ x.1.us ∧ x.1.us ≤ to_)

/-- the dependency at address `k` is the service `d`: `d` is the last to have reported from there -/
def DependsOn (es : List (IdxTs × Entry C S K R)) (k : K) (d : C) : Prop :=
  ∃ x, LastWith (fun y => y.2.location = k) es x ∧ x.2.codename = d

/-- a list of addresses is split, in order, into the services they stand for and the addresses of no known service -/
inductive Split (D : K → C → Prop) : List K → List C → List K → Prop
  | nil : Split D [] [] []
  | found {k c ks cs us} : D k c → Split D ks cs us → Split D (k :: ks) (c :: cs) us
  | missing {k ks cs us} : (∀ c, ¬ D k c) → Split D ks cs us → Split D (k :: ks) cs (k :: us)

/-- where a service is said to be: what the storage says, or a made up place if it says nothing -/
def IsAt {V : Type} (claires : C → Option (Claire K V)) (zombie : C → K) (c : C) (k : K) : Prop :=
  (∃ x, claires c = some x ∧ k = x.location) ∨ (claires c = none ∧ k = zombie c)

/-- everything about a row except for the name of the service -/
structure Shows {V : Type} (timeout now : Int) (claires : C → Option (Claire K V)) (zombie : C → K)
    (w : List (IdxTs × Entry C S K R)) (x : IdxTs × Entry C S K R) (row : Row C S K R) : Prop where
  codename : row.codename = x.2.codename
  up : row.up = true ↔ now < x.1.us + timeout
  at_ : row.at_ = x.1.us
  rest : row.rest = x.2.rest
  location : IsAt claires zombie x.2.codename row.location
  deps : Split (DependsOn w) x.2.deps row.deps row.unresolved

/-! ## Proofs -/

theorem lastWith_concat {A : Type} (p : A → Prop) (es : List A) (y x : A) :
    LastWith p (es ++ [y]) x ↔ (p y ∧ x = y) ∨ (¬ p y ∧ LastWith p es x) := by
  constructor
  · rintro ⟨l, r, h, hp, hr⟩
    rcases List.eq_nil_or_concat r with rfl | ⟨r', z, rfl⟩
    · have := List.append_inj' h rfl
      simp at this
      left; exact ⟨by rw [this.2]; exact hp, this.2.symm⟩
    · right
      have h' : es ++ [y] = (l ++ x :: r') ++ [z] := by rw [h]; simp
      obtain ⟨h1, h2⟩ := List.append_inj' h' rfl
      simp at h2
      subst h2
      exact ⟨hr y (by simp), l, r', h1, hp, fun q hq => hr q (by simp [hq])⟩
  · rintro (⟨hp, rfl⟩ | ⟨hp, l, r, h, hx, hr⟩)
    · exact ⟨es, [], by simp, hp, by simp⟩
    · refine ⟨l, r ++ [y], by rw [h]; simp, hx, fun q hq => ?_⟩
      rcases List.mem_append.1 hq with h | h
      · exact hr q h
      · simp at h; rw [h]; exact hp

theorem lastWith_nil {A : Type} (p : A → Prop) (x : A) : ¬ LastWith p [] x := by
  rintro ⟨l, r, h, _⟩; simp at h

theorem lastWith_unique {A : Type} {p : A → Prop} {es : List A} {x y : A} (hx : LastWith p es x) (hy : LastWith p es y) :
    x = y := by
  induction es using List.reverseRecOn with
  | nil => exact absurd hx (lastWith_nil p x)
  | append_singleton es z ih =>
    rw [lastWith_concat] at hx hy
    rcases hx with ⟨h1, rfl⟩ | ⟨h1, h2⟩ <;> rcases hy with ⟨h3, rfl⟩ | ⟨h3, h4⟩
    · rfl
    · exact absurd h1 h3
    · exact absurd h3 h1
    · exact ih h2 h4

theorem lastWith_exists {A : Type} (p : A → Prop) (es : List A) (h : ∃ x ∈ es, p x) : ∃ x, LastWith p es x := by
  induction es using List.reverseRecOn with
  | nil => simp at h
  | append_singleton es z ih =>
    by_cases hz : p z
    · exact ⟨z, (lastWith_concat ..).2 (.inl ⟨hz, rfl⟩)⟩
    · obtain ⟨x, hx, hp⟩ := h
      rcases List.mem_append.1 hx with h | h
      · obtain ⟨w, hw⟩ := ih ⟨x, h, hp⟩
        exact ⟨w, (lastWith_concat ..).2 (.inr ⟨hz, hw⟩)⟩
      · simp at h; subst h; exact absurd hp hz

theorem lastWith_mem {A : Type} {p : A → Prop} {es : List A} {x : A} (h : LastWith p es x) : x ∈ es ∧ p x := by
  obtain ⟨l, r, rfl, hp, _⟩ := h
  exact ⟨by simp, hp⟩

theorem mem_addSet (c d : C) (l : List C) : d ∈ addSet c l ↔ d = c ∨ d ∈ l := by
  induction l with
  | nil => simp [addSet]
  | cons x xs ih =>
    unfold addSet
    split
    · simp
    · split
      · rw [List.mem_cons, ih, List.mem_cons]; tauto
      · have : c = x := le_antisymm (not_lt.1 ‹_›) (not_lt.1 ‹_›)
        subst this; simp

/-- service `s` and codename `c` are together in the map -/
def Has (l : List (S × List C)) (s : S) (c : C) : Prop := ∃ cs, (s, cs) ∈ l ∧ c ∈ cs

theorem has_addName (s t : S) (c d : C) (l : List (S × List C)) :
    Has (addName s c l) t d ↔ (t = s ∧ d = c) ∨ Has l t d := by
  induction l with
  | nil => simp [addName, Has]
  | cons x xs ih =>
    obtain ⟨u, cs⟩ := x
    have cons_iff : ∀ (p : S × List C) (q : List (S × List C)), Has (p :: q) t d ↔ (t = p.1 ∧ d ∈ p.2) ∨ Has q t d := by
      intro p q
      constructor
      · rintro ⟨ds, h, hd⟩
        rcases List.mem_cons.1 h with h | h
        · left; subst h; exact ⟨rfl, hd⟩
        · right; exact ⟨ds, h, hd⟩
      · rintro (⟨h1, h2⟩ | ⟨ds, h1, h2⟩)
        · exact ⟨p.2, by rw [h1]; simp, h2⟩
        · exact ⟨ds, by simp [h1], h2⟩
    unfold addName
    split
    · rw [cons_iff]; simp
    · split
      · rw [cons_iff, ih, cons_iff]; tauto
      · have : s = u := le_antisymm (not_lt.1 ‹_›) (not_lt.1 ‹_›)
        subst this
        rw [cons_iff, cons_iff, mem_addSet]; tauto

theorem sorted_addName (s : S) (c : C) (l : List (S × List C)) (h : (l.map (·.1)).Pairwise (· < ·)) :
    ((addName s c l).map (·.1)).Pairwise (· < ·) ∧ ∀ t ∈ (addName s c l).map (·.1), t = s ∨ t ∈ l.map (·.1) := by
  induction l with
  | nil => simp [addName]
  | cons x xs ih =>
    obtain ⟨u, cs⟩ := x
    simp only [List.map_cons, List.pairwise_cons] at h
    obtain ⟨h1, h2⟩ := ih h.2
    unfold addName
    split
    · next hlt =>
      refine ⟨?_, by simp⟩
      simp only [List.map_cons, List.pairwise_cons, List.mem_cons]
      refine ⟨?_, h⟩
      rintro t (rfl | ht)
      · exact hlt
      · exact lt_trans hlt (h.1 t ht)
    · split
      · next hlt =>
        simp only [List.map_cons, List.pairwise_cons, List.mem_cons]
        refine ⟨⟨fun t ht => ?_, h1⟩, ?_⟩
        · rcases h2 t ht with rfl | h3
          · exact hlt
          · exact h.1 t h3
        · rintro t (rfl | ht)
          · exact .inr (.inl rfl)
          · rcases h2 t ht with rfl | h3
            · exact .inl rfl
            · exact .inr (.inr h3)
      · simp only [List.map_cons, List.pairwise_cons, List.mem_cons]
        exact ⟨h, fun t ht => .inr ht⟩

/-- what has been collected from a list of keepalives -/
structure Collected (timeout now : Int) (es : List (IdxTs × Entry C S K R)) (a : Acc C S K R) : Prop where
  key : ∀ k d, a.key k = some d ↔ DependsOn es k d
  rep : ∀ c p, a.rep c = some p ↔ ∃ x, LastWith (fun y => y.2.codename = c) es x ∧
    p = ⟨decide (now - x.1.us < timeout), x.1.us, x.2.deps, x.2.rest⟩
  per : ∀ s c, Has a.per s c ↔ ∃ x ∈ es, x.2.service = s ∧ x.2.codename = c
  sorted : (a.per.map (·.1)).Pairwise (· < ·)

theorem collected (timeout now : Int) (es : List (IdxTs × Entry C S K R)) :
    Collected timeout now es (collectAll timeout now es) := by
  induction es using List.reverseRecOn with
  | nil =>
    constructor
    · intro k d; simp [collectAll, DependsOn, lastWith_nil]
    · intro c p; simp [collectAll, lastWith_nil]
    · intro s c; simp [collectAll, Has]
    · simp [collectAll]
  | append_singleton es y ih =>
    have he : collectAll timeout now (es ++ [y]) = collect timeout now (collectAll timeout now es) y := by
      simp [collectAll, List.foldl_append]
    rw [he]
    constructor
    · intro k d
      simp only [collect, put]
      unfold DependsOn
      simp only [lastWith_concat]
      by_cases hk : k = y.2.location
      · rw [if_pos hk]
        constructor
        · intro h; injection h with h; exact ⟨y, .inl ⟨hk.symm, rfl⟩, h⟩
        · rintro ⟨x, ⟨_, rfl⟩ | ⟨h, _⟩, hd⟩
          · rw [hd]
          · exact absurd hk.symm h
      · rw [if_neg hk, ih.key]
        constructor
        · rintro ⟨x, hx, hd⟩; exact ⟨x, .inr ⟨fun h => hk h.symm, hx⟩, hd⟩
        · rintro ⟨x, ⟨h, _⟩ | ⟨_, hx⟩, hd⟩
          · exact absurd h.symm hk
          · exact ⟨x, hx, hd⟩
    · intro c p
      simp only [collect, put, lastWith_concat]
      by_cases hk : c = y.2.codename
      · rw [if_pos hk]
        constructor
        · intro h; injection h with h; exact ⟨y, .inl ⟨hk.symm, rfl⟩, h.symm⟩
        · rintro ⟨x, ⟨_, rfl⟩ | ⟨h, _⟩, hd⟩
          · rw [hd]
          · exact absurd hk.symm h
      · rw [if_neg hk, ih.rep]
        constructor
        · rintro ⟨x, hx, hd⟩; exact ⟨x, .inr ⟨fun h => hk h.symm, hx⟩, hd⟩
        · rintro ⟨x, ⟨h, _⟩ | ⟨_, hx⟩, hd⟩
          · exact absurd h.symm hk
          · exact ⟨x, hx, hd⟩
    · intro s c
      simp only [collect, has_addName, ih.per, List.mem_append, List.mem_singleton]
      constructor
      · rintro (⟨h1, h2⟩ | ⟨x, hx, h⟩)
        · exact ⟨y, .inr rfl, h1.symm, h2.symm⟩
        · exact ⟨x, .inl hx, h⟩
      · rintro ⟨x, hx | rfl, h1, h2⟩
        · exact .inr ⟨x, hx, h1, h2⟩
        · exact .inl ⟨h1.symm, h2.symm⟩
    · exact (sorted_addName _ _ _ ih.sorted).1

/-- the pairs in the order in which they are listed -/
def pairs (l : List (S × List C)) : List (S × C) := l.flatMap fun sc => sc.2.map fun c => (sc.1, c)

omit [LinearOrder C] [LinearOrder S] in
theorem foldl_pairs {B : Type} (f : S → B → C → B) (l : List (S × List C)) (b : B) :
    l.foldl (fun m sc => sc.2.foldl (f sc.1) m) b = (pairs l).foldl (fun m p => f p.1 m p.2) b := by
  induction l generalizing b with
  | nil => rfl
  | cons x xs ih =>
    simp only [List.foldl_cons, pairs, List.flatMap_cons, List.foldl_append, List.foldl_map]
    exact ih _

omit [LinearOrder C] [LinearOrder S] in
theorem mem_pairs (l : List (S × List C)) (s : S) (c : C) : (s, c) ∈ pairs l ↔ Has l s c := by
  simp only [pairs, List.mem_flatMap, List.mem_map, Prod.mk.injEq, Has]
  constructor
  · rintro ⟨⟨t, cs⟩, h1, d, h2, h3, h4⟩
    subst h3 h4
    exact ⟨cs, h1, h2⟩
  · rintro ⟨cs, h1, h2⟩
    exact ⟨(s, cs), h1, c, h2, rfl, rfl⟩

omit [LinearOrder C] in
theorem sorted_pairs (l : List (S × List C)) (h : (l.map (·.1)).Pairwise (· < ·)) :
    (pairs l).Pairwise fun a b => a.1 ≤ b.1 := by
  induction l with
  | nil => simp [pairs]
  | cons x xs ih =>
    simp only [List.map_cons, List.pairwise_cons] at h
    simp only [pairs, List.flatMap_cons, List.pairwise_append]
    refine ⟨?_, ih h.2, ?_⟩
    · rw [List.pairwise_map]
      exact List.Pairwise.imp (fun _ => le_refl _) (List.pairwise_of_forall (fun _ _ => trivial))
    · intro a ha b hb
      simp only [List.mem_map] at ha
      obtain ⟨c, _, rfl⟩ := ha
      obtain ⟨d, hd⟩ : ∃ d, b = (b.1, d) := ⟨b.2, rfl⟩
      have : Has xs b.1 b.2 := (mem_pairs xs b.1 b.2).1 hb
      obtain ⟨cs, hcs, _⟩ := this
      exact le_of_lt (h.1 b.1 (List.mem_map.2 ⟨_, hcs, rfl⟩))

omit [DecidableEq K] in
/-- the result of the loops -/
theorem list_all {V : Type} (claires : C → Option (Claire K V)) (zombie : C → K) (ip : K → I) (activeOnly : Bool)
    (a : Acc C S K R) (ps : List (S × C)) (hs : ps.Pairwise fun a b => a.1 ≤ b.1)
    (hrep : ∀ q ∈ ps, (a.rep q.2).isSome) :
    ∃ m, ps.foldl (fun m q => listOne claires zombie ip activeOnly a q.1 m q.2) (some fun _ _ => none) = some m ∧
      ∀ i c row, m i c = some row ↔ skipped claires activeOnly c = false ∧ i = ip (locate claires zombie c) ∧
        ∃ s p, (s, c) ∈ ps ∧ (∀ s', (s', c) ∈ ps → s' ≤ s) ∧ a.rep c = some p ∧
          row = ⟨p.up, p.at_, s, c, locate claires zombie c, (resolve a.key p.deps).1, (resolve a.key p.deps).2, p.rest⟩ := by
  induction ps using List.reverseRecOn with
  | nil => exact ⟨_, rfl, by simp⟩
  | append_singleton ps q ih =>
    rw [List.pairwise_append] at hs
    obtain ⟨m, hm, hspec⟩ := ih hs.1 (fun q' hq' => hrep q' (by simp [hq']))
    obtain ⟨s, c⟩ := q
    have hlast : ∀ s', (s', c) ∈ ps → s' ≤ s := fun s' h => hs.2.2 _ h (s, c) (by simp)
    obtain ⟨p, hp⟩ := Option.isSome_iff_exists.1 (hrep (s, c) (by simp))
    rw [List.foldl_append, hm]
    simp only [List.foldl_cons, List.foldl_nil, listOne]
    replace hp : a.rep c = some p := hp
    rw [hp]
    dsimp only
    by_cases hsk : skipped claires activeOnly c = true
    · rw [if_pos hsk]
      refine ⟨m, rfl, fun i d row => ?_⟩
      rw [hspec]
      by_cases hd : d = c
      · subst hd; simp [hsk]
      · simp [hd]
    · rw [if_neg hsk]
      refine ⟨_, rfl, fun i d row => ?_⟩
      by_cases hd : d = c
      · subst hd
        by_cases hi : i = ip (locate claires zombie d)
        · simp only [put, hi, if_true]
          constructor
          · intro h
            injection h with h
            refine ⟨by simpa using hsk, trivial, s, p, by simp, ?_, hp, h.symm⟩
            intro s' hs'
            rcases List.mem_append.1 hs' with h | h
            · exact hlast s' h
            · simp at h; rw [h]
          · rintro ⟨_, _, s', p', h1, h2, h3, rfl⟩
            rw [hp] at h3; injection h3 with h3; subst h3
            have : s' = s := le_antisymm (by
              rcases List.mem_append.1 h1 with h | h
              · exact hlast s' h
              · simp at h; rw [h]) (h2 s (by simp))
            rw [this]
        · simp only [put, hi, if_false, false_and, and_false, iff_false]
          intro h
          rw [hspec] at h
          exact hi h.2.1
      · have : put m (ip (locate claires zombie c)) (put (m (ip (locate claires zombie c))) c
            (some (⟨p.up, p.at_, s, c, locate claires zombie c, (resolve a.key p.deps).1, (resolve a.key p.deps).2, p.rest⟩ :
              Row C S K R))) i d = m i d := by
          by_cases hi : i = ip (locate claires zombie c)
          · subst hi; simp [put, hd]
          · simp [put, hi]
        rw [this, hspec]
        simp [hd]

omit [LinearOrder C] [DecidableEq K] in
theorem split_iff {D : K → C → Prop} {key : K → Option C} (hk : ∀ k d, key k = some d ↔ D k d) (ks : List K) (cs : List C)
    (us : List K) : Split D ks cs us ↔ (cs, us) = resolve key ks := by
  induction ks generalizing cs us with
  | nil =>
    constructor
    · intro h; cases h; rfl
    · intro h; simp only [resolve, Prod.mk.injEq] at h; obtain ⟨rfl, rfl⟩ := h; exact .nil
  | cons k ks ih =>
    constructor
    · intro h
      cases h with
      | found h1 h2 =>
        rw [← hk] at h1
        have := (ih _ _).1 h2
        simp only [resolve, h1, ← this]
      | missing h1 h2 =>
        have hn : key k = none := by
          cases h : key k with
          | none => rfl
          | some c => exact absurd ((hk k c).1 h) (h1 c)
        have := (ih _ _).1 h2
        simp only [resolve, hn, ← this]
    · intro h
      cases hc : key k with
      | none =>
        simp only [resolve, hc, Prod.mk.injEq] at h
        obtain ⟨rfl, rfl⟩ := h
        exact .missing (fun c hd => by rw [← hk, hc] at hd; cases hd) ((ih _ _).2 rfl)
      | some c =>
        simp only [resolve, hc, Prod.mk.injEq] at h
        obtain ⟨rfl, rfl⟩ := h
        exact .found ((hk k c).1 hc) ((ih _ _).2 rfl)

omit [LinearOrder C] [DecidableEq K] in
theorem isAt_iff {V : Type} (claires : C → Option (Claire K V)) (zombie : C → K) (c : C) (k : K) :
    IsAt claires zombie c k ↔ k = locate claires zombie c := by
  unfold IsAt locate
  cases claires c <;> simp

/-- The report.  Let `w` be the keepalives received from `from_` to `to_`, both included.  A service is listed on machine `i`
exactly if it is in `w`, `i` is the ip of where the storage says it is, and, if only active services are asked for, the
storage does not say that it is not active.  Its row shows the last of its keepalives in `w`: when it was received, whether
that is less than the timeout ago, its contents, and its dependencies, each of which is the service that was the last to
send a keepalive in `w` from that address.  As the name of the service is shown the greatest of the names it has sent in
`w`. -/
theorem report_exact {V : Type} (k : Codec (Entry C S K R)) (keepalives : Mem (Entry C S K R))
    (hr : Current.Persist.Reachable k keepalives) (all : List (IdxTs × Entry C S K R))
    (hall : keepalives.iterate 0 none = .ok all)
    (timeout now from_ to_ : Int) (h0 : 0 < to_) (hft : from_ ≤ to_)
    (claires : C → Option (Claire K V)) (zombie : C → K) (ip : K → I) (activeOnly : Bool) :
    ∃ m, fleet timeout now from_ to_ keepalives claires zombie ip activeOnly = some m ∧
      ∀ i c row, m i c = some row ↔
        (activeOnly = true → ∀ x, claires c = some x → x.reg = .active) ∧
        (∃ l, IsAt claires zombie c l ∧ i = ip l) ∧
        ∃ x, LastWith (fun y => y.2.codename = c) (window from_ to_ all) x ∧
          Shows timeout now claires zombie (window from_ to_ all) x row ∧
          (∃ y ∈ window from_ to_ all, y.2.codename = c ∧ y.2.service = row.service) ∧
          ∀ y ∈ window from_ to_ all, y.2.codename = c → y.2.service ≤ row.service := by
  have hit := (Current.Persist.iterate_time_exact k keepalives hr from_ to_ all hall).1 (by omega)
  have hw : (all.filter fun x => decide (Current.Persist.InWindow from_ to_ x.1.us)) = window from_ to_ all := by
    unfold window
    apply List.filter_congr
    intro x _
    apply decide_eq_decide.2
    unfold Current.Persist.InWindow
    omega
  rw [hw] at hit
  generalize hwd : window from_ to_ all = w at *
  have hc := collected timeout now w
  simp only [fleet, hit]
  rw [foldl_pairs (fun s m c => listOne claires zombie ip activeOnly (collectAll timeout now w) s m c)]
  obtain ⟨m, hm, hspec⟩ := list_all claires zombie ip activeOnly (collectAll timeout now w)
    (pairs (collectAll timeout now w).per) (sorted_pairs _ hc.sorted) (by
      rintro ⟨s, c⟩ hq
      obtain ⟨x, hx, _, hxc⟩ := (hc.per s c).1 ((mem_pairs ..).1 hq)
      obtain ⟨y, hy⟩ := lastWith_exists (fun y => y.2.codename = c) w ⟨x, hx, hxc⟩
      exact Option.isSome_iff_exists.2 ⟨_, (hc.rep c _).2 ⟨y, hy, rfl⟩⟩)
  refine ⟨m, hm, fun i c row => ?_⟩
  rw [hspec]
  have hskip : skipped claires activeOnly c = false ↔
      (activeOnly = true → ∀ x, claires c = some x → x.reg = .active) := by
    unfold skipped
    cases activeOnly <;> cases claires c <;> simp
  rw [hskip]
  have hpairs : ∀ s, (s, c) ∈ pairs (collectAll timeout now w).per ↔ ∃ y ∈ w, y.2.codename = c ∧ y.2.service = s := by
    intro s
    rw [mem_pairs, hc.per]
    exact ⟨fun ⟨y, h1, h2, h3⟩ => ⟨y, h1, h3, h2⟩, fun ⟨y, h1, h2, h3⟩ => ⟨y, h1, h3, h2⟩⟩
  refine and_congr_right fun _ => ?_
  simp only [isAt_iff, exists_eq_left]
  refine and_congr_right fun _ => ?_
  constructor
  · rintro ⟨s, p, h1, h2, h3, rfl⟩
    obtain ⟨x, hx, rfl⟩ := (hc.rep c p).1 h3
    refine ⟨x, hx, ⟨(lastWith_mem hx).2.symm, ?_, rfl, rfl, ?_, ?_⟩, (hpairs s).1 h1, ?_⟩
    · simp only [decide_eq_true_eq]; omega
    · rw [isAt_iff, (lastWith_mem hx).2]
    · exact (split_iff hc.key _ _ _).2 rfl
    · intro y hy hyc
      exact h2 _ ((hpairs _).2 ⟨y, hy, hyc, rfl⟩)
  · rintro ⟨x, hx, hsh, h1, h2⟩
    refine ⟨row.service, _, (hpairs _).2 h1, ?_, (hc.rep c _).2 ⟨x, hx, rfl⟩, ?_⟩
    · intro s' hs'
      obtain ⟨y, hy, hyc, rfl⟩ := (hpairs s').1 hs'
      exact h2 y hy hyc
    · have hd := (split_iff hc.key _ _ _).1 hsh.deps
      have hl := (isAt_iff ..).1 hsh.location
      have hxc := (lastWith_mem hx).2
      obtain ⟨up, at_, sv, cn, loc, deps, unr, rest⟩ := row
      have h1 := hsh.codename
      have h3 := hsh.up
      have h4 := hsh.at_
      have h5 := hsh.rest
      simp only at h1 h3 h4 h5 hd hl hxc ⊢
      have h6 : up = decide (now - x.1.us < timeout) := by
        rw [Bool.eq_iff_iff, h3]; simp only [decide_eq_true_eq]; omega
      rw [← hd, h6, h4, h5, hl, h1, hxc]

/-- If a service has always called itself by the same name, that is the name it is listed under. -/
theorem report_service_partial {V : Type} (k : Codec (Entry C S K R)) (keepalives : Mem (Entry C S K R))
    (hr : Current.Persist.Reachable k keepalives) (all : List (IdxTs × Entry C S K R))
    (hall : keepalives.iterate 0 none = .ok all)
    (timeout now from_ to_ : Int) (h0 : 0 < to_) (hft : from_ ≤ to_)
    (claires : C → Option (Claire K V)) (zombie : C → K) (ip : K → I) (activeOnly : Bool)
    (m : Machines I C S K R) (hm : fleet timeout now from_ to_ keepalives claires zombie ip activeOnly = some m)
    (i : I) (c : C) (row : Row C S K R) (hrow : m i c = some row)
    (x : IdxTs × Entry C S K R) (_hx : LastWith (fun y => y.2.codename = c) (window from_ to_ all) x)
    (hsame : ∀ y ∈ window from_ to_ all, y.2.codename = c → y.2.service = x.2.service) :
    row.service = x.2.service := by
  obtain ⟨m', hm', hspec⟩ := report_exact k keepalives hr all hall timeout now from_ to_ h0 hft claires zombie ip activeOnly
  rw [hm] at hm'
  injection hm' with hm'
  subst hm'
  obtain ⟨_, _, _, _, _, ⟨y, hy, hyc, hys⟩, _⟩ := (hspec i c row).1 hrow
  rw [← hys]
  exact hsame y hy hyc

/-- A window that ends before it begins is refused. -/
theorem report_refused {V : Type} (k : Codec (Entry C S K R)) (keepalives : Mem (Entry C S K R))
    (hr : Current.Persist.Reachable k keepalives) (all : List (IdxTs × Entry C S K R))
    (hall : keepalives.iterate 0 none = .ok all)
    (timeout now from_ to_ : Int) (h0 : 0 < to_) (hft : to_ < from_)
    (claires : C → Option (Claire K V)) (zombie : C → K) (ip : K → I) (activeOnly : Bool) :
    fleet timeout now from_ to_ keepalives claires zombie ip activeOnly = none := by
  simp only [fleet, (Current.Persist.iterate_time_exact k keepalives hr from_ to_ all hall).2 ⟨h0, hft⟩]
end

/-! ## Concrete reports -/

/-- four keepalives: service 1 from address 10, service 2 from 20, which depends on 10, 30 and 99; service 3 from 30 -/
def log : Mem (Entry Nat Nat Nat Unit) :=
  ⟨[(5, ⟨10, 1, 7, [], ()⟩), (6, ⟨20, 2, 7, [10, 30, 99], ()⟩), (7, ⟨30, 3, 8, [], ()⟩), (20, ⟨10, 1, 7, [20], ()⟩)], 20⟩

def stored : Nat → Option (Claire Nat Unit)
  | 1 => some ⟨(), 10, 20, .active⟩
  | 2 => some ⟨(), 20, 6, .deregistered⟩
  | _ => none

set_option synthInstance.maxSize 8192 in
set_option synthInstance.maxHeartbeats 400000 in
/-- The storage knows nothing of service 3.  It is in the report, also if only the active services are asked for. -/
theorem demo_report :
    (fleet 10 22 0 22 log stored (fun c => 1000 + c) (fun k : Nat => k / 100) false).map
      (fun m => (m 0 1, m 0 2, m 10 3, m 0 3)) =
    some (some ⟨true, 20, 7, 1, 10, [2], [], ()⟩, some ⟨false, 6, 7, 2, 20, [1, 3], [99], ()⟩,
      some ⟨false, 7, 8, 3, 1003, [], [], ()⟩, none) ∧
    (fleet 10 22 0 22 log stored (fun c => 1000 + c) (fun k : Nat => k / 100) true).map
      (fun m => (m 0 1, m 0 2, m 10 3)) =
    some (some ⟨true, 20, 7, 1, 10, [2], [], ()⟩, none, some ⟨false, 7, 8, 3, 1003, [], [], ()⟩) := by
  decide +kernel

/-- The hypotheses of `report_exact` are met by a log that was published. -/
example (k : Codec (Entry Nat Nat Nat Unit)) : Current.Persist.Reachable k log ∧
    ∃ all, log.iterate 0 none = .ok all ∧ all.length = 4 :=
  ⟨⟨[.publish ⟨10, 1, 7, [], ()⟩ 5, .publish ⟨20, 2, 7, [10, 30, 99], ()⟩ 6,
      .publish ⟨30, 3, 8, [], ()⟩ 7, .publish ⟨10, 1, 7, [20], ()⟩ 20], rfl⟩, _, rfl, rfl⟩

/-- Codename 1 used to be service 9 and is now service 8.  It is listed as service 9, with what service 8 has sent. -/
theorem report_old_service :
    (fleet 10 22 0 22 (⟨[(5, ⟨10, 1, 9, [], "old"⟩), (20, ⟨10, 1, 8, [], "new"⟩)], 20⟩ : Mem (Entry Nat Nat Nat String))
      stored (fun c => 1000 + c) (fun k : Nat => k / 100) false).map (fun m => m 0 1) =
    some (some ⟨true, 20, 9, 1, 10, [], [], "new"⟩) := by
  decide +kernel
end Report
end Current.Karl
