import Verif.Schema.Dfs
/-!
The schema (C95): every type which a user's type is made of is in the schema, once, and stands before the types made of it.
-/
namespace Current.Schema
open Relation Current.Persist

/-! ### The specification -/

/-- The same type, its parts renamed. -/
def Def.rename {α β : Type} (f : α → β) : Def α → Def β
  | .prim i => .prim i
  | .enum u => .enum (f u)
  | .array e n => .array (f e) n
  | .vector e => .vector (f e)
  | .pair a b => .pair (f a) (f b)
  | .map a b => .map (f a) (f b)
  | .umap a b => .umap (f a) (f b)
  | .set e => .set (f e)
  | .uset e => .uset (f e)
  | .opt e => .opt (f e)
  | .variant cs => .variant (cs.map f)
  | .struct s i fs => .struct (s.map f) (i.map f) (fs.map fun x => (x.1, f x.2))

/-- `b` is used in the definition of `a`: as an element, a key or a value, an alternative, an underlying type, the parent or the type of a field. -/
inductive Uses (G : Types) (a : Nat) : Nat → Prop
  | enum {u} : (G a).d = .enum u → Uses G a u
  | array {e n} : (G a).d = .array e n → Uses G a e
  | vector {e} : (G a).d = .vector e → Uses G a e
  | pair1 {x y} : (G a).d = .pair x y → Uses G a x
  | pair2 {x y} : (G a).d = .pair x y → Uses G a y
  | map1 {x y} : (G a).d = .map x y → Uses G a x
  | map2 {x y} : (G a).d = .map x y → Uses G a y
  | umap1 {x y} : (G a).d = .umap x y → Uses G a x
  | umap2 {x y} : (G a).d = .umap x y → Uses G a y
  | set {e} : (G a).d = .set e → Uses G a e
  | uset {e} : (G a).d = .uset e → Uses G a e
  | opt {e} : (G a).d = .opt e → Uses G a e
  | variant {cs k} : (G a).d = .variant cs → k ∈ cs → Uses G a k
  | super {s i fs} : (G a).d = .struct (some s) i fs → Uses G a s
  | field {s i fs nm k} : (G a).d = .struct s i fs → (nm, k) ∈ fs → Uses G a k

/-- Used, directly or not. -/
def UsedBy (G : Types) (ts : List Nat) (u : Nat) : Prop := ∃ r ∈ ts, ReflTransGen (Uses G) r u

def Primitive (G : Types) (u : Nat) : Prop := ∃ i, (G u).d = .prim i

/-- A schema for the types `ts`. -/
structure SchemaOf (G : Types) (cid : Nat → UInt64) (ts : List Nat) (s : Schema) : Prop where
  /-- every type used is there, with its name and its parts; nothing else is -/
  types : ∀ id r, (id, r) ∈ s.types ↔ ∃ u, UsedBy G ts u ∧ id = cid u ∧ r = { id := cid u, name := (G u).name, d := (G u).d.rename cid }
  /-- once -/
  once : (s.types.map (·.1)).Nodup
  /-- the types which are not primitive are in the order … -/
  order : ∀ id, id ∈ s.order ↔ ∃ u, UsedBy G ts u ∧ ¬ Primitive G u ∧ id = cid u
  orderOnce : s.order.Nodup
  /-- … the used before the user, unless each uses the other -/
  sorted : ∀ a b, UsedBy G ts a → Uses G a b → ¬ Primitive G b → ¬ ReflTransGen (Uses G) b a → Precedes (cid b) (cid a) s.order

/-! ### The proof -/

theorem fill_rename {α β : Type} (d : Def α) (f : α → β) (x : β) : d.fill (d.parts.map f) x = d.rename f := by
  cases d with
  | struct s i fs =>
    cases s <;> cases i <;>
      simp [Def.fill, Def.parts, Def.rename, List.zip_map', Function.comp_def]
  | _ => simp [Def.fill, Def.parts, Def.rename]

theorem rename_deps {α β : Type} (d : Def α) (f : α → β) : (d.rename f).deps = d.deps.map f := by
  cases d with
  | struct s i fs => cases s <;> simp [Def.deps, Def.rename]
  | _ => simp [Def.deps, Def.parts, Def.rename]

theorem rename_prim {α β : Type} (d : Def α) (f : α → β) : isPrim (d.rename f) = isPrim d := by
  cases d <;> rfl

theorem deps_parts {α : Type} (d : Def α) {k : α} (h : k ∈ d.deps) : k ∈ d.parts := by
  cases d <;> simp_all [Def.deps, Def.parts]
  rcases h with h | h
  · exact .inl h
  · exact .inr (.inr h)

theorem uses_deps (G : Types) (a b : Nat) : Uses G a b ↔ b ∈ (G a).d.deps := by
  constructor
  · rintro (h | h | h | h | h | h | h | h | h | h | h | h | h | h | h)
    all_goals (rw [h]; simp [Def.deps, Def.parts])
    · assumption
    · right; exact ⟨_, ‹_›⟩
  · intro h
    cases hd : (G a).d with
    | struct s i fs =>
      rw [hd] at h
      simp only [Def.deps, List.mem_append, Option.mem_toList, List.mem_map] at h
      rcases h with h | ⟨x, hx, rfl⟩
      · cases h; exact .super hd
      · exact .field hd hx
    | pair x y => rw [hd] at h; simp [Def.deps, Def.parts] at h; rcases h with rfl | rfl; exact .pair1 hd; exact .pair2 hd
    | map x y => rw [hd] at h; simp [Def.deps, Def.parts] at h; rcases h with rfl | rfl; exact .map1 hd; exact .map2 hd
    | umap x y => rw [hd] at h; simp [Def.deps, Def.parts] at h; rcases h with rfl | rfl; exact .umap1 hd; exact .umap2 hd
    | variant cs => rw [hd] at h; exact .variant hd h
    | prim i => rw [hd] at h; simp [Def.deps, Def.parts] at h
    | enum u => rw [hd] at h; simp [Def.deps, Def.parts] at h; subst h; exact .enum hd
    | array u => rw [hd] at h; simp [Def.deps, Def.parts] at h; subst h; exact .array hd
    | vector u => rw [hd] at h; simp [Def.deps, Def.parts] at h; subst h; exact .vector hd
    | set u => rw [hd] at h; simp [Def.deps, Def.parts] at h; subst h; exact .set hd
    | uset u => rw [hd] at h; simp [Def.deps, Def.parts] at h; subst h; exact .uset hd
    | opt u => rw [hd] at h; simp [Def.deps, Def.parts] at h; subst h; exact .opt hd

theorem primitive_iff (G : Types) (u : Nat) : Primitive G u ↔ isPrim (G u).d = true := by
  unfold Primitive
  cases (G u).d <;> simp [isPrim]

/-! #### The reflector -/

section Reflect
variable (G : Types) (cid vid : Nat → UInt64) (n : Nat)

/-- What reflecting adds to the map. -/
structure Reflects (ts : List Nat) (m m' : ReflMap) : Prop where
  keeps : ∀ k, m k ≠ none → m' k = m k
  adds : ∀ k, m k = none → m' k = none ∨ ∃ u < n, k = cid u ∧ m' k = some (reflOf G cid vid u) ∧ ∀ p ∈ (G u).d.parts, m' (cid p) ≠ none
  has : ∀ t ∈ ts, m' (cid t) ≠ none

theorem Reflects.mono {ts : List Nat} {m m' : ReflMap} (h : Reflects G cid vid n ts m m') (k : UInt64) (hk : m k ≠ none) : m' k ≠ none := by
  rw [h.keeps k hk]; exact hk

theorem threadM_reflects {f : Nat → ReflMap → Option ReflMap} (ts : List Nat)
    (hf : ∀ t ∈ ts, ∀ m m', f t m = some m' → Reflects G cid vid n [t] m m') (m m' : ReflMap) (h : threadM f ts m = some m') :
    Reflects G cid vid n ts m m' := by
  induction ts generalizing m with
  | nil =>
    simp only [threadM, Option.some.injEq] at h
    subst h
    exact ⟨fun _ _ => rfl, fun _ h => .inl h, by simp⟩
  | cons t ts ih =>
    simp only [threadM] at h
    split at h
    · cases h
    · rename_i m1 h1
      have e := hf t List.mem_cons_self m m1 h1
      have e' := ih (fun u hu => hf u (List.mem_cons_of_mem _ hu)) m1 h
      refine ⟨?_, ?_, ?_⟩
      · intro k hk
        rw [e'.keeps k (e.mono G cid vid n k hk), e.keeps k hk]
      · intro k hk
        by_cases hk1 : m1 k = none
        · exact e'.adds k hk1
        · rcases e.adds k hk with h2 | ⟨u, hu, rfl, h3, h4⟩
          · exact absurd h2 hk1
          · exact .inr ⟨u, hu, rfl, by rw [e'.keeps _ hk1, h3], fun p hp => e'.mono G cid vid n _ (h4 p hp)⟩
      · intro u hu
        rcases List.mem_cons.1 hu with rfl | hu
        · exact e'.mono G cid vid n _ (e.has u List.mem_cons_self)
        · exact e'.has u hu

theorem reflect_spec (hcl : Closed G n) (depth t : Nat) (ht : t < n) (m m' : ReflMap) (h : reflect G cid vid depth t m = some m') :
    Reflects G cid vid n [t] m m' := by
  induction depth generalizing t m m' with
  | zero => simp [reflect] at h
  | succ depth ih =>
    simp only [reflect] at h
    by_cases hs : (m (cid t)).isSome
    · rw [if_pos hs] at h
      simp only [Option.some.injEq] at h
      subst h
      refine ⟨fun _ _ => rfl, fun _ h => .inl h, ?_⟩
      intro u hu
      rw [List.mem_singleton] at hu
      subst hu
      intro hc
      rw [hc] at hs
      cases hs
    · rw [if_neg hs] at h
      have hn : m (cid t) = none := by
        cases hc : m (cid t) with
        | none => rfl
        | some _ => rw [hc] at hs; exact absurd rfl hs
      split at h
      · cases h
      · rename_i m2 h2
        simp only [Option.some.injEq] at h
        subst h
        have e := threadM_reflects G cid vid n _ (fun k hk => ih k (hcl t ht k hk)) _ m2 h2
        have hp : ∀ k, m2 k ≠ none → (m2.put (cid t) (reflOf G cid vid t)) k ≠ none := by
          intro k hk
          unfold ReflMap.put
          split <;> simp_all
        refine ⟨?_, ?_, ?_⟩
        · intro k hk
          have hne : k ≠ cid t := by rintro rfl; exact hk hn
          have h3 := e.keeps k (by unfold ReflMap.put; rw [if_neg hne]; exact hk)
          unfold ReflMap.put at h3 ⊢
          rw [if_neg hne] at h3
          rw [if_neg hne, h3]
        · intro k hk
          by_cases hne : k = cid t
          · right
            refine ⟨t, ht, hne, by unfold ReflMap.put; rw [if_pos hne], fun p hp' => hp _ (e.has p hp')⟩
          · rcases e.adds k (by unfold ReflMap.put; rw [if_neg hne]; exact hk) with h3 | ⟨u, hu, rfl, h3, h4⟩
            · left; unfold ReflMap.put; rw [if_neg hne]; exact h3
            · right
              exact ⟨u, hu, rfl, by unfold ReflMap.put; rw [if_neg hne]; exact h3, fun p hp' => hp _ (h4 p hp')⟩
        · intro u hu
          rw [List.mem_singleton] at hu
          subst hu
          unfold ReflMap.put
          rw [if_pos rfl]; simp

/-- The number of types not in the map. -/
def absent (m : ReflMap) : Nat := ((List.range n).filter fun t => (m (cid t)).isNone).length

theorem absent_le {m m' : ReflMap} (h : ∀ k, m k ≠ none → m' k ≠ none) : absent cid n m' ≤ absent cid n m := by
  apply filter_le
  intro x hx
  rw [Option.isNone_iff_eq_none] at hx ⊢
  exact Classical.byContradiction fun hc => h _ hc hx

/-- Reflecting a type ends, also when it is recursive. -/
theorem reflect_ends (hcl : Closed G n) (depth t : Nat) (ht : t < n) (m : ReflMap) (hd : absent cid n m < depth) : reflect G cid vid depth t m ≠ none := by
  induction depth generalizing t m with
  | zero => omega
  | succ depth ih =>
    simp only [reflect]
    by_cases hs : (m (cid t)).isSome
    · rw [if_pos hs]; simp
    · rw [if_neg hs]
      have hlt : absent cid n (m.put (cid t) ⟨uninit, [], .prim 0⟩) < absent cid n m := by
        refine filter_lt _ _ _ ?_ t (List.mem_range.2 ht) (by simpa using hs) (by simp [ReflMap.put])
        intro x hx
        unfold ReflMap.put at hx
        split at hx
        · cases hx
        · exact hx
      have hall : ∀ (ts : List Nat) (a : ReflMap), (∀ k ∈ ts, k < n) → absent cid n a < depth → threadM (reflect G cid vid depth) ts a ≠ none := by
        intro ts
        induction ts with
        | nil => intro a _ _; simp [threadM]
        | cons k ts ih2 =>
          intro a hts ha
          simp only [threadM]
          cases hk : reflect G cid vid depth k a with
          | none => exact absurd hk (ih k (hts k List.mem_cons_self) a ha)
          | some a1 =>
            exact ih2 a1 (fun j hj => hts j (List.mem_cons_of_mem _ hj))
              (Nat.lt_of_le_of_lt (absent_le cid n (reflect_spec G cid vid n hcl depth k (hts k List.mem_cons_self) a a1 hk).mono) ha)
      have := hall (G t).d.parts (m.put (cid t) ⟨uninit, [], .prim 0⟩) (hcl t ht) (by omega)
      cases hr : threadM (reflect G cid vid depth) (G t).d.parts (m.put (cid t) ⟨uninit, [], .prim 0⟩) with
      | none => exact absurd hr this
      | some r => simp

/-- Between calls the map holds only complete entries, with all their parts. -/
def GoodMap (m : ReflMap) : Prop := ∀ k, m k = none ∨ ∃ u < n, k = cid u ∧ m k = some (reflOf G cid vid u) ∧ ∀ p ∈ (G u).d.parts, m (cid p) ≠ none

theorem Reflects.good {ts : List Nat} {m m' : ReflMap} (h : Reflects G cid vid n ts m m') (hg : GoodMap G cid vid n m) : GoodMap G cid vid n m' := by
  intro k
  by_cases hk : m k = none
  · exact h.adds k hk
  · rcases hg k with h1 | ⟨u, hu, rfl, h2, h3⟩
    · exact absurd h1 hk
    · exact .inr ⟨u, hu, rfl, by rw [h.keeps _ hk, h2], fun p hp => h.mono G cid vid n _ (h3 p hp)⟩

/-! #### The traverser -/

def toSchema (s : Trav) : Schema := ⟨s.seen.map fun u => (cid u, reflOf G cid vid u), s.ord.map cid⟩

def depsOf (t : Nat) : List Nat := (G t).d.deps
def leafOf (t : Nat) : Bool := isPrim (G t).d

/-- A program without `std::array`, whose ids do not collide. -/
structure Plain : Prop where
  noArrays : ∀ t < n, ∀ e k, (G t).d ≠ .array e k
  inj : ∀ t < n, ∀ u < n, cid t = cid u → t = u
  closed : Closed G n

variable {G cid vid n}

theorem Plain.refl (hp : Plain G cid n) {t : Nat} (ht : t < n) : reflOf G cid vid t = ⟨cid t, (G t).name, (G t).d.rename cid⟩ := by
  unfold reflOf
  rw [fill_rename]
  congr 1
  cases hd : (G t).d with
  | array e k => exact absurd hd (hp.noArrays t ht e k)
  | _ => rfl

theorem toSchema_has (hp : Plain G cid n) {s : Trav} (hs : ∀ x ∈ s.seen, x < n) {t : Nat} (ht : t < n) :
    (toSchema G cid vid s).has (cid t) = decide (t ∈ s.seen) := by
  rw [Bool.eq_iff_iff]
  simp only [Schema.has, toSchema, List.any_map, List.any_eq_true, Function.comp, beq_iff_eq, decide_eq_true_eq]
  constructor
  · rintro ⟨x, hx, he⟩
    rw [← hp.inj x (hs x hx) t ht he]; exact hx
  · exact fun h => ⟨t, h, rfl⟩

theorem dfs_bound {deps : Nat → List Nat} {leaf : Nat → Bool} (hcl : ∀ t < n, ∀ k ∈ deps t, k < n) (depth t : Nat) (ht : t < n) (s s' : Trav)
    (h : dfs deps leaf depth t s = some s') (hs : ∀ x ∈ s.seen, x < n) : ∀ x ∈ s'.seen, x < n := by
  induction depth generalizing t s s' with
  | zero => simp [dfs] at h
  | succ depth ih =>
    simp only [dfs] at h
    split at h
    · simp only [Option.some.injEq] at h; subst h; exact hs
    · split at h
      · cases h
      · rename_i s2 h2
        have hall : ∀ (ts : List Nat) (a b : Trav), (∀ k ∈ ts, k < n) → dfsAll (dfs deps leaf depth) ts a = some b → (∀ x ∈ a.seen, x < n) → ∀ x ∈ b.seen, x < n := by
          intro ts
          induction ts with
          | nil => intro a b _ hab ha; simp only [dfsAll, Option.some.injEq] at hab; subst hab; exact ha
          | cons k ts ih2 =>
            intro a b hts hab ha
            simp only [dfsAll] at hab
            split at hab
            · cases hab
            · rename_i a1 h1
              exact ih2 a1 b (fun j hj => hts j (List.mem_cons_of_mem _ hj)) hab (ih k (hts k List.mem_cons_self) a a1 h1 ha)
        have := hall _ _ _ (hcl t ht) h2 (by
          intro x hx
          rcases List.mem_append.1 hx with hx | hx
          · exact hs x hx
          · rw [List.mem_singleton] at hx; subst hx; exact ht)
        simp only [Option.some.injEq] at h
        subst h
        split <;> exact this

theorem Plain.depsClosed (hp : Plain G cid n) : ∀ t < n, ∀ k ∈ depsOf G t, k < n := fun t ht k hk => hp.closed t ht k (deps_parts _ hk)

/-- The traverser is a depth-first traversal. -/
theorem traverse_dfs (hp : Plain G cid n) {m : ReflMap} (hm : GoodMap G cid vid n m) (depth t : Nat) (ht : t < n) (hmt : m (cid t) ≠ none) (s : Trav) (hs : ∀ x ∈ s.seen, x < n) :
    traverse m depth (reflOf G cid vid t) (toSchema G cid vid s) =
      match dfs (depsOf G) (leafOf G) depth t s with
      | none => .tooDeep
      | some s' => .ok (toSchema G cid vid s') := by
  induction depth generalizing t s with
  | zero => rfl
  | succ depth ih =>
    have hr := hp.refl (vid := vid) ht
    have hid : (reflOf G cid vid t).id = cid t := by rw [hr]
    have hd : (reflOf G cid vid t).d.deps = (depsOf G t).map cid := by rw [hr]; exact rename_deps _ _
    have hl : isPrim (reflOf G cid vid t).d = leafOf G t := by rw [hr]; exact rename_prim _ _
    simp only [traverse, dfs, hid, toSchema_has hp hs ht]
    by_cases hts : t ∈ s.seen
    · simp [hts]
    · simp only [decide_eq_true_eq, if_neg hts]
      have hentry : ∀ k < n, m (cid k) ≠ none → m (cid k) = some (reflOf G cid vid k) ∧ ∀ p ∈ (G k).d.parts, m (cid p) ≠ none := by
        intro k hk hne
        rcases hm (cid k) with h | ⟨u, hu, he, h2, h3⟩
        · exact absurd h hne
        · rw [hp.inj k hk u hu he] at *
          exact ⟨h2, h3⟩
      have hall : ∀ (ts : List Nat) (a : Trav), (∀ k ∈ ts, k < n ∧ m (cid k) ≠ none) → (∀ x ∈ a.seen, x < n) →
          traverseAll (traverse m depth) m (ts.map cid) (toSchema G cid vid a) =
            match dfsAll (dfs (depsOf G) (leafOf G) depth) ts a with
            | none => .tooDeep
            | some s' => .ok (toSchema G cid vid s') := by
        intro ts
        induction ts with
        | nil => intro a _ _; rfl
        | cons k ts ih2 =>
          intro a hts ha
          obtain ⟨hk, hk2⟩ := hts k List.mem_cons_self
          simp only [List.map_cons, traverseAll, (hentry k hk hk2).1, ih k hk hk2 a ha, dfsAll]
          cases hdk : dfs (depsOf G) (leafOf G) depth k a with
          | none => rfl
          | some a1 =>
            exact ih2 a1 (fun j hj => hts j (List.mem_cons_of_mem _ hj)) (dfs_bound hp.depsClosed depth k hk a a1 hdk ha)
      have h1 : ({ toSchema G cid vid s with types := (toSchema G cid vid s).types ++ [(cid t, reflOf G cid vid t)] } : Schema) =
          toSchema G cid vid { s with seen := s.seen ++ [t] } := by
        simp [toSchema]
      rw [h1, hd, hl, hall (depsOf G t) { s with seen := s.seen ++ [t] } ?_ ?_]
      · cases dfsAll (dfs (depsOf G) (leafOf G) depth) (depsOf G t) { s with seen := s.seen ++ [t] } with
        | none => rfl
        | some s2 =>
          cases leafOf G t <;> simp [toSchema]
      · exact fun k hk => ⟨hp.depsClosed t ht k hk, (hentry t ht hmt).2 k (deps_parts _ hk)⟩
      · intro x hx
        rcases List.mem_append.1 hx with hx | hx
        · exact hs x hx
        · rw [List.mem_singleton] at hx; subst hx; exact ht

/-- The traversal from several roots, one after the other. -/
structure Explored (G : Types) (n : Nat) (ts : List Nat) (s : Trav) : Prop where
  inv : s.Inv (leafOf G)
  bound : ∀ x ∈ s.seen, x < n
  has : ∀ t ∈ ts, t ∈ s.seen
  reach : ∀ x ∈ s.seen, ∃ t ∈ ts, ReflTransGen (Dep (depsOf G)) t x
  written : ∀ x, x ∈ s.ord ↔ x ∈ s.seen ∧ leafOf G x = false
  closed : ∀ x ∈ s.seen, ∀ y ∈ depsOf G x, y ∈ s.seen
  sorted : ∀ x ∈ s.ord, ∀ y ∈ depsOf G x, leafOf G y = false → Precedes y x s.ord ∨ ReflTransGen (Dep (depsOf G)) y x

theorem explored_empty : Explored G n [] ⟨[], []⟩ :=
  ⟨⟨by simp, by simp, by simp, by simp⟩, by simp, by simp, by simp, by simp, by simp, by simp⟩

theorem Explored.more (hp : Plain G cid n) {ts : List Nat} {s : Trav} (h : Explored G n ts s) {t : Nat} (ht : t < n) :
    ∃ s' a b, dfs (depsOf G) (leafOf G) (n + 1) t s = some s' ∧ Explored G n (ts ++ [t]) s' ∧ s'.seen = s.seen ++ a ∧ s'.ord = s.ord ++ b := by
  cases hd : dfs (depsOf G) (leafOf G) (n + 1) t s with
  | none =>
    refine absurd hd (dfs_ends _ _ hp.depsClosed (n + 1) t s ht ?_)
    have : unseen n s ≤ n := by
      have := List.length_filter_le (fun t => decide (t ∉ s.seen)) (List.range n)
      rw [List.length_range] at this
      exact this
    omega
  | some s' =>
    obtain ⟨a, b, e⟩ := dfs_spec _ _ _ _ _ _ hd h.inv (fun y hy => absurd ((h.written y).2 ⟨hy.1, hy.2.1⟩) hy.2.2)
    refine ⟨s', a, b, rfl, ?_, e.seen, e.ord⟩
    refine ⟨e.inv, dfs_bound hp.depsClosed _ _ ht _ _ hd h.bound, ?_, ?_, ?_, ?_, ?_⟩
    · intro u hu
      rcases List.mem_append.1 hu with hu | hu
      · rw [e.seen]; exact List.mem_append_left _ (h.has u hu)
      · exact e.has u hu
    · intro x hx
      rw [e.seen] at hx
      rcases List.mem_append.1 hx with hx | hx
      · obtain ⟨r, hr, h1⟩ := h.reach x hx
        exact ⟨r, List.mem_append_left _ hr, h1⟩
      · obtain ⟨r, hr, h1⟩ := e.reach x hx
        exact ⟨r, List.mem_append_right _ hr, h1⟩
    · intro x
      rw [e.ord, e.seen, List.mem_append, List.mem_append, h.written, e.written]
      constructor
      · rintro (⟨g1, g2⟩ | ⟨g1, g2⟩)
        · exact ⟨.inl g1, g2⟩
        · exact ⟨.inr g1, g2⟩
      · rintro ⟨g1 | g1, g2⟩
        · exact .inl ⟨g1, g2⟩
        · exact .inr ⟨g1, g2⟩
    · intro x hx y hy
      have hx' := hx
      rw [e.seen] at hx'
      rcases List.mem_append.1 hx' with hx | hx
      · rw [e.seen]; exact List.mem_append_left _ (h.closed x hx y hy)
      · exact e.closed x hx y hy
    · intro x hx y hy hl
      have hx' := hx
      rw [e.ord] at hx'
      rcases List.mem_append.1 hx' with hx | hx
      · rcases h.sorted x hx y hy hl with g | g
        · left; rw [e.ord]; exact g.append _
        · exact .inr g
      · exact e.sorted x hx y hy hl

theorem addTypes_explores (hp : Plain G cid n) (us : List Nat) (hus : ∀ u ∈ us, u < n) (ts : List Nat) (s : Trav) (h : Explored G n ts s) (m : ReflMap) (hm : GoodMap G cid vid n m) :
    ∃ m' s' a b, addTypes G cid vid (n + 1) us m (toSchema G cid vid s) = some (m', .ok (toSchema G cid vid s')) ∧ GoodMap G cid vid n m' ∧ Explored G n (ts ++ us) s' ∧
      s'.seen = s.seen ++ a ∧ s'.ord = s.ord ++ b := by
  induction us generalizing ts s m with
  | nil => exact ⟨m, s, [], [], rfl, hm, by simpa using h, by simp, by simp⟩
  | cons t us ih =>
    have ht := hus t List.mem_cons_self
    cases hr : reflect G cid vid (n + 1) t m with
    | none =>
      refine absurd hr (reflect_ends G cid vid n hp.closed _ _ ht _ ?_)
      have := List.length_filter_le (fun t => (m (cid t)).isNone) (List.range n)
      rw [List.length_range] at this
      show absent cid n m < n + 1
      exact Nat.lt_succ_of_le this
    | some m1 =>
      have e := reflect_spec G cid vid n hp.closed _ _ ht _ _ hr
      have hm1 := e.good G cid vid n hm
      have hne := e.has t (by simp)
      have hent : m1 (cid t) = some (reflOf G cid vid t) := by
        rcases hm1 (cid t) with h | ⟨u, hu, he, h2, _⟩
        · exact absurd h hne
        · rw [h2, hp.inj t ht u hu he]
      obtain ⟨s1, a, b, h1, h2, h3, h4⟩ := h.more hp ht
      obtain ⟨m', s', a', b', g1, g2, g3, g4, g5⟩ := ih (fun u hu => hus u (List.mem_cons_of_mem _ hu)) (ts ++ [t]) s1 h2 m1 hm1
      refine ⟨m', s', a ++ a', b ++ b', ?_, g2, by simpa using g3, by rw [g4, h3, List.append_assoc], by rw [g5, h4, List.append_assoc]⟩
      simp only [addTypes, addType, hr, hent, traverse_dfs hp hm1 (n + 1) t ht hne s h.bound, h1, g1]

theorem dep_uses : Dep (depsOf G) = Uses G := by
  funext a b
  exact propext (uses_deps G a b).symm

theorem Explored.schema (hp : Plain G cid n) {ts : List Nat} {s : Trav} (h : Explored G n ts s) : SchemaOf G cid ts (toSchema G cid vid s) := by
  have hmem : ∀ u, UsedBy G ts u ↔ u ∈ s.seen := by
    intro u
    constructor
    · rintro ⟨r, hr, h1⟩
      induction h1 with
      | refl => exact h.has r hr
      | tail _ h2 ih => exact h.closed _ ih _ ((uses_deps G _ _).1 h2)
    · intro hu
      obtain ⟨r, hr, h1⟩ := h.reach u hu
      rw [dep_uses] at h1
      exact ⟨r, hr, h1⟩
  have hleaf : ∀ u, leafOf G u = false ↔ ¬ Primitive G u := by
    intro u
    rw [primitive_iff]
    unfold leafOf
    cases isPrim (G u).d <;> simp
  have hnodup : ∀ l : List Nat, (∀ x ∈ l, x < n) → l.Nodup → (l.map cid).Nodup := by
    intro l hl hn
    refine List.pairwise_map.2 (List.Pairwise.imp_of_mem ?_ hn)
    intro x y hx hy hne he
    exact hne (hp.inj x (hl x hx) y (hl y hy) he)
  refine ⟨?_, ?_, ?_, ?_, ?_⟩
  · intro id r
    simp only [toSchema, List.mem_map, Prod.mk.injEq]
    constructor
    · rintro ⟨u, hu, rfl, rfl⟩
      exact ⟨u, (hmem u).2 hu, rfl, hp.refl (h.bound u hu)⟩
    · rintro ⟨u, hu, rfl, rfl⟩
      have := (hmem u).1 hu
      exact ⟨u, this, rfl, hp.refl (h.bound u this)⟩
  · have := hnodup s.seen h.bound h.inv.nodupS
    simpa [toSchema, Function.comp_def] using this
  · intro id
    simp only [toSchema, List.mem_map]
    constructor
    · rintro ⟨u, hu, rfl⟩
      have := (h.written u).1 hu
      exact ⟨u, (hmem u).2 this.1, (hleaf u).1 this.2, rfl⟩
    · rintro ⟨u, h1, h2, rfl⟩
      exact ⟨u, (h.written u).2 ⟨(hmem u).1 h1, (hleaf u).2 h2⟩, rfl⟩
  · exact hnodup s.ord (fun x hx => h.bound x (h.inv.sub x hx)) h.inv.nodupO
  · intro a b ha hab hb hr
    have hd := (uses_deps G a b).1 hab
    have ha' : a ∈ s.ord := by
      refine (h.written a).2 ⟨(hmem a).1 ha, ?_⟩
      unfold leafOf
      cases hda : (G a).d <;> first | rfl | (rw [hda] at hd; simp [Def.deps, Def.parts] at hd)
    rcases h.sorted a ha' b hd ((hleaf b).2 hb) with g | g
    · exact g.map cid
    · rw [dep_uses] at g; exact absurd g hr

/-- C95. Whatever the types are, the exported schema is a schema for them: complete, without repetitions, and sorted; and adding types only appends to it. -/
theorem schema_is_complete_and_sorted (hp : Plain G cid n) (vid : Nat → UInt64) (ts us : List Nat) (hts : ∀ t ∈ ts, t < n) (hus : ∀ u ∈ us, u < n) :
    ∃ m s m' s', addTypes G cid vid (n + 1) ts (fun _ => none) ⟨[], []⟩ = some (m, .ok s) ∧ SchemaOf G cid ts s ∧
      addTypes G cid vid (n + 1) us m s = some (m', .ok s') ∧ SchemaOf G cid (ts ++ us) s' ∧ s.types <+: s'.types ∧ s.order <+: s'.order := by
  obtain ⟨m, s, _, _, h1, h2, h3, _, _⟩ := addTypes_explores (vid := vid) hp ts hts [] ⟨[], []⟩ explored_empty (fun _ => none) (fun _ => .inl rfl)
  obtain ⟨m', s', a, b, g1, g2, g3, g4, g5⟩ := addTypes_explores (vid := vid) hp us hus ts s h3 m h2
  refine ⟨m, _, m', _, h1, Explored.schema hp h3, g1, Explored.schema hp g3, ?_, ?_⟩
  · simp only [toSchema, g4, List.map_append]; exact List.prefix_append _ _
  · simp only [toSchema, g5, List.map_append]; exact List.prefix_append _ _

end Reflect
end Current.Schema
