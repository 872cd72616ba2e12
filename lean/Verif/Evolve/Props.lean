import Verif.Evolve.Model

/-!
# Properties of type evolution

`evolved` is the specification: the value an evolver makes of a value, with no destination that is modified.
-/
namespace Current.Evolve
open Current.Json (Ty Row Env)
open Current.Persist (Str)

/-! ## Specification -/

/-- all or the first error -/
def each {α β : Type} (f : α → Except Err β) : List α → Except Err (List β)
  | [] => .ok []
  | x :: xs => (f x).bind fun y => (each f xs).bind fun ys => .ok (y :: ys)

mutual
/-- the evolved value: of a vector, map, pair, optional, struct it is that of its parts, each in its place; of a variant that of
what it holds.  A custom evolver gets a new object. -/
def evolved (env : Env) : {a b : Ty} → Ev a b → a.den → Except Err b.den
  | _, _, .prim _, x => .ok x
  | _, _, .enumU w w', (x : BitVec w) => .ok (show BitVec w' from x.setWidth w')
  | _, _, .enumI w w', (x : BitVec w) => .ok (show BitVec w' from x.signExtend w')
  | _, _, @Ev.vec a _ e, (x : List a.den) => each (evolved env e) x
  | _, _, @Ev.pair a b c d e f, (x : a.den × c.den) =>
    (evolved env e x.1).bind fun p => (evolved env f x.2).bind fun q => .ok (show b.den × d.den from (p, q))
  | _, _, @Ev.smap a b e, (x : List (Str × a.den)) =>
    (each (fun p : Str × a.den => (evolved env e p.2).bind fun v => .ok ((p.1, v) : Str × b.den)) x)
  | _, _, @Ev.map k l a b f e, (x : List (k.den × a.den)) =>
    (each (fun p : k.den × a.den => (evolved env f p.1).bind fun k' => (evolved env e p.2).bind fun v =>
      .ok ((k', v) : l.den × b.den)) x)
  | _, _, .optSame t, (x : Option t.den) => .ok x
  | _, _, @Ev.opt a b e, (x : Option a.den) =>
    match x with
    | none => .ok (show Option b.den from none)
    | some y => (evolved env e y).bind fun z => .ok (show Option b.den from some z)
  | _, _, @Ev.struct _ _ s s' o o' es eo, (x : s.prod × o.prod) =>
    (evolvedFields env es x.1).bind fun p => (evolvedFields env eo x.2).bind fun q => .ok (show s'.prod × o'.prod from (p, q))
  | _, _, @Ev.variant cs _ e, (x : Option cs.sum) =>
    match x with
    | none => .error .uninitialized
    | some y => evolvedCases env e y
  | _, b, .custom f, x => f x (env.dflt b)
def evolvedFields (env : Env) : {r s : Row} → Fields r s → r.prod → Except Err s.prod
  | _, _, .nil, _ => .ok ()
  | _, _, @Fields.cons _ _ _ a b r s e es, (x : a.den × r.prod) =>
    (evolved env e x.1).bind fun p => (evolvedFields env es x.2).bind fun q => .ok (show b.den × s.prod from (p, q))
def evolvedCases (env : Env) : {cs ds : Row} → Cases cs ds → cs.sum → Except Err (Option ds.sum)
  | _, _, .nil, x => nomatch x
  | _, _, @Cases.copy _ _ a _ r _ i e es, (x : a.den ⊕ r.sum) =>
    match x with
    | .inl y => (evolved env e y).bind fun z => .ok (some (inject i z))
    | .inr y => evolvedCases env es y
  | _, _, @Cases.drop _ _ a r _ es, (x : a.den ⊕ r.sum) =>
    match x with
    | .inl _ => .ok none
    | .inr y => evolvedCases env es y
  | _, _, @Cases.custom _ _ a r _ f es, (x : a.den ⊕ r.sum) =>
    match x with
    | .inl y => f y none
    | .inr y => evolvedCases env es y
end

mutual
/-- conditions on an evolver: the user's code overwrites its destination; keys of maps keep their order; no case is dropped -/
def Tame (env : Env) : {a b : Ty} → Ev a b → Prop
  | _, _, .vec e => Tame env e
  | _, _, .pair e f => Tame env e ∧ Tame env f
  | _, _, .smap e => Tame env e
  | _, _, @Ev.map k l _ _ f e => Tame env f ∧ Tame env e ∧
      ∀ x y x' y', env.lt k x y = true → evolved env f x = .ok x' → evolved env f y = .ok y' → env.lt l x' y' = true
  | _, _, .opt e => Tame env e
  | _, _, .struct es eo => TameFields env es ∧ TameFields env eo
  | _, _, .variant e => TameCases env e
  | _, _, .custom f => ∀ x d d', f x d = f x d'
  | _, _, _ => True
def TameFields (env : Env) : {r s : Row} → Fields r s → Prop
  | _, _, .nil => True
  | _, _, .cons e es => Tame env e ∧ TameFields env es
def TameCases (env : Env) : {cs ds : Row} → Cases cs ds → Prop
  | _, _, .nil => True
  | _, _, .copy _ e es => Tame env e ∧ TameCases env es
  | _, _, .drop _ => False
  | _, _, .custom f es => (∀ x d d', f x d = f x d') ∧ TameCases env es
end

mutual
/-- the maps in a value are in the order of their keys, as `std::map` keeps them -/
def Sorted (env : Env) : (t : Ty) → t.den → Prop
  | .vec t, (l : List t.den) => ∀ x ∈ l, Sorted env t x
  | .pair a b, (x : a.den × b.den) => Sorted env a x.1 ∧ Sorted env b x.2
  | .smap v, (l : List (Str × v.den)) =>
    l.Pairwise (fun a b => env.lt .str a.1 b.1 = true) ∧ ∀ x ∈ l, Sorted env v x.2
  | .map k v, (l : List (k.den × v.den)) =>
    l.Pairwise (fun a b => env.lt k a.1 b.1 = true) ∧ ∀ x ∈ l, Sorted env k x.1 ∧ Sorted env v x.2
  | .opt t, (x : Option t.den) => ∀ y, x = some y → Sorted env t y
  | .struct _ s o, (x : s.prod × o.prod) => SortedRow env s x.1 ∧ SortedRow env o x.2
  | .variant cs, (x : Option cs.sum) => ∀ y, x = some y → SortedCase env cs y
  | _, _ => True
def SortedRow (env : Env) : (r : Row) → r.prod → Prop
  | .nil, _ => True
  | .cons _ _ t r, (x : t.den × r.prod) => Sorted env t x.1 ∧ SortedRow env r x.2
def SortedCase (env : Env) : (r : Row) → r.sum → Prop
  | .nil, _ => True
  | .cons _ _ t r, (x : t.den ⊕ r.sum) =>
    match x with
    | .inl y => Sorted env t y
    | .inr z => SortedCase env r z
end

mutual
/-- there is nothing in the maps of a destination, other than in those inside of optionals and variants -/
def Clean : (t : Ty) → t.den → Prop
  | .vec t, (l : List t.den) => ∀ x ∈ l, Clean t x
  | .pair a b, (x : a.den × b.den) => Clean a x.1 ∧ Clean b x.2
  | .smap v, l => (show List (Str × v.den) from l) = []
  | .map k v, l => (show List (k.den × v.den) from l) = []
  | .struct _ s o, (x : s.prod × o.prod) => CleanRow s x.1 ∧ CleanRow o x.2
  | _, _ => True
def CleanRow : (r : Row) → r.prod → Prop
  | .nil, _ => True
  | .cons _ _ t r, (x : t.den × r.prod) => Clean t x.1 ∧ CleanRow r x.2
end

/-- the maps in default-constructed objects are empty -/
def CleanDefaults (env : Env) : Prop := ∀ t, Clean t (env.dflt t)

/-! ## Proofs -/

theorem bind_ok {α β : Type} (x : α) (f : α → Except Err β) : (Except.ok x : Except Err α).bind f = f x := rfl
theorem bind_err {α β : Type} (x : Err) (f : α → Except Err β) : (Except.error x : Except Err α).bind f = .error x := rfl

theorem bind_nil {α : Type} (x : Except Err (List α)) : (x.bind fun r => .ok ([] ++ r)) = x := by
  cases x <;> rfl

theorem goEach_eq {α β : Type} {dflt : β} {f : α → β → Except Err β} {g : α → Except Err β} {C : β → Prop} (hd : C dflt) :
    ∀ (xs : List α) (ds : List β), (∀ x ∈ xs, ∀ d, C d → f x d = g x) → (∀ d ∈ ds, C d) → goEach dflt f xs ds = each g xs := by
  intro xs
  induction xs with
  | nil => intro ds _ _; rfl
  | cons x xs ih =>
    intro ds hf hds
    have h1 : f x (ds.headD dflt) = g x := by
      apply hf x List.mem_cons_self
      cases ds with
      | nil => exact hd
      | cons d ds => exact hds d List.mem_cons_self
    have h2 := ih ds.tail (fun y hy => hf y (List.mem_cons_of_mem _ hy)) (fun d h => hds d (List.mem_of_mem_tail h))
    unfold goEach each
    rw [h1, h2]
    cases g x with
    | error e => rfl
    | ok y =>
      simp only [Except.bind]
      cases each g xs <;> rfl

theorem mapAt_end {α β : Type} {lt : α → α → Bool} {dflt : β} {k : α} {f : β → Except Err β} :
    ∀ d : List (α × β), (∀ p ∈ d, lt p.1 k = true) → mapAt lt dflt k f d = (f dflt).bind fun v => .ok (d ++ [(k, v)]) := by
  intro d
  induction d with
  | nil => intro _; unfold mapAt; cases f dflt <;> rfl
  | cons p d ih =>
    intro h
    unfold mapAt
    rw [if_pos (h p List.mem_cons_self), ih fun q hq => h q (List.mem_cons_of_mem _ hq)]
    cases f dflt <;> rfl

theorem goMap_eq {α β γ δ : Type} {lt : β → β → Bool} {lt' : α → α → Bool} {dk : β} {dv : δ} {fk : α → β → Except Err β}
    {fv : γ → δ → Except Err δ} {gk : α → Except Err β} {gv : γ → Except Err δ}
    (hord : ∀ x y x' y', lt' x y = true → gk x = .ok x' → gk y = .ok y' → lt x' y' = true) :
    ∀ (l : List (α × γ)) (d : List (β × δ)), (∀ p ∈ l, fk p.1 dk = gk p.1) → (∀ p ∈ l, fv p.2 dv = gv p.2) →
      l.Pairwise (fun a b => lt' a.1 b.1 = true) →
      (∀ q ∈ d, ∀ p ∈ l, ∀ k, gk p.1 = .ok k → lt q.1 k = true) →
      goMap lt dk dv fk fv l d =
        (each (fun p : α × γ => (gk p.1).bind fun k => (gv p.2).bind fun v => .ok (k, v)) l).bind fun r => .ok (d ++ r) := by
  intro l
  induction l with
  | nil => intro d _ _ _ _; simp [goMap, each, Except.bind]
  | cons p l ih =>
    intro d hk hv hp hd
    obtain ⟨k, v⟩ := p
    unfold goMap each
    have hk1 := hk (k, v) List.mem_cons_self
    have hv1 := hv (k, v) List.mem_cons_self
    dsimp only at hk1 hv1 ⊢
    rw [hk1]
    cases hgk : gk k with
    | error e => rfl
    | ok k' =>
      simp only [bind_ok]
      rw [mapAt_end d (fun q hq => hd q hq (k, v) List.mem_cons_self k' hgk), hv1]
      cases hgv : gv v with
      | error e => rfl
      | ok v' =>
        simp only [bind_ok]
        rw [ih (d ++ [(k', v')]) (fun q hq => hk q (List.mem_cons_of_mem _ hq)) (fun q hq => hv q (List.mem_cons_of_mem _ hq))
          (List.pairwise_cons.1 hp).2 ?_]
        · cases each (fun p : α × γ => (gk p.1).bind fun k => (gv p.2).bind fun v => .ok (k, v)) l with
          | error e => rfl
          | ok r => simp [bind_ok]
        · intro q hq p hp' k'' hk''
          rcases List.mem_append.1 hq with h | h
          · exact hd q h p (List.mem_cons_of_mem _ hp') k'' hk''
          · simp at h
            subst h
            exact hord _ _ _ _ ((List.pairwise_cons.1 hp).1 p hp') hgk hk''

mutual
/-- The destination after the evolution is the evolved value. -/
theorem go_eq (env : Env) (hd : CleanDefaults env) : {a b : Ty} → (e : Ev a b) → Tame env e → (x : a.den) → Sorted env a x →
    (d : b.den) → Clean b d → go env e x d = evolved env e x
  | _, _, .prim _, _, _, _, _, _ => by simp [go, evolved]
  | _, _, .enumU _ _, _, _, _, _, _ => by simp [go, evolved]
  | _, _, .enumI _ _, _, _, _, _, _ => by simp [go, evolved]
  | _, _, @Ev.vec a b e, ht, (x : List a.den), hs, (d : List b.den), hc => by
    simp only [go, evolved, Tame, Sorted, Clean] at *
    exact goEach_eq (C := Clean b) (hd b) x d (fun y hy d' hd' => go_eq env hd e ht y (hs y hy) d' hd') hc
  | _, _, @Ev.pair a b c d e f, ht, (x : a.den × c.den), hs, (y : b.den × d.den), hc => by
    simp only [go, evolved, Tame, Sorted, Clean] at *
    rw [go_eq env hd e ht.1 x.1 hs.1 y.1 hc.1, go_eq env hd f ht.2 x.2 hs.2 y.2 hc.2]
    cases evolved env e x.1 with
    | error e => rfl
    | ok p =>
      cases evolved env f x.2 <;> rfl
  | _, _, @Ev.smap a b e, ht, (x : List (Str × a.den)), hs, (d : List (Str × b.den)), hc => by
    simp only [go, evolved, Tame, Sorted, Clean] at *
    subst hc
    refine (goMap_eq (α := Str) (β := Str) (lt := env.lt .str) (lt' := env.lt .str) (gk := fun k => .ok k) (gv := evolved env e) ?_
      x [] (fun _ _ => rfl) (fun p hp => go_eq env hd e ht p.2 (hs.2 p hp) _ (hd b)) hs.1 ?_).trans ?_
    · intro x y x' y' h hx hy
      injection hx with hx
      injection hy with hy
      rw [← hx, ← hy]; exact h
    · intro q hq; cases hq
    · rw [bind_nil]
      rfl
  | _, _, @Ev.map k l a b f e, ht, (x : List (k.den × a.den)), hs, (d : List (l.den × b.den)), hc => by
    simp only [go, evolved, Tame, Sorted, Clean] at *
    subst hc
    refine (goMap_eq (lt' := env.lt k) (gk := evolved env f) (gv := evolved env e) ht.2.2 x []
      (fun p hp => go_eq env hd f ht.1 p.1 (hs.2 p hp).1 _ (hd l))
      (fun p hp => go_eq env hd e ht.2.1 p.2 (hs.2 p hp).2 _ (hd b)) hs.1 ?_).trans ?_
    · intro q hq; cases hq
    · rw [bind_nil]
  | _, _, .optSame _, _, _, _, _, _ => by simp [go, evolved]
  | _, _, @Ev.opt a b e, ht, (x : Option a.den), hs, d, hc => by
    simp only [go, evolved, Tame, Sorted] at *
    cases x with
    | none => rfl
    | some y =>
      dsimp only
      rw [go_eq env hd e ht y (hs y rfl) _ (hd b)]
      cases evolved env e y <;> rfl
  | _, _, @Ev.struct _ _ s s' o o' es eo, ht, (x : s.prod × o.prod), hs, (d : s'.prod × o'.prod), hc => by
    simp only [go, evolved, Tame, Sorted, Clean] at *
    rw [goFields_eq env hd es ht.1 x.1 hs.1 d.1 hc.1, goFields_eq env hd eo ht.2 x.2 hs.2 d.2 hc.2]
    cases evolvedFields env es x.1 with
    | error e => rfl
    | ok p =>
      cases evolvedFields env eo x.2 <;> rfl
  | _, _, @Ev.variant cs _ e, ht, (x : Option cs.sum), hs, d, hc => by
    simp only [go, evolved, Tame, Sorted] at *
    cases x with
    | none => rfl
    | some y => exact goCases_eq env hd e ht y (hs y rfl) d
  | _, _, .custom f, ht, x, _, d, _ => by
    simp only [go, evolved, Tame] at *
    exact ht x d _
theorem goFields_eq (env : Env) (hd : CleanDefaults env) : {r s : Row} → (e : Fields r s) → TameFields env e → (x : r.prod) →
    SortedRow env r x → (d : s.prod) → CleanRow s d → goFields env e x d = evolvedFields env e x
  | _, _, .nil, _, _, _, _, _ => by simp only [goFields, evolvedFields]; rfl
  | _, _, @Fields.cons _ _ _ a b r s e es, ht, (x : a.den × r.prod), hs, (d : b.den × s.prod), hc => by
    simp only [goFields, evolvedFields, TameFields, SortedRow, CleanRow] at *
    rw [go_eq env hd e ht.1 x.1 hs.1 d.1 hc.1, goFields_eq env hd es ht.2 x.2 hs.2 d.2 hc.2]
    cases evolved env e x.1 with
    | error e => rfl
    | ok p =>
      cases evolvedFields env es x.2 <;> rfl
theorem goCases_eq (env : Env) (hd : CleanDefaults env) : {cs ds : Row} → (e : Cases cs ds) → TameCases env e → (x : cs.sum) →
    SortedCase env cs x → (d : Option ds.sum) → goCases env e x d = evolvedCases env e x
  | _, _, .nil, _, x, _, _ => nomatch x
  | _, _, @Cases.copy _ _ a b r _ i e es, ht, (x : a.den ⊕ r.sum), hs, d => by
    simp only [goCases, evolvedCases, TameCases, SortedCase] at *
    cases x with
    | inl y =>
      dsimp only at *
      rw [go_eq env hd e ht.1 y hs _ (hd b)]
      cases evolved env e y <;> rfl
    | inr y => exact goCases_eq env hd es ht.2 y hs d
  | _, _, @Cases.drop _ _ a r _ es, ht, _, _, _ => by
    simp only [TameCases] at ht
  | _, _, @Cases.custom _ _ a r _ f es, ht, (x : a.den ⊕ r.sum), hs, d => by
    simp only [goCases, evolvedCases, TameCases, SortedCase] at *
    cases x with
    | inl y => exact ht.1 y d none
    | inr y => exact goCases_eq env hd es ht.2 y hs d
end

theorem bind_eq_ok {α β : Type} {x : Except Err α} {f : α → Except Err β} {z : β} (h : x.bind f = .ok z) :
    ∃ y, x = .ok y ∧ f y = .ok z := by
  cases x with
  | error e => cases h
  | ok y => exact ⟨y, rfl, h⟩

theorem each_ok {α : Type} {f : α → Except Err α} (hf : ∀ x y, f x = .ok y → y = x) :
    ∀ (l m : List α), each f l = .ok m → m = l := by
  intro l
  induction l with
  | nil => intro m h; injection h with h; exact h.symm
  | cons x l ih =>
    intro m h
    unfold each at h
    obtain ⟨y, h1, h⟩ := bind_eq_ok h
    obtain ⟨ys, h2, h⟩ := bind_eq_ok h
    injection h with h
    rw [← h, hf x y h1, ih ys h2]

theorem each_total {α β : Type} {f : α → Except Err β} : ∀ (l : List α), (∀ x ∈ l, ∃ y, f x = .ok y) → ∃ m, each f l = .ok m := by
  intro l
  induction l with
  | nil => intro _; exact ⟨[], rfl⟩
  | cons x l ih =>
    intro h
    obtain ⟨y, hy⟩ := h x List.mem_cons_self
    obtain ⟨m, hm⟩ := ih fun z hz => h z (List.mem_cons_of_mem _ hz)
    exact ⟨y :: m, by unfold each; rw [hy, hm]; rfl⟩

/-- the value of a variant with the cases of a part of the row -/
def liftSum {ds : Row} : (r : Row) → (∀ t, In r t → In ds t) → r.sum → ds.sum
  | .nil, _, x => nomatch x
  | .cons _ _ t r, emb, (x : t.den ⊕ r.sum) =>
    match x with
    | .inl y => inject (emb t .head) y
    | .inr y => liftSum r (fun u i => emb u (.tail i)) y

theorem liftSum_eq {ds : Row} : (r : Row) → (emb : ∀ t, In r t → In ds t) → (f : r.sum → ds.sum) →
    (∀ t (i : In r t) (x : t.den), inject (emb t i) x = f (inject i x)) → ∀ y, liftSum r emb y = f y
  | .nil, _, _, _, y => nomatch y
  | .cons _ _ t r, emb, f, h, (y : t.den ⊕ r.sum) => by
    cases y with
    | inl y => simp only [liftSum]; rw [h t .head y]; rfl
    | inr y =>
      simp only [liftSum]
      exact liftSum_eq r (fun u i => emb u (.tail i)) (fun z => f (.inr z)) (fun u i x => h u (.tail i) x) y

theorem liftSum_self (r : Row) (y : r.sum) : liftSum r (fun _ i => i) y = y :=
  liftSum_eq r (fun _ i => i) id (fun _ _ _ => rfl) y

mutual
/-- the natural evolver does not change anything -/
theorem natural_ok (env : Env) : (t : Ty) → (e : Ev t t) → natural t = some e → (x x' : t.den) → evolved env e x = .ok x' → x' = x
  | .bool, e, he, x, x', h => by simp only [natural, Option.some.injEq] at he; subst he; simpa [evolved] using h.symm
  | .uint _, e, he, x, x', h => by simp only [natural, Option.some.injEq] at he; subst he; simpa [evolved] using h.symm
  | .int _, e, he, x, x', h => by simp only [natural, Option.some.injEq] at he; subst he; simpa [evolved] using h.symm
  | .chrono, e, he, x, x', h => by simp only [natural, Option.some.injEq] at he; subst he; simpa [evolved] using h.symm
  | .flt, e, he, x, x', h => by simp only [natural, Option.some.injEq] at he; subst he; simpa [evolved] using h.symm
  | .dbl, e, he, x, x', h => by simp only [natural, Option.some.injEq] at he; subst he; simpa [evolved] using h.symm
  | .str, e, he, x, x', h => by simp only [natural, Option.some.injEq] at he; subst he; simpa [evolved] using h.symm
  | .enumU w, e, he, (x : BitVec w), (x' : BitVec w), h => by
    simp only [natural, Option.some.injEq] at he; subst he
    simp only [evolved] at h
    injection h with h
    rw [← h]
    exact BitVec.setWidth_eq x
  | .enumI w, e, he, (x : BitVec w), (x' : BitVec w), h => by
    simp only [natural, Option.some.injEq] at he; subst he
    simp only [evolved] at h
    injection h with h
    rw [← h]
    exact BitVec.signExtend_eq x
  | .tid, _, he, _, _, _ => by simp [natural] at he
  | .arr _ _, _, he, _, _, _ => by simp [natural] at he
  | .tup _, _, he, _, _, _ => by simp [natural] at he
  | .set _, _, he, _, _, _ => by simp [natural] at he
  | .vec t, e, he, (x : List t.den), (x' : List t.den), h => by
    simp only [natural, Option.map_eq_some_iff] at he
    obtain ⟨f, hf, rfl⟩ := he
    simp only [evolved] at h
    exact each_ok (fun y y' => natural_ok env t f hf y y') x x' h
  | .pair a b, e, he, (x : a.den × b.den), (x' : a.den × b.den), h => by
    simp only [natural, Option.bind_eq_some_iff, Option.map_eq_some_iff] at he
    obtain ⟨f, hf, g, hg, rfl⟩ := he
    simp only [evolved] at h
    obtain ⟨p, h1, h⟩ := bind_eq_ok h
    obtain ⟨q, h2, h⟩ := bind_eq_ok h
    injection h with h
    rw [← h, natural_ok env a f hf _ _ h1, natural_ok env b g hg _ _ h2]
  | .smap t, e, he, (x : List (Str × t.den)), (x' : List (Str × t.den)), h => by
    simp only [natural, Option.map_eq_some_iff] at he
    obtain ⟨f, hf, rfl⟩ := he
    simp only [evolved] at h
    refine each_ok ?_ x x' h
    intro y y' hy
    obtain ⟨v, h1, hy⟩ := bind_eq_ok hy
    injection hy with hy
    rw [← hy, natural_ok env t f hf _ _ h1]
  | .map k t, e, he, (x : List (k.den × t.den)), (x' : List (k.den × t.den)), h => by
    simp only [natural, Option.bind_eq_some_iff, Option.map_eq_some_iff] at he
    obtain ⟨f, hf, g, hg, rfl⟩ := he
    simp only [evolved] at h
    refine each_ok ?_ x x' h
    intro y y' hy
    obtain ⟨k', h1, hy⟩ := bind_eq_ok hy
    obtain ⟨v, h2, hy⟩ := bind_eq_ok hy
    injection hy with hy
    rw [← hy, natural_ok env k f hf _ _ h1, natural_ok env t g hg _ _ h2]
  | .opt t, e, he, (x : Option t.den), (x' : Option t.den), h => by
    simp only [natural] at he
    split at he
    · injection he with he
      subst he
      simp only [evolved] at h
      injection h with h
      exact h.symm
    · simp only [Option.map_eq_some_iff] at he
      obtain ⟨f, hf, rfl⟩ := he
      simp only [evolved] at h
      cases x with
      | none => injection h with h; exact h.symm
      | some y =>
        dsimp only at h
        obtain ⟨z, h1, h⟩ := bind_eq_ok h
        injection h with h
        rw [← h, natural_ok env t f hf _ _ h1]
  | .struct _ s o, e, he, (x : s.prod × o.prod), (x' : s.prod × o.prod), h => by
    simp only [natural, Option.bind_eq_some_iff, Option.map_eq_some_iff] at he
    obtain ⟨f, hf, g, hg, rfl⟩ := he
    simp only [evolved] at h
    obtain ⟨p, h1, h⟩ := bind_eq_ok h
    obtain ⟨q, h2, h⟩ := bind_eq_ok h
    injection h with h
    rw [← h, naturalFields_ok env s f hf _ _ h1, naturalFields_ok env o g hg _ _ h2]
  | .variant cs, e, he, (x : Option cs.sum), (x' : Option cs.sum), h => by
    simp only [natural, Option.map_eq_some_iff] at he
    obtain ⟨f, hf, rfl⟩ := he
    simp only [evolved] at h
    cases x with
    | none => cases h
    | some y =>
      dsimp only at h
      rw [naturalCases_ok env cs cs _ f hf y _ h, liftSum_self]
theorem naturalFields_ok (env : Env) : (r : Row) → (e : Fields r r) → naturalFields r = some e → (x x' : r.prod) →
    evolvedFields env e x = .ok x' → x' = x
  | .nil, _, _, _, _, _ => rfl
  | .cons _ _ t r, e, he, (x : t.den × r.prod), (x' : t.den × r.prod), h => by
    simp only [naturalFields, Option.bind_eq_some_iff, Option.map_eq_some_iff] at he
    obtain ⟨f, hf, g, hg, rfl⟩ := he
    simp only [evolvedFields] at h
    obtain ⟨p, h1, h⟩ := bind_eq_ok h
    obtain ⟨q, h2, h⟩ := bind_eq_ok h
    injection h with h
    rw [← h, natural_ok env t f hf _ _ h1, naturalFields_ok env r g hg _ _ h2]
theorem naturalCases_ok (env : Env) : (r ds : Row) → (emb : ∀ t, In r t → In ds t) → (e : Cases r ds) →
    naturalCases r ds emb = some e → (x : r.sum) → (x' : Option ds.sum) → evolvedCases env e x = .ok x' →
    x' = some (liftSum r emb x)
  | .nil, _, _, _, _, x, _, _ => nomatch x
  | .cons _ _ t r, ds, emb, e, he, (x : t.den ⊕ r.sum), x', h => by
    simp only [naturalCases, Option.bind_eq_some_iff, Option.map_eq_some_iff] at he
    obtain ⟨f, hf, g, hg, rfl⟩ := he
    simp only [evolvedCases] at h
    cases x with
    | inl y =>
      dsimp only at h
      obtain ⟨p, h1, h⟩ := bind_eq_ok h
      injection h with h
      rw [← h, natural_ok env t f hf _ _ h1]
      rfl
    | inr y => exact naturalCases_ok env r ds _ g hg y x' h
end

mutual
theorem natural_total (env : Env) : (t : Ty) → (e : Ev t t) → natural t = some e → (x : t.den) → Json.Good env t x →
    ∃ x', evolved env e x = .ok x'
  | .bool, e, he, x, _ => by simp only [natural, Option.some.injEq] at he; subst he; exact ⟨x, by simp [evolved]⟩
  | .uint _, e, he, x, _ => by simp only [natural, Option.some.injEq] at he; subst he; exact ⟨x, by simp [evolved]⟩
  | .int _, e, he, x, _ => by simp only [natural, Option.some.injEq] at he; subst he; exact ⟨x, by simp [evolved]⟩
  | .chrono, e, he, x, _ => by simp only [natural, Option.some.injEq] at he; subst he; exact ⟨x, by simp [evolved]⟩
  | .flt, e, he, x, _ => by simp only [natural, Option.some.injEq] at he; subst he; exact ⟨x, by simp [evolved]⟩
  | .dbl, e, he, x, _ => by simp only [natural, Option.some.injEq] at he; subst he; exact ⟨x, by simp [evolved]⟩
  | .str, e, he, x, _ => by simp only [natural, Option.some.injEq] at he; subst he; exact ⟨x, by simp [evolved]⟩
  | .enumU w, e, he, x, _ => by
    simp only [natural, Option.some.injEq] at he; subst he
    simp only [evolved]; exact ⟨_, rfl⟩
  | .enumI w, e, he, x, _ => by
    simp only [natural, Option.some.injEq] at he; subst he
    simp only [evolved]; exact ⟨_, rfl⟩
  | .tid, _, he, _, _ => by simp [natural] at he
  | .arr _ _, _, he, _, _ => by simp [natural] at he
  | .tup _, _, he, _, _ => by simp [natural] at he
  | .set _, _, he, _, _ => by simp [natural] at he
  | .vec t, e, he, (x : List t.den), h => by
    simp only [natural, Option.map_eq_some_iff] at he
    obtain ⟨f, hf, rfl⟩ := he
    simp only [evolved, Json.Good] at h ⊢
    exact each_total x fun y hy => natural_total env t f hf y (h y hy)
  | .pair a b, e, he, (x : a.den × b.den), h => by
    simp only [natural, Option.bind_eq_some_iff, Option.map_eq_some_iff] at he
    obtain ⟨f, hf, g, hg, rfl⟩ := he
    simp only [evolved, Json.Good] at h ⊢
    obtain ⟨p, h1⟩ := natural_total env a f hf _ h.1
    obtain ⟨q, h2⟩ := natural_total env b g hg _ h.2
    rw [h1, h2]
    exact ⟨_, rfl⟩
  | .smap t, e, he, (x : List (Str × t.den)), h => by
    simp only [natural, Option.map_eq_some_iff] at he
    obtain ⟨f, hf, rfl⟩ := he
    simp only [evolved, Json.Good] at h ⊢
    refine each_total x fun y hy => ?_
    obtain ⟨v, hv⟩ := natural_total env t f hf _ (h.2 y hy)
    rw [hv]
    exact ⟨_, rfl⟩
  | .map k t, e, he, (x : List (k.den × t.den)), h => by
    simp only [natural, Option.bind_eq_some_iff, Option.map_eq_some_iff] at he
    obtain ⟨f, hf, g, hg, rfl⟩ := he
    simp only [evolved, Json.Good] at h ⊢
    refine each_total x fun y hy => ?_
    obtain ⟨k', hk⟩ := natural_total env k f hf _ (h.2 y hy).1
    obtain ⟨v, hv⟩ := natural_total env t g hg _ (h.2 y hy).2
    rw [hk, hv]
    exact ⟨_, rfl⟩
  | .opt t, e, he, (x : Option t.den), h => by
    simp only [natural] at he
    split at he
    · injection he with he
      subst he
      simp only [evolved]
      exact ⟨_, rfl⟩
    · simp only [Option.map_eq_some_iff] at he
      obtain ⟨f, hf, rfl⟩ := he
      simp only [evolved, Json.Good] at h ⊢
      cases x with
      | none => exact ⟨_, rfl⟩
      | some y =>
        dsimp only
        obtain ⟨z, h1⟩ := natural_total env t f hf _ (h y rfl)
        rw [h1]
        exact ⟨_, rfl⟩
  | .struct _ s o, e, he, (x : s.prod × o.prod), h => by
    simp only [natural, Option.bind_eq_some_iff, Option.map_eq_some_iff] at he
    obtain ⟨f, hf, g, hg, rfl⟩ := he
    simp only [evolved, Json.Good] at h ⊢
    obtain ⟨p, h1⟩ := naturalFields_total env s f hf _ h.1
    obtain ⟨q, h2⟩ := naturalFields_total env o g hg _ h.2
    rw [h1, h2]
    exact ⟨_, rfl⟩
  | .variant cs, e, he, (x : Option cs.sum), h => by
    simp only [natural, Option.map_eq_some_iff] at he
    obtain ⟨f, hf, rfl⟩ := he
    simp only [evolved, Json.Good] at h ⊢
    obtain ⟨y, rfl, hy⟩ := h
    exact naturalCases_total env cs cs _ f hf y hy
theorem naturalFields_total (env : Env) : (r : Row) → (e : Fields r r) → naturalFields r = some e → (x : r.prod) →
    Json.GoodRow env r x → ∃ x', evolvedFields env e x = .ok x'
  | .nil, e, he, _, _ => by
    simp only [naturalFields, Option.some.injEq] at he
    subst he
    simp only [evolvedFields]
    exact ⟨_, rfl⟩
  | .cons _ _ t r, e, he, (x : t.den × r.prod), h => by
    simp only [naturalFields, Option.bind_eq_some_iff, Option.map_eq_some_iff] at he
    obtain ⟨f, hf, g, hg, rfl⟩ := he
    simp only [evolvedFields, Json.GoodRow] at h ⊢
    obtain ⟨p, h1⟩ := natural_total env t f hf _ h.1
    obtain ⟨q, h2⟩ := naturalFields_total env r g hg _ h.2
    rw [h1, h2]
    exact ⟨_, rfl⟩
theorem naturalCases_total (env : Env) : (r ds : Row) → (emb : ∀ t, In r t → In ds t) → (e : Cases r ds) →
    naturalCases r ds emb = some e → (x : r.sum) → Json.GoodCase env r x → ∃ x', evolvedCases env e x = .ok x'
  | .nil, _, _, _, _, x, _ => nomatch x
  | .cons _ _ t r, ds, emb, e, he, (x : t.den ⊕ r.sum), h => by
    simp only [naturalCases, Option.bind_eq_some_iff, Option.map_eq_some_iff] at he
    obtain ⟨f, hf, g, hg, rfl⟩ := he
    simp only [evolvedCases, Json.GoodCase] at h ⊢
    cases x with
    | inl y =>
      dsimp only at h ⊢
      obtain ⟨p, h1⟩ := natural_total env t f hf _ h
      rw [h1]
      exact ⟨_, rfl⟩
    | inr y => exact naturalCases_total env r ds _ g hg y h
end

mutual
theorem natural_tame (env : Env) : (t : Ty) → (e : Ev t t) → natural t = some e → Tame env e
  | .bool, e, he => by simp only [natural, Option.some.injEq] at he; subst he; simp [Tame]
  | .uint _, e, he => by simp only [natural, Option.some.injEq] at he; subst he; simp [Tame]
  | .int _, e, he => by simp only [natural, Option.some.injEq] at he; subst he; simp [Tame]
  | .chrono, e, he => by simp only [natural, Option.some.injEq] at he; subst he; simp [Tame]
  | .flt, e, he => by simp only [natural, Option.some.injEq] at he; subst he; simp [Tame]
  | .dbl, e, he => by simp only [natural, Option.some.injEq] at he; subst he; simp [Tame]
  | .str, e, he => by simp only [natural, Option.some.injEq] at he; subst he; simp [Tame]
  | .enumU w, e, he => by simp only [natural, Option.some.injEq] at he; subst he; simp [Tame]
  | .enumI w, e, he => by simp only [natural, Option.some.injEq] at he; subst he; simp [Tame]
  | .tid, _, he => by simp [natural] at he
  | .arr _ _, _, he => by simp [natural] at he
  | .tup _, _, he => by simp [natural] at he
  | .set _, _, he => by simp [natural] at he
  | .vec t, e, he => by
    simp only [natural, Option.map_eq_some_iff] at he
    obtain ⟨f, hf, rfl⟩ := he
    simp only [Tame]
    exact natural_tame env t f hf
  | .pair a b, e, he => by
    simp only [natural, Option.bind_eq_some_iff, Option.map_eq_some_iff] at he
    obtain ⟨f, hf, g, hg, rfl⟩ := he
    simp only [Tame]
    exact ⟨natural_tame env a f hf, natural_tame env b g hg⟩
  | .smap t, e, he => by
    simp only [natural, Option.map_eq_some_iff] at he
    obtain ⟨f, hf, rfl⟩ := he
    simp only [Tame]
    exact natural_tame env t f hf
  | .map k t, e, he => by
    simp only [natural, Option.bind_eq_some_iff, Option.map_eq_some_iff] at he
    obtain ⟨f, hf, g, hg, rfl⟩ := he
    simp only [Tame]
    refine ⟨natural_tame env k f hf, natural_tame env t g hg, ?_⟩
    intro x y x' y' h hx hy
    rw [natural_ok env k f hf _ _ hx, natural_ok env k f hf _ _ hy]
    exact h
  | .opt t, e, he => by
    simp only [natural] at he
    split at he
    · injection he with he
      subst he
      simp [Tame]
    · simp only [Option.map_eq_some_iff] at he
      obtain ⟨f, hf, rfl⟩ := he
      simp only [Tame]
      exact natural_tame env t f hf
  | .struct _ s o, e, he => by
    simp only [natural, Option.bind_eq_some_iff, Option.map_eq_some_iff] at he
    obtain ⟨f, hf, g, hg, rfl⟩ := he
    simp only [Tame]
    exact ⟨naturalFields_tame env s f hf, naturalFields_tame env o g hg⟩
  | .variant cs, e, he => by
    simp only [natural, Option.map_eq_some_iff] at he
    obtain ⟨f, hf, rfl⟩ := he
    simp only [Tame]
    exact naturalCases_tame env cs cs _ f hf
theorem naturalFields_tame (env : Env) : (r : Row) → (e : Fields r r) → naturalFields r = some e → TameFields env e
  | .nil, e, he => by
    simp only [naturalFields, Option.some.injEq] at he
    subst he
    simp [TameFields]
  | .cons _ _ t r, e, he => by
    simp only [naturalFields, Option.bind_eq_some_iff, Option.map_eq_some_iff] at he
    obtain ⟨f, hf, g, hg, rfl⟩ := he
    simp only [TameFields]
    exact ⟨natural_tame env t f hf, naturalFields_tame env r g hg⟩
theorem naturalCases_tame (env : Env) : (r ds : Row) → (emb : ∀ t, In r t → In ds t) → (e : Cases r ds) →
    naturalCases r ds emb = some e → TameCases env e
  | .nil, _, _, e, he => by
    simp only [naturalCases, Option.some.injEq] at he
    subst he
    simp [TameCases]
  | .cons _ _ t r, ds, emb, e, he => by
    simp only [naturalCases, Option.bind_eq_some_iff, Option.map_eq_some_iff] at he
    obtain ⟨f, hf, g, hg, rfl⟩ := he
    simp only [TameCases]
    exact ⟨natural_tame env t f hf, naturalCases_tame env r ds _ g hg⟩
end

mutual
theorem sorted_of_good (env : Env) : (t : Ty) → (x : t.den) → Json.Good env t x → Sorted env t x
  | .bool, _, _ | .uint _, _, _ | .int _, _, _ | .enumU _, _, _ | .enumI _, _, _ | .chrono, _, _ | .flt, _, _ | .dbl, _, _
  | .str, _, _ | .tid, _, _ | .arr _ _, _, _ | .tup _, _, _ | .set _, _, _ => by simp [Sorted]
  | .vec t, (x : List t.den), h => by
    simp only [Sorted, Json.Good] at h ⊢
    exact fun y hy => sorted_of_good env t y (h y hy)
  | .pair a b, (x : a.den × b.den), h => by
    simp only [Sorted, Json.Good] at h ⊢
    exact ⟨sorted_of_good env a _ h.1, sorted_of_good env b _ h.2⟩
  | .smap t, (x : List (Str × t.den)), h => by
    simp only [Sorted, Json.Good] at h ⊢
    exact ⟨h.1, fun y hy => sorted_of_good env t _ (h.2 y hy)⟩
  | .map k t, (x : List (k.den × t.den)), h => by
    simp only [Sorted, Json.Good] at h ⊢
    exact ⟨h.1, fun y hy => ⟨sorted_of_good env k _ (h.2 y hy).1, sorted_of_good env t _ (h.2 y hy).2⟩⟩
  | .opt t, (x : Option t.den), h => by
    simp only [Sorted, Json.Good] at h ⊢
    exact fun y hy => sorted_of_good env t y (h y hy)
  | .struct _ s o, (x : s.prod × o.prod), h => by
    simp only [Sorted, Json.Good] at h ⊢
    exact ⟨sortedRow_of_good env s _ h.1, sortedRow_of_good env o _ h.2⟩
  | .variant cs, (x : Option cs.sum), h => by
    simp only [Sorted, Json.Good] at h ⊢
    obtain ⟨y, rfl, hy⟩ := h
    intro z hz
    injection hz with hz
    subst hz
    exact sortedCase_of_good env cs y hy
theorem sortedRow_of_good (env : Env) : (r : Row) → (x : r.prod) → Json.GoodRow env r x → SortedRow env r x
  | .nil, _, _ => by simp [SortedRow]
  | .cons _ _ t r, (x : t.den × r.prod), h => by
    simp only [SortedRow, Json.GoodRow] at h ⊢
    exact ⟨sorted_of_good env t _ h.1, sortedRow_of_good env r _ h.2⟩
theorem sortedCase_of_good (env : Env) : (r : Row) → (x : r.sum) → Json.GoodCase env r x → SortedCase env r x
  | .nil, x, _ => nomatch x
  | .cons _ _ t r, (x : t.den ⊕ r.sum), h => by
    simp only [SortedCase, Json.GoodCase] at h ⊢
    cases x with
    | inl y => exact sorted_of_good env t y h
    | inr y => exact sortedCase_of_good env r y h
end

end Current.Evolve
