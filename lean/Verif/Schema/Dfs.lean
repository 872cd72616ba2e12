import Verif.Schema.TypeIds
/-!
Depth-first traversal in general: what `StructSchema` does, without the ids.
-/
namespace Current.Schema
open Relation

structure Trav where
  seen : List Nat
  ord : List Nat

def dfsAll (f : Nat → Trav → Option Trav) : List Nat → Trav → Option Trav
  | [], s => some s
  | t :: ts, s => match f t s with
    | none => none
    | some s => dfsAll f ts s

/-- Mark, visit the dependencies, then write down. -/
def dfs (deps : Nat → List Nat) (leaf : Nat → Bool) : Nat → Nat → Trav → Option Trav
  | 0, _, _ => none
  | depth + 1, t, s =>
    if t ∈ s.seen then some s
    else
      match dfsAll (dfs deps leaf depth) (deps t) { s with seen := s.seen ++ [t] } with
      | none => none
      | some s => some (if leaf t then s else { s with ord := s.ord ++ [t] })

def Dep (deps : Nat → List Nat) (a b : Nat) : Prop := b ∈ deps a

/-- `y` stands somewhere before `x` in the list. -/
def Precedes {α : Type} (y x : α) (l : List α) : Prop := ∃ p q r, l = p ++ y :: q ++ x :: r

theorem Precedes.append {α : Type} {y x : α} {l : List α} (h : Precedes y x l) (z : List α) : Precedes y x (l ++ z) := by
  obtain ⟨p, q, r, rfl⟩ := h
  exact ⟨p, q, r ++ z, by simp⟩

theorem Precedes.last {α : Type} {y : α} {l : List α} (h : y ∈ l) (x : α) : Precedes y x (l ++ [x]) := by
  obtain ⟨p, q, rfl⟩ := List.append_of_mem h
  exact ⟨p, q, [], by simp⟩

theorem Precedes.map {α β : Type} {y x : α} {l : List α} (h : Precedes y x l) (f : α → β) : Precedes (f y) (f x) (l.map f) := by
  obtain ⟨p, q, r, rfl⟩ := h
  exact ⟨p.map f, q.map f, r.map f, by simp⟩

structure Trav.Inv (leaf : Nat → Bool) (s : Trav) : Prop where
  sub : ∀ x ∈ s.ord, x ∈ s.seen
  nodupS : s.seen.Nodup
  nodupO : s.ord.Nodup
  nl : ∀ x ∈ s.ord, leaf x = false

/-- Marked, but not written down yet. -/
def Trav.Open (leaf : Nat → Bool) (s : Trav) (y : Nat) : Prop := y ∈ s.seen ∧ leaf y = false ∧ y ∉ s.ord

/-- What a visit adds. -/
structure Adds (deps : Nat → List Nat) (leaf : Nat → Bool) (ts : List Nat) (s s' : Trav) (newS newO : List Nat) : Prop where
  seen : s'.seen = s.seen ++ newS
  ord : s'.ord = s.ord ++ newO
  inv : s'.Inv leaf
  has : ∀ t ∈ ts, t ∈ s'.seen
  reach : ∀ x ∈ newS, ∃ t ∈ ts, ReflTransGen (Dep deps) t x
  written : ∀ x, x ∈ newO ↔ x ∈ newS ∧ leaf x = false
  closed : ∀ x ∈ newS, ∀ y ∈ deps x, y ∈ s'.seen
  sorted : ∀ x ∈ newO, ∀ y ∈ deps x, leaf y = false → Precedes y x s'.ord ∨ ReflTransGen (Dep deps) y x

theorem Adds.same_open {deps : Nat → List Nat} {leaf : Nat → Bool} {ts : List Nat} {s s' : Trav} {newS newO : List Nat} (h : Adds deps leaf ts s s' newS newO)
    (y : Nat) : s'.Open leaf y → s.Open leaf y := by
  rintro ⟨h1, h2, h3⟩
  rw [h.seen, List.mem_append] at h1
  rw [h.ord, List.mem_append, not_or] at h3
  rcases h1 with h1 | h1
  · exact ⟨h1, h2, h3.1⟩
  · exact absurd ((h.written y).2 ⟨h1, h2⟩) h3.2

theorem dfsAll_spec {deps : Nat → List Nat} {leaf : Nat → Bool} {f : Nat → Trav → Option Trav} (ts : List Nat)
    (hf : ∀ t ∈ ts, ∀ s s', f t s = some s' → s.Inv leaf → (∀ y, s.Open leaf y → ReflTransGen (Dep deps) y t) → ∃ a b, Adds deps leaf [t] s s' a b)
    (s s' : Trav) (h : dfsAll f ts s = some s') (hi : s.Inv leaf) (ho : ∀ t ∈ ts, ∀ y, s.Open leaf y → ReflTransGen (Dep deps) y t) :
    ∃ a b, Adds deps leaf ts s s' a b := by
  induction ts generalizing s with
  | nil =>
    simp only [dfsAll, Option.some.injEq] at h
    subst h
    exact ⟨[], [], by simp, by simp, hi, by simp, by simp, by simp, by simp, by simp⟩
  | cons t ts ih =>
    simp only [dfsAll] at h
    split at h
    · cases h
    · rename_i s1 h1
      obtain ⟨a, b, e⟩ := hf t List.mem_cons_self s s1 h1 hi (ho t List.mem_cons_self)
      obtain ⟨c, d, e'⟩ := ih (fun u hu => hf u (List.mem_cons_of_mem _ hu)) s1 h e.inv
        (fun u hu y hy => ho u (List.mem_cons_of_mem _ hu) y (e.same_open y hy))
      refine ⟨a ++ c, b ++ d, ?_, ?_, e'.inv, ?_, ?_, ?_, ?_, ?_⟩
      · rw [e'.seen, e.seen, List.append_assoc]
      · rw [e'.ord, e.ord, List.append_assoc]
      · intro u hu
        rcases List.mem_cons.1 hu with rfl | hu
        · rw [e'.seen]; exact List.mem_append_left _ (e.has u List.mem_cons_self)
        · exact e'.has u hu
      · intro x hx
        rcases List.mem_append.1 hx with hx | hx
        · obtain ⟨u, hu, hr⟩ := e.reach x hx
          rw [List.mem_singleton] at hu; subst hu
          exact ⟨u, List.mem_cons_self, hr⟩
        · obtain ⟨u, hu, hr⟩ := e'.reach x hx
          exact ⟨u, List.mem_cons_of_mem _ hu, hr⟩
      · intro x
        rw [List.mem_append, List.mem_append, e.written, e'.written]
        constructor
        · rintro (⟨h1, h2⟩ | ⟨h1, h2⟩)
          · exact ⟨.inl h1, h2⟩
          · exact ⟨.inr h1, h2⟩
        · rintro ⟨h1 | h1, h2⟩
          · exact .inl ⟨h1, h2⟩
          · exact .inr ⟨h1, h2⟩
      · intro x hx y hy
        rcases List.mem_append.1 hx with hx | hx
        · rw [e'.seen]; exact List.mem_append_left _ (e.closed x hx y hy)
        · exact e'.closed x hx y hy
      · intro x hx y hy hl
        rcases List.mem_append.1 hx with hx | hx
        · rcases e.sorted x hx y hy hl with hp | hr
          · left; rw [e'.ord]; exact hp.append _
          · exact .inr hr
        · exact e'.sorted x hx y hy hl

/-- A visit: what it adds is what can be reached and was not there, everything after its dependencies, except on cycles. -/
theorem dfs_spec (deps : Nat → List Nat) (leaf : Nat → Bool) (depth t : Nat) (s s' : Trav) (h : dfs deps leaf depth t s = some s') (hi : s.Inv leaf)
    (ho : ∀ y, s.Open leaf y → ReflTransGen (Dep deps) y t) : ∃ a b, Adds deps leaf [t] s s' a b := by
  induction depth generalizing t s s' with
  | zero => simp [dfs] at h
  | succ depth ih =>
    simp only [dfs] at h
    by_cases hm : t ∈ s.seen
    · rw [if_pos hm] at h
      simp only [Option.some.injEq] at h
      subst h
      exact ⟨[], [], by simp, by simp, hi, by simpa using hm, by simp, by simp, by simp, by simp⟩
    · rw [if_neg hm] at h
      split at h
      · cases h
      · rename_i s2 h2
        simp only [Option.some.injEq] at h
        have hto : t ∉ s.ord := fun hc => hm (hi.sub t hc)
        -- the state with the mark
        have hi1 : ({ s with seen := s.seen ++ [t] } : Trav).Inv leaf := by
          refine ⟨fun x hx => List.mem_append_left _ (hi.sub x hx), ?_, hi.nodupO, hi.nl⟩
          rw [List.nodup_append]
          refine ⟨hi.nodupS, by simp, ?_⟩
          intro a ha b hb
          rw [List.mem_singleton] at hb
          subst hb
          rintro rfl
          exact hm ha
        have ho1 : ∀ k ∈ deps t, ∀ y, ({ s with seen := s.seen ++ [t] } : Trav).Open leaf y → ReflTransGen (Dep deps) y k := by
          rintro k hk y ⟨h1, h2, h3⟩
          rcases List.mem_append.1 h1 with h1 | h1
          · exact (ho y ⟨h1, h2, h3⟩).tail hk
          · rw [List.mem_singleton] at h1; subst h1; exact ReflTransGen.single hk
        obtain ⟨a, b, e⟩ := dfsAll_spec (deps t) (fun k _ => ih k) _ s2 h2 hi1 ho1
        have hseen : s2.seen = s.seen ++ (t :: a) := by rw [e.seen]; simp
        have hord : s2.ord = s.ord ++ b := e.ord
        have ht2 : t ∉ s2.ord := by
          rw [hord, List.mem_append, not_or]
          refine ⟨hto, fun hc => ?_⟩
          have h1 := ((e.written t).1 hc).1
          have := e.inv.nodupS
          rw [hseen, List.nodup_append] at this
          exact (List.nodup_cons.1 this.2.1).1 h1
        have hreach : ∀ x ∈ t :: a, ReflTransGen (Dep deps) t x := by
          intro x hx
          rcases List.mem_cons.1 hx with rfl | hx
          · exact .refl
          · obtain ⟨k, hk, hr⟩ := e.reach x hx
            exact ReflTransGen.head hk hr
        have hclosed : ∀ x ∈ t :: a, ∀ y ∈ deps x, y ∈ s2.seen := by
          intro x hx y hy
          rcases List.mem_cons.1 hx with rfl | hx
          · exact e.has y hy
          · exact e.closed x hx y hy
        cases hl : leaf t with
        | true =>
          rw [hl, if_pos rfl] at h
          subst h
          refine ⟨t :: a, b, hseen, hord, e.inv, ?_, ?_, ?_, hclosed, e.sorted⟩
          · intro u hu; rw [List.mem_singleton] at hu; subst hu; rw [hseen]; simp
          · intro x hx; exact ⟨t, by simp, hreach x hx⟩
          · intro x
            rw [e.written]
            constructor
            · rintro ⟨h1, h2⟩; exact ⟨List.mem_cons_of_mem _ h1, h2⟩
            · rintro ⟨g1, g2⟩
              rcases List.mem_cons.1 g1 with g | g
              · rw [g, hl] at g2; cases g2
              · exact ⟨g, g2⟩
        | false =>
          rw [hl, if_neg (by decide)] at h
          subst h
          refine ⟨t :: a, b ++ [t], hseen, by simp [hord], ?_, ?_, ?_, ?_, hclosed, ?_⟩
          · refine ⟨?_, e.inv.nodupS, ?_, ?_⟩
            · intro x hx
              rcases List.mem_append.1 hx with hx | hx
              · exact e.inv.sub x hx
              · rw [List.mem_singleton] at hx; subst hx
                show x ∈ s2.seen
                rw [hseen]; simp
            · show (s2.ord ++ [t]).Nodup
              rw [List.nodup_append]
              refine ⟨e.inv.nodupO, by simp, ?_⟩
              intro p hp q hq
              rw [List.mem_singleton] at hq
              subst hq
              rintro rfl
              exact ht2 hp
            · intro x hx
              rcases List.mem_append.1 hx with hx | hx
              · exact e.inv.nl x hx
              · rw [List.mem_singleton] at hx; subst hx; exact hl
          · intro u hu; rw [List.mem_singleton] at hu; subst hu
            show u ∈ s2.seen
            rw [hseen]; simp
          · intro x hx; exact ⟨t, by simp, hreach x hx⟩
          · intro x
            rw [List.mem_append, e.written, List.mem_singleton, List.mem_cons]
            constructor
            · rintro (⟨h1, h2⟩ | rfl)
              · exact ⟨.inr h1, h2⟩
              · exact ⟨.inl rfl, hl⟩
            · rintro ⟨rfl | h1, h2⟩
              · exact .inr rfl
              · exact .inl ⟨h1, h2⟩
          · intro x hx y hy hly
            rcases List.mem_append.1 hx with hx | hx
            · rcases e.sorted x hx y hy hly with hp | hr
              · exact .inl (hp.append _)
              · exact .inr hr
            · rw [List.mem_singleton] at hx
              subst hx
              by_cases hyo : y ∈ s2.ord
              · exact .inl (Precedes.last hyo x)
              · right
                have hopen := e.same_open y ⟨e.has y hy, hly, hyo⟩
                obtain ⟨h1, _, h3⟩ := hopen
                rcases List.mem_append.1 h1 with h1 | h1
                · exact ho y ⟨h1, hly, h3⟩
                · rw [List.mem_singleton] at h1; subst h1; exact .refl

/-- The number of nodes not seen. -/
def unseen (n : Nat) (s : Trav) : Nat := ((List.range n).filter fun t => decide (t ∉ s.seen)).length

theorem unseen_le {n : Nat} {s s' : Trav} (h : ∀ x ∈ s.seen, x ∈ s'.seen) : unseen n s' ≤ unseen n s := by
  apply filter_le
  intro x hx
  simp only [decide_eq_true_eq] at hx ⊢
  exact fun hc => hx (h x hc)

theorem dfs_grows {deps : Nat → List Nat} {leaf : Nat → Bool} (depth t : Nat) (s s' : Trav) (h : dfs deps leaf depth t s = some s') : ∀ x ∈ s.seen, x ∈ s'.seen := by
  induction depth generalizing t s s' with
  | zero => simp [dfs] at h
  | succ depth ih =>
    simp only [dfs] at h
    split at h
    · simp only [Option.some.injEq] at h; subst h; exact fun _ h => h
    · split at h
      · cases h
      · rename_i s2 h2
        have hall : ∀ (ts : List Nat) (a b : Trav), dfsAll (dfs deps leaf depth) ts a = some b → ∀ x ∈ a.seen, x ∈ b.seen := by
          intro ts
          induction ts with
          | nil => intro a b hab; simp only [dfsAll, Option.some.injEq] at hab; subst hab; exact fun _ h => h
          | cons k ts ih2 =>
            intro a b hab x hx
            simp only [dfsAll] at hab
            split at hab
            · cases hab
            · rename_i a1 h1
              exact ih2 a1 b hab x (ih k a a1 h1 x hx)
        intro x hx
        have := hall _ _ _ h2 x (List.mem_append_left _ hx)
        simp only [Option.some.injEq] at h
        subst h
        split <;> exact this

/-- A visit ends, also when there are cycles. -/
theorem dfs_ends (deps : Nat → List Nat) (leaf : Nat → Bool) {n : Nat} (hcl : ∀ t < n, ∀ k ∈ deps t, k < n) (depth t : Nat) (s : Trav) (ht : t < n)
    (hd : unseen n s < depth) : dfs deps leaf depth t s ≠ none := by
  induction depth generalizing t s with
  | zero => omega
  | succ depth ih =>
    simp only [dfs]
    by_cases hm : t ∈ s.seen
    · rw [if_pos hm]; simp
    · rw [if_neg hm]
      have hlt : unseen n { s with seen := s.seen ++ [t] } < unseen n s := by
        refine filter_lt _ _ _ ?_ t (List.mem_range.2 ht) (by simpa using hm) (by simp)
        intro x hx
        simp only [decide_eq_true_eq, List.mem_append, not_or] at hx ⊢
        exact hx.1
      have hall : ∀ (ts : List Nat) (a : Trav), (∀ k ∈ ts, k < n) → unseen n a < depth → dfsAll (dfs deps leaf depth) ts a ≠ none := by
        intro ts
        induction ts with
        | nil => intro a _ _; simp [dfsAll]
        | cons k ts ih2 =>
          intro a hts ha
          simp only [dfsAll]
          cases hk : dfs deps leaf depth k a with
          | none => exact absurd hk (ih k a (hts k List.mem_cons_self) ha)
          | some a1 =>
            exact ih2 a1 (fun j hj => hts j (List.mem_cons_of_mem _ hj)) (Nat.lt_of_le_of_lt (unseen_le (dfs_grows depth k a a1 hk)) ha)
      have := hall (deps t) { s with seen := s.seen ++ [t] } (hcl t ht) (by omega)
      cases hr : dfsAll (dfs deps leaf depth) (deps t) { s with seen := s.seen ++ [t] } with
      | none => exact absurd hr this
      | some r => simp

end Current.Schema
