import Verif.Schema.Model
import Verif.Schema.CrcProps
import Mathlib.Logic.Relation
/-!
C93: type ids.
-/
namespace Current.Schema
open Current.Persist

/-! ### Specification -/

/-- The type `k` is a part of the type `t`. -/
def Part (G : Types) (t k : Nat) : Prop := k ∈ (G t).d.parts

/-- The structural id of a type: computed from its name, the names of its fields and the structural ids of its parts. A type with a cycle below it has none. -/
inductive HasId (G : Types) : Nat → UInt64 → Prop
  | mk (t : Nat) (f : Nat → UInt64) (h : ∀ k, k ∈ (G t).d.parts → HasId G k (f k)) :
    HasId G t (calcId (G t).name ((G t).d.fill ((G t).d.parts.map f) uninit))

/-- Sizes of arrays that exist. -/
def ArraysSmall (G : Types) : Prop := ∀ t e n, (G t).d = .array e n → n < 2 ^ 55

/-- All types are among the first `n`. -/
def Closed (G : Types) (n : Nat) : Prop := ∀ t < n, ∀ k, Part G t k → k < n

/-- The number that marks the kind of a type, `types.h:49-66`. -/
def kindOf {α : Type} : Def α → UInt64
  | .prim _ => 900 | .enum _ => 901 | .struct .. => 920 | .opt _ => 921 | .variant _ => 922
  | .array .. => 930 | .vector _ => 931 | .set _ => 932 | .pair .. => 933 | .map .. => 934 | .uset _ => 935 | .umap .. => 936

/-! ### Kinds -/

theorem base_toNat (k : UInt64) (hk : k.toNat ≤ 999) (x : UInt64) (hx : x.toNat < 10000000000000000) :
    (k * range + x).toNat = k.toNat * 10000000000000000 + x.toNat := by
  have hr : range.toNat = 10000000000000000 := by decide
  rw [UInt64.toNat_add, UInt64.toNat_mul, hr]
  have h1 : k.toNat * 10000000000000000 % 2 ^ 64 = k.toNat * 10000000000000000 := Nat.mod_eq_of_lt (by omega)
  rw [h1]
  exact Nat.mod_eq_of_lt (by omega)

theorem mod_range (x : UInt64) : (x % range).toNat < 10000000000000000 := by
  have hr : range.toNat = 10000000000000000 := by decide
  rw [UInt64.toNat_mod, hr]
  exact Nat.mod_lt _ (by decide)

theorem crcName_lt (s : Str) : (crcName s).toNat < 2 ^ 32 := by
  unfold crcName
  rw [UInt32.toNat_toUInt64]
  exact UInt32.toNat_lt _

/-- C94: the id of a type tells its kind, for all types but arrays (and primitives with small numbers). -/
theorem id_tells_the_kind (name : Str) (d : Def UInt64) (ha : ∀ e n, d ≠ .array e n) (hp : ∀ i, d = .prim i → i < 1000) :
    typePrefix (calcId name d) = kindOf d := by
  have key : ∀ (k : UInt64), k.toNat ≤ 999 → ∀ x : UInt64, x.toNat < 10000000000000000 → typePrefix (k * range + x) = k := by
    intro k hk x hx
    apply UInt64.toNat_inj.1
    unfold typePrefix
    have hr : range.toNat = 10000000000000000 := by decide
    rw [UInt64.toNat_div, base_toNat k hk x hx, hr]
    omega
  cases d with
  | prim i =>
    refine key 900 (by decide) _ ?_
    have := hp i rfl
    rw [UInt64.toNat_ofNat']
    rw [Nat.mod_eq_of_lt (by omega)]; omega
  | enum u => exact key 901 (by decide) _ (by have := crcName_lt name; omega)
  | array e n => exact absurd rfl (ha e n)
  | vector e => exact key 931 (by decide) _ (mod_range _)
  | pair a b => exact key 933 (by decide) _ (mod_range _)
  | map a b => exact key 934 (by decide) _ (mod_range _)
  | umap a b => exact key 936 (by decide) _ (mod_range _)
  | set e => exact key 932 (by decide) _ (mod_range _)
  | uset e => exact key 935 (by decide) _ (mod_range _)
  | opt e => exact key 921 (by decide) _ (mod_range _)
  | variant cs => exact key 922 (by decide) _ (mod_range _)
  | struct s i fs => exact key 920 (by decide) _ (mod_range _)

/-- Not for arrays: an array of 2^40 bytes of such a kind has the id of the kind of vectors. -/
theorem array_id_of_another_kind : typePrefix (calcId [] (.array (calcId [] (.prim 21)) (2 ^ 46))) = 931 := by decide +kernel

theorem calcId_ne_uninit (name : Str) (d : Def UInt64) (hs : ∀ e n, d = .array e n → n < 2 ^ 55) (hp : ∀ i, d = .prim i → i < 1000) :
    calcId name d ≠ uninit := by
  intro h
  by_cases ha : ∃ e n, d = .array e n
  · obtain ⟨e, n, rfl⟩ := ha
    have hn := hs e n rfl
    have hrol : (rol64 (UInt64.ofNat n) 7).toNat < 2 ^ 62 := by
      unfold rol64
      simp only [show 7 % 64 = 7 from rfl, show (64 - 7) % 64 = 57 from rfl]
      have h7 : (UInt64.ofNat n).toNat = n := by rw [UInt64.toNat_ofNat']; exact Nat.mod_eq_of_lt (by omega)
      rw [UInt64.toNat_or, UInt64.toNat_shiftLeft, UInt64.toNat_shiftRight, h7]
      apply Nat.or_lt_two_pow
      · rw [show (UInt64.ofNat 7).toNat % 64 = 7 by decide, Nat.shiftLeft_eq]
        have : n * 2 ^ 7 < 2 ^ 62 := by omega
        exact Nat.lt_of_le_of_lt (Nat.mod_le _ _) this
      · rw [Nat.shiftRight_eq_div_pow]
        exact Nat.lt_of_le_of_lt (Nat.div_le_self _ _) (by omega)
    have h1 : (930 * range + rol64 e 3 % range).toNat < 931 * 10000000000000000 := by
      rw [base_toNat 930 (by decide) _ (mod_range _)]
      have := mod_range (rol64 e 3)
      have : (930 : UInt64).toNat = 930 := by decide
      omega
    have h2 : (calcId name (.array e n)).toNat = (930 * range + rol64 e 3 % range).toNat + (rol64 (UInt64.ofNat n) 7).toNat := by
      simp only [calcId]
      rw [UInt64.toNat_add]
      exact Nat.mod_eq_of_lt (by omega)
    rw [h] at h2
    have : uninit.toNat = 18446744073709551615 := by decide
    omega
  · have hk := id_tells_the_kind name d (fun e n hc => ha ⟨e, n, hc⟩) hp
    rw [h] at hk
    have hu : typePrefix uninit = 1844 := by decide
    rw [hu] at hk
    cases d <;> simp only [kindOf] at hk <;> revert hk <;> decide

/-! ### Termination -/

theorem visited_mem {α : Type} (o : ArgOrder) (d : Def α) (k : α) : k ∈ d.visited o ↔ k ∈ d.parts := by
  cases o <;> cases d <;> simp [Def.visited, Def.parts, or_comm]

/-- The number of types without an id. -/
def missing (n : Nat) (c : Cache) : Nat := ((List.range n).filter fun t => decide (c t = uninit)).length

theorem filter_le {α : Type} (p q : α → Bool) (l : List α) (h : ∀ x, q x = true → p x = true) : (l.filter q).length ≤ (l.filter p).length := by
  induction l with
  | nil => simp
  | cons x l ih =>
    simp only [List.filter_cons]
    by_cases hq : q x = true
    · rw [if_pos hq, if_pos (h x hq)]; simp; exact ih
    · rw [if_neg hq]
      split
      · simp only [List.length_cons]; omega
      · exact ih

theorem missing_le {n : Nat} {c c' : Cache} (h : ∀ u, c u ≠ uninit → c' u ≠ uninit) : missing n c' ≤ missing n c := by
  apply filter_le
  intro x hx
  simp only [decide_eq_true_eq] at hx ⊢
  apply Classical.byContradiction
  intro hc
  exact h x hc hx

theorem filter_lt {α : Type} (p q : α → Bool) (l : List α) (h : ∀ x, q x = true → p x = true) (x : α) (hx : x ∈ l) (h1 : p x = true) (h2 : q x = false) :
    (l.filter q).length < (l.filter p).length := by
  induction l with
  | nil => simp at hx
  | cons y l ih =>
    simp only [List.filter_cons]
    rcases List.mem_cons.1 hx with rfl | hx
    · rw [if_pos h1, if_neg (by rw [h2]; decide)]
      have := filter_le p q l h
      simp; omega
    · have := ih hx
      by_cases hq : q y = true
      · rw [if_pos hq, if_pos (h y hq)]; simp; exact this
      · rw [if_neg hq]
        split
        · simp only [List.length_cons]; omega
        · exact this

theorem missing_put {n : Nat} {c : Cache} {t : Nat} {id : UInt64} (ht : t < n) (hc : c t = uninit) (hid : id ≠ uninit) : missing n (c.put t id) < missing n c := by
  unfold missing
  refine filter_lt _ _ _ ?_ t (List.mem_range.2 ht) (by simpa using hc) (by simp [Cache.put, hid])
  intro x hx
  simp only [Cache.put] at hx
  split at hx
  · exact absurd (by simpa using hx) hid
  · exact hx

theorem cyclic_ne_uninit (s : Str) : 999 * range + crcName s % range ≠ uninit := by
  intro h
  have h1 := base_toNat 999 (by decide) _ (mod_range (crcName s))
  have h2 := mod_range (crcName s)
  rw [h] at h1
  have : uninit.toNat = 18446744073709551615 := by decide
  have : (999 : UInt64).toNat = 999 := by decide
  omega

/-- Facts about primitives and arrays that every program satisfies. -/
structure Sound (G : Types) : Prop where
  arrays : ArraysSmall G
  prims : ∀ t i, (G t).d = .prim i → i < 1000

theorem sound_calc {G : Types} (hg : Sound G) (t : Nat) (l : List UInt64) : calcId (G t).name ((G t).d.fill l uninit) ≠ uninit := by
  apply calcId_ne_uninit
  · intro e n h
    cases hd : (G t).d <;> rw [hd] at h <;> simp only [Def.fill, reduceCtorEq, Def.array.injEq] at h
    obtain ⟨_, rfl⟩ := h
    exact hg.arrays t _ _ hd
  · intro i h
    cases hd : (G t).d <;> rw [hd] at h <;> simp only [Def.fill, reduceCtorEq, Def.prim.injEq] at h
    subst h
    exact hg.prims t _ hd

/-- An id, once known (or being computed), stays known. -/
theorem typeId_keeps {o : ArgOrder} {G : Types} (hg : Sound G) (depth t : Nat) (c c' : Cache) (id : UInt64) (h : typeId o G depth t c = some (id, c')) :
    (∀ u, c u ≠ uninit → c' u ≠ uninit) ∧ c' t = id ∧ id ≠ uninit := by
  induction depth generalizing t c c' id with
  | zero => simp [typeId] at h
  | succ depth ih =>
    simp only [typeId] at h
    split at h
    · rename_i hc
      split at h
      · cases h
      · rename_i ids c2 hth
        simp only [Option.some.injEq, Prod.mk.injEq] at h
        obtain ⟨rfl, rfl⟩ := h
        have hcalc := sound_calc hg t ((G t).d.inOrder o ids)
        have hthr : ∀ (ts : List Nat) (a b : Cache) (l : List UInt64), thread (typeId o G depth) ts a = some (l, b) → ∀ u, a u ≠ uninit → b u ≠ uninit := by
          intro ts
          induction ts with
          | nil => intro a b l hab; simp only [thread, Option.some.injEq, Prod.mk.injEq] at hab; obtain ⟨_, rfl⟩ := hab; exact fun _ h => h
          | cons k ts ih2 =>
            intro a b l hab u hu
            simp only [thread] at hab
            split at hab
            · cases hab
            · rename_i idk ck hk
              split at hab
              · cases hab
              · rename_i l2 b2 hrest
                simp only [Option.some.injEq, Prod.mk.injEq] at hab
                obtain ⟨_, rfl⟩ := hab
                exact ih2 _ _ _ hrest u ((ih k a ck idk hk).1 u hu)
        refine ⟨?_, by simp [Cache.put], hcalc⟩
        intro u hu
        simp only [Cache.put]
        split
        · exact hcalc
        · refine hthr _ _ _ _ hth u ?_
          simp only [Cache.put]
          split
          · exact cyclic_ne_uninit _
          · exact hu
    · rename_i hc
      simp only [Option.some.injEq, Prod.mk.injEq] at h
      obtain ⟨rfl, rfl⟩ := h
      exact ⟨fun _ h => h, rfl, hc⟩

/-- C93: computing a type id ends, also for recursive types. -/
theorem typeId_ends (o : ArgOrder) {G : Types} (hg : Sound G) {n : Nat} (hcl : Closed G n) (depth t : Nat) (c : Cache) (ht : t < n) (hd : missing n c < depth) :
    typeId o G depth t c ≠ none := by
  induction depth generalizing t c with
  | zero => omega
  | succ depth ih =>
    simp only [typeId]
    split
    · rename_i hc
      have hlt := missing_put (c := c) ht hc (cyclic_ne_uninit (G t).name)
      have hthr : ∀ (ts : List Nat) (a : Cache), (∀ k ∈ ts, k < n) → missing n a < depth → thread (typeId o G depth) ts a ≠ none := by
        intro ts
        induction ts with
        | nil => intro a _ _; simp [thread]
        | cons k ts ih2 =>
          intro a hts ha
          simp only [thread]
          have h1 := ih k a (hts k List.mem_cons_self) ha
          cases hk : typeId o G depth k a with
          | none => exact absurd hk h1
          | some r =>
            obtain ⟨idk, ck⟩ := r
            simp only
            have h2 := ih2 ck (fun j hj => hts j (List.mem_cons_of_mem _ hj))
              (Nat.lt_of_le_of_lt (missing_le (typeId_keeps hg depth k a ck idk hk).1) ha)
            cases hr : thread (typeId o G depth) ts ck with
            | none => exact absurd hr h2
            | some r => simp
      have := hthr ((G t).d.visited o) (c.put t (999 * range + crcName (G t).name % range))
        (fun k hk => hcl t ht k ((visited_mem o _ k).1 hk)) (by omega)
      cases hr : thread (typeId o G depth) ((G t).d.visited o) (c.put t (999 * range + crcName (G t).name % range)) with
      | none => exact absurd hr this
      | some r => simp
    · simp

/-! ### Structural ids -/

theorem map_congr' {α β : Type} {f g : α → β} {l : List α} (h : ∀ x ∈ l, f x = g x) : l.map f = l.map g := List.map_congr_left h

theorem HasId.unique {G : Types} {t : Nat} {a b : UInt64} (ha : HasId G t a) (hb : HasId G t b) : a = b := by
  induction ha generalizing b with
  | mk t f hf ih =>
    cases hb with
    | mk _ g hg =>
      rw [map_congr' (fun k hk => ih k hk (hg k hk))]

theorem HasId.inv {G : Types} {t : Nat} {a : UInt64} (h : HasId G t a) :
    ∃ f : Nat → UInt64, (∀ k, k ∈ (G t).d.parts → HasId G k (f k)) ∧ a = calcId (G t).name ((G t).d.fill ((G t).d.parts.map f) uninit) := by
  cases h with
  | mk _ f hf => exact ⟨f, hf, rfl⟩

/-- A type has a structural id exactly if there is no infinite descent into its parts. -/
theorem hasId_iff {G : Types} {t : Nat} : (∃ id, HasId G t id) ↔ Acc (fun k t => Part G t k) t := by
  constructor
  · rintro ⟨id, h⟩
    induction h with
    | mk t f hf ih => exact Acc.intro t fun k hk => ih k hk
  · intro h
    induction h with
    | intro t _ ih =>
      have hc : ∀ k, ∃ id, k ∈ (G t).d.parts → HasId G k id := by
        intro k
        by_cases hk : k ∈ (G t).d.parts
        · obtain ⟨id, h⟩ := ih k hk; exact ⟨id, fun _ => h⟩
        · exact ⟨0, fun h => absurd h hk⟩
      exact ⟨_, HasId.mk t (fun k => (hc k).choose) fun k hk => (hc k).choose_spec hk⟩

open Relation in
theorem HasId.no_cycle {G : Types} {t : Nat} {a : UInt64} (h : HasId G t a) : ∀ k, Part G t k → ¬ ReflTransGen (Part G) k t := by
  induction h with
  | mk t f hf ih =>
    intro k hk hr
    -- the first step back from `t` down leads to `k`
    rcases ReflTransGen.cases_head hr with rfl | ⟨j, hkj, hjt⟩
    · exact ih k hk k hk .refl
    · exact ih k hk j hkj (hjt.tail hk)

theorem inOrder_map {α β : Type} (o : ArgOrder) (d : Def α) (f : α → β) : d.inOrder o ((d.visited o).map f) = d.parts.map f := by
  cases o <;> cases d <;> simp [Def.inOrder, Def.visited, Def.parts]

open Relation in
/-- C93: a type without cycles below it gets its structural id: whatever the compiler's order of evaluation, whatever top-level type it is reached from, and whatever else is known by then. -/
theorem typeId_is_structural (o : ArgOrder) {G : Types} {t : Nat} {id : UInt64} (hid : HasId G t id) (depth : Nat) (c c' : Cache) (x : UInt64)
    (hc : ∀ u, ReflTransGen (Part G) t u → c u = uninit ∨ HasId G u (c u)) (h : typeId o G depth t c = some (x, c')) :
    x = id ∧ ∀ u, c' u = c u ∨ (c u = uninit ∧ HasId G u (c' u)) := by
  induction hid generalizing depth c c' x with
  | mk t f hf ih =>
    have hid : HasId G t (calcId (G t).name ((G t).d.fill ((G t).d.parts.map f) uninit)) := HasId.mk t f hf
    cases depth with
    | zero => simp [typeId] at h
    | succ depth =>
      simp only [typeId] at h
      by_cases hct : c t = uninit
      · rw [if_pos hct] at h
        -- the parts
        have hthr : ∀ (ts : List Nat) (a b : Cache) (l : List UInt64), (∀ k ∈ ts, k ∈ (G t).d.parts) →
            (∀ k ∈ (G t).d.parts, ∀ u, ReflTransGen (Part G) k u → a u = uninit ∨ HasId G u (a u)) →
            thread (typeId o G depth) ts a = some (l, b) →
            l = ts.map f ∧ ∀ u, b u = a u ∨ (a u = uninit ∧ HasId G u (b u)) := by
          intro ts
          induction ts with
          | nil =>
            intro a b l _ _ hab
            simp only [thread, Option.some.injEq, Prod.mk.injEq] at hab
            obtain ⟨rfl, rfl⟩ := hab
            exact ⟨rfl, fun _ => .inl rfl⟩
          | cons k ts ih2 =>
            intro a b l hts ha hab
            simp only [thread] at hab
            split at hab
            · cases hab
            · rename_i idk ck hk
              split at hab
              · cases hab
              · rename_i l2 b2 hrest
                simp only [Option.some.injEq, Prod.mk.injEq] at hab
                obtain ⟨rfl, rfl⟩ := hab
                have hkp := hts k List.mem_cons_self
                obtain ⟨e1, e2⟩ := ih k hkp depth a ck idk (ha k hkp) hk
                have hck : ∀ k ∈ (G t).d.parts, ∀ u, ReflTransGen (Part G) k u → ck u = uninit ∨ HasId G u (ck u) := by
                  intro j hj u hu
                  rcases e2 u with e | e
                  · rw [e]; exact ha j hj u hu
                  · exact .inr e.2
                obtain ⟨e3, e4⟩ := ih2 ck b2 l2 (fun j hj => hts j (List.mem_cons_of_mem _ hj)) hck hrest
                refine ⟨by rw [e1, e3]; rfl, ?_⟩
                intro u
                rcases e4 u with e | e
                · rw [e]; exact e2 u
                · rcases e2 u with e' | e'
                  · exact .inr ⟨e' ▸ e.1, e.2⟩
                  · exact .inr ⟨e'.1, e.2⟩
        split at h
        · cases h
        · rename_i ids c2 hth
          simp only [Option.some.injEq, Prod.mk.injEq] at h
          obtain ⟨rfl, rfl⟩ := h
          obtain ⟨e1, e2⟩ := hthr _ _ _ _ (fun k hk => (visited_mem o _ k).1 hk) (by
            intro k hk u hu
            have hut : u ≠ t := by rintro rfl; exact hid.no_cycle k hk hu
            simp only [Cache.put, if_neg hut]
            exact hc u ((ReflTransGen.single hk).trans hu)) hth
          rw [e1, inOrder_map]
          refine ⟨rfl, ?_⟩
          intro u
          simp only [Cache.put]
          by_cases hut : u = t
          · subst hut; rw [if_pos rfl]; exact .inr ⟨hct, hid⟩
          · rw [if_neg hut]
            have := e2 u
            simp only [Cache.put, if_neg hut] at this
            exact this
      · rw [if_neg hct] at h
        simp only [Option.some.injEq, Prod.mk.injEq] at h
        obtain ⟨rfl, rfl⟩ := h
        refine ⟨?_, fun _ => .inl rfl⟩
        rcases hc t .refl with e | e
        · exact absurd e hct
        · exact e.unique hid

/-! ### The thread -/

/-- A sequence of calls of `CurrentTypeID` for various types in one thread, and what they return. -/
def calls (o : ArgOrder) (G : Types) (depth : Nat) : ThreadState → List Nat → Option (List UInt64)
  | _, [] => some []
  | s, t :: ts =>
    match currentTypeId o G depth s t with
    | none => none
    | some (id, s) => (calls o G depth s ts).map (id :: ·)

/-- The id of a type in a new thread. -/
def freshId (o : ArgOrder) (G : Types) (depth : Nat) (t : Nat) : UInt64 := ((typeId o G depth t Cache.empty).map (·.1)).getD uninit

theorem missing_empty (n : Nat) : missing n Cache.empty = n := by
  unfold missing Cache.empty
  rw [List.filter_eq_self.2 (by simp), List.length_range]

/-- C93: the id of a type does not depend on what was asked for before: in every sequence of calls every call returns what it would return as the first call of a new thread. -/
theorem ids_do_not_depend_on_history (o : ArgOrder) {G : Types} (hg : Sound G) {n : Nat} (hcl : Closed G n) (ts : List Nat) (hts : ∀ t ∈ ts, t < n) :
    calls o G (n + 1) (fun _ => Cache.empty) ts = some (ts.map (freshId o G (n + 1))) := by
  have key : ∀ (ts : List Nat) (s : ThreadState), (∀ t ∈ ts, t < n) →
      (∀ t < n, s t = Cache.empty ∨ (s t t = freshId o G (n + 1) t ∧ s t t ≠ uninit)) →
      calls o G (n + 1) s ts = some (ts.map (freshId o G (n + 1))) := by
    intro ts
    induction ts with
    | nil => intro s _ _; rfl
    | cons t ts ih =>
      intro s hts hs
      have ht := hts t List.mem_cons_self
      simp only [calls, currentTypeId]
      have hone : ∃ c, typeId o G (n + 1) t (s t) = some (freshId o G (n + 1) t, c) ∧ c t = freshId o G (n + 1) t ∧ c t ≠ uninit := by
        rcases hs t ht with he | ⟨he, hne⟩
        · rw [he]
          have hend := typeId_ends o hg hcl (n + 1) t Cache.empty ht (by rw [missing_empty]; omega)
          unfold freshId
          cases hr : typeId o G (n + 1) t Cache.empty with
          | none => exact absurd hr hend
          | some r =>
            obtain ⟨id, c⟩ := r
            obtain ⟨_, k1, k2⟩ := typeId_keeps hg (n + 1) t _ _ _ hr
            exact ⟨c, rfl, k1, by rw [k1]; exact k2⟩
        · refine ⟨s t, ?_, he, hne⟩
          simp only [typeId, if_neg hne]
          rw [he]
      obtain ⟨c, h1, h2, h3⟩ := hone
      rw [h1]
      simp only
      rw [ih _ (fun u hu => hts u (List.mem_cons_of_mem _ hu))]
      · rfl
      · intro u hu
        by_cases hut : u = t
        · subst hut; simp only [if_true]; exact .inr ⟨h2, h3⟩
        · simp only [if_neg hut]; exact hs u hu
  exact key ts _ hts (fun _ _ => .inl rfl)

/-- C93: for types without cycles, the id is the structural one, with every compiler. -/
theorem fresh_is_structural (o : ArgOrder) {G : Types} (hg : Sound G) {n : Nat} (hcl : Closed G n) {t : Nat} (ht : t < n) {id : UInt64} (hid : HasId G t id) :
    freshId o G (n + 1) t = id := by
  have hend := typeId_ends o hg hcl (n + 1) t Cache.empty ht (by rw [missing_empty]; omega)
  unfold freshId
  cases hr : typeId o G (n + 1) t Cache.empty with
  | none => exact absurd hr hend
  | some r =>
    obtain ⟨x, c⟩ := r
    exact (typeId_is_structural o hid (n + 1) _ _ _ (fun _ _ => .inl rfl) hr).1

end Current.Schema
