import Verif.Routes.Model
import Mathlib.Data.List.Nodup
/-!
What the routing table is, seen from outside: a partial function from (path, number of arguments) to handlers, and what
`Register`, `UnRegister` and the scopes do to it (C59).
-/
namespace Current.Routes
open Current.Persist Current.Url

variable {H : Type}

/-! ### Association lists -/

section assoc
variable {K V : Type} [DecidableEq K]

theorem assocFind_erase (m : List (K × V)) (k x : K) : assocFind (assocErase m k) x = if x = k then none else assocFind m x := by
  induction m with
  | nil => simp [assocFind, assocErase]
  | cons e m ih =>
    unfold assocFind assocErase at *
    by_cases h : e.1 = k
    · rw [List.filter_cons_of_neg (by simp [h]), ih, List.find?_cons]
      by_cases hx : x = k
      · simp [hx]
      · have : ¬ (e.1 = x) := fun he => hx (by rw [← he, h])
        simp [hx, this]
    · rw [List.filter_cons_of_pos (by simp [h]), List.find?_cons, List.find?_cons]
      by_cases hx : e.1 = x
      · have : ¬ x = k := fun he => h (by rw [hx, he])
        simp [hx, this]
      · simp only [hx, decide_false, ih]

theorem assocFind_append_single (m : List (K × V)) (k x : K) (v : V) (hn : assocFind m k = none) :
    assocFind (m ++ [(k, v)]) x = if x = k then some v else assocFind m x := by
  unfold assocFind at *
  rw [List.find?_append]
  by_cases hx : x = k
  · subst hx
    simp only [Option.map_eq_none_iff] at hn
    simp [hn]
  · have : ¬ k = x := fun h => hx h.symm
    simp [this, hx]

theorem assocFind_map (m : List (K × V)) (k x : K) (v : V) (hn : (assocFind m k).isSome) :
    assocFind (m.map fun e => if e.1 = k then (k, v) else e) x = if x = k then some v else assocFind m x := by
  induction m with
  | nil => simp [assocFind] at hn
  | cons e m ih =>
    unfold assocFind at *
    rw [List.map_cons, List.find?_cons, List.find?_cons]
    by_cases h : e.1 = k
    · by_cases hx : x = k
      · simp [h, hx]
      · have h1 : ¬ k = x := fun h' => hx h'.symm
        have h2 : ¬ e.1 = x := fun h' => hx (by rw [← h', h])
        simp only [h, if_true, h1, h2, decide_false, hx, if_false]
        have hmap : ∀ l : List (K × V), (List.find? (fun e => decide (e.1 = x)) (l.map fun e => if e.1 = k then (k, v) else e)).map Prod.snd
            = (List.find? (fun e => decide (e.1 = x)) l).map Prod.snd := by
          intro l
          induction l with
          | nil => rfl
          | cons y l ihl =>
            rw [List.map_cons, List.find?_cons, List.find?_cons]
            by_cases hy : y.1 = k
            · have : ¬ y.1 = x := fun h' => hx (by rw [← h', hy])
              simp only [hy, if_true, h1, decide_false, this]
              exact ihl
            · simp only [hy, if_false]
              by_cases hyx : y.1 = x
              · simp [hyx]
              · simp only [hyx, decide_false]
                exact ihl
        exact hmap m
    · simp only [h, if_false]
      by_cases hx : e.1 = x
      · have : ¬ x = k := fun h' => h (by rw [hx, h'])
        simp [hx, this]
      · simp only [hx, decide_false]
        apply ih
        rw [List.find?_cons] at hn
        simpa [h] using hn

theorem assocFind_set (m : List (K × V)) (k x : K) (v : V) :
    assocFind (assocSet m k v) x = if x = k then some v else assocFind m x := by
  unfold assocSet
  split
  · rename_i h
    exact assocFind_map m k x v h
  · rename_i h
    exact assocFind_append_single m k x v (by simpa using h)

theorem assocFind_mem {m : List (K × V)} {k : K} {v : V} (h : assocFind m k = some v) : (k, v) ∈ m := by
  unfold assocFind at h
  simp only [Option.map_eq_some_iff] at h
  obtain ⟨e, he, rfl⟩ := h
  have h1 := List.mem_of_find?_eq_some he
  have h2 := List.find?_some he
  simp only [decide_eq_true_eq] at h2
  rw [← h2]
  exact h1

theorem assocFind_none_iff {m : List (K × V)} {k : K} : assocFind m k = none ↔ k ∉ m.map Prod.fst := by
  unfold assocFind
  simp only [Option.map_eq_none_iff, List.find?_eq_none, decide_eq_true_eq, List.mem_map, not_exists, not_and]

theorem assocErase_nodup {m : List (K × V)} (k : K) (h : (m.map Prod.fst).Nodup) : ((assocErase m k).map Prod.fst).Nodup :=
  h.sublist (List.filter_sublist.map _)

theorem assocSet_nodup {m : List (K × V)} (k : K) (v : V) (h : (m.map Prod.fst).Nodup) : ((assocSet m k v).map Prod.fst).Nodup := by
  unfold assocSet
  split
  · have : (m.map fun e => if e.1 = k then (k, v) else e).map Prod.fst = m.map Prod.fst := by
      rw [List.map_map]
      apply List.map_congr_left
      intro e _
      simp only [Function.comp]
      split
      · rename_i h; exact h.symm
      · rfl
    rw [this]
    exact h
  · rename_i hn
    have hk : k ∉ m.map Prod.fst := assocFind_none_iff.1 (by simpa using hn)
    rw [List.map_append]
    rw [List.nodup_append]
    refine ⟨h, by simp, ?_⟩
    intro a ha b hb
    simp only [List.map_cons, List.map_nil, List.mem_singleton] at hb
    subst hb
    exact fun h' => hk (h' ▸ ha)

theorem assocFind_of_mem {m : List (K × V)} (h : (m.map Prod.fst).Nodup) {k : K} {v : V} (hm : (k, v) ∈ m) : assocFind m k = some v := by
  induction m with
  | nil => simp at hm
  | cons e m ih =>
    rw [List.map_cons, List.nodup_cons] at h
    unfold assocFind
    rw [List.find?_cons]
    rcases List.mem_cons.1 hm with rfl | hm
    · simp
    · have : ¬ e.1 = k := fun he => h.1 (he ▸ List.mem_map.2 ⟨(k, v), hm, rfl⟩)
      simp only [this, decide_false]
      exact ih h.2 hm

end assoc

/-! ### The table from outside -/

/-- The handler that serves `path` with `n` arguments. -/
def Table.view (t : Table H) (path : Str) (n : Nat) : Option H := (assocFind t path).bind fun inner => assocFind inner n

/-- What every reachable table satisfies: keys are unique (`std::map`) and no path has an empty map. -/
structure Good (t : Table H) : Prop where
  keys : (t.map Prod.fst).Nodup
  inner : ∀ e ∈ t, e.2 ≠ []

theorem good_empty : Good ([] : Table H) := ⟨by simp, by simp⟩

/-- The number of arguments a mask allows. -/
theorem mem_counts (m i : Nat) : i ∈ counts m ↔ i ≤ 15 ∧ m.testBit i = true := by
  unfold counts maxArgsCount inMask
  rw [List.mem_filter, List.mem_range, Nat.one_shiftLeft, Nat.and_two_pow, beq_iff_eq]
  cases h : m.testBit i
  · have := Nat.two_pow_pos i
    simp only [Bool.toNat_false, Nat.zero_mul]
    constructor
    · rintro ⟨_, h⟩; omega
    · rintro ⟨_, h⟩; cases h
  · simp only [Bool.toNat_true, Nat.one_mul, and_true]
    omega

theorem counts_nodup (m : Nat) : (counts m).Nodup := List.nodup_range.filter _

theorem counts_ne_nil {m : Nat} (h0 : m ≠ 0) (h : m < 65536) : counts m ≠ [] := by
  obtain ⟨i, hi, _⟩ := Nat.exists_most_significant_bit h0
  have : i ≤ 15 := by
    by_contra hc
    have := Nat.ge_two_pow_of_testBit hi
    have h2 : 2 ^ 16 ≤ 2 ^ i := Nat.pow_le_pow_right (by decide) (by omega)
    omega
  intro he
  have := (mem_counts m i).2 ⟨this, hi⟩
  rw [he] at this
  cases this

theorem view_set (t : Table H) (path : Str) (inner : Inner H) (p : Str) (n : Nat) :
    Table.view (assocSet t path inner) p n = if p = path then assocFind inner n else t.view p n := by
  unfold Table.view
  rw [assocFind_set]
  split <;> simp

theorem view_erase (t : Table H) (path : Str) (p : Str) (n : Nat) :
    Table.view (assocErase t path) p n = if p = path then none else t.view p n := by
  unfold Table.view
  rw [assocFind_erase]
  split <;> simp

theorem good_set {t : Table H} (g : Good t) (path : Str) {inner : Inner H} (h : inner ≠ []) : Good (assocSet t path inner) := by
  refine ⟨assocSet_nodup _ _ g.keys, ?_⟩
  intro e he
  unfold assocSet at he
  split at he
  · obtain ⟨x, hx, rfl⟩ := List.mem_map.1 he
    split
    · exact h
    · exact g.inner x hx
  · rcases List.mem_append.1 he with he | he
    · exact g.inner e he
    · simp only [List.mem_singleton] at he
      subst he
      exact h

theorem good_erase {t : Table H} (g : Good t) (path : Str) : Good (assocErase t path) :=
  ⟨assocErase_nodup _ g.keys, fun e he => g.inner e (List.mem_filter.1 he).1⟩

theorem setLoop_find (inner : Inner H) (h : H) (l : List Nat) (n : Nat) :
    assocFind (setLoop inner h l) n = if n ∈ l then some h else assocFind inner n := by
  induction l generalizing inner with
  | nil => simp [setLoop]
  | cons i l ih =>
    unfold setLoop
    rw [ih, assocFind_set]
    by_cases h1 : n ∈ l
    · simp [h1]
    · by_cases h2 : n = i <;> simp [h1, h2]

/-- `UnRegister` for one count: possible exactly if that route exists; it then removes that route and nothing else. -/
theorem unregisterOne_view {t : Table H} (g : Good t) (path : Str) (i : Nat) :
    match unregisterOne t path i with
    | .error _ => t.view path i = none
    | .ok t' => Good t' ∧ (t.view path i).isSome ∧ ∀ p n, t'.view p n = if p = path ∧ n = i then none else t.view p n := by
  unfold unregisterOne
  cases h1 : assocFind t path with
  | none => simp [Table.view, h1]
  | some inner =>
    cases h2 : assocFind inner i with
    | none => simp [Table.view, h1, h2]
    | some hd =>
      simp only [h2]
      by_cases he : assocErase inner i = []
      · simp only [he, if_true]
        refine ⟨good_erase g _, by simp [Table.view, h1, h2], ?_⟩
        intro p n
        rw [view_erase]
        by_cases hp : p = path
        · subst hp
          by_cases hn : n = i
          · simp [hn]
          · have h3 := assocFind_erase inner i n
            rw [he, if_neg hn] at h3
            simp only [if_true, hn, and_false, if_false, Table.view, h1, Option.bind_some, ← h3]
            rfl
        · simp [hp]
      · simp only [he, if_false]
        refine ⟨good_set g _ he, by simp [Table.view, h1, h2], ?_⟩
        intro p n
        rw [view_set]
        by_cases hp : p = path
        · subst hp
          simp only [if_true, true_and, assocFind_erase, Table.view, h1, Option.bind_some]
        · simp [hp]

theorem unregisterLoop_view {t : Table H} (g : Good t) (path : Str) (l : List Nat) (hl : l.Nodup) :
    match unregisterLoop t path l with
    | (t', none) => Good t' ∧ (∀ i ∈ l, (t.view path i).isSome) ∧ ∀ p n, t'.view p n = if p = path ∧ n ∈ l then none else t.view p n
    | (t', some e) => Good t' ∧ e = .missing ∧ ∃ done i rest, l = done ++ i :: rest ∧ (∀ j ∈ done, (t.view path j).isSome) ∧
        t.view path i = none ∧ ∀ p n, t'.view p n = if p = path ∧ n ∈ done then none else t.view p n := by
  induction l generalizing t with
  | nil => simp [unregisterLoop, g]
  | cons i l ih =>
    have h1 := unregisterOne_view g path i
    unfold unregisterLoop
    cases h : unregisterOne t path i with
    | error e =>
      rw [h] at h1
      have he : e = .missing := by
        unfold unregisterOne at h
        grind
      exact ⟨g, he, [], i, l, rfl, by simp, h1, by simp⟩
    | ok t' =>
      rw [h] at h1
      obtain ⟨g', hi, hv⟩ := h1
      rw [List.nodup_cons] at hl
      have h2 := ih g' hl.2
      cases hr : unregisterLoop t' path l with
      | mk t'' o =>
        rw [hr] at h2
        simp only [hr]
        cases o with
        | none =>
          obtain ⟨g'', ha, hv'⟩ := h2
          refine ⟨g'', ?_, ?_⟩
          · intro j hj
            rcases List.mem_cons.1 hj with rfl | hj
            · exact hi
            · have := ha j hj
              rw [hv] at this
              split at this
              · cases this
              · exact this
          · intro p n
            rw [hv', hv]
            by_cases hp : p = path
            · by_cases hn : n ∈ l <;> by_cases hni : n = i <;> simp [hp, hn, hni]
            · simp [hp]
        | some e =>
          obtain ⟨g'', he, done, j, rest, hl', ha, hm, hv'⟩ := h2
          have hdl : ∀ x ∈ done, x ≠ i := fun x hx he => hl.1 (by rw [hl', ← he]; simp [hx])
          have hji : j ≠ i := fun he => hl.1 (by rw [hl', ← he]; simp)
          refine ⟨g'', he, i :: done, j, rest, by rw [hl']; rfl, ?_, ?_, ?_⟩
          · intro x hx
            rcases List.mem_cons.1 hx with rfl | hx
            · exact hi
            · have := ha x hx
              rw [hv, if_neg (by simp [hdl x hx])] at this
              exact this
          · rw [hv, if_neg (by simp [hji])] at hm
            exact hm
          · intro p n
            rw [hv', hv]
            by_cases hp : p = path
            · by_cases hn : n ∈ done <;> by_cases hni : n = i <;> simp [hp, hn, hni]
            · simp [hp]

/-! ### `UnRegister` and `Register` -/

/-- The routes (path, number of arguments) a path and a mask stand for. -/
def Covers (path : Str) (mask : Nat) (p : Str) (n : Nat) : Prop := p = path ∧ n ≤ 15 ∧ mask.testBit n = true

instance (path : Str) (mask : Nat) (p : Str) (n : Nat) : Decidable (Covers path mask p n) := by unfold Covers; infer_instance

/-- `UnRegister` succeeds exactly if all the routes it names exist, and then removes exactly them. -/
theorem unregister_ok {t : Table H} (g : Good t) (path : Str) (mask : Nat) :
    (unregister t path mask).2 = none ↔ ∀ n, Covers path mask path n → (t.view path n).isSome := by
  have h := unregisterLoop_view g path (counts mask) (counts_nodup mask)
  unfold unregister
  cases hr : unregisterLoop t path (counts mask) with
  | mk t' o =>
    rw [hr] at h
    cases o with
    | none =>
      simp only [true_iff]
      intro n hn
      exact h.2.1 n ((mem_counts _ _).2 hn.2)
    | some e =>
      obtain ⟨_, _, done, i, rest, hl, _, hm, _⟩ := h
      simp only [reduceCtorEq, false_iff]
      intro hc
      have hi : i ∈ counts mask := by rw [hl]; simp
      have := hc i ⟨rfl, (mem_counts _ _).1 hi⟩
      rw [hm] at this
      cases this

theorem unregister_view {t : Table H} (g : Good t) (path : Str) (mask : Nat) (hok : (unregister t path mask).2 = none) (p : Str) (n : Nat) :
    Table.view (unregister t path mask).1 p n = if Covers path mask p n then none else t.view p n := by
  have h := unregisterLoop_view g path (counts mask) (counts_nodup mask)
  unfold unregister at *
  cases hr : unregisterLoop t path (counts mask) with
  | mk t' o =>
    rw [hr] at h hok
    simp only at hok
    subst hok
    simp only
    rw [h.2.2]
    simp only [mem_counts, Covers]

theorem unregister_good {t : Table H} (g : Good t) (path : Str) (mask : Nat) : Good (unregister t path mask).1 := by
  have h := unregisterLoop_view g path (counts mask) (counts_nodup mask)
  unfold unregister at *
  cases hr : unregisterLoop t path (counts mask) with
  | mk t' o =>
    rw [hr] at h
    cases o with
    | none => exact h.1
    | some e => exact h.1

theorem counts_sorted (m : Nat) : (counts m).Pairwise (· < ·) := by
  unfold counts
  exact List.pairwise_lt_range.filter _

/-- When `UnRegister` throws, it has already removed the routes below the first missing one. -/
theorem unregister_throws {t : Table H} (g : Good t) (path : Str) (mask : Nat) (e : Err) (he : (unregister t path mask).2 = some e) :
    e = .missing ∧ ∃ i, Covers path mask path i ∧ t.view path i = none ∧
      ∀ p n, Table.view (unregister t path mask).1 p n = if Covers path mask p n ∧ n < i then none else t.view p n := by
  have h := unregisterLoop_view g path (counts mask) (counts_nodup mask)
  have hs := counts_sorted mask
  unfold unregister at *
  cases hr : unregisterLoop t path (counts mask) with
  | mk t' o =>
    rw [hr] at h he
    simp only at he
    subst he
    obtain ⟨_, hm, done, i, rest, hl, hd, hi, hv⟩ := h
    refine ⟨hm, i, ⟨rfl, (mem_counts _ _).1 (by rw [hl]; simp)⟩, hi, ?_⟩
    intro p n
    simp only
    rw [hv]
    have hmem : n ∈ done ↔ n ∈ counts mask ∧ n < i := by
      rw [hl] at hs ⊢
      rw [List.pairwise_append] at hs
      constructor
      · intro hn
        exact ⟨by simp [hn], hs.2.2 n hn i (by simp)⟩
      · rintro ⟨hn, hlt⟩
        rcases List.mem_append.1 hn with hn | hn
        · exact hn
        · rcases List.mem_cons.1 hn with rfl | hn
          · omega
          · have := (List.pairwise_cons.1 hs.2.1).1 n hn
            omega
    simp only [hmem, mem_counts, Covers]
    congr 1
    simp only [and_assoc]

theorem checkLoop_none (t : Table H) (path : Str) (policy : Policy) (l : List Nat) :
    checkLoop t path policy l = none ↔ ∀ i ∈ l, ((t.view path i).isSome ↔ policy = .silentlyUpdate) := by
  induction l with
  | nil => simp [checkLoop]
  | cons i l ih =>
    unfold checkLoop
    rw [List.forall_mem_cons, ← ih]
    change (if (t.view path i).isNone then _ else _) = none ↔ _
    cases h : t.view path i <;> cases policy <;> simp

theorem checkLoop_err (t : Table H) (path : Str) (policy : Policy) (l : List Nat) (e : Err) (h : checkLoop t path policy l = some e) :
    e = if policy = .silentlyUpdate then .missing else .exists_ := by
  induction l with
  | nil => simp [checkLoop] at h
  | cons i l ih =>
    unfold checkLoop at h
    cases policy <;> simp at h ⊢ <;> split at h <;> grind

/-- What a path must be to be registered. -/
def ValidPath (path : Str) : Prop :=
  path.head? = some '/' ∧ (path = ['/'] ∨ path.getLast? ≠ some '/') ∧ ∀ c ∈ path, isAlnum c = true ∨
    c ∈ ['/', '-', '.', '_', '~', '!', '$', '&', '\'', '(', ')', '*', '+', ',', ';', '=', ':', '@']

theorem validateRoute_none (path : Str) : validateRoute path = none ↔ ValidPath path := by
  unfold validateRoute ValidPath isPathValid
  constructor
  · intro h
    split at h
    · cases h
    split at h
    · cases h
    split at h
    · cases h
    rename_i h1 h2 h3
    refine ⟨?_, ?_, ?_⟩
    · by_contra hc; exact h1 (Or.inr hc)
    · by_contra hc; exact h2 (by simpa using hc)
    · intro c hc
      simp only [Bool.not_eq_true', Bool.not_eq_false, List.all_eq_true] at h3
      have := h3 c hc
      rw [Bool.or_eq_true, List.contains_iff_mem] at this
      exact this
  · rintro ⟨h1, h2, h3⟩
    have hne : path ≠ [] := by rintro rfl; simp at h1
    rw [if_neg (by simp [hne, h1]), if_neg (by rintro ⟨ha, hb⟩; rcases h2 with h2 | h2; exact ha h2; exact h2 hb), if_neg]
    simp only [Bool.not_eq_true', Bool.not_eq_false, List.all_eq_true]
    intro c hc
    rw [Bool.or_eq_true, List.contains_iff_mem]
    exact h3 c hc

/-- `Register` succeeds exactly if the path is valid and none of the routes it names exists (or all of them, when updating). -/
theorem register_ok (t : Table H) (path : Str) (h : H) {mask : Nat} (h0 : mask ≠ 0) (policy : Policy) :
    (∃ r, register t path h mask policy = .ok r) ↔
      ValidPath path ∧ ∀ n, Covers path mask path n → ((t.view path n).isSome ↔ policy = .silentlyUpdate) := by
  unfold register
  rw [if_neg h0, ← validateRoute_none]
  cases hv : validateRoute path with
  | some e => simp
  | none =>
    have hc := checkLoop_none t path policy (counts mask)
    have : (∀ i ∈ counts mask, ((t.view path i).isSome ↔ policy = .silentlyUpdate)) ↔
        ∀ n, Covers path mask path n → ((t.view path n).isSome ↔ policy = .silentlyUpdate) := by
      simp only [mem_counts, Covers, true_and]
    rw [this] at hc
    simp only [true_and]
    rw [← hc]
    cases hcl : checkLoop t path policy (counts mask) <;> simp

/-- A successful `Register` adds (or replaces) exactly the routes it names. -/
theorem register_view (t : Table H) (path : Str) (h : H) (mask : Nat) (policy : Policy) (t' : Table H) (s : Scope)
    (hr : register t path h mask policy = .ok (t', s)) (p : Str) (n : Nat) :
    t'.view p n = if Covers path mask p n then some h else t.view p n := by
  unfold register at hr
  split at hr
  · rename_i h0
    subst h0
    injection hr with hr
    injection hr with hr _
    subst hr
    simp [Covers]
  · cases hv : validateRoute path with
    | some e => rw [hv] at hr; cases hr
    | none =>
      rw [hv] at hr
      simp only at hr
      cases hcl : checkLoop t path policy (counts mask) with
      | some e => rw [hcl] at hr; cases hr
      | none =>
        rw [hcl] at hr
        injection hr with hr
        injection hr with hr _
        subst hr
        rw [view_set, setLoop_find]
        by_cases hp : p = path
        · subst hp
          simp only [if_true, mem_counts, Covers, true_and]
          congr 1
          unfold Table.view
          cases assocFind t p <;> simp [assocFind]
        · simp [hp, Covers]

theorem register_scope (t : Table H) (path : Str) (h : H) {mask : Nat} (h0 : mask ≠ 0) (policy : Policy) (t' : Table H) (s : Scope)
    (hr : register t path h mask policy = .ok (t', s)) : s = if policy = .silentlyUpdate then [] else [(path, mask)] := by
  unfold register at hr
  rw [if_neg h0] at hr
  cases hv : validateRoute path with
  | some e => rw [hv] at hr; cases hr
  | none =>
    rw [hv] at hr
    simp only at hr
    cases hcl : checkLoop t path policy (counts mask) with
    | some e => rw [hcl] at hr; cases hr
    | none =>
      rw [hcl] at hr
      injection hr with hr
      injection hr with _ hr
      exact hr.symm

theorem register_good {t : Table H} (g : Good t) (path : Str) (h : H) {mask : Nat} (hm : mask < 65536) (policy : Policy) (t' : Table H) (s : Scope)
    (hr : register t path h mask policy = .ok (t', s)) : Good t' := by
  unfold register at hr
  split at hr
  · injection hr with hr
    injection hr with hr _
    exact hr ▸ g
  · rename_i h0
    cases hv : validateRoute path with
    | some e => rw [hv] at hr; cases hr
    | none =>
      rw [hv] at hr
      simp only at hr
      cases hcl : checkLoop t path policy (counts mask) with
      | some e => rw [hcl] at hr; cases hr
      | none =>
        rw [hcl] at hr
        injection hr with hr
        injection hr with hr _
        rw [← hr]
        apply good_set g
        intro he
        obtain ⟨i, hi⟩ := List.exists_mem_of_ne_nil _ (counts_ne_nil h0 hm)
        have := setLoop_find ((assocFind t path).getD []) h (counts mask) i
        rw [he, if_pos hi] at this
        simp [assocFind] at this

/-- `PathHandlersCount()` is the number of paths that have a route. -/
theorem count_is {t : Table H} (g : Good t) :
    ∃ paths : List Str, paths.Nodup ∧ (∀ p, p ∈ paths ↔ ∃ n, (t.view p n).isSome) ∧ t.count = paths.length := by
  refine ⟨t.map Prod.fst, g.keys, ?_, by simp [Table.count]⟩
  intro p
  constructor
  · intro hp
    obtain ⟨⟨p', inner⟩, he, rfl⟩ := List.mem_map.1 hp
    cases inner with
    | nil => exact absurd rfl (g.inner _ he)
    | cons x inner =>
      refine ⟨x.1, ?_⟩
      have := assocFind_of_mem g.keys he
      simp only [Table.view, this, Option.bind_some]
      simp [assocFind]
  · rintro ⟨n, hn⟩
    by_contra hc
    rw [← assocFind_none_iff] at hc
    simp [Table.view, hc] at hn

end Current.Routes
