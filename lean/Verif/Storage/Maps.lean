/-!
`std::map` and `std::unordered_map`, as used by the storage containers (`storage/container/common.h:35-39`): an association list with unique keys.
The order of the list is not part of any statement: iteration order is the map's business.
-/
namespace Current.Storage

abbrev AMap (K V : Type) := List (K × V)

variable {K V : Type} [DecidableEq K]

/-- `find` / `operator[] const`. -/
def find : AMap K V → K → Option V
  | [], _ => none
  | (a, v) :: m, k => if a = k then some v else find m k

/-- `m[k] = v`. -/
def put : AMap K V → K → V → AMap K V
  | [], k, v => [(k, v)]
  | (a, w) :: m, k, v => if a = k then (a, v) :: m else (a, w) :: put m k v

/-- `erase(k)`. -/
def del (m : AMap K V) (k : K) : AMap K V := m.filter fun p => decide (p.1 ≠ k)

/-- Keys are unique. -/
def Wf (m : AMap K V) : Prop := (m.map (·.1)).Nodup

/-- Changing a function at one point. -/
def upd {A B : Type} [DecidableEq A] (f : A → B) (a : A) (b : B) : A → B := fun x => if x = a then b else f x

@[simp] theorem upd_same {A B : Type} [DecidableEq A] (f : A → B) (a : A) (b : B) : upd f a b a = b := by simp [upd]
theorem upd_other {A B : Type} [DecidableEq A] {f : A → B} {a x : A} {b : B} (h : x ≠ a) : upd f a b x = f x := by simp [upd, h]
theorem upd_upd {A B : Type} [DecidableEq A] (f : A → B) (a : A) (b c : B) : upd (upd f a b) a c = upd f a c := by
  funext x; simp only [upd]; split <;> rfl
theorem upd_id {A B : Type} [DecidableEq A] (f : A → B) (a : A) : upd f a (f a) = f := by
  funext x; simp only [upd]; split
  · rename_i h; rw [h]
  · rfl
theorem upd_comm {A B : Type} [DecidableEq A] (f : A → B) {a a' : A} (h : a ≠ a') (b c : B) : upd (upd f a b) a' c = upd (upd f a' c) a b := by
  funext x; simp only [upd]
  by_cases h1 : x = a' <;> by_cases h2 : x = a
  · exact absurd (h2.symm.trans h1) h
  · simp [h1, h.symm]
  · simp [h2, h]
  · simp [h1, h2]

theorem find_put (m : AMap K V) (k : K) (v : V) : find (put m k v) = upd (find m) k (some v) := by
  funext x
  induction m with
  | nil => simp only [put, find, upd]; by_cases h : k = x <;> simp [h, eq_comm]
  | cons p m ih =>
    obtain ⟨a, w⟩ := p
    simp only [put]
    split
    · rename_i h; subst h
      simp only [find, upd]
      by_cases h : a = x
      · simp [h]
      · simp [h, Ne.symm h, show ¬ x = a from fun e => h e.symm]
    · rename_i h
      simp only [find]
      rw [ih]
      simp only [upd]
      by_cases h1 : a = x
      · subst h1; simp [h]
      · simp [h1]

theorem find_del (m : AMap K V) (k : K) : find (del m k) = upd (find m) k none := by
  funext x
  induction m with
  | nil => simp [del, find, upd]
  | cons p m ih =>
    obtain ⟨a, w⟩ := p
    unfold del at ih ⊢
    rw [List.filter_cons]
    by_cases h : a = k
    · subst h
      simp only [ne_eq, not_true_eq_false, decide_false, Bool.false_eq_true, if_false]
      rw [ih]
      simp only [upd, find]
      by_cases h1 : x = a
      · simp [h1]
      · simp [h1, show ¬ a = x from fun e => h1 e.symm]
    · simp only [ne_eq, h, not_false_eq_true, decide_true, if_true, find]
      rw [ih]
      by_cases h1 : a = x
      · subst h1; simp [upd, h]
      · simp [h1, upd, find]

theorem find_none_iff {m : AMap K V} {k : K} : find m k = none ↔ k ∉ m.map (·.1) := by
  induction m with
  | nil => simp [find]
  | cons p m ih =>
    obtain ⟨a, w⟩ := p
    simp only [find, List.map_cons, List.mem_cons, not_or]
    by_cases h : a = k
    · simp [h]
    · have h' : ¬ k = a := fun e => h e.symm
      simp only [h, if_false, h', not_false_eq_true, true_and, ih]

theorem keys_put (m : AMap K V) (k : K) (v : V) :
    (put m k v).map (·.1) = if k ∈ m.map (·.1) then m.map (·.1) else m.map (·.1) ++ [k] := by
  induction m with
  | nil => simp [put]
  | cons p m ih =>
    obtain ⟨a, w⟩ := p
    simp only [put]
    by_cases h : a = k
    · simp [h]
    · have h' : ¬ k = a := fun e => h e.symm
      simp only [if_neg h, List.map_cons, ih, List.mem_cons, h', false_or]
      split <;> simp

theorem wf_nil : Wf ([] : AMap K V) := by simp [Wf]

theorem wf_put {m : AMap K V} (h : Wf m) (k : K) (v : V) : Wf (put m k v) := by
  unfold Wf at h ⊢
  rw [keys_put]
  split
  · exact h
  · rename_i hk
    rw [List.nodup_append]
    exact ⟨h, by simp, by intro a ha b hb; simp only [List.mem_singleton] at hb; subst hb; intro e; subst e; exact hk ha⟩

theorem wf_del {m : AMap K V} (h : Wf m) (k : K) : Wf (del m k) := by
  unfold Wf del at *
  exact List.Sublist.nodup ((List.filter_sublist (l := m)).map _) h

theorem mem_iff_find {m : AMap K V} (h : Wf m) (k : K) (v : V) : (k, v) ∈ m ↔ find m k = some v := by
  induction m with
  | nil => simp [find]
  | cons p m ih =>
    obtain ⟨a, w⟩ := p
    simp only [Wf, List.map_cons, List.nodup_cons] at h
    simp only [List.mem_cons, find, Prod.mk.injEq]
    by_cases hk : a = k
    · subst hk
      simp only [true_and, if_true, Option.some.injEq]
      constructor
      · rintro (h1 | h1)
        · exact h1.symm
        · exact absurd (List.mem_map_of_mem (f := (·.1)) h1) h.1
      · exact fun e => Or.inl e.symm
    · have h' : ¬ k = a := fun e => hk e.symm
      simp only [hk, if_false, h', false_and, false_or]
      exact ih h.2

theorem find_empty (m : AMap K V) : m = [] ↔ ∀ k, find m k = none := by
  constructor
  · rintro rfl k; rfl
  · intro h
    cases m with
    | nil => rfl
    | cons p m => have := h p.1; simp [find] at this

/-- Maps that agree on every key hold the same pairs. -/
theorem perm_of_find {m m' : AMap K V} (h : Wf m) (h' : Wf m') (e : ∀ k, find m k = find m' k) : m.Perm m' := by
  have nd : ∀ {m : AMap K V}, Wf m → m.Nodup := fun {m} h => by
    unfold Wf at h
    induction m with
    | nil => simp
    | cons p m ih =>
      simp only [List.map_cons, List.nodup_cons] at h
      exact List.nodup_cons.2 ⟨fun hm => h.1 (List.mem_map_of_mem hm), ih h.2⟩
  refine (List.perm_ext_iff_of_nodup (nd h) (nd h')).2 ?_
  rintro ⟨k, v⟩
  rw [mem_iff_find h, mem_iff_find h', e]

end Current.Storage
