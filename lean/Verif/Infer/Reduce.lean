import Verif.Infer.Hist
/-! `reduce` describes the values of both sides (`infer.h:274-471`). -/
namespace Current.Infer
open Current.Persist (Str dec)
open Current.Json (J find)

/-! ### Lists of values -/

def AllNull (zs : List J) : Prop := ∀ v ∈ zs, v = J.null

theorem fieldValues_append (k : Str) (xs ys : List J) : fieldValues k (xs ++ ys) = fieldValues k xs ++ fieldValues k ys :=
  List.filterMap_append

theorem elementValues_append (xs ys : List J) : elementValues (xs ++ ys) = elementValues xs ++ elementValues ys :=
  List.flatMap_append

theorem intsOf_append (xs ys : List J) : intsOf (xs ++ ys) = intsOf xs ++ intsOf ys := List.filterMap_append

theorem stringsOf_append (xs ys : List J) : stringsOf (xs ++ ys) = stringsOf xs ++ stringsOf ys := List.filterMap_append

theorem fieldValues_null (k : Str) (zs : List J) (h : AllNull zs) : fieldValues k zs = [] := by
  rw [fieldValues, List.filterMap_eq_nil_iff]
  intro v hv
  rw [h v hv]
  rfl

theorem elementValues_null (zs : List J) (h : AllNull zs) : elementValues zs = [] := by
  rw [elementValues, List.flatMap_eq_nil_iff]
  intro v hv
  rw [h v hv]
  rfl

theorem intsOf_null (zs : List J) (h : AllNull zs) : intsOf zs = [] := by
  rw [intsOf, List.filterMap_eq_nil_iff]
  intro v hv
  rw [h v hv]

theorem stringsOf_null (zs : List J) (h : AllNull zs) : stringsOf zs = [] := by
  rw [stringsOf, List.filterMap_eq_nil_iff]
  intro v hv
  rw [h v hv]

theorem sum_perm_int {l l' : List Int} (h : l.Perm l') : l.sum = l'.sum := by
  induction h with
  | nil => rfl
  | cons x _ ih => simp only [List.sum_cons, ih]
  | swap x y l =>
    simp only [List.sum_cons]
    omega
  | trans _ _ h1 h2 => exact h1.trans h2

/-! ### `Common` -/

theorem common_append {kind : J → Bool} {i i' n n' : Nat} {xs ys : List J} (h : Common kind i n xs) (h' : Common kind i' n' ys) :
    Common kind (i + i') (n + n') (xs ++ ys) := by
  obtain ⟨a1, a2, a3, a4⟩ := h
  obtain ⟨b1, b2, b3, b4⟩ := h'
  refine ⟨fun v hv => ?_, ?_, by omega, ?_⟩
  · rcases List.mem_append.1 hv with h | h
    · exact a1 v h
    · exact b1 v h
  · rw [List.countP_append, a2, b2]
  · rw [List.mem_append, ← a4, ← b4]
    omega

theorem common_nulls {kind : J → Bool} {i n m : Nat} {xs zs : List J} (h : Common kind i n xs) (hk : kind .null = false)
    (hz : zs ≠ []) (hn : AllNull zs) (hm : 0 < m) : Common kind i (n + m) (xs ++ zs) := by
  obtain ⟨a1, a2, a3, a4⟩ := h
  refine ⟨fun v hv => ?_, ?_, a3, ?_⟩
  · rcases List.mem_append.1 hv with h | h
    · exact a1 v h
    · exact .inl (hn v h)
  · rw [List.countP_append, ← a2, List.countP_eq_zero.2 (fun v hv => by rw [hn v hv, hk]; exact Bool.false_ne_true)]
    rfl
  · refine ⟨fun _ => ?_, fun _ => by omega⟩
    obtain ⟨z, hz'⟩ := List.exists_mem_of_ne_nil zs hz
    exact List.mem_append_right _ (hn z hz' ▸ hz')

theorem common_perm {kind : J → Bool} {i n : Nat} {xs ys : List J} (h : Common kind i n xs) (hp : xs.Perm ys) :
    Common kind i n ys := by
  obtain ⟨a1, a2, a3, a4⟩ := h
  exact ⟨fun v hv => a1 v (hp.mem_iff.2 hv), by rw [a2, hp.countP_eq], a3, by rw [a4, hp.mem_iff]⟩

/-! ### The order of the values does not matter -/

mutual
theorem describes_perm (keep : Str → Bool) : ∀ (s : S) (p : Str) (xs ys : List J), Describes keep p s xs → xs.Perm ys →
    Describes keep p s ys
  | .uninit, p, xs, ys, h, hp => by
    simp only [Describes] at h ⊢
    rw [h] at hp
    exact List.Perm.nil_eq hp |>.symm
  | .null n, p, xs, ys, h, hp => by
    simp only [Describes] at h ⊢
    refine ⟨fun e => h.1 ?_, h.2.1, fun v hv => h.2.2 v (hp.mem_iff.2 hv)⟩
    rw [e] at hp
    exact List.Perm.eq_nil hp
  | .str v i n, p, xs, ys, h, hp => by
    simp only [Describes] at h ⊢
    exact ⟨common_perm h.1 hp, histogram_perm _ _ _ h.2 (hp.filterMap _)⟩
  | .int su u c i n, p, xs, ys, h, hp => by
    simp only [Describes] at h ⊢
    have hi : (intsOf xs).Perm (intsOf ys) := hp.filterMap _
    refine ⟨common_perm h.1 hp, h.2.1.trans (sum_perm_int hi), ?_, ?_⟩
    · rw [h.2.2.1]
      exact ⟨fun hh x hx => hh x (hi.mem_iff.2 hx), fun hh x hx => hh x (hi.mem_iff.1 hx)⟩
    · rw [h.2.2.2]
      exact ⟨fun hh x hx => hh x (hi.mem_iff.2 hx), fun hh x hx => hh x (hi.mem_iff.1 hx)⟩
  | .dbl i n, p, xs, ys, h, hp => by
    simp only [Describes] at h ⊢
    obtain ⟨h1, v, hv, h2⟩ := h
    exact ⟨common_perm h1 hp, v, hp.mem_iff.1 hv, h2⟩
  | .bool f t n, p, xs, ys, h, hp => by
    simp only [Describes] at h ⊢
    exact ⟨common_perm h.1 hp, h.2.trans (hp.countP_eq _)⟩
  | .arr e i n, p, xs, ys, h, hp => by
    simp only [Describes] at h ⊢
    have hi : (elementValues xs).Perm (elementValues ys) := hp.flatMap_right _
    refine ⟨common_perm h.1 hp, fun e => h.2.1 ?_, describes_perm keep e _ _ _ h.2.2 hi⟩
    rw [e] at hi
    exact List.Perm.eq_nil hi
  | .obj fs i n, p, xs, ys, h, hp => by
    simp only [Describes] at h ⊢
    obtain ⟨h1, h2, h3, h4, h5⟩ := h
    refine ⟨common_perm h1 hp, h2, fun k => ?_, h4, describesFields_perm keep fs _ _ _ h5 hp⟩
    rw [h3]
    constructor
    · rintro ⟨hk, v, hv, hh⟩
      exact ⟨hk, v, hp.mem_iff.1 hv, hh⟩
    · rintro ⟨hk, v, hv, hh⟩
      exact ⟨hk, v, hp.mem_iff.2 hv, hh⟩
theorem describesFields_perm (keep : Str → Bool) : ∀ (fs : Fs) (p : Str) (xs ys : List J), DescribesFields keep p fs xs →
    xs.Perm ys → DescribesFields keep p fs ys
  | .nil, _, _, _, _, _ => by simp only [DescribesFields]
  | .cons k s r, p, xs, ys, h, hp => by
    simp only [DescribesFields] at h ⊢
    exact ⟨describes_perm keep s _ _ _ h.1 (hp.filterMap _), describesFields_perm keep r _ _ _ h.2 hp⟩
end

/-! ### Nulls -/

theorem describesFields_congr (keep : Str → Bool) (xs ys : List J) (p : Str) : ∀ (fs : Fs),
    (∀ k ∈ fs.names, fieldValues k xs = fieldValues k ys) → DescribesFields keep p fs xs → DescribesFields keep p fs ys
  | .nil, _, _ => by simp only [DescribesFields]
  | .cons k s r, h, hd => by
    simp only [DescribesFields] at hd ⊢
    rw [← h k (by simp [Fs.names])]
    exact ⟨hd.1, describesFields_congr keep xs ys p r (fun k' hk' => h k' (by simp [Fs.names, hk'])) hd.2⟩

theorem addNulls_describes (keep : Str → Bool) (p : Str) (s : S) (xs zs : List J) (m : Nat) (h : Describes keep p s xs)
    (hz : zs ≠ []) (hn : AllNull zs) (hm : 0 < m) : Describes keep p (addNulls m s) (xs ++ zs) := by
  have hz' : xs ++ zs ≠ [] := by simp [hz]
  cases s with
  | uninit =>
    simp only [Describes, addNulls] at h ⊢
    refine ⟨hz', hm, ?_⟩
    rw [h]
    exact hn
  | null n =>
    simp only [Describes, addNulls] at h ⊢
    refine ⟨hz', by omega, fun v hv => ?_⟩
    rcases List.mem_append.1 hv with hv | hv
    · exact h.2.2 v hv
    · exact hn v hv
  | str v i n =>
    simp only [Describes, addNulls] at h ⊢
    rw [stringsOf_append, stringsOf_null zs hn, List.append_nil]
    exact ⟨common_nulls h.1 rfl hz hn hm, h.2⟩
  | int su u c i n =>
    simp only [Describes, addNulls] at h ⊢
    rw [intsOf_append, intsOf_null zs hn, List.append_nil]
    exact ⟨common_nulls h.1 rfl hz hn hm, h.2⟩
  | dbl i n =>
    simp only [Describes, addNulls] at h ⊢
    obtain ⟨h1, v, hv, h2⟩ := h
    exact ⟨common_nulls h1 rfl hz hn hm, v, List.mem_append_left _ hv, h2⟩
  | bool f t n =>
    simp only [Describes, addNulls] at h ⊢
    refine ⟨common_nulls h.1 rfl hz hn hm, ?_⟩
    rw [List.countP_append, ← h.2, List.countP_eq_zero.2 (fun v hv => by rw [hn v hv]; exact Bool.false_ne_true)]
    rfl
  | arr e i n =>
    simp only [Describes, addNulls] at h ⊢
    rw [elementValues_append, elementValues_null zs hn, List.append_nil]
    exact ⟨common_nulls h.1 rfl hz hn hm, h.2⟩
  | obj fs i n =>
    simp only [Describes, addNulls] at h ⊢
    obtain ⟨h1, h2, h3, h4, h5⟩ := h
    refine ⟨common_nulls h1 rfl hz hn hm, h2, fun k => ?_, h4, ?_⟩
    · rw [h3]
      constructor
      · rintro ⟨hk, v, hv, hh⟩
        exact ⟨hk, v, List.mem_append_left _ hv, hh⟩
      · rintro ⟨hk, v, hv, mm, x, rfl, hh⟩
        rcases List.mem_append.1 hv with hv | hv
        · exact ⟨hk, _, hv, mm, x, rfl, hh⟩
        · exact nomatch hn _ hv
    · refine describesFields_congr keep xs _ p fs (fun k _ => ?_) h5
      rw [fieldValues_append, fieldValues_null k zs hn, List.append_nil]

/-! ### Numbers -/

theorem isNum_of_isInt (v : J) (h : isInt v = true) : isNum v = true := by
  cases v <;> simp_all [isInt, isNum]

theorem common_isNum {i n : Nat} {xs : List J} (h : Common isInt i n xs) : Common isNum i n xs := by
  obtain ⟨a1, a2, a3, a4⟩ := h
  refine ⟨fun v hv => (a1 v hv).imp id (isNum_of_isInt v), ?_, a3, a4⟩
  rw [a2]
  refine List.countP_congr fun v hv => ?_
  rcases a1 v hv with h | h
  · rw [h]
    simp [isInt, isNum]
  · simp [h, isNum_of_isInt v h]

/-! ### Pending fields -/

/-- The pending fields one after another. -/
def sequence : Pending → Except Err Fs
  | [] => .ok .nil
  | (_, .error e) :: _ => .error e
  | (k, .ok s) :: r =>
    match sequence r with
    | .error e => .error e
    | .ok fs => .ok (.cons k s fs)

theorem settle_eq (all : Pending) : ∀ l : Pending, (∀ ks ∈ l, lastPending ks.1 all = some ks.2) → settle all l = sequence l
  | [], _ => rfl
  | (k, s) :: r, h => by
    have h1 := h (k, s) (by simp)
    have h2 := settle_eq all r (fun x hx => h x (List.mem_cons_of_mem _ hx))
    simp only [settle]
    simp only at h1
    rw [h1, Option.getD_some, h2]
    cases s with
    | error e => rfl
    | ok s => rfl

theorem lastPending_none (k : Str) : ∀ l : Pending, k ∉ l.map (·.1) → lastPending k l = none
  | [], _ => rfl
  | (k', s) :: r, h => by
    simp only [List.map_cons, List.mem_cons, not_or] at h
    simp only [lastPending]
    rw [lastPending_none k r h.2]
    simp only
    rw [if_neg (fun e => h.1 e.symm)]

theorem lastPending_mem : ∀ l : Pending, (l.map (·.1)).Nodup → ∀ ks ∈ l, lastPending ks.1 l = some ks.2
  | [], _, _, h => by simp at h
  | (k', s) :: r, hn, ks, h => by
    simp only [List.map_cons, List.nodup_cons] at hn
    simp only [lastPending]
    simp only [List.mem_cons] at h
    rcases h with h | h
    · rw [h]
      rw [lastPending_none k' r hn.1]
      simp
    · rw [lastPending_mem r hn.2 ks h]

theorem settle_nodup (l : Pending) (h : (l.map (·.1)).Nodup) : settle l l = sequence l :=
  settle_eq l l (lastPending_mem l h)

theorem sequence_append (a b : Pending) : sequence (a ++ b) =
    match sequence a with
    | .error e => .error e
    | .ok fs =>
      match sequence b with
      | .error e => .error e
      | .ok gs => .ok (fs.append gs) := by
  induction a with
  | nil =>
    simp only [List.nil_append, sequence]
    cases sequence b <;> rfl
  | cons x a ih =>
    obtain ⟨k, s⟩ := x
    cases s with
    | error e => rfl
    | ok s =>
      simp only [List.cons_append, sequence, ih]
      cases sequence a with
      | error e => rfl
      | ok fs =>
        simp only
        cases sequence b <;> rfl

end Current.Infer
