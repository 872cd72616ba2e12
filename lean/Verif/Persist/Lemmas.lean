import Verif.Persist.Model
/-! Helper lemmas for the memory persister. The claimed theorems are in `Verif.Persist.Props`. -/
namespace Current.Persist

variable {E : Type}

/-- All entries of the log with their indexes, as a plain list. -/
def Mem.all (s : Mem E) : List (IdxTs × E) :=
  s.entries.mapIdx fun i p => (⟨i, p.1⟩, p.2)

structure Mem.Inv (s : Mem E) : Prop where
  sorted : s.entries.Pairwise (fun a b => a.1 < b.1)
  le_head : ∀ p ∈ s.entries, p.1 ≤ s.head
  nonneg : ∀ p ∈ s.entries, 0 ≤ p.1
  head_ge : -1 ≤ s.head

theorem Mem.Inv.init : (Mem.init : Mem E).Inv := by
  constructor <;> simp [Mem.init]

theorem Mem.Inv.append {s : Mem E} (h : s.Inv) (ts : Int) (e : E) (hts : ts > s.head) :
    Mem.Inv { entries := s.entries ++ [(ts, e)], head := ts } := by
  obtain ⟨h1, h2, h3, h4⟩ := h
  constructor
  · simp only [List.pairwise_append, h1, true_and, List.pairwise_singleton]
    intro a ha b hb
    simp at hb
    subst hb
    have := h2 a ha
    simp; omega
  · intro p hp
    simp at hp
    rcases hp with hp | hp
    · have := h2 p hp; simp; omega
    · subst hp; simp
  · intro p hp
    simp at hp
    rcases hp with hp | hp
    · exact h3 p hp
    · subst hp; simp; omega
  · simp; omega

theorem Mem.Inv.call {k : Codec E} {s : Mem E} (h : s.Inv) (c : Call E) : (s.call k c).1.Inv := by
  cases c with
  | publish e ts =>
    simp only [Mem.call, Mem.publish]
    split
    · exact h.append ts e ‹_›
    · exact h
  | publishUnsafe line =>
    simp only [Mem.call, Mem.publishUnsafe]
    repeat' split
    all_goals first
      | exact h
      | (rename_i h1 _ _ _; exact h.append _ _ (by simpa using h1))
  | updateHead ts =>
    simp only [Mem.call, Mem.updateHead]
    split
    · obtain ⟨h1, h2, h3, h4⟩ := h
      refine ⟨h1, ?_, h3, ?_⟩
      · intro p hp; have := h2 p hp; simp; omega
      · simp; omega
    · exact h

theorem Mem.run_inv {k : Codec E} {s : Mem E} (h : s.Inv) (cs : List (Call E)) :
    (s.run k cs).1.Inv := by
  induction cs generalizing s with
  | nil => exact h
  | cons c cs ih => exact ih (h.call c)

theorem Mem.run_append (k : Codec E) (s : Mem E) (cs ds : List (Call E)) :
    s.run k (cs ++ ds) =
      (((s.run k cs).1.run k ds).1, (s.run k cs).2 ++ ((s.run k cs).1.run k ds).2) := by
  induction cs generalizing s with
  | nil => simp [Mem.run]
  | cons c cs ih => simp [Mem.run, ih]

/-- The entries only ever grow at the end. -/
theorem Mem.call_prefix (k : Codec E) (s : Mem E) (c : Call E) :
    s.entries <+: (s.call k c).1.entries := by
  cases c with
  | publish e ts =>
    simp only [Mem.call, Mem.publish]; split <;> simp
  | publishUnsafe line =>
    simp only [Mem.call, Mem.publishUnsafe]; repeat' split
    all_goals simp
  | updateHead ts =>
    simp only [Mem.call, Mem.updateHead]; split <;> simp

theorem Mem.run_prefix (k : Codec E) (s : Mem E) (cs : List (Call E)) :
    s.entries <+: (s.run k cs).1.entries := by
  induction cs generalizing s with
  | nil => simp [Mem.run]
  | cons c cs ih => exact (s.call_prefix k c).trans (ih _)

theorem Mem.call_thrown {k : Codec E} {s : Mem E} {c : Call E} {e : Err}
    (h : (s.call k c).2 = .thrown e) : (s.call k c).1 = s := by
  cases c with
  | publish e ts =>
    simp only [Mem.call, Mem.publish] at *; split at h <;> grind
  | publishUnsafe line =>
    simp only [Mem.call, Mem.publishUnsafe] at *
    repeat' split
    all_goals simp_all
  | updateHead ts =>
    simp only [Mem.call, Mem.updateHead] at *; split at h <;> grind

theorem Mem.all_length (s : Mem E) : s.all.length = s.entries.length := by simp [Mem.all]

theorem Mem.all_getElem? (s : Mem E) (i : Nat) : s.all[i]? = s.deref i := by
  simp [Mem.all, Mem.deref, List.getElem?_mapIdx]

theorem Mem.readFrom_eq (s : Mem E) (i n : Nat) (h : i + n ≤ s.entries.length) :
    s.readFrom i n = some ((s.all.drop i).take n) := by
  induction n generalizing i with
  | zero => simp [Mem.readFrom]
  | succ n ih =>
    have hlt : i < s.all.length := by rw [s.all_length]; omega
    have hd : s.deref i = some s.all[i] := by rw [← s.all_getElem?]; simp [hlt]
    rw [Mem.readFrom, ih (i + 1) (by omega), hd]
    rw [List.drop_eq_getElem_cons hlt, List.take_succ_cons]

theorem Mem.read_eq (s : Mem E) (b e : Nat) (hbe : b ≤ e) (h : e ≤ s.entries.length) :
    s.read (b, e) = .ok ((s.all.drop b).take (e - b)) := by
  simp only [Mem.read]
  rw [s.readFrom_eq b (e - b) (by omega)]

/-- Taking positions `[b, e)` is filtering on the index. -/
theorem Mem.slice_eq_filter (s : Mem E) (b e : Nat) :
    (s.all.drop b).take (e - b) = s.all.filter (fun x => decide (b ≤ x.1.index ∧ x.1.index < e)) := by
  have key : ∀ (l : List (Int × E)) (o : Nat),
      ((l.mapIdx fun i p => ((⟨o + i, p.1⟩ : IdxTs), p.2)).drop (b - o)).take (e - max b o) =
      (l.mapIdx fun i p => ((⟨o + i, p.1⟩ : IdxTs), p.2)).filter
        (fun x => decide (b ≤ x.1.index ∧ x.1.index < e)) := by
    intro l
    induction l with
    | nil => intro o; simp
    | cons p l ih =>
      intro o
      have ih' := ih (o + 1)
      have hf : (fun i (p : Int × E) => ((⟨o + (i + 1), p.1⟩ : IdxTs), p.2)) =
          (fun i (p : Int × E) => ((⟨o + 1 + i, p.1⟩ : IdxTs), p.2)) := by
        funext i p; congr 2; omega
      simp only [List.mapIdx_cons, hf]
      by_cases hob : b ≤ o
      · have e1 : b - o = 0 := by omega
        have e2 : b - (o + 1) = 0 := by omega
        have e3 : max b o = o := by omega
        have e4 : max b (o + 1) = o + 1 := by omega
        rw [e2, e4] at ih'
        rw [e1, e3]
        by_cases hoe : o < e
        · have : e - o = (e - (o + 1)) + 1 := by omega
          rw [this]
          simp only [List.drop_zero, List.take_succ_cons, List.filter_cons]
          simp only [List.drop_zero] at ih'
          rw [ih']
          simp [hob, hoe]
        · have h1 : e - o = 0 := by omega
          have h2 : e - (o + 1) = 0 := by omega
          rw [h2] at ih'
          rw [h1]
          simp only [List.drop_zero, List.take_zero, List.filter_cons] at ih' ⊢
          rw [← ih']
          simp [hoe]
      · have e1 : b - o = (b - (o + 1)) + 1 := by omega
        have e3 : max b o = b := by omega
        have e4 : max b (o + 1) = b := by omega
        rw [e4] at ih'
        rw [e1, e3]
        simp only [List.drop_succ_cons, List.filter_cons]
        rw [ih']
        simp [hob]
  have := key s.entries 0
  simpa [Mem.all] using this

/-! ### The halving loop -/

theorem halving_spec (p : Nat → Bool) (first len m : Nat) (hm₁ : first ≤ m) (hm₂ : m ≤ first + len)
    (ht : ∀ i, first ≤ i → i < m → p i = true) (hf : ∀ i, m ≤ i → i < first + len → p i = false) :
    halving p first len = m := by
  fun_induction halving p first len with
  | case1 first => omega
  | case2 first len h hp ih =>
    apply ih
    · apply Classical.byContradiction; intro hc
      have := hf (first + len / 2) (by omega) (by omega)
      simp [this] at hp
    · omega
    · intro i h1 h2; exact ht i (by omega) h2
    · intro i h1 h2; exact hf i h1 (by omega)
  | case3 first len h hp ih =>
    apply ih
    · exact hm₁
    · apply Classical.byContradiction; intro hc
      have := ht (first + len / 2) (by omega) (by omega)
      simp [this] at hp
    · exact ht
    · intro i h1 h2; exact hf i h1 (by omega)

/-- On a strictly sorted list a `<`-monotone cut is a position. -/
theorem halving_cut (ts : List Int) (hs : ts.Pairwise (· < ·)) (q : Int → Bool)
    (hq : ∀ a b, a < b → q b = true → q a = true) :
    ∃ m, m ≤ ts.length ∧
      halving (fun i => match ts[i]? with | some x => q x | none => false) 0 ts.length = m ∧
      (∀ i (h : i < ts.length), (q ts[i] = true ↔ i < m)) := by
  have ex : ∃ m, m ≤ ts.length ∧ ∀ i (h : i < ts.length), (q ts[i] = true ↔ i < m) := by
    induction ts with
    | nil => exact ⟨0, by simp, by simp⟩
    | cons a l ih =>
      rw [List.pairwise_cons] at hs
      obtain ⟨m, hm, hi⟩ := ih hs.2
      by_cases ha : q a = true
      · refine ⟨m + 1, by simp; omega, ?_⟩
        intro i h
        cases i with
        | zero => simp [ha]
        | succ i => simp [hi i (by simpa using h)]
      · refine ⟨0, by simp, ?_⟩
        intro i h
        cases i with
        | zero => simp [ha]
        | succ i =>
          simp only [List.getElem_cons_succ, Nat.not_lt_zero, iff_false]
          intro hqi
          exact ha (hq a _ (hs.1 _ (List.getElem_mem _)) hqi)
  obtain ⟨m, hm, hi⟩ := ex
  refine ⟨m, hm, ?_, hi⟩
  apply halving_spec
  · omega
  · omega
  · intro i _ h2
    have hl : i < ts.length := by omega
    simp [hl, (hi i hl).2 h2]
  · intro i h1 h2
    have hl : i < ts.length := by omega
    simp only [hl, List.getElem?_eq_getElem]
    cases hq' : q ts[i] with
    | false => rfl
    | true => have := (hi i hl).1 hq'; omega

theorem lowerBound_spec (ts : List Int) (hs : ts.Pairwise (· < ·)) (t : Int) :
    lowerBound ts t ≤ ts.length ∧ ∀ i (h : i < ts.length), (ts[i] < t ↔ i < lowerBound ts t) := by
  obtain ⟨m, hm, he, hi⟩ := halving_cut ts hs (fun x => decide (x < t))
    (by intro a b h1 h2; simp at *; omega)
  have : lowerBound ts t = m := he
  rw [this]
  exact ⟨hm, fun i h => by have := hi i h; simpa using this⟩

theorem upperBound_spec (ts : List Int) (hs : ts.Pairwise (· < ·)) (t : Int) :
    upperBound ts t ≤ ts.length ∧ ∀ i (h : i < ts.length), (ts[i] ≤ t ↔ i < upperBound ts t) := by
  obtain ⟨m, hm, he, hi⟩ := halving_cut ts hs (fun x => decide (¬ t < x))
    (by intro a b h1 h2; simp at *; omega)
  have : upperBound ts t = m := he
  rw [this]
  exact ⟨hm, fun i h => by have := hi i h; simpa using this⟩

theorem Mem.all_mem {s : Mem E} {x : IdxTs × E} :
    x ∈ s.all ↔ ∃ h : x.1.index < s.entries.length, s.entries[x.1.index] = (x.1.us, x.2) := by
  simp only [Mem.all, List.mem_mapIdx]
  constructor
  · rintro ⟨i, h, rfl⟩
    exact ⟨h, rfl⟩
  · rintro ⟨h, he⟩
    refine ⟨x.1.index, h, ?_⟩
    rw [he]

theorem Mem.Inv.sorted_ts {s : Mem E} (h : s.Inv) : (s.entries.map (·.1)).Pairwise (· < ·) := by
  rw [List.pairwise_map]; exact h.sorted

/-- Filtering by time equals taking the positions between the two bounds. -/
theorem Mem.filter_time {s : Mem E} (f : Int) (b e : Nat) (q : Int → Prop) [DecidablePred q]
    (hb : ∀ i (hi : i < (s.entries.map (·.1)).length), ((s.entries.map (·.1))[i] < f ↔ i < b))
    (he : ∀ i (hi : i < (s.entries.map (·.1)).length), (q (s.entries.map (·.1))[i] ↔ i < e)) :
    s.all.filter (fun x => decide (b ≤ x.1.index ∧ x.1.index < e)) =
      s.all.filter (fun x => decide (f ≤ x.1.us ∧ q x.1.us)) := by
  apply List.filter_congr
  intro x hx
  obtain ⟨hl, hx⟩ := Mem.all_mem.1 hx
  have h1 := hb x.1.index (by simpa using hl)
  have h2 := he x.1.index (by simpa using hl)
  simp only [List.getElem_map, hx] at h1 h2
  simp only [h2, decide_eq_decide]
  constructor
  · rintro ⟨a, b⟩; exact ⟨by omega, b⟩
  · rintro ⟨a, b⟩; exact ⟨by omega, b⟩

end Current.Persist
