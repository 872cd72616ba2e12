import Verif.Karl.Inv
/-! How stale a cache entry can get. -/
namespace Current.Karl
variable {C L S : Type}

theorem pick_ge (f : C → Option Nat) (T now m : Nat) (x : C) : m ≤ pickRecent f T now m x := by grind [pickRecent]
theorem pick_mem (f : C → Option Nat) (T now m : Nat) (x : C) (t : Nat) (h : f x = some t) (hl : late T now t = false) :
    t ≤ pickRecent f T now m x := by grind [pickRecent]
theorem pick_le (f : C → Option Nat) (T now m b : Nat) (x : C) (hm : m ≤ b) (h : ∀ t, f x = some t → t ≤ b) :
    pickRecent f T now m x ≤ b := by grind [pickRecent]

theorem recent_fold (f : C → Option Nat) (T now : Nat) (dom : List C) (m : Nat) :
    m ≤ dom.foldl (pickRecent f T now) m ∧
    (∀ c ∈ dom, ∀ t, f c = some t → late T now t = false → t ≤ dom.foldl (pickRecent f T now) m) ∧
    (∀ b, m ≤ b → (∀ c t, f c = some t → t ≤ b) → dom.foldl (pickRecent f T now) m ≤ b) := by
  induction dom generalizing m with
  | nil => exact ⟨Nat.le_refl _, by simp, fun b hb _ => hb⟩
  | cons x xs ih =>
    simp only [List.foldl_cons]
    obtain ⟨h1, h2, h3⟩ := ih (pickRecent f T now m x)
    have hm : m ≤ pickRecent f T now m x := pick_ge f T now m x
    refine ⟨by omega, ?_, ?_⟩
    · intro c hc t ht hl
      rcases List.mem_cons.1 hc with rfl | hc
      · exact Nat.le_trans (pick_mem f T now m c t ht hl) h1
      · exact h2 c hc t ht hl
    · intro b hb hall
      exact h3 b (pick_le f T now m b x hb fun t ht => hall x t ht) hall

variable [DecidableEq C] [DecidableEq L] [Inhabited L] [Inhabited S]

omit [DecidableEq C] [DecidableEq L] [Inhabited L] [Inhabited S] in
theorem recent_le (T : Nat) (s : State C L S) (h : Times s) : scanRecent T s ≤ s.now :=
  (recent_fold s.cache T s.now s.dom 0).2.2 s.now (Nat.zero_le _) fun c t hc => (h.cache c t hc).2

omit [DecidableEq C] [DecidableEq L] [Inhabited L] [Inhabited S] in
theorem recent_zero (T : Nat) (s : State C L S) (h : Times s) (hz : scanRecent T s = 0) (c : C) :
    (if scanLate T s c then none else s.cache c) = none := by
  cases hc : s.cache c with
  | none => simp
  | some t =>
    by_cases hl : late T s.now t = true
    · simp [scanLate, hc, hl]
    · have hd : c ∈ s.dom := h.dom c (by simp [hc])
      have := (recent_fold s.cache T s.now s.dom 0).2.1 c hd t hc (by simpa using hl)
      have hp := (h.cache c t hc).1
      unfold scanRecent at hz
      rw [hz] at this
      omega

/-- States reached by runs in which no service was active at the moment the constructor looked at the storage. -/
inductive Fresh (timeout t₀ : Nat) (dom₀ : List C) (claires₀ : C → Option (Claire L S)) : State C L S → Prop
  | start : Fresh timeout t₀ dom₀ claires₀ (start t₀ dom₀ claires₀)
  | step {s s' : State C L S} (a : Action C L S) : Fresh timeout t₀ dom₀ claires₀ s → step timeout s a = some s' →
      (a = .populate → ∀ c, ¬ Active s c) → Fresh timeout t₀ dom₀ claires₀ s'

structure Bound (T : Nat) (s : State C L S) : Prop where
  seen : ∀ c t, s.cache c = some t → t ≤ s.seen c ∧ s.seen c ≤ s.now ∧ s.lastScan ≤ s.seen c + T
  scan : s.lastScan ≤ s.now
  tx : ∀ lt r, s.loop = .tx lt r → r ≤ s.lastScan ∧ s.now ≤ s.lastScan + s.lag ∧
    (r = 0 → s.force = false → ∀ c, s.cache c = none)
  sleep : ∀ r, s.loop = .sleep r → r ≤ s.lastScan ∧ (r = 0 → s.force = false → ∀ c, s.cache c = none)
  deadline : ∀ d, s.loop = .wait (some d) → d ≤ s.lastScan + T + 1
  forever : s.loop = .wait none → s.force = false → ∀ c, s.cache c = none
  bound : s.loop ≠ .done → ∀ c t, s.cache c = some t → s.now ≤ s.seen c + 2 * T + 1 + s.lag

omit [DecidableEq C] [DecidableEq L] [Inhabited L] [Inhabited S] in
theorem bound_start (T t₀ : Nat) (dom : List C) (cl : C → Option (Claire L S)) : Bound T (start t₀ dom cl) := by
  constructor <;> simp_all [start]

set_option maxHeartbeats 8000000 in
theorem bound_step (T : Nat) (s s' : State C L S) (a : Action C L S) (h : step T s a = some s') (i : Bound T s)
    (ht : Times s) (hw : Wake s) (hq : a = .populate → ∀ c, ¬ Active s c) : Bound T s' := by
  have hr := recent_le T s ht
  have hz := recent_zero T s ht
  have hc := ht.cache
  have hk := ht.kac
  have hf := hw.force
  obtain ⟨i1, i2, i3, i4, i5, i6, i7⟩ := i
  have hq' : a = .populate → ∀ c x, s.claires c = some x → x.reg ≠ .active :=
    fun ha c x hx hr => hq ha c ⟨x, hx, hr⟩
  clear ht hw hq
  cases a <;> karl_open h
  all_goals constructor
  all_goals grind [put, Active, scanLate, late, asleep, waits]
end Current.Karl
