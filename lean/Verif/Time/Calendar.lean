import Verif.Time.HttpDate
/-!
`gmtime` and `timegm` against the calendar (C81).
-/
namespace Current.HttpDate
open Current.Persist

theorem isLeap_iff (y : Nat) : isLeap y = true ↔ LeapYear y := by
  unfold isLeap LeapYear
  simp only [Nat.dvd_iff_mod_eq_zero]
  simp
  omega

theorem before_succ (y : Nat) : daysBeforeYear (y + 1) = daysBeforeYear y + yearLen y := by
  unfold yearLen daysBeforeYear
  by_cases h : isLeap y = true
  · rw [if_pos h]
    rw [isLeap_iff, LeapYear] at h
    omega
  · rw [if_neg h]
    rw [isLeap_iff, LeapYear] at h
    omega

theorem yearLen_pos (y : Nat) : 365 ≤ yearLen y := by unfold yearLen; split <;> omega

theorem before_mono {y z : Nat} (h : y ≤ z) : daysBeforeYear y ≤ daysBeforeYear z := by
  induction z with
  | zero => have : y = 0 := by omega
            subst this; exact Nat.le_refl _
  | succ z ih =>
    by_cases h' : y = z + 1
    · subst h'; exact Nat.le_refl _
    · have := ih (by omega)
      rw [before_succ]; omega

theorem monthLens_length (y : Nat) : (monthLens y).length = 12 := rfl

theorem monthLens_sum (y : Nat) : (monthLens y).sum = yearLen y := by
  unfold monthLens yearLen
  split <;> rfl

theorem monthLens_get (y m : Nat) (h1 : 1 ≤ m) (h2 : m ≤ 12) : (monthLens y).getD (m - 1) 0 = daysInMonth y m := by
  have hl : (if isLeap y = true then 29 else 28) = if LeapYear y then 29 else 28 := by
    by_cases h : LeapYear y
    · rw [if_pos h, if_pos ((isLeap_iff y).2 h)]
    · rw [if_neg h, if_neg (fun hh => h ((isLeap_iff y).1 hh))]
  have : m = 1 ∨ m = 2 ∨ m = 3 ∨ m = 4 ∨ m = 5 ∨ m = 6 ∨ m = 7 ∨ m = 8 ∨ m = 9 ∨ m = 10 ∨ m = 11 ∨ m = 12 := by omega
  unfold monthLens daysInMonth
  rw [hl]
  rcases this with rfl | rfl | rfl | rfl | rfl | rfl | rfl | rfl | rfl | rfl | rfl | rfl <;> simp

theorem findYear_spec (f : Nat) : ∀ y n, n ≤ f →
    (findYear f y n).2 < yearLen (findYear f y n).1 ∧ daysBeforeYear (findYear f y n).1 + (findYear f y n).2 = daysBeforeYear y + n := by
  induction f with
  | zero =>
    intro y n h
    have : n = 0 := by omega
    subst this
    have := yearLen_pos y
    exact ⟨by simp only [findYear]; omega, rfl⟩
  | succ f ih =>
    intro y n h
    simp only [findYear]
    have hp := yearLen_pos y
    by_cases h' : n < yearLen y
    · rw [if_pos h']; exact ⟨h', rfl⟩
    · rw [if_neg h']
      have := ih (y + 1) (n - yearLen y) (by omega)
      rw [before_succ] at this
      exact ⟨this.1, by omega⟩

theorem findMonth_spec : ∀ (ls : List Nat) (n : Nat), n < ls.sum →
    (findMonth ls n).1 < ls.length ∧ (findMonth ls n).2 < ls.getD (findMonth ls n).1 0 ∧ (ls.take (findMonth ls n).1).sum + (findMonth ls n).2 = n
  | [], n, h => by simp at h
  | l :: ls, n, h => by
    simp only [findMonth]
    by_cases h' : n < l
    · rw [if_pos h']; simp [h']
    · rw [if_neg h']
      have := findMonth_spec ls (n - l) (by simp at h; omega)
      simp only [List.length_cons, List.getD_cons_succ, List.take_succ_cons, List.sum_cons]
      exact ⟨by omega, this.2.1, by omega⟩

/-- The number of a day, from the first day of year 0. -/
def num (y m d : Nat) : Nat := daysBeforeYear y + ((monthLens y).take (m - 1)).sum + (d - 1)

theorem take_mono (ls : List Nat) {i j : Nat} (h : i < j) (hj : j ≤ ls.length) : (ls.take i).sum + ls.getD i 0 ≤ (ls.take j).sum := by
  induction ls generalizing i j with
  | nil => simp at hj; omega
  | cons l ls ih =>
    cases j with
    | zero => omega
    | succ j =>
      cases i with
      | zero => simp
      | succ i =>
        have := ih (i := i) (j := j) (by omega) (by simpa using hj)
        simp only [List.take_succ_cons, List.sum_cons, List.getD_cons_succ]
        omega

theorem month_end (y m : Nat) (h1 : 1 ≤ m) (h2 : m ≤ 12) : ((monthLens y).take (m - 1)).sum + daysInMonth y m ≤ yearLen y := by
  have := take_mono (monthLens y) (i := m - 1) (j := 12) (by omega) (by rw [monthLens_length]; omega)
  rw [monthLens_get y m h1 h2] at this
  rw [show (monthLens y).take 12 = monthLens y from rfl, monthLens_sum] at this
  exact this

theorem num_lt {y m d : Nat} (h1 : 1 ≤ m) (h2 : m ≤ 12) (h3 : 1 ≤ d) (h4 : d ≤ daysInMonth y m) :
    daysBeforeYear y ≤ num y m d ∧ num y m d < daysBeforeYear (y + 1) := by
  have := month_end y m h1 h2
  rw [before_succ]
  unfold num
  omega

theorem num_inj {y m d y' m' d' : Nat} (h1 : 1 ≤ m) (h2 : m ≤ 12) (h3 : 1 ≤ d) (h4 : d ≤ daysInMonth y m)
    (h1' : 1 ≤ m') (h2' : m' ≤ 12) (h3' : 1 ≤ d') (h4' : d' ≤ daysInMonth y' m') (h : num y m d = num y' m' d') : y = y' ∧ m = m' ∧ d = d' := by
  have a := num_lt h1 h2 h3 h4
  have b := num_lt h1' h2' h3' h4'
  have hy : y = y' := by
    rcases Nat.lt_trichotomy y y' with c | c | c
    · have := before_mono (y := y + 1) (z := y') c; omega
    · exact c
    · have := before_mono (y := y' + 1) (z := y) c; omega
  subst hy
  unfold num at h
  have g := monthLens_get y m h1 h2
  have g' := monthLens_get y m' h1' h2'
  have hm : m = m' := by
    rcases Nat.lt_trichotomy m m' with c | c | c
    · have := take_mono (monthLens y) (i := m - 1) (j := m' - 1) (by omega) (by rw [monthLens_length]; omega)
      omega
    · exact c
    · have := take_mono (monthLens y) (i := m' - 1) (j := m - 1) (by omega) (by rw [monthLens_length]; omega)
      omega
  subst hm
  exact ⟨rfl, rfl, by omega⟩

/-- The day with a number, as `gmtime` finds it. -/
def civil (n : Nat) : Day :=
  let yd := findYear n 0 n
  let md := findMonth (monthLens yd.1) yd.2
  ⟨yd.1, md.1 + 1, md.2 + 1, (n + 6) % 7⟩

theorem civil_spec (n : Nat) : (civil n).Ok ∧ num (civil n).year (civil n).month (civil n).day = n := by
  have hy := findYear_spec n 0 n (Nat.le_refl _)
  have hm := findMonth_spec (monthLens (findYear n 0 n).1) (findYear n 0 n).2 (by rw [monthLens_sum]; exact hy.1)
  rw [monthLens_length] at hm
  have hg := monthLens_get (findYear n 0 n).1 ((findMonth (monthLens (findYear n 0 n).1) (findYear n 0 n).2).1 + 1) (by omega) (by omega)
  rw [Nat.add_sub_cancel] at hg
  refine ⟨⟨?_, ?_, ?_, ?_, ?_⟩, ?_⟩
  · exact Nat.succ_le_succ (Nat.zero_le _)
  · simp only [civil]; omega
  · exact Nat.succ_le_succ (Nat.zero_le _)
  · simp only [civil]; rw [← hg]; omega
  · exact Nat.mod_lt _ (by decide)
  · simp only [civil, num, Nat.add_sub_cancel]
    have h0 : daysBeforeYear 0 = 0 := rfl
    omega

theorem take_succ_sum (ls : List Nat) (i : Nat) (h : i < ls.length) : (ls.take (i + 1)).sum = (ls.take i).sum + ls.getD i 0 := by
  induction ls generalizing i with
  | nil => simp at h
  | cons l ls ih =>
    cases i with
    | zero => simp
    | succ i =>
      have := ih i (by simpa using h)
      simp only [List.take_succ_cons, List.sum_cons, List.getD_cons_succ]
      omega

theorem dim_pos (y m : Nat) : 28 ≤ daysInMonth y m := by
  unfold daysInMonth
  split
  · omega
  · split
    · split <;> omega
    · omega

theorem next_spec {d : Day} (h : d.Ok) : d.next.Ok ∧ num d.next.year d.next.month d.next.day = num d.year d.month d.day + 1 ∧ d.next.weekday = (d.weekday + 1) % 7 := by
  obtain ⟨h1, h2, h3, h4, h5⟩ := h
  unfold Day.next
  by_cases c : d.day < daysInMonth d.year d.month
  · rw [if_pos c]
    exact ⟨⟨h1, h2, by simp, c, Nat.mod_lt _ (by decide)⟩, by simp only [num]; omega, rfl⟩
  · rw [if_neg c]
    have hd : d.day = daysInMonth d.year d.month := by omega
    by_cases c' : d.month < 12
    · rw [if_pos c']
      refine ⟨⟨by simp, c', by simp, ?_, Nat.mod_lt _ (by decide)⟩, ?_, rfl⟩
      · exact Nat.le_trans (show 1 ≤ 28 by decide) (dim_pos d.year (d.month + 1))
      · have e := take_succ_sum (monthLens d.year) (d.month - 1) (by rw [monthLens_length]; omega)
        rw [monthLens_get _ _ h1 h2] at e
        simp only [num]
        rw [show d.month + 1 - 1 = d.month - 1 + 1 from by omega]
        omega
    · rw [if_neg c']
      refine ⟨⟨by simp, by simp, by simp, ?_, Nat.mod_lt _ (by decide)⟩, ?_, rfl⟩
      · exact Nat.le_trans (show 1 ≤ 28 by decide) (dim_pos (d.year + 1) 1)
      · have hm : d.month = 12 := by omega
        have e := take_succ_sum (monthLens d.year) (d.month - 1) (by rw [monthLens_length]; omega)
        rw [monthLens_get _ _ h1 h2, hm] at e
        have e' : ((monthLens d.year).take (12 - 1 + 1)).sum = yearLen d.year := monthLens_sum _
        rw [hm] at hd
        simp only [num, hm, before_succ, Nat.sub_self, List.take_zero, List.sum_nil]
        omega

theorem civil_next (n : Nat) : civil (n + 1) = (civil n).next := by
  obtain ⟨a1, a2⟩ := civil_spec n
  obtain ⟨b1, b2⟩ := civil_spec (n + 1)
  obtain ⟨c1, c2, c3⟩ := next_spec a1
  obtain ⟨e1, e2, e3⟩ := num_inj b1.1 b1.2.1 b1.2.2.1 b1.2.2.2.1 c1.1 c1.2.1 c1.2.2.1 c1.2.2.2.1 (by rw [b2, c2, a2])
  have e4 : (civil (n + 1)).weekday = (civil n).next.weekday := by
    rw [c3]
    show (n + 1 + 6) % 7 = ((n + 6) % 7 + 1) % 7
    omega
  cases h1 : civil (n + 1)
  cases h2 : (civil n).next
  rw [h1, h2] at e1 e2 e3 e4
  simp only at e1 e2 e3 e4
  rw [e1, e2, e3, e4]

theorem civil_unique {d : Day} (h : d.Ok) (hw : d.weekday = (num d.year d.month d.day + 6) % 7) : civil (num d.year d.month d.day) = d := by
  obtain ⟨b1, b2⟩ := civil_spec (num d.year d.month d.day)
  obtain ⟨e1, e2, e3⟩ := num_inj b1.1 b1.2.1 b1.2.2.1 b1.2.2.2.1 h.1 h.2.1 h.2.2.1 h.2.2.2.1 b2
  have e4 : (civil (num d.year d.month d.day)).weekday = d.weekday := by rw [hw]; rfl
  cases h1 : civil (num d.year d.month d.day)
  rw [h1] at e1 e2 e3 e4
  simp only at e1 e2 e3 e4
  cases d
  simp only at e1 e2 e3 e4
  rw [e1, e2, e3, e4]

theorem civil_epoch : civil 719528 = ⟨1970, 1, 1, 4⟩ := by
  have h : num 1970 1 1 = 719528 := by decide +kernel
  have := civil_unique (d := ⟨1970, 1, 1, 4⟩) (by decide) (by decide +kernel)
  simp only [h] at this
  exact this

/-- **C81.** The calendar has at most one day with a number. -/
theorem isDay_civil {n : Int} {d : Day} (h : IsDay n d) : d.Ok ∧ d.weekday = (num d.year d.month d.day + 6) % 7 ∧ (num d.year d.month d.day : Int) = n + 719528 := by
  induction h with
  | epoch => decide +kernel
  | next _ ih =>
    obtain ⟨a, b, c⟩ := ih
    obtain ⟨p, q, r⟩ := next_spec a
    exact ⟨p, by rw [r, q, b]; omega, by rw [q]; push_cast; omega⟩
  | @prev n d hd _ ih =>
    obtain ⟨a, b, c⟩ := ih
    obtain ⟨p, q, r⟩ := next_spec hd
    rw [r, q] at b
    rw [q] at c
    have := hd.2.2.2.2
    exact ⟨hd, by omega, by push_cast at c; omega⟩

/-- **C81.** Every day from year 0 on is in the calendar, and it is the one `gmtime` finds. -/
theorem civil_isDay (n : Nat) : IsDay ((n : Int) - 719528) (civil n) := by
  by_cases h : 719528 ≤ n
  · obtain ⟨k, rfl⟩ : ∃ k, n = 719528 + k := ⟨n - 719528, by omega⟩
    clear h
    induction k with
    | zero => rw [Nat.add_zero, civil_epoch]; exact IsDay.epoch
    | succ k ih =>
      rw [← Nat.add_assoc, civil_next]
      have := IsDay.next ih
      rw [show ((719528 + k : Nat) : Int) - 719528 + 1 = ((719528 + k + 1 : Nat) : Int) - 719528 from by omega] at this
      exact this
  · obtain ⟨k, hk⟩ : ∃ k, n + k = 719528 := ⟨719528 - n, by omega⟩
    clear h
    induction k generalizing n with
    | zero => rw [Nat.add_zero] at hk; subst hk; rw [civil_epoch]; exact IsDay.epoch
    | succ k ih =>
      have := ih (n + 1) (by omega)
      rw [civil_next] at this
      have := IsDay.prev (civil_spec n).1 this
      rw [show ((n + 1 : Nat) : Int) - 719528 - 1 = (n : Int) - 719528 from by omega] at this
      exact this

theorem isDay_unique {n : Int} {d d' : Day} (h : IsDay n d) (h' : IsDay n d') : d = d' := by
  obtain ⟨a, b, c⟩ := isDay_civil h
  obtain ⟨a', b', c'⟩ := isDay_civil h'
  rw [← civil_unique a b, ← civil_unique a' b', show num d.year d.month d.day = num d'.year d'.month d'.day from by omega]

end Current.HttpDate
