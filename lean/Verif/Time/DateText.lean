import Verif.Time.Calendar
/-!
Dates as text and back (C81).
-/
namespace Current.HttpDate
open Current.Persist

/-! ### What is promised -/

/-- Two and four digits. -/
def d2 (n : Nat) : Str := [Nat.digitChar (n / 10), Nat.digitChar (n % 10)]
def d4 (n : Nat) : Str := [Nat.digitChar (n / 1000), Nat.digitChar (n / 100 % 10), Nat.digitChar (n / 10 % 10), Nat.digitChar (n % 10)]

def hms (h m s : Nat) : Str := d2 h ++ [':'] ++ d2 m ++ [':'] ++ d2 s

def gmt : Str := [' ', 'G', 'M', 'T']

/-- RFC 7231, 7.1.1.1: `IMF-fixdate`. -/
def imfText (d : Day) (h m s : Nat) : Str :=
  abDays.getD d.weekday [] ++ [',', ' '] ++ d2 d.day ++ [' '] ++ abMonths.getD (d.month - 1) [] ++ [' '] ++ d4 d.year ++ [' '] ++ hms h m s ++ gmt

/-- RFC 7231, 7.1.1.1: `rfc850-date`. -/
def rfc850Text (d : Day) (h m s : Nat) : Str :=
  fullDays.getD d.weekday [] ++ [',', ' '] ++ d2 d.day ++ ['-'] ++ abMonths.getD (d.month - 1) [] ++ ['-'] ++ d2 (d.year % 100) ++ [' '] ++ hms h m s ++ gmt

def defaultText (d : Day) (h m s : Nat) : Str :=
  d4 d.year ++ ['/'] ++ d2 d.month ++ ['/'] ++ d2 d.day ++ [' '] ++ hms h m s

/-- The second `s` of the epoch is this time of this day. -/
structure IsMoment (t : Int) (d : Day) (h m s : Nat) : Prop where
  day : IsDay (t / 86400) d
  hour : h < 24
  minute : m < 60
  second : s < 60
  time : t % 86400 = h * 3600 + m * 60 + s

/-- The time fits into 64-bit nanoseconds: from the year 1677 to the year 2262. -/
def Fits (t : Int) : Prop := -9223372036 ≤ t ∧ t ≤ 9223372036

/-! ### Proofs -/

theorem two_eq (n : Nat) (h : n < 100) : two n = d2 n := by
  have : ∀ n : Fin 100, two n = d2 n := by decide +kernel
  exact this ⟨n, h⟩

theorem dec_step (n : Nat) (h : 10 ≤ n) : dec n = dec (n / 10) ++ [Nat.digitChar (n % 10)] := Nat.toDigits_of_base_le (by decide) h

theorem dec_four (n : Nat) (h : 1000 ≤ n) (h' : n ≤ 9999) : dec n = d4 n := by
  rw [dec_step n (by omega), dec_step (n / 10) (by omega), dec_step (n / 10 / 10) (by omega), dec, Nat.toDigits_of_lt_base (by omega)]
  simp only [d4, List.cons_append, List.nil_append, Nat.div_div_eq_div_mul]

theorem digit_is (n : Nat) (h : n < 10) : (Nat.digitChar n).isDigit = true := by rw [Nat.isDigit_digitChar]; simp [h]

theorem digit_val (n : Nat) (h : n < 10) : (Nat.digitChar n).toNat - 48 = n := Nat.toNat_digitChar_sub_48_of_lt_ten h

theorem digit_space (n : Nat) (h : n < 10) : isSpace (Nat.digitChar n) = false ∧ Nat.digitChar n ≠ ' ' := by
  have : ∀ n : Fin 10, isSpace (Nat.digitChar n) = false ∧ Nat.digitChar n ≠ ' ' := by decide +kernel
  exact this ⟨n, h⟩

theorem more_step (hi n v k : Nat) (u : Str) (h : v * 10 ≤ hi) (hk : k < 10) :
    moreDigits hi (n + 1) v (Nat.digitChar k :: u) = moreDigits hi n (v * 10 + k) u := by
  rw [moreDigits, if_pos ⟨h, digit_is k hk⟩, digit_val k hk]

theorem get_d2 (lo hi n : Nat) (h : n < 100) (hlo : lo ≤ n) (hhi : n ≤ hi) (u : Str) : getNumber lo hi 2 (d2 n ++ u) = some (n, u) := by
  have e : (d2 n ++ u).dropWhile (· = ' ') = Nat.digitChar (n / 10) :: Nat.digitChar (n % 10) :: u := by
    simp only [d2, List.cons_append, List.nil_append]
    rw [List.dropWhile_cons_of_neg]
    simp [(digit_space (n / 10) (by omega)).2]
  unfold getNumber
  rw [e]
  have g : moreDigits hi (2 - 1) (n / 10) (Nat.digitChar (n % 10) :: u) = (n, u) := by
    rw [more_step _ 0 _ _ _ (by omega) (by omega), moreDigits, show n / 10 * 10 + n % 10 = n from by omega]
  simp only [firstDigit]
  rw [if_pos (digit_is _ (by omega)), digit_val _ (by omega), g, if_pos ⟨hlo, hhi⟩]

theorem get_d4 (n : Nat) (h : n ≤ 9999) (u : Str) : getNumber 0 9999 4 (d4 n ++ u) = some (n, u) := by
  have e : (d4 n ++ u).dropWhile (· = ' ') =
      Nat.digitChar (n / 1000) :: Nat.digitChar (n / 100 % 10) :: Nat.digitChar (n / 10 % 10) :: Nat.digitChar (n % 10) :: u := by
    simp only [d4, List.cons_append, List.nil_append]
    rw [List.dropWhile_cons_of_neg]
    simp [(digit_space (n / 1000) (by omega)).2]
  unfold getNumber
  rw [e]
  have g : moreDigits 9999 (4 - 1) (n / 1000) (Nat.digitChar (n / 100 % 10) :: Nat.digitChar (n / 10 % 10) :: Nat.digitChar (n % 10) :: u) = (n, u) := by
    rw [more_step _ 2 _ _ _ (by omega) (by omega), more_step _ 1 _ _ _ (by omega) (by omega), more_step _ 0 _ _ _ (by omega) (by omega), moreDigits,
      show ((n / 1000 * 10 + n / 100 % 10) * 10 + n / 10 % 10) * 10 + n % 10 = n from by omega]
  simp only [firstDigit]
  rw [if_pos (digit_is _ (by omega)), digit_val _ (by omega), g, if_pos ⟨Nat.zero_le n, h⟩]

theorem find_short (w : Nat) (h : w < 7) (u : Str) : findName 0 fullDays abDays (abDays.getD w [] ++ ',' :: u) = some (w, ',' :: u) := by
  have : w = 0 ∨ w = 1 ∨ w = 2 ∨ w = 3 ∨ w = 4 ∨ w = 5 ∨ w = 6 := by omega
  rcases this with rfl | rfl | rfl | rfl | rfl | rfl | rfl <;> rfl

theorem find_long (w : Nat) (h : w < 7) (u : Str) : findName 0 fullDays abDays (fullDays.getD w [] ++ ',' :: u) = some (w, ',' :: u) := by
  have : w = 0 ∨ w = 1 ∨ w = 2 ∨ w = 3 ∨ w = 4 ∨ w = 5 ∨ w = 6 := by omega
  rcases this with rfl | rfl | rfl | rfl | rfl | rfl | rfl <;> rfl

theorem find_month (m : Nat) (h : m < 12) (c : Char) (hc : c = ' ' ∨ c = '-') (u : Str) :
    findName 0 fullMonths abMonths (abMonths.getD m [] ++ c :: u) = some (m, c :: u) := by
  have : m = 0 ∨ m = 1 ∨ m = 2 ∨ m = 3 ∨ m = 4 ∨ m = 5 ∨ m = 6 ∨ m = 7 ∨ m = 8 ∨ m = 9 ∨ m = 10 ∨ m = 11 := by omega
  rcases hc with rfl | rfl <;> rcases this with rfl | rfl | rfl | rfl | rfl | rfl | rfl | rfl | rfl | rfl | rfl | rfl <;> rfl

theorem space_digit (n : Nat) (h : n < 10) (u : Str) : (' ' :: Nat.digitChar n :: u).dropWhile isSpace = Nat.digitChar n :: u := by
  rw [List.dropWhile_cons_of_pos (by decide), List.dropWhile_cons_of_neg]
  rw [(digit_space n h).1]; decide

theorem space_d2 (n : Nat) (h : n < 100) (u : Str) : (' ' :: (d2 n ++ u)).dropWhile isSpace = d2 n ++ u := space_digit (n / 10) (by omega) _

theorem space_d4 (n : Nat) (h : n ≤ 9999) (u : Str) : (' ' :: (d4 n ++ u)).dropWhile isSpace = d4 n ++ u := space_digit (n / 1000) (by omega) _

theorem space_month (m : Nat) (h : m < 12) (u : Str) : (' ' :: (abMonths.getD m [] ++ u)).dropWhile isSpace = abMonths.getD m [] ++ u := by
  have : m = 0 ∨ m = 1 ∨ m = 2 ∨ m = 3 ∨ m = 4 ∨ m = 5 ∨ m = 6 ∨ m = 7 ∨ m = 8 ∨ m = 9 ∨ m = 10 ∨ m = 11 := by omega
  rcases this with rfl | rfl | rfl | rfl | rfl | rfl | rfl | rfl | rfl | rfl | rfl | rfl <;> rfl

theorem scan_space (is : List Item) (t : Tm) (u v : Str) (h : u.dropWhile isSpace = v) : scanItems (.lit ' ' :: is) t u = scanItems is t v := by
  simp only [scanItems, scanItem]
  rw [if_pos (by decide), h]

theorem scan_lit (c : Char) (hc : isSpace c = false) (is : List Item) (t : Tm) (u : Str) : scanItems (.lit c :: is) t (c :: u) = scanItems is t u := by
  simp only [scanItems, scanItem]
  rw [if_neg (by rw [hc]; decide)]
  simp

theorem scan_gmt (t : Tm) (u : Str) : scanItems [.lit ' ', .lit 'G', .lit 'M', .lit 'T'] t (gmt ++ u) = some (t, u) := by
  unfold gmt
  simp only [List.cons_append, List.nil_append]
  rw [scan_space (v := 'G' :: 'M' :: 'T' :: u) (h := rfl), scan_lit _ (by decide), scan_lit _ (by decide), scan_lit _ (by decide)]
  rfl

theorem scan_hour (is : List Item) (t : Tm) (n : Nat) (hlo : 0 ≤ n) (hhi : n ≤ 23) (u : Str) :
    scanItems (.hour :: is) t (d2 n ++ u) = scanItems is { t with hour := n } u := by
  simp only [scanItems, scanItem, get_d2 0 23 n (by omega) hlo hhi, Option.map_some]

theorem scan_minute (is : List Item) (t : Tm) (n : Nat) (hlo : 0 ≤ n) (hhi : n ≤ 59) (u : Str) :
    scanItems (.minute :: is) t (d2 n ++ u) = scanItems is { t with min := n } u := by
  simp only [scanItems, scanItem, get_d2 0 59 n (by omega) hlo hhi, Option.map_some]

theorem scan_second (is : List Item) (t : Tm) (n : Nat) (hlo : 0 ≤ n) (hhi : n ≤ 61) (u : Str) :
    scanItems (.second :: is) t (d2 n ++ u) = scanItems is { t with sec := n } u := by
  simp only [scanItems, scanItem, get_d2 0 61 n (by omega) hlo hhi, Option.map_some]

theorem scan_mday (is : List Item) (t : Tm) (n : Nat) (hlo : 1 ≤ n) (hhi : n ≤ 31) (u : Str) :
    scanItems (.mday :: is) t (d2 n ++ u) = scanItems is { t with mday := n } u := by
  simp only [scanItems, scanItem, get_d2 1 31 n (by omega) hlo hhi, Option.map_some]

theorem scan_monthNo (is : List Item) (t : Tm) (n : Nat) (hlo : 1 ≤ n) (hhi : n ≤ 12) (u : Str) :
    scanItems (.monthNo :: is) t (d2 n ++ u) = scanItems is { t with mon := n - 1 } u := by
  simp only [scanItems, scanItem, get_d2 1 12 n (by omega) hlo hhi, Option.map_some]

theorem scan_year (is : List Item) (t : Tm) (n : Nat) (h : n ≤ 9999) (u : Str) :
    scanItems (.year :: is) t (d4 n ++ u) = scanItems is { t with year := n } u := by
  simp only [scanItems, scanItem, get_d4 n h, Option.map_some]

theorem scan_year2 (is : List Item) (t : Tm) (n : Nat) (h : 1969 ≤ n) (h' : n ≤ 2068) (u : Str) :
    scanItems (.year2 :: is) t (d2 (n % 100) ++ u) = scanItems is { t with year := n } u := by
  have ey : (if n % 100 ≥ 69 then 1900 + n % 100 else 2000 + n % 100) = n := by split <;> omega
  simp only [scanItems, scanItem, get_d2 0 99 (n % 100) (by omega) (by omega) (by omega), Option.map_some, ey]

theorem scan_short (is : List Item) (t : Tm) (w : Nat) (h : w < 7) (u : Str) :
    scanItems (.shortDay :: is) t (abDays.getD w [] ++ ',' :: u) = scanItems is { t with wday := w } (',' :: u) := by
  simp only [scanItems, scanItem, find_short w h, Option.map_some]

theorem scan_long (is : List Item) (t : Tm) (w : Nat) (h : w < 7) (u : Str) :
    scanItems (.longDay :: is) t (fullDays.getD w [] ++ ',' :: u) = scanItems is { t with wday := w } (',' :: u) := by
  simp only [scanItems, scanItem, find_long w h, Option.map_some]

theorem scan_month (is : List Item) (t : Tm) (m : Nat) (h : m < 12) (c : Char) (hc : c = ' ' ∨ c = '-') (u : Str) :
    scanItems (.month :: is) t (abMonths.getD m [] ++ c :: u) = scanItems is { t with mon := m } (c :: u) := by
  simp only [scanItems, scanItem, find_month m h c hc, Option.map_some]

theorem scan_hms (is : List Item) (t : Tm) (h m s : Nat) (hh : h < 24) (hm : m < 60) (hs : s < 60) (u : Str) :
    scanItems (.lit ' ' :: .hour :: .lit ':' :: .minute :: .lit ':' :: .second :: is) t (' ' :: (hms h m s ++ u)) =
      scanItems is { t with hour := h, min := m, sec := s } u := by
  unfold hms
  simp only [List.append_assoc, List.cons_append, List.nil_append]
  rw [scan_space _ _ _ _ (space_d2 _ (by omega) _), scan_hour _ _ h (by omega) (by omega), scan_lit _ (by decide), scan_minute _ _ m (by omega) (by omega), scan_lit _ (by decide),
    scan_second _ _ s (by omega) (by omega)]

theorem items_imf : items fmtIMF = [.shortDay, .lit ',', .lit ' ', .mday, .lit ' ', .month, .lit ' ', .year, .lit ' ', .hour, .lit ':', .minute, .lit ':', .second,
    .lit ' ', .lit 'G', .lit 'M', .lit 'T'] := by decide

theorem items_850 : items fmt850 = [.longDay, .lit ',', .lit ' ', .mday, .lit '-', .month, .lit '-', .year2, .lit ' ', .hour, .lit ':', .minute, .lit ':', .second,
    .lit ' ', .lit 'G', .lit 'M', .lit 'T'] := by decide

theorem items_default : items fmtDefault = [.year, .lit '/', .monthNo, .lit '/', .mday, .lit ' ', .hour, .lit ':', .minute, .lit ':', .second] := by decide

theorem strptime_imf (d : Day) (w : Nat) (hw : w < 7) (hm1 : 1 ≤ d.month) (hm2 : d.month ≤ 12) (hd1 : 1 ≤ d.day) (hd2 : d.day ≤ 31) (hy : d.year ≤ 9999)
    (h m s : Nat) (hh : h < 24) (hm : m < 60) (hs : s < 60) (u : Str) :
    strptime (imfText { d with weekday := w } h m s ++ u) fmtIMF = some { year := d.year, mon := d.month - 1, mday := d.day, hour := h, min := m, sec := s, wday := w } := by
  unfold strptime
  rw [items_imf]
  unfold imfText
  simp only [List.append_assoc, List.cons_append, List.nil_append]
  rw [scan_short _ _ w hw, scan_lit _ (by decide), scan_space _ _ _ _ (space_d2 _ (by omega) _), scan_mday _ _ _ hd1 hd2,
    scan_space _ _ _ _ (space_month _ (by omega) _), scan_month _ _ _ (by omega) ' ' (.inl rfl), scan_space _ _ _ _ (space_d4 _ hy _), scan_year _ _ _ hy,
    scan_hms _ _ h m s hh hm hs, scan_gmt]
  rfl

theorem strptime_850 (d : Day) (w : Nat) (hw : w < 7) (hm1 : 1 ≤ d.month) (hm2 : d.month ≤ 12) (hd1 : 1 ≤ d.day) (hd2 : d.day ≤ 31) (hy : 1969 ≤ d.year) (hy' : d.year ≤ 2068)
    (h m s : Nat) (hh : h < 24) (hm : m < 60) (hs : s < 60) (u : Str) :
    strptime (rfc850Text { d with weekday := w } h m s ++ u) fmt850 = some { year := d.year, mon := d.month - 1, mday := d.day, hour := h, min := m, sec := s, wday := w } := by
  unfold strptime
  rw [items_850]
  unfold rfc850Text
  simp only [List.append_assoc, List.cons_append, List.nil_append]
  rw [scan_long _ _ w hw, scan_lit _ (by decide), scan_space _ _ _ _ (space_d2 _ (by omega) _), scan_mday _ _ _ hd1 hd2,
    scan_lit _ (by decide), scan_month _ _ _ (by omega) '-' (.inr rfl), scan_lit _ (by decide), scan_year2 _ _ _ hy hy',
    scan_hms _ _ h m s hh hm hs, scan_gmt]
  rfl

theorem strptime_default (d : Day) (hm1 : 1 ≤ d.month) (hm2 : d.month ≤ 12) (hd1 : 1 ≤ d.day) (hd2 : d.day ≤ 31) (hy : d.year ≤ 9999)
    (h m s : Nat) (hh : h < 24) (hm : m < 60) (hs : s < 60) (u : Str) :
    strptime (defaultText d h m s ++ u) fmtDefault = some { year := d.year, mon := d.month - 1, mday := d.day, hour := h, min := m, sec := s } := by
  unfold strptime
  rw [items_default]
  unfold defaultText
  simp only [List.append_assoc, List.cons_append, List.nil_append]
  rw [scan_year _ _ _ hy, scan_lit _ (by decide), scan_monthNo _ _ _ hm1 hm2, scan_lit _ (by decide), scan_mday _ _ _ hd1 hd2, scan_hms _ _ h m s hh hm hs]
  rfl

theorem dim_le (y m : Nat) : daysInMonth y m ≤ 31 := by
  unfold daysInMonth
  split
  · omega
  · split
    · split <;> omega
    · omega

theorem timegm_eq (y m d h mi s w : Nat) (hd : 1 ≤ d) :
    timegm { year := y, mon := m - 1, mday := d, hour := h, min := mi, sec := s, wday := w } = ((num y m d : Int) - 719528) * 86400 + h * 3600 + mi * 60 + s := by
  unfold timegm num epochDay
  simp only
  omega

theorem toNs_fits (t : Int) (h : Fits t) : toNs t 1000000000 = t * 1000000000 := by
  unfold toNs
  obtain ⟨h1, h2⟩ := h
  omega

theorem seconds_back (t : Int) (h : Fits t) : Int.tdiv (toNs t 1000000000) 1000 = t * 1000000 := by
  rw [toNs_fits t h, show t * 1000000000 = t * 1000000 * 1000 from by omega, Int.mul_tdiv_cancel _ (by decide)]

theorem moment_timegm {t : Int} {d : Day} {h m s : Nat} (hmo : IsMoment t d h m s) (w : Nat) :
    timegm { year := d.year, mon := d.month - 1, mday := d.day, hour := h, min := m, sec := s, wday := w } = t := by
  obtain ⟨a, b, c⟩ := isDay_civil hmo.day
  rw [timegm_eq _ _ _ _ _ _ _ a.2.2.1, c]
  have := hmo.time
  omega

theorem parse_of_strptime {t : Int} {d : Day} {h m s : Nat} (hmo : IsMoment t d h m s) (hf : Fits t) (x fmt : Str) (w : Nat)
    (e : strptime x fmt = some { year := d.year, mon := d.month - 1, mday := d.day, hour := h, min := m, sec := s, wday := w }) :
    parse x fmt .upper = t * 1000000 + 999999 ∧ parse x fmt .lower = t * 1000000 := by
  unfold parse
  rw [e]
  dsimp only
  rw [moment_timegm hmo, seconds_back t hf]
  exact ⟨rfl, rfl⟩

theorem moment_day {t : Int} {d : Day} {h m s : Nat} (hmo : IsMoment t d h m s) : 1 ≤ d.month ∧ d.month ≤ 12 ∧ 1 ≤ d.day ∧ d.day ≤ 31 ∧ d.weekday < 7 := by
  obtain ⟨a, b, c⟩ := isDay_civil hmo.day
  exact ⟨a.1, a.2.1, a.2.2.1, Nat.le_trans a.2.2.2.1 (dim_le _ _), a.2.2.2.2⟩

theorem moment_year {t : Int} {d : Day} {h m s : Nat} (hmo : IsMoment t d h m s) (hf : Fits t) : 1677 ≤ d.year ∧ d.year ≤ 2262 := by
  obtain ⟨a, b, c⟩ := isDay_civil hmo.day
  obtain ⟨p, q⟩ := num_lt a.1 a.2.1 a.2.2.1 a.2.2.2.1
  obtain ⟨f1, f2⟩ := hf
  have h1 : daysBeforeYear 1677 = 612513 := by decide +kernel
  have h2 : daysBeforeYear 2263 = 826544 := by decide +kernel
  constructor
  · rcases Nat.lt_or_ge d.year 1677 with g | g
    · have := before_mono (y := d.year + 1) (z := 1677) g
      omega
    · exact g
  · rcases Nat.lt_or_ge 2262 d.year with g | g
    · have := before_mono (y := 2263) (z := d.year) g
      omega
    · exact g

/-- **C81.** Every second that fits is some time of some day of the calendar, and of only one. -/
theorem moment_exists {t : Int} (hf : Fits t) : ∃ d h m s, IsMoment t d h m s := by
  refine ⟨civil (t / 86400 + 719528).toNat, (t % 86400).toNat / 3600, (t % 86400).toNat / 60 % 60, (t % 86400).toNat % 60, ?_, ?_, ?_, ?_, ?_⟩
  · have := civil_isDay (t / 86400 + 719528).toNat
    rw [show (((t / 86400 + 719528).toNat : Nat) : Int) - 719528 = t / 86400 from by have := hf.1; omega] at this
    exact this
  · omega
  · omega
  · omega
  · omega

theorem moment_unique {t : Int} {d d' : Day} {h m s h' m' s' : Nat} (hmo : IsMoment t d h m s) (hmo' : IsMoment t d' h' m' s') :
    d = d' ∧ h = h' ∧ m = m' ∧ s = s' := by
  have := isDay_unique hmo.day hmo'.day
  obtain ⟨-, a1, a2, a3, a4⟩ := hmo
  obtain ⟨-, b1, b2, b3, b4⟩ := hmo'
  exact ⟨this, by omega, by omega, by omega⟩

theorem gmtime_moment {t : Int} {d : Day} {h m s : Nat} (hmo : IsMoment t d h m s) (hf : Fits t) :
    gmtime t = { year := d.year, mon := d.month - 1, mday := d.day, hour := h, min := m, sec := s, wday := d.weekday } := by
  obtain ⟨a, b, c⟩ := isDay_civil hmo.day
  have e := civil_unique a b
  have en : num d.year d.month d.day = (t / 86400 + 719528).toNat := by omega
  rw [en] at e
  obtain ⟨-, a1, a2, a3, a4⟩ := hmo
  have e1 : (findYear (t / 86400 + 719528).toNat 0 (t / 86400 + 719528).toNat).1 = d.year := by rw [← e]; rfl
  unfold gmtime epochDay
  subst e
  simp only [civil, Tm.mk.injEq, Nat.add_sub_cancel, true_and, and_true]
  omega

/-! ### Formatting -/

/-- The microsecond fits into 64-bit nanoseconds. -/
def FitsUs (t : Int) : Prop := -9223372036854775 ≤ t ∧ t ≤ 9223372036854775

theorem toTimeT_fits {t : Int} (h : FitsUs t) : toTimeT t = Int.tdiv t 1000000 := by
  obtain ⟨h1, h2⟩ := h
  unfold toTimeT
  rw [show toNs t 1000 = t * 1000 from by unfold toNs; omega, show (1000000000 : Int) = 1000000 * 1000 from rfl,
    Int.mul_tdiv_mul_of_pos_left _ _ (by decide)]

theorem fits_sec {t : Int} (h : FitsUs t) : Fits (Int.tdiv t 1000000) := by
  obtain ⟨h1, h2⟩ := h
  rcases Int.le_total 0 t with c | c
  · rw [Int.tdiv_eq_ediv_of_nonneg c]
    exact ⟨by omega, by omega⟩
  · obtain ⟨u, rfl⟩ : ∃ u, t = -u := ⟨-t, by omega⟩
    rw [Int.neg_tdiv, Int.tdiv_eq_ediv_of_nonneg (by omega)]
    exact ⟨by omega, by omega⟩

/-- **C81.** The text of a time is the text of its second in the calendar, in each of the three formats. -/
theorem format_text {t : Int} {d : Day} {h m s : Nat} (ht : FitsUs t) (hmo : IsMoment (Int.tdiv t 1000000) d h m s) :
    formatIMF t = imfText d h m s ∧ format850 t = rfc850Text d h m s ∧ format t fmtDefault = defaultText d h m s := by
  have hf := fits_sec ht
  obtain ⟨y1, y2⟩ := moment_year hmo hf
  obtain ⟨m1, m2, d1, d2', w⟩ := moment_day hmo
  have hg := gmtime_moment hmo hf
  obtain ⟨-, a1, a2, a3, -⟩ := hmo
  have hw : abDays.getD d.weekday ['?'] = abDays.getD d.weekday [] ∧ fullDays.getD d.weekday ['?'] = fullDays.getD d.weekday [] := by
    have : ∀ w : Fin 7, abDays.getD w ['?'] = abDays.getD w [] ∧ fullDays.getD w ['?'] = fullDays.getD w [] := by decide
    exact this ⟨_, w⟩
  have hmn : abMonths.getD (d.month - 1) ['?'] = abMonths.getD (d.month - 1) [] := by
    have : ∀ w : Fin 12, abMonths.getD w ['?'] = abMonths.getD w [] := by decide
    exact this ⟨d.month - 1, by omega⟩
  refine ⟨?_, ?_, ?_⟩
  · unfold formatIMF format strftime
    rw [toTimeT_fits ht, hg, items_imf]
    simp only [List.flatMap_cons, List.flatMap_nil, printItem, hw.1, hmn, two_eq _ (show d.day < 100 by omega), two_eq h (by omega), two_eq m (by omega),
      two_eq s (by omega), dec_four d.year (by omega) (by omega), imfText, hms, gmt, List.append_assoc, List.cons_append, List.nil_append, List.append_nil]
  · unfold format850 format strftime
    rw [toTimeT_fits ht, hg, items_850]
    simp only [List.flatMap_cons, List.flatMap_nil, printItem, hw.2, hmn, two_eq _ (show d.day < 100 by omega), two_eq h (by omega), two_eq m (by omega),
      two_eq s (by omega), two_eq (d.year % 100) (by omega), rfc850Text, hms, gmt, List.append_assoc, List.cons_append, List.nil_append, List.append_nil]
  · unfold format strftime
    rw [toTimeT_fits ht, hg, items_default]
    simp only [List.flatMap_cons, List.flatMap_nil, printItem, two_eq _ (show d.day < 100 by omega), two_eq h (by omega), two_eq m (by omega),
      two_eq s (by omega), dec_four d.year (by omega) (by omega), show d.month - 1 + 1 = d.month from by omega, two_eq d.month (by omega),
      defaultText, hms, List.append_assoc, List.cons_append, List.nil_append, List.append_nil]

/-! ### Parsing -/

/-- **C81.** A date in the preferred format, with anything after it, denotes the last microsecond of its second;
the weekday has to be one but is not compared with the date. -/
theorem parse_imf {t : Int} {d : Day} {h m s : Nat} (hmo : IsMoment t d h m s) (hf : Fits t) (w : Nat) (hw : w < 7) (u : Str) :
    parseHTTPDate (imfText { d with weekday := w } h m s ++ u) = some (t * 1000000 + 999999) := by
  obtain ⟨y1, y2⟩ := moment_year hmo hf
  obtain ⟨m1, m2, d1, d2', -⟩ := moment_day hmo
  have e := strptime_imf d w hw m1 m2 d1 d2' (by omega) h m s hmo.hour hmo.minute hmo.second u
  have hp := (parse_of_strptime hmo hf _ _ w e).1
  unfold parseHTTPDate
  rw [hp, if_pos (by omega)]

theorem no_month (t : Tm) (is : List Item) (v : Str) : scanItems (.month :: is) t ('-' :: v) = none := by
  have : findName 0 fullMonths abMonths ('-' :: v) = none := rfl
  simp only [scanItems, scanItem, this, Option.map_none]

theorem imf_of_850 (d : Day) (w : Nat) (hw : w < 7) (hd1 : 1 ≤ d.day) (hd2 : d.day ≤ 31) (h m s : Nat) (u : Str) :
    strptime (rfc850Text { d with weekday := w } h m s ++ u) fmtIMF = none := by
  unfold strptime
  rw [items_imf]
  unfold rfc850Text
  simp only [List.append_assoc, List.cons_append, List.nil_append]
  have e1 : ∀ (t : Tm) is v, scanItems (.shortDay :: is) t (fullDays.getD w [] ++ ',' :: v) = scanItems is { t with wday := w } (',' :: v) := by
    intro t is v
    simp only [scanItems, scanItem, find_long w hw, Option.map_some]
  rw [e1, scan_lit _ (by decide), scan_space _ _ _ _ (space_d2 _ (by omega) _), scan_mday _ _ _ hd1 hd2, scan_space _ _ _ _ (List.dropWhile_cons_of_neg (by decide)), no_month]
  rfl

/-- **C81.** A date in the obsolete format, for the hundred years its two digits can mean. -/
theorem parse_850 {t : Int} {d : Day} {h m s : Nat} (hmo : IsMoment t d h m s) (hf : Fits t) (h1 : 1969 ≤ d.year) (h2 : d.year ≤ 2068)
    (w : Nat) (hw : w < 7) (u : Str) : parseHTTPDate (rfc850Text { d with weekday := w } h m s ++ u) = some (t * 1000000 + 999999) := by
  obtain ⟨m1, m2, d1, d2', -⟩ := moment_day hmo
  have e := strptime_850 d w hw m1 m2 d1 d2' h1 h2 h m s hmo.hour hmo.minute hmo.second u
  have hp := (parse_of_strptime hmo hf _ _ w e).1
  have h0 : parse (rfc850Text { d with weekday := w } h m s ++ u) fmtIMF .upper = 0 := by
    unfold parse
    rw [imf_of_850 d w hw d1 d2' h m s u]
  unfold parseHTTPDate
  dsimp only
  rw [h0, if_neg (by decide), hp, if_pos (by omega)]

/-! ### There and back -/

/-- **C81.** A time sent as an HTTP date and read back is the last microsecond of the second it is in. -/
theorem imf_round_trip {t : Int} (ht : FitsUs t) (h0 : 0 ≤ t) (u : Str) : parseHTTPDate (formatIMF t ++ u) = some (t / 1000000 * 1000000 + 999999) := by
  have hf := fits_sec ht
  obtain ⟨d, h, m, s, hmo⟩ := moment_exists hf
  rw [(format_text ht hmo).1, parse_imf hmo hf d.weekday (moment_day hmo).2.2.2.2 u, Int.tdiv_eq_ediv_of_nonneg h0]

theorem rfc850_round_trip {t : Int} (h0 : 0 ≤ t) (h1 : t < 3124224000000000) (u : Str) :
    parseHTTPDate (format850 t ++ u) = some (t / 1000000 * 1000000 + 999999) := by
  have ht : FitsUs t := ⟨by omega, by omega⟩
  have hf := fits_sec ht
  obtain ⟨d, h, m, s, hmo⟩ := moment_exists hf
  rw [(format_text ht hmo).2.1]
  have hy : 1969 ≤ d.year ∧ d.year ≤ 2068 := by
    obtain ⟨a, b, c⟩ := isDay_civil hmo.day
    obtain ⟨p, q⟩ := num_lt a.1 a.2.1 a.2.2.1 a.2.2.2.1
    rw [Int.tdiv_eq_ediv_of_nonneg h0] at c
    have g1 : daysBeforeYear 1969 = 719163 := by decide +kernel
    have g2 : daysBeforeYear 2069 = 755688 := by decide +kernel
    constructor
    · rcases Nat.lt_or_ge d.year 1969 with g | g
      · have := before_mono (y := d.year + 1) (z := 1969) g
        omega
      · exact g
    · rcases Nat.lt_or_ge 2068 d.year with g | g
      · have := before_mono (y := 2069) (z := d.year) g
        omega
      · exact g
  rw [parse_850 hmo hf hy.1 hy.2 d.weekday (moment_day hmo).2.2.2.2 u, Int.tdiv_eq_ediv_of_nonneg h0]

/-- **C81.** `FormatDateTime<UTC>` with its default format, and `UTCDateTimeStringToTimestamp`, also for times
before the epoch. -/
theorem default_round_trip {t : Int} (ht : FitsUs t) (u : Str) : parse (format t fmtDefault ++ u) fmtDefault .lower = Int.tdiv t 1000000 * 1000000 := by
  have hf := fits_sec ht
  obtain ⟨d, h, m, s, hmo⟩ := moment_exists hf
  obtain ⟨y1, y2⟩ := moment_year hmo hf
  obtain ⟨m1, m2, d1, d2', -⟩ := moment_day hmo
  rw [(format_text ht hmo).2.2]
  have e := strptime_default d m1 m2 d1 d2' (by omega) h m s hmo.hour hmo.minute hmo.second u
  exact (parse_of_strptime hmo hf _ _ 0 e).2

/-- **C81.** `If-Unmodified-Since` with the text of `Last-Modified`: a time `m` passes exactly if it is not in a
later second than `t`. So an unchanged object always passes, and a change goes unnoticed if and only if it was
made within the same second. -/
theorem unmodified_iff {t m : Int} (ht : FitsUs t) (h0 : 0 ≤ t) (h1 : 0 ≤ m) :
    ∃ x, parseHTTPDate (formatIMF t) = some x ∧ (m ≤ x ↔ m / 1000000 ≤ t / 1000000) := by
  refine ⟨t / 1000000 * 1000000 + 999999, ?_, ?_⟩
  · have := imf_round_trip ht h0 []
    rwa [List.append_nil] at this
  · omega

/-! ### What is refused -/

theorem nameAt_iff : ∀ (n u r : Str), nameAt n u = some r → n.map lower = (u.take n.length).map lower ∧ n.length ≤ u.length
  | [], u, r, _ => by simp
  | a :: n, [], r, h => by simp [nameAt] at h
  | a :: n, c :: u, r, h => by
    simp only [nameAt] at h
    split at h
    · rename_i e
      obtain ⟨x, y⟩ := nameAt_iff n u r h
      simp [e, x, y]
    · simp at h

/-- **C81.** A text which does not begin with the (abbreviated) name of a weekday is refused. -/
theorem parse_bad (x : Str) (h : ∀ n ∈ abDays, n.map lower ≠ (x.take 3).map lower) (p : Padding) : parseHTTPDate x p = none := by
  have key : ∀ f ∈ fullDays, ∀ n ∈ abDays, f.take 3 = n → n.length = 3 → nameAny f n x = none := by
    intro f hf n hn e e3
    unfold nameAny
    cases hx : nameAt f x with
    | some r =>
      obtain ⟨a, b⟩ := nameAt_iff _ _ _ hx
      exfalso
      have := congrArg (List.take 3) a
      rw [← List.map_take, e, ← List.map_take, List.take_take] at this
      have hl : 3 ≤ f.length := by rw [← e3, ← e]; simp; omega
      rw [Nat.min_eq_left hl] at this
      exact h n hn this
    | none =>
      show nameAt n x = none
      cases hy : nameAt n x with
      | none => rfl
      | some r =>
        obtain ⟨a, b⟩ := nameAt_iff _ _ _ hy
        rw [e3] at a
        exact absurd a (h n hn)
  have hn : findName 0 fullDays abDays x = none := by
    have k := fun i j (hi : fullDays[i]? = some j) n (hn : abDays[i]? = some n) e1 e2 => key j (List.mem_of_getElem? hi) n (List.mem_of_getElem? hn) e1 e2
    have k0 := k 0 _ rfl _ rfl rfl rfl
    have k1 := k 1 _ rfl _ rfl rfl rfl
    have k2 := k 2 _ rfl _ rfl rfl rfl
    have k3 := k 3 _ rfl _ rfl rfl rfl
    have k4 := k 4 _ rfl _ rfl rfl rfl
    have k5 := k 5 _ rfl _ rfl rfl rfl
    have k6 := k 6 _ rfl _ rfl rfl rfl
    unfold fullDays abDays
    simp only [findName, k0, k1, k2, k3, k4, k5, k6]
  have s1 : strptime x fmtIMF = none := by
    unfold strptime
    rw [items_imf]
    simp only [scanItems, scanItem, hn, Option.map_none]
  have s2 : strptime x fmt850 = none := by
    unfold strptime
    rw [items_850]
    simp only [scanItems, scanItem, hn, Option.map_none]
  simp only [parseHTTPDate, parse, s1, s2]
  rfl

/-! ### Concrete dates -/

/-- RFC 7231: `Sun, 06 Nov 1994 08:49:37 GMT`. -/
def rfcDate : Str :=
  ['S', 'u', 'n', ',', ' ', '0', '6', ' ', 'N', 'o', 'v', ' ', '1', '9', '9', '4', ' ', '0', '8', ':', '4', '9', ':', '3', '7', ' ', 'G', 'M', 'T']

/-- `Sunday, 06-Nov-94 08:49:37 GMT`. -/
def rfcDate850 : Str :=
  ['S', 'u', 'n', 'd', 'a', 'y', ',', ' ', '0', '6', '-', 'N', 'o', 'v', '-', '9', '4', ' ', '0', '8', ':', '4', '9', ':', '3', '7', ' ', 'G', 'M', 'T']

/-- `Sun Nov  6 08:49:37 1994`, which RFC 7231 also obliges to accept. -/
def rfcDateAsc : Str :=
  ['S', 'u', 'n', ' ', 'N', 'o', 'v', ' ', ' ', '6', ' ', '0', '8', ':', '4', '9', ':', '3', '7', ' ', '1', '9', '9', '4']

example : FitsUs 784111777123456 ∧ formatIMF 784111777123456 = rfcDate ∧ format850 784111777123456 = rfcDate850 := by
  refine ⟨by unfold FitsUs; omega, by decide +kernel, by decide +kernel⟩

example : parseHTTPDate rfcDate = some 784111777999999 ∧ parseHTTPDate rfcDate850 = some 784111777999999 ∧ parseHTTPDate rfcDateAsc = none := by decide +kernel

example : IsMoment 784111777 ⟨1994, 11, 6, 0⟩ 8 49 37 := by
  have h := civil_isDay 728603
  have e : civil 728603 = ⟨1994, 11, 6, 0⟩ := by decide +kernel
  rw [e] at h
  exact ⟨h, by decide, by decide, by decide, by decide⟩

/-- Finding: with the padding downwards, the first second of the epoch is taken for a failure. -/
example : parseHTTPDate (formatIMF 0) .lower = none ∧ parseHTTPDate (formatIMF 0) = some 999999 := by decide +kernel

/-- Finding: `Fri, 31 Dec 9999 23:59:59 GMT`, a customary "never", overflows (undefined behaviour; wrapped around it is in the year 1816). -/
example : parseHTTPDate (imfText ⟨9999, 12, 31, 5⟩ 23 59 59) = some (-4852116231933723) := by decide +kernel

/-- Finding: the 31st of February is accepted as the 3rd of March. -/
example : parseHTTPDate (imfText ⟨1994, 2, 31, 0⟩ 8 49 37) = parseHTTPDate (imfText ⟨1994, 3, 3, 4⟩ 8 49 37) := by decide +kernel

/-- Finding: before the epoch the text is of the second after: half a second before 1970 is written as 1970. -/
example : formatIMF (-500000) = formatIMF 0 := by decide +kernel

/-- Finding: the obsolete format reads `69` as 1969, also when written for 2069. -/
example : parseHTTPDate (rfc850Text ⟨2069, 1, 1, 2⟩ 0 0 0) = parseHTTPDate (rfc850Text ⟨1969, 1, 1, 3⟩ 0 0 0) := by decide +kernel

end Current.HttpDate
