import Verif.Persist.FileModel
/-!
`bricks/strings/util.h`: `Trim`, `ToLower`, `ToUpper`, `UTF8StringLength`; `bricks/strings/escape.h` (C70).
Characters are bytes (`char`); `isspace`, `tolower`, `toupper` are those of the "C" locale.
-/
namespace Current.Strings
open Current.Persist

/-! ### Model -/

/-- `util.h:287-289`: `output_begin`, as an offset; `k` is the number of steps left to `end`. -/
def trimBegin (s : Str) : Nat → Nat → Nat
  | 0, b => b
  | k + 1, b => if isSpace (s.getD b '\x00') then trimBegin s k (b + 1) else b

/-- `util.h:291-293`: `output_end`; the argument is the number of characters between `output_begin` and `output_end`. -/
def trimEnd (s : Str) (b : Nat) : Nat → Nat
  | 0 => 0
  | k + 1 => if isSpace (s.getD (b + k) '\x00') then trimEnd s b k else k + 1

/-- `Trim(input, length)`, `util.h:283-296`; `Trim(const std::string&)`, `util.h:300`. -/
def trim (s : Str) : Str :=
  let b := trimBegin s s.length 0
  let e := trimEnd s b (s.length - b)
  (s.drop b).take e

/-- `::tolower`. -/
def toLowerChar (c : Char) : Char := if 'A' ≤ c ∧ c ≤ 'Z' then Char.ofNat (c.toNat + 32) else c
/-- `::toupper`. -/
def toUpperChar (c : Char) : Char := if 'a' ≤ c ∧ c ≤ 'z' then Char.ofNat (c.toNat - 32) else c
/-- `ToLower`, `util.h:302-314`. -/
def toLower (s : Str) : Str := s.map toLowerChar
/-- `ToUpper`, `util.h:316-328`. -/
def toUpper (s : Str) : Str := s.map toUpperChar

/-- The loop of `UTF8StringLength`, `util.h:330-338`. -/
def utf8Loop : Str → Nat → Nat
  | [], n => n
  | c :: s, n => if c = '\x00' then n else utf8Loop s (if c.toNat &&& 0xc0 ≠ 0x80 then n + 1 else n)
/-- `UTF8StringLength(s)`. -/
def utf8StringLength (s : Str) : Nat := utf8Loop s 0

/-- `EscapeForCPlusPlus`, `escape.h:34-48`. -/
def escapeForCPlusPlus : Str → Str
  | [] => []
  | c :: s =>
    (if c = '\n' then ['\\', 'n'] else if c = '\t' then ['\\', 't'] else if c = '"' then ['\\', '"'] else [c]) ++ escapeForCPlusPlus s

/-- `EscapeForMarkdown`, `escape.h:51-63`. -/
def escapeForMarkdown : Str → Str
  | [] => []
  | c :: s =>
    (if c = '\n' then ['<', 'b', 'r', '>'] else if c = '|' then ['&', '#', '1', '2', '4', ';'] else [c]) ++ escapeForMarkdown s

/-! ### Specification -/

/-- `t` is `s` without the white space around it. -/
def IsTrimmed (s t : Str) : Prop :=
  ∃ u v, s = u ++ t ++ v ∧ (∀ c ∈ u, isSpace c = true) ∧ (∀ c ∈ v, isSpace c = true) ∧
    (∀ c, t.head? = some c → isSpace c = false) ∧ (∀ c, t.getLast? = some c → isSpace c = false)

/-- RFC 3629, section 3: the bytes of a code point. -/
def utf8Encode (n : Nat) : Str :=
  if n < 0x80 then [Char.ofNat n]
  else if n < 0x800 then [Char.ofNat (0xC0 + n / 64), Char.ofNat (0x80 + n % 64)]
  else if n < 0x10000 then [Char.ofNat (0xE0 + n / 4096), Char.ofNat (0x80 + n / 64 % 64), Char.ofNat (0x80 + n % 64)]
  else [Char.ofNat (0xF0 + n / 262144), Char.ofNat (0x80 + n / 4096 % 64), Char.ofNat (0x80 + n / 64 % 64), Char.ofNat (0x80 + n % 64)]

/-! ### Trim -/

theorem trimBegin_eq (s : Str) : ∀ (k : Nat) (u r : Str), s = u ++ r → r.length = k → (∀ c ∈ u, isSpace c = true) →
    ∃ u' r', s = u' ++ r' ∧ trimBegin s k u.length = u'.length ∧ (∀ c ∈ u', isSpace c = true) ∧
      (∀ c, r'.head? = some c → isSpace c = false)
  | 0, u, r, e, hk, hu => ⟨u, r, e, rfl, hu, by rw [List.length_eq_zero_iff.1 hk]; simp⟩
  | k + 1, u, [], e, hk, hu => by simp at hk
  | k + 1, u, c :: r, e, hk, hu => by
    have hg : s.getD u.length '\x00' = c := by rw [e]; simp [List.getD]
    unfold trimBegin
    rw [hg]
    by_cases h : isSpace c = true
    · rw [if_pos h]
      have := trimBegin_eq s k (u ++ [c]) r (by rw [e]; simp) (by simpa using hk)
        (by intro d hd; simp at hd; rcases hd with hd | rfl; exact hu d hd; exact h)
      simpa using this
    · rw [if_neg h]
      exact ⟨u, c :: r, e, rfl, hu, by simpa using h⟩

theorem trimEnd_eq (s : Str) (u : Str) : ∀ (k : Nat) (t v : Str), s = u ++ (t ++ v) → t.length = k → (∀ c ∈ v, isSpace c = true) →
    ∃ t' v', s = u ++ (t' ++ v') ∧ t' <+: t ∧ trimEnd s u.length k = t'.length ∧ (∀ c ∈ v', isSpace c = true) ∧
      (∀ c, t'.getLast? = some c → isSpace c = false)
  | 0, t, v, e, hk, hv => ⟨t, v, e, List.prefix_refl _, by rw [hk]; rfl, hv, by rw [List.length_eq_zero_iff.1 hk]; simp⟩
  | k + 1, t, v, e, hk, hv => by
    have hne : t ≠ [] := by intro h; rw [h] at hk; simp at hk
    obtain ⟨i, c, rfl⟩ : ∃ i c, t = i ++ [c] := ⟨t.dropLast, t.getLast hne, (List.dropLast_concat_getLast hne).symm⟩
    have hi : i.length = k := by simpa using hk
    have hg : s.getD (u.length + k) '\x00' = c := by
      rw [e, ← hi]; simp [List.getD, List.getElem?_append_right]
    unfold trimEnd
    rw [hg]
    by_cases h : isSpace c = true
    · rw [if_pos h]
      obtain ⟨t', v', h1, h2, h3, h4, h5⟩ := trimEnd_eq s u k i (c :: v) (by rw [e]; simp) hi
        (by intro d hd; simp at hd; rcases hd with rfl | hd; exact h; exact hv d hd)
      exact ⟨t', v', h1, h2.trans (List.prefix_append _ _), h3, h4, h5⟩
    · rw [if_neg h]
      refine ⟨i ++ [c], v, e, List.prefix_refl _, by simp [hi], hv, ?_⟩
      intro d hd; simp at hd; rw [← hd]; simpa using h

/-- **C70.** `Trim` removes the white space around the text, and nothing else. -/
theorem trim_spec (s : Str) : IsTrimmed s (trim s) := by
  obtain ⟨u, r, e, h1, h2, h3⟩ := trimBegin_eq s s.length [] s rfl rfl (by simp)
  obtain ⟨t, v, e', p, g1, g2, g3⟩ := trimEnd_eq s u r.length r [] (by simpa using e) rfl (by simp)
  have hl : s.length - u.length = r.length := by rw [e]; simp
  have hr : r = t ++ v := by
    have := e.symm.trans e'
    simpa using this
  have ht : trim s = t := by
    simp only [trim]
    rw [show trimBegin s s.length 0 = u.length from h1, hl, g1, e', List.drop_left, List.take_left]
  rw [ht]
  refine ⟨u, v, by rw [e']; simp, h2, g2, ?_, g3⟩
  intro c hc
  refine h3 c ?_
  rw [hr]
  cases t with
  | nil => simp at hc
  | cons a t => simpa using hc

theorem trimmed_unique_aux : ∀ {u u' t t' : Str}, u ++ t = u' ++ t' → (∀ c ∈ u, isSpace c = true) → (∀ c ∈ u', isSpace c = true) →
    (∀ c, t.head? = some c → isSpace c = false) → (∀ c, t'.head? = some c → isSpace c = false) → t = t'
  | [], [], t, t', e, _, _, _, _ => e
  | [], c :: u', t, t', e, _, hu', ht, _ => by
    simp at e; rw [e] at ht
    have := ht c rfl
    rw [hu' c (by simp)] at this; cases this
  | c :: u, [], t, t', e, hu, _, _, ht' => by
    simp at e; rw [← e] at ht'
    have := ht' c rfl
    rw [hu c (by simp)] at this; cases this
  | c :: u, d :: u', t, t', e, hu, hu', ht, ht' => by
    simp at e
    exact trimmed_unique_aux e.2 (fun c hc => hu c (by simp [hc])) (fun c hc => hu' c (by simp [hc])) ht ht'

/-- **C70.** The result is determined: there is only one text that is `s` without the white space around it. -/
theorem trimmed_unique {s t t' : Str} (h : IsTrimmed s t) (h' : IsTrimmed s t') : t = t' := by
  have nilcase : ∀ {u v u' t' v' : Str}, u ++ v = u' ++ (t' ++ v') → (∀ c ∈ u, isSpace c = true) → (∀ c ∈ v, isSpace c = true) →
      (∀ c, t'.head? = some c → isSpace c = false) → t' = [] := by
    intro u v u' t' v' e hu hv ht
    cases t' with
    | nil => rfl
    | cons c r =>
      have hc : c ∈ u ++ v := by rw [e]; simp
      have := ht c rfl
      simp at hc
      rcases hc with hc | hc
      · rw [hu c hc] at this; cases this
      · rw [hv c hc] at this; cases this
  obtain ⟨u, v, e, hu, hv, h1, h2⟩ := h
  obtain ⟨u', v', e', hu', hv', h1', h2'⟩ := h'
  by_cases ht : t = []
  · subst ht
    exact (nilcase (by rw [← List.append_assoc, ← e']; simpa using e.symm) hu hv h1').symm
  by_cases ht' : t' = []
  · subst ht'
    exact nilcase (by rw [← List.append_assoc, ← e]; simpa using e'.symm) hu' hv' h1
  have hh : ∀ c, (t ++ v).head? = some c → isSpace c = false := by
    cases t with
    | nil => exact absurd rfl ht
    | cons a t => intro c hc; exact h1 c (by simpa using hc)
  have hh' : ∀ c, (t' ++ v').head? = some c → isSpace c = false := by
    cases t' with
    | nil => exact absurd rfl ht'
    | cons a t => intro c hc; exact h1' c (by simpa using hc)
  have e1 := trimmed_unique_aux (by rw [← List.append_assoc, ← List.append_assoc, ← e, ← e']) hu hu' hh hh'
  have e2 : v.reverse ++ t.reverse = v'.reverse ++ t'.reverse := by
    rw [← List.reverse_append, ← List.reverse_append, e1]
  have := trimmed_unique_aux e2 (by simpa using hv) (by simpa using hv') (by simpa using h2) (by simpa using h2')
  simpa using this

/-! ### ToLower, ToUpper -/

theorem char_range {c : Char} {a b : Char} : (a ≤ c ∧ c ≤ b) ↔ a.toNat ≤ c.toNat ∧ c.toNat ≤ b.toNat := by
  constructor <;> intro h <;> exact ⟨h.1, h.2⟩

theorem toNat_ofNat {n : Nat} (h : n < 0xd800) : (Char.ofNat n).toNat = n := by
  have hv : n.isValidChar := .inl h
  simp [Char.ofNat, hv, Char.ofNatAux, Char.toNat]

/-- **C70.** Exactly the letters `A`…`Z` are changed, to the letter 32 places later; the length stays. -/
theorem toLower_spec (s : Str) : (toLower s).length = s.length ∧ ∀ i, ∀ h : i < s.length, ∀ h' : i < (toLower s).length,
    ((65 ≤ s[i].toNat ∧ s[i].toNat ≤ 90 → (toLower s)[i].toNat = s[i].toNat + 32) ∧
     (¬ (65 ≤ s[i].toNat ∧ s[i].toNat ≤ 90) → (toLower s)[i] = s[i])) := by
  refine ⟨by simp [toLower], fun i h h' => ?_⟩
  simp only [toLower, List.getElem_map, toLowerChar, char_range]
  have e1 : 'A'.toNat = 65 := rfl
  have e2 : 'Z'.toNat = 90 := rfl
  rw [e1, e2]
  constructor
  · intro hr; rw [if_pos hr, toNat_ofNat (by omega)]
  · intro hr; rw [if_neg hr]

theorem toUpper_spec (s : Str) : (toUpper s).length = s.length ∧ ∀ i, ∀ h : i < s.length, ∀ h' : i < (toUpper s).length,
    ((97 ≤ s[i].toNat ∧ s[i].toNat ≤ 122 → (toUpper s)[i].toNat + 32 = s[i].toNat) ∧
     (¬ (97 ≤ s[i].toNat ∧ s[i].toNat ≤ 122) → (toUpper s)[i] = s[i])) := by
  refine ⟨by simp [toUpper], fun i h h' => ?_⟩
  simp only [toUpper, List.getElem_map, toUpperChar, char_range]
  have e1 : 'a'.toNat = 97 := rfl
  have e2 : 'z'.toNat = 122 := rfl
  rw [e1, e2]
  constructor
  · intro hr; rw [if_pos hr, toNat_ofNat (by omega)]; omega
  · intro hr; rw [if_neg hr]

theorem char_eq_of_toNat {c d : Char} (h : c.toNat = d.toNat) : c = d := Char.ext (UInt32.toNat_inj.1 h)

/-- **C70.** Changing the case first does not matter for the result: `ToLower(ToUpper(s)) == ToLower(s)`, and the other way round. -/
theorem toLower_toUpper (s : Str) : toLower (toUpper s) = toLower s ∧ toUpper (toLower s) = toUpper s := by
  have e1 : 'A'.toNat = 65 := rfl
  have e2 : 'Z'.toNat = 90 := rfl
  have e3 : 'a'.toNat = 97 := rfl
  have e4 : 'z'.toNat = 122 := rfl
  have key : ∀ c : Char, toLowerChar (toUpperChar c) = toLowerChar c ∧ toUpperChar (toLowerChar c) = toUpperChar c := by
    intro c
    simp only [toLowerChar, toUpperChar, char_range, e1, e2, e3, e4]
    by_cases h : 97 ≤ c.toNat ∧ c.toNat ≤ 122
    · have hn : ¬ (65 ≤ c.toNat ∧ c.toNat ≤ 90) := by omega
      rw [if_pos h, if_neg hn, if_pos h, toNat_ofNat (by omega), if_pos (by omega)]
      exact ⟨char_eq_of_toNat (by rw [toNat_ofNat (by omega)]; omega), rfl⟩
    · rw [if_neg h]
      by_cases hn : 65 ≤ c.toNat ∧ c.toNat ≤ 90
      · rw [if_pos hn, toNat_ofNat (by omega), if_pos (by omega)]
        exact ⟨rfl, char_eq_of_toNat (by rw [toNat_ofNat (by omega)]; omega)⟩
      · rw [if_neg hn, if_neg h]; exact ⟨rfl, rfl⟩
  simp only [toLower, toUpper, List.map_map]
  exact ⟨List.map_congr_left fun c _ => (key c).1, List.map_congr_left fun c _ => (key c).2⟩

/-! ### UTF-8 -/

theorem utf8_cont {n : Nat} (h : n < 64) (s : Str) (k : Nat) : utf8Loop (Char.ofNat (0x80 + n) :: s) k = utf8Loop s k := by
  have e : (Char.ofNat (0x80 + n)).toNat = 0x80 + n := toNat_ofNat (by omega)
  have hz : Char.ofNat (0x80 + n) ≠ '\x00' := by
    intro hc; have := congrArg Char.toNat hc; rw [e] at this; simp at this
  have hm : ∀ n < 64, (0x80 + n) &&& 0xc0 = 0x80 := by decide +kernel
  simp only [utf8Loop, if_neg hz, e, hm n h]
  simp

theorem utf8_lead {n : Nat} (h : n < 128 ∨ 0xC0 ≤ n) (hz : 0 < n) (hu : n < 256) (s : Str) (k : Nat) :
    utf8Loop (Char.ofNat n :: s) k = utf8Loop s (k + 1) := by
  have e : (Char.ofNat n).toNat = n := toNat_ofNat (by omega)
  have hz : Char.ofNat n ≠ '\x00' := by
    intro hc; have := congrArg Char.toNat hc; rw [e] at this; simp at this; omega
  have hm : ∀ n < 256, (n < 128 ∨ 0xC0 ≤ n) → n &&& 0xc0 ≠ 0x80 := by decide +kernel
  simp only [utf8Loop, if_neg hz, e]
  rw [if_pos (hm n hu h)]

theorem utf8Loop_encode {n : Nat} (hz : 0 < n) (hn : n < 0x110000) (s : Str) (k : Nat) :
    utf8Loop (utf8Encode n ++ s) k = utf8Loop s (k + 1) := by
  unfold utf8Encode
  split
  · rw [List.singleton_append, utf8_lead (.inl (by omega)) hz (by omega)]
  · split
    · simp only [List.cons_append, List.nil_append]
      rw [utf8_lead (.inr (by omega)) (by omega) (by omega), utf8_cont (by omega)]
    · split
      · simp only [List.cons_append, List.nil_append]
        rw [utf8_lead (.inr (by omega)) (by omega) (by omega), utf8_cont (by omega), utf8_cont (by omega)]
      · simp only [List.cons_append, List.nil_append]
        rw [utf8_lead (.inr (by omega)) (by omega) (by omega), utf8_cont (by omega), utf8_cont (by omega), utf8_cont (by omega)]

/-- **C70.** `UTF8StringLength` of UTF-8 text is the number of its code points (up to the first zero, as the string is passed as a C string). -/
theorem utf8_length (cps : List Nat) (h : ∀ n ∈ cps, 0 < n ∧ n < 0x110000) :
    utf8StringLength (cps.flatMap utf8Encode) = cps.length := by
  have key : ∀ (cps : List Nat) (k : Nat), (∀ n ∈ cps, 0 < n ∧ n < 0x110000) → utf8Loop (cps.flatMap utf8Encode) k = k + cps.length := by
    intro cps
    induction cps with
    | nil => intro k _; rfl
    | cons n cps ih =>
      intro k h
      have hn := h n (by simp)
      rw [List.flatMap_cons, utf8Loop_encode hn.1 hn.2, ih _ (fun m hm => h m (by simp [hm]))]
      simp; omega
  rw [utf8StringLength, key cps 0 h]; omega

/-! ### Escaping -/

/-- **C70.** The text escaped for C++ has no line break and no tab, and every quote in it comes after a backslash. -/
theorem escapeForCPlusPlus_spec (s : Str) : '\n' ∉ escapeForCPlusPlus s ∧ '\t' ∉ escapeForCPlusPlus s ∧
    ∀ u v, escapeForCPlusPlus s = u ++ '"' :: v → u.getLast? = some '\\' := by
  induction s with
  | nil => refine ⟨by simp [escapeForCPlusPlus], by simp [escapeForCPlusPlus], fun u v h => by simp [escapeForCPlusPlus] at h⟩
  | cons c s ih =>
    obtain ⟨h1, h2, h3⟩ := ih
    have two : ∀ {a b : Char} {r u v : Str}, a ≠ '"' → (b = '"' → a = '\\') → (∀ u v, r = u ++ '"' :: v → u.getLast? = some '\\') →
        a :: b :: r = u ++ '"' :: v → u.getLast? = some '\\' := by
      intro a b r u v ha hb hr e
      cases u with
      | nil => simp at e; exact absurd e.1 ha
      | cons x u =>
        simp at e
        obtain ⟨rfl, e⟩ := e
        cases u with
        | nil => simp at e; simp [hb e.1]
        | cons y u =>
          simp at e
          have := hr u v e.2
          cases u with
          | nil => simp at this
          | cons z u => simpa using this
    unfold escapeForCPlusPlus
    split
    · refine ⟨by simp [h1], by simp [h2], fun u v e => two (by decide) (by decide) h3 e⟩
    · rename_i hn
      split
      · refine ⟨by simp [h1], by simp [h2], fun u v e => two (by decide) (by decide) h3 e⟩
      · rename_i ht
        split
        · refine ⟨by simp [h1], by simp [h2], fun u v e => two (by decide) (by simp) h3 e⟩
        · rename_i hq
          refine ⟨?_, ?_, fun u v e => ?_⟩
          · simp [h1]; exact fun h => hn h.symm
          · simp [h2]; exact fun h => ht h.symm
          · cases u with
            | nil => simp at e; exact absurd e.1 hq
            | cons x u =>
              simp at e
              have := h3 u v e.2
              cases u with
              | nil => simp at this
              | cons z u => simpa using this

/-- Backslashes are not escaped, so two texts can have the same escaped form, and an escaped text may end inside an escape. -/
theorem escapeForCPlusPlus_not_injective : escapeForCPlusPlus ['\\', 'n'] = escapeForCPlusPlus ['\n'] ∧
    escapeForCPlusPlus ['\\'] = ['\\'] := by decide

/-- **C70.** The text escaped for Markdown is a single line and does not break a table. -/
theorem escapeForMarkdown_spec (s : Str) : '\n' ∉ escapeForMarkdown s ∧ '|' ∉ escapeForMarkdown s := by
  induction s with
  | nil => simp [escapeForMarkdown]
  | cons c s ih =>
    unfold escapeForMarkdown
    split
    · simp [ih]
    · split
      · simp [ih]
      · rename_i h1 h2
        simp [ih]; exact ⟨fun h => h1 h.symm, fun h => h2 h.symm⟩

/-! ### Examples -/

example : trim [' ', '\t', 'a', ' ', 'b', '\n'] = ['a', ' ', 'b'] := by decide
example : trim [' ', ' '] = [] := by decide
/-- "ā€" and an emoji: three code points, nine bytes. -/
example : utf8StringLength ([0x101, 0x20AC, 0x1F600].flatMap utf8Encode) = 3 := utf8_length _ (by decide)
example : ([0x101, 0x20AC, 0x1F600].flatMap utf8Encode).length = 9 := by decide

end Current.Strings
