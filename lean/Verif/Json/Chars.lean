import Verif.Json.Number
/-!
`ParseStringToStream` recognizes exactly the strings of the grammar.
-/
namespace Current.Json
open Current.Persist (Str)

/-- A byte with some high bits set. -/
theorem or_high {x a : Nat} (n : Nat) (h : x < 2 ^ n) : a * 2 ^ n ||| x = x + a * 2 ^ n := by
  rw [Nat.mul_comm, ← Nat.two_pow_add_eq_or_of_lt h, Nat.add_comm]

theorem encodeUtf8_eq (c : Char) : encodeUtf8 c.toNat = utf8 c := by
  have hv : c.toNat < 0x110000 := by
    have := c.valid
    rcases this with h | h
    · have : c.toNat < 0xd800 := h
      omega
    · exact h.2
  have e : c.val.toNat = c.toNat := rfl
  unfold encodeUtf8 utf8 String.utf8EncodeChar
  simp only [e]
  generalize c.toNat = v at *
  have m6 : ∀ x, x &&& 0x3F = x % 64 := fun x => Nat.and_two_pow_sub_one_eq_mod x 6
  have m8 : ∀ x, x &&& 0xFF = x % 256 := fun x => Nat.and_two_pow_sub_one_eq_mod x 8
  have s6 : v >>> 6 = v / 64 := Nat.shiftRight_eq_div_pow v 6
  have s12 : v >>> 12 = v / 4096 := Nat.shiftRight_eq_div_pow v 12
  have s18 : v >>> 18 = v / 262144 := Nat.shiftRight_eq_div_pow v 18
  have o80 : ∀ x, x < 64 → 0x80 ||| x = x + 0x80 := fun x h => or_high (a := 2) 6 h
  have oC0 : ∀ x, x < 32 → 0xC0 ||| x = x + 0xC0 := fun x h => or_high (a := 6) 5 h
  have oE0 : ∀ x, x < 16 → 0xE0 ||| x = x + 0xE0 := fun x h => or_high (a := 14) 4 h
  have oF0 : ∀ x, x < 8 → 0xF0 ||| x = x + 0xF0 := fun x h => or_high (a := 30) 3 h
  simp only [m6, m8, s6, s12, s18]
  by_cases h1 : v ≤ 0x7F
  · simp [h1]
  · by_cases h2 : v ≤ 0x7FF
    · simp only [h1, h2, if_true, if_false, List.map_cons, List.map_nil]
      rw [o80 _ (by omega), oC0 _ (by omega)]
      simp only [UInt8.toNat_ofNat', List.cons.injEq, and_true]
      constructor <;> congr 1 <;> simp <;> omega
    · by_cases h3 : v ≤ 0xFFFF
      · simp only [h1, h2, h3, if_true, if_false, List.map_cons, List.map_nil]
        rw [o80 _ (by omega), o80 _ (by omega), oE0 _ (by omega)]
        simp only [UInt8.toNat_ofNat', List.cons.injEq, and_true]
        refine ⟨?_, ?_, ?_⟩ <;> congr 1 <;> simp <;> omega
      · simp only [h1, h2, h3, if_false, List.map_cons, List.map_nil]
        rw [o80 _ (by omega), o80 _ (by omega), o80 _ (by omega), oF0 _ (by omega)]
        simp only [UInt8.toNat_ofNat', List.cons.injEq, and_true]
        refine ⟨?_, ?_, ?_, ?_⟩ <;> congr 1 <;> simp <;> omega

theorem toNat_ofNat {n : Nat} (h : n.isValidChar) : (Char.ofNat n).toNat = n := by
  simp only [Char.ofNat, dif_pos h]
  rfl

/-! ### Hexadecimal digits -/

theorem hexVal_of_isHex {c : Char} {v : Nat} (h : IsHex c v) : hexVal c = some v := by
  obtain ⟨hv, hc⟩ := h
  have key : ∀ v : Fin 16, hexVal (Nat.digitChar v) = some v.1 ∧ hexVal (Nat.digitChar v).toUpper = some v.1 := by decide
  rcases hc with rfl | rfl
  · exact (key ⟨v, hv⟩).1
  · exact (key ⟨v, hv⟩).2

theorem isHex_of_hexVal {c : Char} {v : Nat} (h : hexVal c = some v) : IsHex c v := by
  have key : ∀ n : Fin 103, ∀ v : Fin 128, hexVal (Char.ofNat n) = some v.1 →
      v.1 < 16 ∧ (Char.ofNat n = Nat.digitChar v ∨ Char.ofNat n = (Nat.digitChar v).toUpper) := by decide +kernel
  have hb : c.toNat < 103 ∧ v < 128 := by
    unfold hexVal at h
    simp only [le_char] at h
    have e0 : '9'.toNat = 57 := rfl
    have e1 : 'F'.toNat = 70 := rfl
    have e2 : 'f'.toNat = 102 := rfl
    rw [e0, e1, e2] at h
    split at h
    · simp only [Option.some.injEq] at h; omega
    · split at h
      · simp only [Option.some.injEq] at h; omega
      · split at h
        · simp only [Option.some.injEq] at h; omega
        · cases h
  have hc : Char.ofNat c.toNat = c := Char.ofNat_toNat c
  have := key ⟨c.toNat, hb.1⟩ ⟨v, hb.2⟩ (by show hexVal (Char.ofNat c.toNat) = _; rw [hc]; exact h)
  simp only [hc] at this
  exact this

theorem parseHex4_complete {h r : Str} {n : Nat} (hh : IsHex4 h n) : parseHex4 (h ++ r) = some (n, r) := by
  obtain ⟨a, b, c, d, x, y, z, w, rfl, h1, h2, h3, h4, rfl⟩ := hh
  simp only [List.cons_append, List.nil_append, parseHex4, hexVal_of_isHex h1, hexVal_of_isHex h2, hexVal_of_isHex h3,
    hexVal_of_isHex h4, Option.some.injEq, Prod.mk.injEq, and_true]
  omega

theorem parseHex4_sound {s r : Str} {n : Nat} (h : parseHex4 s = some (n, r)) : ∃ p, s = p ++ r ∧ IsHex4 p n ∧ n < 0x10000 := by
  unfold parseHex4 at h
  split at h
  · rename_i a b c d s
    split at h
    · rename_i x y z w h1 h2 h3 h4
      simp only [Option.some.injEq, Prod.mk.injEq] at h
      obtain ⟨rfl, rfl⟩ := h
      have i1 := isHex_of_hexVal h1
      have i2 := isHex_of_hexVal h2
      have i3 := isHex_of_hexVal h3
      have i4 := isHex_of_hexVal h4
      have b1 := i1.1
      have b2 := i2.1
      have b3 := i3.1
      have b4 := i4.1
      exact ⟨[a, b, c, d], rfl, ⟨a, b, c, d, x, y, z, w, rfl, i1, i2, i3, i4, by omega⟩, by omega⟩
    · cases h
  · cases h

theorem isHex4_lt {h : Str} {n : Nat} (hh : IsHex4 h n) : n < 0x10000 := by
  obtain ⟨a, b, c, d, x, y, z, w, rfl, ⟨h1, -⟩, ⟨h2, -⟩, ⟨h3, -⟩, ⟨h4, -⟩, rfl⟩ := hh
  omega

/-- A code point and its escape. -/
def IsUnicode (s : Str) (c : Char) : Prop :=
  IsHex4 s c.toNat ∨ ∃ h l x y, s = h ++ '\\' :: 'u' :: l ∧ x < 0x400 ∧ y < 0x400 ∧ IsHex4 h (0xD800 + x) ∧
    IsHex4 l (0xDC00 + y) ∧ c.toNat = 0x10000 + x * 0x400 + y

theorem isChars_unicode {u s v : Str} {c : Char} (h : IsUnicode u c) (hs : IsChars s v) :
    IsChars ('\\' :: 'u' :: (u ++ s)) (utf8 c ++ v) := by
  rcases h with h | ⟨h, l, x, y, rfl, h1, h2, h3, h4, h5⟩
  · exact .unicode u c s v h hs
  · have := IsChars.surrogates h l x y c s v h1 h2 h3 h4 h5 hs
    simpa using this

theorem not_surrogate (c : Char) : ¬ (0xD800 ≤ c.toNat ∧ c.toNat ≤ 0xDFFF) := by
  have := c.valid
  rcases this with h | h
  · have : c.toNat < 0xd800 := h
    omega
  · have : 0xDFFF < c.toNat := h.1
    omega

theorem pair_eq {x y : Nat} (hy : y < 0x400) : ((0xD800 + x - 0xD800) <<< 10 ||| (0xDC00 + y - 0xDC00)) + 0x10000 = 0x10000 + x * 0x400 + y := by
  rw [Nat.add_sub_cancel_left, Nat.add_sub_cancel_left, Nat.shiftLeft_eq, or_high 10 hy, Nat.add_comm y, Nat.add_comm _ 0x10000, Nat.add_assoc]

theorem parseUnicode_complete {u r : Str} {c : Char} (h : IsUnicode u c) : parseUnicode (u ++ r) = some (c.toNat, r) := by
  rcases h with h | ⟨h, l, x, y, rfl, h1, h2, h3, h4, h5⟩
  · simp only [parseUnicode, parseHex4_complete h, if_neg (not_surrogate c)]
  · have e : (h ++ '\\' :: 'u' :: l) ++ r = h ++ ('\\' :: 'u' :: (l ++ r)) := by simp
    rw [e]
    simp only [parseUnicode, parseHex4_complete h3, parseHex4_complete h4]
    rw [if_pos (by omega), if_pos (by omega), if_neg (by omega), pair_eq h2, h5]

theorem parseUnicode_sound {s r : Str} {n : Nat} (h : parseUnicode s = some (n, r)) :
    ∃ u c, s = u ++ r ∧ IsUnicode u c ∧ c.toNat = n := by
  unfold parseUnicode at h
  cases h1 : parseHex4 s with
  | none => rw [h1] at h; cases h
  | some p =>
    obtain ⟨cp, r1⟩ := p
    rw [h1] at h
    simp only at h
    obtain ⟨u, rfl, hu, hlt⟩ := parseHex4_sound h1
    by_cases hs : 0xD800 ≤ cp ∧ cp ≤ 0xDFFF
    · rw [if_pos hs] at h
      by_cases hh : cp ≤ 0xDBFF
      · rw [if_pos hh] at h
        split at h
        · rename_i r2
          cases h2 : parseHex4 r2 with
          | none => rw [h2] at h; cases h
          | some q =>
            obtain ⟨cp2, r3⟩ := q
            rw [h2] at h
            simp only at h
            obtain ⟨l, rfl, hl, hlt2⟩ := parseHex4_sound h2
            by_cases hb : cp2 < 0xDC00 ∨ cp2 > 0xDFFF
            · rw [if_pos hb] at h; cases h
            · rw [if_neg hb] at h
              simp only [Option.some.injEq, Prod.mk.injEq] at h
              obtain ⟨rfl, rfl⟩ := h
              obtain ⟨x, rfl⟩ : ∃ x, cp = 0xD800 + x := ⟨cp - 0xD800, by omega⟩
              obtain ⟨y, rfl⟩ : ∃ y, cp2 = 0xDC00 + y := ⟨cp2 - 0xDC00, by omega⟩
              have hy : y < 0x400 := by omega
              have hv : Nat.isValidChar (0x10000 + x * 0x400 + y) := .inr ⟨by omega, by omega⟩
              have hc : (Char.ofNat (0x10000 + x * 0x400 + y)).toNat = 0x10000 + x * 0x400 + y := by
                exact toNat_ofNat hv
              refine ⟨u ++ '\\' :: 'u' :: l, Char.ofNat (0x10000 + x * 0x400 + y), by simp, .inr ⟨u, l, x, y, rfl, by omega, hy, hu, hl, hc⟩, ?_⟩
              rw [hc, pair_eq hy]
        · cases h
      · rw [if_neg hh] at h; cases h
    · rw [if_neg hs] at h
      simp only [Option.some.injEq, Prod.mk.injEq] at h
      obtain ⟨rfl, rfl⟩ := h
      have hv : Nat.isValidChar cp := by
        by_cases h0 : cp < 0xD800
        · exact .inl h0
        · exact .inr ⟨by omega, by omega⟩
      have hc : (Char.ofNat cp).toNat = cp := by exact toNat_ofNat hv
      exact ⟨u, Char.ofNat cp, rfl, .inl (by rw [hc]; exact hu), hc⟩

/-! ### Strings -/

theorem unescape_iff (x y : Char) : unescape x = some y ↔ (x, y) ∈ shortEscapes := by
  constructor
  · intro h
    unfold unescape at h
    repeat' split at h
    all_goals first | (cases h; done) | (simp only [Option.some.injEq] at h; subst_vars; decide)
  · intro h
    simp only [shortEscapes, List.mem_cons, Prod.mk.injEq, List.not_mem_nil, or_false] at h
    rcases h with ⟨rfl, rfl⟩ | ⟨rfl, rfl⟩ | ⟨rfl, rfl⟩ | ⟨rfl, rfl⟩ | ⟨rfl, rfl⟩ | ⟨rfl, rfl⟩ | ⟨rfl, rfl⟩ | ⟨rfl, rfl⟩ <;> decide

theorem unescape_u : unescape 'u' = none := by decide

theorem loop_unicode {u r : Str} {c : Char} (h : IsUnicode u c) (n : Nat) :
    stringLoop (n + 1) ('\\' :: 'u' :: (u ++ r)) = (stringLoop n r).map fun p => (utf8 c ++ p.1, p.2) := by
  simp only [stringLoop, if_true, unescape_u, parseUnicode_complete h, encodeUtf8_eq]

theorem stringLoop_complete {s v : Str} (h : IsChars s v) (r : Str) : ∀ n, s.length < n → stringLoop n (s ++ '"' :: r) = some (v, r) := by
  induction h with
  | nil =>
    intro n hn
    cases n with
    | zero => cases hn
    | succ n => simp [stringLoop]
  | plain c s v h1 h2 h3 _ ih =>
    intro n hn
    cases n with
    | zero => cases hn
    | succ n =>
      have := ih n (by simpa using hn)
      simp only [List.cons_append, stringLoop, h3, h2, if_false, if_neg (show ¬ c.toNat < 0x20 by omega), this, Option.map_some]
  | short x y s v h1 _ ih =>
    intro n hn
    cases n with
    | zero => cases hn
    | succ n =>
      have := ih n (by simp at hn; omega)
      simp only [List.cons_append, stringLoop, if_true, (unescape_iff x y).2 h1, this, Option.map_some]
  | unicode h c s v h1 _ ih =>
    intro n hn
    cases n with
    | zero => cases hn
    | succ n =>
      have := ih n (by simp at hn; omega)
      have e : '\\' :: 'u' :: (h ++ s) ++ '"' :: r = '\\' :: 'u' :: (h ++ (s ++ '"' :: r)) := by simp
      rw [e, loop_unicode (.inl h1), this]
      rfl
  | surrogates h l x y c s v h1 h2 h3 h4 h5 _ ih =>
    intro n hn
    cases n with
    | zero => cases hn
    | succ n =>
      have := ih n (by simp at hn; omega)
      have e : '\\' :: 'u' :: (h ++ '\\' :: 'u' :: (l ++ s)) ++ '"' :: r =
          '\\' :: 'u' :: ((h ++ '\\' :: 'u' :: l) ++ (s ++ '"' :: r)) := by simp
      rw [e, loop_unicode (.inr ⟨h, l, x, y, rfl, h1, h2, h3, h4, h5⟩), this]
      rfl

theorem stringLoop_sound (n : Nat) : ∀ {s v r : Str}, stringLoop n s = some (v, r) → ∃ p, s = p ++ '"' :: r ∧ IsChars p v := by
  induction n with
  | zero => intro s v r h; cases h
  | succ n ih =>
    intro s v r h
    cases s with
    | nil => cases h
    | cons c s =>
      simp only [stringLoop] at h
      by_cases h1 : c = '\\'
      · subst h1
        simp only [if_true] at h
        cases s with
        | nil => cases h
        | cons x t =>
          simp only at h
          cases hu : unescape x with
          | some y =>
            rw [hu] at h
            simp only [Option.map_eq_some_iff] at h
            obtain ⟨⟨v', r'⟩, h2, h3⟩ := h
            cases h3
            obtain ⟨p, rfl, hp⟩ := ih h2
            exact ⟨'\\' :: x :: p, rfl, .short x y p v' ((unescape_iff x y).1 hu) hp⟩
          | none =>
            rw [hu] at h
            simp only at h
            by_cases hx : x = 'u'
            · subst hx
              simp only [if_true] at h
              cases hpu : parseUnicode t with
              | none => rw [hpu] at h; cases h
              | some q =>
                obtain ⟨cp, t'⟩ := q
                rw [hpu] at h
                simp only [Option.map_eq_some_iff] at h
                obtain ⟨⟨v', r'⟩, h2, h3⟩ := h
                cases h3
                obtain ⟨u, ch, rfl, hu', rfl⟩ := parseUnicode_sound hpu
                obtain ⟨p, rfl, hp⟩ := ih h2
                refine ⟨'\\' :: 'u' :: (u ++ p), by simp, ?_⟩
                rw [encodeUtf8_eq]
                exact isChars_unicode hu' hp
            · rw [if_neg hx] at h; cases h
      · rw [if_neg h1] at h
        by_cases h2 : c = '"'
        · subst h2
          simp only [if_true, Option.some.injEq, Prod.mk.injEq] at h
          obtain ⟨rfl, rfl⟩ := h
          exact ⟨[], rfl, .nil⟩
        · rw [if_neg h2] at h
          by_cases h3 : c.toNat < 0x20
          · rw [if_pos h3] at h; cases h
          · rw [if_neg h3] at h
            simp only [Option.map_eq_some_iff] at h
            obtain ⟨⟨v', r'⟩, h4, h5⟩ := h
            cases h5
            obtain ⟨p, rfl, hp⟩ := ih h4
            exact ⟨c :: p, rfl, .plain c p v' (by omega) h2 h1 hp⟩

theorem parseString_complete {s v : Str} (h : IsChars s v) (r : Str) : parseString (s ++ '"' :: r) = some (v, r) :=
  stringLoop_complete h r _ (by simp; omega)

theorem parseString_sound {s v r : Str} (h : parseString s = some (v, r)) : ∃ p, s = p ++ '"' :: r ∧ IsChars p v :=
  stringLoop_sound _ h

end Current.Json
