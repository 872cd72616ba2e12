import Verif.Url.Model
/-!
Percent encoding (C40).
-/
namespace Current.Url
open Current.Persist

/-! ### Lemmas -/

theorem decodeURI_nil : decodeURI [] = [] := by rw [decodeURI]

theorem decodeURI_other (c : Char) (rest : Str) (h1 : c ≠ '+') (h2 : c ≠ '%') : decodeURI (c :: rest) = c :: decodeURI rest := by
  rw [decodeURI]
  · exact h1
  · intro a b r e; exact absurd e h2

theorem decodeURI_hex (a b : Char) (rest : Str) (ha : isHexDigit a = true) (hb : isHexDigit b = true) :
    decodeURI ('%' :: a :: b :: rest) = Char.ofNat (hexVal a * 16 + hexVal b) :: decodeURI rest := by
  rw [decodeURI]; simp [ha, hb]

theorem hex_table : ∀ n, n < 16 → isHexDigit (hexDigit n) = true ∧ hexVal (hexDigit n) = n ∧ (hexDigit n) ≠ '+' ∧ (hexDigit n) ≠ '%' := by
  decide +kernel

theorem printHex_small (n : Nat) (h : n < 256) : printHex n = [hexDigit (n / 16), hexDigit (n % 16)] := by
  rw [printHex, if_pos h]

theorem printHex_big (n : Nat) (h : ¬ n < 256) : printHex n = printHex (n / 16) ++ [hexDigit (n % 16)] := by
  rw [printHex, if_neg h]

theorem hexDigit_15 : hexDigit 15 = 'F' := by decide

/-- A negative `char` is printed with eight digits. -/
theorem printHex_negative (k : Nat) (h1 : 128 ≤ k) (h2 : k < 256) :
    printHex (2 ^ 32 - 256 + k) = ['F', 'F', 'F', 'F', 'F', 'F', hexDigit (k / 16), hexDigit (k % 16)] := by
  rw [printHex_big _ (by omega), printHex_big _ (by omega), printHex_big _ (by omega), printHex_big _ (by omega),
    printHex_big _ (by omega), printHex_big _ (by omega), printHex_small _ (by omega)]
  have e0 : (2 ^ 32 - 256 + k) % 16 = k % 16 := by omega
  have e1 : (2 ^ 32 - 256 + k) / 16 % 16 = k / 16 := by omega
  have e2 : (2 ^ 32 - 256 + k) / 16 / 16 % 16 = 15 := by omega
  have e3 : (2 ^ 32 - 256 + k) / 16 / 16 / 16 % 16 = 15 := by omega
  have e4 : (2 ^ 32 - 256 + k) / 16 / 16 / 16 / 16 % 16 = 15 := by omega
  have e5 : (2 ^ 32 - 256 + k) / 16 / 16 / 16 / 16 / 16 % 16 = 15 := by omega
  have e6 : (2 ^ 32 - 256 + k) / 16 / 16 / 16 / 16 / 16 / 16 % 16 = 15 := by omega
  have e7 : (2 ^ 32 - 256 + k) / 16 / 16 / 16 / 16 / 16 / 16 / 16 = 15 := by omega
  rw [e0, e1, e2, e3, e4, e5, e6, e7, hexDigit_15]
  rfl

theorem unreserved_table : ∀ n, n < 128 → isUnreserved (Char.ofNat n) = true → Char.ofNat n ≠ '+' ∧ Char.ofNat n ≠ '%' ∧
    Char.ofNat n ≠ '=' ∧ Char.ofNat n ≠ '&' ∧ Char.ofNat n ≠ '#' ∧ Char.ofNat n ≠ '?' ∧ Char.ofNat n ≠ '/' := by
  decide +kernel

theorem unreserved_lt (c : Char) (h : isUnreserved c = true) : c.toNat < 128 := by
  simp only [isUnreserved, Bool.or_eq_true, Bool.and_eq_true, decide_eq_true_eq, Char.le_def, UInt32.le_iff_toNat_le] at h
  have e : c.toNat = c.val.toNat := rfl
  rw [e]
  have e1 : '9'.val.toNat = 57 := rfl
  have e3 : 'Z'.val.toNat = 90 := rfl
  have e5 : 'z'.val.toNat = 122 := rfl
  rcases h with (((((((((h | h) | h) | h) | h) | h) | h) | h) | h) | h) | h
  · omega
  · omega
  · omega
  all_goals (subst h; decide)

theorem unreserved_ne (c : Char) (h : isUnreserved c = true) : c ≠ '+' ∧ c ≠ '%' ∧ c ≠ '=' ∧ c ≠ '&' ∧ c ≠ '#' ∧ c ≠ '?' ∧ c ≠ '/' := by
  have := unreserved_table c.toNat (unreserved_lt c h)
  rw [Char.ofNat_toNat] at this
  exact this h

/-- What a character becomes when it is encoded and then decoded. -/
def twice (c : Char) : Str :=
  if c.toNat < 128 then [c] else ['\xff', 'F', 'F', 'F', 'F', hexDigit (c.toNat / 16), hexDigit (c.toNat % 16)]

theorem decode_encodeChar (c : Char) (hc : c.toNat < 256) (rest : Str) : decodeURI (encodeChar c ++ rest) = twice c ++ decodeURI rest := by
  unfold encodeChar
  split
  · rename_i h
    have hn := unreserved_ne c h
    simp only [twice, unreserved_lt c h, if_true, List.cons_append, List.nil_append]
    exact decodeURI_other c rest hn.1 hn.2.1
  · split
    · rename_i h
      subst h
      simp only [List.cons_append, List.nil_append]
      rw [decodeURI_hex _ _ _ (by decide) (by decide)]
      rfl
    · unfold asUnsigned twice
      by_cases hs : c.toNat < 128
      · rw [if_pos hs, if_pos hs, printHex_small _ (by omega)]
        simp only [List.cons_append, List.nil_append]
        have h1 := hex_table (c.toNat / 16) (by omega)
        have h2 := hex_table (c.toNat % 16) (by omega)
        rw [decodeURI_hex _ _ _ h1.1 h2.1, h1.2.1, h2.2.1]
        have : c.toNat / 16 * 16 + c.toNat % 16 = c.toNat := by omega
        rw [this, Char.ofNat_toNat]
      · rw [if_neg hs, if_neg hs, printHex_negative _ (by omega) hc]
        simp only [List.cons_append, List.nil_append]
        have h1 := hex_table (c.toNat / 16) (by omega)
        have h2 := hex_table (c.toNat % 16) (by omega)
        rw [decodeURI_hex _ _ _ (by decide) (by decide), decodeURI_other _ _ (by decide) (by decide),
          decodeURI_other _ _ (by decide) (by decide), decodeURI_other _ _ (by decide) (by decide),
          decodeURI_other _ _ (by decide) (by decide), decodeURI_other _ _ h1.2.2.1 h1.2.2.2,
          decodeURI_other _ _ h2.2.2.1 h2.2.2.2]
        rfl

/-! ### Properties -/

/-- C40, what really happens: characters below 128 come back; a character from 128 on comes back as seven characters,
the code 255, `FFFF` and the two hexadecimal digits of its code. -/
theorem decode_encode_bytes (s : Str) (hs : ∀ c ∈ s, c.toNat < 256) :
    decodeURI (encodeURI s) = s.flatMap fun c =>
      if c.toNat < 128 then [c] else ['\xff', 'F', 'F', 'F', 'F', hexDigit (c.toNat / 16), hexDigit (c.toNat % 16)] := by
  induction s with
  | nil => simp [encodeURI, decodeURI_nil]
  | cons c s ih =>
    have e : encodeURI (c :: s) = encodeChar c ++ encodeURI s := by simp [encodeURI]
    rw [e, decode_encodeChar c (hs c (by simp)), ih (fun d hd => hs d (by simp [hd]))]
    simp [twice]

/-- C40, the part that is true: decoding what was encoded gives it back, for strings of ASCII characters. -/
theorem decode_encode_partial (s : Str) (hs : ∀ c ∈ s, c.toNat < 128) : decodeURI (encodeURI s) = s := by
  rw [decode_encode_bytes s (fun c hc => by have := hs c hc; omega)]
  induction s with
  | nil => rfl
  | cons c s ih =>
    rw [List.flatMap_cons, if_pos (hs c (by simp)), ih (fun d hd => hs d (by simp [hd]))]
    rfl

/-- C40: and for no others. -/
theorem decode_encode_iff (s : Str) (hs : ∀ c ∈ s, c.toNat < 256) : decodeURI (encodeURI s) = s ↔ ∀ c ∈ s, c.toNat < 128 := by
  refine ⟨fun h => ?_, decode_encode_partial s⟩
  have hlen : (decodeURI (encodeURI s)).length = s.length := by rw [h]
  rw [decode_encode_bytes s hs] at hlen
  have key : ∀ l : Str, l.length ≤ (l.flatMap fun c =>
      if c.toNat < 128 then [c] else ['\xff', 'F', 'F', 'F', 'F', hexDigit (c.toNat / 16), hexDigit (c.toNat % 16)]).length ∧
      ((l.flatMap fun c =>
      if c.toNat < 128 then [c] else ['\xff', 'F', 'F', 'F', 'F', hexDigit (c.toNat / 16), hexDigit (c.toNat % 16)]).length = l.length →
        ∀ c ∈ l, c.toNat < 128) := by
    intro l
    induction l with
    | nil => simp
    | cons c l ih =>
      rw [List.flatMap_cons, List.length_append, List.length_cons]
      by_cases hc : c.toNat < 128
      · rw [if_pos hc]
        simp only [List.length_cons, List.length_nil]
        refine ⟨by omega, fun h d hd => ?_⟩
        rcases List.mem_cons.mp hd with rfl | hd
        · exact hc
        · exact ih.2 (by omega) d hd
      · rw [if_neg hc]
        simp only [List.length_cons, List.length_nil]
        exact ⟨by omega, fun h => by omega⟩
  exact (key s).2 hlen

/-- C40: the encoding is made of unreserved characters, `%` and hexadecimal digits; so it can stand in a URL. -/
theorem encoding_alphabet (s : Str) (hs : ∀ c ∈ s, c.toNat < 256) (c : Char) (h : c ∈ encodeURI s) :
    isUnreserved c = true ∨ c = '%' ∨ isHexDigit c = true := by
  simp only [encodeURI, List.mem_flatMap] at h
  obtain ⟨d, hd, h⟩ := h
  have hd' := hs d hd
  unfold encodeChar at h
  split at h
  · simp only [List.mem_singleton] at h; subst h; left; assumption
  · split at h
    · simp only [List.mem_cons, List.not_mem_nil, or_false] at h
      rcases h with rfl | rfl | rfl
      · right; left; rfl
      · right; right; decide
      · right; right; decide
    · rcases List.mem_cons.mp h with rfl | h
      · right; left; rfl
      · right; right
        unfold asUnsigned at h
        split at h
        · rw [printHex_small _ (by omega)] at h
          simp only [List.mem_cons, List.not_mem_nil, or_false] at h
          rcases h with rfl | rfl
          · exact (hex_table _ (by omega)).1
          · exact (hex_table _ (by omega)).1
        · rw [printHex_negative _ (by omega) hd'] at h
          simp only [List.mem_cons, List.not_mem_nil, or_false] at h
          rcases h with rfl | rfl | rfl | rfl | rfl | rfl | rfl | rfl
          any_goals decide
          · exact (hex_table _ (by omega)).1
          · exact (hex_table _ (by omega)).1

/-- C40: nothing that has a meaning in a URL is left. -/
theorem encoding_has_no_delimiters (s : Str) (hs : ∀ c ∈ s, c.toNat < 256) :
    '&' ∉ encodeURI s ∧ '=' ∉ encodeURI s ∧ '#' ∉ encodeURI s ∧ '?' ∉ encodeURI s ∧ '/' ∉ encodeURI s ∧ '+' ∉ encodeURI s := by
  refine ⟨?_, ?_, ?_, ?_, ?_, ?_⟩
  all_goals
    intro h
    have := encoding_alphabet s hs _ h
    revert this
    decide

/-- C40 is false of the code: a byte from 128 on is encoded with the sign bits of the `char`. -/
theorem non_ascii_is_corrupted : encodeURI ['\xe9'] = ['%', 'F', 'F', 'F', 'F', 'F', 'F', 'E', '9'] ∧
    decodeURI (encodeURI ['\xe9']) = ['\xff', 'F', 'F', 'F', 'F', 'E', '9'] := by
  have h := decode_encode_bytes ['\xe9'] (by decide)
  refine ⟨?_, h⟩
  have : encodeURI ['\xe9'] = '%' :: printHex (2 ^ 32 - 256 + 233) := by
    simp only [encodeURI, List.flatMap_cons, List.flatMap_nil, List.append_nil, encodeChar]
    rw [if_neg (by decide), if_neg (by decide)]
    have e : asUnsigned '\xe9' = 2 ^ 32 - 256 + 233 := by decide
    rw [e]
  rw [this, printHex_negative 233 (by decide) (by decide)]
  rfl

/-- Decoding is not the inverse of anything on malformed escapes: they are left alone. -/
theorem malformed_escape_is_kept (rest : Str) (h : ∀ a b r, rest = a :: b :: r → (isHexDigit a && isHexDigit b) = false) :
    decodeURI ('%' :: rest) = '%' :: decodeURI rest := by
  match rest, h with
  | [], _ => simp [decodeURI]
  | [a], _ => simp [decodeURI]
  | a :: b :: r, h =>
    conv => lhs; rw [decodeURI]
    simp [h a b r rfl]

/-- C40: forms (`application/x-www-form-urlencoded`) write a space as `+`; this is decoded, too. -/
theorem decode_form_partial (s : Str) (hs : ∀ c ∈ s, c.toNat < 128) :
    decodeURI (s.flatMap fun c => if c = ' ' then ['+'] else encodeChar c) = s := by
  induction s with
  | nil => simp [decodeURI_nil]
  | cons c s ih =>
    rw [List.flatMap_cons]
    have ih' := ih (fun d hd => hs d (by simp [hd]))
    by_cases hc : c = ' '
    · subst hc
      rw [if_pos rfl]
      simp only [List.cons_append, List.nil_append]
      rw [decodeURI, ih']
    · rw [if_neg hc, decode_encodeChar c (by have := hs c (by simp); omega), ih', twice, if_pos (hs c (by simp))]
      rfl

example : decodeURI (encodeURI ['a', ' ', '%', '&', '+', '\n']) = ['a', ' ', '%', '&', '+', '\n'] :=
  decode_encode_partial _ (by decide)

end Current.Url
