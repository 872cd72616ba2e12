import Verif.Net.Model

/-!
Specification: when two names are the same header.
-/
namespace Current.Net
open Current.Persist Current.Strings Current.Url

/-- Characters that differ in case, or are `-` and `_`. -/
def SameChar (a b : Char) : Prop := a.toLower = b.toLower ∨ (a = '-' ∨ a = '_') ∧ (b = '-' ∨ b = '_')

/-- Names that differ in case, or in `-` and `_`, are the same header. -/
def SameName : Str → Str → Prop
  | [], [] => True
  | a :: as, b :: bs => SameChar a b ∧ SameName as bs
  | _, _ => False

instance (a b : Char) : Decidable (SameChar a b) := by unfold SameChar; infer_instance

instance SameName.dec : ∀ a b : Str, Decidable (SameName a b)
  | [], [] => isTrue trivial
  | a :: as, b :: bs =>
    have := SameName.dec as bs
    inferInstanceAs (Decidable (SameChar a b ∧ SameName as bs))
  | [], _ :: _ => isFalse (by simp [SameName])
  | _ :: _, [] => isFalse (by simp [SameName])

/-! ### The parser's comparison -/

theorem upper_lower_table : ∀ n < 91, 65 ≤ n → (Char.ofNat n).toLower = Char.ofNat (n + 32) ∧ Char.ofNat (n + 32) ≠ '_' ∧
    Char.ofNat (n + 32) ≠ '-' ∧ Char.ofNat n ≠ '-' := by decide

theorem upper_iff (c : Char) : ('A' ≤ c ∧ c ≤ 'Z') ↔ (65 ≤ c.toNat ∧ c.toNat ≤ 90) := by
  simp only [Char.le_def, UInt32.le_iff_toNat_le]
  exact Iff.rfl

theorem toLower_special (c : Char) : (c.toLower = '_' → c = '_') ∧ (c.toLower = '-' → c = '-') := by
  by_cases h : 'A' ≤ c ∧ c ≤ 'Z'
  · have h' := (upper_iff c).1 h
    obtain ⟨a, b, d, e⟩ := upper_lower_table c.toNat (by omega) h'.1
    rw [Char.ofNat_toNat] at a e
    refine ⟨?_, ?_⟩
    · rw [a]; intro x; exact absurd x b
    · rw [a]; intro x; exact absurd x d
  · have hl : c.toLower = c := by
      unfold Char.toLower
      rw [dif_neg]
      intro hx
      exact h ⟨hx.1, hx.2⟩
    rw [hl]
    exact ⟨id, id⟩

theorem normHeaderChar_iff (a b : Char) : normHeaderChar a = normHeaderChar b ↔ SameChar a b := by
  obtain ⟨a2, a3⟩ := toLower_special a
  obtain ⟨b2, b3⟩ := toLower_special b
  have e1 : '-'.toLower = '-' := by decide
  have e2 : '_'.toLower = '_' := by decide
  unfold SameChar normHeaderChar
  by_cases ha : a = '_' <;> by_cases hb : b = '_'
  · simp [ha, hb]
  · subst ha
    simp only [ne_eq, not_true, if_false, hb, not_false_iff, if_true, e2, or_true, or_false, true_and]
    constructor
    · intro h; exact .inr (b3 h.symm)
    · rintro (h | h)
      · exact absurd (b2 h.symm) hb
      · rw [h, e1]
  · subst hb
    simp only [ne_eq, not_true, if_false, ha, not_false_iff, if_true, e2, or_true, or_false, and_true]
    constructor
    · intro h; exact .inr (a3 h)
    · rintro (h | h)
      · exact absurd (a2 h) ha
      · rw [h, e1]
  · simp only [ne_eq, ha, hb, not_false_iff, if_true, or_false]
    constructor
    · exact .inl
    · rintro (h | ⟨h, h'⟩)
      · exact h
      · rw [h, h']

/-- **C55** The parser recognises a header under any spelling of its name, and under no other name. -/
theorem headerNameEquals_iff : ∀ a b : Str, headerNameEquals a b = true ↔ SameName a b
  | [], [] => by simp [SameName, headerNameEquals]
  | [], _ :: _ => by simp [SameName, headerNameEquals]
  | _ :: _, [] => by simp [SameName, headerNameEquals]
  | a :: as, b :: bs => by
    have ih := headerNameEquals_iff as bs
    simp only [headerNameEquals, beq_iff_eq] at ih
    simp [SameName, headerNameEquals, ← ih, normHeaderChar_iff]

theorem headerNameEquals_false {a b : Str} (h : ¬ SameName a b) : headerNameEquals a b = false := by
  rw [← Bool.not_eq_true, headerNameEquals_iff]; exact h

end Current.Net
