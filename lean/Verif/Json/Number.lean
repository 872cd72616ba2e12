import Verif.Json.Grammar
/-!
`ParseNumber` recognizes exactly the numbers of the grammar.
-/
namespace Current.Json
open Current.Persist (Str)

theorem isDigit_eq (c : Char) : isDigit c = c.isDigit := by
  simp only [isDigit, Char.isDigit, Char.le_def, ge_iff_le, Bool.decide_and]

/-- The next character is not a digit. -/
def NoDigit (s : Str) : Prop := ∀ c t, s = c :: t → c.isDigit = false

theorem noDigit_nil : NoDigit [] := by intro c t h; cases h

theorem digits_nil : Digits [] := fun _ h => nomatch h

theorem span_unique {a b r t : Str} (ha : Digits a) (hb : Digits b) (hr : NoDigit r) (ht : NoDigit t) (h : a ++ r = b ++ t) :
    a = b ∧ r = t := by
  induction a generalizing b with
  | nil =>
    cases b with
    | nil => exact ⟨rfl, h⟩
    | cons c b =>
      have := hr c (b ++ t) (by simpa using h)
      rw [hb c (by simp)] at this
      cases this
  | cons c a ih =>
    cases b with
    | nil =>
      have := ht c (a ++ r) (by simpa using h.symm)
      rw [ha c (by simp)] at this
      cases this
    | cons c' b =>
      simp only [List.cons_append, List.cons.injEq] at h
      obtain ⟨rfl, h⟩ := h
      obtain ⟨h1, h2⟩ := ih (fun x hx => ha x (by simp [hx])) (fun x hx => hb x (by simp [hx])) h
      exact ⟨by rw [h1], h2⟩

theorem skipDigits_spec (s : Str) : ∃ ds, s = ds ++ skipDigits s ∧ Digits ds ∧ NoDigit (skipDigits s) := by
  induction s with
  | nil => exact ⟨[], rfl, digits_nil, noDigit_nil⟩
  | cons c s ih =>
    obtain ⟨ds, h1, h2, h3⟩ := ih
    by_cases hc : isDigit c = true
    · refine ⟨c :: ds, ?_, ?_, ?_⟩
      · simp only [skipDigits, hc, if_true, List.cons_append, ← h1]
      · intro x hx
        rcases List.mem_cons.1 hx with rfl | hx
        · rw [← isDigit_eq]; exact hc
        · exact h2 x hx
      · simpa only [skipDigits, hc, if_true] using h3
    · refine ⟨[], ?_, digits_nil, ?_⟩
      · simp [skipDigits, hc]
      · intro x t h
        simp only [skipDigits, hc] at h
        simp only [Bool.false_eq_true, if_false, List.cons.injEq] at h
        rw [← h.1, ← isDigit_eq]
        simpa using hc

theorem skipDigits_append {ds r : Str} (hd : Digits ds) (hr : NoDigit r) : skipDigits (ds ++ r) = r := by
  obtain ⟨ds', h1, h2, h3⟩ := skipDigits_spec (ds ++ r)
  exact (span_unique hd h2 hr h3 h1).2.symm

theorem digit_bounds {c : Char} (h : c.isDigit = true) : 48 ≤ c.toNat ∧ c.toNat ≤ 57 := by
  simp only [Char.isDigit, UInt32.le_iff_toNat_le, ge_iff_le, Bool.and_eq_true, decide_eq_true_eq] at h
  exact h

def num (ds : Str) (i : Nat) : Nat := Nat.ofDigitChars 10 ds i

theorem num_nil (i : Nat) : num [] i = i := rfl
theorem num_cons (c : Char) (ds : Str) (i : Nat) : num (c :: ds) i = num ds (i * 10 + (c.toNat - 48)) := by
  simp [num, Nat.ofDigitChars_cons, Nat.mul_comm]

theorem num_append (a b : Str) (i : Nat) : num (a ++ b) i = num b (num a i) := by
  simp [num, Nat.ofDigitChars_append]

theorem le_num (ds : Str) (i : Nat) : i ≤ num ds i := by
  induction ds generalizing i with
  | nil => exact Nat.le_refl _
  | cons c ds ih =>
    rw [num_cons]
    exact Nat.le_trans (by omega) (ih _)

theorem accumulate_spec (limit : Nat) (last : Char) (hl : last.isDigit = true) (i : Nat) (s : Str) :
    ∃ ds, s = ds ++ (accumulate limit last i s).2.1 ∧ Digits ds ∧ (accumulate limit last i s).1 = num ds i ∧
      ((accumulate limit last i s).2.2 = false → NoDigit (accumulate limit last i s).2.1 ∧
        (ds = [] ∨ num ds i ≤ limit * 10 + (last.toNat - 48))) ∧
      ((accumulate limit last i s).2.2 = true → ∃ c t, (accumulate limit last i s).2.1 = c :: t ∧ c.isDigit = true ∧
        limit * 10 + (last.toNat - 48) < num (ds ++ [c]) i) := by
  have hlb := digit_bounds hl
  induction s generalizing i with
  | nil =>
    exact ⟨[], rfl, digits_nil, rfl, fun _ => ⟨noDigit_nil, .inl rfl⟩, fun h => nomatch h⟩
  | cons c s ih =>
    by_cases hc : isDigit c = true
    · have hcd : c.isDigit = true := by rw [← isDigit_eq]; exact hc
      have hcb := digit_bounds hcd
      by_cases ho : i ≥ limit ∧ (i ≠ limit ∨ last < c)
      · have e : accumulate limit last i (c :: s) = (i, c :: s, true) := by
          rw [accumulate, if_pos hc, if_pos ho]
        rw [e]
        refine ⟨[], rfl, digits_nil, rfl, (fun h => by cases h), fun _ => ⟨c, s, rfl, hcd, ?_⟩⟩
        rw [List.nil_append, num_cons, num_nil]
        rcases ho.2 with h | h
        · omega
        · have : last.toNat < c.toNat := UInt32.lt_iff_toNat_lt.1 h
          omega
      · have e : accumulate limit last i (c :: s) = accumulate limit last (i * 10 + (c.toNat - 48)) s := by
          rw [accumulate, if_pos hc, if_neg ho]
        have hle : i * 10 + (c.toNat - 48) ≤ limit * 10 + (last.toNat - 48) := by
          by_cases h1 : i < limit
          · omega
          · have h2 : i = limit ∧ ¬ last < c := by
              by_cases h3 : i = limit
              · exact ⟨h3, fun h4 => ho ⟨by omega, .inr h4⟩⟩
              · exact absurd ⟨by omega, .inl h3⟩ ho
            have : ¬ last.toNat < c.toNat := fun h => h2.2 (UInt32.lt_iff_toNat_lt.2 h)
            omega
        obtain ⟨ds, h1, h2, h3, h4, h5⟩ := ih (i * 10 + (c.toNat - 48))
        rw [e]
        refine ⟨c :: ds, ?_, ?_, ?_, ?_, ?_⟩
        · rw [List.cons_append, ← h1]
        · intro x hx
          rcases List.mem_cons.1 hx with rfl | hx
          · exact hcd
          · exact h2 x hx
        · rw [h3, num_cons]
        · intro h
          refine ⟨(h4 h).1, .inr ?_⟩
          rcases (h4 h).2 with rfl | h6
          · rw [num_cons, num_nil]; exact hle
          · rw [num_cons]; exact h6
        · intro h
          obtain ⟨x, t, h6, h7, h8⟩ := h5 h
          exact ⟨x, t, h6, h7, by rw [List.cons_append, num_cons]; exact h8⟩
    · have e : accumulate limit last i (c :: s) = (i, c :: s, false) := by
        rw [accumulate, if_neg hc]
      rw [e]
      refine ⟨[], rfl, digits_nil, rfl, fun _ => ⟨?_, .inl rfl⟩, fun h => nomatch h⟩
      intro x t h
      simp only [List.cons.injEq] at h
      rw [← h.1, ← isDigit_eq]
      simpa using hc

/-- The largest absolute value of an integer, by sign. -/
def maxAbs (minus : Bool) : Nat := if minus then 2 ^ 63 else 2 ^ 64 - 1

theorem inRange_iff (neg : Bool) (ds : Str) : InRange (intValue neg ds) ↔ num ds 0 ≤ maxAbs neg := by
  cases neg <;> simp [InRange, intValue, maxAbs, num] <;> omega

theorem le_char {a b : Char} : a ≤ b ↔ a.toNat ≤ b.toNat := by
  rw [Char.le_def, UInt32.le_iff_toNat_le]; rfl

/-- What `parseIntPart` does on the digits of an integer followed by something else. -/
theorem parseIntPart_complete (minus : Bool) {ds r : Str} (hi : IntText ds) (hr : NoDigit r) :
    parseIntPart minus (ds ++ r) = some (if num ds 0 ≤ maxAbs minus then some (num ds 0) else none, r) := by
  obtain ⟨hd, hne, hz⟩ := hi
  cases ds with
  | nil => exact absurd rfl hne
  | cons c cs =>
    have hcd := hd c (by simp)
    have hcb := digit_bounds hcd
    by_cases h0 : c = '0'
    · subst h0
      have := hz rfl
      simp only [List.cons.injEq, true_and] at this
      subst this
      have : num ['0'] 0 = 0 := rfl
      simp [parseIntPart, this]
    · have h19 : '1' ≤ c ∧ c ≤ '9' := by
        refine ⟨le_char.2 ?_, le_char.2 ?_⟩
        · show 49 ≤ c.toNat
          have : c.toNat ≠ 48 := fun h => h0 (Char.ext (UInt32.toNat_inj.1 h))
          omega
        · show c.toNat ≤ 57
          omega
      have hds : Digits cs := fun x hx => hd x (by simp [hx])
      simp only [List.cons_append, parseIntPart, h0, if_false, if_pos h19]
      generalize hL : (if minus = true then 214748364 else 429496729) = L
      generalize hl : (if minus = true then '8' else '5') = l
      generalize hL' : (if minus = true then 0x0CCCCCCCCCCCCCCC else 0x1999999999999999) = L'
      have hld : l.isDigit = true := by cases minus <;> (subst hl; decide)
      have hmax : L' * 10 + (l.toNat - 48) = maxAbs minus := by cases minus <;> (subst hL' hl; decide)
      have hLm : L * 10 + (l.toNat - 48) ≤ maxAbs minus := by cases minus <;> (subst hL hl; decide)
      have h9 : c.toNat - 48 ≤ maxAbs minus := by
        have : 9 ≤ maxAbs minus := by cases minus <;> decide
        omega
      obtain ⟨d1, a1, a2, a3, a4, a5⟩ := accumulate_spec L l hld (c.toNat - 48) (cs ++ r)
      generalize accumulate L l (c.toNat - 48) (cs ++ r) = A at *
      have hn : ∀ t, num (c :: t) 0 = num t (c.toNat - 48) := by intro t; rw [num_cons, Nat.zero_mul, Nat.zero_add]
      cases ho : A.2.2 with
      | false =>
        obtain ⟨b1, b2⟩ := a4 ho
        obtain ⟨e1, e2⟩ := span_unique hds a2 hr b1 a1
        have hle : num (c :: cs) 0 ≤ maxAbs minus := by
          rw [hn, e1]
          rcases b2 with rfl | b2
          · rw [num_nil]; exact h9
          · omega
        simp only [Bool.false_eq_true, if_false, if_pos hle]
        rw [a3, ← e2, hn, e1]
      | true =>
        simp only [if_true]
        obtain ⟨d2, c1, c2, c3, c4, c5⟩ :=
          accumulate_spec L' l hld A.1 A.2.1
        have hdd : Digits (d1 ++ d2) := by
          intro x hx
          rcases List.mem_append.1 hx with h | h
          · exact a2 x h
          · exact c2 x h
        rw [c1, ← List.append_assoc] at a1
        cases ho2 : (accumulate L' l A.1 A.2.1).2.2 with
        | false =>
          obtain ⟨b1, b2⟩ := c4 ho2
          obtain ⟨e1, e2⟩ := span_unique hds hdd hr b1 a1
          have hv : num (c :: cs) 0 = num d2 A.1 := by
            rw [hn, e1, num_append, a3]
          have hle : num (c :: cs) 0 ≤ maxAbs minus := by
            rw [hv]
            rcases b2 with rfl | b2
            · obtain ⟨x, t, f1, f2, f3⟩ := a5 ho
              have := b1 x t (by rw [List.nil_append] at c1; rw [← c1]; exact f1)
              rw [f2] at this
              cases this
            · rw [hmax] at b2; exact b2
          simp only [Bool.false_eq_true, if_false, if_pos hle]
          rw [c3, ← hv, ← e2]
        | true =>
          obtain ⟨x, t, f1, f2, f3⟩ := c5 ho2
          obtain ⟨d3, g1, g2, g3⟩ := skipDigits_spec (accumulate L' l A.1 A.2.1).2.1
          have hddd : Digits ((d1 ++ d2) ++ d3) := by
            intro y hy
            rcases List.mem_append.1 hy with h | h
            · exact hdd y h
            · exact g2 y h
          have a1' := a1
          rw [g1, ← List.append_assoc] at a1'
          obtain ⟨e1, e2⟩ := span_unique hds hddd hr g3 a1'
          have hgt : ¬ num (c :: cs) 0 ≤ maxAbs minus := by
            have hd3 : ∃ u, d3 = x :: u := by
              cases d3 with
              | nil =>
                rw [List.nil_append] at g1
                rw [← g1] at g3
                have := g3 x t f1
                rw [f2] at this; cases this
              | cons y u =>
                rw [f1] at g1
                simp only [List.cons_append, List.cons.injEq] at g1
                exact ⟨u, by rw [g1.1]⟩
            obtain ⟨u, rfl⟩ := hd3
            have h1 : num (c :: cs) 0 = num u (num (d2 ++ [x]) A.1) := by
              rw [hn, e1, List.append_assoc, num_append, ← a3, ← num_append]
              simp
            have h2 := le_num u (num (d2 ++ [x]) A.1)
            rw [hmax] at f3
            omega
          simp only [if_true, if_neg hgt]
          rw [← e2]

theorem parseIntPart_sound (minus : Bool) {s r : Str} {v : Option Nat} (h : parseIntPart minus s = some (v, r)) :
    ∃ ds, s = ds ++ r ∧ IntText ds ∧ v = if num ds 0 ≤ maxAbs minus then some (num ds 0) else none := by
  cases s with
  | nil => cases h
  | cons c s =>
    by_cases h0 : c = '0'
    · subst h0
      simp only [parseIntPart, if_true, Option.some.injEq, Prod.mk.injEq] at h
      obtain ⟨rfl, rfl⟩ := h
      refine ⟨['0'], rfl, ⟨?_, by simp, fun _ => rfl⟩, ?_⟩
      · intro c hc; simp only [List.mem_singleton] at hc; subst hc; rfl
      · have : num ['0'] 0 = 0 := rfl
        simp [this]
    · by_cases h19 : '1' ≤ c ∧ c ≤ '9'
      · have hcd : c.isDigit = true := by
          rw [← isDigit_eq]
          have h1 := le_char.1 h19.1
          have h2 := le_char.1 h19.2
          have : '0' ≤ c := le_char.2 (Nat.le_trans (by decide) h1)
          simp [isDigit, this, h19.2]
        obtain ⟨ds, h1, h2, h3⟩ := skipDigits_spec s
        have hi : IntText (c :: ds) := by
          refine ⟨?_, by simp, fun h => absurd (by simpa using h) h0⟩
          intro x hx
          rcases List.mem_cons.1 hx with rfl | hx
          · exact hcd
          · exact h2 x hx
        have hc := parseIntPart_complete minus hi h3
        rw [List.cons_append, ← h1, h] at hc
        simp only [Option.some.injEq, Prod.mk.injEq] at hc
        exact ⟨c :: ds, by rw [hc.2, List.cons_append, ← h1], hi, hc.1⟩
      · simp only [parseIntPart, h0, if_false, if_neg h19] at h
        cases h

theorem noDigit_cons {c : Char} {s : Str} (h : c.isDigit = false) : NoDigit (c :: s) := by
  intro x t e
  simp only [List.cons.injEq] at e
  rw [← e.1]; exact h

theorem parseFrac_complete {fr r : Str} (hf : FracText fr) (hr : NoDigit r) (hdot : ∀ t, r ≠ '.' :: t) :
    parseFrac (fr ++ r) = some (decide (fr ≠ []), r) := by
  rcases hf with rfl | ⟨ds, rfl, hne, hd⟩
  · cases r with
    | nil => rfl
    | cons c r =>
      have : c ≠ '.' := fun h => hdot r (by rw [h])
      simp [parseFrac, this]
  · cases ds with
    | nil => exact absurd rfl hne
    | cons c ds =>
      have hc : isDigit c = true := by rw [isDigit_eq]; exact hd c (by simp)
      have := skipDigits_append (ds := ds) (fun x hx => hd x (by simp [hx])) hr
      simp [parseFrac, hc, this]

theorem parseFrac_sound {s r : Str} {b : Bool} (h : parseFrac s = some (b, r)) :
    ∃ fr, s = fr ++ r ∧ FracText fr ∧ b = decide (fr ≠ []) := by
  unfold parseFrac at h
  split at h
  · rename_i c s
    by_cases hc : isDigit c = true
    · rw [if_pos hc] at h
      obtain ⟨ds, h1, h2, h3⟩ := skipDigits_spec s
      simp only [Option.some.injEq, Prod.mk.injEq] at h
      obtain ⟨rfl, rfl⟩ := h
      refine ⟨'.' :: c :: ds, by rw [List.cons_append, List.cons_append, ← h1], .inr ⟨c :: ds, rfl, by simp, ?_⟩, by simp⟩
      intro x hx
      rcases List.mem_cons.1 hx with rfl | hx
      · rw [← isDigit_eq]; exact hc
      · exact h2 x hx
    · rw [if_neg hc] at h; cases h
  · cases h
  · simp only [Option.some.injEq, Prod.mk.injEq] at h
    obtain ⟨rfl, rfl⟩ := h
    exact ⟨[], rfl, .inl rfl, by simp⟩

theorem parseExpDigits_complete {ds r : Str} (hne : ds ≠ []) (hd : Digits ds) (hr : NoDigit r) :
    parseExpDigits (ds ++ r) = some (true, r) := by
  cases ds with
  | nil => exact absurd rfl hne
  | cons c ds =>
    have hc : isDigit c = true := by rw [isDigit_eq]; exact hd c (by simp)
    have := skipDigits_append (ds := ds) (fun x hx => hd x (by simp [hx])) hr
    simp [parseExpDigits, hc, this]

theorem parseExpDigits_sound {s r : Str} {b : Bool} (h : parseExpDigits s = some (b, r)) :
    ∃ ds, s = ds ++ r ∧ ds ≠ [] ∧ Digits ds ∧ b = true := by
  cases s with
  | nil => cases h
  | cons c s =>
    simp only [parseExpDigits] at h
    by_cases hc : isDigit c = true
    · rw [if_pos hc] at h
      obtain ⟨ds, h1, h2, h3⟩ := skipDigits_spec s
      simp only [Option.some.injEq, Prod.mk.injEq] at h
      obtain ⟨rfl, rfl⟩ := h
      refine ⟨c :: ds, by rw [List.cons_append, ← h1], by simp, ?_, rfl⟩
      intro x hx
      rcases List.mem_cons.1 hx with rfl | hx
      · rw [← isDigit_eq]; exact hc
      · exact h2 x hx
    · rw [if_neg hc] at h; cases h

theorem parseExp_complete {ex r : Str} (he : ExpText ex) (hr : NoDigit r) (hx : ∀ t, r ≠ 'e' :: t) (hX : ∀ t, r ≠ 'E' :: t) :
    parseExp (ex ++ r) = some (decide (ex ≠ []), r) := by
  rcases he with rfl | ⟨x, sg, ds, rfl, h1, h2, h3, h4⟩
  · cases r with
    | nil => rfl
    | cons c r =>
      have a : c ≠ 'e' := fun h => hx r (by rw [h])
      have b : c ≠ 'E' := fun h => hX r (by rw [h])
      simp [parseExp, a, b]
  · have hk := parseExpDigits_complete h3 h4 hr
    have hh : ∀ t, ds ++ r ≠ '+' :: t ∧ ds ++ r ≠ '-' :: t := by
      intro t
      cases ds with
      | nil => exact absurd rfl h3
      | cons c ds =>
        have := h4 c (by simp)
        constructor <;> (intro h; simp only [List.cons_append, List.cons.injEq] at h; rw [h.1] at this; cases this)
    simp only [List.cons_append, parseExp, if_pos h1, List.append_assoc]
    rcases h2 with rfl | rfl | rfl
    · simp only [List.nil_append]
      split
      · rename_i t h; exact absurd h (hh _).1
      · rename_i t h; exact absurd h (hh _).2
      · simp [hk]
    · simp [hk]
    · simp [hk]

theorem parseExp_sound {s r : Str} {b : Bool} (h : parseExp s = some (b, r)) :
    ∃ ex, s = ex ++ r ∧ ExpText ex ∧ b = decide (ex ≠ []) := by
  cases s with
  | nil =>
    simp only [parseExp, Option.some.injEq, Prod.mk.injEq] at h
    obtain ⟨rfl, rfl⟩ := h
    exact ⟨[], rfl, .inl rfl, by simp⟩
  | cons c s =>
    simp only [parseExp] at h
    by_cases hc : c = 'e' ∨ c = 'E'
    · rw [if_pos hc] at h
      split at h
      · obtain ⟨ds, rfl, h2, h3, rfl⟩ := parseExpDigits_sound h
        exact ⟨c :: '+' :: ds, rfl, .inr ⟨c, ['+'], ds, rfl, hc, .inr (.inl rfl), h2, h3⟩, by simp⟩
      · obtain ⟨ds, rfl, h2, h3, rfl⟩ := parseExpDigits_sound h
        exact ⟨c :: '-' :: ds, rfl, .inr ⟨c, ['-'], ds, rfl, hc, .inr (.inr rfl), h2, h3⟩, by simp⟩
      · obtain ⟨ds, rfl, h2, h3, rfl⟩ := parseExpDigits_sound h
        exact ⟨c :: ds, rfl, .inr ⟨c, [], ds, rfl, hc, .inl rfl, h2, h3⟩, by simp⟩
    · rw [if_neg hc] at h
      simp only [Option.some.injEq, Prod.mk.injEq] at h
      obtain ⟨rfl, rfl⟩ := h
      exact ⟨[], rfl, .inl rfl, by simp⟩

/-- What may follow a number: nothing that would continue it. -/
def Sep (s : Str) : Prop := ∀ c t, s = c :: t → c.isDigit = false ∧ c ≠ '.' ∧ c ≠ 'e' ∧ c ≠ 'E'

theorem sep_nil : Sep [] := by intro c t h; cases h

theorem noDigit_frac {fr ex r : Str} (hf : FracText fr) (he : ExpText ex) (hr : Sep r) : NoDigit (fr ++ (ex ++ r)) := by
  rcases hf with rfl | ⟨ds, rfl, -, -⟩
  · rcases he with rfl | ⟨x, sg, ds, rfl, h1, -⟩
    · intro c t h
      exact (hr c t h).1
    · rcases h1 with rfl | rfl <;> exact noDigit_cons (by decide)
  · exact noDigit_cons (by decide)

theorem exp_sep {ex r : Str} (he : ExpText ex) (hr : Sep r) : NoDigit (ex ++ r) ∧ ∀ t, ex ++ r ≠ '.' :: t := by
  refine ⟨noDigit_frac (.inl rfl) he hr, ?_⟩
  rcases he with rfl | ⟨x, sg, ds, rfl, h1, -⟩
  · intro t h
    exact (hr _ _ h).2.1 rfl
  · intro t h
    simp only [List.cons_append, List.cons.injEq] at h
    rcases h1 with rfl | rfl <;> exact absurd h.1 (by decide)

theorem takeMinus_text (neg : Bool) {ds r : Str} (hi : IntText ds) : takeMinus (minusText neg ++ (ds ++ r)) = (neg, ds ++ r) := by
  cases neg with
  | true => rfl
  | false =>
    obtain ⟨hd, hne, -⟩ := hi
    cases ds with
    | nil => exact absurd rfl hne
    | cons c ds =>
      have := hd c (by simp)
      have hc : c ≠ '-' := by rintro rfl; cases this
      simp [minusText, takeMinus, hc]

theorem takeMinus_spec (s : Str) : s = minusText (takeMinus s).1 ++ (takeMinus s).2 := by
  unfold takeMinus
  split <;> rfl

theorem parseNumber_eq (fp : Fp) (s : Str) : parseNumber fp s =
    match parseIntPart (takeMinus s).1 (takeMinus s).2 with
    | none => none
    | some (v, s2) =>
      match parseFrac s2 with
      | none => none
      | some (fr, s3) =>
        match parseExp s3 with
        | none => none
        | some (ex, s4) =>
          match v, fr, ex with
          | some n, false, false => some (.int (if (takeMinus s).1 then -(n : Int) else n), s4)
          | _, _, _ => (fp.strtod (s.take (s.length - s4.length))).map fun d => (.dbl d, s4) := by
  rfl

theorem parseNumber_text (fp : Fp) (neg : Bool) {ds fr ex r : Str} (hi : IntText ds) (hf : FracText fr) (he : ExpText ex)
    (hr : Sep r) : parseNumber fp (minusText neg ++ (ds ++ (fr ++ (ex ++ r)))) =
      if fr = [] ∧ ex = [] ∧ num ds 0 ≤ maxAbs neg then some (.int (intValue neg ds), r)
      else (fp.strtod (minusText neg ++ ds ++ fr ++ ex)).map fun d => (.dbl d, r) := by
  have htok : (minusText neg ++ (ds ++ (fr ++ (ex ++ r)))).take ((minusText neg ++ (ds ++ (fr ++ (ex ++ r)))).length - r.length) =
      minusText neg ++ ds ++ fr ++ ex := by
    have e : minusText neg ++ (ds ++ (fr ++ (ex ++ r))) = (minusText neg ++ ds ++ fr ++ ex) ++ r := by simp
    rw [e]
    have l : ((minusText neg ++ ds ++ fr ++ ex) ++ r).length - r.length = (minusText neg ++ ds ++ fr ++ ex).length := by
      rw [List.length_append]; omega
    rw [l, List.take_left]
  obtain ⟨x1, x2⟩ := exp_sep he hr
  rw [parseNumber_eq, takeMinus_text neg hi, parseIntPart_complete neg hi (noDigit_frac hf he hr)]
  simp only [parseFrac_complete hf x1 x2,
    parseExp_complete he (fun c t h => (hr c t h).1) (fun t h => (hr _ _ h).2.2.1 rfl) (fun t h => (hr _ _ h).2.2.2 rfl), htok]
  by_cases h1 : fr = []
  · by_cases h2 : ex = []
    · by_cases h3 : num ds 0 ≤ maxAbs neg
      · simp [h1, h2, h3]
        rfl
      · simp [h1, h2, h3]
    · simp only [h2, false_and, and_false, if_false, decide_not, decide_false, Bool.not_false]
      split
      · rename_i h _ _ ; simp_all
      · rfl
  · simp only [h1, false_and, if_false, decide_not, decide_false, Bool.not_false]
    split
    · rename_i h _ ; simp_all
    · rfl

theorem parseNumber_complete {fp : Fp} {s r : Str} {j : J} (h : IsNumber fp s j) (hr : Sep r) :
    parseNumber fp (s ++ r) = some (j, r) := by
  cases h with
  | int neg ds hi hrange =>
    have := parseNumber_text fp neg hi (.inl rfl) (.inl rfl) hr
    rw [if_pos ⟨rfl, rfl, (inRange_iff neg ds).1 hrange⟩] at this
    simpa using this
  | real neg ds fr ex d hi hf he hov hd =>
    have := parseNumber_text fp neg hi hf he hr
    rw [if_neg (fun h => hov h.1 h.2.1 ((inRange_iff neg ds).2 h.2.2)), hd] at this
    simpa using this

theorem parseNumber_sound {fp : Fp} {s r : Str} {j : J} (h : parseNumber fp s = some (j, r)) :
    ∃ p, s = p ++ r ∧ IsNumber fp p j := by
  rw [parseNumber_eq] at h
  have hs := takeMinus_spec s
  generalize (takeMinus s).1 = neg at *
  generalize (takeMinus s).2 = s1 at *
  cases h1 : parseIntPart neg s1 with
  | none => rw [h1] at h; cases h
  | some p1 =>
    obtain ⟨v, s2⟩ := p1
    rw [h1] at h
    simp only at h
    obtain ⟨ds, rfl, hi, hv⟩ := parseIntPart_sound neg h1
    cases h2 : parseFrac s2 with
    | none => rw [h2] at h; cases h
    | some p2 =>
      obtain ⟨b2, s3⟩ := p2
      rw [h2] at h
      simp only at h
      obtain ⟨fr, rfl, hf, hb2⟩ := parseFrac_sound h2
      cases h3 : parseExp s3 with
      | none => rw [h3] at h; cases h
      | some p3 =>
        obtain ⟨b3, s4⟩ := p3
        rw [h3] at h
        simp only at h
        obtain ⟨ex, rfl, he, hb3⟩ := parseExp_sound h3
        by_cases hc : fr = [] ∧ ex = [] ∧ num ds 0 ≤ maxAbs neg
        · rw [if_pos hc.2.2] at hv
          have e2 : b2 = false := by simp [hb2, hc.1]
          have e3 : b3 = false := by simp [hb3, hc.2.1]
          rw [hv, e2, e3] at h
          simp only [Option.some.injEq, Prod.mk.injEq] at h
          obtain ⟨rfl, rfl⟩ := h
          refine ⟨minusText neg ++ ds, by rw [hs, hc.1, hc.2.1]; simp, ?_⟩
          exact .int neg ds hi ((inRange_iff neg ds).2 hc.2.2)
        · have hd : (fp.strtod (s.take (s.length - s4.length))).map (fun d => (J.dbl d, s4)) = some (j, r) := by
            split at h
            · rename_i n
              exfalso
              apply hc
              have hv' : num ds 0 ≤ maxAbs neg := by
                by_cases hle : num ds 0 ≤ maxAbs neg
                · exact hle
                · rw [if_neg hle] at hv; cases hv
              exact ⟨by simpa using hb2, by simpa using hb3, hv'⟩
            · exact h
          have htok : s.take (s.length - s4.length) = minusText neg ++ ds ++ fr ++ ex := by
            have e : s = (minusText neg ++ ds ++ fr ++ ex) ++ s4 := by rw [hs]; simp
            rw [e]
            have l : ((minusText neg ++ ds ++ fr ++ ex) ++ s4).length - s4.length = (minusText neg ++ ds ++ fr ++ ex).length := by
              rw [List.length_append]; omega
            rw [l, List.take_left]
          rw [htok] at hd
          cases hst : fp.strtod (minusText neg ++ ds ++ fr ++ ex) with
          | none => rw [hst] at hd; cases hd
          | some d =>
            rw [hst] at hd
            simp only [Option.map_some, Option.some.injEq, Prod.mk.injEq] at hd
            obtain ⟨rfl, rfl⟩ := hd
            refine ⟨_, by rw [hs]; simp, .real neg ds fr ex d hi hf he ?_ hst⟩
            intro h5 h6 h7
            exact hc ⟨h5, h6, (inRange_iff neg ds).1 h7⟩

end Current.Json
