import Verif.Xterm.Progress
/-!
What the user of progress lines sees (C117).
-/

set_option linter.unusedSimpArgs false

namespace Current.Xterm

open Current.Persist (Str dec dec_isDigit)

/-! ### Specification -/

/-- A character that takes a cell: not a control character. -/
def Plain (c : Char) : Prop := 32 ≤ c.toNat ∧ c.toNat ≠ 127

/-- No control characters in the texts. -/
def PlainPieces (ps : List Piece) : Prop := ∀ s, Piece.text s ∈ ps → ∀ c ∈ s, Plain c

/-- From a cell on, the row shows a text and then nothing. -/
def Shows (t : Term) (row col : Nat) (s : Str) : Prop := ∀ i, t.cell row (col + i) = s.getD i ' '

/-! ### The terminal -/

theorem feed_append (t : Term) (a b : Str) : feed t (a ++ b) = feed (feed t a) b := by simp [feed, List.foldl_append]
theorem feed_nil (t : Term) : feed t [] = t := rfl
theorem feed_cons (t : Term) (c : Char) (s : Str) : feed t (c :: s) = feed (feed1 t c) s := rfl

/-- What is written over a row. -/
def overlay (f : Nat → Nat → Char) (row col : Nat) (s : Str) : Nat → Nat → Char :=
  fun r k => if r = row ∧ col ≤ k ∧ k < col + s.length then s.getD (k - col) ' ' else f r k

theorem plain_ne {c : Char} (h : Plain c) : c ≠ escape ∧ c ≠ backspace ∧ c ≠ '\n' := by
  refine ⟨?_, ?_, ?_⟩ <;> rintro rfl <;> exact absurd h.1 (by decide)

theorem overlay_nil (f : Nat → Nat → Char) (r c : Nat) : overlay f r c [] = f := by
  funext a b; simp only [overlay, List.length_nil, Nat.add_zero]; split <;> first | omega | rfl

theorem overlay_cons (f : Nat → Nat → Char) (r c : Nat) (x : Char) (s : Str) :
    overlay (fun a b => if a = r ∧ b = c then x else f a b) r (c + 1) s = overlay f r c (x :: s) := by
  funext a b
  simp only [overlay, List.length_cons]
  by_cases ha : a = r
  · subst ha
    by_cases hb : b = c
    · subst hb; simp; intro h _; omega
    · by_cases h1 : c + 1 ≤ b ∧ b < c + 1 + s.length
      · rw [if_pos ⟨rfl, h1.1, h1.2⟩, if_pos ⟨rfl, by omega, by omega⟩]
        obtain ⟨d, rfl⟩ : ∃ d, b = c + 1 + d := ⟨b - (c + 1), by omega⟩
        have e1 : c + 1 + d - (c + 1) = d := by omega
        have e2 : c + 1 + d - c = d + 1 := by omega
        rw [e1, e2]; simp
      · rw [if_neg (fun h => h1 h.2), if_neg (fun h => h.2 |> fun h => hb h), if_neg (fun h => h1 ⟨by omega, by omega⟩)]
  · simp [ha]

theorem overlay_append (f : Nat → Nat → Char) (r c : Nat) (s u : Str) : overlay (overlay f r c s) r (c + s.length) u = overlay f r c (s ++ u) := by
  induction s generalizing f c with
  | nil => simp [overlay_nil]
  | cons x s ih =>
    rw [← overlay_cons, List.cons_append, ← overlay_cons, ← ih]
    congr 1
    simp only [List.length_cons]; omega

theorem feed_plain {t : Term} {s : Str} (hm : t.mode = .ground) (hs : ∀ c ∈ s, Plain c) :
    feed t s = { t with cell := overlay t.cell t.row t.col s, col := t.col + s.length } := by
  induction s generalizing t with
  | nil => simp [feed_nil, overlay_nil]
  | cons c s ih =>
    obtain ⟨h1, h2, h3⟩ := plain_ne (hs c (by simp))
    have hf : feed1 t c = { t with cell := fun r k => if r = t.row ∧ k = t.col then c else t.cell r k, col := t.col + 1 } := by
      simp only [feed1, hm, h1, h2, h3, if_false]
    rw [feed_cons, hf, ih (by exact hm) (fun d hd => hs d (by simp [hd]))]
    simp only [overlay_cons, List.length_cons]
    congr 1
    omega

theorem feed_spaces {t : Term} {n : Nat} (hm : t.mode = .ground) :
    feed t (List.replicate n ' ') = { t with cell := overlay t.cell t.row t.col (List.replicate n ' '), col := t.col + n } := by
  rw [feed_plain hm (fun c hc => by rw [List.eq_of_mem_replicate hc]; exact ⟨by decide, by decide⟩), List.length_replicate]

theorem feed_backs {t : Term} {n : Nat} (hm : t.mode = .ground) : feed t (List.replicate n backspace) = { t with col := t.col - n } := by
  induction n generalizing t with
  | zero => simp [feed_nil]
  | succ n ih =>
    have h1 : backspace ≠ escape := by decide
    have hf : feed1 t backspace = { t with col := t.col - 1 } := by simp only [feed1, hm, h1, if_false, if_true]
    rw [List.replicate_succ, feed_cons, hf, ih (t := { t with col := t.col - 1 }) hm]
    congr 1
    simp only; omega

theorem feed_digits {t : Term} {n : Nat} {s : Str} (hm : t.mode = .csi n) (hs : ∀ c ∈ s, c.isDigit = true) : feed t s = { t with mode := .csi (Nat.ofDigitChars 10 s n) } := by
  induction s generalizing t n with
  | nil => cases t; simp_all [feed_nil]
  | cons c s ih =>
    have hf : feed1 t c = { t with mode := .csi (n * 10 + (c.toNat - '0'.toNat)) } := by simp only [feed1, hm, hs c (by simp), if_true]
    rw [feed_cons, hf, ih rfl (fun d hd => hs d (by simp [hd]))]
    simp [Nat.ofDigitChars_cons, Nat.mul_comm]

theorem feed_csi {t : Term} {n : Nat} {c : Char} (hm : t.mode = .ground) : feed t (escape :: '[' :: dec n ++ [c]) = feed1 { t with mode := .csi n } c := by
  have h1 : feed1 t escape = { t with mode := .esc } := by simp [feed1, hm]
  have h2 : feed1 { t with mode := .esc } '[' = { t with mode := .csi 0 } := by simp [feed1]
  have h3 : (escape :: '[' :: dec n ++ [c]) = escape :: '[' :: (dec n ++ [c]) := rfl
  rw [h3, feed_cons, h1, feed_cons, h2, feed_append, feed_digits (t := { t with mode := .csi 0 }) rfl (fun c h => dec_isDigit h)]
  have : Nat.ofDigitChars 10 (dec n) 0 = n := by simp [dec]
  rw [this]; rfl

theorem feed_sgr {t : Term} {n : Nat} (hm : t.mode = .ground) : feed t (sgr n) = t := by
  rw [sgr, feed_csi hm]
  have h : ('m').isDigit = false := by decide
  simp only [feed1, h, Bool.false_eq_true, if_false]
  cases t; simp_all

theorem feed_up {t : Term} {n : Nat} (hm : t.mode = .ground) : feed t (up n) = { t with row := t.row - n } := by
  rw [up]
  split
  · subst_vars; simp [feed_nil]
  · rw [feed_csi hm]
    have h : ('A').isDigit = false := by decide
    simp only [feed1, h, Bool.false_eq_true, if_false, if_true]
    rw [show max n 1 = n by omega]
    cases t; simp_all

theorem feed_down {t : Term} {n : Nat} (hm : t.mode = .ground) : feed t (down n) = { t with row := t.row + n } := by
  rw [down]
  split
  · subst_vars; simp [feed_nil]
  · rw [feed_csi hm]
    have h : ('B').isDigit = false := by decide
    have h' : 'B' ≠ 'A' := by decide
    simp only [feed1, h, h', Bool.false_eq_true, if_false, if_true]
    rw [show max n 1 = n by omega]
    cases t; simp_all

theorem feed_nl {t : Term} (hm : t.mode = .ground) : feed t ['\n'] = { t with row := t.row + 1, col := 0 } := by
  have h1 : '\n' ≠ escape := by decide
  have h2 : '\n' ≠ backspace := by decide
  rw [feed_cons, feed_nil]; simp only [feed1, hm, h1, h2, if_false, if_true]

/-- A decorated text is printed as the text. -/
theorem feed_decorated {t : Term} {ps : List Piece} (hm : t.mode = .ground) (hp : PlainPieces ps) :
    feed t (decorated ps) = { t with cell := overlay t.cell t.row t.col (undecorated ps), col := t.col + (undecorated ps).length } := by
  induction ps generalizing t with
  | nil => simp [decorated, undecorated, feed_nil, overlay_nil]
  | cons p ps ih =>
    have hp' : PlainPieces ps := fun s hs => hp s (by simp [hs])
    cases p with
    | text s =>
      have e1 : decorated (.text s :: ps) = s ++ decorated ps := rfl
      have e2 : undecorated (.text s :: ps) = s ++ undecorated ps := rfl
      rw [e1, e2, feed_append, feed_plain hm (hp s (by simp)), ih (by exact hm) hp']
      simp only [overlay_append, List.length_append, Nat.add_assoc]
    | code n =>
      have e1 : decorated (.code n :: ps) = sgr n ++ decorated ps := rfl
      have e2 : undecorated (.code n :: ps) = undecorated ps := rfl
      rw [e1, e2, feed_append, feed_sgr hm, ih hm hp']

/-- Two statuses that are written alike have the same text. -/
theorem undecorated_of_decorated {ps qs : List Piece} (hp : PlainPieces ps) (hq : PlainPieces qs) (h : decorated ps = decorated qs) : undecorated ps = undecorated qs := by
  let t : Term := { row := 0, col := 0, cell := fun _ _ => ' ' }
  have h1 := feed_decorated (t := t) rfl hp
  have h2 := feed_decorated (t := t) rfl hq
  rw [h, h2] at h1
  have hl : (undecorated qs).length = (undecorated ps).length := by
    have := congrArg Term.col h1
    simpa [t] using this
  have hc : overlay t.cell 0 0 (undecorated qs) = overlay t.cell 0 0 (undecorated ps) := by simpa [t] using congrArg Term.cell h1
  refine List.ext_getElem hl.symm fun i h1 h2 => ?_
  have := congrFun (congrFun hc 0) i
  simp only [overlay, Nat.zero_le, true_and, Nat.zero_add, Nat.sub_zero, h1, h2, if_true] at this
  simpa [List.getD_eq_getElem?_getD, h1, h2] using this.symm

theorem shows_overlay {f : Nat → Nat → Char} {row col : Nat} {s : Str} (k : Nat)
    (hb : ∀ i, s.length ≤ i → k ≤ i → f row (col + i) = ' ') :
    ∀ i, overlay f row col (s ++ List.replicate (k - s.length) ' ') row (col + i) = s.getD i ' ' := by
  intro i
  simp only [overlay, List.length_append, List.length_replicate]
  have e : col + i - col = i := by omega
  by_cases h : i < s.length
  · rw [if_pos ⟨trivial, by omega, by omega⟩, e]
    simp [List.getD_eq_getElem?_getD, List.getElem?_append_left h]
  · have hd : s.getD i ' ' = ' ' := by simp [List.getD_eq_getElem?_getD, List.getElem?_eq_none (by omega : s.length ≤ i)]
    rw [hd]
    split
    · rw [e]
      simp [List.getD_eq_getElem?_getD, List.getElem?_append_right (by omega : s.length ≤ i), List.getElem?_replicate]
      split <;> rfl
    · rename_i h'
      refine hb i (by omega) (Classical.byContradiction fun hk => h' ⟨trivial, by omega, by omega⟩)

end Current.Xterm
