import Verif.Xterm.ProgressProps
/-!
C117: progress lines show their statuses.
-/

set_option linter.unusedSimpArgs false

namespace Current.Xterm

open Current.Persist (Str dec)

/-! ### One line -/

theorem feed_clear {t : Term} {c n : Nat} (hm : t.mode = .ground) (hc : t.col = c + n) :
    feed t (clear n) = { t with col := c, cell := overlay t.cell t.row c (List.replicate n ' ') } := by
  rw [clear, feed_append, feed_append, feed_backs hm, feed_spaces (by exact hm), feed_backs (by exact hm)]
  have h1 : t.col - n = c := by omega
  simp only [h1]
  congr 1
  omega

/-- The terminal `t` is `t0` with the text of the line after the cursor. -/
structure Inv1 (t0 : Term) (l : Line) (t : Term) : Prop where
  mode : t.mode = .ground
  row : t.row = t0.row
  col : t.col = t0.col + l.len
  len : l.len = l.und.length
  shows_ : Shows t t0.row t0.col l.und
  frame : ∀ r k, r ≠ t0.row ∨ k < t0.col → t.cell r k = t0.cell r k
  src : ∃ qs, PlainPieces qs ∧ l.status = decorated qs ∧ l.und = undecorated qs

theorem inv1_update {t0 t : Term} {l : Line} {ps : List Piece} (hi : Inv1 t0 l t) (hp : PlainPieces ps) : Inv1 t0 (l.update ps).1 (feed t (l.update ps).2) ∧ (l.update ps).1.und = undecorated ps := by
  obtain ⟨i1, i2, i3, i4, i5, i6, qs, hq, hs, hu⟩ := hi
  simp only [Line.update]
  split
  · refine ⟨⟨?_, ?_, ?_, rfl, ?_, ?_, ps, hp, rfl, rfl⟩, rfl⟩
    all_goals rw [feed_append, feed_append, feed_clear i1 i3, feed_decorated (by exact i1) hp, feed_sgr (by exact i1)]
    · exact i1
    · exact i2
    · intro i
      have := shows_overlay (f := overlay t.cell t.row t0.col (List.replicate l.len ' ')) (row := t0.row) (col := t0.col) (s := undecorated ps) 0 (fun i _ _ => ?_) i
      · simpa [i2] using this
      · have hb := i5 i
        simp only [overlay, i2, List.length_replicate]
        split
        · simp only [List.getD_eq_getElem?_getD, List.getElem?_replicate]; split <;> rfl
        · rename_i h'
          rw [hb, List.getD_eq_getElem?_getD, List.getElem?_eq_none, Option.getD_none]
          rw [← i4]
          exact Classical.byContradiction fun hk => h' ⟨trivial, by omega, by omega⟩
    · intro r k hrk
      have n1 : ∀ s : Str, ∀ f, overlay f t.row t0.col s r k = f r k := by
        intro s f
        simp only [overlay]
        rw [if_neg]
        rintro ⟨h1, h2, _⟩
        rcases hrk with h | h
        · exact h (h1.trans i2)
        · omega
      dsimp only
      rw [n1, n1]
      exact i6 r k hrk
  · rename_i h
    have h : decorated ps = l.status := Classical.not_not.mp h
    have hu' : undecorated ps = l.und := by rw [hu]; exact undecorated_of_decorated hp hq (h.trans hs)
    refine ⟨?_, rfl⟩
    rw [hu', feed_nil]
    exact ⟨i1, i2, i3, i4, i5, i6, qs, hq, hs, hu⟩

theorem inv1_updates {t0 : Term} : ∀ (stats : List (List Piece)) {l : Line} {t : Term}, Inv1 t0 l t → (∀ ps ∈ stats, PlainPieces ps) →
    Inv1 t0 (l.updates t stats).1 (l.updates t stats).2 ∧ (l.updates t stats).1.und = (stats.getLast?.map undecorated).getD l.und := by
  intro stats
  induction stats with
  | nil => intro l t hi _; exact ⟨hi, rfl⟩
  | cons ps rest ih =>
    intro l t hi hp
    obtain ⟨h1, h2⟩ := inv1_update hi (hp ps (by simp))
    obtain ⟨h3, h4⟩ := ih h1 (fun q hq => hp q (by simp [hq]))
    refine ⟨h3, ?_⟩
    simp only [Line.updates]
    rw [h4, h2]
    cases rest with
    | nil => simp
    | cons q qs => simp [List.getLast?_cons_cons, List.getLast?_cons]

/-- The text of the last of several statuses. -/
def lastText (stats : List (List Piece)) : Str := (stats.getLast?.map undecorated).getD []

/-- C117. Whatever statuses a progress line is given, the terminal shows the text of the last one after the place where the cursor was, nothing after it, and everything else as it was; the
cursor is after the text. -/
theorem single_line_shows {t0 : Term} (hm : t0.mode = .ground) (hb : Shows t0 t0.row t0.col []) (stats : List (List Piece)) (hp : ∀ ps ∈ stats, PlainPieces ps) :
    Shows (Line.updates {} t0 stats).2 t0.row t0.col (lastText stats) ∧
    (∀ r k, r ≠ t0.row ∨ k < t0.col → (Line.updates {} t0 stats).2.cell r k = t0.cell r k) ∧
    (Line.updates {} t0 stats).2.row = t0.row ∧ (Line.updates {} t0 stats).2.col = t0.col + (lastText stats).length ∧
    (Line.updates {} t0 stats).1.und = lastText stats := by
  have h0 : Inv1 t0 {} t0 := ⟨hm, rfl, rfl, rfl, hb, fun _ _ _ => rfl, [], by simp [PlainPieces], rfl, rfl⟩
  obtain ⟨hi, hu⟩ := inv1_updates stats h0 hp
  have hu : (Line.updates {} t0 stats).1.und = lastText stats := hu
  refine ⟨hu ▸ hi.shows_, hi.frame, hi.row, ?_, hu⟩
  rw [hi.col, hi.len, hu]

/-- C117. When the progress line is destroyed, the terminal is exactly as it was before it. -/
theorem single_line_leaves_nothing {t0 : Term} (hm : t0.mode = .ground) (hb : Shows t0 t0.row t0.col []) (stats : List (List Piece)) (hp : ∀ ps ∈ stats, PlainPieces ps) :
    feed (Line.updates {} t0 stats).2 (Line.updates {} t0 stats).1.destroy = t0 := by
  have h0 : Inv1 t0 {} t0 := ⟨hm, rfl, rfl, rfl, hb, fun _ _ _ => rfl, [], by simp [PlainPieces], rfl, rfl⟩
  obtain ⟨⟨i1, i2, i3, i4, i5, i6, _⟩, _⟩ := inv1_updates stats h0 hp
  generalize (Line.updates {} t0 stats).2 = t at *
  generalize (Line.updates {} t0 stats).1 = l at *
  have key : overlay t.cell t.row t0.col (List.replicate l.len ' ') = t0.cell := by
    funext r k
    by_cases h : r ≠ t0.row ∨ k < t0.col
    · rw [← i6 r k h]
      simp only [overlay]
      rw [if_neg]
      rintro ⟨h1, h2, _⟩
      rcases h with h | h
      · exact h (h1.trans i2)
      · omega
    · have h1 : r = t0.row := Classical.byContradiction fun g => h (Or.inl g)
      have h2 : t0.col ≤ k := by have := fun g => h (Or.inr g); omega
      obtain ⟨i, rfl⟩ : ∃ i, k = t0.col + i := ⟨k - t0.col, by omega⟩
      subst h1
      rw [hb i]
      simp only [overlay, i2, List.length_replicate]
      split
      · simp only [List.getD_eq_getElem?_getD, List.getElem?_replicate]; split <;> simp
      · rename_i h'
        rw [i5 i, List.getD_eq_getElem?_getD, List.getElem?_eq_none, Option.getD_none]
        · rfl
        · rw [← i4]
          exact Classical.byContradiction fun hk => h' ⟨trivial, by omega, by omega⟩
  simp only [Line.destroy]
  split
  · rw [feed_clear i1 i3, key, i2, i1, ← hm]
  · rename_i h
    have h : l.len = 0 := Classical.not_not.mp h
    rw [h, List.replicate_zero, overlay_nil] at key
    rw [h] at i3
    rw [feed_nil]
    cases t; cases t0; simp_all

/-! ### Several lines -/

/-- Creating a line does not overlap with anything else. -/
def Ok (m : Multi) : Act → Prop
  | .bump => (∀ k, m.pend k = none) ∧ (∀ k, 0 < k → k ≤ m.total → m.made k = true)
  | .newline _ => True
  | .read _ ps => PlainPieces ps ∧ (∀ k, 0 < k → k ≤ m.total → m.made k = true)
  | .print _ => True

/-- What is said, in a history: the texts shown, and the statuses on their way. -/
structure Said where
  shown : Nat → Str := fun _ => []
  coming : Nat → List Piece := fun _ => []

def Said.act (s : Said) : Act → Said
  | .read k ps => { s with coming := fun j => if j = k then ps else s.coming j }
  | .print k => { s with shown := fun j => if j = k then undecorated (s.coming k) else s.shown j }
  | _ => s

/-- A history that keeps to it, what it says, and where it ends. -/
inductive Reach (t0 : Term) : List Act → Said → Multi → Prop where
  | init : Reach t0 [] {} { term := t0 }
  | step {as : List Act} {s : Said} {m m' : Multi} {a : Act} (h : Reach t0 as s m) (ok : Ok m a) (hs : step m a = some m') : Reach t0 (a :: as) (s.act a) m'

/-- All lines are there. -/
def Settled (m : Multi) : Prop := ∀ k, 0 < k → k ≤ m.total → m.made k = true

structure InvM (t0 : Term) (s : Said) (m : Multi) : Prop where
  mode : m.term.mode = .ground
  col : m.term.col = 0
  rowS : Settled m → m.term.row = t0.row + m.total
  rowN : ¬ Settled m → m.term.row + 1 = t0.row + m.total ∧ m.made m.total = false ∧ ∀ k, m.pend k = none
  old : ∀ k, 0 < k → k < m.total → m.made k = true
  dom : ∀ k, m.made k = true → 0 < k ∧ k ≤ m.total
  pend : ∀ k n ps, m.pend k = some (n, ps) → m.made k = true ∧ n = m.total - k ∧ PlainPieces ps ∧ s.coming k = ps
  len : ∀ k, (m.line k).len = (m.line k).und.length
  und : ∀ k, (m.line k).und = s.shown k
  fresh : ∀ k, m.made k = false → m.line k = {}
  shows_ : ∀ k, Shows m.term (t0.row + k) 0 (m.line (k + 1)).und
  frame : ∀ r c, r < t0.row → m.term.cell r c = t0.cell r c
  src : ∀ k, ∃ qs, PlainPieces qs ∧ (m.line k).status = decorated qs ∧ (m.line k).und = undecorated qs

theorem invM_init {t0 : Term} (hm : t0.mode = .ground) (hc : t0.col = 0) (hb : ∀ k, Shows t0 (t0.row + k) 0 []) : InvM t0 {} { term := t0 } := by
  refine ⟨hm, hc, ?_, ?_, ?_, ?_, ?_, fun _ => rfl, fun _ => rfl, fun _ _ => rfl, hb, fun _ _ _ => rfl, fun _ => ⟨[], by simp [PlainPieces], rfl, rfl⟩⟩
  · intro _; rfl
  · intro h; exact absurd (fun k h1 h2 => absurd h2 (by simp; omega)) h
  · intro k h1 h2; simp at h2
  · intro k h; simp at h
  · intro k n ps h; simp at h

/-- What an update writes. -/
theorem feed_updateUp {t : Term} {l : Line} {n : Nat} {ps : List Piece} (hm : t.mode = .ground) (hc : t.col = 0) (hn : n + 1 ≤ t.row) (hp : PlainPieces ps) (hd : decorated ps ≠ l.status) :
    feed t (l.updateUp n ps).2 = { t with cell := overlay t.cell (t.row - (n + 1)) 0 (undecorated ps ++ List.replicate (l.len - (undecorated ps).length) ' ') } := by
  have e1 : t.row - (n + 1) + 1 + n = t.row := by omega
  simp only [Line.updateUp, ne_eq, hd, not_false_eq_true, if_true]
  split
  · rename_i hgt
    rw [feed_append, feed_append, feed_append, feed_append, feed_up hm, feed_decorated (by exact hm) hp, feed_sgr (by exact hm), feed_nl (by exact hm), feed_down (by exact hm)]
    have e2 : l.len - (undecorated ps).length = 0 := by omega
    simp only [e1, e2, List.replicate_zero, List.append_nil, hc]
  · rw [feed_append, feed_append, feed_append, feed_append, feed_append, feed_up hm, feed_decorated (by exact hm) hp, feed_sgr (by exact hm), feed_spaces (by exact hm), feed_nl (by exact hm),
      feed_down (by exact hm)]
    simp only [e1, hc, overlay_append]

theorem set_same {α : Type} (f : Nat → α) (k : Nat) (x : α) : Multi.set f k x k = x := by simp [Multi.set]
theorem set_other {α : Type} (f : Nat → α) {k j : Nat} (x : α) (h : j ≠ k) : Multi.set f k x j = f j := by simp [Multi.set, h]

theorem invM_step {t0 : Term} {s : Said} {m m' : Multi} {a : Act} (hi : InvM t0 s m) (ok : Ok m a) (hs : step m a = some m') : InvM t0 (s.act a) m' := by
  obtain ⟨i1, i2, i3, i4, i5, i6, i7, i8, i9, i10, i11, i12, i13⟩ := hi
  cases a with
  | bump =>
    simp only [step, Option.some.injEq] at hs
    subst hs
    obtain ⟨hp, hset⟩ := ok
    have hn : m.made (m.total + 1) = false := by
      cases h : m.made (m.total + 1) with
      | false => rfl
      | true => have := (i6 _ h).2; omega
    have hr := i3 hset
    refine ⟨i1, i2, fun h => ?_, fun _ => ⟨by simp only; omega, hn, hp⟩, fun k h1 h2 => hset k h1 (by simp only at h2; omega), fun k h => ⟨(i6 k h).1, by have := (i6 k h).2; simp only; omega⟩,
      fun k n ps h => absurd h (by simp [hp]), i8, i9, i10, i11, i12, i13⟩
    have := h (m.total + 1) (by omega) (Nat.le_refl _)
    simp [hn] at this
  | newline k =>
    simp only [step] at hs
    split at hs <;> first | contradiction | (injection hs with hs; subst hs)
    rename_i hk
    obtain ⟨h1, h2, h3⟩ := hk
    have hkt : k = m.total := Classical.byContradiction fun h => by have := i5 k h1 (by omega); simp [h3] at this
    subst hkt
    have hns : ¬ Settled m := fun h => by have := h _ h1 (Nat.le_refl _); simp [h3] at this
    obtain ⟨hr, _, hp⟩ := i4 hns
    have hset : ∀ k, 0 < k → k ≤ m.total → Multi.set m.made m.total true k = true := by
      intro k h1 h2
      by_cases h : k = m.total
      · rw [h, set_same]
      · rw [set_other _ _ h]; exact i5 k h1 (by omega)
    rw [feed_nl i1]
    refine ⟨i1, rfl, fun _ => ?_, fun h => absurd hset h, fun k h1 h2 => hset k h1 (Nat.le_of_lt h2), fun k h => ?_, fun k n ps h => absurd h (by simp [hp]), i8, i9, fun k h => ?_, i11, i12, i13⟩
    · dsimp only; omega
    · dsimp only at h ⊢
      by_cases hk : k = m.total
      · omega
      · rw [set_other _ _ hk] at h; exact i6 k h
    · dsimp only at h ⊢
      by_cases hk : k = m.total
      · rw [hk, set_same] at h; contradiction
      · rw [set_other _ _ hk] at h; exact i10 k h
  | read k ps =>
    simp only [step] at hs
    split at hs <;> first | contradiction | (injection hs with hs; subst hs)
    rename_i hk
    obtain ⟨hp, hset⟩ := ok
    refine ⟨i1, i2, i3, fun h => absurd hset h, i5, i6, fun j n qs h => ?_, i8, i9, i10, i11, i12, i13⟩
    simp only [Said.act] at h ⊢
    by_cases hj : j = k
    · subst hj
      rw [set_same] at h
      simp only [Option.some.injEq, Prod.mk.injEq] at h
      obtain ⟨rfl, rfl⟩ := h
      exact ⟨hk.1, rfl, hp, by simp⟩
    · rw [set_other _ _ hj] at h
      simp only [hj, if_false]
      exact i7 j n qs h
  | print k =>
    simp only [step] at hs
    cases hpk : m.pend k with
    | none => simp [hpk] at hs
    | some q =>
      obtain ⟨n, ps⟩ := q
      simp only [hpk, Option.some.injEq] at hs
      subst hs
      obtain ⟨hmk, hn, hp, hcm⟩ := i7 k n ps hpk
      have hset : Settled m := Classical.byContradiction fun h => by have := (i4 h).2.2 k; simp [hpk] at this
      have hr := i3 hset
      obtain ⟨hk0, hkt⟩ := i6 k hmk
      have hpend : ∀ j n' qs, Multi.set m.pend k none j = some (n', qs) → j ≠ k ∧ m.pend j = some (n', qs) := by
        intro j n' qs h
        by_cases hj : j = k
        · rw [hj, set_same] at h; contradiction
        · rw [set_other _ _ hj] at h; exact ⟨hj, h⟩
      by_cases hd : decorated ps = (m.line k).status
      · -- nothing is written
        have hu : (m.line k).updateUp n ps = ({ m.line k with und := undecorated ps }, []) := by simp [Line.updateUp, hd]
        obtain ⟨qs, hq1, hq2, hq3⟩ := i13 k
        have hund : undecorated ps = (m.line k).und := by rw [hq3]; exact undecorated_of_decorated hp hq1 (hd.trans hq2)
        have hline : Multi.set m.line k { m.line k with und := undecorated ps } = m.line := by
          funext j
          by_cases hj : j = k
          · subst hj; rw [set_same, hund]
          · rw [set_other _ _ hj]
        simp only [hu, feed_nil, hline]
        refine ⟨i1, i2, i3, fun h => absurd hset h, i5, i6, fun j n' qs h => ?_, i8, fun j => ?_, i10, i11, i12, i13⟩
        · obtain ⟨_, h⟩ := hpend j n' qs h
          exact i7 j n' qs h
        · simp only [Said.act]
          split
          · rename_i hj; rw [hj, hcm, hund]
          · exact i9 j
      · have hrow : m.term.row - (n + 1) = t0.row + (k - 1) := by omega
        have hf := feed_updateUp (l := m.line k) (n := n) i1 i2 (by omega) hp hd
        have hu : ((m.line k).updateUp n ps).1 = { status := decorated ps, und := undecorated ps, len := (undecorated ps).length } := by simp [Line.updateUp, hd]
        rw [hf, hu, hrow]
        refine ⟨i1, i2, fun _ => hr, fun h => absurd hset h, i5, i6, fun j n' qs h => ?_, fun j => ?_, fun j => ?_, fun j h => ?_, fun j => ?_, fun r c h => ?_, fun j => ?_⟩
        · obtain ⟨_, h⟩ := hpend j n' qs h
          exact i7 j n' qs h
        · by_cases hj : j = k
          · subst hj; simp only [set_same]
          · simp only [set_other _ _ hj]; exact i8 j
        · by_cases hj : j = k
          · subst hj; simp only [set_same, Said.act, if_true, hcm]
          · simp only [set_other _ _ hj, Said.act, hj, if_false]; exact i9 j
        · by_cases hj : j = k
          · subst hj; dsimp only at h; simp [hmk] at h
          · simp only [set_other _ _ hj]; exact i10 j h
        · by_cases hj : j + 1 = k
          · subst hj
            simp only [set_same, Nat.add_sub_cancel]
            refine fun i => shows_overlay (f := m.term.cell) (row := t0.row + j) (col := 0) (s := undecorated ps) (m.line (j + 1)).len (fun i _ hi => ?_) i
            rw [i11 j i, List.getD_eq_getElem?_getD, List.getElem?_eq_none, Option.getD_none]
            rw [← i8]; exact hi
          · simp only [set_other _ _ hj]
            intro i
            have : t0.row + j ≠ t0.row + (k - 1) := by omega
            simp only [overlay, this, false_and, if_false]
            exact i11 j i
        · have : r ≠ t0.row + (k - 1) := by omega
          simp only [overlay, this, false_and, if_false]
          exact i12 r c h
        · by_cases hj : j = k
          · subst hj; simp only [set_same]; exact ⟨ps, hp, rfl, rfl⟩
          · simp only [set_other _ _ hj]; exact i13 j

theorem invM_reach {t0 : Term} (hm : t0.mode = .ground) (hc : t0.col = 0) (hb : ∀ k, Shows t0 (t0.row + k) 0 []) {as : List Act} {s : Said} {m : Multi} (h : Reach t0 as s m) : InvM t0 s m := by
  induction h with
  | init => exact invM_init hm hc hb
  | step h ok hs ih => exact invM_step ih ok hs

/-- C117. Any number of lines, each used by a thread of its own, updated in any order: each row shows the text of the last status of its line and nothing else, and what was above is not touched.
(If no line is created while another one is updated or created.) -/
theorem each_line_shows {t0 : Term} (hm : t0.mode = .ground) (hc : t0.col = 0) (hb : ∀ k, Shows t0 (t0.row + k) 0 []) {as : List Act} {s : Said} {m : Multi} (h : Reach t0 as s m) :
    (∀ k, Shows m.term (t0.row + k) 0 (s.shown (k + 1))) ∧ (∀ r c, r < t0.row → m.term.cell r c = t0.cell r c) ∧
    ((∀ k, 0 < k → k ≤ m.total → m.made k = true) → m.term.row = t0.row + m.total ∧ m.term.col = 0) := by
  have hi := invM_reach hm hc hb h
  exact ⟨fun k => hi.und (k + 1) ▸ hi.shows_ k, hi.frame, fun h => ⟨hi.rowS h, hi.col⟩⟩

/-! ### Runs -/

def blank : Term := { row := 0, col := 0, cell := fun _ _ => ' ' }

/-- The first columns of the first rows. -/
def dump (t : Term) (rows cols : Nat) : List String := (List.range rows).map fun r => String.ofList ((List.range cols).map (t.cell r))

def str (s : String) : List Piece := [.text s.toList]

/-- One line: a prompt, then three statuses, one of them coloured. -/
example : let t0 := feed blank "> ".toList
    dump (Line.updates {} t0 [str "one", [.code 1, .text "seventeen".toList, .code 31], str "two"]).2 1 14 = ["> two         "] ∧
    dump (Line.updates {} t0 [str "one", [.code 1, .text "seventeen".toList, .code 31]]).2 1 14 = ["> seventeen   "] := by decide +kernel

/-- Two lines, updates that overlap. -/
def twoLines : List Act := [.bump, .newline 1, .bump, .newline 2, .read 1 (str "first"), .read 2 (str "second"), .print 2, .print 1, .read 1 (str "1st"), .print 1]

example : ((run { term := blank } twoLines).map fun m => (dump m.term 3 8, m.term.row, m.term.col)) = some (["1st     ", "second  ", "        "], 2, 0) := by decide +kernel

theorem twoLines_disciplined : ∃ s m, Reach blank twoLines.reverse s m ∧ s.shown 1 = "1st".toList ∧ s.shown 2 = "second".toList := by
  have plain : ∀ s : String, s.toList.all (fun c => decide (32 ≤ c.toNat ∧ c.toNat ≠ 127)) = true → PlainPieces (str s) := by
    intro s h u hu c hc
    simp only [str, List.mem_singleton, Piece.text.injEq] at hu
    subst hu
    simpa [Plain] using List.all_eq_true.mp h c hc
  have fin : ∀ (f : Nat → Bool) (n : Nat), (∀ k, k ≤ n → k = 0 ∨ f k = true) → ∀ k, 0 < k → k ≤ n → f k = true := fun f n h k h1 h2 => (h k h2).resolve_left (by omega)
  refine ⟨_, _, .step (.step (.step (.step (.step (.step (.step (.step (.step (.step .init ?_ rfl) ?_ rfl) ?_ rfl) ?_ rfl) ?_ rfl) ?_ rfl) ?_ rfl) ?_ rfl) ?_ rfl) ?_ rfl, ?_, ?_⟩
  · exact ⟨fun _ => rfl, fun k h1 h2 => absurd h2 (by simp; omega)⟩
  · trivial
  · refine ⟨fun _ => rfl, fin _ _ fun k hk => ?_⟩
    have hk : k ≤ 1 := hk
    match k, hk with
    | 0, _ => exact Or.inl rfl
    | 1, _ => exact Or.inr rfl
  · trivial
  · refine ⟨plain "first" (by decide), fin _ _ fun k hk => ?_⟩
    have hk : k ≤ 2 := hk
    match k, hk with
    | 0, _ => exact Or.inl rfl
    | 1, _ => exact Or.inr rfl
    | 2, _ => exact Or.inr rfl
  · refine ⟨plain "second" (by decide), fin _ _ fun k hk => ?_⟩
    have hk : k ≤ 2 := hk
    match k, hk with
    | 0, _ => exact Or.inl rfl
    | 1, _ => exact Or.inr rfl
    | 2, _ => exact Or.inr rfl
  · trivial
  · trivial
  · refine ⟨plain "1st" (by decide), fin _ _ fun k hk => ?_⟩
    have hk : k ≤ 2 := hk
    match k, hk with
    | 0, _ => exact Or.inl rfl
    | 1, _ => exact Or.inr rfl
    | 2, _ => exact Or.inr rfl
  · trivial
  · rfl
  · rfl

/-- A line is created by another thread while the first one is updated, as in `blocks/xterm/multiline.cc:10-31`: `total_` is read before the mutex is taken and the row is made after it was
counted, so the status goes to the wrong row: here over what was above the first line. -/
def race : List Act := [.bump, .newline 1, .bump, .read 1 (str "first"), .print 1, .newline 2]

theorem race_writes_elsewhere : let t0 := feed blank "above\n".toList
    ((run { term := t0 } race).map fun m => dump m.term 3 6) = some (["first ", "      ", "      "]) := by decide +kernel

/-- And the other way round: the row is made after the position was computed. -/
theorem race_writes_elsewhere' : let t0 := feed blank "above\n".toList
    ((run { term := t0 } [.bump, .newline 1, .read 1 (str "first"), .bump, .newline 2, .print 1]).map fun m => dump m.term 3 6) = some (["above ", "      ", "first "]) := by decide +kernel

end Current.Xterm
