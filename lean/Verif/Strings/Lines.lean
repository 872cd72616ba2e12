import Verif.Persist.Model
import Mathlib.Data.List.Induction
/-!
`bricks/strings/group_by_lines.h` (C71).
-/
namespace Current.Strings
open Current.Persist

/-! ### Model -/

/-- `GroupByLinesExceptions`, `group_by_lines.h:73`. -/
inductive Mode where
  | prohibit
  | allow
  deriving DecidableEq, Repr

/-- `GenericStatefulGroupByLines`, `group_by_lines.h:78-93`, with the calls of the user's callback so far. -/
structure Grouper where
  residual : Str := []
  thrown : Bool := false
  done : Bool := false
  calls : List Str := []
  deriving DecidableEq, Repr

/-- How a call ends. -/
inductive Ending where
  | returns
  /-- The exception of the callback. -/
  | callbackThrows
  /-- `GroupByLinesFeedCaledAfterDone`. -/
  | feedAfterDone
  /-- `GroupByLinesDoneCalledTwice`. -/
  | doneTwice
  deriving DecidableEq, Repr

/-- `PROCESSOR::DoProcess(std::move(extracted), f_)` after `residual_.swap(extracted)`. `throws calls` tells whether the last of these calls
throws. Both processors pass the same text, as it never contains a zero. -/
def Grouper.process (throws : List Str → Bool) (g : Grouper) : Grouper × Bool :=
  let g' := { g with residual := [], calls := g.calls ++ [g.residual] }
  (g', throws g'.calls)

/-- The loop of `Feed`, `group_by_lines.h:107-121`. -/
def feedLoop (throws : List Str → Bool) : Str → Grouper → Grouper × Ending
  | [], g => (g, .returns)
  | c :: s, g =>
    if c = '\x00' then (g, .returns)
    else if c = '\n' then
      let r := g.process throws
      if r.2 then ({ r.1 with thrown := true }, .callbackThrows) else feedLoop throws s r.1
    else feedLoop throws s { g with residual := g.residual ++ [c] }

/-- `Feed(const std::string&)`, `group_by_lines.h:94-126`. -/
def Grouper.feed (throws : List Str → Bool) (g : Grouper) (s : Str) : Grouper × Ending :=
  if g.done then (g, .feedAfterDone) else if g.thrown then (g, .returns) else feedLoop throws s g

/-- `DoDone()`, `group_by_lines.h:85-91`. -/
def Grouper.doDone (throws : List Str → Bool) (g : Grouper) : Grouper × Ending :=
  if g.residual ≠ [] then
    let r := g.process throws
    (r.1, if r.2 then .callbackThrows else .returns)
  else (g, .returns)

/-- `Done()`, `group_by_lines.h:128-135`; exists in the mode `allow` only. -/
def Grouper.callDone (throws : List Str → Bool) (g : Grouper) : Grouper × Ending :=
  if g.done then (g, .doneTwice) else Grouper.doDone throws { g with done := true }

/-- What the destructor does, `group_by_lines.h:142-157`. -/
inductive Destroyed where
  | quiet
  /-- The callback throws in a destructor: `std::terminate`. -/
  | terminates
  /-- The handler of the contract failure is called; by default the program exits. -/
  | doneNotCalled
  deriving DecidableEq, Repr

/-- The destructor. -/
def Grouper.destroy (throws : List Str → Bool) (m : Mode) (g : Grouper) : Grouper × Destroyed :=
  match m with
  | .prohibit =>
    let r := g.doDone throws
    (r.1, if r.2 = .callbackThrows then .terminates else .quiet)
  | .allow => (g, if g.done then .quiet else .doneNotCalled)

/-- A call by the user. -/
inductive Op where
  | feed (s : Str)
  | done
  deriving DecidableEq, Repr

/-- A history of calls on a new object, and how each of them ended. The user goes on after exceptions. -/
def Grouper.run (throws : List Str → Bool) : List Op → Grouper → Grouper × List Ending
  | [], g => (g, [])
  | op :: ops, g =>
    let r := match op with
      | .feed s => g.feed throws s
      | .done => g.callDone throws
    let q := Grouper.run throws ops r.1
    (q.1, r.2 :: q.2)

/-! ### Specification -/

/-- `text` consists of the lines `ls`, each with its line end, and of the unfinished line `last`. -/
def Lines (text : Str) (ls : List Str) (last : Str) : Prop :=
  text = (ls.map (· ++ ['\n'])).flatten ++ last ∧ (∀ l ∈ ls, '\n' ∉ l) ∧ '\n' ∉ last

/-- All that is to be delivered: the lines, and the unfinished line if there is something in it. -/
def withLast (ls : List Str) (last : Str) : List Str := ls ++ if last = [] then [] else [last]

/-- `calls` is what a consumer that may throw gets of `all`: everything, or everything up to and with the first call that throws. -/
def UpToThrow (throws : List Str → Bool) (all calls : List Str) : Prop :=
  calls <+: all ∧ (∀ p, p <+: calls → p ≠ calls → p ≠ [] → throws p = false) ∧
    (calls = all ∨ calls ≠ [] ∧ throws calls = true)

/-- The lines of a text are determined by it. -/
theorem lines_unique {text : Str} {ls ls' : List Str} {l l' : Str} (h : Lines text ls l) (h' : Lines text ls' l') :
    ls = ls' ∧ l = l' := by
  have cut : ∀ {a b x y : Str}, '\n' ∉ a → '\n' ∉ b → a ++ '\n' :: x = b ++ '\n' :: y → a = b ∧ x = y := by
    intro a
    induction a with
    | nil =>
      intro b x y _ hb e
      cases b with
      | nil => simpa using e
      | cons c b => simp at e; simp [e.1.symm] at hb
    | cons c a ih =>
      intro b x y ha hb e
      cases b with
      | nil => simp at e; simp [e.1] at ha
      | cons d b =>
        simp at e ha hb
        obtain ⟨r1, r2⟩ := ih ha.2 hb.2 e.2
        exact ⟨by rw [e.1, r1], r2⟩
  induction ls generalizing text ls' with
  | nil =>
    cases ls' with
    | nil => have := h.1.symm.trans h'.1; simpa using this
    | cons a ls' =>
      have e := h.1.symm.trans h'.1
      simp at e
      have := h.2.2
      rw [e] at this; simp at this
  | cons a ls ih =>
    cases ls' with
    | nil =>
      have e := h.1.symm.trans h'.1
      simp at e
      have := h'.2.2
      rw [← e] at this; simp at this
    | cons b ls' =>
      have e := h.1.symm.trans h'.1
      simp only [List.map_cons, List.flatten_cons, List.append_assoc, List.singleton_append] at e
      obtain ⟨e1, e2⟩ := cut (h.2.1 a (by simp)) (h'.2.1 b (by simp)) e
      obtain ⟨r1, r2⟩ := ih (text := (ls.map (· ++ ['\n'])).flatten ++ l) (ls' := ls')
        ⟨rfl, fun x hx => h.2.1 x (by simp [hx]), h.2.2⟩ ⟨e2, fun x hx => h'.2.1 x (by simp [hx]), h'.2.2⟩
      exact ⟨by rw [e1, r1], r2⟩

/-! ### Proofs -/

/-- After the texts `text` were fed: either nothing was thrown and everything was delivered, or the last call threw. -/
structure Inv (throws : List Str → Bool) (text : Str) (g : Grouper) : Prop where
  quiet : ∀ p, p <+: g.calls → p ≠ g.calls → p ≠ [] → throws p = false
  going : g.thrown = false → Lines text g.calls g.residual ∧ (g.calls ≠ [] → throws g.calls = false)
  stopped : g.thrown = true → g.residual = [] ∧ g.calls ≠ [] ∧ throws g.calls = true ∧
    ∃ t u, text = t ++ u ∧ Lines t g.calls []

theorem quiet_concat {throws : List Str → Bool} {calls : List Str} {x : Str}
    (h : ∀ p, p <+: calls → p ≠ calls → p ≠ [] → throws p = false) (hc : calls ≠ [] → throws calls = false) :
    ∀ p, p <+: calls ++ [x] → p ≠ calls ++ [x] → p ≠ [] → throws p = false := by
  intro p hp hne hn
  rw [List.prefix_concat_iff] at hp
  rcases hp with hp | hp
  · exact absurd hp hne
  · by_cases e : p = calls
    · rw [e] at hn ⊢; exact hc hn
    · exact h p hp e hn

theorem lines_newline {text : Str} {ls : List Str} {l : Str} (h : Lines text ls l) : Lines (text ++ ['\n']) (ls ++ [l]) [] := by
  refine ⟨by rw [h.1]; simp, ?_, by simp⟩
  intro x hx
  simp at hx
  rcases hx with hx | rfl
  · exact h.2.1 x hx
  · exact h.2.2

theorem feedLoop_inv {throws : List Str → Bool} : ∀ (s : Str) (text : Str) (g : Grouper), '\x00' ∉ s → g.thrown = false →
    Inv throws text g → Inv throws (text ++ s) (feedLoop throws s g).1 ∧ (feedLoop throws s g).1.done = g.done
  | [], text, g, _, _, h => by rw [List.append_nil]; exact ⟨h, rfl⟩
  | c :: s, text, g, hz, ht, h => by
    simp only [List.mem_cons, not_or] at hz
    have hg := h.going ht
    unfold feedLoop
    rw [if_neg (fun e => hz.1 e.symm)]
    by_cases hn : c = '\n'
    · rw [if_pos hn]
      subst hn
      have hl := lines_newline hg.1
      have hq := quiet_concat (x := g.residual) h.quiet hg.2
      by_cases hth : throws (g.calls ++ [g.residual]) = true
      · simp only [Grouper.process, hth, if_true]
        refine ⟨⟨hq, ?_, ?_⟩, trivial⟩
        · intro h; cases h
        · intro _; exact ⟨rfl, by simp, hth, text ++ ['\n'], s, by simp, hl⟩
      · simp only [Grouper.process, hth, if_false]
        have := feedLoop_inv s (text ++ ['\n']) { g with residual := [], calls := g.calls ++ [g.residual] } hz.2 ht
          ⟨hq, fun _ => ⟨hl, fun _ => by simpa using hth⟩, fun h => by simp [ht] at h⟩
        simpa using this
    · rw [if_neg hn]
      have := feedLoop_inv s (text ++ [c]) { g with residual := g.residual ++ [c] } hz.2 ht
        ⟨h.quiet, fun _ => ⟨⟨by rw [hg.1.1]; simp, hg.1.2.1, ?_⟩, hg.2⟩, fun h => by simp [ht] at h⟩
      · simpa using this
      · simp only [List.mem_append, List.mem_singleton, not_or]
        exact ⟨hg.1.2.2, fun e => hn e.symm⟩

theorem feed_inv {throws : List Str → Bool} {s text : Str} {g : Grouper} (hz : '\x00' ∉ s) (hd : g.done = false)
    (h : Inv throws text g) : Inv throws (text ++ s) (g.feed throws s).1 ∧ (g.feed throws s).1.done = false := by
  unfold Grouper.feed
  rw [hd]
  simp only [Bool.false_eq_true, if_false]
  by_cases ht : g.thrown = true
  · rw [if_pos ht]
    refine ⟨⟨h.quiet, fun e => (by rw [ht] at e; cases e), fun _ => ?_⟩, hd⟩
    obtain ⟨h1, h2, h3, t, u, h4, h5⟩ := h.stopped ht
    exact ⟨h1, h2, h3, t, u ++ s, by rw [h4]; simp, h5⟩
  · rw [if_neg ht]
    have := feedLoop_inv s text g hz (by simpa using ht) h
    exact ⟨this.1, by rw [this.2, hd]⟩

theorem inv_init (throws : List Str → Bool) : Inv throws [] {} :=
  ⟨fun p hp hne => by simp at hp; exact absurd hp hne, fun _ => ⟨⟨rfl, by simp, by simp⟩, by simp⟩, fun h => by cases h⟩

theorem run_feeds {throws : List Str → Bool} : ∀ (ss : List Str) (text : Str) (g : Grouper), (∀ s ∈ ss, '\x00' ∉ s) → g.done = false →
    Inv throws text g → Inv throws (text ++ ss.flatten) (Grouper.run throws (ss.map .feed) g).1 ∧
      (Grouper.run throws (ss.map .feed) g).1.done = false
  | [], text, g, _, hd, h => by simpa [Grouper.run] using ⟨h, hd⟩
  | s :: ss, text, g, hz, hd, h => by
    obtain ⟨h1, h2⟩ := feed_inv (s := s) (hz s (by simp)) hd h
    have := run_feeds ss (text ++ s) _ (fun x hx => hz x (by simp [hx])) h2 h1
    simpa [Grouper.run] using this

theorem prefix_lines : ∀ {t u : Str} {ls ls' : List Str} {last : Str}, Lines t ls [] → Lines (t ++ u) ls' last → ls <+: ls' := by
  intro t u ls ls' last h h'
  have key : ∀ u : Str, ∃ ls1 l1, Lines u ls1 l1 := by
    intro u
    induction u using List.reverseRecOn with
    | nil => exact ⟨[], [], rfl, by simp, by simp⟩
    | append_singleton u c ih =>
      obtain ⟨ls1, l1, hl⟩ := ih
      by_cases hc : c = '\n'
      · subst hc; exact ⟨_, _, lines_newline hl⟩
      · exact ⟨ls1, l1 ++ [c], by rw [hl.1]; simp, hl.2.1, by
          simp only [List.mem_append, List.mem_singleton, not_or]; exact ⟨hl.2.2, fun e => hc e.symm⟩⟩
  obtain ⟨ls1, l1, hl⟩ := key u
  have : Lines (t ++ u) (ls ++ ls1) l1 := by
    refine ⟨by rw [h.1, hl.1]; simp, ?_, hl.2.2⟩
    intro x hx; simp at hx
    rcases hx with hx | hx
    · exact h.2.1 x hx
    · exact hl.2.1 x hx
  obtain ⟨e, _⟩ := lines_unique h' this
  rw [e]; exact List.prefix_append _ _

theorem doDone_spec {throws : List Str → Bool} {text : Str} {g : Grouper} (h : Inv throws text g) {ls : List Str} {last : Str}
    (hl : Lines text ls last) : UpToThrow throws (withLast ls last) (g.doDone throws).1.calls ∧
      (g.doDone throws).1.residual = [] := by
  unfold Grouper.doDone
  by_cases ht : g.thrown = true
  · obtain ⟨h1, h2, h3, t, u, h4, h5⟩ := h.stopped ht
    rw [if_neg (by simp [h1])]
    refine ⟨⟨?_, h.quiet, .inr ⟨h2, h3⟩⟩, h1⟩
    rw [h4] at hl
    exact (prefix_lines h5 hl).trans (List.prefix_append _ _)
  · obtain ⟨h1, h2⟩ := h.going (by simpa using ht)
    obtain ⟨e1, e2⟩ := lines_unique hl h1
    subst e1 e2
    by_cases hr : g.residual = []
    · rw [if_neg (by simp [hr])]
      refine ⟨⟨by simp [withLast, hr], h.quiet, .inl (by simp [withLast, hr])⟩, hr⟩
    · rw [if_pos hr]
      refine ⟨⟨by simp [withLast, hr, Grouper.process], quiet_concat h.quiet h2, .inl (by simp [withLast, hr, Grouper.process])⟩, rfl⟩

/-! ### Theorems -/

/-- **C71.** Without exceptions: however a text is cut into pieces, feeding them calls the callback with the complete lines of the text, in order,
each exactly once; the destructor adds the last, unfinished line if it is not empty. -/
theorem lines_any_chunking (ss : List Str) (hz : ∀ s ∈ ss, '\x00' ∉ s) (ls : List Str) (last : Str) (hl : Lines ss.flatten ls last) :
    let g := (Grouper.run (fun _ => false) (ss.map .feed) {}).1
    g.calls = ls ∧ g.residual = last ∧ (g.destroy (fun _ => false) .prohibit).1.calls = withLast ls last := by
  obtain ⟨h, hd⟩ := run_feeds (throws := fun _ => false) ss [] {} hz rfl (inv_init _)
  rw [List.nil_append] at h
  have ht : (Grouper.run (fun _ => false) (ss.map .feed) {}).1.thrown = false := by
    cases hth : (Grouper.run (fun _ => false) (ss.map .feed) {}).1.thrown with
    | false => rfl
    | true => have := (h.stopped hth).2.2.1; cases this
  obtain ⟨e1, e2⟩ := lines_unique hl (h.going ht).1
  refine ⟨e1.symm, e2.symm, ?_⟩
  have := (doDone_spec h hl).1
  rcases this.2.2 with r | r
  · exact r
  · cases r.2

/-- **C71.** With a callback that may throw: whatever the pieces, after `Done()` or after the destructor the callback was called with the lines and
the unfinished line, in order, up to the first call that threw, and never again. -/
theorem lines_with_exceptions (throws : List Str → Bool) (ss : List Str) (hz : ∀ s ∈ ss, '\x00' ∉ s) (ls : List Str) (last : Str)
    (hl : Lines ss.flatten ls last) :
    let g := (Grouper.run throws (ss.map .feed) {}).1
    UpToThrow throws (withLast ls last) (g.callDone throws).1.calls ∧
      UpToThrow throws (withLast ls last) (g.destroy throws .prohibit).1.calls := by
  obtain ⟨h, hd⟩ := run_feeds (throws := throws) ss [] {} hz rfl (inv_init _)
  rw [List.nil_append] at h
  refine ⟨?_, (doDone_spec h hl).1⟩
  simp only [Grouper.callDone, hd]
  exact (doDone_spec (g := { (Grouper.run throws (ss.map Op.feed) {}).1 with done := true }) ⟨h.quiet, h.going, h.stopped⟩ hl).1

/-- **C71.** After `Done()`, `Feed` and `Done` throw, whatever the history, and neither they nor the destructor call the callback. -/
theorem after_done (throws : List Str → Bool) (g : Grouper) (hd : g.done = true) (ops : List Op) :
    (Grouper.run throws ops g).1 = g ∧
    (Grouper.run throws ops g).2 = ops.map (fun | .feed _ => .feedAfterDone | .done => .doneTwice) ∧
    g.destroy throws .allow = (g, .quiet) := by
  refine ⟨?_, ?_, by simp [Grouper.destroy, hd]⟩ <;>
  · induction ops with
    | nil => rfl
    | cons op ops ih =>
      cases op with
      | feed s => simp only [Grouper.run, Grouper.feed, hd, if_true, List.map_cons]; first | exact ih | rw [ih]
      | done => simp only [Grouper.run, Grouper.callDone, hd, if_true, List.map_cons]; first | exact ih | rw [ih]

theorem done_is_done (throws : List Str → Bool) (g : Grouper) : (g.callDone throws).1.done = true := by
  unfold Grouper.callDone
  by_cases h : g.done = true
  · rw [if_pos h]; exact h
  · rw [if_neg h]
    unfold Grouper.doDone
    split <;> rfl

/-- **C71.** Forgetting `Done()` in the mode that allows exceptions is reported: the destructor calls the handler exactly if `Done()` was never
called. -/
theorem forgotten_done (throws : List Str → Bool) (ops : List Op) :
    ((Grouper.run throws ops {}).1.destroy throws .allow).2 = .doneNotCalled ↔ Op.done ∉ ops := by
  have loop : ∀ (s : Str) (g : Grouper), (feedLoop throws s g).1.done = g.done := by
    intro s
    induction s with
    | nil => intro g; rfl
    | cons c s ih =>
      intro g
      unfold feedLoop
      split
      · rfl
      · split
        · by_cases ht : (g.process throws).2 = true
          · simp only [if_pos ht]; rfl
          · simp only [if_neg ht, ih]; rfl
        · rw [ih]
  have key : ∀ (ops : List Op) (g : Grouper), (Grouper.run throws ops g).1.done = true ↔ g.done = true ∨ Op.done ∈ ops := by
    intro ops
    induction ops with
    | nil => intro g; simp [Grouper.run]
    | cons op ops ih =>
      intro g
      simp only [Grouper.run, ih]
      cases op with
      | feed s =>
        have : (g.feed throws s).1.done = g.done := by
          unfold Grouper.feed
          split
          · rfl
          · split
            · rfl
            · exact loop s g
        simp [this]
      | done => simp [done_is_done]
  have := key ops {}
  simp only [Grouper.destroy]
  by_cases h : (Grouper.run throws ops {}).1.done = true
  · rw [if_pos h]
    rw [this] at h
    simp at h
    simp [h]
  · rw [if_neg h]
    rw [this] at h
    simp at h
    simp [h]

/-- A text is passed on as a C string: what is after a zero is lost, although `Feed` takes an `std::string`. -/
theorem feed_loses_after_zero (throws : List Str → Bool) (g : Grouper) (s u : Str) :
    g.feed throws (s ++ '\x00' :: u) = g.feed throws s := by
  have : ∀ (s : Str) (g : Grouper), feedLoop throws (s ++ '\x00' :: u) g = feedLoop throws s g := by
    intro s
    induction s with
    | nil => intro g; simp [feedLoop]
    | cons c s ih => intro g; simp only [List.cons_append, feedLoop, ih]
  simp only [Grouper.feed, this]

/-! ### Examples -/

example : Lines ['a', '\n', '\n', 'b'] [['a'], []] ['b'] := ⟨rfl, by decide, by decide⟩
example : (Grouper.run (fun _ => false) [.feed ['a'], .feed ['\n', '\n'], .feed ['b']] {}).1.calls = [['a'], []] := by decide
/-- The callback throws on its second call: the third line is not delivered, not even by `Done()`. -/
example : (Grouper.run (fun l => l.length == 2) [.feed ['a', '\n', 'b', '\n'], .feed ['c', '\n', 'd'], .done] {}) =
    ({ residual := [], thrown := true, done := true, calls := [['a'], ['b']] }, [.callbackThrows, .returns, .returns]) := by decide

end Current.Strings
