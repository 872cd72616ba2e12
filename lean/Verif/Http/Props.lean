import Verif.Http.Model
/-! Properties of serving a stream over HTTP (C25, C26, C27). -/
namespace Current.Http
open Current.Persist

/-! ### C25: where the response starts -/

/-- Specification: the entries the query asks for, in a stream of `size` entries, at time `now`. -/
def Wanted (q : Query) (now : Int) (size : Nat) (x : IdxTs) : Prop :=
  (∀ i, q.i = some i → i ≤ x.index) ∧ (∀ t, q.tail = some t → size - t ≤ x.index) ∧
  (∀ r : Nat, q.recent = some r → now - r ≤ x.us) ∧ (∀ s : Nat, q.since = some s → (s : Int) ≤ x.us)

instance (q : Query) (now : Int) (size : Nat) (x : IdxTs) : Decidable (Wanted q now size x) := by
  unfold Wanted
  have h1 : ∀ {P : Nat → Prop} [DecidablePred P] (o : Option Nat), Decidable (∀ i, o = some i → P i) := by
    intro P _ o
    cases o with
    | none => exact isTrue (by simp)
    | some v => exact decidable_of_iff (P v) (by simp)
  have := @h1
  infer_instance

/-- Entries passed one after another, each with the index of the last one published at that moment. -/
def passes (l : List ((IdxTs × Nat) × Str)) : List In := l.map fun t => .entry t.1.1 t.1.2 t.2 false

/-- No limit on the response. -/
def Query.unlimited (q : Query) : Prop :=
  q.n.getD 0 = 0 ∧ q.period.getD 0 = 0 ∧ q.stopAfterBytes.getD 0 = 0

theorem serve_unlimited (e : Ep) (x : IdxTs) (last : Nat) (text : Str) (hn : e.n = 0) (hp : e.p.period = 0) (ht : e.to_ = 0)
    (hs : e.p.stopAfterBytes = 0) :
    (e.serve x last text).1 = e.send x text ∧ (e.serve x last text).2 = (decide (x.index = last) && e.p.noWait) := by
  simp only [Ep.serve, Ep.serve2, Ep.setTo, hp, ht, Ep.send, hs, hn]
  by_cases h : x.index = last ∧ e.p.noWait = true
  · simp [h.1, h.2]
  · by_cases h1 : x.index = last
    · have h2 : e.p.noWait = false := by simpa [h1] using h
      simp [h1, h2]
    · simp [h1]

theorem entry_serving (e : Ep) (x : IdxTs) (last : Nat) (text : Str) (hs : e.serving = true) :
    e.entry x last text false = e.serve x last text := by
  obtain ⟨p, sv, fr, to_, n, by_, st, out, sent⟩ := e
  simp only at hs
  subst hs
  rfl

theorem entry_skipped (e : Ep) (x : IdxTs) (last : Nat) (text : Str) (hs : e.serving = false) (hq : e.qualifies x last = false) :
    e.entry x last text false = (e, decide (x.index = last) && e.p.noWait) := by
  obtain ⟨p, sv, fr, to_, n, by_, st, out, sent⟩ := e
  simp only at hs
  subst hs
  simp only [Ep.entry, hq]
  rfl

theorem entry_started (e : Ep) (x : IdxTs) (last : Nat) (text : Str) (hq : e.qualifies x last = true) :
    e.entry x last text false = ({ e with serving := true } : Ep).entry x last text false := by
  unfold Ep.entry
  simp [hq]

structure Unl (e : Ep) : Prop where
  n : e.n = 0
  period : e.p.period = 0
  to_ : e.to_ = 0
  stop : e.p.stopAfterBytes = 0

theorem Unl.send {e : Ep} (h : Unl e) (x : IdxTs) (t : Str) : Unl (e.send x t) := ⟨h.n, h.period, h.to_, h.stop⟩

theorem feed_serving (w : Texts) (l : List ((IdxTs × Nat) × Str)) (e : Ep) (hu : Unl e) (hs : e.serving = true)
    (hnw : e.p.noWait = true → ∀ t ∈ l.dropLast, t.1.1.index ≠ t.1.2) :
    (e.feed w (passes l)).1.sent = e.sent ++ l.map fun t => (t.1.1, t.2) := by
  induction l generalizing e with
  | nil => simp [passes, Ep.feed]
  | cons t l ih =>
    obtain ⟨⟨x, last⟩, text⟩ := t
    have hst : e.step w (.entry x last text false) =
        if decide (x.index = last) && e.p.noWait then ((e.send x text).close, true) else (e.send x text, false) := by
      have := serve_unlimited e x last text hu.n hu.period hu.to_ hu.stop
      simp only [Ep.step, entry_serving e x last text hs]
      rw [this.2, this.1]
    simp only [passes, List.map_cons, Ep.feed]
    rw [hst]
    by_cases hd : (decide (x.index = last) && e.p.noWait) = true
    · simp only [hd, if_true]
      cases l with
      | nil => simp [Ep.close, Ep.send]
      | cons t' l =>
        simp only [Bool.and_eq_true, decide_eq_true_eq] at hd
        exact absurd hd.1 (hnw hd.2 ((x, last), text) (by simp [List.dropLast]))
    · simp only [hd]
      have := ih (e.send x text) (hu.send x text) hs (by
        intro h t ht
        refine hnw h t ?_
        cases l with
        | nil => simp at ht
        | cons => exact List.mem_cons_of_mem _ ht)
      simp only [passes] at this
      simp only [Bool.false_eq_true, if_false, this]
      simp [Ep.send]

/-- What is sent when nothing limits the response: everything passed, from the first entry that qualifies on. -/
theorem feed_unlimited (w : Texts) (l : List ((IdxTs × Nat) × Str)) (e : Ep) (hu : Unl e)
    (hnw : e.p.noWait = true → ∀ t ∈ l.dropLast, t.1.1.index ≠ t.1.2) :
    (e.feed w (passes l)).1.sent = e.sent ++
      (if e.serving then l else l.dropWhile (fun t => !e.qualifies t.1.1 t.1.2)).map fun t => (t.1.1, t.2) := by
  by_cases hs : e.serving = true
  · rw [feed_serving w l e hu hs hnw, if_pos hs]
  · rw [if_neg hs]
    simp only [Bool.not_eq_true] at hs
    induction l with
    | nil => simp [passes, Ep.feed]
    | cons t l ih =>
      obtain ⟨⟨x, last⟩, text⟩ := t
      have hnw' : e.p.noWait = true → ∀ t ∈ l.dropLast, t.1.1.index ≠ t.1.2 := by
        intro h t ht
        refine hnw h t ?_
        cases l with
        | nil => simp at ht
        | cons => exact List.mem_cons_of_mem _ ht
      by_cases hq : e.qualifies x last = true
      · have : e.feed w (passes (((x, last), text) :: l)) = ({ e with serving := true } : Ep).feed w (passes (((x, last), text) :: l)) := by
          have hst : e.step w (.entry x last text false) = ({ e with serving := true } : Ep).step w (.entry x last text false) := by
            simp only [Ep.step, entry_started e x last text hq]
          simp only [passes, List.map_cons, Ep.feed]
          rw [hst]
        rw [this, feed_serving w _ { e with serving := true } ⟨hu.n, hu.period, hu.to_, hu.stop⟩ rfl hnw]
        simp [List.dropWhile, hq]
      · simp only [Bool.not_eq_true] at hq
        have hst : e.step w (.entry x last text false) =
            if decide (x.index = last) && e.p.noWait then (e.close, true) else (e, false) := by
          simp only [Ep.step, entry_skipped e x last text hs hq]
        simp only [passes, List.map_cons, Ep.feed]
        rw [hst]
        by_cases hd : (decide (x.index = last) && e.p.noWait) = true
        · simp only [hd, if_true]
          cases l with
          | nil => simp [Ep.close, List.dropWhile, hq]
          | cons t' l =>
            simp only [Bool.and_eq_true, decide_eq_true_eq] at hd
            exact absurd hd.1 (hnw hd.2 ((x, last), text) (by simp [List.dropLast]))
        · simp only [hd]
          have := ih hnw'
          simp only [passes] at this
          simp only [Bool.false_eq_true, if_false, this]
          simp [List.dropWhile, hq]

theorem unl_init (q : Query) (now : Int) (size : Nat) (hq : q.unlimited) : Unl (Ep.init (parse q) now size) := by
  obtain ⟨h1, h2, h3⟩ := hq
  exact ⟨by simp [Ep.init, parse, h1], by simp [Ep.init, parse, h2], rfl, by simp [Ep.init, parse, h3]⟩

theorem filter_drop_prefix {α : Type} (P : α → Bool) (l : List α) (b : Nat) (h : ∀ j x, l[j]? = some x → j < b → P x = false) :
    l.filter P = (l.drop b).filter P := by
  rw [← List.take_append_drop b l, List.filter_append]
  have : (l.take b).filter P = [] := by
    rw [List.filter_eq_nil_iff]
    intro x hx
    obtain ⟨j, hj⟩ := List.getElem?_of_mem hx
    rw [List.getElem?_take] at hj
    split at hj
    · rename_i hjb
      simp [h j x hj hjb]
    · cases hj
  rw [this]
  simp only [List.nil_append, List.take_append_drop]

theorem filter_eq_dropWhile {α : Type} (P : α → Bool) (l : List α) (h : l.Pairwise fun x y => P x = true → P y = true) :
    l.filter P = l.dropWhile (fun x => !P x) := by
  induction l with
  | nil => rfl
  | cons x l ih =>
    rw [List.pairwise_cons] at h
    by_cases hx : P x = true
    · have : l.filter P = l := List.filter_eq_self.2 fun y hy => h.1 y hy hx
      simp [List.dropWhile, hx, this]
    · simp only [Bool.not_eq_true] at hx
      simp [List.dropWhile, hx, ih h.2]

/-- A stream's content: entry `j` carries index `j`, timestamps strictly increase from 0 on (C01). -/
structure StreamLike (es : List (IdxTs × Str)) : Prop where
  idx : ∀ (j : Nat) (x : IdxTs × Str), es[j]? = some x → x.1.index = j
  inc : es.Pairwise fun (x y : IdxTs × Str) => x.1.us < y.1.us
  pos : ∀ x ∈ es, 0 ≤ x.1.us

theorem StreamLike.idx_lt {es : List (IdxTs × Str)} (h : StreamLike es) {x : IdxTs × Str} (hx : x ∈ es) :
    x.1.index < es.length ∧ es[x.1.index]? = some x := by
  obtain ⟨j, hj⟩ := List.getElem?_of_mem hx
  have := h.idx j x hj
  rw [this]
  exact ⟨(List.getElem?_eq_some_iff.1 hj).1, hj⟩

/-- C25: for a query with at most one of `since`/`recent`, and not `tail=0`, the response to a stream that is not being
published to consists of exactly the entries the query asks for, in order. (With `nowait` too, and then it ends there.)
The excluded combinations are `recent_overrides_since` and `tail_zero_overrides_i`; concurrent publications: `serves_from_first_qualifying`. -/
theorem response_is_what_was_asked_partial (w : Texts) (q : Query) (now : Int) (es : List (IdxTs × Str)) (hes : StreamLike es)
    (hq : q.unlimited) (hone : q.recent = none ∨ q.since = none)
    (hr : q.recent ≠ some 0) (hsi : q.since ≠ some 0) (ht : q.tail ≠ some 0) :
    ((Ep.init (parse q) now es.length).feed w
      (passes ((es.drop (beginIdx (parse q) now es.length (es.map (·.1.us))).1).map fun x => ((x.1, es.length - 1), x.2)))).1.sent =
    es.filter fun x => decide (Wanted q now es.length x.1) := by
  have htn : (parse q).tailNow = false := by simp [parse, ht]
  have hu := unl_init q now es.length hq
  generalize hbdef : (beginIdx (parse q) now es.length (es.map (·.1.us))).1 = b
  -- the endpoint's check is the specification, for entries of the stream
  have hinc : (es.map (·.1.us)).Pairwise (· < ·) := by rw [List.pairwise_map]; exact hes.inc
  have hlb := fun t => lowerBound_spec (es.map (·.1.us)) hinc t
  have key : ∀ x ∈ es, (Ep.init (parse q) now es.length).qualifies x.1 (es.length - 1) = decide (Wanted q now es.length x.1) := by
    intro x hx
    have hix := (hes.idx_lt hx).1
    have hpos := hes.pos x hx
    rw [Bool.eq_iff_iff]
    simp only [decide_eq_true_eq]
    unfold Ep.qualifies Wanted
    simp only [Ep.init, htn, Bool.and_eq_true, Bool.or_eq_true, decide_eq_true_eq, Bool.false_eq_true, if_false]
    have h1 : x.1.index ≥ (parse q).i ↔ ∀ i, q.i = some i → i ≤ x.1.index := by
      cases h : q.i <;> simp [parse, h]
    have h2 : ((parse q).tail = 0 ∨ es.length - 1 - x.1.index < (parse q).tail) ↔ ∀ t, q.tail = some t → es.length - t ≤ x.1.index := by
      cases h : q.tail with
      | none => simp [parse, h]
      | some t =>
        simp only [parse, h, Option.getD_some, Option.some.injEq, forall_eq']
        have : t ≠ 0 := by rintro rfl; exact ht h
        omega
    rw [h1, h2]
    have h3 : (((if (parse q).recent > 0 then now - (parse q).recent else if (parse q).since > 0 then (parse q).since else 0) = 0) ∨
        x.1.us ≥ (if (parse q).recent > 0 then now - (parse q).recent else if (parse q).since > 0 then (parse q).since else 0)) ↔
        (∀ r : Nat, q.recent = some r → now - r ≤ x.1.us) ∧ (∀ s : Nat, q.since = some s → (s : Int) ≤ x.1.us) := by
      cases h : q.recent with
      | none =>
        cases h' : q.since with
        | none => simp [parse, h, h']
        | some s =>
          have : s ≠ 0 := by rintro rfl; exact hsi h'
          simp only [parse, h, h', Option.getD_none, Option.getD_some, Option.some.injEq, forall_eq']
          rw [if_neg (by simp), if_pos (by omega)]
          simp; omega
      | some r =>
        have hs' : q.since = none := by rcases hone with h1 | h1; rw [h] at h1; cases h1; exact h1
        have : r ≠ 0 := by rintro rfl; exact hr h
        simp only [parse, h, hs', Option.getD_none, Option.getD_some, Option.some.injEq, forall_eq']
        rw [if_pos (by omega)]
        simp; omega
    constructor
    · rintro ⟨⟨a, b⟩, c⟩; exact ⟨a, b, h3.1 c⟩
    · rintro ⟨a, b, c⟩; exact ⟨⟨a, b⟩, h3.2 c⟩
  -- nothing wanted is before the beginning
  have hbefore : ∀ j x, es[j]? = some x → j < b → decide (Wanted q now es.length x.1) = false := by
    intro j x hj hjb
    have hx := List.mem_of_getElem? hj
    have hij := hes.idx j x hj
    have hjl : j < es.length := (List.getElem?_eq_some_iff.1 hj).1
    rw [decide_eq_false_iff_not]
    rintro ⟨w1, w2, w3, w4⟩
    have us_before : ∀ t : Int, j < (indexRange (es.map (·.1.us)) t 0).1.getD es.length → x.1.us < t := by
      intro t hlt
      obtain ⟨l1, l2⟩ := hlb t
      have hxus : (es.map (·.1.us))[j]? = some x.1.us := by simp [hj]
      by_cases hge : x.1.us < t
      · exact hge
      · exfalso
        have : lowerBound (es.map (·.1.us)) t ≤ j := by
          apply Classical.byContradiction; intro hc
          have hjj : j < (es.map (·.1.us)).length := by simpa using hjl
          have := (l2 j hjj).2 (by omega)
          rw [List.getElem?_eq_getElem hjj] at hxus
          injection hxus with hxus
          rw [hxus] at this
          exact hge this
        simp only [indexRange] at hlt
        split at hlt
        · simp only [Option.getD_some] at hlt; omega
        · rename_i hne; simp at hne; simp only [List.length_map] at *; omega
    subst hbdef
    unfold beginIdx at hjb
    simp only [htn, Bool.false_or, Bool.false_eq_true, if_false] at hjb
    by_cases htl : (parse q).tail ≠ 0
    · simp only [if_pos htl, decide_true, if_true] at hjb
      rw [if_neg (by simp [htl])] at hjb
      have hte : ∃ t, q.tail = some t ∧ (parse q).tail = t := by
        cases h : q.tail with
        | none => simp [parse, h] at htl
        | some t => exact ⟨t, rfl, by simp [parse, h]⟩
      obtain ⟨t, h1, h2⟩ := hte
      have hw2 := w2 t h1
      have hw1 : (parse q).i ≤ x.1.index := by
        cases h : q.i with
        | none => simp [parse, h]
        | some i => simpa [parse, h] using w1 i h
      rw [h2] at hjb
      split at hjb <;> omega
    · simp only [htl, decide_false, Bool.false_eq_true, if_false] at hjb
      by_cases hrc : (parse q).recent > 0
      · simp only [hrc, if_true] at hjb
        obtain ⟨r, h1, h2⟩ : ∃ r : Nat, q.recent = some r ∧ (parse q).recent = r := by
          cases h : q.recent with
          | none => simp [parse, h] at hrc
          | some r => exact ⟨r, rfl, by simp [parse, h]⟩
        have := w3 r h1
        rw [h2] at hjb
        split at hjb
        · have := us_before (now - r) (by omega); omega
        · omega
      · simp only [hrc, if_false] at hjb
        by_cases hsc : (parse q).since > 0
        · simp only [hsc, if_true] at hjb
          obtain ⟨s, h1, h2⟩ : ∃ s : Nat, q.since = some s ∧ (parse q).since = s := by
            cases h : q.since with
            | none => simp [parse, h] at hsc
            | some s => exact ⟨s, rfl, by simp [parse, h]⟩
          have := w4 s h1
          rw [h2] at hjb
          have := us_before s (by omega)
          omega
        · simp only [hsc, if_false] at hjb
          have hw1 : (parse q).i ≤ x.1.index := by
            cases h : q.i with
            | none => simp [parse, h]
            | some i => simpa [parse, h] using w1 i h
          simp at hjb
          omega
  rw [filter_drop_prefix _ es b hbefore]
  have hmap : ∀ l : List (IdxTs × Str), (l.map fun x => ((x.1, es.length - 1), x.2)).map (fun t : (IdxTs × Nat) × Str => (t.1.1, t.2)) = l := by
    intro l; rw [List.map_map]; exact List.map_id' _
  rw [feed_unlimited w _ _ hu]
  · show [] ++ _ = _
    rw [List.nil_append]
    have hdw : ∀ l : List (IdxTs × Str), (∀ x ∈ l, x ∈ es) →
        ((l.map fun x => ((x.1, es.length - 1), x.2)).dropWhile (fun t => !(Ep.init (parse q) now es.length).qualifies t.1.1 t.1.2)).map
          (fun t : (IdxTs × Nat) × Str => (t.1.1, t.2)) = l.dropWhile (fun x => !decide (Wanted q now es.length x.1)) := by
      intro l
      induction l with
      | nil => intro _; rfl
      | cons x l ih =>
        intro hl
        have hk := key x (hl x (List.mem_cons_self ..))
        simp only [List.map_cons, List.dropWhile, hk]
        split
        · exact ih fun y hy => hl y (List.mem_cons_of_mem _ hy)
        · simp only [List.map_cons]; rw [hmap]
    have hmono : es.Pairwise fun x y => decide (Wanted q now es.length x.1) = true → decide (Wanted q now es.length y.1) = true := by
      have hidx : es.Pairwise fun x y => x.1.index < y.1.index := by
        rw [List.pairwise_iff_getElem]
        intro i j hi hj hij
        rw [hes.idx i _ (List.getElem?_eq_getElem hi), hes.idx j _ (List.getElem?_eq_getElem hj)]; exact hij
      refine (hes.inc.and hidx).imp ?_
      rintro x y ⟨h1, h2⟩ h
      simp only [decide_eq_true_eq] at h ⊢
      obtain ⟨w1, w2, w3, w4⟩ := h
      exact ⟨fun i hi => by have := w1 i hi; omega, fun i hi => by have := w2 i hi; omega,
        fun i hi => by have := w3 i hi; omega, fun i hi => by have := w4 i hi; omega⟩
    rw [filter_eq_dropWhile _ _ (hmono.sublist (List.drop_sublist _ _))]
    rw [← hdw _ (fun x hx => List.mem_of_mem_drop hx)]
    by_cases hs : (Ep.init (parse q) now es.length).serving = true
    · rw [if_pos hs, hmap]
      -- serving from the start: everything from the beginning on is wanted
      rw [hdw _ (fun x hx => List.mem_of_mem_drop hx)]
      have hall : ∀ x ∈ es.drop b, Wanted q now es.length x.1 := by
        intro x hx
        have hxe := List.mem_of_mem_drop hx
        obtain ⟨j, hj⟩ := List.getElem?_of_mem hx
        rw [List.getElem?_drop] at hj
        have hij := hes.idx _ x hj
        have hno : q.recent = none ∧ q.since = none := by
          simp only [Ep.init, Bool.not_eq_true', Bool.or_eq_false_iff, decide_eq_false_iff_not] at hs
          constructor
          · cases h : q.recent with
            | none => rfl
            | some r => exfalso; have : r ≠ 0 := by rintro rfl; exact hr h
                        apply hs.1; simp [parse, h]; omega
          · cases h : q.since with
            | none => rfl
            | some r => exfalso; have : r ≠ 0 := by rintro rfl; exact hsi h
                        apply hs.2; simp [parse, h]; omega
        refine ⟨?_, ?_, by simp [hno.1], by simp [hno.2]⟩
        · intro i hi
          rw [hij]
          subst hbdef
          simp only [beginIdx, htn, parse, hno.1, hno.2, hi]
          simp only [Option.getD_some, Option.getD_none, ht, decide_false]
          by_cases h0 : q.tail.getD 0 = 0
          · simp [h0]
          · simp [h0]; omega
        · intro t hti
          rw [hij]
          have : t ≠ 0 := by rintro rfl; exact ht hti
          subst hbdef
          simp only [beginIdx, htn, parse, hno.1, hno.2, hti]
          simp [this]
          split <;> omega
      generalize es.drop b = l at *
      cases l with
      | nil => rfl
      | cons x l => simp [List.dropWhile, hall x (List.mem_cons_self ..)]
    · rw [if_neg hs]
  · intro _ t ht
    rw [← List.map_dropLast, List.mem_map] at ht
    obtain ⟨x, hx, rfl⟩ := ht
    obtain ⟨j, hj⟩ := List.getElem?_of_mem hx
    have hjl := (List.getElem?_eq_some_iff.1 hj).1
    rw [List.getElem?_dropLast] at hj
    split at hj
    · rw [List.getElem?_drop] at hj
      have := hes.idx _ x hj
      dsimp only
      simp only [List.length_drop] at *
      omega
    · cases hj

/-- Three entries. -/
def demoEntries : List (IdxTs × Str) := [(⟨0, 10⟩, ['a', '\n']), (⟨1, 20⟩, ['b', '\n']), (⟨2, 30⟩, ['c', '\n'])]

theorem demo_streamLike : StreamLike demoEntries := by
  refine ⟨?_, by decide, by decide⟩
  intro j x h
  match j with
  | 0 => cases h; rfl
  | 1 => cases h; rfl
  | 2 => cases h; rfl
  | j + 3 => simp [demoEntries] at h

example : StreamLike demoEntries ∧ ({ since := some 15, i := some 1, tail := some 2 } : Query).unlimited ∧
    demoEntries.filter (fun x => decide (Wanted { since := some 15, i := some 1, tail := some 2 } 100 3 x.1)) = demoEntries.drop 1 ∧
    (beginIdx (parse { since := some 25 }) 100 3 (demoEntries.map (·.1.us))).1 = 2 :=
  ⟨demo_streamLike, ⟨rfl, rfl, rfl⟩, by decide, by decide +kernel⟩

/-- C25, with concurrent publications: when nothing limits the response, it is a contiguous run of what the subscriber is passed: all
of it if neither `since` nor `recent` is given, otherwise from the first entry that is at or after `i`, within `tail` of the last entry at that
moment, and not older than asked. -/
theorem serves_from_first_qualifying (w : Texts) (q : Query) (now : Int) (size : Nat) (l : List ((IdxTs × Nat) × Str))
    (hq : q.unlimited) (hnw : q.noWait = false) :
    ((Ep.init (parse q) now size).feed w (passes l)).1.sent =
      (if (parse q).recent > 0 ∨ (parse q).since > 0 then l.dropWhile (fun t => !(Ep.init (parse q) now size).qualifies t.1.1 t.1.2)
       else l).map fun t => (t.1.1, t.2) := by
  rw [feed_unlimited w l _ (unl_init q now size hq) (by intro h; have : (parse q).noWait = true := h; simp [parse, hnw] at this)]
  show [] ++ _ = _
  rw [List.nil_append]
  congr 1
  by_cases h : (parse q).recent > 0 ∨ (parse q).since > 0
  · rw [if_pos h, if_neg (by simp only [Ep.init]; rcases h with h | h <;> simp [h])]
  · rw [if_neg h, if_pos (by simp only [Ep.init]; simp only [not_or] at h; simp [h.1, h.2])]

/-- C25: `tail=0` serves exactly what is published after the request. -/
theorem tail_zero_serves_new_entries (w : Texts) (q : Query) (now : Int) (size : Nat) (ts : List Int) (l : List ((IdxTs × Nat) × Str))
    (hq : q.unlimited) (hnw : q.noWait = false) (ht : q.tail = some 0) (hr : q.recent = none) (hs : q.since = none) :
    (beginIdx (parse q) now size ts).1 = size ∧
    ((Ep.init (parse q) now size).feed w (passes l)).1.sent = l.map fun t => (t.1.1, t.2) := by
  refine ⟨by simp [beginIdx, parse, ht], ?_⟩
  rw [serves_from_first_qualifying w q now size l hq hnw, if_neg (by simp [parse, hr, hs])]

example : ({ tail := some 0 } : Query).unlimited ∧ ({ tail := some 0 } : Query).noWait = false := ⟨⟨rfl, rfl, rfl⟩, rfl⟩

/-- C25: with neither parameter the response starts at entry 0; with `i` only, at entry `i`. -/
theorem begins_at_i (q : Query) (now : Int) (size : Nat) (ts : List Int) (ht : q.tail = none) (hr : q.recent = none) (hs : q.since = none) :
    (beginIdx (parse q) now size ts).1 = q.i.getD 0 := by
  simp [beginIdx, parse, ht, hr, hs]

/-- C25: `nowait` and nothing to start with: `204 No Content`. -/
theorem no_content_iff (q : Query) (now : Int) (size : Nat) (ts : List Int) :
    noContent (parse q) now size ts = true ↔ q.noWait = true ∧ size ≤ (beginIdx (parse q) now size ts).1 := by
  simp [noContent, parse]

/-- Not as C25 says: with both `recent` and `since`, `since` is ignored. -/
theorem recent_overrides_since (q : Query) (now : Int) (size : Nat) (ts : List Int) (r : Nat) (hr : q.recent = some r) (h0 : 0 < r) (s : Option Nat) :
    beginIdx (parse { q with since := s }) now size ts = beginIdx (parse q) now size ts ∧
    (Ep.init (parse { q with since := s }) now size).from_ = now - r ∧
    (Ep.init (parse { q with since := s }) now size).serving = false := by
  have : ((parse q).recent > 0) := by simp [parse, hr]; omega
  have h' : ((parse { q with since := s }).recent > 0) := by simp [parse, hr]; omega
  refine ⟨?_, ?_, ?_⟩
  · unfold beginIdx
    simp only [this, h', if_true]
    rfl
  · simp only [Ep.init, h', if_true]; simp [parse, hr]
  · simp only [Ep.init, h']; simp

/-- Not as C25 says: with `tail=0` the response starts at the end of the stream, whatever `i` is. -/
theorem tail_zero_overrides_i (q : Query) (now : Int) (size : Nat) (ts : List Int) (ht : q.tail = some 0) (i : Option Nat) :
    (beginIdx (parse { q with i := i }) now size ts).1 = size := by
  simp [beginIdx, parse, ht]

/-- Not as C25 says: with `since` and `i`, a head update at or after `since` makes the response start, and the next entry is served although its index is
below `i`. -/
theorem head_update_defeats_i : ∃ (q : Query) (ins : List In), q.i = some 5 ∧ q.since = some 15 ∧
    ((Ep.init (parse q) 100 0).feed ⟨fun _ => [], []⟩ ins).1.sent = [(⟨0, 20⟩, ['a', '\n'])] :=
  ⟨{ i := some 5, since := some 15 }, [.head 17 false, .entry ⟨0, 20⟩ 0 ['a', '\n'] false], rfl, rfl, by decide⟩

/-! ### C26: limits -/

theorem send_sent (e : Ep) (x : IdxTs) (t : Str) : (e.send x t).sent = e.sent ++ [(x, t)] := rfl

/-- The bytes of the entries sent. -/
def bytesOf (l : List (IdxTs × Str)) : Nat := (l.map (·.2.length)).sum

/-- The moment an input is about. -/
def In.us : In → Option Int
  | .entry x _ _ _ => some x.us
  | .head us _ => some us
  | .terminate => none

/-- Limits are respected at every point (`done = false`), and by the finished response (`done = true`). -/
structure Lim (e : Ep) (done : Bool) : Prop where
  n0 : e.p.n = 0 → e.n = 0
  n1 : e.p.n ≠ 0 → e.n + e.sent.length = e.p.n ∨ (done = true ∧ e.n + e.sent.length = e.p.n + 1 ∧ e.sent.length ≤ e.p.n)
  n2 : e.p.n ≠ 0 → done = false → 0 < e.n
  bytes : e.bytes = bytesOf e.sent
  stop : e.p.stopAfterBytes ≠ 0 → bytesOf e.sent < e.p.stopAfterBytes ∨
    (done = true ∧ bytesOf e.sent.dropLast < e.p.stopAfterBytes)
  per : 0 ≤ e.p.period
  to0 : e.p.period ≠ 0 → e.to_ = 0 → e.sent = []
  to1 : e.p.period ≠ 0 → e.to_ ≠ 0 → ∀ x ∈ e.sent, x.1.us ≤ e.to_ ∧ e.to_ - e.p.period ≤ x.1.us
  to2 : e.p.period = 0 → e.to_ = 0

theorem Lim.init (q : Query) (now : Int) (size : Nat) : Lim (Ep.init (parse q) now size) false := by
  constructor <;> simp [Ep.init, bytesOf, parse]
  · omega
  · omega

/-- Moments do not go back (C20) and are not negative (C01). -/
structure TimesOk (e : Ep) (ins : List In) : Prop where
  inc : (ins.filterMap In.us).Pairwise (· ≤ ·)
  pos : ∀ u ∈ ins.filterMap In.us, 0 ≤ u
  start : e.p.period ≠ 0 → e.to_ ≠ 0 → ∀ u ∈ ins.filterMap In.us, e.to_ - e.p.period ≤ u

theorem setTo_lim {e : Ep} {ins : List In} {x : In} {us : Int} (hl : Lim e false) (ht : TimesOk e (x :: ins)) (hx : x.us = some us) :
    Lim (e.setTo us) false ∧ TimesOk (e.setTo us) (x :: ins) ∧ (e.p.period ≠ 0 → (e.setTo us).to_ ≠ 0 ∧ (e.setTo us).to_ - e.p.period ≤ us) := by
  have hmem : us ∈ (x :: ins).filterMap In.us := by simp [hx]
  have hp0 := hl.per
  by_cases h : e.p.period ≠ 0 ∧ e.to_ = 0
  · have he : e.setTo us = { e with to_ := us + e.p.period } := by simp [Ep.setTo, h]
    have hu := ht.pos us hmem
    rw [he]
    refine ⟨⟨hl.n0, hl.n1, hl.n2, hl.bytes, hl.stop, hl.per, ?_, ?_, ?_⟩, ⟨ht.inc, ht.pos, ?_⟩, ?_⟩
    · intro _ h'; dsimp only at h'; omega
    · intro _ _ y hy
      have := hl.to0 h.1 h.2
      simp only at hy
      rw [this] at hy; cases hy
    · intro h'; exact absurd h' h.1
    · intro _ _ u hu'
      dsimp only
      have hinc := ht.inc
      rw [List.filterMap_cons_some hx, List.pairwise_cons] at hinc
      rw [List.filterMap_cons_some hx] at hu'
      rcases List.mem_cons.1 hu' with rfl | hu'
      · omega
      · have := hinc.1 u hu'; omega
    · intro h'; dsimp only; omega
  · have he : e.setTo us = e := by cases e; simp only [Ep.setTo] at *; rw [if_neg h]
    rw [he]
    refine ⟨hl, ht, fun hp => ?_⟩
    have h0 : e.to_ ≠ 0 := fun h0 => h ⟨hp, h0⟩
    exact ⟨h0, ht.start hp h0 us hmem⟩

theorem Lim.weaken {e : Ep} (h : Lim e false) : Lim e true := by
  refine ⟨h.n0, ?_, by simp, h.bytes, ?_, h.per, h.to0, h.to1, h.to2⟩
  · intro hn; rcases h.n1 hn with h | h
    · exact Or.inl h
    · simp at h
  · intro hn; rcases h.stop hn with h | h
    · exact Or.inl h
    · simp at h

theorem bytesOf_snoc (l : List (IdxTs × Str)) (x : IdxTs × Str) : bytesOf (l ++ [x]) = bytesOf l + x.2.length := by
  simp [bytesOf]

theorem Lim.close {e : Ep} {d : Bool} (h : Lim e d) : Lim e.close d := ⟨h.n0, h.n1, h.n2, h.bytes, h.stop, h.per, h.to0, h.to1, h.to2⟩

theorem serve_eq (e : Ep) (x : IdxTs) (last : Nat) (text : Str) : e.serve x last text = (e.setTo x.us).serve2 x last text := rfl

theorem head_eq (e : Ep) (us : Int) (t : Str) (tt : Bool) : e.head us t tt =
    if tt then (e, true)
    else if (e.serving || (decide (e.from_ > 0) && decide (us ≥ e.from_))) then
      (({ e with serving := e.serving || (decide (e.from_ > 0) && decide (us ≥ e.from_)) } : Ep).setTo us).head2 us t
    else ({ e with serving := e.serving || (decide (e.from_ > 0) && decide (us ≥ e.from_)) }, false) := rfl

theorem serve2_lim {e : Ep} (hl : Lim e false) (x : IdxTs) (last : Nat) (text : Str)
    (hp : e.p.period ≠ 0 → e.to_ ≠ 0 ∧ e.to_ - e.p.period ≤ x.us) :
    Lim (e.serve2 x last text).1 (e.serve2 x last text).2 ∧ (e.serve2 x last text).1.to_ = e.to_ ∧ (e.serve2 x last text).1.p = e.p := by
  unfold Ep.serve2
  by_cases h1 : e.to_ ≠ 0 ∧ x.us > e.to_
  · rw [if_pos h1]; exact ⟨hl.weaken, rfl, rfl⟩
  · rw [if_neg h1]
    dsimp only
    have hto0 : e.p.period ≠ 0 → (e.send x text).to_ = 0 → (e.send x text).sent = [] := fun a b => absurd b (hp a).1
    have hto1 : e.p.period ≠ 0 → e.to_ ≠ 0 → ∀ y ∈ (e.send x text).sent, y.1.us ≤ e.to_ ∧ e.to_ - e.p.period ≤ y.1.us := by
      intro ha hb y hy
      rw [send_sent, List.mem_append] at hy
      rcases hy with hy | hy
      · exact hl.to1 ha hb y hy
      · simp only [List.mem_singleton] at hy
        subst hy
        have := (hp ha).2
        exact ⟨by dsimp only; simp only [not_and] at h1; have := h1 hb; omega, this⟩
    have hbytes : (e.send x text).bytes = bytesOf (e.send x text).sent := by
      rw [send_sent, bytesOf_snoc, ← hl.bytes]; rfl
    have hlen : (e.send x text).sent.length = e.sent.length + 1 := by simp [send_sent]
    by_cases h2 : (e.send x text).p.stopAfterBytes ≠ 0 ∧ (e.send x text).bytes ≥ (e.send x text).p.stopAfterBytes
    · rw [if_pos h2]
      refine ⟨⟨hl.n0, ?_, by simp, hbytes, ?_, hl.per, hto0, hto1, hl.to2⟩, rfl, rfl⟩
      · intro hn
        right
        refine ⟨rfl, ?_, ?_⟩
        · rw [hlen]
          rcases hl.n1 hn with h | h
          · show e.n + (e.sent.length + 1) = e.p.n + 1; omega
          · simp at h
        · rw [hlen]
          have := hl.n2 hn rfl
          rcases hl.n1 hn with h | h
          · show e.sent.length + 1 ≤ e.p.n; omega
          · simp at h
      · intro hs
        right
        refine ⟨rfl, ?_⟩
        rw [send_sent, List.dropLast_concat]
        rcases hl.stop hs with h | h
        · exact h
        · simp at h
    · rw [if_neg h2]
      have hstop : (e.send x text).p.stopAfterBytes ≠ 0 → bytesOf (e.send x text).sent < (e.send x text).p.stopAfterBytes := by
        intro hs
        rw [← hbytes]
        simp only [not_and] at h2
        have := h2 hs; omega
      have hmain : ∀ d : Bool, (d = false → e.p.n ≠ 0 → 1 < e.n) →
          Lim { e.send x text with n := (e.send x text).n - 1 } d := by
        intro d hd
        refine ⟨?_, ?_, ?_, hbytes, fun hs => Or.inl (hstop hs), hl.per, hto0, hto1, hl.to2⟩
        · intro hn
          have := hl.n0 hn
          show e.n - 1 = 0
          omega
        · intro hn
          left
          have := hl.n2 hn rfl
          show e.n - 1 + (e.send x text).sent.length = e.p.n
          rw [hlen]
          rcases hl.n1 hn with h | h
          · omega
          · simp at h
        · intro hn hd'
          show 0 < e.n - 1
          have := hd hd' hn; omega
      split
      · exact ⟨hmain true (by simp), rfl, rfl⟩
      · rename_i h3
        have hge : e.p.n ≠ 0 → 1 < e.n := by
          intro hn
          have := hl.n2 hn rfl
          have h3' : ¬(e.n ≠ 0 ∧ e.n - 1 = 0) := h3
          omega
        split
        · exact ⟨hmain true (by simp), rfl, rfl⟩
        · exact ⟨hmain false (fun _ => hge), rfl, rfl⟩

theorem TimesOk.tail {e e' : Ep} {x : In} {ins : List In} (h : TimesOk e (x :: ins)) (h1 : e'.to_ = e.to_) (h2 : e'.p = e.p) : TimesOk e' ins := by
  have sub : (ins.filterMap In.us).Sublist ((x :: ins).filterMap In.us) := (List.sublist_cons_self x ins).filterMap _
  exact ⟨h.inc.sublist sub, fun u hu => h.pos u (sub.subset hu), fun a b u hu => by
    rw [h1, h2]; exact h.start (h2 ▸ a) (h1 ▸ b) u (sub.subset hu)⟩

theorem step_lim (w : Texts) {e : Ep} {x : In} {ins : List In} (hl : Lim e false) (ht : TimesOk e (x :: ins)) :
    Lim (e.step w x).1 (e.step w x).2 ∧ TimesOk (e.step w x).1 ins ∧ (e.step w x).1.p = e.p := by
  cases x with
  | entry x last text tt =>
    have main : ∃ r : Ep × Bool, e.entry x last text tt = r ∧ Lim r.1 r.2 ∧ TimesOk r.1 ins ∧ r.1.p = e.p := by
      refine ⟨_, rfl, ?_⟩
      unfold Ep.entry
      split
      · exact ⟨hl.weaken, ht.tail rfl rfl, rfl⟩
      · dsimp only
        generalize hsv : (e.serving || e.qualifies x last) = sv
        have hl' : Lim { e with serving := sv } false := ⟨hl.n0, hl.n1, hl.n2, hl.bytes, hl.stop, hl.per, hl.to0, hl.to1, hl.to2⟩
        have ht' : TimesOk { e with serving := sv } (.entry x last text tt :: ins) := ⟨ht.inc, ht.pos, ht.start⟩
        split
        · rw [serve_eq]
          obtain ⟨a, b, c⟩ := setTo_lim hl' ht' (us := x.us) rfl
          obtain ⟨d, f, g⟩ := serve2_lim a x last text c
          exact ⟨d, b.tail f g, g⟩
        · refine ⟨?_, ht'.tail rfl rfl, rfl⟩
          cases (decide (x.index = last) && e.p.noWait)
          · exact hl'
          · exact hl'.weaken
    obtain ⟨r, hr, h1, h2, h3⟩ := main
    simp only [Ep.step, hr]
    split
    · rename_i hd
      rw [hd] at h1
      exact ⟨h1.close, ⟨h2.inc, h2.pos, h2.start⟩, h3⟩
    · rename_i hd
      simp only [Bool.not_eq_true] at hd
      rw [hd] at h1
      exact ⟨h1, h2, h3⟩
  | head us tt =>
    simp only [Ep.step, head_eq]
    split
    · exact ⟨hl.weaken, ht.tail rfl rfl, rfl⟩
    · generalize hsv : (e.serving || (decide (e.from_ > 0) && decide (us ≥ e.from_))) = sv
      have hl' : Lim { e with serving := sv } false := ⟨hl.n0, hl.n1, hl.n2, hl.bytes, hl.stop, hl.per, hl.to0, hl.to1, hl.to2⟩
      have ht' : TimesOk { e with serving := sv } (.head us tt :: ins) := ⟨ht.inc, ht.pos, ht.start⟩
      split
      · obtain ⟨a, b, _⟩ := setTo_lim hl' ht' (us := us) rfl
        have hEp : (({ e with serving := sv } : Ep).setTo us).p = e.p := rfl
        generalize ({ e with serving := sv } : Ep).setTo us = E at *
        unfold Ep.head2
        split
        · exact ⟨a.weaken, b.tail rfl rfl, hEp⟩
        · split
          · exact ⟨⟨a.n0, a.n1, a.n2, a.bytes, a.stop, a.per, a.to0, a.to1, a.to2⟩, b.tail rfl rfl, hEp⟩
          · exact ⟨a, b.tail rfl rfl, hEp⟩
      · exact ⟨hl', ht'.tail rfl rfl, rfl⟩
  | terminate =>
    simp only [Ep.step]
    have := hl.weaken
    exact ⟨⟨this.n0, this.n1, this.n2, this.bytes, this.stop, this.per, this.to0, this.to1, this.to2⟩, ht.tail rfl rfl, rfl⟩

theorem feed_lim (w : Texts) (ins : List In) (e : Ep) (hl : Lim e false) (ht : TimesOk e ins) :
    Lim (e.feed w ins).1 (e.feed w ins).2 ∧ (e.feed w ins).1.p = e.p := by
  induction ins generalizing e with
  | nil => exact ⟨hl, rfl⟩
  | cons x ins ih =>
    obtain ⟨h1, h2, h3⟩ := step_lim w hl ht
    simp only [Ep.feed]
    split
    · rename_i hd; exact ⟨h1, h3⟩
    · rename_i hd
      simp only [Bool.not_eq_true] at hd
      rw [hd] at h1
      obtain ⟨h4, h5⟩ := ih _ h1 h2
      exact ⟨h4, h5.trans h3⟩

/-- C26: whatever entries and head updates the subscriber is passed, the response respects its limits: at most `n` entries;
the entries but the last one stay below `stop_after_bytes`; no two entries are more than `period` apart. -/
theorem limits_are_respected (w : Texts) (q : Query) (now : Int) (size : Nat) (ins : List In)
    (hinc : (ins.filterMap In.us).Pairwise (· ≤ ·)) (hpos : ∀ u ∈ ins.filterMap In.us, 0 ≤ u) :
    let sent := ((Ep.init (parse q) now size).feed w ins).1.sent
    (∀ n, q.n = some n → n ≠ 0 → sent.length ≤ n) ∧
    (∀ b, q.stopAfterBytes = some b → b ≠ 0 → bytesOf sent.dropLast < b) ∧
    (∀ d : Nat, q.period = some d → d ≠ 0 → ∀ x ∈ sent, ∀ y ∈ sent, x.1.us ≤ y.1.us + d) := by
  obtain ⟨h, hp⟩ := feed_lim w ins (Ep.init (parse q) now size) (Lim.init q now size) ⟨hinc, hpos, by simp [Ep.init]⟩
  generalize (Ep.init (parse q) now size).feed w ins = r at *
  obtain ⟨e, d⟩ := r
  dsimp only at *
  refine ⟨?_, ?_, ?_⟩
  · intro n hn h0
    have hpn : e.p.n = n := by rw [hp]; simp [Ep.init, parse, hn]
    rcases h.n1 (by omega) with h | h <;> omega
  · intro b hb h0
    have hpn : e.p.stopAfterBytes = b := by rw [hp]; simp [Ep.init, parse, hb]
    have hle : bytesOf e.sent.dropLast ≤ bytesOf e.sent := by
      rcases List.eq_nil_or_concat e.sent with he | ⟨l, x, he⟩
      · simp [he]
      · rw [he, List.concat_eq_append, List.dropLast_concat, bytesOf_snoc]; omega
    rcases h.stop (by omega) with h | h <;> omega
  · intro t ht h0 x hx y hy
    have hpn : e.p.period = t := by rw [hp]; simp [Ep.init, parse, ht]
    have hto : e.to_ ≠ 0 := by
      intro h'; rw [h.to0 (by omega) h'] at hx; cases hx
    have h1 := h.to1 (by omega) hto x hx
    have h2 := h.to1 (by omega) hto y hy
    omega

/-- C26: the response ends, on an entry, only for a reason: it is told to terminate; `nowait` and this is the last entry; the entry is beyond
`period` (then it is not sent); or, with this entry, `n` or `stop_after_bytes` is reached. -/
theorem ends_only_for_a_reason (w : Texts) (q : Query) (now : Int) (size : Nat) (pre : List In) (x : IdxTs) (last : Nat) (text : Str) (tt : Bool)
    (hinc : (pre.filterMap In.us).Pairwise (· ≤ ·)) (hpos : ∀ u ∈ pre.filterMap In.us, 0 ≤ u)
    (hpre : ((Ep.init (parse q) now size).feed w pre).2 = false)
    (hend : ((((Ep.init (parse q) now size).feed w pre).1).step w (.entry x last text tt)).2 = true) :
    let e := ((Ep.init (parse q) now size).feed w pre).1
    let e' := (e.step w (.entry x last text tt)).1
    tt = true ∨ (q.noWait = true ∧ x.index = last) ∨
    (∃ d : Nat, q.period = some d ∧ d ≠ 0 ∧ e'.sent = e.sent ∧ ∀ y ∈ e.sent, y.1.us < x.us) ∨
    (∃ n, q.n = some n ∧ n ≠ 0 ∧ e'.sent = e.sent ++ [(x, text)] ∧ e'.sent.length = n) ∨
    (∃ b, q.stopAfterBytes = some b ∧ b ≠ 0 ∧ e'.sent = e.sent ++ [(x, text)] ∧ b ≤ bytesOf e'.sent) := by
  obtain ⟨h, hp⟩ := feed_lim w pre (Ep.init (parse q) now size) (Lim.init q now size) ⟨hinc, hpos, by simp [Ep.init]⟩
  rw [hpre] at h
  generalize ((Ep.init (parse q) now size).feed w pre).1 = e at *
  dsimp only
  have hnw : e.p.noWait = q.noWait := by rw [hp]; rfl
  have hclose : ∀ r : Ep × Bool, (if r.2 = true then (r.1.close, true) else (r.1, false)).1.sent = r.1.sent ∧
      (if r.2 = true then (r.1.close, true) else (r.1, false)).2 = r.2 := by
    intro r; split <;> simp_all [Ep.close]
  simp only [Ep.step] at hend ⊢
  rw [(hclose _).2] at hend
  simp only [(hclose _).1]
  unfold Ep.entry at hend ⊢
  split at hend
  · left; assumption
  · rename_i htt
    rw [if_neg htt]
    dsimp only at hend ⊢
    split at hend
    · rename_i hsv
      rw [if_pos hsv]
      rw [serve_eq] at hend ⊢
      generalize hE : ({ e with serving := e.serving || e.qualifies x last } : Ep).setTo x.us = E at *
      have hEp : E.p = e.p := by subst hE; rfl
      have hEs : E.sent = e.sent := by subst hE; rfl
      have hEn : E.n = e.n := by subst hE; rfl
      have hEb : E.bytes = e.bytes := by subst hE; rfl
      unfold Ep.serve2 at hend ⊢
      split at hend
      · rename_i h1
        rw [if_pos h1]
        right; right; left
        have hper : e.p.period ≠ 0 := by
          intro h0
          have := h.to2 h0
          subst hE
          simp [Ep.setTo, h0, this] at h1
        have hqp : ∃ d : Nat, q.period = some d ∧ d ≠ 0 := by
          rw [hp] at hper
          cases hq : q.period with
          | none => simp [Ep.init, parse, hq] at hper
          | some d => exact ⟨d, rfl, by rintro rfl; simp [Ep.init, parse, hq] at hper⟩
        obtain ⟨d, hd1, hd2⟩ := hqp
        refine ⟨d, hd1, hd2, hEs, ?_⟩
        intro y hy
        have hto : e.to_ ≠ 0 := by
          intro h'; rw [h.to0 hper h'] at hy; cases hy
        have := h.to1 hper hto y hy
        have hEt : E.to_ = e.to_ := by subst hE; simp [Ep.setTo, hto]
        omega
      · rename_i h1
        rw [if_neg h1]
        dsimp only at hend ⊢
        split at hend
        · rename_i h2
          rw [if_pos h2]
          right; right; right; right
          have h2a : e.p.stopAfterBytes ≠ 0 := by have := h2.1; simpa [Ep.send, hEp] using this
          have hq : ∃ b, q.stopAfterBytes = some b ∧ b ≠ 0 ∧ e.p.stopAfterBytes = b := by
            rw [hp] at h2a ⊢
            cases hq : q.stopAfterBytes with
            | none => simp [Ep.init, parse, hq] at h2a
            | some b => exact ⟨b, rfl, by rintro rfl; simp [Ep.init, parse, hq] at h2a, by simp [Ep.init, parse, hq]⟩
          obtain ⟨b, hb1, hb2, hb3⟩ := hq
          refine ⟨b, hb1, hb2, by simp [send_sent, hEs], ?_⟩
          have h2b : (E.send x text).bytes ≥ (E.send x text).p.stopAfterBytes := h2.2
          rw [send_sent, bytesOf_snoc, hEs, ← h.bytes, ← hEb]
          have : (E.send x text).p.stopAfterBytes = b := by simp [Ep.send, hEp, hb3]
          rw [this] at h2b
          exact h2b
        · rename_i h2
          rw [if_neg h2]
          split at hend
          · rename_i h3
            rw [if_pos h3]
            right; right; right; left
            have h3a : e.n ≠ 0 ∧ e.n - 1 = 0 := by simpa [Ep.send, hEn] using h3
            have hpn : e.p.n ≠ 0 := fun h0 => h3a.1 (h.n0 h0)
            have hq : ∃ n, q.n = some n ∧ n ≠ 0 ∧ e.p.n = n := by
              rw [hp] at hpn ⊢
              cases hq : q.n with
              | none => simp [Ep.init, parse, hq] at hpn
              | some b => exact ⟨b, rfl, by rintro rfl; simp [Ep.init, parse, hq] at hpn, by simp [Ep.init, parse, hq]⟩
            obtain ⟨n, hn1, hn2, hn3⟩ := hq
            refine ⟨n, hn1, hn2, by simp [send_sent, hEs], ?_⟩
            show (E.send x text).sent.length = n
            rw [send_sent, hEs, List.length_append]
            simp only [List.length_cons, List.length_nil]
            rcases h.n1 hpn with h | h
            · omega
            · simp at h
          · split at hend
            · rename_i h4
              right; left
              have : E.p.noWait = true := by simpa [Ep.send] using h4.2
              rw [hEp, hnw] at this
              exact ⟨this, h4.1⟩
            · simp at hend
    · simp only [Bool.and_eq_true, decide_eq_true_eq] at hend
      right; left
      exact ⟨hnw ▸ hend.2, hend.1⟩

end Current.Http
