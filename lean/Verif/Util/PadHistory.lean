import Verif.Util.OT
set_option linter.unusedSimpArgs false
/-!
`utils/operational_transformation/history.cc` (C146): the program which prints the history of a pad, a processor of snapshots on
top of `OT` (C44). The two flags are parameters (in microseconds; their conversion from `double` is not modelled). Dates and
intervals are printed by functions of C61 and others; the model keeps the numbers which are given to these functions. The
conversion of a snapshot to UTF-8 is not modelled: texts are lists of characters.
-/
namespace Current.PadHistory
open Current.Persist
open Current.OT

/-! ### Model -/

/-- What is written to the standard output. -/
inductive Out where
  | started (t : Int)                         -- "### Pad\nStarted …", lines 47-49
  | shot (elapsed : Int) (contents : Str)     -- "### … into the code\n```\n" contents "```", lines 58-61 and 76-79
  | result (elapsed : Int) (contents : Str)   -- "### Result after the total of … of coding\n```\n" …, lines 90-94
  deriving DecidableEq, Repr

/-- The fields of `Processor`, lines 37-42, and what has been printed so far (oldest first). -/
structure P where
  done : Bool := false
  first : Int := 0
  last : Int := 0
  marker : Int := 0
  out : List Out := []
  deriving DecidableEq, Repr

/-- The `uint64_t` as the `int64_t` of `std::chrono::microseconds`, `ot.h:115`. -/
def signed (n : Nat) : Int := if n < 2 ^ 63 then (n : Int) else (n : Int) - 2 ^ 64

/-- Lines 54-57, 72-75 and 87-89: a newline is appended unless the text ends with one. -/
def lined (d : Str) : Str := if d = [] ∨ d.getLast? ≠ some '\n' then d ++ ['\n'] else d

/-- Lines 44-50: the first snapshot. -/
def seen (t : Int) (s : P) : P :=
  let s := { s with last := t }
  if s.first = 0 then { s with first := t, out := s.out ++ [.started t] } else s

/-- `Processor::ProcessSnapshot`, lines 43-83. Differences of timestamps are exact (the overflow of `int64_t` is not modelled;
there is none between timestamps of one sign). -/
def processSnapshot (at_ interval : Int) (s : P) (n : Nat) (rope : Str) : Bool × P :=
  let t := signed n
  let s := seen t s
  if at_ ≠ 0 then
    if t - s.first ≥ at_ then (false, { s with out := s.out ++ [.shot (t - s.first) (lined rope)], done := true })
    else (true, s)
  else if t - s.marker ≥ interval then
    (true, { s with marker := t, out := s.out ++ [.shot (t - s.first) (lined rope)] })
  else (true, s)

/-- `Processor::GenerateOutput`, lines 84-96, with all that has been printed before. -/
def generateOutput (s : P) (rope : Str) (early : Bool) : List Out :=
  if !s.done && !early then s.out ++ [.result (s.last - s.first) (lined rope)] else s.out

def processor (at_ interval : Int) : Processor P (List Out) := ⟨processSnapshot at_ interval, generateOutput⟩

/-- `main`, line 102: what the program prints on the document. -/
def main (at_ interval : Int) (document : J) : Res (List Out) := run (processor at_ interval) {} document

/-! ### Specification -/

/-- A snapshot: when (in microseconds), and the text of the pad. -/
abbrev Snap := Int × Str

/-- The snapshots of a document, with the time in microseconds, for times before the year 294247. -/
def History (ms : List (Str × J)) (l : List Snap) : Prop :=
  ∃ snaps, Snapshots ms [] snaps ∧ (∀ x ∈ snaps, x.1 < 2 ^ 63) ∧ l = snaps.map fun x => ((x.1 : Int), x.2)

/-- The text as it stands between the quotes: the last line has its end. -/
def EndsLine (d e : Str) : Prop := (e = d ∧ ∃ a, d = a ++ ['\n']) ∨ (e = d ++ ['\n'] ∧ ¬ ∃ a, d = a ++ ['\n'])

/-- Which snapshots are due: number `i` is printed if and only if it is `interval` or more later than each of those printed
before it. -/
def Due (interval : Int) (l : List Snap) (S : Nat → Prop) : Prop :=
  ∀ (i : Nat) (x : Snap), l[i]? = some x → (S i ↔ ∀ (j : Nat) (y : Snap), j < i → l[j]? = some y → S j → interval ≤ x.1 - y.1)

/-- The times never go back. -/
def Sorted (l : List Snap) : Prop := l.Pairwise fun x y => x.1 ≤ y.1

/-! ### Lemmas -/

theorem lined_endsLine (d : Str) : EndsLine d (lined d) := by
  unfold EndsLine lined
  rcases List.eq_nil_or_concat d with rfl | ⟨a, c, rfl⟩
  · exact .inr ⟨by simp, by simp⟩
  · by_cases h : c = '\n'
    · subst h
      exact .inl ⟨by simp, a, by simp⟩
    · refine .inr ⟨by simp [h], ?_⟩
      rintro ⟨b, hb⟩
      simp at hb
      exact h hb.2

/-- `EndsLine` describes one text only, that which the program prints. -/
theorem endsLine_iff (d e : Str) : EndsLine d e ↔ e = lined d := by
  constructor
  · intro h
    rcases h with ⟨h1, h2⟩ | ⟨h1, h2⟩ <;> rcases lined_endsLine d with ⟨g1, g2⟩ | ⟨g1, g2⟩
    · rw [h1, g1]
    · exact absurd h2 g2
    · exact absurd g2 h2
    · rw [h1, g1]
  · rintro rfl; exact lined_endsLine d

theorem signed_small {n : Nat} (h : n < 2 ^ 63) : signed n = n := if_pos h

/-- `feed` on times which are already converted. -/
def go (at_ interval : Int) : List Snap → P → Str → List Out
  | [], s, last => generateOutput s last false
  | (t, d) :: rest, s, _ =>
    let s := seen t s
    if at_ ≠ 0 then
      if t - s.first ≥ at_ then s.out ++ [.shot (t - s.first) (lined d)] else go at_ interval rest s d
    else if t - s.marker ≥ interval then
      go at_ interval rest { s with marker := t, out := s.out ++ [.shot (t - s.first) (lined d)] } d
    else go at_ interval rest s d

theorem feed_go (at_ interval : Int) (snaps : List (Nat × Str)) (h : ∀ x ∈ snaps, x.1 < 2 ^ 63) : ∀ (s : P) (last : Str),
    feed (processor at_ interval) snaps s last = go at_ interval (snaps.map fun x => ((x.1 : Int), x.2)) s last := by
  induction snaps with
  | nil => intro s last; rfl
  | cons x rest ih =>
    obtain ⟨n, d⟩ := x
    intro s last
    have hn : signed n = n := signed_small (h (n, d) (by simp))
    have ih := ih (fun x hx => h x (by simp [hx]))
    simp only [feed, List.map_cons, go, processor, processSnapshot, hn]
    by_cases h1 : at_ ≠ 0
    · by_cases h2 : (n : Int) - (seen n s).first ≥ at_
      · simp only [if_pos h1, if_pos h2, generateOutput]; simp
      · simp only [if_pos h1, if_neg h2, if_true]; exact ih _ _
    · by_cases h2 : (n : Int) - (seen n s).marker ≥ interval
      · simp only [if_neg h1, if_pos h2, if_true]; exact ih _ _
      · simp only [if_neg h1, if_neg h2, if_true]; exact ih _ _

theorem main_go {at_ interval : Int} {ms : List (Str × J)} {l : List Snap} (h : History ms l) :
    main at_ interval (.obj ms) = .ok (go at_ interval l {} []) := by
  obtain ⟨snaps, h1, h2, rfl⟩ := h
  unfold main
  rw [ot_feeds_processor _ _ ms snaps h1, feed_go at_ interval snaps h2]

theorem seen_again {t : Int} {s : P} (h : s.first ≠ 0) : seen t s = { s with last := t } := by
  unfold seen; exact if_neg h

theorem seen_first {t : Int} {s : P} (h : s.first = 0) : seen t s = { s with last := t, first := t, out := s.out ++ [.started t] } := by
  unfold seen; exact if_pos h

/-- With `--at_m`, after the first snapshot. -/
theorem go_at {at_ interval : Int} (h0 : at_ ≠ 0) (l : List Snap) : ∀ (s : P) (d : Str), s.first ≠ 0 → s.done = false →
    go at_ interval l s d = s.out ++
      [match l.find? (fun x => decide (at_ ≤ x.1 - s.first)) with
       | some x => .shot (x.1 - s.first) (lined x.2)
       | none => .result ((l.map (·.1)).getLastD s.last - s.first) (lined ((l.map (·.2)).getLastD d))] := by
  induction l with
  | nil => intro s d _ h; simp [go, generateOutput, h]
  | cons x rest ih =>
    obtain ⟨t, d'⟩ := x
    intro s d h1 h2
    simp only [go, seen_again h1, if_pos h0, List.find?_cons]
    by_cases h3 : t - s.first ≥ at_
    · rw [if_pos h3]
      have : decide (at_ ≤ t - s.first) = true := by simpa using h3
      simp [this]
    · rw [if_neg h3, ih { s with last := t } d' h1 h2]
      have : decide (at_ ≤ t - s.first) = false := by simpa using h3
      simp only [this]
      simp only [List.map_cons, List.getLastD_cons] <;> try simp [-List.getLastD_eq_getLast?]

/-- Which ones of the snapshots are printed, from a marker on. -/
def chosen (interval : Int) : List Snap → Int → List Bool
  | [], _ => []
  | x :: rest, m => if x.1 - m ≥ interval then true :: chosen interval rest x.1 else false :: chosen interval rest m

/-- The snapshots with their marks. -/
def shots (f : Int) (l : List Snap) (b : List Bool) : List Out :=
  ((l.zip b).filter (·.2)).map fun x => .shot (x.1.1 - f) (lined x.1.2)

theorem go_interval {interval : Int} (l : List Snap) : ∀ (s : P) (d : Str), s.first ≠ 0 → s.done = false →
    go 0 interval l s d = s.out ++ shots s.first l (chosen interval l s.marker) ++
      [.result ((l.map (·.1)).getLastD s.last - s.first) (lined ((l.map (·.2)).getLastD d))] := by
  induction l with
  | nil => intro s d _ h; simp [go, generateOutput, h, shots]
  | cons x rest ih =>
    obtain ⟨t, d'⟩ := x
    intro s d h1 h2
    simp only [go, seen_again h1, if_neg (show ¬ ((0 : Int) ≠ 0) by simp)]
    by_cases h3 : t - s.marker ≥ interval
    · rw [if_pos h3, ih { s with last := t, marker := t, out := s.out ++ [.shot (t - s.first) (lined d')] } d' h1 h2]
      simp only [chosen, if_pos h3, shots]
      simp only [List.map_cons, List.getLastD_cons] <;> try simp [-List.getLastD_eq_getLast?]
    · rw [if_neg h3, ih { s with last := t } d' h1 h2]
      simp only [chosen, if_neg h3, shots]
      simp only [List.map_cons, List.getLastD_cons] <;> try simp [-List.getLastD_eq_getLast?]

theorem chosen_length (interval : Int) (l : List Snap) : ∀ m, (chosen interval l m).length = l.length := by
  induction l with
  | nil => intro m; rfl
  | cons x rest ih =>
    intro m
    unfold chosen
    split <;> simp [ih]

/-- From a marker on: a snapshot is marked if and only if it is late enough after the marker and all marked before it. -/
theorem chosen_spec (interval : Int) (l : List Snap) : ∀ m, Sorted l → (∀ x ∈ l, m ≤ x.1) → ∀ (i : Nat) (x : Snap), l[i]? = some x →
    ((chosen interval l m)[i]? = some true ↔
      interval ≤ x.1 - m ∧ ∀ (j : Nat) (y : Snap), j < i → l[j]? = some y → (chosen interval l m)[j]? = some true → interval ≤ x.1 - y.1) := by
  induction l with
  | nil => intro m _ _ i x h; simp at h
  | cons z rest ih =>
    intro m hs hm i x hx
    have hs' : Sorted rest := (List.pairwise_cons.1 hs).2
    have hz : ∀ y ∈ rest, z.1 ≤ y.1 := (List.pairwise_cons.1 hs).1
    cases i with
    | zero =>
      simp at hx
      subst hx
      unfold chosen
      by_cases h : z.1 - m ≥ interval
      · rw [if_pos h]; simp; exact h
      · rw [if_neg h]; simp; omega
    | succ i =>
      simp at hx
      have hxm := List.mem_of_getElem? hx
      unfold chosen
      by_cases h : z.1 - m ≥ interval
      · rw [if_pos h]
        simp only [List.getElem?_cons_succ]
        rw [ih z.1 hs' hz i x hx]
        constructor
        · rintro ⟨h1, h2⟩
          refine ⟨by have := hm z (by simp); omega, ?_⟩
          intro j y hj hy hc
          cases j with
          | zero => simp at hy; subst hy; exact h1
          | succ j => simp at hy hc; exact h2 j y (by omega) hy hc
        · rintro ⟨h1, h2⟩
          refine ⟨h2 0 z (by omega) (by simp) (by simp), ?_⟩
          intro j y hj hy hc
          exact h2 (j + 1) y (by omega) (by simpa using hy) (by simpa using hc)
      · rw [if_neg h]
        simp only [List.getElem?_cons_succ]
        rw [ih m hs' (fun y hy => hm y (by simp [hy])) i x hx]
        constructor
        · rintro ⟨h1, h2⟩
          refine ⟨h1, ?_⟩
          intro j y hj hy hc
          cases j with
          | zero => simp at hc
          | succ j => simp at hy hc; exact h2 j y (by omega) hy hc
        · rintro ⟨h1, h2⟩
          refine ⟨h1, ?_⟩
          intro j y hj hy hc
          exact h2 (j + 1) y (by omega) (by simpa using hy) (by simpa using hc)

/-! ### Theorems -/

/-- C146. With a minute given: the program prints when the pad was started, and one text: that of the first snapshot which is
at least so late after the start, or, if there is none, the whole result. Nothing after it is looked at. -/
theorem at_minute_prints_one_text (at_ interval t0 : Int) (d0 : Str) (rest : List Snap) (ms : List (Str × J))
    (h : History ms ((t0, d0) :: rest)) (h0 : 0 < t0) (ha : at_ ≠ 0) :
    ∃ one, main at_ interval (.obj ms) = .ok [.started t0, one] ∧
      ((∃ (before : List Snap) (t : Int) (d e : Str) (after : List Snap), (t0, d0) :: rest = before ++ (t, d) :: after ∧
          (∀ x ∈ before, x.1 - t0 < at_) ∧ at_ ≤ t - t0 ∧ EndsLine d e ∧ one = .shot (t - t0) e) ∨
       ((∀ x ∈ (t0, d0) :: rest, x.1 - t0 < at_) ∧
          ∃ (before : List Snap) (t : Int) (d e : Str), (t0, d0) :: rest = before ++ [(t, d)] ∧ EndsLine d e ∧ one = .result (t - t0) e)) := by
  rw [main_go h]
  have hz : t0 ≠ 0 := by omega
  -- the head is processed with `first = t0` as if it had been seen before
  have hgo : go at_ interval ((t0, d0) :: rest) {} [] =
      go at_ interval ((t0, d0) :: rest) { first := t0, out := [.started t0] } [] := by
    simp only [go, seen_first (show ({} : P).first = 0 from rfl), seen_again (s := { first := t0, out := [.started t0] }) hz]
    rfl
  rw [hgo, go_at ha _ _ _ hz rfl]
  obtain ⟨l, hl⟩ : ∃ l, l = (t0, d0) :: rest := ⟨_, rfl⟩
  rw [← hl]
  cases hf : l.find? (fun x => decide (at_ ≤ x.1 - t0)) with
  | some x =>
    obtain ⟨h1, as, bs, h2, h3⟩ := List.find?_eq_some_iff_append.1 hf
    refine ⟨_, rfl, .inl ⟨as, x.1, x.2, _, bs, h2, ?_, by simpa using h1, lined_endsLine _, rfl⟩⟩
    intro y hy
    have := h3 y hy
    simp at this
    omega
  | none =>
    rw [List.find?_eq_none] at hf
    refine ⟨_, rfl, .inr ⟨?_, ?_⟩⟩
    · intro y hy
      have := hf y hy
      simp at this
      omega
    · rcases List.eq_nil_or_concat l with h1 | ⟨a, z, h1⟩
      · rw [hl] at h1; simp at h1
      · refine ⟨a, z.1, z.2, _, by simpa using h1, lined_endsLine _, ?_⟩
        subst h1
        simp

/-- C146. Without a minute: the program prints when the pad was started, then the snapshots which are due, in order, each with
its time since the start, and at the end the whole result, with the total time. The first snapshot is always printed; two
printed ones are never closer than the interval; and no snapshot is passed over that is the interval or more later than the
last printed one. -/
theorem interval_prints_what_is_due (interval t0 : Int) (d0 : Str) (rest : List Snap) (ms : List (Str × J))
    (h : History ms ((t0, d0) :: rest)) (h0 : 0 < t0) (hi : interval ≤ t0) (hs : Sorted ((t0, d0) :: rest)) :
    ∃ (marks : List Bool) (printed : List Out) (t : Int) (d e : Str),
      main 0 interval (.obj ms) = .ok (.started t0 :: printed ++ [.result (t - t0) e]) ∧
      marks.length = rest.length + 1 ∧
      printed = ((((t0, d0) :: rest).zip marks).filter (·.2)).map (fun x => .shot (x.1.1 - t0) (lined x.1.2)) ∧
      marks[0]? = some true ∧
      Due interval ((t0, d0) :: rest) (fun i => marks[i]? = some true) ∧
      (∃ before, (t0, d0) :: rest = before ++ [(t, d)]) ∧ EndsLine d e := by
  rw [main_go h]
  have hz : t0 ≠ 0 := by omega
  have hgo : go 0 interval ((t0, d0) :: rest) {} [] =
      go 0 interval ((t0, d0) :: rest) { first := t0, out := [.started t0] } [] := by
    simp only [go, seen_first (show ({} : P).first = 0 from rfl), seen_again (s := { first := t0, out := [.started t0] }) hz]
    rfl
  rw [hgo, go_interval _ _ _ hz rfl]
  obtain ⟨l, hl⟩ : ∃ l, l = (t0, d0) :: rest := ⟨_, rfl⟩
  have hpos : ∀ x ∈ l, t0 ≤ x.1 := by
    rw [hl]
    intro x hx
    rcases List.mem_cons.1 hx with rfl | hx
    · exact Int.le_refl _
    · exact (List.pairwise_cons.1 hs).1 x hx
  have hlen : l.length = rest.length + 1 := by rw [hl]; rfl
  have hhead : (chosen interval l 0)[0]? = some true := by
    rw [hl]
    unfold chosen
    rw [if_pos (show t0 - 0 ≥ interval by omega)]
    rfl
  rw [← hl] at hs ⊢
  rcases List.eq_nil_or_concat l with h1 | ⟨a, z, h1⟩
  · rw [hl] at h1; simp at h1
  refine ⟨chosen interval l 0, shots t0 l (chosen interval l 0), z.1, z.2, lined z.2, ?_, ?_, rfl, hhead, ?_, ⟨a, by simpa using h1⟩, lined_endsLine _⟩
  · have e1 : (l.map (·.1)).getLastD 0 = z.1 := by rw [h1]; simp
    have e2 : (l.map (·.2)).getLastD [] = z.2 := by rw [h1]; simp
    show Res.ok ([Out.started t0] ++ _ ++ [Out.result ((l.map (·.1)).getLastD 0 - t0) (lined ((l.map (·.2)).getLastD []))]) = _
    rw [e1, e2]
    rfl
  · rw [chosen_length, hlen]
  · intro i x hx
    have hm : ∀ x ∈ l, (0 : Int) ≤ x.1 := fun x hx => by have := hpos x hx; omega
    show (chosen interval l 0)[i]? = some true ↔ _
    rw [chosen_spec interval l 0 hs hm i x hx]
    constructor
    · exact fun h => h.2
    · intro h
      refine ⟨?_, h⟩
      have := hpos x (List.mem_of_getElem? hx)
      omega

/-- C146. A document without snapshots: only the empty result. -/
theorem nothing_to_print (at_ interval : Int) : main at_ interval (.obj []) = .ok [.result 0 ['\n']] := rfl

/-- Proof of the condition: `Due` describes one set of snapshots only. -/
theorem due_unique (interval : Int) (l : List Snap) (S T : Nat → Prop) (hS : Due interval l S) (hT : Due interval l T) :
    ∀ i, i < l.length → (S i ↔ T i) := by
  intro i
  induction i using Nat.strongRecOn with
  | ind i ih =>
    intro hi
    have hx : l[i]? = some l[i] := List.getElem?_eq_getElem hi
    rw [hS i _ hx, hT i _ hx]
    constructor
    · intro h j y hj hy ht
      exact h j y hj hy ((ih j hj (by omega)).2 ht)
    · intro h j y hj hy ht
      exact h j y hj hy ((ih j hj (by omega)).1 ht)

/-- The program before the first snapshot: a timestamp of zero is taken for none. The start is printed again, and times are
counted from the later one. -/
theorem zero_timestamp_starts_twice :
    main 0 5000000 (.obj [(['1'], .obj [(['t'], .int 0), (['o'], .arr [.str ['a']])]),
                          (['2'], .obj [(['t'], .int 7000), (['o'], .arr [.str ['b']])])]) =
      .ok [.started 0, .started 7000000, .shot 0 ['b', 'a', '\n'], .result 0 ['b', 'a', '\n']] := by decide +kernel

/-! ### The conditions are met -/

def sampleDoc : List (Str × J) :=
  [(['1'], .obj [(['t'], .int 10000), (['o'], .arr [.str ['a']])]),
   (['2'], .obj [(['t'], .int 12000), (['o'], .arr [.int 1, .str ['b']])]),
   (['3'], .obj [(['t'], .int 15000), (['o'], .arr [.int 2, .str ['\n']])])]

theorem sample_history : History sampleDoc [(10000000, ['a']), (12000000, ['a', 'b']), (15000000, ['a', 'b', '\n'])] := by
  refine ⟨[(10000000, ['a']), (12000000, ['a', 'b']), (15000000, ['a', 'b', '\n'])], ?_, by decide, rfl⟩
  refine .cons (t := 10000) (o := [.str ['a']]) (by rfl) (.insert ['a'] (.done [])) ?_
  refine .cons (t := 12000) (o := [.int 1, .str ['b']]) (by rfl)
    (.keep ['a'] 1 (by decide) (by decide) (by decide) (.insert ['b'] (.done []))) ?_
  refine .cons (t := 15000) (o := [.int 2, .str ['\n']]) (by rfl)
    (.keep ['a', 'b'] 2 (by decide) (by decide) (by decide) (.insert ['\n'] (.done []))) (.nil _)

theorem sample_sorted : Sorted [(10000000, ['a']), (12000000, ['a', 'b']), (15000000, ['a', 'b', '\n'])] := by
  unfold Sorted; decide

example : main 0 5000000 (.obj sampleDoc) =
    .ok [.started 10000000, .shot 0 ['a', '\n'], .shot 5000000 ['a', 'b', '\n'], .result 5000000 ['a', 'b', '\n']] := by decide +kernel

example : main 1000000 5000000 (.obj sampleDoc) = .ok [.started 10000000, .shot 2000000 ['a', 'b', '\n']] := by decide +kernel

example : main 60000000 5000000 (.obj sampleDoc) = .ok [.started 10000000, .result 5000000 ['a', 'b', '\n']] := by decide +kernel

end Current.PadHistory
