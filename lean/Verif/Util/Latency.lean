/-!
# The latency test (`examples/streamed_sockets/latencytest/generator.cc`)

`LatencyTracker` keeps the latencies of a sliding window of time with their
number and sum, and prints the average and percentiles.  `RelaxQueues` pairs the
requests sent with the confirmations received.  One thread sends blocks with two
marked requests and then notes them; another receives the confirmations and notes
them; whoever notes something pairs what can be paired, under a mutex.

Simplifications: times and latencies are unbounded integers (microseconds;
`int64_t` in the code), with the conversion to unsigned in `sum / n` modelled;
the connection is a queue without loss (TCP, and the other programs of the
example pass requests on in order), and reading from it gives whole confirmations;
`current::time::Now()` is strictly increasing (`bricks/time/chrono.h`), by any
amount.  The text of the report is taken to be the numbers in it; the rounding to
a tenth of a millisecond is not modelled, nor is when reports are printed.
-/

set_option linter.unusedSimpArgs false

namespace Current.Latency

/-! ## The tracker -/

/-- `LatencyTracker` without the width of the window (generator.cc 47-51). -/
structure Tracker where
  n : Nat := 0
  sum : Int := 0
  q : List (Int × Int) := []
deriving DecidableEq, Repr

/-- The loop of `Add` (generator.cc 58-62).  `none`: `front()` of an empty deque,
which is undefined. -/
def popLoop (cutoff : Int) : Nat → Int → List (Int × Int) → Option Tracker
  | _, _, [] => none
  | n, sum, (ts, lat) :: q =>
    if ts < cutoff then popLoop cutoff (n - 1) (sum - lat) q
    else some ⟨n, sum, (ts, lat) :: q⟩

/-- `Add` (generator.cc 53-63). -/
def Tracker.add (width : Int) (t : Tracker) (ts lat : Int) : Option Tracker :=
  popLoop (ts - width) (t.n + 1) (t.sum + lat) (t.q ++ [(ts, lat)])

/-- `sum / n`, where `n` is a `size_t`, so that `sum` is converted to one
(generator.cc 78). -/
def average (sum : Int) (n : Nat) : Nat := (sum % 2 ^ 64).toNat / n

/-- `State` (generator.cc 64-104) as the numbers in the text: the average, the
element of the vector at each of the five indexes after `std::nth_element`, which
leaves the vector in another order, and `N`.  `none`: "N/A".  An element past the
end is `none`. -/
def Tracker.state (nth : List Int → Nat → List Int) (t : Tracker) :
    Option (Nat × List (Option Int) × Nat) :=
  if t.n = 0 then none
  else
    let v0 := t.q.map (·.2)
    let v1 := nth v0 (t.n / 100)
    let v2 := nth v1 (t.n / 10)
    let v3 := nth v2 (t.n / 2)
    let v4 := nth v3 (t.n * 9 / 10)
    let v5 := nth v4 (t.n * 99 / 100)
    some (average t.sum t.n,
      [v1[t.n / 100]?, v2[t.n / 10]?, v3[t.n / 2]?, v4[t.n * 9 / 10]?, v5[t.n * 99 / 100]?], t.n)

/-! ### Specification of the tracker -/

/-- The measurements of the last `width` microseconds, given all of them, oldest
first, as of the time of the last one. -/
def window (width : Int) (hist : List (Int × Int)) : List (Int × Int) :=
  match hist.getLast? with
  | none => []
  | some l => hist.filter (fun e => decide (l.1 - width ≤ e.1))

def sumOf (l : List (Int × Int)) : Int := (l.map (·.2)).sum

/-- The times do not go back. -/
def Ordered (hist : List (Int × Int)) : Prop := hist.Pairwise (fun a b => a.1 ≤ b.1)

/-- The tracker shows the window. -/
def Shows (width : Int) (hist : List (Int × Int)) (t : Tracker) : Prop :=
  t.q = window width hist ∧ t.n = (window width hist).length ∧ t.sum = sumOf (window width hist)

/-- `x` is the element of rank `p` (from zero) of the list: at most `p` elements
are less, and more than `p` are less or equal. -/
def IsKth (v : List Int) (p : Nat) (x : Int) : Prop :=
  x ∈ v ∧ v.countP (fun y => decide (y < x)) ≤ p ∧ p < v.countP (fun y => decide (y ≤ x))

/-- The contract of `std::nth_element(b, b + p, e)` for `p` within the range. -/
def NthOk (nth : List Int → Nat → List Int) : Prop :=
  ∀ v p, p < v.length → (nth v p).Perm v ∧
    ∀ x, (nth v p)[p]? = some x →
      (∀ y ∈ (nth v p).take p, y ≤ x) ∧ ∀ y ∈ (nth v p).drop p, x ≤ y

/-! ### Proofs about the tracker -/

theorem popLoop_eq {cutoff : Int} : ∀ {q : List (Int × Int)} {n : Nat} {sum : Int},
    q.Pairwise (fun a b => a.1 ≤ b.1) → (∃ e ∈ q, cutoff ≤ e.1) → n = q.length → sum = sumOf q →
    popLoop cutoff n sum q =
      some ⟨(q.filter (fun e => decide (cutoff ≤ e.1))).length,
        sumOf (q.filter (fun e => decide (cutoff ≤ e.1))),
        q.filter (fun e => decide (cutoff ≤ e.1))⟩ := by
  intro q
  induction q with
  | nil => intro n sum _ h; simp at h
  | cons a q ih =>
    intro n sum hp he hn hs
    obtain ⟨ts, lat⟩ := a
    rw [List.pairwise_cons] at hp
    simp only [popLoop]
    by_cases hc : ts < cutoff
    · rw [if_pos hc]
      have hd : decide (cutoff ≤ ts) = false := by simp; omega
      rw [List.filter_cons_of_neg (by simpa using hc)]
      refine ih hp.2 ?_ (by simp at hn; omega) ?_
      · obtain ⟨e, he, hle⟩ := he
        rcases List.mem_cons.1 he with rfl | h
        · simp only at hle; omega
        · exact ⟨e, h, hle⟩
      · rw [hs]; simp [sumOf]; omega
    · rw [if_neg hc]
      have : ((ts, lat) :: q).filter (fun e => decide (cutoff ≤ e.1)) = (ts, lat) :: q := by
        rw [List.filter_eq_self]
        intro e he
        rcases List.mem_cons.1 he with rfl | h
        · simpa using hc
        · have := hp.1 e h
          simp only [decide_eq_true_eq]; simp only at this; omega
      rw [this, ← hn, ← hs]

theorem window_snoc (width : Int) (hist : List (Int × Int)) (ts lat : Int) :
    window width (hist ++ [(ts, lat)]) =
      (hist ++ [(ts, lat)]).filter (fun e => decide (ts - width ≤ e.1)) := by
  simp [window]

theorem mem_window {width : Int} {hist : List (Int × Int)} {e : Int × Int}
    (h : e ∈ window width hist) : e ∈ hist := by
  unfold window at h
  split at h
  · simp at h
  · exact (List.mem_filter.1 h).1

/-- C144: one measurement is added to a tracker which shows the window. -/
theorem add_shows {width : Int} (hw : 0 ≤ width) {hist : List (Int × Int)} {t : Tracker}
    (h : Shows width hist t) {ts lat : Int} (ho : Ordered (hist ++ [(ts, lat)])) :
    ∃ t', t.add width ts lat = some t' ∧ Shows width (hist ++ [(ts, lat)]) t' := by
  obtain ⟨h1, h2, h3⟩ := h
  have ho' := List.pairwise_append.1 ho
  have hsub : (window width hist).Sublist hist := by
    unfold window
    split
    · exact List.nil_sublist _
    · exact List.filter_sublist
  have key : (t.q ++ [(ts, lat)]).filter (fun e => decide (ts - width ≤ e.1)) =
      window width (hist ++ [(ts, lat)]) := by
    rw [window_snoc, List.filter_append, List.filter_append, h1]
    congr 1
    unfold window
    split
    · next hn => rw [List.getLast?_eq_none_iff] at hn; simp [hn]
    · next l hl =>
      rw [List.filter_filter]
      apply List.filter_congr
      intro e _
      have hlm : l ∈ hist := List.mem_of_getLast? hl
      have := ho'.2.2 l hlm (ts, lat) (by simp)
      simp only at this
      by_cases hc : ts - width ≤ e.1
      · have : l.1 - width ≤ e.1 := by omega
        simp [hc, this]
      · simp [hc]
  have hp : (t.q ++ [(ts, lat)]).Pairwise (fun a b => a.1 ≤ b.1) := by
    rw [h1]
    exact List.Pairwise.sublist (List.Sublist.append hsub (List.Sublist.refl _)) ho
  refine ⟨_, popLoop_eq hp ⟨(ts, lat), by simp, by simp only; omega⟩ ?_ ?_, ?_⟩
  · rw [h1, h2]; simp
  · rw [h1, h3]; simp [sumOf]
  · rw [key]; exact ⟨rfl, rfl, rfl⟩

theorem nth_isKth {nth : List Int → Nat → List Int} (hn : NthOk nth) {v w : List Int} {p : Nat}
    (hv : v.Perm w) (hp : p < w.length) :
    ∃ x, (nth v p)[p]? = some x ∧ IsKth w p x := by
  have hp' : p < v.length := by rw [hv.length_eq]; exact hp
  obtain ⟨h1, h2⟩ := hn v p hp'
  have hl : p < (nth v p).length := by rw [h1.length_eq]; exact hp'
  obtain ⟨x, hx⟩ : ∃ x, (nth v p)[p]? = some x := ⟨_, List.getElem?_eq_getElem hl⟩
  obtain ⟨h3, h4⟩ := h2 x hx
  have hw : (nth v p).Perm w := h1.trans hv
  refine ⟨x, hx, ?_, ?_, ?_⟩
  · exact hw.mem_iff.1 (List.mem_of_getElem? hx)
  · rw [← hw.countP_eq, ← List.take_append_drop p (nth v p), List.countP_append]
    have : ((nth v p).drop p).countP (fun y => decide (y < x)) = 0 := by
      rw [List.countP_eq_zero]
      intro y hy; have := h4 y hy; simp; exact this
    have h5 := List.countP_le_length (p := fun y => decide (y < x)) (l := (nth v p).take p)
    rw [this]
    simp at h5 ⊢
    omega
  · rw [← hw.countP_eq, ← List.take_append_drop (p + 1) (nth v p), List.countP_append]
    have : ((nth v p).take (p + 1)).countP (fun y => decide (y ≤ x)) = p + 1 := by
      rw [List.countP_eq_length.2]
      · simp; omega
      · intro y hy
        rw [List.take_add_one, hx] at hy
        rcases List.mem_append.1 hy with h | h
        · simpa using h3 y h
        · simp at h; simp [h]
    omega

/-- C144: the report of a tracker which shows the window, whatever order
`std::nth_element` leaves the rest in: "N/A" exactly if there is nothing in it;
otherwise the number, the five percentiles, and the average rounded down, provided
that the sum is not negative (and an `int64_t`). -/
theorem state_reports {nth : List Int → Nat → List Int} (hn : NthOk nth) {width : Int}
    {hist : List (Int × Int)} {t : Tracker} (h : Shows width hist t)
    (hs : 0 ≤ sumOf (window width hist)) (hb : sumOf (window width hist) < 2 ^ 63) :
    (window width hist = [] → t.state nth = none) ∧
    (window width hist ≠ [] → ∃ p01 p10 p50 p90 p99 : Int, ∃ avg : Nat,
      t.state nth = some (avg, [some p01, some p10, some p50, some p90, some p99],
        (window width hist).length) ∧
      ((avg : Int) * (window width hist).length ≤ sumOf (window width hist) ∧
        sumOf (window width hist) < (avg + 1) * (window width hist).length) ∧
      (let v := (window width hist).map (·.2)
       IsKth v (v.length / 100) p01 ∧ IsKth v (v.length / 10) p10 ∧ IsKth v (v.length / 2) p50 ∧
       IsKth v (v.length * 9 / 10) p90 ∧ IsKth v (v.length * 99 / 100) p99)) := by
  obtain ⟨h1, h2, h3⟩ := h
  constructor
  · intro he; simp [Tracker.state, h2, he]
  · intro he
    have hn0 : t.n ≠ 0 := by rw [h2]; simpa using he
    obtain ⟨v, hv⟩ : ∃ v, v = (window width hist).map (·.2) := ⟨_, rfl⟩
    have hvl : t.n = v.length := by rw [hv, h2]; simp
    have hperm : ∀ {a : List Int} {p : Nat}, p < v.length → a.Perm v → (nth a p).Perm v :=
      fun {a p} hp ha => ((hn a p (by rw [ha.length_eq]; exact hp)).1).trans ha
    have l1 : t.n / 100 < v.length := by omega
    have l2 : t.n / 10 < v.length := by omega
    have l3 : t.n / 2 < v.length := by omega
    have l4 : t.n * 9 / 10 < v.length := by omega
    have l5 : t.n * 99 / 100 < v.length := by omega
    have p0 : v.Perm v := .refl v
    have p1 := hperm l1 p0
    have p2 := hperm l2 p1
    have p3 := hperm l3 p2
    have p4 := hperm l4 p3
    obtain ⟨x1, e1, k1⟩ := nth_isKth hn p0 l1
    obtain ⟨x2, e2, k2⟩ := nth_isKth hn p1 l2
    obtain ⟨x3, e3, k3⟩ := nth_isKth hn p2 l3
    obtain ⟨x4, e4, k4⟩ := nth_isKth hn p3 l4
    obtain ⟨x5, e5, k5⟩ := nth_isKth hn p4 l5
    have hvq : t.q.map (·.2) = v := by rw [h1, hv]
    refine ⟨x1, x2, x3, x4, x5, average t.sum t.n, ?_, ?_, ?_⟩
    · simp only [Tracker.state, hn0, if_false, hvq, e1, e2, e3, e4, e5, ← h2]
    · rw [← h3] at hs hb
      rw [← h2, ← h3]
      have ha : average t.sum t.n = t.sum.toNat / t.n := by
        unfold average; rw [Int.emod_eq_of_lt hs (by omega)]
      have hq : (t.sum.toNat : Int) = t.sum := Int.toNat_of_nonneg hs
      have m1 := Nat.div_mul_le_self t.sum.toNat t.n
      have m2 := Nat.lt_mul_div_succ t.sum.toNat (Nat.pos_of_ne_zero hn0)
      rw [ha]
      constructor
      · rw [← hq]; exact_mod_cast m1
      · rw [← hq]
        rw [Nat.mul_comm] at m2
        exact_mod_cast m2
    · rw [← hv]
      simp only
      rw [← hvl]
      exact ⟨k1, k2, k3, k4, k5⟩

/-- A window of negative width is undefined behaviour at the first measurement. -/
theorem negative_width (t : Tracker) (width ts lat : Int) (hw : width < 0) (ht : t.q = []) :
    t.add width ts lat = none := by
  have : ts < ts - width := by omega
  simp [Tracker.add, ht, popLoop, this]

/-- With a negative sum the average is nonsense; it does not happen (`latency_pos`). -/
theorem negative_average : average (-2) 2 = 9223372036854775807 := by decide

/-! ## The two threads -/

/-- What `RelaxQueues` keeps in its statics (generator.cc 110-117), with the clock
and, for the specification, the list of what was measured, oldest first: the
request, when, and the latency. -/
structure Meter where
  clock : Int := 0
  all : Tracker := {}
  evens : Tracker := {}
  odds : Tracker := {}
  measured : List (Nat × Int × Int) := []

/-- `current::time::Now()`: later than before by an arbitrary amount. -/
def now (d : Int → Nat) (clock : Int) : Int := clock + 1 + d clock

/-- The body of the loop (generator.cc 124-133).  `none`: undefined. -/
def measure (d : Int → Nat) (width : Int) (m : Meter) (id : Nat) (lat : Int) : Option Meter :=
  let t := now d m.clock
  match m.all.add width t lat with
  | none => none
  | some all =>
    if id % 2 = 1 then
      match m.odds.add width t lat with
      | none => none
      | some odds => some ⟨t, all, m.evens, odds, m.measured ++ [(id, t, lat)]⟩
    else
      match m.evens.add width t lat with
      | none => none
      | some evens => some ⟨t, all, evens, m.odds, m.measured ++ [(id, t, lat)]⟩

/-- The loop of `RelaxQueues` (generator.cc 119-142): what is left in the two
deques, and the trackers. -/
def relax (d : Int → Nat) (width : Int) : List (Nat × Int) → List (Nat × Int) → Meter →
    Option (List (Nat × Int) × List (Nat × Int) × Meter)
  | (i, ts) :: f, (j, tr) :: g, m =>
    if i = j then
      match measure d width m i (tr - ts) with
      | none => none
      | some m' => relax d width f g m'
    else some ((i, ts) :: f, (j, tr) :: g, m)
  | f, g, m => some (f, g, m)

/-- The program: `request_sequence_id`, the confirmations under way, the block
which was written and not noted, the confirmation which was read and not noted,
the deques, the trackers; `undef`: something undefined has happened.  For the
specification: all that was noted, oldest first, and when each request was
written. -/
structure Sys where
  next : Nat := 0
  inflight : List Nat := []
  sending : Option (Nat × Int) := none
  held : Option (Nat × Int) := none
  first : List (Nat × Int) := []
  second : List (Nat × Int) := []
  meter : Meter := {}
  undef : Bool := false
  sent : List (Nat × Int) := []
  received : List (Nat × Int) := []
  written : Nat → Int := fun _ => 0

inductive Act where
  /-- the sender reads the clock and writes a block (generator.cc 205-222) -/
  | write
  /-- the sender notes the two requests (generator.cc 223-228) -/
  | noteSent
  /-- the listener reads a confirmation and the clock (generator.cc 190-191) -/
  | read
  /-- the listener notes it (generator.cc 192-195) -/
  | noteReceived
  /-- not the program: a confirmation is lost -/
  | lose
deriving DecidableEq, Repr

/-- After something was appended to a deque, `RelaxQueues`. -/
def note (d : Int → Nat) (width : Int) (s : Sys) : Sys :=
  match relax d width s.first s.second s.meter with
  | none => { s with undef := true }
  | some (f, g, m) => { s with first := f, second := g, meter := m }

/-- One step; `none`: not possible in this state. -/
def step (d : Int → Nat) (width : Int) (s : Sys) : Act → Option Sys
  | .write =>
    if s.undef = false ∧ s.sending = none then
      let t := now d s.meter.clock
      some { s with
        sending := some (s.next, t), next := s.next + 2
        inflight := s.inflight ++ [s.next, s.next + 1]
        meter := { s.meter with clock := t }
        written := fun i => if i = s.next ∨ i = s.next + 1 then t else s.written i }
    else none
  | .noteSent =>
    if s.undef = false then
      match s.sending with
      | none => none
      | some (i, t) =>
        some (note d width { s with
          sending := none, first := s.first ++ [(i, t), (i + 1, t)]
          sent := s.sent ++ [(i, t), (i + 1, t)] })
    else none
  | .read =>
    if s.undef = false ∧ s.held = none then
      match s.inflight with
      | [] => none
      | i :: l =>
        let t := now d s.meter.clock
        some { s with inflight := l, held := some (i, t), meter := { s.meter with clock := t } }
    else none
  | .noteReceived =>
    if s.undef = false then
      match s.held with
      | none => none
      | some (i, t) =>
        some (note d width { s with
          held := none, second := s.second ++ [(i, t)], received := s.received ++ [(i, t)] })
    else none
  | .lose =>
    match s.inflight with
    | [] => none
    | _ :: l => some { s with inflight := l }

/-- Runs in which nothing is lost. -/
inductive Reach (d : Int → Nat) (width : Int) : Sys → Prop where
  | init : Reach d width {}
  | step {s s' a} : Reach d width s → a ≠ .lose → step d width s a = some s' → Reach d width s'

/-! ### Specification -/

/-- The measurements as they go to a tracker. -/
def asHist (l : List (Nat × Int × Int)) : List (Int × Int) := l.map (·.2)

def isOdd (e : Nat × Int × Int) : Bool := e.1 % 2 == 1
def isEven (e : Nat × Int × Int) : Bool := e.1 % 2 == 0

/-- The three trackers show the windows of the measurements of all, of the even
and of the odd requests, and the times of the measurements are in order. -/
def MeterOk (width : Int) (m : Meter) : Prop :=
  Shows width (asHist m.measured) m.all ∧
  Shows width (asHist (m.measured.filter isEven)) m.evens ∧
  Shows width (asHist (m.measured.filter isOdd)) m.odds ∧
  Ordered (asHist m.measured) ∧ ∀ e ∈ m.measured, e.2.1 ≤ m.clock

/-- The latencies of those requests of which both ends were noted. -/
def latencies (sent received : List (Nat × Int)) : List (Nat × Int) :=
  List.zipWith (fun a b => (a.1, b.2 - a.2)) sent received

theorem ordered_filter {l : List (Nat × Int × Int)} (p : Nat × Int × Int → Bool)
    (h : Ordered (asHist l)) : Ordered (asHist (l.filter p)) :=
  List.Pairwise.sublist (List.Sublist.map _ List.filter_sublist) h

theorem ordered_snoc {m : Meter} {width : Int} (h : MeterOk width m) (d : Int → Nat) (lat : Int)
    (id : Nat) : Ordered (asHist (m.measured ++ [(id, now d m.clock, lat)])) := by
  obtain ⟨_, _, _, ho, hc⟩ := h
  unfold Ordered asHist at *
  rw [List.map_append, List.pairwise_append]
  refine ⟨ho, by simp, ?_⟩
  intro a ha b hb
  obtain ⟨e, he, rfl⟩ := List.mem_map.1 ha
  simp at hb; subst hb
  have := hc e he
  simp only [now]
  omega

theorem measure_ok {d : Int → Nat} {width : Int} (hw : 0 ≤ width) {m : Meter}
    (h : MeterOk width m) (id : Nat) (lat : Int) :
    ∃ m', measure d width m id lat = some m' ∧ MeterOk width m' ∧
      m'.measured = m.measured ++ [(id, now d m.clock, lat)] ∧ m.clock ≤ m'.clock := by
  have ho := ordered_snoc h d lat id
  obtain ⟨h1, h2, h3, h4, h5⟩ := h
  have hcl : m.clock ≤ now d m.clock := by simp only [now]; omega
  have hclk : ∀ e ∈ m.measured ++ [(id, now d m.clock, lat)], e.2.1 ≤ now d m.clock := by
    intro e he
    rcases List.mem_append.1 he with he | he
    · have := h5 e he; omega
    · simp at he; subst he; simp
  have hA : asHist (m.measured ++ [(id, now d m.clock, lat)]) =
      asHist m.measured ++ [(now d m.clock, lat)] := by simp [asHist]
  obtain ⟨a, ha, hs⟩ := add_shows hw h1 (hA ▸ ho)
  by_cases hid : id % 2 = 1
  · have hO : (m.measured ++ [(id, now d m.clock, lat)]).filter isOdd =
        m.measured.filter isOdd ++ [(id, now d m.clock, lat)] := by
      simp [List.filter_append, isOdd, hid]
    have hE : (m.measured ++ [(id, now d m.clock, lat)]).filter isEven =
        m.measured.filter isEven := by
      simp [List.filter_append, isEven, hid]
    have ho' := ordered_filter isOdd ho
    rw [hO] at ho'
    have hA' : asHist (m.measured.filter isOdd ++ [(id, now d m.clock, lat)]) =
      asHist (m.measured.filter isOdd) ++ [(now d m.clock, lat)] := by simp [asHist]
    obtain ⟨b, hb, hsb⟩ := add_shows hw h3 (hA' ▸ ho')
    refine ⟨⟨now d m.clock, a, m.evens, b, m.measured ++ [(id, now d m.clock, lat)]⟩,
      by simp only [measure, ha, hid, if_true, hb], ⟨?_, ?_, ?_, ho, hclk⟩, rfl, hcl⟩
    · simp only; rw [hA]; exact hs
    · simp only; rw [hE]; exact h2
    · simp only; rw [hO, hA']; exact hsb
  · have hid' : id % 2 = 0 := by omega
    have hE : (m.measured ++ [(id, now d m.clock, lat)]).filter isEven =
        m.measured.filter isEven ++ [(id, now d m.clock, lat)] := by
      simp [List.filter_append, isEven, hid']
    have hO : (m.measured ++ [(id, now d m.clock, lat)]).filter isOdd =
        m.measured.filter isOdd := by
      simp [List.filter_append, isOdd, hid']
    have ho' := ordered_filter isEven ho
    rw [hE] at ho'
    have hA' : asHist (m.measured.filter isEven ++ [(id, now d m.clock, lat)]) =
      asHist (m.measured.filter isEven) ++ [(now d m.clock, lat)] := by simp [asHist]
    obtain ⟨b, hb, hsb⟩ := add_shows hw h2 (hA' ▸ ho')
    refine ⟨⟨now d m.clock, a, b, m.odds, m.measured ++ [(id, now d m.clock, lat)]⟩,
      by simp only [measure, ha, hid, if_false, hb], ⟨?_, ?_, ?_, ho, hclk⟩, rfl, hcl⟩
    · simp only; rw [hA]; exact hs
    · simp only; rw [hE, hA']; exact hsb
    · simp only; rw [hO]; exact h3

/-- The pairs (request, latency) measured. -/
def pairs (m : Meter) : List (Nat × Int) := m.measured.map (fun e => (e.1, e.2.2))

theorem relax_ok {d : Int → Nat} {width : Int} (hw : 0 ≤ width) :
    ∀ {f g : List (Nat × Int)} {m : Meter} {a : Nat}, MeterOk width m →
      f.map (·.1) = List.range' a f.length → g.map (·.1) = List.range' a g.length →
      ∃ m', relax d width f g m =
          some (f.drop (min f.length g.length), g.drop (min f.length g.length), m') ∧
        MeterOk width m' ∧ pairs m' = pairs m ++ latencies f g ∧ m.clock ≤ m'.clock := by
  intro f
  induction f with
  | nil =>
    intro g m a hm _ _
    refine ⟨m, by cases g <;> simp [relax], hm, by simp [latencies], Int.le_refl _⟩
  | cons x f ih =>
    intro g m a hm hf hg
    obtain ⟨i, ts⟩ := x
    cases g with
    | nil => exact ⟨m, by simp [relax], hm, by simp [latencies], Int.le_refl _⟩
    | cons y g =>
      obtain ⟨j, tr⟩ := y
      simp only [List.map_cons, List.length_cons, List.range'_succ, List.cons.injEq] at hf hg
      obtain ⟨rfl, hf⟩ := hf
      obtain ⟨rfl, hg⟩ := hg
      obtain ⟨m', hm', hok, hme, hc⟩ := measure_ok (d := d) hw hm j (tr - ts)
      obtain ⟨m'', h1, h2, h3, h4⟩ := ih hok hf hg
      refine ⟨m'', ?_, h2, ?_, by omega⟩
      · simp only [relax, if_true, hm', h1, List.length_cons, Nat.succ_min_succ, List.drop_succ_cons]
      · rw [h3]; simp [pairs, hme, latencies]

/-! ### The invariant -/

structure Inv (width : Int) (s : Sys) : Prop where
  undef : s.undef = false
  meter : MeterOk width s.meter
  pairs : pairs s.meter = latencies s.sent s.received
  first : s.first = s.sent.drop (min s.sent.length s.received.length)
  second : s.second = s.received.drop (min s.sent.length s.received.length)
  sentIds : s.sent.map (·.1) ++ (match s.sending with | none => [] | some (i, _) => [i, i + 1]) =
    List.range s.next
  recvIds : s.received.map (·.1) ++ (match s.held with | none => [] | some (i, _) => [i]) ++
    s.inflight = List.range s.next
  sentAt : ∀ e ∈ s.sent, e.2 = s.written e.1
  sendingAt : ∀ i t, s.sending = some (i, t) → t = s.written i ∧ t = s.written (i + 1)
  recvAt : ∀ e ∈ s.received, s.written e.1 < e.2
  heldAt : ∀ i t, s.held = some (i, t) → s.written i < t
  clock : ∀ i, i < s.next → s.written i ≤ s.meter.clock

theorem ids_prefix {l r : List Nat} {n : Nat} (h : l ++ r = List.range n) :
    l = List.range l.length := by
  have h1 : (l ++ r).take l.length = (List.range n).take l.length := by rw [h]
  rw [List.take_left, List.take_range] at h1
  have : l.length ≤ n := by
    have := congrArg List.length h; simp at this; omega
  rw [Nat.min_eq_left this] at h1
  exact h1

theorem drop_ids {l : List (Nat × Int)} (h : l.map (·.1) = List.range l.length) (k : Nat) :
    (l.drop k).map (·.1) = List.range' k (l.drop k).length := by
  rw [List.map_drop, h, List.range_eq_range', List.drop_range']
  simp

theorem latencies_append (f g x y : List (Nat × Int)) :
    latencies (f ++ x) (g ++ y) = latencies f g ++
      latencies ((f ++ x).drop (min f.length g.length)) ((g ++ y).drop (min f.length g.length)) := by
  induction f generalizing g with
  | nil => simp [latencies]
  | cons a f ih =>
    cases g with
    | nil => simp [latencies]
    | cons b g =>
      have := ih g
      simp only [latencies] at this ⊢
      simp only [List.cons_append, List.zipWith_cons_cons, List.length_cons, Nat.succ_min_succ,
        List.drop_succ_cons, List.cons.injEq, true_and]
      exact this

/-- Noting re-establishes the part of the invariant about the deques. -/
theorem note_ok {d : Int → Nat} {width : Int} (hw : 0 ≤ width) {s : Sys} {x y : List (Nat × Int)}
    {f g : List (Nat × Int)}
    (hm : MeterOk width s.meter) (hp : pairs s.meter = latencies f g)
    (hf : s.first = f.drop (min f.length g.length) ++ x)
    (hg : s.second = g.drop (min f.length g.length) ++ y)
    (hsf : s.sent = f ++ x) (hsg : s.received = g ++ y)
    (i1 : s.sent.map (·.1) = List.range s.sent.length)
    (i2 : s.received.map (·.1) = List.range s.received.length) :
    ∃ m', note d width s = { s with
        first := s.sent.drop (min s.sent.length s.received.length)
        second := s.received.drop (min s.sent.length s.received.length)
        meter := m' } ∧ MeterOk width m' ∧
      pairs m' = latencies s.sent s.received ∧ s.meter.clock ≤ m'.clock := by
  obtain ⟨k, hk⟩ : ∃ k, k = min f.length g.length := ⟨_, rfl⟩
  have hf' : s.first = s.sent.drop k := by
    rw [hf, hsf, ← hk, List.drop_append_of_le_length (by omega)]
  have hg' : s.second = s.received.drop k := by
    rw [hg, hsg, ← hk, List.drop_append_of_le_length (by omega)]
  obtain ⟨m', h1, h2, h3, h4⟩ := relax_ok (d := d) hw (a := k) hm
    (f := s.first) (g := s.second) (by rw [hf']; exact drop_ids i1 k)
    (by rw [hg']; exact drop_ids i2 k)
  refine ⟨m', ?_, h2, ?_, h4⟩
  · have hl : min s.first.length s.second.length + k = min s.sent.length s.received.length := by
      rw [hf', hg', hsf, hsg]; simp; omega
    unfold note
    rw [h1]
    simp only
    have e1 : s.first.drop (min s.first.length s.second.length) =
        s.sent.drop (min s.sent.length s.received.length) := by
      rw [← hl, hf', List.drop_drop]; congr 1; omega
    have e2 : s.second.drop (min s.first.length s.second.length) =
        s.received.drop (min s.sent.length s.received.length) := by
      rw [← hl, hg', List.drop_drop]; congr 1; omega
    rw [e1, e2]
  · rw [h3, hp, hsf, hsg, latencies_append f g x y, ← hk, hf', hg', hsf, hsg]

theorem meterOk_tick {width : Int} {m : Meter} (h : MeterOk width m) (d : Int → Nat) :
    MeterOk width { m with clock := now d m.clock } := by
  obtain ⟨h1, h2, h3, h4, h5⟩ := h
  refine ⟨h1, h2, h3, h4, fun e he => ?_⟩
  have := h5 e he
  simp only [now]; omega

theorem inv_init (width : Int) : Inv width {} := by
  constructor <;> simp [MeterOk, Shows, window, asHist, sumOf, Ordered, pairs, latencies]

theorem inv_step {d : Int → Nat} {width : Int} (hw : 0 ≤ width) {s s' : Sys} {a : Act}
    (hI : Inv width s) (ha : a ≠ .lose) (h : step d width s a = some s') : Inv width s' := by
  have hI' := hI
  obtain ⟨h1, h2, h3, h4, h5, h6, h7, h8, h9, h10, h11, h12⟩ := hI
  cases a with
  | lose => exact absurd rfl ha
  | write =>
    by_cases hc : s.undef = false ∧ s.sending = none
    · simp only [step] at h
      rw [if_pos hc] at h
      simp only [Option.some.injEq] at h
      subst h
      have hsn := hc.2
      rw [hsn] at h6
      simp only [List.append_nil] at h6
      have hlt : ∀ e ∈ s.sent, e.1 < s.next := by
        intro e he
        have : e.1 ∈ s.sent.map (·.1) := List.mem_map_of_mem he
        rw [h6] at this; simpa using this
      have hlt' : ∀ i ∈ s.received.map (·.1), i < s.next := by
        intro i hi
        have : i ∈ List.range s.next := by rw [← h7]; simp [hi]
        simpa using this
      refine ⟨h1, meterOk_tick h2 d, h3, h4, h5, ?_, ?_, ?_, ?_, ?_, ?_, ?_⟩
      · simp only; rw [h6, List.range_succ, List.range_succ]; simp
      · simp only; rw [← List.append_assoc, h7, List.range_succ, List.range_succ]; simp
      · intro e he
        have := hlt e he
        simp only
        rw [if_neg (by omega)]
        exact h8 e he
      · intro i t hi
        simp only [Option.some.injEq, Prod.mk.injEq] at hi
        obtain ⟨rfl, rfl⟩ := hi
        simp
      · intro e he
        have := hlt' e.1 (List.mem_map_of_mem he)
        simp only
        rw [if_neg (by omega)]
        exact h10 e he
      · intro i t hi
        simp only at hi
        have : i ∈ List.range s.next := by rw [← h7, hi]; simp
        simp only [List.mem_range] at this
        simp only
        rw [if_neg (by omega)]
        exact h11 i t hi
      · intro i hi
        simp only at hi ⊢
        split
        · exact Int.le_refl _
        · have := h12 i (by omega)
          simp only [now]; omega
    · simp only [step, if_neg hc] at h
      contradiction
  | noteSent =>
    simp only [step] at h
    rw [if_pos h1] at h
    cases hs : s.sending with
    | none => rw [hs] at h; contradiction
    | some p =>
      obtain ⟨i, t⟩ := p
      rw [hs] at h h6
      simp only [Option.some.injEq] at h
      have h6' : (s.sent ++ [(i, t), (i + 1, t)]).map (·.1) = List.range s.next := by
        simpa using h6
      have hr : s.received.map (·.1) = List.range s.received.length := by
        have := ids_prefix (l := s.received.map (·.1)) (by rw [List.append_assoc] at h7; exact h7)
        simpa using this
      obtain ⟨m', e, e1, e2, e3⟩ := note_ok (d := d) hw (x := [(i, t), (i + 1, t)]) (y := [])
        (f := s.sent) (g := s.received)
        (s := { s with sending := none, first := s.first ++ [(i, t), (i + 1, t)],
                       sent := s.sent ++ [(i, t), (i + 1, t)] })
        h2 h3 (by simp only; rw [h4]) (by simp only; rw [h5]; simp) rfl (by simp)
        (by have := ids_prefix (l := (s.sent ++ [(i, t), (i + 1, t)]).map (·.1)) (r := [])
              (by rw [List.append_nil]; exact h6')
            simpa using this) hr
      rw [e] at h
      subst h
      refine ⟨h1, e1, e2, rfl, rfl, ?_, h7, ?_, ?_, h10, h11, ?_⟩
      · simp only; rw [h6', List.append_nil]
      · intro e he
        rcases List.mem_append.1 he with he | he
        · exact h8 e he
        · have := h9 i t hs
          simp at he
          rcases he with rfl | rfl
          · exact this.1
          · exact this.2
      · intro i t hi; simp at hi
      · intro i hi
        have := h12 i hi
        simp only at e3 ⊢
        omega
  | read =>
    by_cases hc : s.undef = false ∧ s.held = none
    · simp only [step] at h
      rw [if_pos hc] at h
      cases hf : s.inflight with
      | nil => rw [hf] at h; contradiction
      | cons i l =>
        rw [hf] at h
        simp only [Option.some.injEq] at h
        subst h
        rw [hc.2, hf] at h7
        refine ⟨h1, meterOk_tick h2 d, h3, h4, h5, h6, ?_, h8, h9, h10, ?_, ?_⟩
        · simp only; rw [← h7]; simp
        · intro j t hj
          simp only [Option.some.injEq, Prod.mk.injEq] at hj
          obtain ⟨rfl, rfl⟩ := hj
          have : i ∈ List.range s.next := by rw [← h7]; simp
          have := h12 i (by simpa using this)
          simp only [now]; omega
        · intro j hj
          have := h12 j hj
          simp only [now]; omega
    · simp only [step, if_neg hc] at h
      contradiction
  | noteReceived =>
    simp only [step] at h
    rw [if_pos h1] at h
    cases hs : s.held with
    | none => rw [hs] at h; contradiction
    | some p =>
      obtain ⟨i, t⟩ := p
      rw [hs] at h h7
      simp only [Option.some.injEq] at h
      have h7' : (s.received ++ [(i, t)]).map (·.1) ++ s.inflight = List.range s.next := by
        simpa using h7
      have hr : s.sent.map (·.1) = List.range s.sent.length := by
        have := ids_prefix (l := s.sent.map (·.1)) h6
        simpa using this
      obtain ⟨m', e, e1, e2, e3⟩ := note_ok (d := d) hw (x := []) (y := [(i, t)])
        (f := s.sent) (g := s.received)
        (s := { s with held := none, second := s.second ++ [(i, t)],
                       received := s.received ++ [(i, t)] })
        h2 h3 (by simp only; rw [h4]; simp) (by simp only; rw [h5]) (by simp) rfl hr
        (by have := ids_prefix (l := (s.received ++ [(i, t)]).map (·.1)) h7'
            simpa using this)
      rw [e] at h
      subst h
      refine ⟨h1, e1, e2, rfl, rfl, h6, ?_, h8, h9, ?_, ?_, ?_⟩
      · simp only; rw [List.append_nil]; exact h7'
      · intro e he
        rcases List.mem_append.1 he with he | he
        · exact h10 e he
        · simp at he; subst he; exact h11 i t hs
      · intro i t hi; simp at hi
      · intro i hi
        have := h12 i hi
        simp only at e3 ⊢
        omega

theorem inv_reach {d : Int → Nat} {width : Int} (hw : 0 ≤ width) {s : Sys}
    (h : Reach d width s) : Inv width s := by
  induction h with
  | init => exact inv_init width
  | step _ ha hs ih => exact inv_step hw ih ha hs

/-! ### Theorems -/

/-- C144: under every schedule, nothing undefined happens, and what has been
measured are the latencies of exactly the requests `0, 1, 2, …` of which the
sending and the confirmation were both noted, each once and in order: the time of
the confirmation of *this* request minus the time at which it was written. -/
theorem each_request_measured_once {d : Int → Nat} {width : Int} (hw : 0 ≤ width) {s : Sys}
    (hr : Reach d width s) :
    s.undef = false ∧
    pairs s.meter = latencies s.sent s.received ∧
    s.sent.map (·.1) = List.range s.sent.length ∧
    s.received.map (·.1) = List.range s.received.length ∧
    (∀ e ∈ s.sent, e.2 = s.written e.1) := by
  have hI := inv_reach hw hr
  refine ⟨hI.undef, hI.pairs, ?_, ?_, hI.sentAt⟩
  · have := ids_prefix (l := s.sent.map (·.1)) hI.sentIds
    simpa using this
  · have := ids_prefix (l := s.received.map (·.1)) (by have := hI.recvIds; rw [List.append_assoc] at this; exact this)
    simpa using this

/-- C144: nothing which could be measured waits: after each step one of the deques
is empty, and the other has what has come too early. -/
theorem nothing_waits {d : Int → Nat} {width : Int} (hw : 0 ≤ width) {s : Sys}
    (hr : Reach d width s) :
    (s.first = [] ∨ s.second = []) ∧ s.meter.measured.length + s.first.length = s.sent.length ∧
      s.meter.measured.length + s.second.length = s.received.length := by
  have hI := inv_reach hw hr
  have hl : s.meter.measured.length = min s.sent.length s.received.length := by
    have := congrArg List.length hI.pairs
    simpa [pairs, latencies] using this
  rw [hI.first, hI.second]
  refine ⟨?_, ?_, ?_⟩
  · rcases Nat.le_total s.sent.length s.received.length with h | h
    · left; simp [Nat.min_eq_left h]
    · right; simp [Nat.min_eq_right h]
  · simp; omega
  · simp; omega

/-- C144: latencies are positive. -/
theorem latency_pos {d : Int → Nat} {width : Int} (hw : 0 ≤ width) {s : Sys}
    (hr : Reach d width s) : ∀ e ∈ s.meter.measured, 0 < e.2.2 := by
  have hI := inv_reach hw hr
  obtain ⟨_, hp, h1, h2, h3⟩ := each_request_measured_once hw hr
  intro e he
  have hm : (e.1, e.2.2) ∈ latencies s.sent s.received := by
    rw [← hp]; exact List.mem_map_of_mem (f := fun e => (e.1, e.2.2)) he
  obtain ⟨k, hk⟩ := List.mem_iff_getElem?.1 hm
  simp only [latencies, List.getElem?_zipWith] at hk
  cases ha : s.sent[k]? with
  | none => rw [ha] at hk; simp at hk
  | some x =>
    cases hb : s.received[k]? with
    | none => rw [ha, hb] at hk; simp at hk
    | some y =>
      rw [ha, hb] at hk
      simp only [Option.some.injEq, Prod.mk.injEq] at hk
      have a1 := congrArg (·[k]?) h1
      have b1 := congrArg (·[k]?) h2
      simp only [List.getElem?_map, ha, hb, Option.map_some] at a1 b1
      have lk := (List.getElem?_eq_some_iff.1 ha).1
      have lk' := (List.getElem?_eq_some_iff.1 hb).1
      rw [List.getElem?_range lk] at a1
      rw [List.getElem?_range lk'] at b1
      simp only [Option.some.injEq] at a1 b1
      have c1 := h3 x (List.mem_of_getElem? ha)
      have c2 := hI.recvAt y (List.mem_of_getElem? hb)
      rw [b1, ← a1, ← c1] at c2
      omega

theorem sumOf_nonneg {l : List (Int × Int)} (h : ∀ e ∈ l, 0 ≤ e.2) : 0 ≤ sumOf l := by
  induction l with
  | nil => simp [sumOf]
  | cons a l ih =>
    have h1 := ih (fun e he => h e (List.mem_cons_of_mem _ he))
    have h2 := h a (by simp)
    simp only [sumOf, List.map_cons, List.sum_cons] at h1 ⊢
    omega

/-- C144: at any time the three trackers show the measurements of the last
`width` microseconds as of the latest, of all requests and of those with even and
odd numbers; the sums are not negative, so that `state_reports` applies to each. -/
theorem trackers_show_the_window {d : Int → Nat} {width : Int} (hw : 0 ≤ width) {s : Sys}
    (hr : Reach d width s) :
    (Shows width (asHist s.meter.measured) s.meter.all ∧
      0 ≤ sumOf (window width (asHist s.meter.measured))) ∧
    (Shows width (asHist (s.meter.measured.filter isEven)) s.meter.evens ∧
      0 ≤ sumOf (window width (asHist (s.meter.measured.filter isEven)))) ∧
    (Shows width (asHist (s.meter.measured.filter isOdd)) s.meter.odds ∧
      0 ≤ sumOf (window width (asHist (s.meter.measured.filter isOdd)))) := by
  have hI := inv_reach hw hr
  obtain ⟨h1, h2, h3, _, _⟩ := hI.meter
  have hpos : ∀ l : List (Nat × Int × Int), (∀ e ∈ l, e ∈ s.meter.measured) →
      0 ≤ sumOf (window width (asHist l)) := by
    intro l hl
    apply sumOf_nonneg
    intro e he
    obtain ⟨x, hx, rfl⟩ := List.mem_map.1 (mem_window he)
    have := latency_pos hw hr x (hl x hx)
    omega
  exact ⟨⟨h1, hpos _ (fun _ h => h)⟩, ⟨h2, hpos _ (fun e h => (List.mem_filter.1 h).1)⟩,
    ⟨h3, hpos _ (fun e h => (List.mem_filter.1 h).1)⟩⟩

/-- Fronts of the deques which differ. -/
def Stuck (s : Sys) : Prop :=
  ∃ i ti f j tj g, s.first = (i, ti) :: f ∧ s.second = (j, tj) :: g ∧ i ≠ j

/-- C144, what the queue without loss is needed for: if the fronts of the deques
ever differ — one confirmation was lost, or two changed places — then nothing is
measured ever again, whatever happens. -/
theorem stuck_for_ever {d : Int → Nat} {width : Int} {s s' : Sys} {a : Act} (hs : Stuck s)
    (h : step d width s a = some s') :
    Stuck s' ∧ s'.meter.measured = s.meter.measured := by
  obtain ⟨i, ti, f, j, tj, g, h1, h2, hne⟩ := hs
  cases a with
  | write =>
    simp only [step] at h
    split at h
    · injection h with h; subst h
      exact ⟨⟨i, ti, f, j, tj, g, h1, h2, hne⟩, rfl⟩
    · contradiction
  | read =>
    simp only [step] at h
    split at h
    · split at h
      · contradiction
      · injection h with h; subst h
        exact ⟨⟨i, ti, f, j, tj, g, h1, h2, hne⟩, rfl⟩
    · contradiction
  | lose =>
    simp only [step] at h
    split at h
    · contradiction
    · injection h with h; subst h
      exact ⟨⟨i, ti, f, j, tj, g, h1, h2, hne⟩, rfl⟩
  | noteSent =>
    simp only [step] at h
    split at h
    · split at h
      · contradiction
      · injection h with h; subst h
        simp only [note, h1, h2, List.cons_append, relax, if_neg hne]
        exact ⟨⟨i, ti, _, j, tj, g, rfl, rfl, hne⟩, trivial⟩
    · contradiction
  | noteReceived =>
    simp only [step] at h
    split at h
    · split at h
      · contradiction
      · injection h with h; subst h
        simp only [note, h1, h2, List.cons_append, relax, if_neg hne]
        exact ⟨⟨i, ti, f, j, tj, _, rfl, rfl, hne⟩, trivial⟩
    · contradiction

/-! ### Cases -/

/-- `std::sort` meets the contract of `std::nth_element`. -/
theorem sort_is_nth : NthOk (fun v _ => v.mergeSort (fun a b => decide (a ≤ b))) := by
  intro v p hp
  refine ⟨List.mergeSort_perm _ _, ?_⟩
  intro x hx
  have hs : (v.mergeSort (fun a b => decide (a ≤ b))).Pairwise (fun a b => decide (a ≤ b) = true) :=
    List.pairwise_mergeSort (by intro a b c; simp; omega) (by intro a b; simp; omega) v
  obtain ⟨w, hw⟩ : ∃ w, w = v.mergeSort (fun a b => decide (a ≤ b)) := ⟨_, rfl⟩
  simp only [← hw] at hs hx ⊢
  have hl := (List.getElem?_eq_some_iff.1 hx).1
  have hxe := (List.getElem?_eq_some_iff.1 hx).2
  have hsp : w = w.take p ++ x :: w.drop (p + 1) := by
    rw [← hxe, ← List.drop_eq_getElem_cons hl, List.take_append_drop]
  have hd : w.drop p = x :: w.drop (p + 1) := by
    rw [List.drop_eq_getElem_cons hl, hxe]
  rw [hsp, List.pairwise_append, List.pairwise_cons] at hs
  constructor
  · intro y hy
    simpa using hs.2.2 y hy x (by simp)
  · intro y hy
    rw [hd] at hy
    rcases List.mem_cons.1 hy with rfl | hy
    · omega
    · simpa using hs.2.1.1 y hy

/-- Steps one after the other. -/
def runActs (d : Int → Nat) (width : Int) : Sys → List Act → Option Sys
  | s, [] => some s
  | s, a :: as => match step d width s a with
    | none => none
    | some s' => runActs d width s' as

theorem runActs_reach {d : Int → Nat} {width : Int} {as : List Act} : ∀ {s s' : Sys},
    Reach d width s → (∀ a ∈ as, a ≠ .lose) → runActs d width s as = some s' → Reach d width s' := by
  induction as with
  | nil => intro s s' h _ hs; simp only [runActs, Option.some.injEq] at hs; exact hs ▸ h
  | cons a as ih =>
    intro s s' h hl hs
    simp only [runActs] at hs
    split at hs
    · contradiction
    · next s₁ h₁ => exact ih (.step h (hl a (by simp)) h₁) (fun b hb => hl b (by simp [hb])) hs

/-- The first confirmation is noted before its request is. -/
theorem sample_run :
    (runActs (fun c => c.toNat % 3) 2 {}
      [.write, .read, .noteReceived, .noteSent, .read, .noteReceived, .write]).map
      (fun s => (s.meter.measured, s.meter.all, s.meter.evens, s.meter.odds)) =
    some ([(0, 4, 2), (1, 7, 5)], ⟨1, 5, [(7, 5)]⟩, ⟨1, 2, [(4, 2)]⟩, ⟨1, 5, [(7, 5)]⟩) := by
  decide +kernel

/-- A confirmation is lost: the fronts differ. -/
theorem sample_stuck :
    (runActs (fun _ => 0) 3 {} [.write, .noteSent, .lose, .read, .noteReceived]).map
      (fun s => (s.first, s.second, s.meter.measured)) =
    some ([(0, 1), (1, 1)], [(1, 2)], []) := by
  decide +kernel

/-- A tracker, and its report. -/
theorem sample_state :
    (Tracker.state (fun v _ => v) ⟨2, 7, [(1, 3), (5, 4)]⟩) =
      some (3, [some 3, some 3, some 4, some 4, some 4], 2) := by
  decide +kernel

end Current.Latency
