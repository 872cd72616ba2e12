import Verif.Profiler.ProfilerProps

/-!
# The trie of a thread is what the history of the thread says
-/

set_option linter.unusedSimpArgs false

namespace Current.Profiler

theorem lastTime_cons (e : Ev) (h : List Ev) : lastTime (e :: h) = e.time := rfl

theorem inside_iff (h : List Ev) (p : List Key) : inside h p = true ↔ p <+: (opened h).reverse := by
  simp [inside, List.isPrefixOf_iff_prefix]

theorem inside_enter (k : Key) (t : Nat) (h : List Ev) (p : List Key) :
    inside (.enter k t :: h) p = true ↔ inside h p = true ∨ p = (opened h).reverse ++ [k] := by
  simp only [inside_iff, opened, List.reverse_cons, List.prefix_concat_iff]
  grind

theorem inside_ne_new (h : List Ev) (k : Key) : inside h ((opened h).reverse ++ [k]) = false := by
  rw [Bool.eq_false_iff]
  intro hi
  have := ((inside_iff _ _).1 hi).length_le
  simp at this
  omega

theorem inside_leave (t : Nat) (h : List Ev) (k : Key) (o : List Key) (ho : opened h = k :: o)
    (p : List Key) :
    inside (.leave t :: h) p = true ↔ inside h p = true ∧ p ≠ (opened h).reverse := by
  simp only [inside_iff, opened, ho, List.tail_cons, List.reverse_cons, List.prefix_concat_iff]
  constructor
  · intro hp
    refine ⟨Or.inr hp, ?_⟩
    rintro rfl
    have := hp.length_le
    simp at this
    omega
  · grind

theorem inside_reset (t : Nat) (h : List Ev) (p : List Key) :
    inside (.reset t :: h) p = inside h p := by simp [inside, opened]

theorem inside_self (h : List Ev) : inside h (opened h).reverse = true := by
  rw [inside_iff]; exact List.prefix_refl _

theorem known_of_inside (h : List Ev) (p : List Key) (hp : p ≠ []) (hi : inside h p = true) :
    known h p = true := by
  induction h with
  | nil => rw [inside_iff] at hi; simp [opened] at hi; exact absurd hi hp
  | cons e h ih =>
    cases e with
    | enter k t =>
      rw [inside_enter] at hi
      simp only [known, Bool.or_eq_true, beq_iff_eq]
      grind
    | leave t =>
      simp only [known]
      refine ih ?_
      rw [inside_iff] at hi ⊢
      refine hi.trans ?_
      simp only [opened]
      cases opened h <;> simp
    | reset t => rw [inside_reset] at hi; exact ih hi

theorem unknown_zero (h : List Ev) (p : List Key) (hp : p ≠ []) (hk : known h p = false) :
    visits h p = 0 ∧ spent h p = 0 ∧ idleAtReset h p = false := by
  induction h with
  | nil => simp [visits, spent, idleAtReset]
  | cons e h ih =>
    have key : ∀ h', known h' p = false → inside h' p = false := by
      intro h' hk'
      rw [Bool.eq_false_iff]
      intro hi
      rw [known_of_inside _ _ hp hi] at hk'
      cases hk'
    cases e with
    | enter k t =>
      simp only [known, Bool.or_eq_false_iff, beq_eq_false_iff_ne] at hk
      have := ih hk.2
      have hi := key h hk.2
      simp [visits, spent, idleAtReset, this, hk.1, hi]
    | leave t =>
      simp only [known] at hk
      have := ih hk
      have hi := key h hk
      simp [visits, spent, idleAtReset, this, hi]
    | reset t =>
      simp only [known] at hk
      have hi := key h hk
      simp [visits, spent, idleAtReset, hk, hi]

/-- The stack that goes with the open scopes (innermost first). -/
def pairs : List Key → List (Key × List Key)
  | [] => [(0, [])]
  | k :: o => (k, (k :: o).reverse) :: pairs o

theorem pairs_ne_nil (o : List Key) : pairs o ≠ [] := by cases o <;> simp [pairs]

/-- The time of the last reset, `0` if there was none. -/
def lastReset : List Ev → Nat
  | [] => 0
  | .reset t :: _ => t
  | .enter _ _ :: h => lastReset h
  | .leave _ :: h => lastReset h

/-- What a node says, given the history. -/
structure NodeOK (h : List Ev) (p : List Key) (n : Node) : Prop where
  on : inside h p = true →
    n.entered ≠ 0 ∧ n.entered ≤ lastTime h ∧ spent h p = n.total + (lastTime h - n.entered)
  off : inside h p = false → n.entered = 0 ∧ n.total = spent h p
  entries : n.entries = visits h p + (idleAtReset h p).toNat

/-- The trie and the stack of a thread, given its history and the time of its first call. -/
structure Inv (h : List Ev) (born : Nat) (pt : PerThread) : Prop where
  stack : pt.stack = pairs (opened h)
  distinct : pt.kids.Distinct
  unknown : ∀ p, p ≠ [] → known h p = false → pt.kids.find p = none
  known : ∀ p, p ≠ [] → known h p = true → ∃ n, pt.kids.find p = some n ∧ NodeOK h p n
  root : pt.root = { entered := max born (lastReset h), total := 0, entries := 1 }
  bornPos : born ≠ 0

/-- Nothing but resets happened. -/
def Idle (h : List Ev) : Prop := opened h = [] ∧ ∀ p, Current.Profiler.known h p = false

theorem Inv.new {h : List Ev} (hi : Idle h) (born : Nat) (hb : born ≠ 0) (hr : lastReset h ≤ born) :
    Inv h born (PerThread.new born) := by
  refine ⟨by simp [PerThread.new, pairs, hi.1], trivial, fun p _ _ => rfl, ?_, ?_, hb⟩
  · intro p _ hk; rw [hi.2 p] at hk; cases hk
  · simp [PerThread.new, Nat.max_eq_left hr]

theorem inv_valid {h : List Ev} {born : Nat} {pt : PerThread} (hI : Inv h born pt) :
    Valid pt.kids (opened h).reverse := by
  by_cases ho : (opened h).reverse = []
  · exact Or.inl ho
  · right
    obtain ⟨n, hn, _⟩ := hI.known _ ho (known_of_inside _ _ ho (inside_self h))
    simp [hn]

theorem top_pairs (o : List Key) : ∃ k st, pairs o = (k, o.reverse) :: st := by
  cases o with
  | nil => exact ⟨0, [], by simp [pairs]⟩
  | cons k o => exact ⟨k, pairs o, by simp [pairs]⟩

theorem Inv.enter {h : List Ev} {born : Nat} {pt : PerThread} (hI : Inv h born pt) (k : Key)
    (t : Nat) (ht : lastTime h < t) : Inv (.enter k t :: h) born (pt.enter k t) := by
  obtain ⟨k0, st, hst⟩ := top_pairs (opened h)
  have hs : pt.stack = (k0, (opened h).reverse) :: st := by rw [hI.stack, hst]
  have hv := inv_valid hI
  have he : pt.enter k t =
      { pt with kids := pt.kids.enter (opened h).reverse k t,
                stack := (k, (opened h).reverse ++ [k]) :: pt.stack } := by
    simp [PerThread.enter, hs]
  rw [he]
  refine ⟨?_, distinct_enter _ _ _ _ hI.distinct, ?_, ?_, ?_, hI.bornPos⟩
  · simp [opened, pairs, hI.stack]
  · intro p hp hk
    simp only [Current.Profiler.known, Bool.or_eq_false_iff, beq_eq_false_iff_ne] at hk
    rw [find_enter _ _ _ _ _ hv, if_neg hk.1]
    exact hI.unknown p hp hk.2
  · intro p hp hk
    simp only [Current.Profiler.known, Bool.or_eq_true, beq_iff_eq] at hk
    rw [find_enter _ _ _ _ _ hv]
    by_cases hpe : p = (opened h).reverse ++ [k]
    · subst hpe
      have hni := inside_ne_new h k
      have hin : inside (.enter k t :: h) ((opened h).reverse ++ [k]) = true :=
        (inside_enter _ _ _ _).2 (Or.inr rfl)
      refine ⟨_, by rw [if_pos rfl], ?_⟩
      cases hkn : Current.Profiler.known h ((opened h).reverse ++ [k]) with
      | false =>
        obtain ⟨z1, z2, z3⟩ := unknown_zero _ _ hp hkn
        rw [hI.unknown _ hp hkn]
        refine ⟨?_, ?_, ?_⟩
        · intro _; simp [spent, z2, hni, lastTime_cons, Ev.time]; omega
        · rw [hin]; intro h'; cases h'
        · simp [visits, idleAtReset, z1, z3]
      | true =>
        obtain ⟨n, hn, hok⟩ := hI.known _ hp hkn
        obtain ⟨o1, o2⟩ := hok.off hni
        rw [hn]
        refine ⟨?_, ?_, ?_⟩
        · intro _; simp [spent, o2, hni, lastTime_cons, Ev.time]; omega
        · rw [hin]; intro h'; cases h'
        · simp only [visits, idleAtReset, hn, hok.entries, Option.map_some, Option.getD_some, if_true]
          omega
    · rw [if_neg hpe]
      obtain ⟨n, hn, hok⟩ := hI.known p hp (by grind)
      refine ⟨n, hn, ?_, ?_, ?_⟩
      · intro hi
        have hi' : inside h p = true := by
          rcases (inside_enter _ _ _ _).1 hi with h1 | h1
          · exact h1
          · exact absurd h1 hpe
        obtain ⟨a, b, c⟩ := hok.on hi'
        refine ⟨a, by simp only [lastTime_cons, Ev.time]; omega, ?_⟩
        simp only [spent, hi', lastTime_cons, Ev.time]
        simp only [if_true]; omega
      · intro hi
        have hi' : inside h p = false := by
          rw [Bool.eq_false_iff] at hi ⊢
          intro h1; exact hi ((inside_enter _ _ _ _).2 (Or.inl h1))
        obtain ⟨a, b⟩ := hok.off hi'
        exact ⟨a, by simp [spent, hi', b]⟩
      · simp [visits, idleAtReset, hok.entries, hpe]
  · simpa [lastReset] using hI.root

theorem Inv.leave {h : List Ev} {born : Nat} {pt : PerThread} (hI : Inv h born pt) {k : Key}
    {o : List Key} (ho : opened h = k :: o) (t : Nat) (ht : lastTime h < t) :
    Inv (.leave t :: h) born (pt.leave t) := by
  have hs : pt.stack = (k, (opened h).reverse) :: pairs o := by rw [hI.stack, ho]; simp [pairs]
  have hne : (opened h).reverse ≠ [] := by simp [ho]
  have he : pt.leave t =
      { pt with kids := pt.kids.leave (opened h).reverse t, stack := pairs o } := by
    simp only [PerThread.leave, hs]
  rw [he]
  refine ⟨?_, distinct_leave _ _ _ hI.distinct, ?_, ?_, ?_, hI.bornPos⟩
  · simp [opened, ho]
  · intro p hp hk
    simp only [Current.Profiler.known] at hk
    rw [find_leave]
    simp [hI.unknown p hp hk]
  · intro p hp hk
    simp only [Current.Profiler.known] at hk
    obtain ⟨n, hn, hok⟩ := hI.known p hp hk
    rw [find_leave, hn]
    by_cases hpe : p = (opened h).reverse
    · rw [if_pos hpe]
      have hi : inside h p = true := by rw [hpe]; exact inside_self h
      have hni : inside (.leave t :: h) p = false := by
        rw [Bool.eq_false_iff]; intro h1
        exact ((inside_leave _ _ _ _ ho _).1 h1).2 hpe
      obtain ⟨a, b, c⟩ := hok.on hi
      refine ⟨_, rfl, ?_, ?_, ?_⟩
      · rw [hni]; intro h'; cases h'
      · intro _
        refine ⟨rfl, ?_⟩
        simp only [Node.leave, spent, hi, Ev.time, if_true]; omega
      · simpa [visits, idleAtReset, Node.leave] using hok.entries
    · rw [if_neg hpe]
      refine ⟨n, rfl, ?_, ?_, ?_⟩
      · intro hi
        have hi' := ((inside_leave _ _ _ _ ho _).1 hi).1
        obtain ⟨a, b, c⟩ := hok.on hi'
        refine ⟨a, by simp only [lastTime_cons, Ev.time]; omega, ?_⟩
        simp only [spent, hi', lastTime_cons, Ev.time, if_true]; omega
      · intro hi
        have hi' : inside h p = false := by
          rw [Bool.eq_false_iff] at hi ⊢
          intro h1; exact hi ((inside_leave _ _ _ _ ho _).2 ⟨h1, hpe⟩)
        obtain ⟨a, b⟩ := hok.off hi'
        exact ⟨a, by simp [spent, hi', b]⟩
      · simpa [visits, idleAtReset] using hok.entries
  · simpa [lastReset] using hI.root

theorem Inv.reset {h : List Ev} {born : Nat} {pt : PerThread} (hI : Inv h born pt) (t : Nat)
    (hb : born < t) (hr : lastReset h < t) :
    Inv (.reset t :: h) born (pt.reset t) := by
  refine ⟨?_, distinct_reset _ _ hI.distinct, ?_, ?_, ?_, hI.bornPos⟩
  · simpa [PerThread.reset, opened] using hI.stack
  · intro p hp hk
    simp only [Current.Profiler.known] at hk
    simp [PerThread.reset, find_reset, hI.unknown p hp hk]
  · intro p hp hk
    simp only [Current.Profiler.known] at hk
    obtain ⟨n, hn, hok⟩ := hI.known p hp hk
    refine ⟨n.reset t, by simp [PerThread.reset, find_reset, hn], ?_⟩
    refine ⟨?_, ?_, ?_⟩
    · intro hi
      rw [inside_reset] at hi
      obtain ⟨a, b, c⟩ := hok.on hi
      simp [Node.reset, a, spent, lastTime_cons, Ev.time]; omega
    · intro hi
      rw [inside_reset] at hi
      obtain ⟨a, b⟩ := hok.off hi
      simp [Node.reset, a, spent]
    · simp only [Node.reset, visits, idleAtReset, hk, Bool.true_and]
      cases inside h p <;> simp
  · have : max born (lastReset h) ≠ 0 := by have := hI.bornPos; omega
    simp only [PerThread.reset, hI.root, Node.reset, lastReset]
    rw [if_pos this, Nat.max_eq_right (by omega)]

end Current.Profiler
