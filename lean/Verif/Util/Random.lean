/-!
C160: the random numbers of `bricks/util/random.h`, over `ThreadLocalSingleton` (`bricks/util/singleton.h`).

`std::mt19937_64` and the distributions are parameters: a generator is a state `σ` made of a seed, and a draw takes a request (which type, and
which bounds) and gives a value and the next state. The code around them is what is modelled: what every thread seeds its generator with, and when.
-/
namespace Current.Util.Random

/-- The standard library: `std::mt19937_64(seed)`, and a distribution applied to it. -/
structure Gen (σ ρ α : Type) where
  init : Nat → σ
  draw : σ → ρ → α × σ

/-- The singletons of one thread: `SeedImpl` (`random.h:41-44`), and `mt19937_64_wrapper` (`random.h:46-55`), which is made on first use
(`singleton.h:46-50`, `thread_local static`). -/
structure Local (σ : Type) where
  seed : Nat := 0
  isSet : Bool := false
  gen : Option σ := none

variable {σ ρ α : Type} (G : Gen σ ρ α) (fixed : Option Nat)

/-- `mt19937_64_wrapper()` (`random.h:47-53`): `fixed` is `FIXED_SEED` if `BRICKS_RANDOM_FIX_SEED` is defined; `now` is `current::time::Now().count()`. -/
def wrapper (l : Local σ) (now : Nat) : σ :=
  match fixed with
  | some s => G.init s
  | none => G.init (if l.isSet then l.seed else now)

/-- `mt19937_64_tls()` (`random.h:65`). -/
def tls (l : Local σ) (now : Nat) : σ :=
  match l.gen with
  | some g => g
  | none => wrapper G fixed l now

/-- `SetRandomSeed` (`random.h:59-62`). -/
def setSeed (l : Local σ) (s : Nat) : Local σ := { l with seed := s, isSet := true }

/-- `RandomIntegral`, `RandomReal` with `Generator::MT19937_64` (`random.h:73-78, 122-127`). -/
def random (l : Local σ) (now : Nat) (r : ρ) : α × Local σ :=
  let (x, g) := G.draw (tls G fixed l now) r
  (x, { l with gen := some g })

/-- A call, by any thread, at some time. -/
inductive Call (ρ : Type) where
  | seed (s : Nat)
  | draw (now : Nat) (r : ρ)

/-- A process: what every thread's singletons are. -/
abbrev Process (σ : Type) := Nat → Local σ

/-- One call of thread `t`, and what it returns. -/
def step (P : Process σ) (t : Nat) : Call ρ → Process σ × Option α
  | .seed s => (fun u => if u = t then setSeed (P t) s else P u, none)
  | .draw now r =>
    let (x, l) := random G fixed (P t) now r
    (fun u => if u = t then l else P u, some x)

/-- Calls in the order in which they happen: what they return, with the threads. -/
def run (P : Process σ) : List (Nat × Call ρ) → List (Nat × α)
  | [] => []
  | (t, c) :: cs =>
    let (P', x) := step G fixed P t c
    match x with
    | some x => (t, x) :: run P' cs
    | none => run P' cs

def start : Process σ := fun _ => {}

/-! ### the specification -/

/-- What a generator gives for a series of requests. -/
def values (g : σ) : List ρ → List α
  | [] => []
  | r :: rs => (G.draw g r).1 :: values (G.draw g r).2 rs

/-- The calls of a thread, in order. -/
def callsOf (t : Nat) (cs : List (Nat × Call ρ)) : List (Call ρ) := (cs.filter fun c => c.1 = t).map (·.2)

/-- The values a thread was given, in order. -/
def valuesOf (t : Nat) (xs : List (Nat × α)) : List α := (xs.filter fun c => c.1 = t).map (·.2)

/-- The requests of a thread. -/
def requests : List (Call ρ) → List ρ
  | [] => []
  | .seed _ :: cs => requests cs
  | .draw _ r :: cs => r :: requests cs

/-- What the generator of a thread is seeded with: the last seed set before the first draw, or else the time of the first draw. -/
def seedOf (last : Option Nat) : List (Call ρ) → Option Nat
  | [] => none
  | .seed s :: cs => seedOf (some s) cs
  | .draw now _ :: _ => some (last.getD now)

/-! ### one thread -/

/-- One thread alone. -/
def alone (l : Local σ) : List (Call ρ) → List α
  | [] => []
  | .seed s :: cs => alone (setSeed l s) cs
  | .draw now r :: cs => (random G fixed l now r).1 :: alone (random G fixed l now r).2 cs

/-- Threads do not affect each other. -/
theorem run_alone (t : Nat) (cs : List (Nat × Call ρ)) : ∀ P : Process σ, valuesOf t (run G fixed P cs) = alone G fixed (P t) (callsOf t cs) := by
  induction cs with
  | nil => intro P; rfl
  | cons c cs ih =>
    intro P
    obtain ⟨u, c⟩ := c
    have ih' := ih (step G fixed P u c).1
    by_cases h : u = t
    · subst h
      have hc : callsOf u ((u, c) :: cs) = c :: callsOf u cs := by simp [callsOf]
      rw [hc]
      cases c with
      | seed s =>
        simp only [run, step, alone] at *
        rw [ih']; simp
      | draw now r =>
        simp only [run, step, alone] at *
        have hv : ∀ (x : α) xs, valuesOf u ((u, x) :: xs) = x :: valuesOf u xs := by intro x xs; simp [valuesOf]
        rw [hv, ih']; simp
    · have hc : callsOf t ((u, c) :: cs) = callsOf t cs := by simp [callsOf, h]
      have ht : t ≠ u := fun e => h e.symm
      rw [hc]
      cases c with
      | seed s =>
        simp only [run, step] at *
        rw [ih']; simp [ht]
      | draw now r =>
        simp only [run, step] at *
        have hv : ∀ (x : α) xs, valuesOf t ((u, x) :: xs) = valuesOf t xs := by intro x xs; simp [valuesOf, h]
        rw [hv, ih']; simp [ht]

/-- Once there is a generator, seeds do nothing. -/
theorem alone_gen (cs : List (Call ρ)) : ∀ (l : Local σ) (g : σ), l.gen = some g → alone G fixed l cs = values G g (requests cs) := by
  induction cs with
  | nil => intro l g h; rfl
  | cons c cs ih =>
    intro l g h
    cases c with
    | seed s =>
      simp only [alone, requests]
      exact ih _ g (by simpa [setSeed] using h)
    | draw now r =>
      simp only [alone, requests, values, random, tls, h]
      exact congrArg _ (ih _ _ rfl)

theorem alone_start (cs : List (Call ρ)) : ∀ (l : Local σ), l.gen = none →
    alone G none l cs = match seedOf (if l.isSet then some l.seed else none) cs with
      | some s => values G (G.init s) (requests cs)
      | none => [] := by
  induction cs with
  | nil => intro l h; rfl
  | cons c cs ih =>
    intro l h
    cases c with
    | seed s =>
      simp only [alone, requests, seedOf]
      rw [ih _ (by simpa [setSeed] using h)]
      simp [setSeed]
    | draw now r =>
      simp only [alone, seedOf, requests, values, random, tls, h, wrapper]
      rw [alone_gen G none cs _ _ rfl]
      cases hs : l.isSet <;> simp

theorem alone_fixed (s : Nat) (cs : List (Call ρ)) : ∀ (l : Local σ), l.gen = none → alone G (some s) l cs = values G (G.init s) (requests cs) := by
  induction cs with
  | nil => intro l h; rfl
  | cons c cs ih =>
    intro l h
    cases c with
    | seed s' =>
      simp only [alone, requests]
      exact ih _ (by simpa [setSeed] using h)
    | draw now r =>
      simp only [alone, requests, values, random, tls, h, wrapper]
      exact congrArg _ (alone_gen G (some s) cs _ _ rfl)

/-! ### the theorems -/

/-- **C160.** In every process the values a thread is given are those of one generator, seeded with the last seed the thread set before its first
draw, or else with the time of that draw: whatever other threads do, and whatever seeds are set later. -/
theorem values_spec (cs : List (Nat × Call ρ)) (t : Nat) : valuesOf t (run G none start cs) =
    match seedOf none (callsOf t cs) with
    | some s => values G (G.init s) (requests (callsOf t cs))
    | none => [] := by
  rw [run_alone, alone_start G (callsOf t cs) _ rfl]
  rfl

/-- **C160.** A thread that begins with `SetRandomSeed(s)` and then draws is given the same values in every run, whenever it runs and next to whatever else. -/
theorem reproducible (cs : List (Nat × Call ρ)) (t s now : Nat) (r : ρ) (rest : List (Call ρ)) (h : callsOf t cs = .seed s :: .draw now r :: rest) :
    valuesOf t (run G none start cs) = values G (G.init s) (r :: requests rest) := by
  rw [values_spec, h]
  rfl

/-- **C160.** `SetRandomSeed` after the first draw is without effect. -/
theorem late_seed_ignored (cs cs' : List (Nat × Call ρ)) (t now : Nat) (r : ρ) (pre rest rest' : List (Call ρ)) (h : callsOf t cs = pre ++ .draw now r :: rest)
    (h' : callsOf t cs' = pre ++ .draw now r :: rest') (hr : requests rest = requests rest') : valuesOf t (run G none start cs) = valuesOf t (run G none start cs') := by
  have a : ∀ (last : Option Nat) (x : List (Call ρ)), seedOf last (pre ++ .draw now r :: x) = seedOf last (pre ++ [.draw now r]) := by
    intro last x
    clear h h'
    induction pre generalizing last with
    | nil => rfl
    | cons c pre ih =>
      cases c with
      | draw n q => rfl
      | seed s =>
        simp only [List.cons_append, seedOf]
        exact ih _
  have b : ∀ (pre x : List (Call ρ)), requests (pre ++ x) = requests pre ++ requests x := by
    intro pre x
    induction pre with
    | nil => rfl
    | cons c pre ih => cases c <;> simp [requests, ih]
  rw [values_spec, values_spec, h, h', a, a none rest', b, b]
  simp only [requests, hr]

/-- **C160.** Two threads that set no seed and first draw in the same microsecond are given the same values for the same requests. -/
theorem same_time_same_values (cs : List (Nat × Call ρ)) (t u now : Nat) (r : ρ) (rest rest' : List (Call ρ)) (h : callsOf t cs = .draw now r :: rest)
    (h' : callsOf u cs = .draw now r :: rest') (hr : requests rest = requests rest') : valuesOf t (run G none start cs) = valuesOf u (run G none start cs) := by
  rw [values_spec, values_spec, h, h']
  simp [seedOf, requests, hr]

/-- **C160.** With `BRICKS_RANDOM_FIX_SEED`, every thread in every process is given the values of the same generator, and `SetRandomSeed` does nothing. -/
theorem fixed_seed (s : Nat) (cs : List (Nat × Call ρ)) (t : Nat) : valuesOf t (run G (some s) start cs) = values G (G.init s) (requests (callsOf t cs)) := by
  rw [run_alone, alone_fixed G s (callsOf t cs) _ rfl]

/-- The values that are drawn satisfy what the distribution guarantees of each (such as being between the bounds), in every history. -/
theorem each_value (ok : ρ → α → Prop) (hd : ∀ g r, ok r (G.draw g r).1) (cs : List (Nat × Call ρ)) (t : Nat) :
    ∀ (i : Nat) (r : ρ) (x : α), (requests (callsOf t cs))[i]? = some r → (valuesOf t (run G fixed start cs))[i]? = some x → ok r x := by
  have key : ∀ (rs : List ρ) (g : σ) (i : Nat) (r : ρ) (x : α), rs[i]? = some r → (values G g rs)[i]? = some x → ok r x := by
    intro rs
    induction rs with
    | nil => intro g i r x h; simp at h
    | cons r0 rs ih =>
      intro g i r x h h'
      cases i with
      | zero =>
        simp only [List.getElem?_cons_zero, Option.some.injEq, values] at h h'
        rw [← h, ← h']; exact hd _ _
      | succ i =>
        simp only [List.getElem?_cons_succ, values] at h h'
        exact ih _ i r x h h'
  intro i r x h h'
  cases fixed with
  | some s => rw [fixed_seed] at h'; exact key _ _ i r x h h'
  | none =>
    rw [values_spec] at h'
    split at h'
    · exact key _ _ i r x h h'
    · simp at h'

/-! ### examples -/

/-- A generator for the examples. -/
def exG : Gen Nat Nat Nat := { init := fun s => s, draw := fun g r => (g % r, g * 7 + 1) }

/-- Thread 1 is seeded in time, thread 2 too late; both next to each other. -/
def exCalls : List (Nat × Call Nat) :=
  [(1, .seed 5), (2, .draw 100 10), (1, .draw 101 10), (2, .seed 5), (2, .draw 102 10), (1, .draw 103 10)]

example : run exG none start exCalls = [(2, 0), (1, 5), (2, 1), (1, 6)] := by decide

example : callsOf 1 exCalls = .seed 5 :: .draw 101 10 :: [.draw 103 10] ∧ valuesOf 1 (run exG none start exCalls) = [5, 6] := by
  constructor
  · rfl
  · decide

/-- The late seed of thread 2 did nothing. -/
example : callsOf 2 exCalls = [] ++ .draw 100 10 :: [.seed 5, .draw 102 10] ∧ valuesOf 2 (run exG none start exCalls) = [0, 1] := by
  constructor
  · rfl
  · decide

end Current.Util.Random
