import Mathlib.Data.Nat.Prime.Basic
import Mathlib.Data.Nat.Sqrt
import Mathlib.Tactic.NormNum.Prime
import Mathlib.Tactic.Linarith
import Mathlib.NumberTheory.LucasLehmer

set_option linter.unusedSimpArgs false
set_option linter.unusedVariables false

/-! # The services of Karl's test (`karl/test_service/*.h`)

A generator publishes the numbers, an annotator asks another service of each of them whether it is a prime, a filter divides them in two streams. -/

namespace Current.KarlTest

/-- `INT_MAX`. -/
def intMax : Nat := 2147483647

/-- The loop of `IsPrime`, `is_prime.h:79-83`. `none` is the overflow of an `int`, which is undefined behavior. The fuel is more than enough (`loop_spec`). -/
def loop (x : Nat) : Nat → Nat → Option Bool
  | 0, _ => none
  | k + 1, i =>
    if i * i > intMax then none
    else if i * i ≤ x then (if x % i = 0 then some false else loop x k (i + 1))
    else some true

/-- `IsPrime(int x)`, `is_prime.h:75-87`. -/
def isPrime (x : Int) : Option Bool := if x < 2 then some false else loop x.toNat 46342 2

/-- No divisor below `i` so far. -/
theorem loop_spec (x : Nat) (hx : 2 ≤ x) (hmax : x ≤ intMax) : ∀ k i, 2 ≤ i → i + k = 46344 → (∀ d, 2 ≤ d → d < i → ¬ d ∣ x) → (i - 1) * (i - 1) ≤ x →
    loop x k i = if x.Prime then (if x < 46340 * 46340 then some true else none) else some false := by
  unfold intMax at hmax
  intro k
  induction k with
  | zero =>
    intro i h2 hk hd hsq
    exfalso
    have : i = 46344 := by omega
    subst this
    omega
  | succ k ih =>
    intro i h2 hk hd hsq
    simp only [loop]
    by_cases ho : i * i > intMax
    · rw [if_pos ho]
      unfold intMax at ho
      have hi : i ≥ 46341 := by
        by_contra hc
        have : i ≤ 46340 := by omega
        have := Nat.mul_le_mul this this
        omega
      have hp : x.Prime := by
        rw [Nat.prime_def_le_sqrt]
        refine ⟨hx, ?_⟩
        intro m hm hle
        apply hd m hm
        have h1 := Nat.sqrt_le_self x
        have h3 : Nat.sqrt x < i := by rw [Nat.sqrt_lt']; nlinarith
        omega
      have hlow : 46340 * 46340 ≤ x := by
        have : 46340 ≤ i - 1 := by omega
        have := Nat.mul_le_mul this this
        omega
      rw [if_pos hp, if_neg (by omega)]
    · rw [if_neg ho]
      unfold intMax at ho
      by_cases hle : i * i ≤ x
      · rw [if_pos hle]
        by_cases hdiv : x % i = 0
        · rw [if_pos hdiv]
          have hnp : ¬ x.Prime := by
            intro hp
            have hd' : i ∣ x := Nat.dvd_of_mod_eq_zero hdiv
            rcases (Nat.dvd_prime hp).1 hd' with h | h
            · omega
            · subst h
              nlinarith
          rw [if_neg hnp]
        · rw [if_neg hdiv]
          apply ih (i + 1) (by omega) (by omega) _ (by simpa using hle)
          intro d h1 h3 h4
          rcases Nat.lt_or_ge d i with h5 | h5
          · exact hd d h1 h5 h4
          · have : d = i := by omega
            subst this
            exact hdiv (Nat.mod_eq_zero_of_dvd h4)
      · rw [if_neg hle]
        have hp : x.Prime := by
          rw [Nat.prime_def_le_sqrt]
          refine ⟨hx, ?_⟩
          intro m hm hle'
          apply hd m hm
          have h3 : Nat.sqrt x < i := by rw [Nat.sqrt_lt']; nlinarith
          omega
        have hi : i ≤ 46340 := by
          by_contra hc
          have : 46341 ≤ i := by omega
          have := Nat.mul_le_mul this this
          omega
        have := Nat.mul_le_mul hi hi
        rw [if_pos hp, if_pos (by omega)]

/-- C134 (a): for every `int`: the function says of it whether it is a prime, unless it is a prime from 2147395600 on, in which case the program overflows an `int`. -/
theorem isPrime_eq (x : Int) (hmax : x ≤ 2147483647) : isPrime x = if x.toNat.Prime ∧ 2147395600 ≤ x then none else some (decide x.toNat.Prime) := by
  unfold isPrime
  by_cases h : x < 2
  · rw [if_pos h]
    have : ¬ x.toNat.Prime := by
      intro hp
      have := hp.two_le
      omega
    simp [this]
  · rw [if_neg h, loop_spec x.toNat (by omega) (by unfold intMax; omega) 46342 2 (by omega) rfl (by intro d a b; omega) (by omega)]
    by_cases hp : x.toNat.Prime
    · by_cases hq : 2147395600 ≤ x
      · have : ¬ x.toNat < 46340 * 46340 := by omega
        simp [hp, hq, this]
      · have : x.toNat < 46340 * 46340 := by omega
        simp [hp, hq, this]
    · simp [hp]

/-- The greatest `int` is one of those. -/
theorem int_max_overflows : isPrime 2147483647 = none := by
  rw [isPrime_eq _ (by omega), if_pos]
  refine ⟨?_, by omega⟩
  have h : (mersenne 31).Prime := lucas_lehmer_sufficiency _ (by norm_num) (by norm_num)
  have e : mersenne 31 = 2147483647 := by unfold mersenne; norm_num
  rw [e] at h
  exact h

example : isPrime 97 = some true ∧ isPrime 91 = some false ∧ isPrime (-7) = some false := by
  rw [isPrime_eq _ (by omega), isPrime_eq _ (by omega), isPrime_eq _ (by omega)]
  rw [show Int.toNat 97 = 97 from rfl, show Int.toNat 91 = 91 from rfl, show Int.toNat (-7) = 0 from rfl]
  norm_num

/-! ### The pipeline -/

/-- `Number`, `schema.h:35-39`. -/
abbrev Number := Nat × Option Bool

/-- The streams, the indexes of the two subscribers (`http_subscriber.h:109`), and the counter of `/is_prime` (`is_prime.h:90`). -/
structure State where
  value : Nat
  numbers : List Number
  annIndex : Nat
  annotated : List Number
  filterIndex : Nat
  primes : List Number
  composites : List Number
  requests : Nat

/-- The services as they start. -/
def State.init : State := ⟨0, [], 0, [], 0, [], [], 0⟩

/-- The steps of the threads: the generator publishes, a chunk comes to the annotator, a chunk comes to the filter. -/
inductive Act
  | generate
  | annotate
  | filter

/-- One step; `none` if it cannot be taken. A chunk has the entry of the remote stream with the index which the subscriber expects (the subscription is that of C20 and C21). -/
def step (s : State) : Act → Option State
  /- `generator.h:91-99`; what comes after the greatest `int` is not modelled -/
  | .generate => if s.value > intMax then none else some { s with numbers := s.numbers ++ [(s.value, none)], value := s.value + 1 }
  /- `http_subscriber.h:85-101`, `annotator.h:67-73` -/
  | .annotate =>
    match s.numbers[s.annIndex]? with
    | none => none
    | some n =>
      match isPrime (n.1 : Int) with
      | none => none
      | some b => some { s with annIndex := s.annIndex + 1, requests := s.requests + 1, annotated := s.annotated ++ [(n.1, some b)] }
  /- `filter.h:71-75` -/
  | .filter =>
    match s.annotated[s.filterIndex]? with
    | none => none
    | some n =>
      match n.2 with
      | some true => some { s with filterIndex := s.filterIndex + 1, primes := s.primes ++ [n] }
      | some false => some { s with filterIndex := s.filterIndex + 1, composites := s.composites ++ [n] }
      | none => none

/-- Any schedule: steps which cannot be taken do nothing. -/
def runSteps (as : List Act) : State := as.foldl (fun s a => (step s a).getD s) State.init

/-- What the streams should have. -/
structure Good (s : State) : Prop where
  numbers : s.numbers = (List.range s.value).map (fun x => (x, none))
  a : s.annIndex ≤ s.value
  f : s.filterIndex ≤ s.annIndex
  small : s.value ≤ 2147483648
  annotated : s.annotated = (List.range s.annIndex).map (fun x => (x, some (decide x.Prime)))
  primes : s.primes = ((List.range s.filterIndex).filter (fun x => decide x.Prime)).map (fun x => (x, some true))
  composites : s.composites = ((List.range s.filterIndex).filter (fun x => !decide x.Prime)).map (fun x => (x, some false))
  requests : s.requests = s.annIndex

theorem Good.init : Good State.init := by
  constructor <;> simp [State.init]

theorem Good.step {s s' : State} (h : Good s) (a : Act) (hs : step s a = some s') : Good s' := by
  cases a with
  | generate =>
    simp only [KarlTest.step] at hs
    split at hs
    · cases hs
    · rename_i hv
      unfold intMax at hv
      injection hs with hs; subst hs
      refine ⟨?_, by have := h.a; simp only; omega, h.f, by simp only; omega, h.annotated, h.primes, h.composites, h.requests⟩
      simp only
      rw [h.numbers, List.range_succ, List.map_append]; rfl
  | annotate =>
    simp only [KarlTest.step] at hs
    split at hs
    · cases hs
    · rename_i n hn
      split at hs
      · cases hs
      · rename_i b hb
        injection hs with hs; subst hs
        rw [h.numbers, List.getElem?_map] at hn
        rcases Nat.lt_or_ge s.annIndex s.value with hlt | hge
        · rw [List.getElem?_range hlt] at hn
          simp only [Option.map_some, Option.some.injEq] at hn
          subst hn
          have hsm := h.small
          rw [isPrime_eq _ (by simp only; omega)] at hb
          split at hb
          · cases hb
          · simp only [Int.toNat_natCast, Option.some.injEq] at hb
            subst hb
            refine ⟨h.numbers, hlt, by have := h.f; simp only; omega, h.small, ?_, h.primes, h.composites, by simp only; rw [h.requests]⟩
            simp only
            rw [h.annotated, List.range_succ, List.map_append]; rfl
        · rw [List.getElem?_eq_none (by simpa using hge)] at hn
          simp at hn
  | filter =>
    simp only [KarlTest.step] at hs
    split at hs
    · cases hs
    · rename_i n hn
      rw [h.annotated, List.getElem?_map] at hn
      rcases Nat.lt_or_ge s.filterIndex s.annIndex with hlt | hge
      · rw [List.getElem?_range hlt] at hn
        simp only [Option.map_some, Option.some.injEq] at hn
        subst hn
        by_cases hp : s.filterIndex.Prime
        · simp only [hp, decide_true] at hs
          injection hs with hs; subst hs
          refine ⟨h.numbers, h.a, hlt, h.small, h.annotated, ?_, ?_, h.requests⟩
          · simp only
            rw [h.primes, List.range_succ, List.filter_append, List.map_append]
            simp [hp]
          · simp only
            rw [h.composites, List.range_succ, List.filter_append, List.map_append]
            simp [hp]
        · simp only [hp, decide_false] at hs
          injection hs with hs; subst hs
          refine ⟨h.numbers, h.a, hlt, h.small, h.annotated, ?_, ?_, h.requests⟩
          · simp only
            rw [h.primes, List.range_succ, List.filter_append, List.map_append]
            simp [hp]
          · simp only
            rw [h.composites, List.range_succ, List.filter_append, List.map_append]
            simp [hp]
      · rw [List.getElem?_eq_none (by simpa using hge)] at hn
        simp at hn

theorem Good.run (as : List Act) : ∀ s, Good s → Good (as.foldl (fun s a => (KarlTest.step s a).getD s) s) := by
  induction as with
  | nil => intro s h; exact h
  | cons a as ih =>
    intro s h
    rw [List.foldl_cons]
    apply ih
    cases hs : KarlTest.step s a with
    | none => exact h
    | some s' => exact h.step a hs

/-- C134 (b): at every moment of every schedule: the stream of primes has exactly the primes below some number, in order, each once; the stream of composites has the other numbers below the same one (zero and one among them); `/is_prime` has been asked once about each annotated number. -/
theorem streams_are_right (as : List Act) : ∃ k j, k ≤ j ∧ j ≤ (runSteps as).numbers.length ∧
    (runSteps as).primes.map Prod.fst = (List.range k).filter (fun x => decide x.Prime) ∧
    (runSteps as).composites.map Prod.fst = (List.range k).filter (fun x => !decide x.Prime) ∧
    (∀ n ∈ (runSteps as).primes, n.2 = some true) ∧ (∀ n ∈ (runSteps as).composites, n.2 = some false) ∧
    (runSteps as).annotated = (List.range j).map (fun x => (x, some (decide x.Prime))) ∧ (runSteps as).requests = j := by
  have h : Good (runSteps as) := Good.run as _ Good.init
  refine ⟨_, _, h.f, ?_, ?_, ?_, ?_, ?_, h.annotated, h.requests⟩
  · rw [h.numbers]; simp [h.a]
  · rw [h.primes, List.map_map]; exact List.map_id'' (fun _ => rfl) _
  · rw [h.composites, List.map_map]; exact List.map_id'' (fun _ => rfl) _
  · rw [h.primes]; intro n hn; simp only [List.mem_map] at hn; obtain ⟨x, _, rfl⟩ := hn; rfl
  · rw [h.composites]; intro n hn; simp only [List.mem_map] at hn; obtain ⟨x, _, rfl⟩ := hn; rfl

/-- C134 (c): when neither the annotator nor the filter has anything to do, every number published is in one of the two streams, unless the next one is a prime from 2147395600 on. -/
theorem quiet_means_complete (as : List Act) (ha : step (runSteps as) .annotate = none) (hf : step (runSteps as) .filter = none) (hsmall : (runSteps as).numbers.length ≤ 2147395600) :
    (runSteps as).primes.length + (runSteps as).composites.length = (runSteps as).numbers.length := by
  have h : Good (runSteps as) := Good.run as _ Good.init
  generalize runSteps as = s at h ha hf hsmall
  have hlen : s.numbers.length = s.value := by rw [h.numbers]; simp
  have e1 : s.annIndex = s.value := by
    by_contra hc
    have hlt : s.annIndex < s.value := by have := h.a; omega
    simp only [step] at ha
    have hn : s.numbers[s.annIndex]? = some (s.annIndex, none) := by rw [h.numbers, List.getElem?_map, List.getElem?_range hlt]; rfl
    rw [hn] at ha
    simp only at ha
    rw [isPrime_eq _ (by omega), if_neg (by rintro ⟨_, q⟩; omega)] at ha
    cases ha
  have e2 : s.filterIndex = s.annIndex := by
    by_contra hc
    have hlt : s.filterIndex < s.annIndex := by have := h.f; omega
    simp only [step] at hf
    have hn : s.annotated[s.filterIndex]? = some (s.filterIndex, some (decide s.filterIndex.Prime)) := by rw [h.annotated, List.getElem?_map, List.getElem?_range hlt]; rfl
    rw [hn] at hf
    by_cases hp : s.filterIndex.Prime
    · simp [hp] at hf
    · simp [hp] at hf
  rw [h.primes, h.composites, List.length_map, List.length_map, hlen, ← e1, ← e2, ← List.length_append, (List.filter_append_perm _ _).length_eq, List.length_range]

/-! ### The subscriber's constructor -/

/-- The constructor of `HTTPStreamSubscriber` and its thread, `http_subscriber.h:38-52` and `104-112`: the thread is a member which comes before `terminate_id_`, so the string is constructed while the thread is running already. `id` is what the string has; assigning to it before it is constructed is undefined behavior, here: the value is lost when it is constructed. -/
structure Ctor where
  constructed : Bool := false
  id : Option Nat := none
  flag : Bool := false
  returned : Bool := false

inductive CtorAct
  | construct
  | header (id : Nat)
  | ret

/-- `http_subscriber.h:46-50` (the wait for the flag, after all members are constructed) and `79-84` (the header of the response). -/
def Ctor.step (s : Ctor) : CtorAct → Option Ctor
  | .construct => if s.constructed then none else some { s with constructed := true, id := none }
  | .header i => if s.flag then none else some { s with id := some i, flag := true }
  | .ret => if s.constructed ∧ s.flag ∧ ¬ s.returned then some { s with returned := true } else none

def Ctor.run (as : List CtorAct) : Ctor := as.foldl (fun s a => (s.step a).getD s) {}

/-- What the destructor does first, `http_subscriber.h:56-63`: it asks for the end of the subscription only if there is an id; without it the thread is never told, and the join waits for as long as the remote stream goes on. -/
def Ctor.terminates (s : Ctor) : Bool := s.id.isSome

/-- C134 (d), partial: a subscriber whose constructor has returned can be destroyed, if the thread got the header after all members had been constructed. Missing: the other schedules, for which see `subscriber_may_lose_its_id`. -/
theorem subscriber_terminates_partial (as : List CtorAct) (h : (Ctor.run (.construct :: as)).returned = true) : (Ctor.run (.construct :: as)).terminates = true := by
  have inv : ∀ (as : List CtorAct) (s : Ctor), s.constructed = true → (s.flag = true → s.id.isSome = true) → (s.returned = true → s.flag = true) →
      let r := as.foldl (fun s a => (s.step a).getD s) s
      r.constructed = true ∧ (r.flag = true → r.id.isSome = true) ∧ (r.returned = true → r.flag = true) := by
    intro as
    induction as with
    | nil => intro s a b c; exact ⟨a, b, c⟩
    | cons x as ih =>
      intro s a b c
      rw [List.foldl_cons]
      cases x with
      | construct => simp only [Ctor.step, a, if_true, Option.getD_none]; exact ih s a b c
      | header i =>
        by_cases hf : s.flag = true
        · simp only [Ctor.step, hf, if_true, Option.getD_none]; exact ih s a b c
        · have hr : s.returned = true → False := fun q => hf (c q)
          simp only [Ctor.step, hf, if_false, Option.getD_some, Bool.false_eq_true]
          exact ih _ a (fun _ => rfl) (fun _ => rfl)
      | ret =>
        by_cases hq : s.constructed = true ∧ s.flag = true ∧ ¬ s.returned = true
        · simp only [Ctor.step]
          rw [if_pos hq]
          exact ih _ a b (fun _ => hq.2.1)
        · simp only [Ctor.step]
          rw [if_neg hq]
          exact ih s a b c
  obtain ⟨_, h2, h3⟩ := inv as { constructed := true } rfl (by simp) (by simp)
  exact h2 (h3 h)

/-- The response coming before the last member is constructed: the constructor returns, the id is lost, and the destructor hangs. -/
theorem subscriber_may_lose_its_id : (Ctor.run [.header 7, .construct, .ret]).returned = true ∧ (Ctor.run [.header 7, .construct, .ret]).terminates = false := ⟨rfl, rfl⟩

/-- A run: four numbers published, three annotated, two filtered. -/
theorem demo_run : (runSteps [.generate, .generate, .annotate, .generate, .filter, .annotate, .filter, .filter, .generate, .annotate]).annotated = [(0, some false), (1, some false), (2, some true)] ∧
    (runSteps [.generate, .generate, .annotate, .generate, .filter, .annotate, .filter, .filter, .generate, .annotate]).composites = [(0, some false), (1, some false)] := by
  have e2 : isPrime 2 = some true := by rw [isPrime_eq _ (by omega), show Int.toNat 2 = 2 from rfl]; norm_num
  simp [runSteps, step, State.init, intMax, isPrime_eq, e2, Nat.prime_two, Nat.not_prime_zero, Nat.not_prime_one]

end Current.KarlTest
