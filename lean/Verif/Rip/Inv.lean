import Verif.Rip.Spec
/-! Invariants of a running flow. -/
namespace Current.Rip
variable {S M : Type}

def unborn : Main → Nat → Bool
  | .building k, i => decide (i < k)
  | .ctor k, i => decide (i < k)
  | _, _ => false

/-- the destructor has been entered -/
def ending : Main → Nat → Bool
  | .dtor k, i => decide (i ≤ k)
  | .drain k, i => decide (i < k)
  | .closing k, i => decide (i < k)
  | .done, _ => true
  | _, _ => false

/-- the queue exists -/
def qlive : Main → Nat → Bool
  | .building k, i => decide (k ≤ i)
  | .ctor k, i => decide (k < i)
  | .dtor k, i => decide (k < i)
  | .drain k, i => decide (k ≤ i)
  | .closing k, i => decide (k ≤ i)
  | .done, _ => false

def over : Main → Nat → Bool
  | .dtor k, i => decide (i ≤ k)
  | .drain k, i => decide (i < k)
  | .closing k, i => decide (i ≤ k)
  | .done, _ => true
  | _, _ => false

def MainOk (n : Nat) : Main → Prop
  | .building k => k ≤ n
  | .ctor k => k < n
  | .dtor k => k < n
  | .drain k => 0 < k ∧ k < n
  | .closing k => 0 < k ∧ k < n
  | .done => True

def active (s : State S M) (i : Nat) : Prop := s.main = .ctor i ∨ s.main = .dtor i ∨ s.cons i = .handling

def expected (nodes : Nat → Node S M) (s : State S M) (i : Nat) : List (Cmd M) :=
  if unborn s.main i then [] else if ending s.main i then outs (nodes i) (s.log i) else (ran (nodes i) (s.log i)).2

def pcPair : Pc M → List (Int × M)
  | .idle => []
  | .stamped t m => [(t, m)]
  | .called t m => [(t, m)]
  | .due t m => [(t, m)]
  | .sched t m => [(t, m)]
  | .headOnly _ => []

def pcCalled : Pc M → Nat
  | .called _ _ => 1
  | .due _ _ => 1
  | _ => 0

def hand : Cons → Nat
  | .handling => 1
  | _ => 0

/-- The control part. -/
structure Ctl (nodes : Nat → Node S M) (n : Nat) (s : State S M) : Prop where
  main : MainOk n s.main
  quiet : ∀ i, ¬ active s i → s.pend i = [] ∧ s.pc i = .idle
  consAlive : ∀ i, s.cons i ≠ .idle → s.alive i = true
  alive : ∀ i, s.alive i = true ↔ (0 < i ∧ i < n ∧ qlive s.main i = true)
  fresh : ∀ i, unborn s.main i = true → s.log i = []
  st : ∀ i, s.st i = (ran (nodes i) (s.log i)).1
  cmds : ∀ i, ∀ c ∈ s.pend i, ∃ ms, c ∈ outs (nodes i) ms
  size : ∀ i, s.pc i ≠ .idle → i + 1 < n

theorem ran_nil (nd : Node S M) : ran nd [] = nd.init := rfl

theorem ran_snoc (nd : Node S M) (ms : List M) (m : M) :
    ran nd (ms ++ [m]) = ((nd.f (ran nd ms).1 m).1, (ran nd ms).2 ++ (nd.f (ran nd ms).1 m).2) := by
  simp [ran, List.foldl_append]

theorem upd_same {A : Type} (f : Nat → A) (i : Nat) (v : A) : upd f i v i = v := by simp [upd]
theorem upd_other {A : Type} {f : Nat → A} {i j : Nat} {v : A} (h : j ≠ i) : upd f i v j = f j := by simp [upd, h]

theorem idle_of_matches {p : Pc M} (h : (match p with | .idle => true | _ => false) = true) : p = .idle := by
  cases p <;> simp_all

macro "open_step" h:ident : tactic => `(tactic|
  (simp only [step] at $h:ident
   repeat' split at $h:ident
   all_goals (try (simp at $h:ident; done))
   all_goals (injection $h:ident with $h:ident; subst $h:ident; try dsimp only at *)))

theorem qlive_born (m : Main) (i : Nat) (h : qlive m i = true) : unborn m i = false ∧ ending m i = false ∧ m ≠ .ctor i ∧ m ≠ .dtor i := by
  cases m <;> simp_all [qlive, unborn, ending] <;> omega

theorem ctl_init (nodes : Nat → Node S M) (n : Nat) : Ctl nodes n (init nodes n) := by
  constructor <;> simp [init, MainOk, active, unborn, qlive, ran_nil]

set_option maxHeartbeats 1000000 in
theorem ctl_step {nodes : Nat → Node S M} {n : Nat} (hn : 0 < n) {s s' : State S M} {a : Act} (hi : Ctl nodes n s)
    (h : step nodes n s a = some s') : Ctl nodes n s' := by
  obtain ⟨h1, h2, h3, h4, h5, h6, h7, h8⟩ := hi
  have hr := ran_snoc (S := S) (M := M)
  have ho : ∀ (nd : Node S M) ms, outs nd ms = (ran nd ms).2 ++ nd.fin (ran nd ms).1 := fun _ _ => rfl
  have hq := qlive_born
  cases a <;> open_step h
  all_goals refine ⟨?_, ?_, ?_, ?_, ?_, ?_, ?_, ?_⟩
  all_goals try dsimp only
  all_goals grind [upd, MainOk, active, unborn, qlive, ran_nil, ran_snoc, outs]

/-- The data part, for the queue between stage `i` and stage `i + 1`. -/
structure Link (nodes : Nat → Node S M) (s : State S M) (i : Nat) : Prop where
  out : msgs (expected nodes s i) = (s.sent i).map (·.2) ++ (pcPair (s.pc i)).map (·.2) ++ msgs (s.pend i)
  through : (s.sent i).map (·.2) = s.log (i + 1) ++ (s.q (i + 1)).map (·.2)
  sorted : (s.q (i + 1)).Pairwise (fun a b => a.1 < b.1)
  due : ∀ e ∈ s.q (i + 1), e.1 ≤ s.hd (i + 1)
  called : s.called (i + 1) = (s.log (i + 1)).length + (s.q (i + 1)).length + pcCalled (s.pc i)
  processed : s.processed (i + 1) + hand (s.cons (i + 1)) = (s.log (i + 1)).length
  failed : s.failed (i + 1) = 0

structure Pcs (nodes : Nat → Node S M) (s : State S M) (i : Nat) : Prop where
  ahead : ∀ t m, s.pc i = .stamped t m ∨ s.pc i = .called t m → s.hd (i + 1) < t
  at' : ∀ t m, s.pc i = .due t m → s.hd (i + 1) = t ∧ ∀ e ∈ s.q (i + 1), e.1 < t
  kind : (∀ t m, s.pc i ≠ .sched t m) ∧ ∀ t, s.pc i ≠ .headOnly t
  clocked : Clocked (nodes i) → s.hd (i + 1) ≤ s.clock ∧ ∀ t m, s.pc i = .stamped t m ∨ s.pc i = .called t m → t ≤ s.clock
  timed : Timed (nodes i) → pairs (expected nodes s i) = s.sent i ++ pcPair (s.pc i) ++ pairs (s.pend i) ∧
    (s.hd (i + 1) = -1 ∨ (∃ e ∈ s.sent i, e.1 = s.hd (i + 1)) ∨ ∃ m, s.pc i = .due (s.hd (i + 1)) m)

structure Inv (nodes : Nat → Node S M) (n : Nat) (s : State S M) : Prop where
  ctl : Ctl nodes n s
  link : ∀ i, i + 1 < n → Link nodes s i
  pcs : ∀ i, i + 1 < n → Pcs nodes s i
  none : s.q 0 = [] ∧ s.log 0 = []
  errors : s.errors = 0
  lastSent : ∀ i, n ≤ i + 1 → s.sent i = []
  over : ∀ i, i < n → over s.main i = true → s.q i = [] ∧ s.cons i ≠ .handling ∧ (s.main ≠ .closing i → s.cons i = .idle)

theorem inv_init (nodes : Nat → Node S M) (n : Nat) : Inv nodes n (init nodes n) := by
  refine ⟨ctl_init nodes n, fun i hi => ?_, fun i hi => ?_, ⟨rfl, rfl⟩, rfl, fun _ _ => rfl, ?_⟩
  · constructor <;> simp [init, pcPair, msgs, pcCalled, hand, expected, unborn]
    omega
  · constructor <;> simp [init, pcPair, pairs, expected, unborn]
    omega
  · intro i _ h; simp [init, Current.Rip.over] at h

theorem emplace_last {t : Int} {m : M} : ∀ {q : List (Int × M)}, (∀ e ∈ q, e.1 < t) → emplace (t, m) q = q ++ [(t, m)]
  | [], _ => rfl
  | x :: xs, h => by
    have hx := h x (by simp)
    rw [emplace, if_neg (by simp; omega), if_pos hx, emplace_last (fun e he => h e (by simp [he]))]; rfl

theorem msgs_append (a b : List (Cmd M)) : msgs (a ++ b) = msgs a ++ msgs b := by simp [msgs]
theorem pairs_append (a b : List (Cmd M)) : pairs (a ++ b) = pairs a ++ pairs b := by simp [pairs]

theorem out_step {nodes : Nat → Node S M} {n : Nat} {s s' : State S M} {a : Act} (hi : Inv nodes n s)
    (h : step nodes n s a = some s') (i : Nat) (hin : i + 1 < n) :
    msgs (expected nodes s' i) = (s'.sent i).map (·.2) ++ (pcPair (s'.pc i)).map (·.2) ++ msgs (s'.pend i) := by
  obtain ⟨⟨h1, h2, h3, h4, h5, h6, h7, h8⟩, hl, hpc, hz, he, -, hov⟩ := hi
  have hq := qlive_born
  have ma := @msgs_append M
  have h2i := h2 i
  have l1 := (hl i hin).out
  have p3 := (hpc i hin).kind
  have p1 := (hpc i hin).ahead
  clear hl hpc h2 h7
  cases a
  case take j =>
    open_step h
    rename_i hj _ t m rest hq' ht
    by_cases hij : i = j
    · subst hij
      have hb := hq s.main i ((h4 i).mp hj.1).2.2
      have := h2i (by unfold active; grind)
      simp only [expected, upd_same, hb.1, hb.2.1, ran_snoc, ma, this, h6, Bool.false_eq_true, if_false] at l1 ⊢
      rw [l1]
      simp [msgs]
    · simp only [expected, upd_other hij] at l1 ⊢
      exact l1
  all_goals open_step h
  all_goals grind [upd, active, unborn, ending, ran_nil, ran_snoc, outs, expected, pcPair, msgOf, msgs]

theorem through_step {nodes : Nat → Node S M} {n : Nat} {s s' : State S M} {a : Act} (hi : Inv nodes n s)
    (h : step nodes n s a = some s') (i : Nat) (hin : i + 1 < n) :
    (s'.sent i).map (·.2) = s'.log (i + 1) ++ (s'.q (i + 1)).map (·.2) ∧
    (s'.q (i + 1)).Pairwise (fun a b => a.1 < b.1) ∧ ∀ e ∈ s'.q (i + 1), e.1 ≤ s'.hd (i + 1) := by
  obtain ⟨⟨h1, h2, h3, h4, h5, h6, h7, h8⟩, hl, hpc, hz, he, -, hov⟩ := hi
  obtain ⟨-, l2, l3, l4, -, -, -⟩ := hl i hin
  obtain ⟨p1, p2, p3, -, -⟩ := hpc i hin
  clear hl hpc h2 h7 h4 hov h5 h6
  cases a <;> open_step h
  all_goals grind [upd, emplace_last]

theorem counters_step {nodes : Nat → Node S M} {n : Nat} {s s' : State S M} {a : Act} (hi : Inv nodes n s)
    (h : step nodes n s a = some s') (i : Nat) (hin : i + 1 < n) :
    s'.called (i + 1) = (s'.log (i + 1)).length + (s'.q (i + 1)).length + pcCalled (s'.pc i) ∧
    s'.processed (i + 1) + hand (s'.cons (i + 1)) = (s'.log (i + 1)).length ∧ s'.failed (i + 1) = 0 := by
  obtain ⟨⟨h1, h2, h3, h4, h5, h6, h7, h8⟩, hl, hpc, hz, he, -, hov⟩ := hi
  obtain ⟨-, l2, l3, l4, l5, l6, l7⟩ := hl i hin
  obtain ⟨p1, p2, p3, -, -⟩ := hpc i hin
  clear hl hpc h2 h7 h4 hov h5 h6
  cases a <;> open_step h
  all_goals grind [upd, emplace_last, pcCalled, hand]

theorem emit_or_post {nodes : Nat → Node S M} {n : Nat} (hp : Proper nodes n) {s : State S M} (hi : Inv nodes n s) {i : Nat}
    (hin : i + 1 < n) {c : Cmd M} (hc : c ∈ s.pend i) :
    (Clocked (nodes i) ∧ ∃ m, c = .emit m) ∨ (Timed (nodes i) ∧ ∃ t m, c = .post t m) := by
  obtain ⟨ms, hms⟩ := hi.ctl.cmds i c hc
  rcases hp.mode i hin with h | h
  · have := h ms c hms
    refine .inl ⟨h, ?_⟩
    cases c <;> simp_all [isEmit]
  · have := (h ms).1 c hms
    refine .inr ⟨h, ?_⟩
    cases c <;> simp_all [isPost]

theorem expected_prefix {nodes : Nat → Node S M} {s : State S M} {i : Nat} :
    ∃ r, expected nodes s i ++ r = outs (nodes i) (s.log i) := by
  unfold expected outs
  split
  · exact ⟨_, rfl⟩
  · split
    · exact ⟨[], by simp⟩
    · exact ⟨_, rfl⟩

theorem pairs_step {nodes : Nat → Node S M} {n : Nat} (hp : Proper nodes n) {s s' : State S M} {a : Act} (hi : Inv nodes n s)
    (h : step nodes n s a = some s') (i : Nat) (hin : i + 1 < n) (ht : Timed (nodes i)) :
    pairs (expected nodes s' i) = s'.sent i ++ pcPair (s'.pc i) ++ pairs (s'.pend i) := by
  have hep := fun c => @emit_or_post S M nodes n hp s hi i hin c
  obtain ⟨⟨h1, h2, h3, h4, h5, h6, h7, h8⟩, hl, hpc, hz, he, -, hov⟩ := hi
  have hq := qlive_born
  have ma := @pairs_append M
  have h2i := h2 i
  have l1 := ((hpc i hin).timed ht).1
  have p3 := (hpc i hin).kind
  have p1 := (hpc i hin).ahead
  have hne : ∀ c rest, s.pend i = c :: rest → ∃ t m, c = .post t m := by
    intro c rest hm
    obtain ⟨ms, hms⟩ := h7 i c (by simp [hm])
    have := (ht ms).1 _ hms
    cases c <;> simp_all [isPost]
  clear hl hpc h2 h7 hep
  cases a
  case take j =>
    open_step h
    rename_i hj _ t m rest hq' ht
    by_cases hij : i = j
    · subst hij
      have hb := hq s.main i ((h4 i).mp hj.1).2.2
      have := h2i (by unfold active; grind)
      simp only [expected, upd_same, hb.1, hb.2.1, ran_snoc, ma, this, h6, Bool.false_eq_true, if_false] at l1 ⊢
      rw [l1]
      simp [pairs]
    · simp only [expected, upd_other hij] at l1 ⊢
      exact l1
  all_goals open_step h
  all_goals grind [upd, active, unborn, ending, ran_nil, ran_snoc, outs, expected, pcPair, pairOf, pairs]

theorem pcs_step {nodes : Nat → Node S M} {n : Nat} (hp : Proper nodes n) {s s' : State S M} {a : Act} (hi : Inv nodes n s)
    (h : step nodes n s a = some s') (i : Nat) (hin : i + 1 < n) : Pcs nodes s' i := by
  have hep := fun c => @emit_or_post S M nodes n hp s hi i hin c
  have hps := pairs_step hp hi h i hin
  have hl := (hi.link i hin).due
  have hc8 := hi.ctl.size
  obtain ⟨p1, p2, p3, p4, p5⟩ := hi.pcs i hin
  have pre := @expected_prefix S M nodes s i
  have nE : ∀ m, Cmd.emit m ∈ s.pend i → Clocked (nodes i) ∧ ¬ Timed (nodes i) := by
    intro m hm
    obtain ⟨ms, hms⟩ := hi.ctl.cmds i _ hm
    refine ⟨by rcases hep _ hm with h | h <;> grind, fun hT => ?_⟩
    have := (hT ms).1 _ hms
    simp [isPost] at this
  have nP : ∀ t m, Cmd.post t m ∈ s.pend i → Timed (nodes i) ∧ ¬ Clocked (nodes i) := by
    intro t m hm
    obtain ⟨ms, hms⟩ := hi.ctl.cmds i _ hm
    refine ⟨by rcases hep _ hm with h | h <;> grind, fun hT => ?_⟩
    have := hT ms _ hms
    simp [isEmit] at this
  have n1 : ∀ m rest, s.pend i = .emit m :: rest → Clocked (nodes i) ∧ ¬ Timed (nodes i) := by
    intro m rest h; exact nE m (by simp [h])
  have n2 : ∀ t m rest, s.pend i = .post t m :: rest → Timed (nodes i) ∧ ¬ Clocked (nodes i) := by
    intro t m rest h; exact nP t m (by simp [h])
  have n3 : ∀ t m rest, s.pend i ≠ .schedule t m :: rest := by
    intro t m rest h; rcases hep (.schedule t m) (by simp [h]) with h | h <;> grind
  have n4 : ∀ t rest, s.pend i ≠ .head t :: rest := by
    intro t rest h; rcases hep (.head t) (by simp [h]) with h | h <;> grind
  clear hi hep
  have nxt : ∀ t m rest, s.pc i = .idle → s.pend i = .post t m :: rest → Timed (nodes i) → s.hd (i + 1) < t := by
    intro t m rest hpc hpd ht
    obtain ⟨q1, q2⟩ := p5 ht
    obtain ⟨r, hr⟩ := pre
    have hT := ht (s.log i)
    rw [← hr, pairs_append, q1, hpd, hpc] at hT
    simp only [pcPair, pairs, List.filterMap_cons, pairOf, List.append_nil] at hT q2
    rcases q2 with hm | ⟨e, he, hh⟩ | ⟨m', hm'⟩
    · have := hT.2.1 (t, m) (by simp)
      simp only at this
      omega
    · have := hT.2.2
      simp only [List.append_assoc, List.pairwise_append] at this
      have := this.2.2 e he (t, m) (by simp)
      simp only at this
      omega
    · rw [hpc] at hm'; simp at hm'
  refine ⟨?_, ?_, ?_, ?_, fun ht => ⟨hps ht, ?_⟩⟩
  all_goals clear hps pre
  · cases a <;> open_step h
    all_goals grind [upd]
  · cases a <;> open_step h
    all_goals grind [upd]
  · cases a <;> open_step h
    all_goals grind [upd]
  · cases a <;> open_step h
    all_goals grind [upd]
  · have p5 := (p5 ht).2
    cases a
    case update j =>
      by_cases hij : i = j
      · subst hij
        simp only [step] at h
        split at h
        · rename_i t m hpc
          have := p1 t m (.inr hpc)
          rw [if_pos this] at h
          split at h
          · injection h with h; subst h
            exact .inr (.inr ⟨m, by simp [upd]⟩)
          · simp at h
        · rename_i t hpc; exact absurd hpc (p3.2 t)
        · simp at h
      · open_step h
        all_goals grind [upd]
    case publish j =>
      by_cases hij : i = j
      · subst hij
        open_step h
        rename_i t m hpc _
        exact .inr (.inl ⟨(t, m), by simp [upd], (p2 t m hpc).1.symm⟩)
      · open_step h
        all_goals grind [upd]
    all_goals open_step h
    all_goals grind [upd]

theorem over_step {nodes : Nat → Node S M} {n : Nat} {s s' : State S M} {a : Act} (hi : Inv nodes n s)
    (h : step nodes n s a = some s') : ∀ i, i < n → over s'.main i = true →
      s'.q i = [] ∧ s'.cons i ≠ .handling ∧ (s'.main ≠ .closing i → s'.cons i = .idle) := by
  obtain ⟨⟨h1, h2, h3, h4, h5, h6, h7, h8⟩, hl, hpc, hz, he, -, hov⟩ := hi
  intro i hin
  have hovi := hov i hin
  have h3i := h3 i
  have h4i := h4 i
  cases a
  case drained =>
    simp only [step] at h
    split at h
    · rename_i k hk
      split at h
      · rename_i hcount
        injection h with h; subst h
        rw [hk] at hovi h1
        simp only [MainOk] at h1
        intro ho
        obtain ⟨k', rfl⟩ : ∃ k', k = k' + 1 := ⟨k - 1, by omega⟩
        obtain ⟨-, -, -, -, l5, l6, l7⟩ := hl k' h1.2
        simp only [over, decide_eq_true_eq] at ho hovi
        by_cases hik : i = k' + 1
        · subst hik
          refine ⟨?_, ?_, by simp⟩
          · apply List.length_eq_zero_iff.mp; dsimp only; omega
          · intro hc
            rw [hc] at l6; simp only [hand] at l6; omega
        · have := hovi (by omega)
          grind
      · simp at h
    · simp at h
  case publish j =>
    have hj : s.pc j ≠ .idle → over s.main (j + 1) = false := by
      intro hne
      have ha : active s j := Classical.byContradiction fun hn => hne (h2 j hn).2
      have h4j := h4 j
      have h3j := h3 j
      unfold active at ha
      cases hm : s.main <;> simp_all [over, qlive] <;> grind
    clear hl hpc h2 h7 hov
    open_step h
    all_goals grind [upd]
  all_goals clear hl hpc h2 h7 hov
  all_goals open_step h
  all_goals grind [upd, over, MainOk, qlive, emplace]

theorem none_step {nodes : Nat → Node S M} {n : Nat} {s s' : State S M} {a : Act} (hi : Inv nodes n s)
    (h : step nodes n s a = some s') : s'.q 0 = [] ∧ s'.log 0 = [] := by
  have h4 := hi.ctl.alive 0
  have hz := hi.none
  clear hi
  cases a <;> open_step h
  all_goals grind [upd]

theorem lastSent_step {nodes : Nat → Node S M} {n : Nat} {s s' : State S M} {a : Act} (hi : Inv nodes n s)
    (h : step nodes n s a = some s') : ∀ i, n ≤ i + 1 → s'.sent i = [] := by
  have h8 := hi.ctl.size
  have h9 := hi.lastSent
  clear hi
  cases a <;> open_step h
  all_goals grind [upd]

theorem errors_step {nodes : Nat → Node S M} {n : Nat} {s s' : State S M} {a : Act} (hi : Inv nodes n s)
    (h : step nodes n s a = some s') : s'.errors = 0 := by
  have hz := hi.errors
  have h8 := hi.ctl.size
  have h1 : ∀ i t m, s.pc i = .called t m → s.hd (i + 1) < t := fun i t m hc =>
    (hi.pcs i (h8 i (by simp [hc]))).ahead t m (.inr hc)
  have h3 : ∀ i t, s.pc i ≠ .headOnly t := fun i t hc => (hi.pcs i (h8 i (by simp [hc]))).kind.2 t hc
  clear hi h8
  cases a <;> open_step h
  all_goals grind

theorem inv_step {nodes : Nat → Node S M} {n : Nat} (hp : Proper nodes n) {s s' : State S M} {a : Act} (hi : Inv nodes n s)
    (h : step nodes n s a = some s') : Inv nodes n s' where
  ctl := ctl_step hp.pos hi.ctl h
  link := fun i hin =>
    ⟨out_step hi h i hin, (through_step hi h i hin).1, (through_step hi h i hin).2.1, (through_step hi h i hin).2.2,
     (counters_step hi h i hin).1, (counters_step hi h i hin).2.1, (counters_step hi h i hin).2.2⟩
  pcs := pcs_step hp hi h
  none := none_step hi h
  errors := errors_step hi h
  lastSent := lastSent_step hi h
  over := over_step hi h

theorem inv_run {nodes : Nat → Node S M} {n : Nat} (hp : Proper nodes n) : ∀ (as : List Act) {s s' : State S M},
    Inv nodes n s → run nodes n s as = some s' → Inv nodes n s'
  | [], s, s', hi, h => by simp only [run] at h; injection h with h; subst h; exact hi
  | a :: as, s, s', hi, h => by
    simp only [run] at h
    cases hs : step nodes n s a with
    | none => rw [hs] at h; simp at h
    | some s1 => rw [hs] at h; exact inv_run hp as (inv_step hp hi hs) h

theorem inv_reachable {nodes : Nat → Node S M} {n : Nat} (hp : Proper nodes n) {s : State S M} (h : Reachable nodes n s) :
    Inv nodes n s := by
  obtain ⟨as, h⟩ := h
  exact inv_run hp as (inv_init nodes n) h

end Current.Rip
