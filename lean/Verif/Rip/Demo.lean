import Verif.Rip.Props
/-! Concrete flows: the hypotheses of `Props` are met, and what happens without them. -/
namespace Current.Rip

/-- Emits 1, 2 from the constructor and 3 from the destructor. -/
def source : Node Nat Nat where
  init := (0, [.emit 1, .emit 2])
  f := fun s _ => (s, [])
  fin := fun _ => [.emit 3]

/-- Emits the running sum, twice; and 100 at the end. -/
def summer : Node Nat Nat where
  init := (0, [])
  f := fun s m => (s + m, [.emit (s + m), .emit (s + m)])
  fin := fun _ => [.emit 100]

/-- The sink: collects the sum. -/
def collect : Node Nat Nat where
  init := (0, [])
  f := fun s m => (s + m, [])
  fin := fun _ => []

def demo : Nat → Node Nat Nat
  | 0 => source
  | 1 => summer
  | _ => collect

theorem source_run (ms : List Nat) : (ran source ms).2 = [.emit 1, .emit 2] := by
  induction ms using List.reverseRecOn with
  | nil => rfl
  | append_singleton r m ih => rw [ran_snoc]; simp only [ih]; rfl

theorem summer_run (ms : List Nat) : ∀ c ∈ (ran summer ms).2, isEmit c = true := by
  induction ms using List.reverseRecOn with
  | nil => simp [ran, summer]
  | append_singleton r m ih =>
    rw [ran_snoc]
    intro c hc
    simp only [List.mem_append] at hc
    rcases hc with hc | hc
    · exact ih c hc
    · simp only [summer, List.mem_cons, List.not_mem_nil, or_false] at hc
      rcases hc with rfl | rfl <;> rfl

theorem collect_run (ms : List Nat) : (ran collect ms).2 = [] := by
  induction ms using List.reverseRecOn with
  | nil => rfl
  | append_singleton r m ih => rw [ran_snoc]; simp only [ih]; rfl

theorem demo_proper : Proper demo 3 where
  pos := by decide
  mode := by
    intro i hi
    left
    match i, hi with
    | 0, _ =>
      intro ms c hc
      have : c ∈ (ran source ms).2 ++ source.fin (ran source ms).1 := hc
      rw [source_run] at this
      simp only [source, List.cons_append, List.nil_append, List.mem_cons, List.not_mem_nil, or_false] at this
      rcases this with rfl | rfl | rfl <;> rfl
    | 1, _ =>
      intro ms c hc
      have : c ∈ (ran summer ms).2 ++ summer.fin (ran summer ms).1 := hc
      simp only [List.mem_append] at this
      rcases this with h | h
      · exact summer_run ms c h
      · simp only [summer, List.mem_cons, List.not_mem_nil, or_false] at h
        subst h; rfl
  sink := by
    intro ms
    change (ran collect ms).2 ++ _ = []
    rw [collect_run]; rfl

theorem demo_inputs : input demo 1 = [1, 2, 3] ∧ input demo 2 = [1, 1, 3, 3, 6, 6, 100] := by decide +kernel

/-- A schedule in which `Join()` returns. -/
def demoEmit (i : Nat) (t : Int) : List Act := [.begin i t, .call i, .update i, .publish i]
def demoHandle1 (t : Int) : List Act := [.take 1] ++ demoEmit 1 t ++ demoEmit 1 (t + 1) ++ [.count 1, .release 1]
def demoHandle2 : List Act := [.take 2, .count 2, .release 2]
def demoActs : List Act :=
  [.construct, .constructed, .construct, .constructed, .construct] ++ demoEmit 0 1 ++ demoHandle1 2 ++ demoEmit 0 10 ++
  demoHandle2 ++ [.constructed, .join] ++ demoEmit 0 20 ++ demoHandle1 21 ++ demoHandle2 ++ demoHandle2 ++ [.destroyed] ++
  demoHandle1 31 ++ [.drained, .closed] ++ demoEmit 1 50 ++ [.destroyed] ++
  demoHandle2 ++ demoHandle2 ++ demoHandle2 ++ demoHandle2 ++ [.drained, .closed, .destroyed]

theorem demo_joins : (run demo 3 (init demo 3) demoActs).map (fun s => (s.main, s.log 1, s.log 2, s.st 2)) =
    some (.done, [1, 2, 3], [1, 1, 3, 3, 6, 6, 100], 120) := by decide +kernel

theorem demo_step_count : (demoActs.length : Int) = steps demo 3 := by decide +kernel

/-! ### A stage that posts -/

def poster : Node Nat Nat where
  init := (0, [.post 10 1, .post 20 2])
  f := fun s _ => (s, [])
  fin := fun _ => [.post 30 3]

def demoPost : Nat → Node Nat Nat
  | 0 => poster
  | _ => collect

theorem poster_run (ms : List Nat) : (ran poster ms).2 = [.post 10 1, .post 20 2] := by
  induction ms using List.reverseRecOn with
  | nil => rfl
  | append_singleton r m ih => rw [ran_snoc]; simp only [ih]; rfl

theorem demoPost_proper : Proper demoPost 2 where
  pos := by decide
  mode := by
    intro i hi
    right
    match i, hi with
    | 0, _ =>
      intro ms
      have : outs (demoPost 0) ms = [.post 10 1, .post 20 2, .post 30 3] := by
        change (ran poster ms).2 ++ poster.fin _ = _
        rw [poster_run]; rfl
      rw [this]
      decide
  sink := by
    intro ms
    change (ran collect ms).2 ++ _ = []
    rw [collect_run]; rfl

theorem demoPost_inputs : input demoPost 1 = [1, 2, 3] := by decide +kernel

/-! ### What `schedule` does to `Join()` -/

/-- Nothing at all can happen any more, and `Join()` has not returned. -/
def Hung {S M : Type} (nodes : Nat → Node S M) (n : Nat) (s : State S M) : Prop :=
  s.main ≠ .done ∧ ∀ a, step nodes n s a = none

/-- Two messages scheduled for the same microsecond, then the head is moved past it. -/
def twin : Nat → Node Nat Nat
  | 0 => { init := (0, [.schedule 5 1, .schedule 5 2, .head 10]), f := fun s _ => (s, []), fin := fun _ => [] }
  | _ => collect

/-- A message scheduled for a time the head never reaches. -/
def far : Nat → Node Nat Nat
  | 0 => { init := (0, [.head 10, .schedule 50 1]), f := fun s _ => (s, []), fin := fun _ => [] }
  | _ => collect

def twinActs : List Act :=
  [.construct, .constructed, .construct, .begin 0 0, .call 0, .publish 0, .begin 0 0, .call 0, .publish 0, .begin 0 0, .update 0,
   .constructed, .join, .take 1, .count 1, .release 1, .destroyed]

def farActs : List Act :=
  [.construct, .constructed, .construct, .begin 0 0, .update 0, .begin 0 0, .call 0, .publish 0, .constructed, .join, .destroyed]

theorem hung_of {S M : Type} {nodes : Nat → Node S M} {n k : Nat} {s : State S M} (h1 : s.main = .drain k)
    (h2 : s.called k ≠ s.processed k + s.failed k) (h3 : ∀ i, s.pc i = .idle ∧ s.pend i = [] ∧ s.cons i = .idle)
    (h4 : ∀ i, s.alive i = true → ∀ e ∈ s.q i, ¬ e.1 ≤ s.hd i) : Hung nodes n s := by
  refine ⟨by rw [h1]; simp, fun a => ?_⟩
  cases a with
  | construct => simp [step, h1]
  | constructed => simp [step, h1]
  | join => simp [step, h1]
  | destroyed => simp [step, h1]
  | drained => simp [step, h1, h2]
  | closed => simp [step, h1]
  | begin i t => simp [step, (h3 i).1, (h3 i).2.1]
  | call i => simp [step, (h3 i).1]
  | update i => simp [step, (h3 i).1]
  | publish i => simp [step, (h3 i).1]
  | count i => simp [step, (h3 i).2.2]
  | release i => simp [step, (h3 i).2.2]
  | take i =>
    simp only [step]
    split
    · rename_i h
      split
      · rename_i t m rest hq
        rw [if_neg (h4 i h.1 (t, m) (by simp [hq]))]
      · rfl
    · rfl

/-- **Two messages scheduled for the same microsecond hang `Join()`**: the second one is dropped silently (no error is reported), but it has been
counted, so `~MMPQWrapper` waits for it for ever. -/
theorem equal_schedules_hang_join : ∃ s, run twin 2 (init twin 2) twinActs = some s ∧ Hung twin 2 s ∧ s.log 1 = [1] ∧
    s.errors = 0 := by
  refine ⟨_, rfl, hung_of (k := 1) rfl (by decide +kernel) ?_ ?_, by decide +kernel, by decide +kernel⟩
  · intro i
    rcases i with _ | _ | i
    · decide +kernel
    · decide +kernel
    · exact ⟨rfl, rfl, rfl⟩
  · intro i
    rcases i with _ | _ | i
    · decide +kernel
    · decide +kernel
    · intro h; cases h

/-- **A message scheduled past the last head update hangs `Join()`.** -/
theorem far_schedule_hangs_join : ∃ s, run far 2 (init far 2) farActs = some s ∧ Hung far 2 s ∧ s.log 1 = [] ∧ s.errors = 0 := by
  refine ⟨_, rfl, hung_of (k := 1) rfl (by decide +kernel) ?_ ?_, by decide +kernel, by decide +kernel⟩
  · intro i
    rcases i with _ | _ | i
    · decide +kernel
    · decide +kernel
    · exact ⟨rfl, rfl, rfl⟩
  · intro i
    rcases i with _ | _ | i
    · decide +kernel
    · decide +kernel
    · intro h; cases h

end Current.Rip
