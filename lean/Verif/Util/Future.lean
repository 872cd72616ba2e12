/-!
# `current::Future` (`bricks/util/future.h`)

`FutureImpl<T, STRICTNESS>` wraps a `std::future<T>`; a `Strict` one has to be
used (`Go`, `Wait`, `Detach`) or moved from before it is destroyed, or else the
process exits.  `ReadWriteTransaction` and `ReadOnlyTransaction` of
`storage/storage.h` return `Strict` ones.

The model has any number of tasks (shared states of promises) and of objects
`FutureImpl`, and a log, newest first, of the calls made and what came out of
them.  What the calls are to do is stated over the log alone.

Simplifications: values and exceptions are natural numbers.  A task delivers at
most once (the second time `std::promise` throws at the other end).  Using an
object which has been destroyed is not a call of the model (the language
excludes it).  `std::future::get` and `wait` without a shared state, undefined
for the standard and `std::future_error` in libstdc++, is the outcome
`noState`.  `Go` and `Wait` on a task which has not delivered block: the call
is not possible yet (`exec` is `none`).  The implicit move constructor does not
take part: a constructor template is never a move constructor, but these are
plain constructors, one of which has the type of a move constructor.
-/

set_option linter.unusedSimpArgs false

namespace Current.Future

/-- What a promise is given: `set_value` or `set_exception`. -/
inductive Res where
  | val (v : Nat)
  | exc (e : Nat)
deriving DecidableEq, Repr

/-- The shared state of a promise and its future; `isVoid`: of type `void`
(future.h 74, the partial specialization). -/
structure Task where
  isVoid : Bool
  res : Option Res
deriving DecidableEq, Repr

/-- A `FutureImpl` (future.h 41-71, 74-104): `f_` (the number of the task whose
state it shares, if any), `used_`, its `STRICTNESS`, and whether it has not been
destroyed. -/
structure Obj where
  strict : Bool
  f : Option Nat
  used : Bool
  alive : Bool
deriving DecidableEq, Repr

/-- Calls. -/
inductive Op where
  /-- a new promise, its `get_future()` in a new `Future` -/
  | spawn (isVoid strict : Bool)
  /-- the task sets the promise -/
  | deliver (t : Nat) (r : Res)
  /-- `Future<T, strict> k(std::move(i))` -/
  | moveTo (i : Nat) (strict : Bool)
  | go (i : Nat)
  | wait (i : Nat)
  | detach (i : Nat)
  /-- the end of the lifetime of the object -/
  | destroy (i : Nat)
deriving DecidableEq, Repr

/-- What comes out of a call. -/
inductive Out where
  | spawned (t k : Nat)
  | moved (k : Nat)
  | done
  | got (r : Res)
  | noState
  | exit
deriving DecidableEq, Repr

abbrev Log := List (Op × Out)

structure State where
  task : Nat → Task
  nt : Nat
  obj : Nat → Obj
  no : Nat
  exited : Bool
  log : Log

/-- The start of a program: no tasks and no futures. -/
def init : State :=
  { task := fun _ => ⟨false, none⟩, nt := 0,
    obj := fun _ => ⟨false, none, false, false⟩, no := 0, exited := false, log := [] }

/-- An update of one object. -/
def setObj (s : State) (i : Nat) (o : Obj) : State :=
  { s with obj := fun j => if j = i then o else s.obj j }

/-- A new object: the constructors set `used_(false)` (future.h 44-46, 77-79). -/
def newObj (s : State) (strict : Bool) (f : Option Nat) : State :=
  { s with
    obj := fun j => if j = s.no then ⟨strict, f, false, true⟩ else s.obj j
    no := s.no + 1 }

/-- The effect and the outcome of a call; `none`: it blocks, or the program can
not make it.

* `moveTo`: `f_(std::move(rhs.f_))`, `used_(false)`, and `rhs.used_ = true` if the
  argument is `Strict` (45-46, 78-79);
* `go`: `used_ = true; return std::forward<T>(f_.get())` (58-61), where `get`
  gives up the shared state also if it throws; for `void`
  `used_ = true; f_.wait()` (91-94);
* `wait`: `used_ = true; f_.wait()` (62-65, 95-98);
* `detach`: `used_ = true` (66, 99);
* `destroy`: `std::exit(-1)` if `Strict` and not `used_` (47-53, 80-86). -/
def exec (s : State) : Op → Option (State × Out)
  | .spawn v st =>
    let s' := newObj s st (some s.nt)
    some ({ s' with task := fun t => if t = s.nt then ⟨v, none⟩ else s.task t,
                    nt := s.nt + 1 }, .spawned s.nt s.no)
  | .deliver t r =>
    if t < s.nt ∧ (s.task t).res = none then
      some ({ s with task := fun u => if u = t then ⟨(s.task t).isVoid, some r⟩ else s.task u },
            .done)
    else none
  | .moveTo i st =>
    if i < s.no ∧ (s.obj i).alive = true then
      let o := s.obj i
      let s₁ := setObj s i { o with f := none, used := o.used || o.strict }
      some (newObj s₁ st o.f, .moved s.no)
    else none
  | .go i =>
    if i < s.no ∧ (s.obj i).alive = true then
      let o := s.obj i
      match o.f with
      | none => some (setObj s i { o with used := true }, .noState)
      | some t =>
        match (s.task t).res with
        | none => none
        | some r =>
          if (s.task t).isVoid then some (setObj s i { o with used := true }, .done)
          else some (setObj s i { o with used := true, f := none }, .got r)
    else none
  | .wait i =>
    if i < s.no ∧ (s.obj i).alive = true then
      let o := s.obj i
      match o.f with
      | none => some (setObj s i { o with used := true }, .noState)
      | some t =>
        match (s.task t).res with
        | none => none
        | some _ => some (setObj s i { o with used := true }, .done)
    else none
  | .detach i =>
    if i < s.no ∧ (s.obj i).alive = true then
      some (setObj s i { s.obj i with used := true }, .done)
    else none
  | .destroy i =>
    if i < s.no ∧ (s.obj i).alive = true then
      let o := s.obj i
      let s₁ := setObj s i { o with alive := false }
      if o.strict && !o.used then some ({ s₁ with exited := true }, .exit)
      else some (s₁, .done)
    else none

/-- A call with its entry in the log; nothing happens after `std::exit`. -/
def step (s : State) (op : Op) : Option State :=
  if s.exited then none
  else match exec s op with
    | none => none
    | some (s', out) => some { s' with log := (op, out) :: s.log }

inductive Reach : State → Prop where
  | init : Reach init
  | step {s s' op} : Reach s → step s op = some s' → Reach s'

/-! ## The specification: over the log alone -/

/-- The object holds the result of the task: it was given it and has neither
been moved from since nor given the result out. -/
def holds : Log → Nat → Option Nat
  | [], _ => none
  | (.spawn _ _, .spawned t k) :: l, i => if i = k then some t else holds l i
  | (.moveTo j _, .moved k) :: l, i =>
    if i = k then holds l j else if i = j then none else holds l i
  | (.go j, .got _) :: l, i => if i = j then none else holds l i
  | _ :: l, i => holds l i

/-- The object was made, as a strict one. -/
def MadeStrict (l : Log) (i : Nat) : Prop :=
  (∃ v t, (Op.spawn v true, Out.spawned t i) ∈ l) ∨ ∃ j, (Op.moveTo j true, Out.moved i) ∈ l

/-- The object was made, as a strict one or not. -/
def Made (l : Log) (i : Nat) : Prop :=
  (∃ v st t, (Op.spawn v st, Out.spawned t i) ∈ l) ∨ ∃ j st, (Op.moveTo j st, Out.moved i) ∈ l

def Destroyed (l : Log) (i : Nat) : Prop := ∃ o, (Op.destroy i, o) ∈ l

/-- `Go`, `Wait` or `Detach` was called on the object. -/
def Used (l : Log) (i : Nat) : Prop :=
  ∃ o, (Op.go i, o) ∈ l ∨ (Op.wait i, o) ∈ l ∨ (Op.detach i, o) ∈ l

def MovedFrom (l : Log) (i : Nat) : Prop := ∃ st o, (Op.moveTo i st, o) ∈ l

def Delivered (l : Log) (t : Nat) (r : Res) : Prop := (Op.deliver t r, Out.done) ∈ l

def IsVoid (l : Log) (t : Nat) : Prop := ∃ st k, (Op.spawn true st, Out.spawned t k) ∈ l

def IsTask (l : Log) (t : Nat) : Prop := ∃ v st k, (Op.spawn v st, Out.spawned t k) ∈ l

/-- How many times the result of the task was given out. -/
def timesGot : Log → Nat → Nat
  | [], _ => 0
  | (.go j, .got _) :: l, t => timesGot l t + (if holds l j = some t then 1 else 0)
  | _ :: l, t => timesGot l t

/-- `Go`, `Wait` or `Detach` was called on an object while it held the result. -/
def Consumed : Log → Nat → Prop
  | [], _ => False
  | (.go i, _) :: l, t => holds l i = some t ∨ Consumed l t
  | (.wait i, _) :: l, t => holds l i = some t ∨ Consumed l t
  | (.detach i, _) :: l, t => holds l i = some t ∨ Consumed l t
  | _ :: l, t => Consumed l t

/-! ## Invariant -/

structure Inv (s : State) : Prop where
  f : ∀ i, i < s.no → (s.obj i).f = holds s.log i
  f' : ∀ i, s.no ≤ i → holds s.log i = none
  fb : ∀ i t, holds s.log i = some t → t < s.nt
  uniq : ∀ i j t, holds s.log i = some t → holds s.log j = some t → i = j
  made : ∀ i, Made s.log i ↔ i < s.no
  strict : ∀ i, i < s.no → ((s.obj i).strict = true ↔ MadeStrict s.log i)
  alive : ∀ i, i < s.no → ((s.obj i).alive = false ↔ Destroyed s.log i)
  destroyedB : ∀ i, Destroyed s.log i → i < s.no
  usedB : ∀ i, Used s.log i → i < s.no
  movedB : ∀ i, MovedFrom s.log i → i < s.no
  used : ∀ i, i < s.no → ((s.obj i).used = true ↔
    Used s.log i ∨ (MovedFrom s.log i ∧ MadeStrict s.log i))
  tasks : ∀ t, IsTask s.log t ↔ t < s.nt
  void : ∀ t, t < s.nt → ((s.task t).isVoid = true ↔ IsVoid s.log t)
  res : ∀ t r, t < s.nt → ((s.task t).res = some r ↔ Delivered s.log t r)
  resB : ∀ t r, Delivered s.log t r → t < s.nt
  got : ∀ t, t < s.nt → (timesGot s.log t = 0 ∧ ∃ i, holds s.log i = some t) ∨
    (timesGot s.log t = 1 ∧ Consumed s.log t ∧ ∀ i, holds s.log i ≠ some t)
  gotB : ∀ t, s.nt ≤ t → timesGot s.log t = 0
  cons : ∀ i t, holds s.log i = some t → Used s.log i → Consumed s.log t
  nomove : ∀ i, MovedFrom s.log i → holds s.log i = none
  dead : s.exited = false → ∀ i, i < s.no → (s.obj i).alive = false →
    (s.obj i).strict = true → (s.obj i).used = true

theorem inv_init : Inv init := by
  constructor <;> simp [init, holds, Made, MadeStrict, Destroyed, Used, MovedFrom, Delivered,
    IsVoid, IsTask, timesGot, Consumed]

theorem made_cons (e : Op × Out) (l : Log) (i : Nat) :
    Made (e :: l) i ↔ ((∃ v st t, e = (Op.spawn v st, Out.spawned t i)) ∨
      ∃ j st, e = (Op.moveTo j st, Out.moved i)) ∨ Made l i := by
  simp only [Made, List.mem_cons]; constructor <;> intro h
  · rcases h with ⟨v, st, t, h | h⟩ | ⟨j, st, h | h⟩
    · exact .inl (.inl ⟨v, st, t, h.symm⟩)
    · exact .inr (.inl ⟨v, st, t, h⟩)
    · exact .inl (.inr ⟨j, st, h.symm⟩)
    · exact .inr (.inr ⟨j, st, h⟩)
  · rcases h with (⟨v, st, t, h⟩ | ⟨j, st, h⟩) | (⟨v, st, t, h⟩ | ⟨j, st, h⟩)
    · exact .inl ⟨v, st, t, .inl h.symm⟩
    · exact .inr ⟨j, st, .inl h.symm⟩
    · exact .inl ⟨v, st, t, .inr h⟩
    · exact .inr ⟨j, st, .inr h⟩

theorem madeStrict_cons (e : Op × Out) (l : Log) (i : Nat) :
    MadeStrict (e :: l) i ↔ ((∃ v t, e = (Op.spawn v true, Out.spawned t i)) ∨
      ∃ j, e = (Op.moveTo j true, Out.moved i)) ∨ MadeStrict l i := by
  simp only [MadeStrict, List.mem_cons]; constructor <;> intro h
  · rcases h with ⟨v, t, h | h⟩ | ⟨j, h | h⟩
    · exact .inl (.inl ⟨v, t, h.symm⟩)
    · exact .inr (.inl ⟨v, t, h⟩)
    · exact .inl (.inr ⟨j, h.symm⟩)
    · exact .inr (.inr ⟨j, h⟩)
  · rcases h with (⟨v, t, h⟩ | ⟨j, h⟩) | (⟨v, t, h⟩ | ⟨j, h⟩)
    · exact .inl ⟨v, t, .inl h.symm⟩
    · exact .inr ⟨j, .inl h.symm⟩
    · exact .inl ⟨v, t, .inr h⟩
    · exact .inr ⟨j, .inr h⟩

theorem destroyed_cons (e : Op × Out) (l : Log) (i : Nat) :
    Destroyed (e :: l) i ↔ e.1 = Op.destroy i ∨ Destroyed l i := by
  simp only [Destroyed, List.mem_cons]; constructor <;> intro h
  · rcases h with ⟨o, h | h⟩
    · exact .inl (by rw [← h])
    · exact .inr ⟨o, h⟩
  · rcases h with h | ⟨o, h⟩
    · exact ⟨e.2, .inl (by rw [← h])⟩
    · exact ⟨o, .inr h⟩

theorem used_cons (e : Op × Out) (l : Log) (i : Nat) :
    Used (e :: l) i ↔ (e.1 = Op.go i ∨ e.1 = Op.wait i ∨ e.1 = Op.detach i) ∨ Used l i := by
  simp only [Used, List.mem_cons]; constructor <;> intro h
  · rcases h with ⟨o, (h | h) | (h | h) | (h | h)⟩
    · exact .inl (.inl (by rw [← h]))
    · exact .inr ⟨o, .inl h⟩
    · exact .inl (.inr (.inl (by rw [← h])))
    · exact .inr ⟨o, .inr (.inl h)⟩
    · exact .inl (.inr (.inr (by rw [← h])))
    · exact .inr ⟨o, .inr (.inr h)⟩
  · rcases h with (h | h | h) | ⟨o, h | h | h⟩
    · exact ⟨e.2, .inl (.inl (by rw [← h]))⟩
    · exact ⟨e.2, .inr (.inl (.inl (by rw [← h])))⟩
    · exact ⟨e.2, .inr (.inr (.inl (by rw [← h])))⟩
    · exact ⟨o, .inl (.inr h)⟩
    · exact ⟨o, .inr (.inl (.inr h))⟩
    · exact ⟨o, .inr (.inr (.inr h))⟩

theorem movedFrom_cons (e : Op × Out) (l : Log) (i : Nat) :
    MovedFrom (e :: l) i ↔ (∃ st, e.1 = Op.moveTo i st) ∨ MovedFrom l i := by
  simp only [MovedFrom, List.mem_cons]; constructor <;> intro h
  · rcases h with ⟨st, o, h | h⟩
    · exact .inl ⟨st, by rw [← h]⟩
    · exact .inr ⟨st, o, h⟩
  · rcases h with ⟨st, h⟩ | ⟨st, o, h⟩
    · exact ⟨st, e.2, .inl (by rw [← h])⟩
    · exact ⟨st, o, .inr h⟩

theorem isVoid_cons (e : Op × Out) (l : Log) (t : Nat) :
    IsVoid (e :: l) t ↔ (∃ st k, e = (Op.spawn true st, Out.spawned t k)) ∨ IsVoid l t := by
  simp only [IsVoid, List.mem_cons]; constructor <;> intro h
  · rcases h with ⟨st, k, h | h⟩
    · exact .inl ⟨st, k, h.symm⟩
    · exact .inr ⟨st, k, h⟩
  · rcases h with ⟨st, k, h⟩ | ⟨st, k, h⟩
    · exact ⟨st, k, .inl h.symm⟩
    · exact ⟨st, k, .inr h⟩

theorem isTask_cons (e : Op × Out) (l : Log) (t : Nat) :
    IsTask (e :: l) t ↔ (∃ v st k, e = (Op.spawn v st, Out.spawned t k)) ∨ IsTask l t := by
  simp only [IsTask, List.mem_cons]; constructor <;> intro h
  · rcases h with ⟨v, st, k, h | h⟩
    · exact .inl ⟨v, st, k, h.symm⟩
    · exact .inr ⟨v, st, k, h⟩
  · rcases h with ⟨v, st, k, h⟩ | ⟨v, st, k, h⟩
    · exact ⟨v, st, k, .inl h.symm⟩
    · exact ⟨v, st, k, .inr h⟩

theorem delivered_cons (e : Op × Out) (l : Log) (t : Nat) (r : Res) :
    Delivered (e :: l) t r ↔ e = (Op.deliver t r, Out.done) ∨ Delivered l t r := by
  simp only [Delivered, List.mem_cons, eq_comm]

set_option maxHeartbeats 4000000 in
theorem inv_step {s s' : State} {op : Op} (hI : Inv s) (h : step s op = some s') : Inv s' := by
  obtain ⟨h1, h2, h3, h4, h5, h6, h7, h8, h9, h10, h11, h12, h13, h14, h15, h16, h17, h18, h19,
    h20⟩ := hI
  by_cases hx : s.exited = true
  · simp [step, hx] at h
  have hx : s.exited = false := by simpa using hx
  obtain ⟨⟨s₁, out⟩, he⟩ : ∃ p, exec s op = some p := by
    cases hp : exec s op with
    | none => simp [step, hx, hp] at h
    | some p => exact ⟨p, rfl⟩
  have hs : s' = { s₁ with log := (op, out) :: s.log } := by
    simp [step, hx, he] at h; exact h.symm
  subst hs
  clear h
  have hms : ∀ i, s.no ≤ i → ¬ MadeStrict s.log i := by
    intro i hi hc
    have : Made s.log i := by
      rcases hc with ⟨v, t, h⟩ | ⟨j, h⟩
      · exact .inl ⟨v, _, t, h⟩
      · exact .inr ⟨j, _, h⟩
    have := (h5 i).1 this
    omega
  have hiv : ∀ t, s.nt ≤ t → ¬ IsVoid s.log t := by
    intro t ht ⟨st, k, h⟩
    have := (h12 t).1 ⟨_, st, k, h⟩
    omega
  rcases op with ⟨v, st⟩ | ⟨t₀, r⟩ | ⟨i₀, st⟩ | i₀ | i₀ | i₀ | i₀ <;> simp only [exec] at he <;>
    (repeat' split at he) <;>
    first
    | contradiction
    | (injection he with he; injection he with he he'; subst he; subst he')
  all_goals
    (refine ⟨?_, ?_, ?_, ?_, ?_, ?_, ?_, ?_, ?_, ?_, ?_, ?_, ?_, ?_, ?_, ?_, ?_, ?_, ?_, ?_⟩ <;>
      simp only [newObj, setObj, made_cons, madeStrict_cons, destroyed_cons, used_cons,
        movedFrom_cons, delivered_cons, isVoid_cons, isTask_cons, Prod.mk.injEq, reduceCtorEq,
        Op.spawn.injEq, Op.moveTo.injEq, Out.spawned.injEq, Out.moved.injEq, Op.go.injEq,
        Op.wait.injEq, Op.detach.injEq, Op.destroy.injEq, Op.deliver.injEq, false_and, and_false,
        exists_false, false_or, or_false, and_true, true_and, or_self] at * <;>
      first
      | grind [holds, timesGot, Consumed]
      | (intro t ht
         rcases Nat.lt_or_ge t s.nt with hlt | hge
         · rcases h16 t hlt with ⟨q0, i, qi⟩ | ⟨q1, q2, q3⟩
           · have hio : i ≠ s.no := fun hc => by have := h2 i (by omega); grind
             have hin : i < s.no := by
               rcases Nat.lt_or_ge i s.no with h | h
               · exact h
               · have := h2 i h; grind
             have := h1 i hin
             first
             | (left; refine ⟨?_, i, ?_⟩ <;> grind [holds, timesGot, Consumed])
             | (by_cases hii : i = i₀
                · left; refine ⟨?_, s.no, ?_⟩ <;> grind [holds, timesGot, Consumed]
                · left; refine ⟨?_, i, ?_⟩ <;> grind [holds, timesGot, Consumed])
             | (by_cases hii : i = i₀
                · right; refine ⟨?_, ?_, ?_⟩ <;> grind [holds, timesGot, Consumed]
                · left; refine ⟨?_, i, ?_⟩ <;> grind [holds, timesGot, Consumed])
           · right
             refine ⟨?_, ?_, ?_⟩ <;> grind [holds, timesGot, Consumed]
         · left
           refine ⟨?_, s.no, ?_⟩ <;> grind [holds, timesGot, Consumed]))

theorem inv_reach {s : State} (h : Reach s) : Inv s := by
  induction h with
  | init => exact inv_init
  | step _ hs ih => exact inv_step ih hs

/-! ## Theorems -/

/-- The object exists: it was made and has not been destroyed. -/
def Exists (l : Log) (i : Nat) : Prop := Made l i ∧ ¬ Destroyed l i

/-- What `step` adds to the log and whether the process is still there. -/
def Gives (s : State) (op : Op) (out : Out) : Prop :=
  ∃ s', step s op = some s' ∧ s'.log = (op, out) :: s.log ∧ (s'.exited = true ↔ out = .exit)

theorem gives_of {s s₁ : State} {op : Op} {out : Out} (hx : s.exited = false)
    (h : exec s op = some (s₁, out)) (he : s₁.exited = true ↔ out = .exit) : Gives s op out := by
  refine ⟨{ s₁ with log := (op, out) :: s.log }, ?_, rfl, he⟩
  simp [step, hx, h]

theorem exists_obj {s : State} (hI : Inv s) {i : Nat} (h : Exists s.log i) :
    i < s.no ∧ (s.obj i).alive = true := by
  have h1 := (hI.made i).1 h.1
  refine ⟨h1, ?_⟩
  have := hI.alive i h1
  cases ha : (s.obj i).alive with
  | true => rfl
  | false => exact absurd (this.1 ha) h.2

/-- C143: at the end of its lifetime an object ends the process exactly if it is
strict, none of `Go`, `Wait`, `Detach` was ever called on it, and it was never
moved from. -/
theorem exits_iff_left_hanging {s : State} (hr : Reach s) (hx : s.exited = false) {i : Nat}
    (he : Exists s.log i) :
    (MadeStrict s.log i ∧ ¬ Used s.log i ∧ ¬ MovedFrom s.log i → Gives s (.destroy i) .exit) ∧
    (¬ (MadeStrict s.log i ∧ ¬ Used s.log i ∧ ¬ MovedFrom s.log i) →
      Gives s (.destroy i) .done) := by
  have hI := inv_reach hr
  obtain ⟨h1, h2⟩ := exists_obj hI he
  have h3 := hI.strict i h1
  have h4 := hI.used i h1
  constructor
  · intro ⟨a, b, c⟩
    have hs := h3.2 a
    have hu : (s.obj i).used = false := by
      cases hu : (s.obj i).used with
      | false => rfl
      | true => grind
    exact gives_of hx (by simp only [exec, h1, h2, hs, hu, and_self, if_true]; rfl) (by simp [setObj, hx])
  · intro hn
    have hc : ((s.obj i).strict && !(s.obj i).used) = false := by grind
    exact gives_of hx (by simp only [exec, h1, h2, hc, and_self, if_true]; rfl) (by simp [setObj, hx])

/-- C143: nothing but the end of the lifetime of an object ends the process. -/
theorem only_destruction_exits {s s' : State} {op : Op} (h : step s op = some s')
    (hx : s'.exited = true) : ∃ i, op = .destroy i := by
  by_cases he : s.exited = true
  · simp [step, he] at h
  cases op <;> simp only [step, exec] at h <;> grind [setObj, newObj]

/-- C143: `Go()` of an object which exists.  It fails if the object does not hold
a result (it was moved from, or `Go()` gave the result already); it blocks if the
task has not delivered; and otherwise it gives exactly what the task delivered,
value or exception — except if the type is `void`, where it says nothing. -/
theorem go_gives {s : State} (hr : Reach s) (hx : s.exited = false) {i : Nat}
    (he : Exists s.log i) :
    (holds s.log i = none → Gives s (.go i) .noState) ∧
    (∀ t, holds s.log i = some t → (∀ r, ¬ Delivered s.log t r) → step s (.go i) = none) ∧
    (∀ t r, holds s.log i = some t → Delivered s.log t r → ¬ IsVoid s.log t →
      Gives s (.go i) (.got r)) ∧
    (∀ t r, holds s.log i = some t → Delivered s.log t r → IsVoid s.log t →
      Gives s (.go i) .done) := by
  have hI := inv_reach hr
  obtain ⟨h1, h2⟩ := exists_obj hI he
  have hf := hI.f i h1
  refine ⟨fun h => ?_, fun t h hn => ?_, fun t r h hd hv => ?_, fun t r h hd hv => ?_⟩
  · rw [h] at hf
    exact gives_of hx (by simp only [exec, h1, h2, hf, and_self, if_true]; rfl) (by simp [setObj, hx])
  · rw [h] at hf
    have ht := hI.fb i t h
    have : (s.task t).res = none := by
      cases hq : (s.task t).res with
      | none => rfl
      | some r => exact absurd ((hI.res t r ht).1 hq) (hn r)
    simp [step, exec, hx, h1, h2, hf, this]
  · rw [h] at hf
    have ht := hI.fb i t h
    have hd' := (hI.res t r ht).2 hd
    have hv' : (s.task t).isVoid = false := by
      have := hI.void t ht; cases hq : (s.task t).isVoid <;> grind
    exact gives_of hx (by simp only [exec, h1, h2, hf, hd', hv', and_self, if_true]; rfl) (by simp [setObj, hx])
  · rw [h] at hf
    have ht := hI.fb i t h
    have hd' := (hI.res t r ht).2 hd
    have hv' := (hI.void t ht).2 hv
    exact gives_of hx (by simp only [exec, h1, h2, hf, hd', hv', and_self, if_true]; rfl) (by simp [setObj, hx])

/-- C143: `Wait()` returns as soon as the task has delivered, and leaves the
result where it is. -/
theorem wait_gives {s : State} (hr : Reach s) (hx : s.exited = false) {i : Nat}
    (he : Exists s.log i) :
    (holds s.log i = none → Gives s (.wait i) .noState) ∧
    (∀ t, holds s.log i = some t → (∀ r, ¬ Delivered s.log t r) → step s (.wait i) = none) ∧
    (∀ t r, holds s.log i = some t → Delivered s.log t r → Gives s (.wait i) .done) := by
  have hI := inv_reach hr
  obtain ⟨h1, h2⟩ := exists_obj hI he
  have hf := hI.f i h1
  refine ⟨fun h => ?_, fun t h hn => ?_, fun t r h hd => ?_⟩
  · rw [h] at hf
    exact gives_of hx (by simp only [exec, h1, h2, hf, and_self, if_true]; rfl) (by simp [setObj, hx])
  · rw [h] at hf
    have ht := hI.fb i t h
    have : (s.task t).res = none := by
      cases hq : (s.task t).res with
      | none => rfl
      | some r => exact absurd ((hI.res t r ht).1 hq) (hn r)
    simp [step, exec, hx, h1, h2, hf, this]
  · rw [h] at hf
    have ht := hI.fb i t h
    have hd' := (hI.res t r ht).2 hd
    exact gives_of hx (by simp only [exec, h1, h2, hf, hd', and_self, if_true]; rfl) (by simp [setObj, hx])

/-- C143: the result of a task is given out at most once, and is held by at most
one object. -/
theorem result_given_once {s : State} (hr : Reach s) (t : Nat) :
    timesGot s.log t ≤ 1 ∧
    (∀ i j, holds s.log i = some t → holds s.log j = some t → i = j) ∧
    (timesGot s.log t = 1 → ∀ i, holds s.log i ≠ some t) := by
  have hI := inv_reach hr
  refine ⟨?_, fun i j => hI.uniq i j t, ?_⟩
  · rcases Nat.lt_or_ge t s.nt with h | h
    · rcases hI.got t h with ⟨h, _⟩ | ⟨h, _⟩ <;> omega
    · have := hI.gotB t h; omega
  · intro h1
    rcases Nat.lt_or_ge t s.nt with h | h
    · rcases hI.got t h with ⟨h, _⟩ | ⟨_, _, h⟩
      · omega
      · exact h
    · have := hI.gotB t h; omega

/-- C143: a result does not get lost on its way: until it is given out there is
an object which holds it. -/
theorem result_is_held {s : State} (hr : Reach s) {t : Nat} (ht : IsTask s.log t)
    (hg : timesGot s.log t = 0) : ∃ i, Made s.log i ∧ holds s.log i = some t := by
  have hI := inv_reach hr
  rcases hI.got t ((hI.tasks t).1 ht) with ⟨_, i, hi⟩ | ⟨h, _⟩
  · refine ⟨i, (hI.made i).2 ?_, hi⟩
    rcases Nat.lt_or_ge i s.no with h | h
    · exact h
    · have := hI.f' i h; rw [hi] at this; contradiction
  · omega

/-- C143: no result is left hanging silently.  If all objects have come to their
ends and the process has not, then for every task `Go`, `Wait` or `Detach` was
called on an object while it held its result — provided that the object which was
left with it, if any, is strict. -/
theorem nothing_left_hanging {s : State} (hr : Reach s) (hx : s.exited = false)
    (hall : ∀ i, Made s.log i → Destroyed s.log i) {t : Nat} (ht : IsTask s.log t)
    (hs : ∀ i, holds s.log i = some t → MadeStrict s.log i) : Consumed s.log t := by
  have hI := inv_reach hr
  have htn := (hI.tasks t).1 ht
  rcases hI.got t htn with ⟨_, i, hi⟩ | ⟨_, h, _⟩
  · have hin : i < s.no := by
      rcases Nat.lt_or_ge i s.no with h | h
      · exact h
      · have := hI.f' i h; rw [hi] at this; contradiction
    have hm := hs i hi
    have hd := (hI.alive i hin).2 (hall i ((hI.made i).2 hin))
    have hu := hI.dead hx i hin hd ((hI.strict i hin).2 hm)
    rcases (hI.used i hin).1 hu with h | ⟨h, _⟩
    · exact hI.cons i t hi h
    · have := hI.nomove i h; rw [hi] at this; contradiction
  · exact h

/-! ## Where the property is false of the code, and cases -/

/-- A sequence of calls. -/
def runOps : State → List Op → Option State
  | s, [] => some s
  | s, op :: ops => match step s op with
    | none => none
    | some s' => runOps s' ops

theorem runOps_reach {ops : List Op} : ∀ {s s' : State}, Reach s → runOps s ops = some s' → Reach s' := by
  induction ops with
  | nil => intro s s' h hs; simp only [runOps, Option.some.injEq] at hs; exact hs ▸ h
  | cons op ops ih =>
    intro s s' h hs
    simp only [runOps] at hs
    split at hs
    · contradiction
    · next s₁ h₁ => exact ih (.step h h₁) hs

/-- Outcomes and whether the process has ended. -/
def report (ops : List Op) : Option (List Out × Bool) :=
  (runOps init ops).map (fun s => (s.log.reverse.map (·.2), s.exited))

/-- A strict future is moved out of a function, and the result taken. -/
theorem sample_run :
    report [.spawn false true, .moveTo 0 true, .destroy 0, .deliver 0 (.val 42), .wait 1, .go 1,
      .go 1, .destroy 1] =
    some ([.spawned 0 0, .moved 1, .done, .done, .done, .got (.val 42), .noState, .done], false) := by
  decide

/-- It is left hanging. -/
theorem sample_exit :
    report [.spawn false true, .moveTo 0 true, .destroy 0, .deliver 0 (.val 42), .destroy 1] =
    some ([.spawned 0 0, .moved 1, .done, .done, .exit], true) := by
  decide

/-- A task which throws: the exception comes out of `Go()`, unless the type is
`void`: there the call returns as if all was well. -/
theorem void_swallows_the_exception :
    report [.spawn false true, .deliver 0 (.exc 7), .go 0, .destroy 0] =
      some ([.spawned 0 0, .done, .got (.exc 7), .done], false) ∧
    report [.spawn true true, .deliver 0 (.exc 7), .go 0, .destroy 0] =
      some ([.spawned 0 0, .done, .done, .done], false) := by
  decide

/-- A result which has been waited for ends the process nevertheless if the
future is moved afterwards: the new object counts as not used. -/
theorem waited_then_moved_exits :
    report [.spawn false true, .deliver 0 (.val 1), .wait 0, .moveTo 0 true, .destroy 0,
      .destroy 1] =
    some ([.spawned 0 0, .done, .done, .moved 1, .done, .exit], true) := by
  decide

/-- Moving a strict future to a forgiving one makes the check void: the result is
not used and nothing happens. -/
theorem forgiving_hides :
    ∃ s, Reach s ∧ s.exited = false ∧ (∀ i, Made s.log i → Destroyed s.log i) ∧
      IsTask s.log 0 ∧ MadeStrict s.log 0 ∧ ¬ Consumed s.log 0 := by
  have h : ∃ s, runOps init [.spawn false true, .moveTo 0 false, .destroy 0, .destroy 1] = some s :=
    ⟨_, rfl⟩
  obtain ⟨s, hs⟩ := h
  have hr := runOps_reach .init hs
  have hl : s.log = [(.destroy 1, .done), (.destroy 0, .done), (.moveTo 0 false, .moved 1),
      (.spawn false true, .spawned 0 0)] ∧ s.exited = false := by
    cases hs; exact ⟨rfl, rfl⟩
  refine ⟨s, hr, hl.2, ?_⟩
  rw [hl.1]
  refine ⟨?_, ⟨false, true, 0, by simp⟩, .inl ⟨false, 0, by simp⟩, by simp [Consumed]⟩
  intro i hi
  rcases hi with ⟨v, st, t, h⟩ | ⟨j, st, h⟩ <;> simp at h
  · obtain ⟨⟨_, _⟩, _, rfl⟩ := h; exact ⟨_, by simp; rfl⟩
  · obtain ⟨_, rfl⟩ := h; exact ⟨_, by simp; rfl⟩

/-- The hypotheses of the theorems are met: the run of `sample_run` before its
last two calls. -/
theorem sample_ok :
    ∃ s, Reach s ∧ s.exited = false ∧ Exists s.log 1 ∧ holds s.log 1 = some 0 ∧
      Delivered s.log 0 (.val 42) ∧ ¬ IsVoid s.log 0 ∧ MadeStrict s.log 1 := by
  have h : ∃ s, runOps init [.spawn false true, .moveTo 0 true, .destroy 0,
      .deliver 0 (.val 42)] = some s := ⟨_, rfl⟩
  obtain ⟨s, hs⟩ := h
  have hr := runOps_reach .init hs
  have hl : s.log = [(.deliver 0 (.val 42), .done), (.destroy 0, .done), (.moveTo 0 true, .moved 1),
      (.spawn false true, .spawned 0 0)] ∧ s.exited = false := by
    cases hs; exact ⟨rfl, rfl⟩
  refine ⟨s, hr, hl.2, ?_⟩
  rw [hl.1]
  refine ⟨⟨.inr ⟨0, true, by simp⟩, ?_⟩, rfl, by simp [Delivered], ?_, .inr ⟨0, by simp⟩⟩
  · rintro ⟨o, h⟩; simp at h
  · rintro ⟨st, k, h⟩; simp at h

end Current.Future
