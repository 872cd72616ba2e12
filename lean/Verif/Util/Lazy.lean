/-!
C163: `LazilyInstantiated` (`bricks/util/lazy_instantiation.h`): constructor arguments that are kept, and used when an object is asked for.

Objects are numbered as they are made; `made` holds the arguments each was made with.
-/
namespace Current.Util.Lazy

/-- `LazilyInstantiated<T, EXTRA>` with its `LazyInstantiatorPerType` (`lazy_instantiation.h:52-79, 108-144`): the copied arguments. -/
structure Lazily (α : Type) where
  args : α

/-- What a parameter of `DelayedInstantiate` is: a value, copied into the tuple, or `std::ref` of a variable. -/
inductive Param where
  | value (v : Int)
  | ref (x : Nat)

/-- The variables of the caller. -/
abbrev Env := Nat → Int

/-- `std::get<XS>(constructor_parameters_)...` when the object is made (`lazy_instantiation.h:70, 76`). -/
def Param.eval (e : Env) : Param → Int
  | .value v => v
  | .ref x => e x

/-- `DelayedInstantiate(args...)` (`lazy_instantiation.h:150-154`), called with expressions: plain ones are evaluated now. -/
inductive Arg where
  | var (x : Nat)
  | lit (v : Int)
  | ref (x : Nat)

def delayed (e : Env) (as : List Arg) : Lazily (List Param) :=
  ⟨as.map fun
    | .var x => .value (e x)
    | .lit v => .value v
    | .ref x => .ref x⟩

/-- The objects made so far, each with the values its constructor got: the extra parameter, if any, comes first. -/
abbrev Objects := List (List Int)

/-- `InstantiateAsSharedPtr`, `InstantiateAsUniquePtr`, with or without an extra parameter (`lazy_instantiation.h:115-127`). -/
def instantiate (l : Lazily (List Param)) (e : Env) (extra : List Int) (m : Objects) : Nat × Objects :=
  (m.length, m ++ [extra ++ l.args.map (Param.eval e)])

/-- `InstantiateAsSharedPtr(shared_instance, strategy)` (`lazy_instantiation.h:130-142`): the assertions only print. -/
def shared (l : Lazily (List Param)) (e : Env) (p : Option Nat) (m : Objects) : Nat × Option Nat × Objects :=
  match p with
  | some i => (i, some i, m)
  | none => let (i, m) := instantiate l e [] m; (i, some i, m)

/-- A program after `DelayedInstantiate`: assignments to variables, objects asked for, and the shared one asked for. -/
inductive Op where
  | assign (x : Nat) (v : Int)
  | make (extra : List Int)
  | share
  | reset

/-- Its run: what every request returns. -/
def run (l : Lazily (List Param)) : Env → Option Nat → Objects → List Op → List Nat × Objects
  | _, _, m, [] => ([], m)
  | e, p, m, .assign x v :: os => run l (fun y => if y = x then v else e y) p m os
  | e, p, m, .make ex :: os =>
    let (i, m) := instantiate l e ex m
    let (is, m) := run l e p m os
    (i :: is, m)
  | e, p, m, .share :: os =>
    let (i, p, m) := shared l e p m
    let (is, m) := run l e p m os
    (i :: is, m)
  | e, _, m, .reset :: os => run l e none m os

/-- No `std::ref`. -/
def NoRef (as : List Arg) : Prop := ∀ x, Arg.ref x ∉ as

/-- The values of the arguments where `DelayedInstantiate` was called. -/
def Arg.now (e : Env) : Arg → Int
  | .var x => e x
  | .lit v => v
  | .ref x => e x

theorem eval_delayed (e e' : Env) {as : List Arg} (h : NoRef as) : (delayed e as).args.map (Param.eval e') = as.map (Arg.now e) := by
  unfold delayed
  rw [List.map_map]
  apply List.map_congr_left
  intro a ha
  cases a with
  | var x => rfl
  | lit v => rfl
  | ref x => exact absurd ha (h x)

/-- What is appended in any run. -/
theorem run_made (e0 : Env) {as : List Arg} (h : NoRef as) (os : List Op) : ∀ (e : Env) (p : Option Nat) (m : Objects),
    ∃ xs, (run (delayed e0 as) e p m os).2 = m ++ xs ∧ ∀ x ∈ xs, ∃ extra, x = extra ++ as.map (Arg.now e0) ∧ (extra = [] ∨ Op.make extra ∈ os) := by
  induction os with
  | nil => intro e p m; exact ⟨[], by simp [run], by simp⟩
  | cons o os ih =>
    intro e p m
    cases o with
    | assign x v =>
      obtain ⟨xs, h1, h2⟩ := ih (fun y => if y = x then v else e y) p m
      exact ⟨xs, h1, fun y hy => by obtain ⟨ex, a, b⟩ := h2 y hy; exact ⟨ex, a, b.imp id (by simp_all)⟩⟩
    | reset =>
      obtain ⟨xs, h1, h2⟩ := ih e none m
      exact ⟨xs, h1, fun y hy => by obtain ⟨ex, a, b⟩ := h2 y hy; exact ⟨ex, a, b.imp id (by simp_all)⟩⟩
    | make ex0 =>
      obtain ⟨xs, h1, h2⟩ := ih e p (m ++ [ex0 ++ as.map (Arg.now e0)])
      refine ⟨(ex0 ++ as.map (Arg.now e0)) :: xs, ?_, ?_⟩
      · simp only [run, instantiate, eval_delayed e0 e h]
        rw [h1]; simp
      · intro y hy
        rcases List.mem_cons.1 hy with rfl | hy
        · exact ⟨ex0, rfl, .inr (by simp)⟩
        · obtain ⟨ex, a, b⟩ := h2 y hy
          exact ⟨ex, a, b.imp id (by simp_all)⟩
    | share =>
      cases p with
      | some i =>
        obtain ⟨xs, h1, h2⟩ := ih e (some i) m
        exact ⟨xs, by simpa [run, shared] using h1, fun y hy => by obtain ⟨ex, a, b⟩ := h2 y hy; exact ⟨ex, a, b.imp id (by simp_all)⟩⟩
      | none =>
        obtain ⟨xs, h1, h2⟩ := ih e (some m.length) (m ++ [as.map (Arg.now e0)])
        refine ⟨as.map (Arg.now e0) :: xs, ?_, ?_⟩
        · simp only [run, shared, instantiate, eval_delayed e0 e h, List.nil_append]
          rw [h1]; simp
        · intro y hy
          rcases List.mem_cons.1 hy with rfl | hy
          · exact ⟨[], rfl, .inl rfl⟩
          · obtain ⟨ex, a, b⟩ := h2 y hy
            exact ⟨ex, a, b.imp id (by simp_all)⟩

/-- **C163.** Every object, whenever it is made and whatever is assigned meanwhile, is made of the values the arguments had when `DelayedInstantiate` was called
(and the extra parameter given for it). -/
theorem args_kept (e0 : Env) {as : List Arg} (h : NoRef as) (os : List Op) (x : List Int) (hx : x ∈ (run (delayed e0 as) e0 none [] os).2) :
    ∃ extra, x = extra ++ as.map (Arg.now e0) ∧ (extra = [] ∨ Op.make extra ∈ os) := by
  obtain ⟨xs, h1, h2⟩ := run_made e0 h os e0 none []
  rw [h1, List.nil_append] at hx
  exact h2 x hx

/-- **C163.** An argument given as `std::ref` is read when the object is made. -/
theorem ref_read_late (e0 e : Env) (x : Nat) (m : Objects) : (instantiate (delayed e0 [.ref x]) e [] m).2 = m ++ [[e x]] := rfl

/-- **C163.** Without a reset, all requests for the shared object return the same one, and it is made at most once. -/
theorem shared_once (l : Lazily (List Param)) (n : Nat) : ∀ (e : Env) (i : Nat) (m : Objects),
    run l e (some i) m (List.replicate n .share) = (List.replicate n i, m) := by
  induction n with
  | zero => intro e i m; rfl
  | succ n ih =>
    intro e i m
    simp only [List.replicate_succ, run, shared]
    rw [ih]

/-- **C163.** From the first request on: one object is made, of the arguments, and every request returns it. -/
theorem shared_once_new (l : Lazily (List Param)) (n : Nat) (e : Env) (m : Objects) :
    run l e none m (List.replicate (n + 1) .share) = (List.replicate (n + 1) m.length, m ++ [l.args.map (Param.eval e)]) := by
  simp only [List.replicate_succ, run, shared, instantiate, List.nil_append]
  rw [shared_once]

/-- **C163.** Objects that are made are new. -/
theorem make_new (l : Lazily (List Param)) (e : Env) (ex : List Int) (m : Objects) : m.length ≤ (instantiate l e ex m).1 ∧
    (instantiate l e ex m).1 < (instantiate l e ex m).2.length := by
  simp [instantiate]

/-- Made after a change of the variable 0, by value and by reference. -/
example : run (delayed (fun _ => 1) [.var 0, .ref 0]) (fun _ => 1) none [] [.assign 0 5, .make [9], .share, .share] = ([0, 1, 1], [[9, 1, 5], [1, 5]]) := by decide
example : NoRef [.var 0, .lit 3] := by intro x h; simp at h

end Current.Util.Lazy
