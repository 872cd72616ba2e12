/-!
# `Optional<T>` is a value

`typesystem/optional.h:304-446`: `Optional<T>` of a type which is not POD, with its owning pointer and its bare pointer, over a heap.
A program is any sequence of operations on any number of `Optional` variables, and on the user's own objects which bare pointers
may point to.  `make_unique` gives an address that is not in use; which one is not the code's choice and a parameter here.
-/
namespace Current.Value

/-- an address -/
abbrev Addr := Nat

/-- the fields, `optional.h:443-445` -/
structure Opt where
  own : Option Addr     -- `owned_optional_object_`
  ptr : Option Addr     -- `optional_object_`
  deriving DecidableEq

/-- the memory and the variables of a program -/
structure St (V : Type) where
  /-- what is at an address: an object, or nothing -/
  heap : Addr → Option V
  /-- the addresses of the user's objects -/
  user : Addr → Bool
  /-- the `Optional` variables there are -/
  vars : Nat → Option Opt

/-- nothing yet -/
def St.init (V : Type) : St V := { heap := fun _ => none, user := fun _ => false, vars := fun _ => none }

/-- the operations; `d`, `s`: variables -/
inductive Op (V : Type)
  | ctorNull (d : Nat)                      -- `optional.h:309-311`
  | ctorValue (d : Nat) (v : V) (a : Addr)  -- `optional.h:315-320`
  | ctorUnique (d : Nat) (p : Addr)         -- `optional.h:322-323`; of a null pointer it is `ctorNull`
  | ctorBare (d : Nat) (p : Addr)           -- `optional.h:313`
  | ctorCopy (d s : Nat) (a : Addr)         -- `optional.h:325-332`; from `ImmutableOptional`, 344-351, the same
  | ctorMove (d s : Nat)                    -- `optional.h:334-342`
  | null (d : Nat)                          -- `= nullptr`, `optional.h:353-357`
  | value (d : Nat) (v : V) (a : Addr)      -- `= object`, `optional.h:359-377`
  | bare (d : Nat) (p : Addr)               -- `= ptr`, `optional.h:379-383`
  | unique (d : Nat) (p : Addr)             -- `= std::move(unique_ptr)`, `optional.h:385-389`; a null pointer: `null`
  | copy (d s : Nat) (a : Addr)             -- `= rhs`, `optional.h:391-399`; `ImmutableOptional`, 412-420, the same
  | move (d s : Nat)                        -- `= std::move(rhs)`, `optional.h:401-410`
  | write (d : Nat) (v : V)                 -- `Value(x) = v`, `optional.h:434-440`
  | destroy (d : Nat)
  | userNew (p : Addr) (v : V)              -- the user's objects
  | userWrite (p : Addr) (v : V)
  | userDelete (p : Addr)

variable {V : Type}

/-- a store to a variable -/
def St.setVar (s : St V) (d : Nat) (o : Option Opt) : St V := { s with vars := fun i => if i = d then o else s.vars i }
/-- a store to memory -/
def St.setHeap (s : St V) (a : Addr) (v : Option V) : St V := { s with heap := fun i => if i = a then v else s.heap i }
/-- whether the address is the user's -/
def St.setUser (s : St V) (a : Addr) (b : Bool) : St V := { s with user := fun i => if i = a then b else s.user i }

/-- `delete` of what a `unique_ptr` has -/
def St.free (s : St V) : Option Addr → St V
  | none => s
  | some a => s.setHeap a none

/-- `make_unique` -/
def St.alloc (s : St V) (a : Addr) (v : V) : Option (St V) :=
  if s.heap a = none then some (s.setHeap a (some v)) else none

/-- what the variable has: `ExistsImpl`, `ValueImpl`, `optional.h:422-440` -/
def St.val (s : St V) (d : Nat) : Option V := (s.vars d).bind fun o => o.ptr.bind s.heap

/-- `= nullptr`, `optional.h:353-357` -/
def St.setNull (s : St V) (d : Nat) : Option (St V) :=
  match s.vars d with
  | none => none
  | some o => some ((s.free o.own).setVar d (some ⟨none, none⟩))

/-- `optional.h:326-331, 392-397`: the `if` of the copy constructor and of the copy assignment, then `optional_object_ = owned_optional_object_.get()`; `old` is
what the owning pointer had -/
def St.copyFrom (s : St V) (d src : Nat) (a : Addr) (old : Option Addr) : Option (St V) :=
  match s.vars src with
  | none => none
  | some r =>
    match r.ptr with
    | some p =>
      match s.heap p with
      | none => none                 -- a bare pointer to an object that is no more: undefined behaviour, not a program
      | some v =>
        match s.alloc a v with
        | none => none
        | some s => some ((s.free old).setVar d (some ⟨some a, some a⟩))
    | none => some ((s.free old).setVar d (some ⟨none, none⟩))

/-- `optional.h:335-341, 402-408`, the move constructor and the move assignment: `owned = std::move(rhs.owned)`, `rhs = nullptr`, `optional_object_ = owned.get()` -/
def St.moveFrom (s : St V) (d src : Nat) : Option (St V) :=
  match s.vars src with
  | none => none
  | some r =>
    if r.ptr ≠ none then
      -- the move assignment of `unique_ptr`: release, then reset
      let s := s.setVar src (some { r with own := none })
      match s.vars d with
      | none => none
      | some o =>
        let s := (s.free o.own).setVar d (some { o with own := r.own })
        match s.setNull src with
        | none => none
        | some s =>
          match s.vars d with
          | none => none
          | some o => some (s.setVar d (some { o with ptr := o.own }))
    else
      match s.vars d with
      | none => none
      | some o => some ((s.free o.own).setVar d (some ⟨none, none⟩))

/-- `none`: not a program -/
def step (s : St V) : Op V → Option (St V)
  | .ctorNull d => if s.vars d ≠ none then none else some (s.setVar d (some ⟨none, none⟩))
  | .ctorValue d v a =>
    if s.vars d ≠ none then none
    else match s.alloc a v with
      | none => none
      | some s => some (s.setVar d (some ⟨some a, some a⟩))
  | .ctorUnique d p =>
    if s.vars d ≠ none ∨ s.user p = false then none else some ((s.setUser p false).setVar d (some ⟨some p, some p⟩))
  | .ctorBare d p =>
    if s.vars d ≠ none ∨ s.user p = false then none else some (s.setVar d (some ⟨none, some p⟩))
  | .ctorCopy d src a => if s.vars d ≠ none then none else s.copyFrom d src a none
  | .ctorMove d src => if s.vars d ≠ none ∨ d = src then none else (s.setVar d (some ⟨none, none⟩)).moveFrom d src
  | .null d => s.setNull d
  | .value d v a =>
    match s.vars d with
    | none => none
    | some o =>
      match o.own with
      | some b => some ((s.setHeap b (some v)).setVar d (some ⟨some b, some b⟩))
      | none =>
        match s.alloc a v with
        | none => none
        | some s => some (s.setVar d (some ⟨some a, some a⟩))
  | .bare d p =>
    match s.vars d with
    | none => none
    | some o => if s.user p = false then none else some ((s.free o.own).setVar d (some ⟨none, some p⟩))
  | .unique d p =>
    match s.vars d with
    | none => none
    | some o => if s.user p = false then none else some (((s.free o.own).setUser p false).setVar d (some ⟨some p, some p⟩))
  | .copy d src a =>
    match s.vars d with
    | none => none
    | some o => s.copyFrom d src a o.own
  | .move d src => s.moveFrom d src
  | .write d v =>
    match s.vars d with
    | none => none
    | some o =>
      match o.ptr with
      | none => some s               -- throws `NoValueOfTypeException`
      | some p => if s.heap p = none then none else some (s.setHeap p (some v))
  | .destroy d =>
    match s.vars d with
    | none => none
    | some o => some ((s.free o.own).setVar d none)
  | .userNew p v =>
    match s.alloc p v with
    | none => none
    | some s => some (s.setUser p true)
  | .userWrite p v => if s.user p = false then none else some (s.setHeap p (some v))
  | .userDelete p => if s.user p = false then none else some ((s.setHeap p none).setUser p false)

/-- a program -/
def run : St V → List (Op V) → Option (St V)
  | s, [] => some s
  | s, o :: os => (step s o).bind (run · os)

/-! ## Specification -/

/-- variables that hold values, nothing more (`none` no variable, `some none` empty), and the user's objects -/
structure Spec (V : Type) where
  var : Nat → Option (Option V)
  obj : Addr → Option V

def Spec.init (V : Type) : Spec V := { var := fun _ => none, obj := fun _ => none }

def upd {A : Type} (m : Nat → A) (d : Nat) (x : A) : Nat → A := fun i => if i = d then x else m i

/-- what the operations do to values; bare pointers have no place here -/
def spec (m : Spec V) : Op V → Spec V
  | .ctorNull d => { m with var := upd m.var d (some none) }
  | .ctorValue d v _ => { m with var := upd m.var d (some (some v)) }
  | .ctorUnique d p => { var := upd m.var d (some (m.obj p)), obj := upd m.obj p none }
  | .ctorCopy d s _ => { m with var := upd m.var d (m.var s) }
  | .ctorMove d s => { m with var := upd (upd m.var d (m.var s)) s (some none) }
  | .null d => { m with var := upd m.var d (some none) }
  | .value d v _ => { m with var := upd m.var d (some (some v)) }
  | .unique d p => { var := upd m.var d (some (m.obj p)), obj := upd m.obj p none }
  | .copy d s _ => { m with var := upd m.var d (m.var s) }
  | .move d s => { m with var := upd (upd m.var d (m.var s)) s (some none) }
  | .write d v => { m with var := upd m.var d ((m.var d).map fun x => x.map fun _ => v) }
  | .destroy d => { m with var := upd m.var d none }
  | .userNew p v => { m with obj := upd m.obj p (some v) }
  | .userWrite p v => { m with obj := upd m.obj p (some v) }
  | .userDelete p => { m with obj := upd m.obj p none }
  | .ctorBare _ _ => m
  | .bare _ _ => m

/-- operations without bare pointers -/
def NoBare : Op V → Prop
  | .ctorBare _ _ => False
  | .bare _ _ => False
  | _ => True

/-- what the user sees: the values of the variables and of the objects -/
def St.seen (s : St V) : Spec V :=
  { var := fun d => (s.vars d).map fun _ => s.val d
    obj := fun p => if s.user p then s.heap p else none }

/-! ## Proofs -/

structure Inv (s : St V) : Prop where
  /-- what is owned is there and is not the user's -/
  owned : ∀ d o a, s.vars d = some o → o.own = some a → s.heap a ≠ none ∧ s.user a = false
  /-- one owner -/
  one : ∀ d e o o' a, s.vars d = some o → s.vars e = some o' → o.own = some a → o'.own = some a → d = e
  /-- no leak -/
  leak : ∀ a, s.heap a ≠ none → s.user a = true ∨ ∃ d o, s.vars d = some o ∧ o.own = some a
  /-- the user's objects -/
  user : ∀ a, s.user a = true → s.heap a ≠ none
  /-- the bare pointer -/
  ptr : ∀ d o a, s.vars d = some o → o.own = some a → o.ptr = some a

theorem inv_init : Inv (St.init V) := by
  constructor <;> simp [St.init]

theorem alloc_eq {s t : St V} {a : Addr} {v : V} (h : s.alloc a v = some t) : s.heap a = none ∧ t = s.setHeap a (some v) := by
  unfold St.alloc at h
  split at h
  · injection h with h; exact ⟨by assumption, h.symm⟩
  · cases h

theorem setNull_eq {s t : St V} {d : Nat} (h : s.setNull d = some t) :
    ∃ o, s.vars d = some o ∧ t = (s.free o.own).setVar d (some ⟨none, none⟩) := by
  unfold St.setNull at h
  split at h
  · cases h
  · rename_i o ho
    injection h with h
    exact ⟨o, ho, h.symm⟩

theorem copyFrom_eq {s t : St V} {d src : Nat} {a : Addr} {old : Option Addr} (h : s.copyFrom d src a old = some t) :
    ∃ r, s.vars src = some r ∧
      ((∃ p v, r.ptr = some p ∧ s.heap p = some v ∧ s.heap a = none ∧
          t = ((s.setHeap a (some v)).free old).setVar d (some ⟨some a, some a⟩)) ∨
        (r.ptr = none ∧ t = (s.free old).setVar d (some ⟨none, none⟩))) := by
  unfold St.copyFrom at h
  split at h
  · cases h
  · rename_i r hr
    refine ⟨r, hr, ?_⟩
    split at h
    · rename_i p hp
      split at h
      · cases h
      · rename_i v hv
        split at h
        · cases h
        · rename_i s1 hs
          obtain ⟨h1, rfl⟩ := alloc_eq hs
          injection h with h
          exact .inl ⟨p, v, hp, hv, h1, h.symm⟩
    · rename_i hp
      injection h with h
      exact .inr ⟨hp, h.symm⟩

theorem free_vars (s : St V) (x : Option Addr) : (s.free x).vars = s.vars := by
  cases x <;> rfl

theorem setVar_setVar (s : St V) (d : Nat) (x y : Option Opt) : (s.setVar d x).setVar d y = s.setVar d y := by
  unfold St.setVar
  congr 1
  funext i
  split <;> simp_all

theorem setVar_free (s : St V) (d : Nat) (x : Option Opt) (y : Option Addr) : (s.setVar d x).free y = (s.free y).setVar d x := by
  cases y <;> rfl

theorem setVar_comm (s : St V) {d e : Nat} (h : d ≠ e) (x y : Option Opt) :
    (s.setVar d x).setVar e y = (s.setVar e y).setVar d x := by
  unfold St.setVar
  congr 1
  funext i
  dsimp only
  by_cases h1 : i = d
  · subst h1; simp [h]
  · simp [h1]

theorem moveFrom_eq {s t : St V} {d src : Nat} (h : s.moveFrom d src = some t) :
    ∃ r o, s.vars src = some r ∧ s.vars d = some o ∧
      ((d ≠ src ∧ r.ptr ≠ none ∧ t = ((s.free o.own).setVar src (some ⟨none, none⟩)).setVar d (some ⟨r.own, r.own⟩)) ∨
        ((d = src ∨ r.ptr = none) ∧ t = (s.free o.own).setVar d (some ⟨none, none⟩))) := by
  unfold St.moveFrom at h
  split at h
  · cases h
  · rename_i r hr
    split at h
    · rename_i hp
      dsimp only at h
      by_cases hd : d = src
      · subst hd
        refine ⟨r, r, hr, hr, .inr ⟨.inl rfl, ?_⟩⟩
        simp only [St.setVar, if_true, St.free, St.setNull] at h
        injection h with h
        subst h
        cases hro : r.own with
        | none => simp [St.setVar, St.free]; funext i; grind
        | some a => simp [St.setVar, St.free, St.setHeap]; funext i; grind
      · have hd' : ¬src = d := fun h => hd h.symm
        simp only [St.setVar, if_neg hd, if_neg hd', free_vars, St.setNull, if_true] at h
        cases ho : s.vars d with
        | none => rw [ho] at h; cases h
        | some o =>
          rw [ho] at h
          refine ⟨r, o, hr, rfl, .inl ⟨hd, hp, ?_⟩⟩
          simp only [St.free] at h
          injection h with h
          rw [← h]
          cases hoo : o.own with
          | none =>
            simp only [St.free, St.setVar]
            congr 1
            funext i
            by_cases h1 : i = d
            · simp [h1]
            · by_cases h2 : i = src <;> simp [h1, h2, hd']
          | some a =>
            simp only [St.free, St.setVar, St.setHeap]
            congr 1
            funext i
            by_cases h1 : i = d
            · simp [h1]
            · by_cases h2 : i = src <;> simp [h1, h2, hd']
    · rename_i hp
      cases ho : s.vars d with
      | none => rw [ho] at h; cases h
      | some o =>
        rw [ho] at h
        injection h with h
        exact ⟨r, o, hr, rfl, .inr ⟨.inr (by simpa using hp), h.symm⟩⟩

/-- a variable's own object is deleted, and it gets another one: none, or one which nobody owns -/
theorem inv_replace {s : St V} (hi : Inv s) {d : Nat} {x : Option Addr} {o' : Option Opt}
    (hd : ∀ o, s.vars d = some o → x = o.own) (hn : s.vars d = none → x = none)
    (ho : ∀ o, o' = some o → o.own = none) : Inv ((s.free x).setVar d o') := by
  obtain ⟨h1, h2, h3, h4, h5⟩ := hi
  cases hx : s.vars d with
  | none =>
    rw [hn hx]
    constructor <;> simp only [St.free, St.setVar] <;> grind
  | some o =>
    rw [hd o hx]
    cases hoo : o.own with
    | none => constructor <;> simp only [St.free, St.setVar] <;> grind
    | some a => constructor <;> simp only [St.free, St.setVar, St.setHeap] <;> grind

/-- ... or a new one -/
theorem inv_fresh {s : St V} (hi : Inv s) {d : Nat} {x : Option Addr} {a : Addr} {v : V}
    (hd : ∀ o, s.vars d = some o → x = o.own) (hn : s.vars d = none → x = none) (ha : s.heap a = none) :
    Inv (((s.setHeap a (some v)).free x).setVar d (some ⟨some a, some a⟩)) := by
  obtain ⟨h1, h2, h3, h4, h5⟩ := hi
  cases hx : s.vars d with
  | none =>
    rw [hn hx]
    constructor
    case leak =>
      simp only [St.free, St.setVar, St.setHeap]
      intro a' h'
      by_cases haa : a' = a
      · exact .inr ⟨d, ⟨some a, some a⟩, by simp, by simp [haa]⟩
      · grind
    all_goals simp only [St.free, St.setVar, St.setHeap] <;> grind
  | some o =>
    rw [hd o hx]
    cases hoo : o.own with
    | none => constructor <;> simp only [St.free, St.setVar, St.setHeap] <;> grind
    | some b => constructor <;> simp only [St.free, St.setVar, St.setHeap] <;> grind

/-- ... or one of the user's -/
theorem inv_adopt {s : St V} (hi : Inv s) {d : Nat} {x : Option Addr} {p : Addr}
    (hd : ∀ o, s.vars d = some o → x = o.own) (hn : s.vars d = none → x = none) (hp : s.user p = true) :
    Inv (((s.free x).setUser p false).setVar d (some ⟨some p, some p⟩)) := by
  obtain ⟨h1, h2, h3, h4, h5⟩ := hi
  cases hx : s.vars d with
  | none =>
    rw [hn hx]
    constructor
    case leak =>
      simp only [St.free, St.setVar, St.setUser]
      intro a' h'
      by_cases haa : a' = p
      · exact .inr ⟨d, ⟨some p, some p⟩, by simp, by simp [haa]⟩
      · grind
    all_goals simp only [St.free, St.setVar, St.setUser] <;> grind
  | some o =>
    rw [hd o hx]
    cases hoo : o.own with
    | none => constructor <;> simp only [St.free, St.setVar, St.setUser] <;> grind
    | some b => constructor <;> simp only [St.free, St.setVar, St.setHeap, St.setUser] <;> grind

/-- ... or that of another variable -/
theorem inv_steal {s : St V} (hi : Inv s) {d e : Nat} {o r : Opt} (hde : d ≠ e) (hd : s.vars d = some o) (he : s.vars e = some r) :
    Inv (((s.free o.own).setVar e (some ⟨none, none⟩)).setVar d (some ⟨r.own, r.own⟩)) := by
  obtain ⟨h1, h2, h3, h4, h5⟩ := hi
  cases hoo : o.own with
  | none =>
    constructor
    case leak =>
      simp only [St.free, St.setVar]
      intro a' h'
      by_cases haa : r.own = some a'
      · exact .inr ⟨d, ⟨r.own, r.own⟩, by simp, haa⟩
      · grind
    all_goals clear h3; simp only [St.free, St.setVar] <;> grind
  | some b =>
    constructor
    case leak =>
      simp only [St.free, St.setVar, St.setHeap]
      intro a' h'
      by_cases haa : r.own = some a'
      · exact .inr ⟨d, ⟨r.own, r.own⟩, by simp, haa⟩
      · grind
    all_goals clear h3; simp only [St.free, St.setVar, St.setHeap] <;> grind

theorem inv_heap {s : St V} (hi : Inv s) {a : Addr} {v : V} (ha : s.heap a ≠ none) : Inv (s.setHeap a (some v)) := by
  obtain ⟨h1, h2, h3, h4, h5⟩ := hi
  constructor <;> simp only [St.setHeap] <;> grind

theorem inv_step {s s' : St V} {o : Op V} (hi : Inv s) (h : step s o = some s') : Inv s' := by
  cases o with
  | ctorNull d =>
    simp only [step] at h
    split at h
    · cases h
    · rename_i hd
      injection h with h; subst h
      have := inv_replace hi (d := d) (x := none) (o' := some ⟨none, none⟩) (by grind) (by grind) (by grind)
      exact this
  | ctorValue d v a =>
    simp only [step] at h
    split at h
    · cases h
    · rename_i hd
      split at h
      · cases h
      · rename_i s1 hs
        obtain ⟨ha, rfl⟩ := alloc_eq hs
        injection h with h; subst h
        exact inv_fresh hi (d := d) (x := none) (by grind) (by grind) ha
  | ctorUnique d p =>
    simp only [step] at h
    split at h
    · cases h
    · rename_i hd
      injection h with h; subst h
      exact inv_adopt hi (d := d) (x := none) (by grind) (by grind) (by grind)
  | ctorBare d p =>
    simp only [step] at h
    split at h
    · cases h
    · rename_i hd
      injection h with h; subst h
      exact inv_replace hi (d := d) (x := none) (o' := some ⟨none, some p⟩) (by grind) (by grind) (by grind)
  | ctorCopy d src a =>
    simp only [step] at h
    split at h
    · cases h
    · rename_i hd
      obtain ⟨r, hr, ⟨p, v, _, _, ha, rfl⟩ | ⟨_, rfl⟩⟩ := copyFrom_eq h
      · exact inv_fresh hi (by grind) (by grind) ha
      · exact inv_replace hi (by grind) (by grind) (by grind)
  | ctorMove d src =>
    simp only [step] at h
    split at h
    · cases h
    · rename_i hd
      have hi' : Inv (s.setVar d (some ⟨none, none⟩)) :=
        inv_replace hi (d := d) (x := none) (o' := some ⟨none, none⟩) (by grind) (by grind) (by grind)
      obtain ⟨r, o, hr, ho, ⟨hne, _, rfl⟩ | ⟨_, rfl⟩⟩ := moveFrom_eq h
      · exact inv_steal hi' hne ho hr
      · exact inv_replace hi' (by grind) (by grind) (by grind)
  | null d =>
    obtain ⟨o, ho, rfl⟩ := setNull_eq h
    exact inv_replace hi (by grind) (by grind) (by grind)
  | value d v a =>
    simp only [step] at h
    split at h
    · cases h
    · rename_i o ho
      split at h
      · rename_i b hb
        injection h with h; subst h
        have hh := inv_heap hi (v := v) (hi.owned d o b ho hb).1
        have hp := hi.ptr d o b ho hb
        have : (s.setHeap b (some v)).setVar d (some ⟨some b, some b⟩) = s.setHeap b (some v) := by
          have ho' : o = ⟨some b, some b⟩ := by cases o; simp_all
          rw [ho'] at ho
          simp only [St.setVar, St.setHeap]
          congr 1
          funext i
          grind
        rw [this]
        exact hh
      · rename_i hb
        split at h
        · cases h
        · rename_i s1 hs
          obtain ⟨ha, rfl⟩ := alloc_eq hs
          injection h with h; subst h
          exact inv_fresh hi (d := d) (x := none) (by grind) (by grind) ha
  | bare d p =>
    simp only [step] at h
    split at h
    · cases h
    · split at h
      · cases h
      · injection h with h; subst h
        exact inv_replace hi (by grind) (by grind) (by grind)
  | unique d p =>
    simp only [step] at h
    split at h
    · cases h
    · split at h
      · cases h
      · injection h with h; subst h
        exact inv_adopt hi (by grind) (by grind) (by grind)
  | copy d src a =>
    simp only [step] at h
    split at h
    · cases h
    · obtain ⟨r, hr, ⟨p, v, _, _, ha, rfl⟩ | ⟨_, rfl⟩⟩ := copyFrom_eq h
      · exact inv_fresh hi (by grind) (by grind) ha
      · exact inv_replace hi (by grind) (by grind) (by grind)
  | move d src =>
    obtain ⟨r, o, hr, ho, ⟨hne, _, rfl⟩ | ⟨_, rfl⟩⟩ := moveFrom_eq h
    · exact inv_steal hi hne ho hr
    · exact inv_replace hi (by grind) (by grind) (by grind)
  | write d v =>
    simp only [step] at h
    split at h
    · cases h
    · split at h
      · injection h with h; subst h; exact hi
      · split at h
        · cases h
        · injection h with h; subst h
          exact inv_heap hi (by assumption)
  | destroy d =>
    simp only [step] at h
    split at h
    · cases h
    · injection h with h; subst h
      exact inv_replace hi (by grind) (by grind) (by grind)
  | userNew p v =>
    simp only [step] at h
    split at h
    · cases h
    · rename_i s1 hs
      obtain ⟨ha, rfl⟩ := alloc_eq hs
      injection h with h; subst h
      obtain ⟨h1, h2, h3, h4, h5⟩ := hi
      constructor <;> simp only [St.setHeap, St.setUser] <;> grind
  | userWrite p v =>
    simp only [step] at h
    split at h
    · cases h
    · injection h with h; subst h
      exact inv_heap hi (hi.user p (by grind))
  | userDelete p =>
    simp only [step] at h
    split at h
    · cases h
    · injection h with h; subst h
      obtain ⟨h1, h2, h3, h4, h5⟩ := hi
      constructor <;> simp only [St.setHeap, St.setUser] <;> grind

theorem inv_run {os : List (Op V)} {s s' : St V} (hi : Inv s) (h : run s os = some s') : Inv s' := by
  induction os generalizing s with
  | nil => injection h with h; subst h; exact hi
  | cons o os ih =>
    simp only [run, Option.bind_eq_some_iff] at h
    obtain ⟨s1, h1, h2⟩ := h
    exact ih (inv_step hi h1) h2

end Current.Value
