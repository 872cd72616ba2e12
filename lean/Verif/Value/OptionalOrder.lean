import Mathlib.Order.WithBot
import Mathlib.Data.Nat.Basic
/-!
# `Optional<T>`: the operators, the POD kind, `ImmutableOptional`

`typesystem/optional.h:56-112, 116-206, 208-302, 445-535`.
-/
namespace Current.Value

section order
variable {T : Type} [LinearOrder T]

/-! The argument `x : Option T` is what `ExistsImpl` and `ValueImpl` say; the same operators are written for `ImmutableOptional`
(`optional.h:116-206`) and for `Optional` (`optional.h:445-535`). -/

/-- `optional.h:447-449` -/
def oEq (x y : Option T) : Bool :=
  if x.isSome != y.isSome then false
  else match x, y with
    | some a, some b => decide (a = b)
    | _, _ => true
/-- `optional.h:452-454` -/
def oNe (x y : Option T) : Bool := !oEq x y
/-- `optional.h:457-459` -/
def oLt (x y : Option T) : Bool :=
  match y with
  | none => false
  | some b => match x with
    | none => true
    | some a => decide (a < b)
/-- `optional.h:462-464` -/
def oGt (x y : Option T) : Bool := oLt y x
/-- `optional.h:467-469` -/
def oLe (x y : Option T) : Bool := !oLt y x
/-- `optional.h:472-474` -/
def oGe (x y : Option T) : Bool := !oLt x y

/-- the shape of `optional.h:477-535`: the value's operator, or a constant -/
def mixed (x : Option T) (f : T → Bool) (empty : Bool) : Bool :=
  match x with
  | some a => f a
  | none => empty

/-- `optional.h:478-480` -/
def oEqV (x : Option T) (v : T) : Bool := mixed x (fun a => decide (a = v)) false
/-- `optional.h:483-485` -/
def vEqO (v : T) (x : Option T) : Bool := mixed x (fun a => decide (v = a)) false
/-- `optional.h:488-490` -/
def oNeV (x : Option T) (v : T) : Bool := mixed x (fun a => decide (a ≠ v)) true
/-- `optional.h:493-495` -/
def vNeO (v : T) (x : Option T) : Bool := mixed x (fun a => decide (v ≠ a)) true
/-- `optional.h:498-500` -/
def oLtV (x : Option T) (v : T) : Bool := mixed x (fun a => decide (a < v)) true
/-- `optional.h:503-505` -/
def vLtO (v : T) (x : Option T) : Bool := mixed x (fun a => decide (v < a)) false
/-- `optional.h:508-510` -/
def oGtV (x : Option T) (v : T) : Bool := mixed x (fun a => decide (a > v)) false
/-- `optional.h:513-515` -/
def vGtO (v : T) (x : Option T) : Bool := mixed x (fun a => decide (v > a)) true
/-- `optional.h:518-520` -/
def oLeV (x : Option T) (v : T) : Bool := mixed x (fun a => decide (a ≤ v)) true
/-- `optional.h:523-525` -/
def vLeO (v : T) (x : Option T) : Bool := mixed x (fun a => decide (v ≤ a)) false
/-- `optional.h:528-530` -/
def oGeV (x : Option T) (v : T) : Bool := mixed x (fun a => decide (a ≥ v)) false
/-- `optional.h:533-535` -/
def vGeO (v : T) (x : Option T) : Bool := mixed x (fun a => decide (v ≥ a)) true

/-- **C110.** The operators between two `Optional`s are the order of `T` with a least element added (Mathlib's `WithBot T`). -/
theorem optional_order (x y : WithBot T) :
    (oEq x y = true ↔ x = y) ∧ (oNe x y = true ↔ x ≠ y) ∧ (oLt x y = true ↔ x < y) ∧
    (oGt x y = true ↔ x > y) ∧ (oLe x y = true ↔ x ≤ y) ∧ (oGe x y = true ↔ x ≥ y) := by
  have hlt : ∀ x y : WithBot T, oLt x y = true ↔ x < y := by
    intro x y
    cases x <;> cases y
    · simp only [oLt]; exact iff_of_false (by simp) (lt_irrefl _)
    · exact iff_of_true rfl (WithBot.bot_lt_coe _)
    · exact iff_of_false (by simp [oLt]) (by simp)
    · simp only [WithBot.coe_lt_coe]; exact decide_eq_true_iff
  have heq : oEq x y = true ↔ x = y := by
    cases x <;> cases y
    · exact iff_of_true rfl rfl
    · exact iff_of_false (fun h => by cases h) (by simp)
    · exact iff_of_false (fun h => by cases h) (by simp)
    · rename_i a b
      simp only [WithBot.coe_inj]
      exact decide_eq_true_iff
  refine ⟨heq, ?_, hlt x y, hlt y x, ?_, ?_⟩
  · show (!oEq x y) = true ↔ _; rw [Bool.not_eq_true', ← Bool.not_eq_true, heq]
  · show (!oLt y x) = true ↔ _; rw [Bool.not_eq_true', ← Bool.not_eq_true, hlt, not_lt]
  · show (!oLt x y) = true ↔ _; rw [Bool.not_eq_true', ← Bool.not_eq_true, hlt, not_lt]

/-- **C110.** ... and a plain value compares as an `Optional` that holds it. -/
theorem optional_order_mixed (x : WithBot T) (v : T) :
    (oEqV x v = true ↔ x = v) ∧ (vEqO v x = true ↔ (v : WithBot T) = x) ∧
    (oNeV x v = true ↔ x ≠ v) ∧ (vNeO v x = true ↔ (v : WithBot T) ≠ x) ∧
    (oLtV x v = true ↔ x < v) ∧ (vLtO v x = true ↔ (v : WithBot T) < x) ∧
    (oGtV x v = true ↔ x > v) ∧ (vGtO v x = true ↔ (v : WithBot T) > x) ∧
    (oLeV x v = true ↔ x ≤ v) ∧ (vLeO v x = true ↔ (v : WithBot T) ≤ x) ∧
    (oGeV x v = true ↔ x ≥ v) ∧ (vGeO v x = true ↔ (v : WithBot T) ≥ x) := by
  cases x with
  | bot =>
    have e : ∀ f : T → Bool, ∀ b, mixed (⊥ : WithBot T) f b = b := fun _ _ => rfl
    simp [oEqV, vEqO, oNeV, vNeO, oLtV, vLtO, oGtV, vGtO, oLeV, vLeO, oGeV, vGeO, e]
  | coe a =>
    have e : ∀ f : T → Bool, ∀ b, mixed (a : WithBot T) f b = f a := fun _ _ => rfl
    simp [oEqV, vEqO, oNeV, vNeO, oLtV, vLtO, oGtV, vGtO, oLeV, vLeO, oGeV, vGeO, e]

example : oLt (none : Option Nat) (some 0) = true ∧ oLe (some 3) (none : Option Nat) = false ∧ vGtO 0 (none : Option Nat) = true := by decide

end order

/-! ## POD -/

/-- the fields, `optional.h:299-301` -/
structure Pod (T : Type) where
  value : T
  present : Bool

variable {T : Type}

/-- `ExistsImpl`, `ValueImpl`, `optional.h:281-297` -/
def Pod.get (x : Pod T) : Option T := if x.present then some x.value else none

inductive PodOp (T : Type)
  | null (d : Nat)            -- `optional.h:217, 241-244`
  | value (d : Nat) (v : T)   -- `optional.h:219-221, 246-258`
  | copy (d s : Nat)          -- `optional.h:223-226, 260-264`
  | move (d s : Nat)          -- `optional.h:228-232, 266-271`
  | write (d : Nat) (v : T)   -- `Value(x) = v`, `optional.h:291-297`

/-- the constructors do as the assignments do: `rest` is what the memory of a new variable has -/
def podStep (m : Nat → Pod T) : PodOp T → Nat → Pod T
  | .null d => fun i => if i = d then { m d with present := false } else m i
  | .value d v => fun i => if i = d then ⟨v, true⟩ else m i
  | .copy d s => fun i => if i = d then ⟨(m s).value, (m s).present⟩ else m i
  | .move d s =>
    let m1 : Nat → Pod T := fun i => if i = d then ⟨(m s).value, (m s).present⟩ else m i
    fun i => if i = s then { m1 s with present := false } else m1 i
  | .write d v => fun i => if i = d then (if (m d).present then { m d with value := v } else m d) else m i

/-- the same, to values -/
def podSpec (m : Nat → Option T) : PodOp T → Nat → Option T
  | .null d => fun i => if i = d then none else m i
  | .value d v => fun i => if i = d then some v else m i
  | .copy d s => fun i => if i = d then m s else m i
  | .move d s => fun i => if i = s then none else if i = d then m s else m i
  | .write d v => fun i => if i = d then (m d).map (fun _ => v) else m i

/-- **C110.** The POD kind is a value too, for every sequence of operations, whatever its memory had before. -/
theorem optional_pod_is_a_value (m : Nat → Pod T) (os : List (PodOp T)) :
    (fun i => (os.foldl podStep m i).get) = os.foldl podSpec (fun i => (m i).get) := by
  induction os generalizing m with
  | nil => rfl
  | cons o os ih =>
    simp only [List.foldl_cons]
    rw [ih]
    congr 1
    funext i
    cases o <;> simp only [podStep, podSpec, Pod.get] <;> grind

/-! ## `ImmutableOptional` of a type that is not POD -/

/-- `optional.h:110-112` -/
structure Imm where
  own : Option Nat
  ptr : Option Nat

/-- the implicit move constructor: the class declares none, `unique_ptr` moves and empties, the bare pointer is copied.  The pair: the
new one and what is left of the old one. -/
def Imm.move (x : Imm) : Imm × Imm := (x, { x with own := none })

/-- `ExistsImpl`, `optional.h:101` -/
def Imm.exists? (x : Imm) : Bool := x.ptr.isSome

/-- A moved-from `ImmutableOptional` does not become empty: it still says that it exists and points to the object the new one owns, hence
to nothing once the new one is destroyed.  (`Optional` empties it.) -/
theorem immutable_moved_from_still_exists (p : Nat) :
    let x : Imm := ⟨some p, some p⟩
    x.move.1.own = some p ∧ x.move.2.own = none ∧ x.move.2.exists? = true ∧ x.move.2.ptr = x.move.1.ptr := by
  simp [Imm.move, Imm.exists?]

end Current.Value
