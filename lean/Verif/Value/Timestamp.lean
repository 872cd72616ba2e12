/-!
`typesystem/timestamp.h` (C147): `MicroTimestampOf` and `SetMicroTimestamp`, with `CURRENT_USE_FIELD_AS_TIMESTAMP`
(`typesystem/struct.h:291-300`) and `Variant::Call` (`typesystem/variant.h:228-243`).

Which field of a struct has the timestamp is fixed when the program is compiled: a struct is its fields before this one, the
field, and its fields after it. The other fields are of an arbitrary type `α`. Objects whose type has no timestamp do not
compile, and are not in the model. The model is about objects: the writes through references are the objects returned.
-/
namespace Current.Timestamp

/-! ### Model -/

inductive V (α : Type) where
  | micros (us : Int)                                         -- `std::chrono::microseconds`
  | int64 (us : Int)                                          -- `int64_t`
  | struct (before : List α) (field : V α) (after : List α)   -- a `CURRENT_STRUCT` with a field used as its timestamp
  | variant (alternative : Nat) (x : V α)                     -- a `Variant`
  | empty                                                     -- a `Variant` which is not initialized
  deriving Repr, DecidableEq

variable {α : Type}

/-- `ExtractTimestampFunctor`, lines 49-56, and `TimestampAccessorImpl`, lines 67-104. `acc` is the variable `result`, which is
not initialized on line 109; `none` on the left: the exception of an uninitialized variant is thrown. -/
def extract : V α → Option Int → Option (Option Int)
  | .micros us, _ => some (some us)
  | .int64 us, _ => some (some us)
  | .struct _ f _, acc => extract f acc
  | .empty, _ => none
  | .variant _ x, acc => extract x acc

/-- How a call ends. -/
inductive Res (β : Type) where
  | ok (b : β)
  | throws         -- `UninitializedVariantException`
  | undefined      -- a variable is read which has no value
  deriving DecidableEq, Repr

/-- `MicroTimestampOf`, lines 106-118. -/
def microTimestampOf (v : V α) : Res Int :=
  match extract v none with
  | none => .throws
  | some none => .undefined
  | some (some t) => .ok t

/-- `UpdateTimestampFunctor`, lines 58-65 and 67-104: whether there was an exception, and the object afterwards. -/
def update (t : Int) : V α → Bool × V α
  | .micros _ => (true, .micros t)
  | .int64 _ => (true, .int64 t)
  | .struct b f a => ((update t f).1, .struct b (update t f).2 a)
  | .empty => (false, .empty)
  | .variant i x => ((update t x).1, .variant i (update t x).2)

/-- `SetMicroTimestamp`, lines 120-125: `true` if it returns, `false` if it throws; the object afterwards. -/
def setMicroTimestamp (v : V α) (t : Int) : Bool × V α := update t v

/-! ### Specification -/

/-- The way from an object to its timestamp does not end at an uninitialized variant. -/
inductive Stamped : V α → Int → Prop
  | micros (t : Int) : Stamped (.micros t) t
  | int64 (t : Int) : Stamped (.int64 t) t
  | struct (b a : List α) {f : V α} {t : Int} : Stamped f t → Stamped (.struct b f a) t
  | variant (i : Nat) {x : V α} {t : Int} : Stamped x t → Stamped (.variant i x) t

/-- The objects are the same apart from the timestamp. -/
inductive SameBut : V α → V α → Prop
  | micros (s t : Int) : SameBut (.micros s) (.micros t)
  | int64 (s t : Int) : SameBut (.int64 s) (.int64 t)
  | struct (b a : List α) {f g : V α} : SameBut f g → SameBut (.struct b f a) (.struct b g a)
  | variant (i : Nat) {x y : V α} : SameBut x y → SameBut (.variant i x) (.variant i y)

/-! ### Lemmas -/

theorem extract_of_stamped {v : V α} {t : Int} (h : Stamped v t) : ∀ acc, extract v acc = some (some t) := by
  induction h with
  | micros t => intro acc; rfl
  | int64 t => intro acc; rfl
  | struct b a _ ih => intro acc; exact ih acc
  | variant i _ ih => intro acc; exact ih acc

theorem stamped_or (v : V α) : (∃ t, Stamped v t) ∨ (∀ acc, extract v acc = none) ∧ ∀ t, update t v = (false, v) := by
  match v with
  | .micros t => exact .inl ⟨t, .micros t⟩
  | .int64 t => exact .inl ⟨t, .int64 t⟩
  | .struct b f a =>
    rcases stamped_or f with ⟨t, h⟩ | ⟨h, g⟩
    · exact .inl ⟨t, .struct b a h⟩
    · exact .inr ⟨h, fun t => by simp only [update, g t]⟩
  | .empty => exact .inr ⟨fun _ => rfl, fun _ => rfl⟩
  | .variant i x =>
    rcases stamped_or x with ⟨t, h⟩ | ⟨h, g⟩
    · exact .inl ⟨t, .variant i h⟩
    · exact .inr ⟨h, fun t => by simp only [update, g t]⟩

theorem not_stamped_of_none {v : V α} (h : extract v none = none) : ¬ ∃ t, Stamped v t := by
  rintro ⟨t, g⟩
  rw [extract_of_stamped g] at h
  cases h

/-- The timestamp is one. -/
theorem stamped_unique {v : V α} {s t : Int} (h : Stamped v s) (g : Stamped v t) : s = t := by
  have := extract_of_stamped h none
  rw [extract_of_stamped g none] at this
  injection this with this
  injection this with this
  exact this.symm

theorem update_of_stamped {v : V α} {s : Int} (h : Stamped v s) (t : Int) :
    (update t v).1 = true ∧ Stamped (update t v).2 t ∧ SameBut v (update t v).2 := by
  induction h with
  | micros s => exact ⟨rfl, .micros t, .micros s t⟩
  | int64 s => exact ⟨rfl, .int64 t, .int64 s t⟩
  | struct b a _ ih => exact ⟨ih.1, .struct b a ih.2.1, .struct b a ih.2.2⟩
  | variant i _ ih => exact ⟨ih.1, .variant i ih.2.1, .variant i ih.2.2⟩

theorem same_unique {v w : V α} (h : SameBut v w) : ∀ {t : Int}, Stamped v t → Stamped w t → v = w := by
  induction h with
  | micros s t => intro r h g; cases h; cases g; rfl
  | int64 s t => intro r h g; cases h; cases g; rfl
  | struct b a _ ih =>
    intro r h g
    cases h with
    | struct _ _ h => cases g with
      | struct _ _ g => rw [ih h g]
  | variant i _ ih =>
    intro r h g
    cases h with
    | variant _ h => cases g with
      | variant _ g => rw [ih h g]

theorem SameBut.symm {v w : V α} (h : SameBut v w) : SameBut w v := by
  induction h with
  | micros s t => exact .micros t s
  | int64 s t => exact .int64 t s
  | struct b a _ ih => exact .struct b a ih
  | variant i _ ih => exact .variant i ih

theorem SameBut.trans {u v w : V α} (h : SameBut u v) : SameBut v w → SameBut u w := by
  intro g
  induction h generalizing w with
  | micros s t => cases g; exact .micros _ _
  | int64 s t => cases g; exact .int64 _ _
  | struct b a _ ih => cases g with | struct _ _ g => exact .struct b a (ih g)
  | variant i _ ih => cases g with | variant _ g => exact .variant i (ih g)

/-! ### Theorems -/

/-- C147. The timestamp which is reported is that of the object; an exception is thrown exactly if there is none because of an
uninitialized variant; a variable without a value is never read. -/
theorem timestamp_of_the_object (v : V α) :
    (∀ t, microTimestampOf v = .ok t ↔ Stamped v t) ∧
    (microTimestampOf v = .throws ↔ ¬ ∃ t, Stamped v t) ∧
    microTimestampOf v ≠ .undefined := by
  unfold microTimestampOf
  rcases stamped_or v with ⟨s, h⟩ | ⟨h, _⟩
  · rw [extract_of_stamped h none]
    refine ⟨fun t => ⟨?_, ?_⟩, ⟨?_, ?_⟩, by simp⟩
    · intro e; injection e with e; subst e; exact h
    · intro g; rw [stamped_unique h g]
    · intro e; cases e
    · intro g; exact absurd ⟨s, h⟩ g
  · have hn := not_stamped_of_none (h none)
    rw [h none]
    refine ⟨fun t => ⟨?_, ?_⟩, ⟨?_, ?_⟩, by simp⟩
    · intro e; cases e
    · intro g; exact absurd ⟨t, g⟩ hn
    · intro _; exact hn
    · intro _; rfl

/-- C147. After a timestamp is set it is the timestamp, and nothing else of the object has changed; this determines the object.
If there is an exception, the object has not changed, and there was no timestamp. -/
theorem set_changes_only_the_timestamp (v : V α) (t : Int) :
    ((setMicroTimestamp v t).1 = true → Stamped (setMicroTimestamp v t).2 t ∧ SameBut v (setMicroTimestamp v t).2 ∧
      ∀ w, Stamped w t → SameBut v w → w = (setMicroTimestamp v t).2) ∧
    ((setMicroTimestamp v t).1 = false → (setMicroTimestamp v t).2 = v ∧ ¬ ∃ s, Stamped v s) := by
  unfold setMicroTimestamp
  rcases stamped_or v with ⟨s, h⟩ | ⟨h, g⟩
  · have hu := update_of_stamped h t
    refine ⟨fun _ => ⟨hu.2.1, hu.2.2, ?_⟩, ?_⟩
    · intro w hw hs
      exact same_unique (hs.symm.trans hu.2.2) hw hu.2.1
    · intro e; rw [hu.1] at e; cases e
  · rw [g t]
    refine ⟨fun e => (nomatch e), fun _ => ⟨rfl, not_stamped_of_none (h none)⟩⟩

/-- C147. What is set is read. -/
theorem set_then_get (v : V α) (s t : Int) (h : microTimestampOf v = .ok s) :
    microTimestampOf (setMicroTimestamp v t).2 = .ok t := by
  have h := ((timestamp_of_the_object v).1 s).1 h
  exact ((timestamp_of_the_object _).1 t).2 (update_of_stamped h t).2.1

/-- C147. Setting what is read changes nothing. -/
theorem get_then_set (v : V α) (t : Int) (h : microTimestampOf v = .ok t) : (setMicroTimestamp v t).2 = v := by
  have h := ((timestamp_of_the_object v).1 t).1 h
  have hu := update_of_stamped h t
  exact (same_unique hu.2.2 h hu.2.1).symm

/-- C147. The last timestamp set is the one that counts. -/
theorem set_then_set (v : V α) (s t : Int) :
    (setMicroTimestamp (setMicroTimestamp v s).2 t).2 = (setMicroTimestamp v t).2 := by
  unfold setMicroTimestamp
  rcases stamped_or v with ⟨r, h⟩ | ⟨_, g⟩
  · have h1 := update_of_stamped h s
    have h2 := update_of_stamped h1.2.1 t
    have h3 := update_of_stamped h t
    exact same_unique (h2.2.2.symm.trans (h1.2.2.symm.trans h3.2.2)) h2.2.1 h3.2.1
  · rw [g s, g t]

/-! ### The conditions are met: a struct with a variant of a struct inside -/

def sample : V String := .struct ["key"] (.variant 1 (.struct [] (.micros 42) ["x", "y"])) ["z"]

example : microTimestampOf sample = .ok 42 := by decide
example : (setMicroTimestamp sample 43).1 = true := by decide
example : microTimestampOf (V.struct ["key"] (.empty) []) = .throws := by decide
example : (setMicroTimestamp (V.struct ["key"] (.empty) []) 43).1 = false := by decide

end Current.Timestamp
