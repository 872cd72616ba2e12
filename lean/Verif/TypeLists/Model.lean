set_option linter.unusedSimpArgs false

/-! # Type lists (`bricks/template/typelist.h`, `mapreduce.h`, `variadic_indexes.h`)

Types are names, compared for equality (`τ`); `none` is a compilation error. The recursion of the templates is kept as it is, accumulator first. -/

namespace Current.TypeLists

variable {τ : Type} [DecidableEq τ]

/-- A class which derives from `DuplicateTypeInTypeList<T>` for each `T` compiles only if no base is there twice (`typelist.h:67-75`). -/
def basesOk : List τ → Bool
  | [] => true
  | t :: ts => !ts.elem t && basesOk ts

/-- `TypeListContains<TypeListImpl<TS...>, T>::value`, `typelist.h:77-85`. -/
def contains (ts : List τ) (t : τ) : Option Bool := if basesOk ts then some (ts.elem t) else none

/-- `TypeListCatImpl`, `typelist.h:100-109`. -/
def catImpl (a b : List τ) : Option (List τ) := if basesOk (a ++ b) then some (a ++ b) else none

/-- `TypeListCatWrapper` and `TypeListCat`, `typelist.h:111-135`, from the first list on. -/
def catFrom (a : List τ) : List (List τ) → Option (List τ)
  | [] => some a
  | x :: xs => (catImpl a x).bind fun r => catFrom r xs

/-- `TypeListCat<...>`, `typelist.h:111-135`. -/
def cat : List (List τ) → Option (List τ)
  | [] => some []
  | a :: xs => catFrom a xs

/-- `TypeListRemoveVoidsInnerImpl`, `typelist.h:150-166`. -/
def removeVoidsInner (void : τ) (acc : List τ) : List τ → List τ
  | [] => acc
  | t :: ts => if t = void then removeVoidsInner void acc ts else removeVoidsInner void (acc ++ [t]) ts

/-- `TypeListRemoveVoids`, `typelist.h:168-177`. -/
def removeVoids (void : τ) (ts : List τ) : List τ := removeVoidsInner void [] ts

/-- `TypeListUnionImpl` with `TypeListUnionImplAppendIfNotPresent`, `typelist.h:189-228`. -/
def unionImpl (r : List τ) : List τ → List τ → Option (List τ)
  | t :: ts, rhs => (contains r t).bind fun b => if b then unionImpl r ts rhs else unionImpl (r ++ [t]) ts rhs
  | [], t :: ts => (contains r t).bind fun b => if b then unionImpl r [] ts else unionImpl (r ++ [t]) [] ts
  | [], [] => some r
termination_by l rhs => l.length + rhs.length

/-- `TypeListUnionWrapper`, `typelist.h:230-251`, from the first list on. -/
def unionFrom (a : List τ) : List (List τ) → Option (List τ)
  | [] => some a
  | x :: xs => (unionImpl [] a x).bind fun r => unionFrom r xs

/-- `TypeListUnion<...>`, `typelist.h:230-254`. -/
def union : List (List τ) → Option (List τ)
  | [] => some []
  | a :: xs => unionFrom a xs

/-- A type which may be a type list. -/
inductive Ty (τ : Type)
  | atom (t : τ)
  | list (ts : List (Ty τ))

/-- The number of the nodes, for the termination of `flattenImpl` only. -/
def Ty.nodes {τ : Type} : Ty τ → Nat
  | .atom _ => 1
  | .list ts => 1 + go ts
where go : List (Ty τ) → Nat
  | [] => 0
  | t :: ts => t.nodes + go ts

theorem nodes_append {τ : Type} (a b : List (Ty τ)) : Ty.nodes.go (a ++ b) = Ty.nodes.go a + Ty.nodes.go b := by
  induction a with
  | nil => simp [Ty.nodes.go]
  | cons t ts ih => simp only [List.cons_append, Ty.nodes.go, ih]; omega

/-- `FlattenImpl`, `typelist.h:272-291`. -/
def flattenImpl {τ : Type} (acc : List τ) : List (Ty τ) → List τ
  | [] => acc
  | .list nested :: rest => flattenImpl acc (nested ++ rest)
  | .atom t :: rest => flattenImpl (acc ++ [t]) rest
termination_by l => Ty.nodes.go l
decreasing_by
  · simp only [nodes_append, Ty.nodes.go, Ty.nodes]; omega
  · simp only [Ty.nodes.go, Ty.nodes]; omega

/-- `Flatten<TypeListImpl<TS...>>`, `typelist.h:293-305`. -/
def flatten {τ : Type} (ts : List (Ty τ)) : List τ := flattenImpl [] ts

/-- `SlowTypeList<TS...>`, `typelist.h:321-324`. -/
def slow (ts : List (Ty τ)) : Option (List τ) := union [[], flatten ts]

/-- `EvensOnlyImpl`, `typelist.h:362-379`. -/
def evensImpl {τ : Type} (acc : List τ) : List τ → List τ
  | [] => acc
  | [good] => acc ++ [good]
  | good :: _ :: ugly => evensImpl (acc ++ [good]) ugly

/-- `EvensOnly<...>`, `typelist.h:381-382`. -/
def evensOnly {τ : Type} (ts : List τ) : List τ := evensImpl [] ts

/-- `E<I, TypeListImpl<...>>::F`, `typelist.h:402-416`: the overloads which the class has, `none` being that which returns `void`. -/
def overloads {τ : Type} (i : Nat) : List τ → List (Nat × Option τ)
  | [] => [(i, none)]
  | t :: ts => (i, some t) :: overloads (i + 1) ts

/-- Overload resolution on `TI<N>`; `void::type` does not compile, `typelist.h:418-427`. -/
def resolve {τ : Type} (n : Nat) (os : List (Nat × Option τ)) : Option τ := (os.find? (fun o => o.1 = n)).bind (·.2)

/-- `TypeListElement<N, ...>`, `typelist.h:434-437`. -/
def element {τ : Type} (n : Nat) (ts : List τ) : Option τ := resolve n (overloads 0 ts)

/-- `filter_impl`, `mapreduce.h:65-92`. -/
def filterImpl {τ : Type} (f : τ → Bool) (acc : List τ) : List τ → List τ
  | [] => acc
  | t :: ts => filterImpl f (if f t then acc ++ [t] else acc) ts

/-- `filter<F, ...>`, `mapreduce.h:94-109`. -/
def filter {τ : Type} (f : τ → Bool) (ts : List τ) : List τ := filterImpl f [] ts

/-- `reduce<F, ...>`, `mapreduce.h:111-136`; of no types it does not compile. -/
def reduce {τ : Type} (f : τ → τ → τ) : List τ → Option τ
  | [] => none
  | [t] => some t
  | t :: ts => (reduce f ts).map (f t)

/-- `ig<X, XS...>`, `variadic_indexes.h:35-41`. -/
def ig : Nat → List Nat → List Nat
  | 0, xs => xs
  | x + 1, xs => ig x (x :: xs)

/-- `generate_indexes<N>`, `variadic_indexes.h:43`. -/
def generateIndexes (n : Nat) : List Nat := ig n []

/-! ### Specification -/

/-- The element at a position, if it has not occurred before. -/
def newAt (l : List τ) (i : Nat) : Option τ := match l[i]? with
  | some t => if t ∈ l.take i then none else some t
  | none => none

/-- The first occurrences: the elements of `l` at the positions where they have not occurred before. -/
def firsts (l : List τ) : List τ := (List.range l.length).filterMap (newAt l)

/-- The types in a nested list, from left to right. -/
def leaves {τ : Type} : Ty τ → List τ
  | .atom t => [t]
  | .list ts => go ts
where go : List (Ty τ) → List τ
  | [] => []
  | t :: ts => leaves t ++ go ts

end Current.TypeLists
