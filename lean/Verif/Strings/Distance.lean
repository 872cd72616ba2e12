import Verif.Persist.Model
/-!
`bricks/strings/distance.h`: `SlowEditDistance` and `FastEditDistance` (C67).

The tables of the two `struct`s are `std::vector<std::vector<size_t>>` filled with `size_t(-1)`; here a table is a function of
the two indexes. The compiler may evaluate the arguments of `std::min` in any order; the model takes them left to right.
-/
namespace Current.Strings
open Current.Persist

/-! ### Model -/

/-- `static_cast<size_t>(-1)`. -/
def topSize : Nat := 2 ^ 64 - 1

/-- `1u + x` in `size_t`. -/
def succSize (x : Nat) : Nat := (1 + x) % 2 ^ 64

/-- `D`, `distance.h:43` and `distance.h:83`. -/
abbrev Table := Nat → Nat → Nat

/-- Assignment to `D[i][j]` through the reference `R`. -/
def Table.put (D : Table) (i j v : Nat) : Table := fun i' j' => if i' = i ∧ j' = j then v else D i' j'

/-- `SlowImpl::Compute(i, j)`, `distance.h:48-62`, with the table before and after. -/
def slowCompute (a b : Str) (i j : Nat) (D : Table) : Nat × Table :=
  if D i j = topSize then
    match i, j with
    | 0, j => (j, D.put 0 j j)
    | i + 1, 0 => (i + 1, D.put (i + 1) 0 (i + 1))
    | i + 1, j + 1 =>
      if a[i]? = b[j]? then
        let r := slowCompute a b i j D
        (r.1, r.2.put (i + 1) (j + 1) r.1)
      else
        let r1 := slowCompute a b i j D
        let r2 := slowCompute a b (i + 1) j r1.2
        let r3 := slowCompute a b i (j + 1) r2.2
        let v := succSize (min r1.1 (min r2.1 r3.1))
        (v, r3.2.put (i + 1) (j + 1) v)
  else (D i j, D)
termination_by i + j

/-- `SlowEditDistance(a, b)`, `distance.h:37-68`. -/
def slowEditDistance (a b : Str) : Nat := (slowCompute a b a.length b.length fun _ _ => topSize).1

/-- `j + max_offset - i` in `size_t`, `distance.h:95`. -/
def diagonal (m i j : Nat) : Nat := (j + m + (2 ^ 64 - i)) % 2 ^ 64

/-- `max_offset * 2` in `size_t`, `distance.h:96`. -/
def twiceSize (m : Nat) : Nat := (m * 2) % 2 ^ 64

/-- `FastImpl::Compute(i, j)`, `distance.h:94-115`. -/
def fastCompute (a b : Str) (m : Nat) (i j : Nat) (D : Table) : Nat × Table :=
  if diagonal m i j ≤ twiceSize m then
    if D i (diagonal m i j) = topSize then
      match i, j with
      | 0, j => (j, D.put 0 (diagonal m 0 j) j)
      | i + 1, 0 => (i + 1, D.put (i + 1) (diagonal m (i + 1) 0) (i + 1))
      | i + 1, j + 1 =>
        if a[i]? = b[j]? then
          let r := fastCompute a b m i j D
          (r.1, r.2.put (i + 1) (diagonal m (i + 1) (j + 1)) r.1)
        else
          let r1 := fastCompute a b m i j D
          let r2 := fastCompute a b m (i + 1) j r1.2
          let r3 := fastCompute a b m i (j + 1) r2.2
          let v := succSize (min r1.1 (min r2.1 r3.1))
          (v, r3.2.put (i + 1) (diagonal m (i + 1) (j + 1)) v)
    else (D i (diagonal m i j), D)
  else (topSize, D)
termination_by i + j

/-- `FastEditDistance(a, b, max_offset)`, `distance.h:74-118`. `none`: the constructor of the table throws `std::length_error`, because
`max_offset * 2 + 1` is more than `vector<size_t>::max_size()`, which is `2^60 - 1` in the usual implementations. Running out of
memory for smaller tables is not modelled. -/
def fastEditDistance (a b : Str) (m : Nat) : Option Nat :=
  if (m * 2 + 1) % 2 ^ 64 < 2 ^ 60 then some (fastCompute a b m a.length b.length fun _ _ => topSize).1 else none

/-! ### Specification -/

/-- One edit: a character is inserted, deleted or replaced, anywhere. -/
inductive OneEdit : Str → Str → Prop where
  | insert (u v : Str) (c : Char) : OneEdit (u ++ v) (u ++ c :: v)
  | delete (u v : Str) (c : Char) : OneEdit (u ++ c :: v) (u ++ v)
  | replace (u v : Str) (c d : Char) : OneEdit (u ++ c :: v) (u ++ d :: v)

/-- `n` edits in a row turn `s` into `t`. -/
inductive Edits : Nat → Str → Str → Prop where
  | done (s : Str) : Edits 0 s s
  | step {n : Nat} {s t u : Str} : OneEdit s t → Edits n t u → Edits (n + 1) s u

/-- The Levenshtein distance: the least number of edits that turn `s` into `t`. -/
def IsDistance (s t : Str) (k : Nat) : Prop := Edits k s t ∧ ∀ n, Edits n s t → k ≤ n

/-- A column of a letter by letter matching of two strings: two letters side by side, or a letter of one of them alone. -/
inductive Column where
  | both (c d : Char)
  | left (c : Char)
  | right (d : Char)
  deriving DecidableEq, Repr

/-- The letters of the first string. -/
def lefts (w : List Column) : Str := w.filterMap fun
  | .both c _ => some c
  | .left c => some c
  | .right _ => none

/-- The letters of the second string. -/
def rights (w : List Column) : Str := w.filterMap fun
  | .both _ d => some d
  | .left _ => none
  | .right d => some d

/-- The number of columns that are not two equal letters. -/
def mismatches (w : List Column) : Nat := w.countP fun
  | .both c d => c != d
  | _ => true

/-- The strings are never more than `m` letters apart. -/
def Within (m : Nat) (w : List Column) : Prop :=
  ∀ p, p <+: w → (lefts p).length ≤ (rights p).length + m ∧ (rights p).length ≤ (lefts p).length + m

/-- The least cost of matching `s` and `t` letter by letter without going more than `m` letters apart. -/
def IsBandDistance (m : Nat) (s t : Str) (k : Nat) : Prop :=
  (∃ w, lefts w = s ∧ rights w = t ∧ Within m w ∧ mismatches w = k) ∧
  ∀ w, lefts w = s → rights w = t → Within m w → k ≤ mismatches w

end Current.Strings
