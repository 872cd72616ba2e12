import Mathlib.Data.Rat.Floor
import Mathlib.Analysis.SpecialFunctions.Log.Basic
import Mathlib.Analysis.SpecialFunctions.Pow.Real
import Mathlib.Tactic.Ring
import Mathlib.Tactic.FieldSimp
import Mathlib.Tactic.Linarith
import Mathlib.Tactic.Positivity
/-!
`RoundDoubleToString` (C118): `bricks/strings/rounding.h:36-98`.

Simplified: a double is an exact rational number, and so are `value * pow(10, …) + 0.5` and `pow`. `dim`, the number of digits before the decimal point as computed from the logarithm, is a
parameter: see `dimOf`.
-/

namespace Current.Rounding

/-- The loop of `rounding.h:81-91`: what is printed and `digit_index` after it. `k` digits are left. -/
def emit : (k : Nat) → (di : Int) → (mod x : Nat) → List Char × Int
  | 0, di, _, _ => ([], di)
  | k + 1, di, mod, x =>
      let point := if di = 0 then ['.'] else []
      let mod := mod / 10
      let digit := Nat.digitChar (x / mod % 10)
      let x := x % mod
      let di := di - 1
      if di ≤ 0 ∧ x = 0 then (point ++ [digit], di)
      else let r := emit k di mod x; (point ++ digit :: r.1, r.2)

/-- `rounding.h:59-95`: the digits of `integerized`, the sign apart. -/
def digits (n : Nat) (dim : Int) (x : Nat) : List Char :=
  let corner := 10 ^ n ≤ x
  let mod := if corner then 10 ^ n * 10 else 10 ^ n
  let di := if corner then dim + 1 else dim
  let before := if di < 0 then '0' :: '.' :: List.replicate di.natAbs '0' else if di = 0 then ['0'] else []
  let r := emit n di mod x
  before ++ r.1 ++ List.replicate r.2.toNat '0'

/-- `integerized`, `rounding.h:57`. -/
def integerized (v : Rat) (n : Nat) (dim : Int) : Nat := ⌊v * 10 ^ ((n : Int) - dim) + 1 / 2⌋.toNat

/-- `RoundDoubleToString(value, n_digits, plus_sign)`. -/
def round (v : Rat) (n : Nat) (dim : Int) (plus : Bool) : List Char :=
  let a := if v < 0 then -v else v
  if a < 1 / 10 ^ 16 then ['0']
  else
    let x := integerized a n dim
    (if v < 0 then ['-'] else if 0 < x ∧ plus then ['+'] else []) ++ digits n dim x

/-- `dim`, `rounding.h:53`, with exact logarithms. -/
noncomputable def dimOf (v : Rat) : Int := ⌈Real.log v / Real.log 10 + 1 / 10 ^ 10⌉

end Current.Rounding
