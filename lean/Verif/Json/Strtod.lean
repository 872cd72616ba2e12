import Verif.Json.Number
import Verif.Json.GrisuText
/-!
C155: how `ParseJSON` computes a `double` from its text: the double path of `ParseNumber` (`3rdparty/rapidjson/reader.h:1467-1746`), with
`StrtodNormalPrecision` and `FastPath` (`internal/strtod.h:29-49`) and `Pow10` (`internal/pow10.h`), for the flags that are used
(`kParseDefaultFlags`: no full precision, no NaNs), on a 64-bit machine. Exponents (`int`) are integers without bounds: the text is taken
to be shorter than 200 megabytes. All numbers here are nonnegative: the sign is applied at the end.
-/
set_option linter.unusedSimpArgs false
set_option linter.unusedVariables false
namespace Current.Json.Strtod
open Current.Persist (Str dec decInt)
open Current.Json.Grisu (ieee infinity)

/-- A nonnegative `double`. -/
inductive F where
  | fin (q : ℚ)
  | inf
deriving DecidableEq

/-- From here on numbers are rounded to infinity: half-way between the greatest `double` and `2^1024`. -/
def overflow : ℚ := 2 ^ 1024 - 2 ^ 970

/-- Rounding to the nearest `double` (IEEE 754, 4.3.1), whichever way ties are broken. -/
structure Correct (rnd : ℚ → ℚ) : Prop where
  nearest : ∀ x, 0 ≤ x → x < overflow → ∃ a < infinity, rnd x = ieee a ∧ ∀ b ≤ infinity, |x - ieee a| ≤ |x - ieee b|

/-- The result of an operation. -/
def fl (rnd : ℚ → ℚ) (x : ℚ) : F := if overflow ≤ x then .inf else .fin (rnd x)

/-- `d * 10 + digit`: two operations. -/
def madd (rnd : ℚ → ℚ) (d : F) (k : Nat) : F :=
  match d with
  | .inf => .inf
  | .fin q => match fl rnd (q * 10) with
    | .inf => .inf
    | .fin r => fl rnd (r + k)

/-- `Pow10` (`pow10.h:28-52`): the literal is rounded. `none`: the assertion fails. -/
def pow10 (rnd : ℚ → ℚ) (n : Int) : Option F := if 0 ≤ n ∧ n ≤ 308 then some (fl rnd (10 ^ n.toNat)) else none

def mulF (rnd : ℚ → ℚ) : F → F → F
  | .fin a, .fin b => fl rnd (a * b)
  | _, _ => .inf
def divF (rnd : ℚ → ℚ) : F → F → F
  | .fin a, .fin b => fl rnd (a / b)
  | .inf, _ => .inf
  | .fin _, .inf => .fin 0

/-- `FastPath` (`strtod.h:29-36`). -/
def fastPath (rnd : ℚ → ℚ) (d : F) (e : Int) : Option F :=
  if e < -308 then some (.fin 0)
  else if e ≥ 0 then (pow10 rnd e).map (mulF rnd d)
  else (pow10 rnd (-e)).map (divF rnd d)

/-- `StrtodNormalPrecision` (`strtod.h:38-47`). -/
def strtodNormal (rnd : ℚ → ℚ) (d : F) (p : Int) : Option F :=
  if p < -308 then (fastPath rnd d (-308)).bind fun d => fastPath rnd d (p + 308)
  else fastPath rnd d p

/-- `while (digit) d = d * 10 + digit` (`reader.h:1574-1579`). -/
def doubleDigits (rnd : ℚ → ℚ) : F → Str → F × Str
  | d, [] => (d, [])
  | d, c :: s => if isDigit c then doubleDigits rnd (madd rnd d (c.toNat - 48)) s else (d, c :: s)

/-- The integral part (`reader.h:1484-1572`): `i64`, whether more digits would not fit, `significandDigit` (the digits after the first), and the rest. -/
def intDigits (minus : Bool) : Str → Option (Nat × Bool × Nat × Str)
  | [] => none
  | c :: s =>
    if c = '0' then some (0, false, 0, s)
    else if '1' ≤ c ∧ c ≤ '9' then
      let (i, r, more) := accumulate (if minus then 214748364 else 429496729) (if minus then '8' else '5') (c.toNat - 48) s
      if more then
        let (i64, r, over) := accumulate (if minus then 0x0CCCCCCCCCCCCCCC else 0x1999999999999999) (if minus then '8' else '5') i r
        some (i64, over, s.length - r.length, r)
      else some (i, false, s.length - r.length, r)
    else none

/-- The fraction while `i64` is below 2^53 (`reader.h:1596-1606`): `i64`, `expFrac`, `significandDigit`, the rest. -/
def frac64 : Nat → Int → Nat → Str → Nat × Int × Nat × Str
  | i, e, g, [] => (i, e, g, [])
  | i, e, g, c :: s =>
    if isDigit c then
      if i > 0x1FFFFFFFFFFFFF then (i, e, g, c :: s)
      else
        let i := i * 10 + (c.toNat - 48)
        frac64 i (e - 1) (if i ≠ 0 then g + 1 else g) s
    else (i, e, g, c :: s)

/-- `d > 0.0`. -/
def F.pos : F → Bool
  | .inf => true
  | .fin q => decide (0 < q)

/-- The rest of the fraction (`reader.h:1617-1626`). -/
def fracD (rnd : ℚ → ℚ) : F → Int → Nat → Str → F × Int × Str
  | d, e, _, [] => (d, e, [])
  | d, e, g, c :: s =>
    if isDigit c then
      if g < 17 then
        let d := madd rnd d (c.toNat - 48)
        fracD rnd d (e - 1) (if d.pos then g + 1 else g) s
      else fracD rnd d e g s
    else (d, e, c :: s)

/-- The digits of a positive exponent after the first (`reader.h:1663-1670`). `none`: `kParseErrorNumberTooBig`. -/
def expPos (maxExp : Int) : Int → Str → Option (Int × Str)
  | x, [] => some (x, [])
  | x, c :: s =>
    if isDigit c then
      let x := x * 10 + ((c.toNat : Int) - 48)
      if x > maxExp then none else expPos maxExp x s
    else some (x, c :: s)

/-- The digits of a negative exponent after the first (`reader.h:1655-1661`). -/
def expNeg (maxExp : Int) : Int → Str → Int × Str
  | x, [] => (x, [])
  | x, c :: s =>
    if isDigit c then
      let x := x * 10 + ((c.toNat : Int) - 48)
      if x > maxExp then (x, skipDigits s) else expNeg maxExp x s
    else (x, c :: s)

/-- The outcome of `ParseNumber`. `assertion`: `RAPIDJSON_ASSERT` in `Pow10` fails. -/
inductive Res where
  | bad
  | tooBig
  | assertion
  | int (minus : Bool) (n : Nat) (rest : Str)
  | dbl (minus : Bool) (q : ℚ) (rest : Str)

/-- The exponent (`reader.h:1630-1678`), at its sign: the error, or the exponent and the rest. -/
def expPart (expFrac : Int) : Str → Except Res (Int × Str)
  | '-' :: c :: s =>
    if isDigit c then
      let (x, r) := expNeg ((expFrac + 2147483639) / 10) ((c.toNat : Int) - 48) s
      .ok (-x, r)
    else .error .bad
  | '+' :: c :: s => pos c s
  | c :: s => pos c s
  | [] => .error .bad
where
  pos (c : Char) (s : Str) : Except Res (Int × Str) :=
    if isDigit c then
      match expPos (308 - expFrac) ((c.toNat : Int) - 48) s with
      | some (x, r) => .ok (x, r)
      | none => .error .tooBig
    else .error .bad

/-- The end of `ParseNumber` (`reader.h:1709-1722`). -/
def finish (rnd : ℚ → ℚ) (minus : Bool) (d : F) (p : Int) (rest : Str) : Res :=
  match strtodNormal rnd d p with
  | none => .assertion
  | some .inf => .tooBig
  | some (.fin q) => .dbl minus q rest

/-- From the exponent on (`reader.h:1630-1742`). `d` is `none` unless `useDouble`. -/
def afterFrac (rnd : ℚ → ℚ) (minus : Bool) (i : Nat) (d : Option F) (expFrac : Int) (s : Str) : Res :=
  match s with
  | c :: t =>
    if c = 'e' ∨ c = 'E' then
      match expPart expFrac t with
      | .error r => r
      | .ok (x, r) => finish rnd minus (d.getD (fl rnd i)) (x + expFrac) r
    else match d with
      | some d => finish rnd minus d expFrac s
      | none => .int minus i s
  | [] => match d with
    | some d => finish rnd minus d expFrac s
    | none => .int minus i s

/-- `ParseNumber` (`reader.h:1467-1746`). -/
def parse (rnd : ℚ → ℚ) (s : Str) : Res :=
  let minus := (takeMinus s).1
  match intDigits minus (takeMinus s).2 with
  | none => .bad
  | some (i, over, sig, s) =>
    let (d, s) : Option F × Str := if over then let (d, r) := doubleDigits rnd (fl rnd i) s; (some d, r) else (none, s)
    match s with
    | '.' :: c :: t =>
      if isDigit c then
        let (d, e, g, r) : F × Int × Nat × Str := match d with
          | some d => (d, 0, sig, c :: t)
          | none => let (i, e, g, r) := frac64 i 0 sig (c :: t); (fl rnd i, e, g, r)
        let (d, e, r) := fracD rnd d e g r
        afterFrac rnd minus i (some d) e r
      else .bad
    | '.' :: [] => .bad
    | s => afterFrac rnd minus i d 0 s

end Current.Json.Strtod
