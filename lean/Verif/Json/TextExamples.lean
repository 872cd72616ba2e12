import Verif.Json.NaN
import Verif.Json.RealCodec
/-!
The hypotheses of the theorems on JSON texts are met, on examples.
-/
namespace Current.Json
open Current.Persist (Str dec decInt IdxTs)

/-- 1.5, -1.5e30 (rounded: any bits would do here) and a NaN. -/
def oneAndHalf : Dbl := ⟨0x3FF8000000000000⟩
def negBig : Dbl := ⟨0xC632EFEE69A3EB58⟩
def aNan : Dbl := ⟨0x7FF8000000000000⟩

def demoFp : Fp where
  grisu d := if d = oneAndHalf then (['1', '5'], -1) else (['1', '5'], 29)
  strtod s := if s = ['1', '.', '5'] then some oneAndHalf else if s = ['-', '1', '.', '5', 'e', '3', '0'] then some negBig else none

theorem demo_grisu1 : GrisuOk ['1', '5'] (-1) :=
  ⟨by intro c hc; revert c; decide, by intro c t h; cases h; decide, by simp, by decide, by decide, by decide⟩
theorem demo_grisu2 : GrisuOk ['1', '5'] 29 :=
  ⟨by intro c hc; revert c; decide, by intro c t h; cases h; decide, by simp, by decide, by decide, by decide⟩

theorem demo_dbl1 : DblOk demoFp oneAndHalf :=
  ⟨by decide, fun _ => demo_grisu1, by decide⟩
theorem demo_dbl2 : DblOk demoFp negBig :=
  ⟨by decide, fun _ => demo_grisu2, by decide⟩

/-- `{"a":[1.5,-1.5e30,-7],"q\n":"x\u0001\"/"}` -/
def demoDoc : J :=
  .obj [(['a'], .arr [.dbl oneAndHalf, .dbl negBig, .int (-7)]), (['q', '\n'], .str ['x', '\x01', '"', '/'])]

theorem demoDoc_ok : JOk demoFp demoDoc := by
  simp only [demoDoc, JOk, JOkMembers, JOkAll, and_true]
  exact ⟨demo_dbl1, demo_dbl2, by unfold InRange; decide⟩

example : resultingJSON demoFp demoDoc =
    ['{', '"', 'a', '"', ':', '[', '1', '.', '5', ',', '-', '1', '.', '5', 'e', '3', '0', ',', '-', '7', ']', ',', '"', 'q', '\\', 'n', '"', ':',
     '"', 'x', '\\', 'u', '0', '0', '0', '1', '\\', '"', '/', '"', '}'] := by decide +kernel

example : parseText demoFp (resultingJSON demoFp demoDoc) = some demoDoc := parseText_resultingJSON demoFp demoDoc demoDoc_ok

/-- ` [ 1 , "é\ud83d\ude00\u00e9\/" , -0 ] ` -/
example : parseText demoFp [' ', '[', ' ', '1', '\n', ',', '"', '\\', 'u', 'd', '8', '3', 'd', '\\', 'u', 'D', 'E', '0', '0', '\\', '/', '"', ' ', ',', '-', '0', ']', ' '] =
    some (.arr [.int 1, .str [Char.ofNat 0xF0, Char.ofNat 0x9F, Char.ofNat 0x98, Char.ofNat 0x80, '/'], .int 0]) := by rfl

/-- A surrogate on its own is refused, as are a trailing comma, a leading zero, text after the value, a raw line break in a string,
a number too large for a `double`, and the empty text. -/
example : parseText demoFp ['"', '\\', 'u', 'd', '8', '3', 'd', '"'] = none := by rfl
example : parseText demoFp ['[', '1', ',', ']'] = none := by rfl
example : parseText demoFp ['0', '1'] = none := by rfl
example : parseText demoFp ['1', ' ', '2'] = none := by rfl
example : parseText demoFp ['"', '\n', '"'] = none := by rfl
example : parseText demoFp ['1', 'e', '9', '9', '9'] = none := by rfl
example : parseText demoFp [] = none := by rfl

/-- What comes after a zero is not looked at. -/
example : parseText demoFp ['1', '\x00', 'x'] = some (.int 1) := by rfl

/-- A NaN: `{"x":[1,` and that is all. -/
def nanDoc : J := .obj [(['x'], .arr [.int 1, .dbl aNan, .int 2]), (['y'], .null)]
theorem nanDoc_ok : OthersOk demoFp nanDoc := by
  simp only [nanDoc, OthersOk, OthersOkMembers, OthersOkAll, and_true]
  exact ⟨by unfold InRange; decide, fun h => absurd h (by decide), by unfold InRange; decide⟩
example : resultingJSON demoFp nanDoc = ['{', '"', 'x', '"', ':', '[', '1', ','] := by decide +kernel
example : parseText demoFp (resultingJSON demoFp nanDoc) = none := (nan_unreadable demoFp nanDoc nanDoc_ok (by decide)).2

/-- The struct of `demoTy` as a string, and back. -/
example : toJSON demoFp demoEnv .minimalistic demoTy demoVal =
    ['{', '"', 'n', '"', ':', '2', '0', '0', ',', '"', 'v', '"', ':', '[', '"', 'h', 'i', '"', ',', 'n', 'u', 'l', 'l', ']', ',', '"', 'm', '"', ':',
     '{', '"', 'a', '"', ':', '-', '5', ',', '"', 'b', '"', ':', '6', '}', ',', '"', 'w', '"', ':', '{', '"', 'A', '"', ':', '{', '"', 'x', '"', ':',
     't', 'r', 'u', 'e', '}', '}', ',', '"', 's', '"', ':', '[', '3', ',', '7', '0', '0', ']', '}'] := by decide +kernel

theorem demo_floats : FloatsOk demoEnv demoFp demoTy demoVal := by
  refine ⟨⟨trivial, trivial⟩, ?_, ?_, ?_, ?_, trivial⟩
  · intro x hx y hy; trivial
  · intro x _; trivial
  · intro y hy
    have : y = .inl ((), (true, ())) := (Option.some.inj hy).symm
    subst this
    exact ⟨trivial, trivial, trivial⟩
  · intro x _; trivial

example (d : demoTy.den) : parseJSON demoFp demoEnv .current demoTy (toJSON demoFp demoEnv .current demoTy demoVal) d = .ok demoVal :=
  parse_of_json_string demoEnv demoFp demoEnv_float (.inl rfl) demoTy (demo_ok _ _) demoVal demo_good demo_floats d

/-- A log of `demoTy` entries, in a file of the real format. -/
example : (realWire demoFp demoEnv demoTy).Lawful := realWire_lawful demoFp demoEnv demoEnv_float demoTy (demo_ok _ _)
noncomputable example : Entry demoEnv demoFp demoTy := ⟨demoVal, demo_good, demo_floats⟩

end Current.Json
