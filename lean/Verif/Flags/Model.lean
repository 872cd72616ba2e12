import Verif.Strings.Convert
/-!
Command line flags (`bricks/dflags/dflags.h`).

The arguments are C strings. `std::exit` ends the program: `Res.exit`. Flags of floating point types are left out.
-/
namespace Current.Flags
open Current.Persist (Str isSpace)
open Current.Strings (IntTy extract)

/-! ### Model -/

/-- The type of a flag (`dflags.h:293-305`). `byte`: `int8_t` and `uint8_t`, which are characters to a stream. -/
inductive FlagTy where
  | string
  | bool
  | int (t : IntTy)
  | byte (t : IntTy)
deriving DecidableEq, Repr

inductive Val where
  | str (s : Str)
  | bool (b : Bool)
  | int (x : Int)
deriving DecidableEq, Repr

/-- `FromStringSupportingStringAndBool` for `bool` (`dflags.h:130-141`). -/
def readBool (s : Str) : Option Bool :=
  if s = ['0'] ∨ s = ['f', 'a', 'l', 's', 'e'] ∨ s = ['F', 'a', 'l', 's', 'e'] ∨ s = ['n', 'o'] ∨ s = ['N', 'o'] then some false
  else if s = ['1'] ∨ s = ['t', 'r', 'u', 'e'] ∨ s = ['T', 'r', 'u', 'e'] ∨ s = ['y', 'e', 's'] ∨ s = ['Y', 'e', 's'] then some true
  else none

/-- `FromStringSupportingStringAndBool` (`dflags.h:117-141`), as called by `ParseValue` (`dflags.h:269-273`); `none`: the program exits. -/
def readValue : FlagTy → Str → Option Val
  | .string, s => some (.str s)
  | .bool, s => (readBool s).map .bool
  | .int t, s =>
    match extract t s with
    | .ok x => some (.int x)
    | _ => none
  | .byte t, s =>
    match s.dropWhile isSpace with
    | [] => none
    | c :: _ => some (.int (t.wrap c.toNat))

/-- `while (*flag == '-')` (`dflags.h:173-182`): what follows the dashes, `none` if there are more than two. -/
def dashes : Nat → Str → Option Str
  | n, '-' :: s => if n + 1 > 2 then none else dashes (n + 1) s
  | _, s => some s

/-- `strstr(flag, "=")` (`dflags.h:184-185`): the name, and the value if there is an equals sign. -/
def splitEq : Str → Str × Option Str
  | [] => ([], none)
  | '=' :: s => ([], some s)
  | c :: s => (c :: (splitEq s).1, (splitEq s).2)

/-- The variables `FLAGS_…`, and `argv_` without the name of the program. -/
structure St where
  vals : Str → Val
  pos : List Str

inductive Res where
  | ok (st : St)
  | help
  | exit

def help : Str := ['h', 'e', 'l', 'p']

/-- `flags_`: a map, so that of two flags of one name the one registered last is found. -/
abbrev Registry := Str → Option FlagTy

def put (vals : Str → Val) (name : Str) (v : Val) : Str → Val := fun n => if n = name then v else vals n

/-- The loop of `ParseFlags` (`dflags.h:169-214`). -/
def parse (reg : Registry) : List Str → St → Res
  | [], st => .ok st
  | a :: rest, st =>
    match a with
    | '-' :: _ =>
      match dashes 0 a with
      | none => .exit
      | some flag =>
        if (splitEq flag).1 = help then .help
        else
          match reg (splitEq flag).1 with
          | none => .exit
          | some ty =>
            match (splitEq flag).2 with
            | some v =>
              match readValue ty v with
              | none => .exit
              | some x => parse reg rest { st with vals := put st.vals (splitEq flag).1 x }
            | none =>
              if ty = .bool ∧ (rest.head?.bind readBool) = none then
                match readValue ty ['1'] with
                | none => .exit
                | some x => parse reg rest { st with vals := put st.vals (splitEq flag).1 x }
              else
                match rest with
                | [] => .exit
                | v :: rest' =>
                  match readValue ty v with
                  | none => .exit
                  | some x => parse reg rest' { st with vals := put st.vals (splitEq flag).1 x }
    | _ => parse reg rest { st with pos := st.pos ++ [a] }
termination_by args => args.length

/-! ### Specification -/

/-- What a user writes. `two`: two dashes rather than one. -/
inductive Item where
  /-- an argument which is not a flag -/
  | pos (s : Str)
  /-- `--name=value` -/
  | eq (two : Bool) (name value : Str)
  /-- `--name value` -/
  | sep (two : Bool) (name value : Str)
  /-- `--name` -/
  | on (two : Bool) (name : Str)
deriving DecidableEq, Repr

def written (two : Bool) (s : Str) : Str := if two then '-' :: '-' :: s else '-' :: s

/-- The arguments an item stands for. -/
def Item.args : Item → List Str
  | .pos s => [s]
  | .eq two n v => [written two (n ++ '=' :: v)]
  | .sep two n v => [written two n, v]
  | .on two n => [written two n]

def commandLine (l : List Item) : List Str := l.flatMap Item.args

/-- The words for `false` and `true`. -/
def noWords : List Str := [['0'], ['f', 'a', 'l', 's', 'e'], ['F', 'a', 'l', 's', 'e'], ['n', 'o'], ['N', 'o']]
def yesWords : List Str := [['1'], ['t', 'r', 'u', 'e'], ['T', 'r', 'u', 'e'], ['y', 'e', 's'], ['Y', 'e', 's']]

/-- What a text means as a value of a type. -/
def Means : FlagTy → Str → Val → Prop
  | .string, s, v => v = .str s
  | .bool, s, v => (s ∈ noWords ∧ v = .bool false) ∨ (s ∈ yesWords ∧ v = .bool true)
  | .int t, s, v => ∃ x, extract t s = .ok x ∧ v = .int x
  | .byte t, s, v => ∃ w c r, s = w ++ c :: r ∧ (∀ d ∈ w, isSpace d = true) ∧ isSpace c = false ∧ v = .int (t.wrap c.toNat)

/-- The items can be read: flags exist, their values make sense, a word after a boolean flag is its value if it can be, and
arguments which are not flags do not begin with a dash. -/
def Ok (reg : Registry) : List Item → Prop
  | [] => True
  | .pos s :: l => s.head? ≠ some '-' ∧ Ok reg l
  | .eq _ n v :: l => n ≠ help ∧ (∃ ty x, reg n = some ty ∧ Means ty v x) ∧ Ok reg l
  | .sep _ n v :: l => n ≠ help ∧ (∃ ty x, reg n = some ty ∧ Means ty v x) ∧ Ok reg l
  | .on _ n :: l =>
    n ≠ help ∧ reg n = some .bool ∧ (∀ w, (commandLine l).head? = some w → w ∉ noWords ∧ w ∉ yesWords) ∧ Ok reg l

/-- The arguments which are not flags, in order. -/
def positional (l : List Item) : List Str := l.filterMap fun
  | .pos s => some s
  | _ => none

/-- The name and the text of the value an item sets. -/
def Item.sets : Item → Option (Str × Str)
  | .pos _ => none
  | .eq _ n v => some (n, v)
  | .sep _ n v => some (n, v)
  | .on _ n => some (n, ['t', 'r', 'u', 'e'])

/-- The text last given for a flag. -/
def lastText (name : Str) (l : List Item) : Option Str :=
  ((l.filterMap Item.sets).reverse.find? fun nv => decide (nv.1 = name)).map (·.2)

/-- Names of flags are C++ identifiers; all that matters is this. -/
def Names (reg : Registry) : Prop := ∀ n, reg n ≠ none → '=' ∉ n ∧ n.head? ≠ some '-'

end Current.Flags
