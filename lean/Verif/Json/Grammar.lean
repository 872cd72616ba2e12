import Verif.Json.Text
/-!
The grammar of JSON texts (RFC 8259), as a specification: which texts are JSON, and which document each one is. It uses nothing
of the model of RapidJSON but the type of documents and, for numbers that are not integers of at most 64 bits, `Fp.strtod`.
-/
namespace Current.Json
open Current.Persist (Str)

/-- `ws`. -/
def Ws (s : Str) : Prop := ∀ c ∈ s, c = ' ' ∨ c = '\t' ∨ c = '\n' ∨ c = '\r'

def Digits (s : Str) : Prop := ∀ c ∈ s, c.isDigit = true

/-- `int = zero / ( digit1-9 *DIGIT )` -/
def IntText (s : Str) : Prop := Digits s ∧ s ≠ [] ∧ (s.head? = some '0' → s = ['0'])

/-- `[ frac ]`, `frac = decimal-point 1*DIGIT` -/
def FracText (s : Str) : Prop := s = [] ∨ ∃ ds, s = '.' :: ds ∧ ds ≠ [] ∧ Digits ds

/-- `[ exp ]`, `exp = e [ minus / plus ] 1*DIGIT` -/
def ExpText (s : Str) : Prop :=
  s = [] ∨ ∃ x sg ds, s = x :: (sg ++ ds) ∧ (x = 'e' ∨ x = 'E') ∧ (sg = [] ∨ sg = ['+'] ∨ sg = ['-']) ∧ ds ≠ [] ∧ Digits ds

/-- `[ minus ]` -/
def minusText (neg : Bool) : Str := if neg then ['-'] else []

/-- The number that a sequence of digits is, with a sign. -/
def intValue (neg : Bool) (ds : Str) : Int := if neg then -(Nat.ofDigitChars 10 ds 0 : Int) else (Nat.ofDigitChars 10 ds 0 : Int)

/-- The integers RapidJSON keeps as integers. -/
def InRange (i : Int) : Prop := -2 ^ 63 ≤ i ∧ i < 2 ^ 64

/-- `number = [ minus ] int [ frac ] [ exp ]`: an integer when there is neither fraction nor exponent and it fits 64 bits,
a double otherwise, unless that is too big. -/
inductive IsNumber (fp : Fp) : Str → J → Prop
  | int (neg : Bool) (ds : Str) : IntText ds → InRange (intValue neg ds) →
      IsNumber fp (minusText neg ++ ds) (.int (intValue neg ds))
  | real (neg : Bool) (ds fr ex : Str) (d : Dbl) : IntText ds → FracText fr → ExpText ex →
      (fr = [] → ex = [] → ¬ InRange (intValue neg ds)) → fp.strtod (minusText neg ++ ds ++ fr ++ ex) = some d →
      IsNumber fp (minusText neg ++ ds ++ fr ++ ex) (.dbl d)

/-- A hexadecimal digit and its value. -/
def IsHex (c : Char) (v : Nat) : Prop := v < 16 ∧ (c = Nat.digitChar v ∨ c = (Nat.digitChar v).toUpper)

/-- Four hexadecimal digits and their value. -/
def IsHex4 (s : Str) (n : Nat) : Prop :=
  ∃ a b c d x y z w, s = [a, b, c, d] ∧ IsHex a x ∧ IsHex b y ∧ IsHex c z ∧ IsHex d w ∧ n = x * 4096 + y * 256 + z * 16 + w

/-- The bytes of a Unicode character in UTF-8. -/
def utf8 (c : Char) : Str := (String.utf8EncodeChar c).map fun b => Char.ofNat b.toNat

/-- The escapes of two characters. -/
def shortEscapes : List (Char × Char) :=
  [('"', '"'), ('\\', '\\'), ('/', '/'), ('b', '\x08'), ('f', '\x0c'), ('n', '\n'), ('r', '\r'), ('t', '\t')]

/-- `*char` between quotation marks, and the string it stands for. The bytes of characters outside of ASCII stand for
themselves. (The RFC's grammar also has `\u` with a surrogate on its own, and leaves its meaning open; here, as in the code, surrogates
come in pairs.) -/
inductive IsChars : Str → Str → Prop
  | nil : IsChars [] []
  | plain (c : Char) (s v : Str) : 0x20 ≤ c.toNat → c ≠ '"' → c ≠ '\\' → IsChars s v → IsChars (c :: s) (c :: v)
  | short (x y : Char) (s v : Str) : (x, y) ∈ shortEscapes → IsChars s v → IsChars ('\\' :: x :: s) (y :: v)
  | unicode (h : Str) (c : Char) (s v : Str) : IsHex4 h c.toNat → IsChars s v → IsChars ('\\' :: 'u' :: (h ++ s)) (utf8 c ++ v)
  | surrogates (h l : Str) (x y : Nat) (c : Char) (s v : Str) : x < 0x400 → y < 0x400 → IsHex4 h (0xD800 + x) →
      IsHex4 l (0xDC00 + y) → c.toNat = 0x10000 + x * 0x400 + y → IsChars s v →
      IsChars ('\\' :: 'u' :: (h ++ '\\' :: 'u' :: (l ++ s))) (utf8 c ++ v)

/-- `string`. -/
inductive IsString : Str → Str → Prop
  | mk (s v : Str) : IsChars s v → IsString ('"' :: (s ++ ['"'])) v

mutual
/-- `value`, without white space around it. -/
inductive IsValue (fp : Fp) : Str → J → Prop
  | null : IsValue fp ['n', 'u', 'l', 'l'] .null
  | true : IsValue fp ['t', 'r', 'u', 'e'] (.bool true)
  | false : IsValue fp ['f', 'a', 'l', 's', 'e'] (.bool false)
  | number (s : Str) (j : J) : IsNumber fp s j → IsValue fp s j
  | string (s v : Str) : IsString s v → IsValue fp s (.str v)
  | emptyArray (w : Str) : Ws w → IsValue fp ('[' :: (w ++ [']'])) (.arr [])
  | array (s : Str) (l : List J) : IsElements fp s l → IsValue fp ('[' :: (s ++ [']'])) (.arr l)
  | emptyObject (w : Str) : Ws w → IsValue fp ('{' :: (w ++ ['}'])) (.obj [])
  | object (s : Str) (m : List (Str × J)) : IsMembers fp s m → IsValue fp ('{' :: (s ++ ['}'])) (.obj m)
/-- `value *( value-separator value )`, with white space around each value. -/
inductive IsElements (fp : Fp) : Str → List J → Prop
  | last (w v w' : Str) (j : J) : Ws w → IsValue fp v j → Ws w' → IsElements fp (w ++ (v ++ w')) [j]
  | more (w v w' s : Str) (j : J) (l : List J) : Ws w → IsValue fp v j → Ws w' → IsElements fp s l →
      IsElements fp (w ++ (v ++ (w' ++ ',' :: s))) (j :: l)
/-- `member *( value-separator member )`, `member = string name-separator value`, with white space around each part. -/
inductive IsMembers (fp : Fp) : Str → List (Str × J) → Prop
  | last (w k w1 w2 v w' name : Str) (j : J) : Ws w → IsString k name → Ws w1 → Ws w2 → IsValue fp v j → Ws w' →
      IsMembers fp (w ++ (k ++ (w1 ++ ':' :: (w2 ++ (v ++ w'))))) [(name, j)]
  | more (w k w1 w2 v w' s name : Str) (j : J) (m : List (Str × J)) : Ws w → IsString k name → Ws w1 → Ws w2 → IsValue fp v j →
      Ws w' → IsMembers fp s m →
      IsMembers fp (w ++ (k ++ (w1 ++ ':' :: (w2 ++ (v ++ (w' ++ ',' :: s)))))) ((name, j) :: m)
end

/-- `JSON-text = ws value ws`: the text `s` is JSON, and stands for `j`. -/
def IsText (fp : Fp) (s : Str) (j : J) : Prop :=
  ∃ w v w', s = w ++ (v ++ w') ∧ Ws w ∧ Ws w' ∧ IsValue fp v j

end Current.Json
