import Verif.Json.Model
/-!
The text layer of JSON: `rapidjson::Writer` (`3rdparty/rapidjson/writer.h`) and `rapidjson::Reader`
(`3rdparty/rapidjson/reader.h`), as `JSONStringifier::ResultingJSON` and `JSONParser` use them. A `char` is a `Char`; those of
a C++ program are below 256.

Not modelled: floating point arithmetic. `Grisu2` and the computation of a `double` from a number token are parameters
(`Fp`). `SizeType` (32 bits) is unbounded; so is the call stack.
-/
namespace Current.Json
open Current.Persist (Str dec decInt)

/-- What is not modelled of floating point input and output. -/
structure Fp where
  /-- `Grisu2(value, buffer, &length, &K)` (`internal/dtoa.h:112-124`): the decimal digits and the exponent of a positive number. -/
  grisu : Dbl → Str × Int
  /-- The `double` that `ParseNumber` computes for a number token with a fraction, an exponent, or too many digits; `none`:
  `kParseErrorNumberTooBig`. -/
  strtod : Str → Option Dbl

/-! ### `internal::Double` (`internal/ieee754.h`) -/

/-- `IsNanOrInf()`: the exponent bits are all ones. -/
def Dbl.isNanOrInf (d : Dbl) : Bool := d.bits &&& 0x7FF0000000000000 == 0x7FF0000000000000
/-- `IsZero()`. -/
def Dbl.isZero (d : Dbl) : Bool := d.bits &&& 0x7FFFFFFFFFFFFFFF == 0
/-- `Sign()`; for a number other than zero and NaN, `value < 0`. -/
def Dbl.sign (d : Dbl) : Bool := d.bits &&& 0x8000000000000000 != 0
/-- `-value` for a negative value: the sign bit cleared. -/
def Dbl.abs (d : Dbl) : Dbl := ⟨d.bits &&& 0x7FFFFFFFFFFFFFFF⟩

/-! ### Writing numbers -/

/-- One decimal digit. -/
def digit (n : Nat) : Char := Char.ofNat (48 + n)

/-- `WriteExponent` (`internal/dtoa.h:126-148`). `GetDigitsLut() + K * 2` are the two digits of `K`. -/
def writeExponent (K : Int) : Str :=
  let k := K.natAbs
  let sgn : Str := if K < 0 then ['-'] else []
  if k ≥ 100 then sgn ++ [digit (k / 100), digit (k % 100 / 10), digit (k % 100 % 10)]
  else if k ≥ 10 then sgn ++ [digit (k / 10), digit (k % 10)]
  else sgn ++ [digit k]

/-- `Prettify` (`internal/dtoa.h:150-214`), with `maxDecimalPlaces = 324`. Simplification: the two branches that cut off decimal
places (lines 165-172, 184-191) need more than 300 digits and are left out. -/
def prettify (ds : Str) (k : Int) : Str :=
  let kk : Int := ds.length + k
  if 0 ≤ k ∧ kk ≤ 21 then ds ++ List.replicate k.toNat '0' ++ ['.', '0']
  else if 0 < kk ∧ kk ≤ 21 then ds.take kk.toNat ++ '.' :: ds.drop kk.toNat
  else if -6 < kk ∧ kk ≤ 0 then '0' :: '.' :: (List.replicate (-kk).toNat '0' ++ ds)
  else if kk < -324 then ['0', '.', '0']
  else
    match ds with
    | [c] => c :: 'e' :: writeExponent (kk - 1)
    | c :: cs => c :: '.' :: (cs ++ 'e' :: writeExponent (kk - 1))
    | [] => []

/-- `dtoa` (`internal/dtoa.h:216-236`). -/
def dtoa (fp : Fp) (d : Dbl) : Str :=
  if d.isZero then (if d.sign then ['-'] else []) ++ ['0', '.', '0']
  else if d.sign then '-' :: prettify (fp.grisu d.abs).1 (fp.grisu d.abs).2
  else prettify (fp.grisu d).1 (fp.grisu d).2

/-! ### Writing strings -/

/-- The table `escape` of `WriteString` (`writer.h:379-389`). -/
def escapeOf (c : Char) : Option Char :=
  if c = '\x08' then some 'b'
  else if c = '\t' then some 't'
  else if c = '\n' then some 'n'
  else if c = '\x0c' then some 'f'
  else if c = '\r' then some 'r'
  else if c = '"' then some '"'
  else if c = '\\' then some '\\'
  else if c.toNat < 0x20 then some 'u'
  else none

/-- `hexDigits` (`writer.h:378`). -/
def hexDigit (n : Nat) : Char := if n < 10 then Char.ofNat (48 + n) else Char.ofNat (55 + n)

/-- The loop of `WriteString` (`writer.h:397-446`); UTF-8 to UTF-8, so bytes that need no escape are copied. -/
def escaped : Str → Str
  | [] => []
  | c :: s =>
    match escapeOf c with
    | some 'u' => '\\' :: 'u' :: '0' :: '0' :: hexDigit (c.toNat / 16) :: hexDigit (c.toNat % 16) :: escaped s
    | some x => '\\' :: x :: escaped s
    | none => c :: escaped s

/-- `WriteString` (`writer.h:377-449`). -/
def writeString (s : Str) : Str := '"' :: (escaped s ++ ['"'])

/-! ### The Writer: `Prefix` and the stack of levels -/

/-- `Writer::Level` (`writer.h:290-294`). -/
structure Level where
  valueCount : Nat
  inArray : Bool
deriving DecidableEq, Repr

/-- The state of a `Writer`: what it has put into the stream, and `level_stack_`, the top first. `hasRoot_` is used by
an assertion only: `Accept` is called once. -/
structure Writer where
  out : Str
  levels : List Level
deriving DecidableEq, Repr

def Writer.put (w : Writer) (s : Str) : Writer := { w with out := w.out ++ s }

/-- `Prefix` (`writer.h:473-491`). -/
def Writer.pre (w : Writer) : Writer :=
  match w.levels with
  | [] => w
  | l :: ls =>
    let w := if l.valueCount > 0 then
        (if l.inArray then w.put [','] else if l.valueCount % 2 = 0 then w.put [','] else w.put [':'])
      else w
    { w with levels := { l with valueCount := l.valueCount + 1 } :: ls }

def Writer.startObject (w : Writer) : Writer :=
  let w := w.pre
  { w with levels := ⟨0, false⟩ :: w.levels }.put ['{']
def Writer.endObject (w : Writer) : Writer := { w with levels := w.levels.tail }.put ['}']
def Writer.startArray (w : Writer) : Writer :=
  let w := w.pre
  { w with levels := ⟨0, true⟩ :: w.levels }.put ['[']
def Writer.endArray (w : Writer) : Writer := { w with levels := w.levels.tail }.put [']']

mutual
/-- `GenericValue::Accept(writer)` (`document.h:1947-1984`). The `Bool` is what `Accept` returns: false once a NaN or an infinity
is met (`WriteDouble`, `writer.h:545-550`), and then nothing more is written. -/
def accept (fp : Fp) : J → Writer → Bool × Writer
  | .null, w => (true, w.pre.put ['n', 'u', 'l', 'l'])
  | .bool b, w => (true, w.pre.put (if b then ['t', 'r', 'u', 'e'] else ['f', 'a', 'l', 's', 'e']))
  | .int i, w => (true, w.pre.put (decInt i))
  | .dbl d, w => if d.isNanOrInf then (false, w.pre) else (true, w.pre.put (dtoa fp d))
  | .str s, w => (true, w.pre.put (writeString s))
  | .arr l, w =>
    match acceptAll fp l w.startArray with
    | (true, w) => (true, w.endArray)
    | (false, w) => (false, w)
  | .obj m, w =>
    match acceptMembers fp m w.startObject with
    | (true, w) => (true, w.endObject)
    | (false, w) => (false, w)
def acceptAll (fp : Fp) : List J → Writer → Bool × Writer
  | [], w => (true, w)
  | j :: js, w =>
    match accept fp j w with
    | (true, w) => acceptAll fp js w
    | (false, w) => (false, w)
def acceptMembers (fp : Fp) : List (Str × J) → Writer → Bool × Writer
  | [], w => (true, w)
  | (k, j) :: m, w =>
    match accept fp j (w.pre.put (writeString k)) with
    | (true, w) => acceptMembers fp m w
    | (false, w) => (false, w)
end

/-- A `std::string` made of a C string: what comes before the first zero. -/
def cString (s : Str) : Str := s.takeWhile (· ≠ '\x00')

/-- `ResultingJSON` (`json.h:170-175`): what `Accept` returns is not looked at. -/
def resultingJSON (fp : Fp) (j : J) : Str := cString (accept fp j ⟨[], []⟩).2.out

/-- `JSON<J>(x)` (`json.h:332-337`). -/
def toJSON (fp : Fp) (e : Env) (f : Fmt) (t : Ty) (x : t.den) : Str := resultingJSON fp (toDoc e f t x)

/-! ### Reading -/

/-- `SkipWhitespace` (`reader.h:266-273`). -/
def skipWs : Str → Str
  | [] => []
  | c :: s => if c = ' ' ∨ c = '\n' ∨ c = '\r' ∨ c = '\t' then skipWs s else c :: s

def isDigit (c : Char) : Bool := '0' ≤ c ∧ c ≤ '9'

/-- One digit of `ParseHex4` (`reader.h:905-925`). -/
def hexVal (c : Char) : Option Nat :=
  if '0' ≤ c ∧ c ≤ '9' then some (c.toNat - 48)
  else if 'A' ≤ c ∧ c ≤ 'F' then some (c.toNat - 55)
  else if 'a' ≤ c ∧ c ≤ 'f' then some (c.toNat - 87)
  else none

/-- `ParseHex4` (`reader.h:904-925`). -/
def parseHex4 : Str → Option (Nat × Str)
  | a :: b :: c :: d :: s =>
    match hexVal a, hexVal b, hexVal c, hexVal d with
    | some a, some b, some c, some d => some (((a * 16 + b) * 16 + c) * 16 + d, s)
    | _, _, _, _ => none
  | _ => none

/-- `UTF8<>::Encode` (`encodings.h:101-123`). -/
def encodeUtf8 (cp : Nat) : Str :=
  if cp ≤ 0x7F then [Char.ofNat (cp &&& 0xFF)]
  else if cp ≤ 0x7FF then [Char.ofNat (0xC0 ||| ((cp >>> 6) &&& 0xFF)), Char.ofNat (0x80 ||| (cp &&& 0x3F))]
  else if cp ≤ 0xFFFF then
    [Char.ofNat (0xE0 ||| ((cp >>> 12) &&& 0xFF)), Char.ofNat (0x80 ||| ((cp >>> 6) &&& 0x3F)), Char.ofNat (0x80 ||| (cp &&& 0x3F))]
  else
    [Char.ofNat (0xF0 ||| ((cp >>> 18) &&& 0xFF)), Char.ofNat (0x80 ||| ((cp >>> 12) &&& 0x3F)),
      Char.ofNat (0x80 ||| ((cp >>> 6) &&& 0x3F)), Char.ofNat (0x80 ||| (cp &&& 0x3F))]

/-- The table `escape` of `ParseStringToStream` (`reader.h:993-1000`). -/
def unescape (c : Char) : Option Char :=
  if c = '"' then some '"'
  else if c = '/' then some '/'
  else if c = '\\' then some '\\'
  else if c = 'b' then some '\x08'
  else if c = 'f' then some '\x0c'
  else if c = 'n' then some '\n'
  else if c = 'r' then some '\r'
  else if c = 't' then some '\t'
  else none

/-- What follows `\u` (`reader.h:1022-1045`): the code point, and the rest. -/
def parseUnicode (s : Str) : Option (Nat × Str) :=
  match parseHex4 s with
  | none => none
  | some (cp, r) =>
    if 0xD800 ≤ cp ∧ cp ≤ 0xDFFF then
      if cp ≤ 0xDBFF then
        match r with
        | '\\' :: 'u' :: r =>
          match parseHex4 r with
          | none => none
          | some (cp2, r) =>
            if cp2 < 0xDC00 ∨ cp2 > 0xDFFF then none
            else some ((((cp - 0xD800) <<< 10) ||| (cp2 - 0xDC00)) + 0x10000, r)
        | _ => none
      else none
    else some (cp, r)

/-- `ParseStringToStream` (`reader.h:988-1068`), after the opening quote: the string and what follows the closing quote. `none`: a
parse error. The recursion is on fuel; `parseString` gives enough (see `stringLoop_fuel`). -/
def stringLoop : Nat → Str → Option (Str × Str)
  | 0, _ => none
  | _ + 1, [] => none
  | n + 1, c :: s =>
    if c = '\\' then
      match s with
      | [] => none
      | x :: r =>
        match unescape x with
        | some y => (stringLoop n r).map fun p => (y :: p.1, p.2)
        | none =>
          if x = 'u' then
            match parseUnicode r with
            | none => none
            | some (cp, r) => (stringLoop n r).map fun p => (encodeUtf8 cp ++ p.1, p.2)
          else none
    else if c = '"' then some ([], s)
    else if c.toNat < 0x20 then none
    else (stringLoop n s).map fun p => (c :: p.1, p.2)

/-- `ParseString` (`reader.h:957-986`), after the opening quote. -/
def parseString (s : Str) : Option (Str × Str) := stringLoop (s.length + 1) s

/-- The loops of `ParseNumber` that accumulate digits while the value fits (`reader.h:1496-1519`, `1551-1572`): `limit` and `last`
are the two constants in the test. The `Bool`: stopped because the value would not fit. -/
def accumulate (limit : Nat) (last : Char) : Nat → Str → Nat × Str × Bool
  | i, [] => (i, [], false)
  | i, c :: s =>
    if isDigit c then
      if i ≥ limit ∧ (i ≠ limit ∨ last < c) then (i, c :: s, true)
      else accumulate limit last (i * 10 + (c.toNat - 48)) s
    else (i, c :: s, false)

/-- Skips digits. -/
def skipDigits : Str → Str
  | [] => []
  | c :: s => if isDigit c then skipDigits s else c :: s

/-- The integral part of a number (`reader.h:1484-1580`): its value, unless it does not fit 64 bits (`none`: `useDouble`), and
what follows all of its digits. -/
def parseIntPart (minus : Bool) : Str → Option (Option Nat × Str)
  | [] => none
  | c :: s =>
    if c = '0' then some (some 0, s)
    else if '1' ≤ c ∧ c ≤ '9' then
      let (i, r, more) := accumulate (if minus then 214748364 else 429496729) (if minus then '8' else '5') (c.toNat - 48) s
      if more then
        let (i64, r, over) := accumulate (if minus then 0x0CCCCCCCCCCCCCCC else 0x1999999999999999) (if minus then '8' else '5') i r
        if over then some (none, skipDigits r) else some (some i64, r)
      else some (some i, r)
    else none

/-- The fraction (`reader.h:1582-1628`): whether there is one, and what follows it. -/
def parseFrac : Str → Option (Bool × Str)
  | '.' :: c :: s => if isDigit c then some (true, skipDigits s) else none
  | '.' :: [] => none
  | s => some (false, s)

/-- The digits of the exponent (`reader.h:1644-1674`). -/
def parseExpDigits : Str → Option (Bool × Str)
  | [] => none
  | c :: s => if isDigit c then some (true, skipDigits s) else none

/-- The exponent (`reader.h:1630-1678`). An exponent too large is a matter of `strtod`. -/
def parseExp : Str → Option (Bool × Str)
  | [] => some (false, [])
  | c :: s =>
    if c = 'e' ∨ c = 'E' then
      match s with
      | '+' :: s => parseExpDigits s
      | '-' :: s => parseExpDigits s
      | s => parseExpDigits s
    else some (false, c :: s)

/-- `bool minus = Consume(s, '-')` (`reader.h:1482`). -/
def takeMinus : Str → Bool × Str
  | '-' :: r => (true, r)
  | r => (false, r)

/-- `ParseNumber` (`reader.h:1467-1746`). -/
def parseNumber (fp : Fp) (s : Str) : Option (J × Str) :=
  match parseIntPart (takeMinus s).1 (takeMinus s).2 with
  | none => none
  | some (v, s2) =>
    match parseFrac s2 with
    | none => none
    | some (fr, s3) =>
      match parseExp s3 with
      | none => none
      | some (ex, s4) =>
        match v, fr, ex with
        | some n, false, false => some (.int (if (takeMinus s).1 then -(n : Int) else n), s4)
        | _, _, _ => (fp.strtod (s.take (s.length - s4.length))).map fun d => (.dbl d, s4)

/-- `Consume` of a sequence of characters. -/
def consume : Str → Str → Option Str
  | [], s => some s
  | _ :: _, [] => none
  | p :: ps, c :: s => if c = p then consume ps s else none

mutual
/-- `ParseValue` (`reader.h:1748-1763`) and the functions it calls: `ParseNull`, `ParseTrue`, `ParseFalse` (`reader.h:854-892`),
`ParseObject` (`reader.h:738-804`), `ParseArray` (`reader.h:806-853`). The recursion is on fuel, standing for an unbounded
call stack; `parseText` gives enough. -/
def parseValue (fp : Fp) : Nat → Str → Option (J × Str)
  | 0, _ => none
  | _ + 1, [] => none
  | n + 1, c :: s =>
    if c = 'n' then (consume ['u', 'l', 'l'] s).map fun r => (.null, r)
    else if c = 't' then (consume ['r', 'u', 'e'] s).map fun r => (.bool true, r)
    else if c = 'f' then (consume ['a', 'l', 's', 'e'] s).map fun r => (.bool false, r)
    else if c = '"' then (parseString s).map fun p => (.str p.1, p.2)
    else if c = '{' then
      match skipWs s with
      | '}' :: r => some (.obj [], r)
      | r => (parseMembers fp n r).map fun p => (.obj p.1, p.2)
    else if c = '[' then
      match skipWs s with
      | ']' :: r => some (.arr [], r)
      | r => (parseElements fp n r).map fun p => (.arr p.1, p.2)
    else parseNumber fp (c :: s)
/-- The loop of `ParseObject` (`reader.h:756-803`), at the name of a member. -/
def parseMembers (fp : Fp) : Nat → Str → Option (List (Str × J) × Str)
  | 0, _ => none
  | _ + 1, [] => none
  | n + 1, c :: s =>
    if c = '"' then
      match parseString s with
      | none => none
      | some (k, r) =>
        match skipWs r with
        | ':' :: r =>
          match parseValue fp n (skipWs r) with
          | none => none
          | some (j, r) =>
            match skipWs r with
            | ',' :: r => (parseMembers fp n (skipWs r)).map fun p => ((k, j) :: p.1, p.2)
            | '}' :: r => some ([(k, j)], r)
            | _ => none
        | _ => none
    else none
/-- The loop of `ParseArray` (`reader.h:824-852`), at a value. -/
def parseElements (fp : Fp) : Nat → Str → Option (List J × Str)
  | 0, _ => none
  | n + 1, s =>
    match parseValue fp n s with
    | none => none
    | some (j, r) =>
      match skipWs r with
      | ',' :: r => (parseElements fp n (skipWs r)).map fun p => (j :: p.1, p.2)
      | ']' :: r => some ([j], r)
      | _ => none
end

/-- `Document::Parse(const char*)` (`reader.h:558-590`): the text ends at the first zero; `none`: a parse error. -/
def parseText (fp : Fp) (s : Str) : Option J :=
  let s := cString s
  match skipWs s with
  | [] => none
  | t =>
    match parseValue fp (2 * t.length + 1) t with
    | none => none
    | some (j, r) =>
      match skipWs r with
      | [] => some j
      | _ :: _ => none

/-- What `ParseJSON` throws: `InvalidJSONException`, or while filling the object. -/
inductive ParseErr where
  | invalid
  | shape (e : Err)
deriving DecidableEq, Repr

/-- `ParseJSON<T, J>(const char*, T&)` (`json.h:344-352`, `JSONParser` `json.h:241-248`). -/
def parseJSON (fp : Fp) (e : Env) (f : Fmt) (t : Ty) (s : Str) (d : t.den) : Except ParseErr t.den :=
  match parseText fp s with
  | none => .error .invalid
  | some j =>
    match parseDoc e f t j d with
    | .error er => .error (.shape er)
    | .ok x => .ok x

/-- `PatchObjectWithJSON<T, J>` (`json.h:364-373`). -/
def patchJSON (fp : Fp) (e : Env) (f : Fmt) (t : Ty) (d : t.den) (s : Str) : Except ParseErr t.den :=
  match parseText fp s with
  | none => .error .invalid
  | some j =>
    match patchDoc e f t d j with
    | .error er => .error (.shape er)
    | .ok x => .ok x

end Current.Json
