import Verif.Persist.Codec
import Verif.Strings.Split
/-!
`blocks/url/url.h` (C40, C41, C42).

A C++ `char` is a `Char` with a code below 256; `char` is signed (x86), so that codes from 128 on are negative numbers.
`std::string::find` returns an `Option`: `none` is `npos`, which is larger than every position.
-/
namespace Current.Url
open Current.Persist

/-! ### Percent encoding -/

/-- `IsHexDigit`, `url.h:230`. -/
def isHexDigit (c : Char) : Bool := ('0' ≤ c && c ≤ '9') || ('a' ≤ c && c ≤ 'f') || ('A' ≤ c && c ≤ 'F')

/-- `IsURIComponentSpecialCharacter`, `url.h:232-237`. -/
def isUnreserved (c : Char) : Bool :=
  ('a' ≤ c && c ≤ 'z') || ('A' ≤ c && c ≤ 'Z') || ('0' ≤ c && c ≤ '9') || c = '-' || c = '_' ||
  c = '.' || c = '~' || c = '!' || c = '\'' || c = '(' || c = ')'

/-- The value of a hexadecimal digit, as `std::stoi(…, nullptr, 16)` reads it. -/
def hexVal (c : Char) : Nat :=
  if '0' ≤ c ∧ c ≤ '9' then c.toNat - 48 else if 'a' ≤ c ∧ c ≤ 'f' then c.toNat - 87 else c.toNat - 55

/-- `DecodeURIComponent`, `url.h:239-253`. -/
def decodeURI : Str → Str
  | [] => []
  | '+' :: rest => ' ' :: decodeURI rest
  | '%' :: a :: b :: rest =>
    if isHexDigit a && isHexDigit b then Char.ofNat (hexVal a * 16 + hexVal b) :: decodeURI rest
    else '%' :: decodeURI (a :: b :: rest)
  | c :: rest => c :: decodeURI rest
termination_by s => s.length

/-- The upper case hexadecimal digit. -/
def hexDigit (n : Nat) : Char := if n < 10 then Char.ofNat (48 + n) else Char.ofNat (55 + n)

/-- `%02X` of a number below 2^32: at least two digits. -/
def printHex (n : Nat) : Str :=
  if n < 256 then [hexDigit (n / 16), hexDigit (n % 16)] else printHex (n / 16) ++ [hexDigit (n % 16)]

/-- `static_cast<int>(c)`, printed by `%X`: taken as an `unsigned int`. -/
def asUnsigned (c : Char) : Nat := if c.toNat < 128 then c.toNat else 2 ^ 32 - 256 + c.toNat

/-- The loop body of `EncodeURIComponent`, `url.h:257-265`. -/
def encodeChar (c : Char) : Str :=
  if isUnreserved c then [c]
  else if c = ' ' then ['%', '2', '0']
  else '%' :: printHex (asUnsigned c)

/-- `EncodeURIComponent`, `url.h:255-267`. -/
def encodeURI (s : Str) : Str := s.flatMap encodeChar

/-! ### Strings -/

/-- `s.find(c, off)`. -/
def findFrom (s : Str) (c : Char) (off : Nat) : Option Nat := ((s.drop off).findIdx? (· = c)).map (· + off)

/-- `s.find("//")`. -/
def findSlashes : Str → Option Nat
  | '/' :: '/' :: _ => some 0
  | _ :: rest => (findSlashes rest).map (· + 1)
  | [] => none

/-- `a < b`, where `b` may be `npos`. -/
def before (a : Nat) (b : Option Nat) : Bool := match b with | none => true | some b => a < b

/-- `s.substr(a, b - a)`, where `b` may be `npos`. -/
def slice (s : Str) (a : Nat) (b : Option Nat) : Str :=
  match b with | none => s.drop a | some b => (s.drop a).take (b - a)

def isSpace (c : Char) : Bool := c = ' ' || c = '\t' || c = '\n' || c = '\x0b' || c = '\x0c' || c = '\r'

/-- The optional sign of a number: whether it is a minus, and the rest. -/
def sign : Str → Bool × Str
  | '-' :: u => (true, u)
  | '+' :: u => (false, u)
  | u => (false, u)

/-- `atoi`: spaces, an optional sign, digits. `none`: the number does not fit an `int`, which is undefined behaviour. -/
def atoi (s : Str) : Option Int :=
  let t := sign (s.dropWhile isSpace)
  let n : Int := Nat.ofDigitChars 10 (t.2.takeWhile Char.isDigit) 0
  let v := if t.1 then -n else n
  if -2147483648 ≤ v ∧ v ≤ 2147483647 then some v else none

/-! ### URLs -/

/-- How a call ends. -/
inductive Res (α : Type) where
  | ok (a : α)
  | throws     -- `EmptyURLException`
  | undefined  -- undefined behaviour
  deriving DecidableEq, Repr

/-- The fields of `URLWithoutParametersParser`, `url.h:78-83`. -/
structure Base where
  host : Str := []
  path : Str := ['/']
  scheme : Str := ['h', 't', 't', 'p']
  port : Nat := 0
  username : Str := []
  password : Str := []
  deriving DecidableEq, Repr

def http : Str := ['h', 't', 't', 'p']
def https : Str := ['h', 't', 't', 'p', 's']
def localhost : Str := ['l', 'o', 'c', 'a', 'l', 'h', 'o', 's', 't']

/-- The scheme and `parsed_offset`, `url.h:101-109`. -/
def parseScheme (url : Str) : Str × Nat :=
  match findSlashes url with
  | some k => if k = 0 then ([], 2) else if url.getD (k - 1) '\x00' = ':' then (url.take (k - 1), k + 2) else ([], 0)
  | none => ([], 0)

/-- The user, the password and the next `parsed_offset`, `url.h:113-124`. -/
def parseUser (url : Str) (off : Nat) (hostEnd : Option Nat) : Str × Str × Nat :=
  match findFrom url '@' off with
  | none => ([], [], off)
  | some at_ =>
    if before at_ hostEnd then
      match findFrom url ':' off with
      | some colon =>
        if colon < at_ then (slice url off (some colon), slice url (colon + 1) (some at_), at_ + 1)
        else (slice url off (some at_), [], at_ + 1)
      | none => (slice url off (some at_), [], at_ + 1)
    else ([], [], off)

/-- The host and the port, `url.h:126-133`. -/
def parseHost (url : Str) (off : Nat) (hostEnd : Option Nat) : Option (Str × Nat) :=
  match findFrom url ':' off with
  | some colon =>
    if before colon hostEnd then
      (atoi (url.drop (colon + 1))).map fun v => (slice url off (some colon), (v % 65536).toNat)
    else some (slice url off hostEnd, 0)
  | none => some (slice url off hostEnd, 0)

/-- The path, `url.h:135-143`. -/
def parsePath (url : Str) (hostEnd : Option Nat) : Str :=
  let path := match hostEnd with | some e => url.drop e | none => []
  if path = [] then ['/'] else path

/-- `ParseURLWithoutParameters`, `url.h:88-144`, on a new object. -/
def parseBase (url : Str) : Res Base :=
  if url = [] then .throws
  else
    let (scheme, off) := parseScheme url
    let hostEnd := findFrom url '/' off
    let (username, password, off) := parseUser url off hostEnd
    match parseHost url off hostEnd with
    | none => .undefined
    | some (host, port) => .ok ⟨host, parsePath url hostEnd, scheme, port, username, password⟩

/-- `DefaultPortForScheme`, `url.h:174-183`. -/
def defaultPort (scheme : Str) : Nat := if scheme = http then 80 else if scheme = https then 443 else 0

/-- `DefaultSchemeForPort`, `url.h:185-193`. -/
def defaultScheme (port : Nat) : Str := if port = 80 then http else if port = 443 then https else []

/-- `ComposeURL`, `url.h:146-171`. -/
def composeBase (u : Base) : Str :=
  if u.host ≠ [] then
    let scheme := if u.scheme ≠ [] then u.scheme else if 0 < u.port then defaultScheme u.port else http
    let port := if 0 < u.port ∧ u.port ≠ defaultPort scheme then u.port else 0
    (if scheme ≠ [] then scheme else http) ++ [':', '/', '/'] ++
    (if u.username ≠ [] then u.username ++ (if u.password ≠ [] then ':' :: u.password else []) ++ ['@'] else []) ++
    u.host ++ (if 0 < port then ':' :: dec port else []) ++ u.path
  else u.path

/-- A `std::map` of parameters. -/
abbrev Query := Str → Option Str

/-- `insert` of a `std::map`: keeps what is there. -/
def Query.insert (q : Query) (kv : Str × Str) : Query := fun x => if x = kv.1 then (match q x with | some v => some v | none => some kv.2) else q x

/-- `QueryParameters(parameters_vector)`, `url.h:284-285`. -/
def queryOf (l : List (Str × Str)) : Query := l.foldl Query.insert fun _ => none

/-- The fields of `URLParametersExtractor`, `url.h:395-397`, but for `query`, which is `queryOf params`. -/
structure Params where
  params : List (Str × Str) := []
  fragment : Str := []
  deriving DecidableEq, Repr

/-- The processor of the chunks, `url.h:213-220`. -/
def keyValue (chunk : Str) : Str × Str :=
  match findFrom chunk '=' 0 with
  | some i => (chunk.take i, chunk.drop (i + 1))
  | none => (chunk, [])

/-- `ExtractURLParametersFromURL`, `url.h:200-227`, on a new object: the parameters and `parameters_start_index`. -/
def extract (url : Str) : Params × Nat :=
  let pound := findFrom url '#' 0
  let (fragment, start) := match pound with | some p => (url.drop (p + 1), p) | none => ([], url.length)
  match findFrom url '?' 0 with
  | some q =>
    if before q pound then
      let chunks := (Strings.split (Strings.matchChar '&') false ((url.drop (q + 1)).take (start - (q + 1)))).1
      (⟨(chunks.map keyValue).map fun kv => (decodeURI kv.1, decodeURI kv.2), fragment⟩, q)
    else (⟨[], fragment⟩, start)
  | none => (⟨[], fragment⟩, start)

/-- The loop of `ComposeParameters`, `url.h:271-275`. -/
def composeLoop : Bool → List (Str × Str) → Str
  | _, [] => []
  | first, kv :: rest => (if first then '?' else '&') :: (encodeURI kv.1 ++ ['='] ++ encodeURI kv.2) ++ composeLoop false rest

/-- `ComposeParameters`, `url.h:269-280`. -/
def composeParams (p : Params) : Str :=
  composeLoop true p.params ++ (if p.fragment ≠ [] then '#' :: p.fragment else [])

/-- `URL`, `url.h:400`. -/
structure URL where
  base : Base
  par : Params
  deriving DecidableEq, Repr

/-- `QueryParameters::get`, `url.h:288-295`, of a parsed URL. -/
def URL.get (u : URL) (key dflt : Str) : Str := (queryOf u.par.params key).getD dflt

/-- `URL(const std::string&)`, `url.h:403-407`. -/
def parse (url : Str) : Res URL :=
  let (par, start) := extract url
  match parseBase (url.take start) with
  | .ok b => .ok ⟨b, par⟩
  | .throws => .throws
  | .undefined => .undefined

/-- `ComposeURL`, `url.h:411-413`. -/
def compose (u : URL) : Str := composeBase u.base ++ composeParams u.par

/-- `MakeURLWithDefaults`, `url.h:415-438`. -/
def withDefaults (b : Base) : Base :=
  let b := if b.scheme = [] then
      { b with scheme := if b.port = 0 then http else if defaultScheme b.port = [] then http else defaultScheme b.port }
    else b
  let b := if b.host = [] then { b with host := localhost } else b
  if b.port = 0 then { b with port := defaultPort b.scheme } else b

/-- `MakeRedirectedURL`, `url.h:440-464`. -/
def redirected (src dst : URL) : URL :=
  let b := src.base
  let b := if dst.base.scheme ≠ [] then { b with scheme := dst.base.scheme } else b
  let b := { b with username := dst.base.username, password := dst.base.password }
  let b := if dst.base.host ≠ [] then { b with host := dst.base.host, port := dst.base.port }
    else if 0 < dst.base.port then { b with port := dst.base.port } else b
  let b := { b with path := dst.base.path }
  ⟨withDefaults b, dst.par⟩

/-- `ParseQueryString`, `url.h:471-473`. -/
def parseQueryString (body : Str) : Res Query :=
  match parse (['/', '?'] ++ body) with
  | .ok u => .ok (queryOf u.par.params)
  | .throws => .throws
  | .undefined => .undefined

/-- `isalnum` in the "C" locale. -/
def isAlnum (c : Char) : Bool := ('a' ≤ c && c ≤ 'z') || ('A' ≤ c && c ≤ 'Z') || ('0' ≤ c && c ≤ '9')

/-- `IsPathValidToRegister`, `url.h:476-482`. -/
def isPathValid (path : Str) : Bool :=
  path.all fun c => isAlnum c ||
    ['/', '-', '.', '_', '~', '!', '$', '&', '\'', '(', ')', '*', '+', ',', ';', '=', ':', '@'].contains c

end Current.Url
