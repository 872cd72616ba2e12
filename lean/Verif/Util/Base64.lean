import Verif.Persist.Model
/-!
`bricks/util/base64.h` (C39).

Bytes are `UInt8`. The text is a list of `Char` (a C++ `char`: the theorems that need it say that codes are below 256).
-/
namespace Current.Base64
open Current.Persist

/-! ### Model -/

/-- `EncodingType`, `base64.h:61`. -/
inductive Kind | canonical | url
  deriving DecidableEq, Repr

/-- What `encode_map` and `url_encode_map` start with, `base64.h:46-48`. -/
def common : List Char :=
  ['A','B','C','D','E','F','G','H','I','J','K','L','M','N','O','P','Q','R','S','T','U','V','W','X','Y','Z',
   'a','b','c','d','e','f','g','h','i','j','k','l','m','n','o','p','q','r','s','t','u','v','w','x','y','z',
   '0','1','2','3','4','5','6','7','8','9']

/-- `encode_map` or `url_encode_map`, `base64.h:46-48` and `67`. -/
def encodeMap : Kind → List Char
  | .canonical => common ++ ['+', '/']
  | .url => common ++ ['-', '_']

/-- `pad_char`, `base64.h:49`. -/
def padChar : Char := '='

/-- `decode_map`, `base64.h:51-60`. -/
def decodeMap : List Nat :=
  [255, 255, 255, 255, 255, 255, 255, 255, 255, 255, 255, 255, 255, 255, 255, 255,
   255, 255, 255, 255, 255, 255, 255, 255, 255, 255, 255, 255, 255, 255, 255, 255,
   255, 255, 255, 255, 255, 255, 255, 255, 255, 255, 255, 62,  255, 62,  255, 63,
   52,  53,  54,  55,  56,  57,  58,  59,  60,  61,  255, 255, 0,   255, 255, 255,
   255, 0,   1,   2,   3,   4,   5,   6,   7,   8,   9,   10,  11,  12,  13,  14,
   15,  16,  17,  18,  19,  20,  21,  22,  23,  24,  25,  255, 255, 255, 255, 63,
   255, 26,  27,  28,  29,  30,  31,  32,  33,  34,  35,  36,  37,  38,  39,  40,
   41,  42,  43,  44,  45,  46,  47,  48,  49,  50,  51,  255, 255, 255, 255, 255]

/-- How a call ends. `oob`: memory outside of an array is read or written. -/
inductive Outcome (α : Type) where
  | ok (a : α)
  | throws        -- `Base64DecodeException`
  | asserts       -- `CURRENT_ASSERT` fails
  | oob
  deriving DecidableEq, Repr

/-- A buffer being written at `p`: `output` and the index of the next write. -/
structure Out (α : Type) where
  cells : List α
  p : Nat

/-- `*p++ = c`. Nothing but the size of the string stops it; a write past the end is `none`. -/
def Out.put {α : Type} (o : Out α) (c : α) : Option (Out α) :=
  if o.p < o.cells.length then some ⟨o.cells.set o.p c, o.p + 1⟩ else none

/-- `while (nbits >= 6) {...}`, `base64.h:78-81`. -/
def drain (map : List Char) (buf : Nat) (nbits : Nat) (o : Out Char) : Option (Nat × Out Char) :=
  if 6 ≤ nbits then
    match o.put (map.getD (buf / 2 ^ (nbits - 6) % 64) '\x00') with
    | none => none
    | some o' => drain map buf (nbits - 6) o'
  else some (nbits, o)
termination_by nbits

/-- The loop over the input, `base64.h:75-82`. `buf` is a `uint16_t`. -/
def encodeLoop (map : List Char) : List UInt8 → Nat → Nat → Out Char → Option (Nat × Nat × Out Char)
  | [], buf, nbits, o => some (buf, nbits, o)
  | b :: rest, buf, nbits, o =>
    match drain map ((buf * 256 + b.toNat) % 65536) (nbits + 8) o with
    | none => none
    | some (nbits', o') => encodeLoop map rest ((buf * 256 + b.toNat) % 65536) nbits' o'

/-- `while (p != p_end) *p++ = pad_char;`, `base64.h:89-91`; `k` is the number of the remaining cells. -/
def padLoop : Nat → Out Char → Option (Out Char)
  | 0, o => some o
  | k + 1, o => match o.put padChar with | none => none | some o' => padLoop k o'

/-- `EncodeInto`, `base64.h:65-92`: the string written. (`(buf << 6) >> nbits` is an `int`, so it does not wrap.) -/
def encode (kind : Kind) (input : List UInt8) : Outcome Str :=
  let size := 4 * (input.length / 3) + (if input.length % 3 ≠ 0 then 4 else 0)
  match encodeLoop (encodeMap kind) input 0 0 ⟨List.replicate size '\x00', 0⟩ with
  | none => .oob
  | some (buf, nbits, o) =>
    match (if 0 < nbits then o.put ((encodeMap kind).getD (buf * 64 / 2 ^ nbits % 64) '\x00') else some o) with
    | none => .oob
    | some o' =>
      if o'.p ≤ size then
        match padLoop (size - o'.p) o' with
        | none => .oob
        | some o'' => .ok o''.cells
      else .asserts

/-- `IsValidChar`, `base64.h:100-103` (`isalnum` in the "C" locale). -/
def isValidChar (kind : Kind) (c : Char) : Bool :=
  ('0' ≤ c && c ≤ '9') || ('A' ≤ c && c ≤ 'Z') || ('a' ≤ c && c ≤ 'z') ||
  (match kind with | .canonical => c = '+' || c = '/' | .url => c = '-' || c = '_')

/-- `std::string::resize`. -/
def resize (cells : List UInt8) (n : Nat) : List UInt8 :=
  cells.take n ++ List.replicate (n - cells.length) 0

/-- The loop of `DecodeInto`, `base64.h:109-126`. `debug`: compiled without `NDEBUG`. -/
def decodeLoop (kind : Kind) (debug : Bool) : Str → Nat → Nat → Out UInt8 → Outcome (Out UInt8)
  | [], _, _, o => .ok o
  | c :: rest, buf, nbits, o =>
    if c = padChar then .ok ⟨resize o.cells o.p, o.p⟩
    else if debug && !isValidChar kind c then .throws
    else if decodeMap.length ≤ c.toNat then .oob
    else
      let buf' := (buf * 64 + decodeMap.getD c.toNat 0) % 65536
      if 8 ≤ nbits + 6 then
        match o.put (UInt8.ofNat (buf' / 2 ^ (nbits + 6 - 8) % 256)) with
        | none => .oob
        | some o' => decodeLoop kind debug rest buf' (nbits + 6 - 8) o'
      else decodeLoop kind debug rest buf' (nbits + 6) o

/-- `DecodeInto`, `base64.h:105-130`: the string written. -/
def decode (kind : Kind) (debug : Bool) (input : Str) : Outcome (List UInt8) :=
  match decodeLoop kind debug input 0 0 ⟨List.replicate (3 * input.length / 4) 0, 0⟩ with
  | .ok o => if debug && o.p ≠ o.cells.length then .asserts else .ok o.cells
  | .throws => .throws
  | .asserts => .asserts
  | .oob => .oob

/-! ### Specification (RFC 3548): the bits of the input, most significant first, six per character -/

/-- The `k` lowest bits of `n`, most significant first. -/
def bits : Nat → Nat → List Nat
  | 0, _ => []
  | k + 1, n => (n / 2 ^ k % 2) :: bits k n

/-- The number written as these bits. -/
def ofBits (l : List Nat) : Nat := l.foldl (fun a b => 2 * a + b) 0

/-- The bits of a byte string. -/
def bitsOf (s : List UInt8) : List Nat := s.flatMap fun b => bits 8 b.toNat

/-- Consecutive groups of six bits, the last one completed with zeros. -/
def sextets (l : List Nat) : List (List Nat) :=
  if l = [] then [] else (l ++ List.replicate 5 0).take 6 :: sextets (l.drop 6)
termination_by l.length
decreasing_by
  rename_i h
  have : 0 < l.length := List.length_pos_iff.mpr h
  simp only [List.length_drop]; omega

/-- Consecutive groups of eight bits; what does not make a group is dropped. -/
def octets (l : List Nat) : List (List Nat) :=
  if l.length < 8 then [] else l.take 8 :: octets (l.drop 8)
termination_by l.length
decreasing_by simp only [List.length_drop]; omega

/-- The text of RFC 3548, without the padding. -/
def specText (kind : Kind) (s : List UInt8) : Str :=
  (sextets (bitsOf s)).map fun g => (encodeMap kind).getD (ofBits g) '\x00'

/-- Completed with `=` to a multiple of four characters. -/
def specEncode (kind : Kind) (s : List UInt8) : Str :=
  specText kind s ++ List.replicate ((4 - (specText kind s).length % 4) % 4) '='

/-- The characters of the alphabet, in order: what stands for 0, 1, ..., 63. -/
def digit (c : Char) : Nat :=
  if 'A' ≤ c ∧ c ≤ 'Z' then c.toNat - 65
  else if 'a' ≤ c ∧ c ≤ 'z' then c.toNat - 97 + 26
  else if '0' ≤ c ∧ c ≤ '9' then c.toNat - 48 + 52
  else if c = '+' ∨ c = '-' then 62 else 63

/-- The bytes a text stands for. -/
def specDecode (t : Str) : List UInt8 :=
  (octets (t.flatMap fun c => bits 6 (digit c))).map fun g => UInt8.ofNat (ofBits g)

end Current.Base64
