/-!
C152: `current::SHA256` (`bricks/util/sha256.h`, `3rdparty/stephan-brumme/sha256.h`), the hash which names schemas and signs streams, is
the SHA-256 of FIPS 180-4.
-/
set_option linter.unusedSimpArgs false
set_option linter.unusedVariables false
namespace Current.Sha256

abbrev Byte := BitVec 8
abbrev Word := BitVec 32

/-! ### The code -/

/-- `rotate` (`sha256.h:50-53`). -/
def rotate (a : Word) (c : Nat) : Word := (a >>> c) ||| (a <<< (32 - c))

/-- `swap` (`sha256.h:55-68`): `__builtin_bswap32`. -/
def swap (x : Word) : Word := x.extractLsb' 0 8 ++ x.extractLsb' 8 8 ++ x.extractLsb' 16 8 ++ x.extractLsb' 24 8

/-- `f1` (`sha256.h:71-76`). -/
def f1 (e f g : Word) : Word :=
  let term1 := rotate e 6 ^^^ rotate e 11 ^^^ rotate e 25
  let term2 := (e &&& f) ^^^ (~~~e &&& g)
  term1 + term2

/-- `f2` (`sha256.h:78-83`). -/
def f2 (a b c : Word) : Word :=
  let term1 := rotate a 2 ^^^ rotate a 13 ^^^ rotate a 22
  let term2 := ((a ||| b) &&& c) ||| (a &&& b)
  term1 + term2

/-- The constants added in the 64 lines of `processBlock` (`sha256.h:260-379`), in the order of the lines. -/
def consts : List Word := [
  0x428a2f98, 0x71374491, 0xb5c0fbcf, 0xe9b5dba5, 0x3956c25b, 0x59f111f1, 0x923f82a4, 0xab1c5ed5,
  0xd807aa98, 0x12835b01, 0x243185be, 0x550c7dc3, 0x72be5d74, 0x80deb1fe, 0x9bdc06a7, 0xc19bf174,
  0xe49b69c1, 0xefbe4786, 0x0fc19dc6, 0x240ca1cc, 0x2de92c6f, 0x4a7484aa, 0x5cb0a9dc, 0x76f988da,
  0x983e5152, 0xa831c66d, 0xb00327c8, 0xbf597fc7, 0xc6e00bf3, 0xd5a79147, 0x06ca6351, 0x14292967,
  0x27b70a85, 0x2e1b2138, 0x4d2c6dfc, 0x53380d13, 0x650a7354, 0x766a0abb, 0x81c2c92e, 0x92722c85,
  0xa2bfe8a1, 0xa81a664b, 0xc24b8b70, 0xc76c51a3, 0xd192e819, 0xd6990624, 0xf40e3585, 0x106aa070,
  0x19a4c116, 0x1e376c08, 0x2748774c, 0x34b0bcb5, 0x391c0cb3, 0x4ed8aa4a, 0x5b9cca4f, 0x682e6ff3,
  0x748f82ee, 0x78a5636f, 0x84c87814, 0x8cc70208, 0x90befffa, 0xa4506ceb, 0xbef9a3f7, 0xc67178f2]

/-- The eight variables of `processBlock`, and `m_hash`. -/
structure V where
  a : Word
  b : Word
  c : Word
  d : Word
  e : Word
  f : Word
  g : Word
  h : Word
deriving DecidableEq, Repr

/-- One line, `x = h + f1(e,f,g) + K + words[i]; y = f2(a,b,c); d += x; h = x + y;`: the new `d` and the new `h`. The lines differ in the names
of the variables, the constant and the index. -/
def line (a b c d e f g h k w : Word) : Word × Word :=
  let x := h + f1 e f g + k + w
  let y := f2 a b c
  (d + x, x + y)

/-- A round of eight lines (`sha256.h:260-267`; the other seven are the same but for the constants and the words). -/
def eight (k w : Nat → Word) (i : Nat) (v : V) : V :=
  let (d, h) := line v.a v.b v.c v.d v.e v.f v.g v.h (k i) (w i)
  let (c, g) := line h v.a v.b v.c d v.e v.f v.g (k (i + 1)) (w (i + 1))
  let (b, f) := line g h v.a v.b c d v.e v.f (k (i + 2)) (w (i + 2))
  let (a, e) := line f g h v.a b c d v.e (k (i + 3)) (w (i + 3))
  let (h, d) := line e f g h a b c d (k (i + 4)) (w (i + 4))
  let (g, c) := line d e f g h a b c (k (i + 5)) (w (i + 5))
  let (f, b) := line c d e f g h a b (k (i + 6)) (w (i + 6))
  let (e, a) := line b c d e f g h a (k (i + 7)) (w (i + 7))
  ⟨a, b, c, d, e, f, g, h⟩

/-- `for (; i < n; i++) words[i] = …` (`sha256.h:280-284` and five more times): `words` is what is computed so far, `i` its length. -/
def extend : Nat → List Word → List Word
  | 0, words => words
  | n + 1, words =>
    let i := words.length
    let at_ := fun j => words.getD j 0
    extend n (words ++ [at_ (i - 16) + (rotate (at_ (i - 15)) 7 ^^^ rotate (at_ (i - 15)) 18 ^^^ (at_ (i - 15) >>> 3)) + at_ (i - 7) +
      (rotate (at_ (i - 2)) 17 ^^^ rotate (at_ (i - 2)) 19 ^^^ (at_ (i - 2) >>> 10))])

/-- `input[i]`: four bytes read as a `uint32_t` on a little-endian machine. -/
def load (p : Nat → Byte) (i : Nat) : Word := p (4 * i + 3) ++ p (4 * i + 2) ++ p (4 * i + 1) ++ p (4 * i)

/-- `processBlock` (`sha256.h:233-390`): the rounds interleaved with the extensions of `words`. -/
def processBlock (data : Nat → Byte) (m : V) : V :=
  let k := fun i => consts.getD i 0
  let w0 := (List.range 16).map fun i => swap (load data i)
  let v := eight k (fun i => w0.getD i 0) 0 m
  let v := eight k (fun i => w0.getD i 0) 8 v
  let w := extend 8 w0
  let v := eight k (fun i => w.getD i 0) 16 v
  let w := extend 8 w
  let v := eight k (fun i => w.getD i 0) 24 v
  let w := extend 8 w
  let v := eight k (fun i => w.getD i 0) 32 v
  let w := extend 8 w
  let v := eight k (fun i => w.getD i 0) 40 v
  let w := extend 8 w
  let v := eight k (fun i => w.getD i 0) 48 v
  let w := extend 8 w
  let v := eight k (fun i => w.getD i 0) 56 v
  ⟨m.a + v.a, m.b + v.b, m.c + v.c, m.d + v.d, m.e + v.e, m.f + v.f, m.g + v.g, m.h + v.h⟩

/-- The object (`sha256.h:458-468`). `buffer` is the array `m_buffer`: what is past `size` is left from before, or not initialized. -/
structure S where
  numBytes : BitVec 64
  size : Nat
  buffer : Nat → Byte
  hash : V

/-- `m_buffer[i] = x`. -/
def put (b : Nat → Byte) (i : Nat) (x : Byte) : Nat → Byte := fun j => if j = i then x else b j

/-- `reset` (`sha256.h:215-229`). -/
def reset (s : S) : S :=
  { s with numBytes := 0, size := 0
           hash := ⟨0x6a09e667, 0xbb67ae85, 0x3c6ef372, 0xa54ff53a, 0x510e527f, 0x9b05688c, 0x1f83d9ab, 0x5be0cd19⟩ }

/-- `while (numBytes > 0 && m_bufferSize < BlockSize) m_buffer[m_bufferSize++] = *current++` (`sha256.h:132-136`). -/
def fill : S → List Byte → S × List Byte
  | s, [] => (s, [])
  | s, x :: l => if s.size < 64 then fill { s with buffer := put s.buffer s.size x, size := s.size + 1 } l else (s, x :: l)

/-- `while (numBytes >= BlockSize)` (`sha256.h:152-158`). -/
def blocks (s : S) (l : List Byte) : S × List Byte :=
  if 64 ≤ l.length then
    blocks { s with hash := processBlock (fun i => l.getD i 0) s.hash, numBytes := s.numBytes + 64 } (l.drop 64)
  else (s, l)
termination_by l.length

/-- `while (numBytes > 0) m_buffer[m_bufferSize++] = *current++` (`sha256.h:161-165`). -/
def keep : S → List Byte → S
  | s, [] => s
  | s, x :: l => keep { s with buffer := put s.buffer s.size x, size := s.size + 1 } l

/-- `add` (`sha256.h:126-166`). -/
def add (s : S) (l : List Byte) : S :=
  let (s, l) := if s.size > 0 then fill s l else (s, l)
  let s := if s.size = 64 then { s with hash := processBlock s.buffer s.hash, numBytes := s.numBytes + 64, size := 0 } else s
  if l = [] then s
  else
    let (s, l) := blocks s l
    keep s l

/-- `for (i = from; i < to; i++) p[i - shift] = 0`. -/
def zero : Nat → Nat → (Nat → Byte) → Nat → Byte
  | 0, _, p => p
  | n + 1, at_, p => zero n (at_ + 1) (put p at_ 0)

/-- The eight bytes of `msgBits`, the most significant first (`sha256.h:442-449`), written from `p[i]` on. -/
def putLength (p : Nat → Byte) (i : Nat) (msgBits : BitVec 64) : Nat → Byte :=
  let byte := fun k => (msgBits >>> k).setWidth 8
  put (put (put (put (put (put (put (put p i (byte 56)) (i + 1) (byte 48)) (i + 2) (byte 40)) (i + 3) (byte 32)) (i + 4) (byte 24))
    (i + 5) (byte 16)) (i + 6) (byte 8)) (i + 7) (byte 0)

/-- `processBuffer` (`sha256.h:394-456`); `junk` is what the local array `extra` holds before. -/
def processBuffer (junk : Nat → Byte) (s : S) : S :=
  let bits := s.size * 8 + 1
  let lower11Bits := bits % 512
  let paddedLength := (if lower11Bits ≤ 448 then bits + (448 - lower11Bits) else bits + (512 + 448 - lower11Bits)) / 8
  let buffer := if s.size < 64 then put s.buffer s.size 128 else s.buffer
  let extra := if s.size < 64 then junk else put junk 0 128
  let buffer := zero (64 - (s.size + 1)) (s.size + 1) buffer
  -- `i` is 64 here, or `s.size + 1` if that is more
  let i := max 64 (s.size + 1)
  let extra := zero (paddedLength - i) (i - 64) extra
  let msgBits := 8 * (s.numBytes + BitVec.ofNat 64 s.size)
  let buffer' := if paddedLength < 64 then putLength buffer paddedLength msgBits else buffer
  let extra' := if paddedLength < 64 then extra else putLength extra (paddedLength - 64) msgBits
  let hash := processBlock buffer' s.hash
  let hash := if paddedLength > 64 then processBlock extra' hash else hash
  { s with buffer := buffer', hash := hash }

def dec2hex : List Char := ['0', '1', '2', '3', '4', '5', '6', '7', '8', '9', 'a', 'b', 'c', 'd', 'e', 'f']

/-- Eight characters for a word (`sha256.h:187-194`). -/
def hexWord (w : Word) : List Char :=
  [28, 24, 20, 16, 12, 8, 4, 0].map fun k => dec2hex.getD ((w >>> k) &&& 15).toNat '?'

/-- `getHash` (`sha256.h:169-206`): the text, and the object after: the hash is restored, the buffer is as `processBuffer` left it. -/
def getHash (junk : Nat → Byte) (s : S) : List Char × S :=
  let s' := processBuffer junk s
  let m := s'.hash
  (hexWord m.a ++ hexWord m.b ++ hexWord m.c ++ hexWord m.d ++ hexWord m.e ++ hexWord m.f ++ hexWord m.g ++ hexWord m.h,
    { s' with hash := s.hash })

/-- `current::SHA256(input)` (`bricks/util/sha256.h:32-34`, `sha256.h:209-214`): a fresh object, whose memory holds anything. -/
def SHA256 (any : S) (junk : Nat → Byte) (input : List Byte) : List Char := (getHash junk (add (reset any) input)).1

/-! ### FIPS 180-4 -/
namespace Fips

/-- 4.1.2. -/
def Ch (x y z : Word) : Word := (x &&& y) ^^^ (~~~x &&& z)
def Maj (x y z : Word) : Word := (x &&& y) ^^^ (x &&& z) ^^^ (y &&& z)
def Sigma0 (x : Word) : Word := x.rotateRight 2 ^^^ x.rotateRight 13 ^^^ x.rotateRight 22
def Sigma1 (x : Word) : Word := x.rotateRight 6 ^^^ x.rotateRight 11 ^^^ x.rotateRight 25
def sigma0 (x : Word) : Word := x.rotateRight 7 ^^^ x.rotateRight 18 ^^^ (x >>> 3)
def sigma1 (x : Word) : Word := x.rotateRight 17 ^^^ x.rotateRight 19 ^^^ (x >>> 10)

def isPrime (n : Nat) : Bool := decide (2 ≤ n) && (List.range n).all fun d => d < 2 || n % d != 0

/-- The first 64 primes. -/
def primes : List Nat := (List.range 312).filter isPrime

/-- 4.2.2: the first 32 bits of the fractional part of the cube root of `p`. -/
def CubeRootBits (p : Nat) (k : Word) : Prop := ∃ r : Nat, r ^ 3 ≤ p * 2 ^ 96 ∧ p * 2 ^ 96 < (r + 1) ^ 3 ∧ k = BitVec.ofNat 32 r
/-- 5.3.3: of the square root. -/
def SquareRootBits (p : Nat) (k : Word) : Prop := ∃ r : Nat, r ^ 2 ≤ p * 2 ^ 64 ∧ p * 2 ^ 64 < (r + 1) ^ 2 ∧ k = BitVec.ofNat 32 r

/-- 5.2.1: the `i`-th word of a block, the first byte being the most significant. -/
def M (block : List Byte) (i : Nat) : Word :=
  block.getD (4 * i) 0 ++ block.getD (4 * i + 1) 0 ++ block.getD (4 * i + 2) 0 ++ block.getD (4 * i + 3) 0

/-- 6.2.2, 1: the message schedule. -/
def W (block : List Byte) (t : Nat) : Word :=
  if t < 16 then M block t
  else sigma1 (W block (t - 2)) + W block (t - 7) + sigma0 (W block (t - 15)) + W block (t - 16)
termination_by t

/-- 6.2.2, 3. -/
def step (K : Nat → Word) (block : List Byte) (v : V) (t : Nat) : V :=
  let T1 := v.h + Sigma1 v.e + Ch v.e v.f v.g + K t + W block t
  let T2 := Sigma0 v.a + Maj v.a v.b v.c
  ⟨T1 + T2, v.a, v.b, v.c, v.d + T1, v.e, v.f, v.g⟩

/-- 6.2.2: one block. -/
def compress (K : Nat → Word) (H : V) (block : List Byte) : V :=
  let v := (List.range 64).foldl (step K block) H
  ⟨v.a + H.a, v.b + H.b, v.c + H.c, v.d + H.d, v.e + H.e, v.f + H.f, v.g + H.g, v.h + H.h⟩

/-- The bytes of a number, the most significant first. -/
def bigEndian : Nat → Nat → List Byte
  | 0, _ => []
  | n + 1, x => BitVec.ofNat 8 (x / 256 ^ n) :: bigEndian n x

/-- 5.1.1: a one bit, the smallest number of zero bits which makes the length 448 modulo 512, and the length of the message in bits. Messages
are of whole bytes; those of `2^64` bits and more, which FIPS leaves out, have the length modulo `2^64`. -/
def pad (m : List Byte) : List Byte :=
  m ++ [0x80] ++ List.replicate ((119 - m.length % 64) % 64) 0 ++ bigEndian 8 (8 * m.length)

/-- 5.2.1: blocks of 512 bits. -/
def blocksOf (l : List Byte) : List (List Byte) :=
  if l.length < 64 then [] else l.take 64 :: blocksOf (l.drop 64)
termination_by l.length

def digest (K : Nat → Word) (H0 : V) (m : List Byte) : V := (blocksOf (pad m)).foldl (compress K) H0

/-- The bytes of the digest. -/
def bytes (v : V) : List Byte :=
  [v.a, v.b, v.c, v.d, v.e, v.f, v.g, v.h].flatMap fun w => bigEndian 4 w.toNat

end Fips

/-- Two hexadecimal digits in lower case. -/
def hexByte (b : Byte) : List Char :=
  let digit := fun n => if n < 10 then Char.ofNat (48 + n) else Char.ofNat (87 + n)
  [digit (b.toNat / 16), digit (b.toNat % 16)]

end Current.Sha256
