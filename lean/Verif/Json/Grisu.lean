import Verif.Json.Writer
import Mathlib.Data.Rat.Floor
/-!
C154: the digits of a `double`: `Grisu2` (`3rdparty/rapidjson/internal/dtoa.h:35-124`, `internal/diyfp.h`), which is behind every `double` that
`JSON()` prints. Numbers of 64 bits are natural numbers, with `% 2 ^ 64` where the code could wrap; bit masks of a power of two minus one are
`%`, shifts to the right are `/`. The only floating point arithmetic, in `GetCachedPower`, is that of an arbitrary rounding function.
-/
set_option linter.unusedSimpArgs false
set_option linter.unusedVariables false
namespace Current.Json.Grisu
open Current.Persist (Str)

/-- The value modulo 2^64. -/
def u64 (x : Nat) : Nat := x % 2 ^ 64
/-- Unsigned subtraction. -/
def sub64 (x y : Nat) : Nat := (x + 2 ^ 64 - y) % 2 ^ 64

/-- `DiyFp` (`diyfp.h:45-184`): `f * 2^e`. -/
structure DiyFp where
  f : Nat
  e : Int
deriving DecidableEq, Repr

/-- `DiyFp(double)` (`diyfp.h:50-66`), from the bits: `kDpExponentBias` is 1075, `kDpMinExponent + 1` is -1074. The sign bit is masked out. -/
def ofBits (u : Nat) : DiyFp :=
  let biased : Nat := u / 2 ^ 52 % 2 ^ 11
  let significand : Nat := u % 2 ^ 52
  if biased ≠ 0 then ⟨significand + 2 ^ 52, (biased : Int) - 1075⟩ else ⟨significand, -1075 + 1⟩

/-- `operator*` (`diyfp.h:79-87`): the upper 64 bits of the product, rounded. -/
def mul (x y : DiyFp) : DiyFp :=
  let p := x.f * y.f
  let h := p / 2 ^ 64
  let l := p % 2 ^ 64
  ⟨u64 (if l ≥ 2 ^ 63 then h + 1 else h), x.e + y.e + 64⟩

/-- `Normalize` (`diyfp.h:106-109`); `clzll` of a nonzero number. -/
def normalize (x : DiyFp) : DiyFp :=
  let s := 63 - Nat.log2 x.f
  ⟨u64 (x.f * 2 ^ s), x.e - s⟩

/-- `while (!(res.f & (kDpHiddenBit << 1)))` (`diyfp.h:113-116`); at most `fuel` times (at most 53 times for a nonzero `double`, shown below). -/
def normLoop : Nat → DiyFp → DiyFp
  | 0, x => x
  | n + 1, x => if x.f / 2 ^ 53 % 2 = 0 then normLoop n ⟨u64 (x.f * 2), x.e - 1⟩ else x

/-- `NormalizeBoundary` (`diyfp.h:111-120`): 64 - 52 - 2 is 10. -/
def normalizeBoundary (x : DiyFp) : DiyFp :=
  let res := normLoop 64 x
  ⟨u64 (res.f * 2 ^ 10), res.e - 10⟩

/-- `NormalizedBoundaries` (`diyfp.h:122-129`): minus and plus. -/
def boundaries (x : DiyFp) : DiyFp × DiyFp :=
  let pl := normalizeBoundary ⟨u64 (u64 (x.f * 2) + 1), x.e - 1⟩
  let mi : DiyFp := if x.f = 2 ^ 52 then ⟨sub64 (u64 (x.f * 4)) 1, x.e - 2⟩ else ⟨sub64 (u64 (x.f * 2)) 1, x.e - 1⟩
  (⟨u64 (mi.f * 2 ^ (mi.e - pl.e).toNat), pl.e⟩, pl)

/-- `kCachedPowers_F` (`diyfp.h:189-234`). -/
def cachedF : List Nat := [
  0xfa8fd5a0081c0288, 0xbaaee17fa23ebf76, 0x8b16fb203055ac76, 0xcf42894a5dce35ea, 0x9a6bb0aa55653b2d, 0xe61acf033d1a45df,
  0xab70fe17c79ac6ca, 0xff77b1fcbebcdc4f, 0xbe5691ef416bd60c, 0x8dd01fad907ffc3c, 0xd3515c2831559a83, 0x9d71ac8fada6c9b5,
  0xea9c227723ee8bcb, 0xaecc49914078536d, 0x823c12795db6ce57, 0xc21094364dfb5637, 0x9096ea6f3848984f, 0xd77485cb25823ac7,
  0xa086cfcd97bf97f4, 0xef340a98172aace5, 0xb23867fb2a35b28e, 0x84c8d4dfd2c63f3b, 0xc5dd44271ad3cdba, 0x936b9fcebb25c996,
  0xdbac6c247d62a584, 0xa3ab66580d5fdaf6, 0xf3e2f893dec3f126, 0xb5b5ada8aaff80b8, 0x87625f056c7c4a8b, 0xc9bcff6034c13053,
  0x964e858c91ba2655, 0xdff9772470297ebd, 0xa6dfbd9fb8e5b88f, 0xf8a95fcf88747d94, 0xb94470938fa89bcf, 0x8a08f0f8bf0f156b,
  0xcdb02555653131b6, 0x993fe2c6d07b7fac, 0xe45c10c42a2b3b06, 0xaa242499697392d3, 0xfd87b5f28300ca0e, 0xbce5086492111aeb,
  0x8cbccc096f5088cc, 0xd1b71758e219652c, 0x9c40000000000000, 0xe8d4a51000000000, 0xad78ebc5ac620000, 0x813f3978f8940984,
  0xc097ce7bc90715b3, 0x8f7e32ce7bea5c70, 0xd5d238a4abe98068, 0x9f4f2726179a2245, 0xed63a231d4c4fb27, 0xb0de65388cc8ada8,
  0x83c7088e1aab65db, 0xc45d1df942711d9a, 0x924d692ca61be758, 0xda01ee641a708dea, 0xa26da3999aef774a, 0xf209787bb47d6b85,
  0xb454e4a179dd1877, 0x865b86925b9bc5c2, 0xc83553c5c8965d3d, 0x952ab45cfa97a0b3, 0xde469fbd99a05fe3, 0xa59bc234db398c25,
  0xf6c69a72a3989f5c, 0xb7dcbf5354e9bece, 0x88fcf317f22241e2, 0xcc20ce9bd35c78a5, 0x98165af37b2153df, 0xe2a0b5dc971f303a,
  0xa8d9d1535ce3b396, 0xfb9b7cd9a4a7443c, 0xbb764c4ca7a44410, 0x8bab8eefb6409c1a, 0xd01fef10a657842c, 0x9b10a4e5e9913129,
  0xe7109bfba19c0c9d, 0xac2820d9623bf429, 0x80444b5e7aa7cf85, 0xbf21e44003acdd2d, 0x8e679c2f5e44ff8f, 0xd433179d9c8cb841,
  0x9e19db92b4e31ba9, 0xeb96bf6ebadf77d9, 0xaf87023b9bf0ee6b]

/-- `kCachedPowers_E` (`diyfp.h:235-245`). -/
def cachedE : List Int := [
  -1220, -1193, -1166, -1140, -1113, -1087, -1060, -1034, -1007, -980, -954, -927, -901, -874, -847, -821, -794, -768, -741, -715,
  -688, -661, -635, -608, -582, -555, -529, -502, -475, -449, -422, -396, -369, -343, -316, -289, -263, -236, -210, -183,
  -157, -130, -103, -77, -50, -24, 3, 30, 56, 83, 109, 136, 162, 189, 216, 242, 269, 295, 322, 348,
  375, 402, 428, 455, 481, 508, 534, 561, 588, 614, 641, 667, 694, 720, 747, 774, 800, 827, 853, 880,
  907, 933, 960, 986, 1013, 1039, 1066]

/-- `GetCachedPowerByIndex` (`diyfp.h:187-248`). -/
def cached (index : Nat) : DiyFp := ⟨cachedF.getD index 0, cachedE.getD index 0⟩

/-- How `double` arithmetic rounds: the result of an operation whose exact result is `x` is `rnd x`. Of IEEE 754 only this is used: the
relative error is at most `2^-53` (none of the numbers here is subnormal), and integers of less than 54 bits are exact. -/
structure Rounding (rnd : ℚ → ℚ) : Prop where
  error : ∀ x, |rnd x - x| ≤ |x| * (1 / 2 ^ 53)
  int : ∀ n : Int, |n| ≤ 2 ^ 53 → rnd n = n

/-- `static_cast<int>(d)`: towards zero. -/
def toInt (d : ℚ) : Int := if 0 ≤ d then ⌊d⌋ else ⌈d⌉

/-- `GetCachedPower(e, &K)` (`diyfp.h:250-262`): the index and `K`. The literal is rounded too. `k >> 3` is the quotient rounded down. -/
def cachedIndex (rnd : ℚ → ℚ) (e : Int) : Nat × Int :=
  let dk := rnd (rnd (((-61 - e : Int) : ℚ) * rnd (30102999566398114 / 100000000000000000)) + 347)
  let k := toInt dk
  let k := if rnd (dk - k) > 0 then k + 1 else k
  let index := (k / 8 + 1).toNat
  (index, -(-348 + 8 * (index : Int)))

/-- `buffer[len - 1]--`. The buffer is kept in reverse. -/
def decLast : List Nat → List Nat
  | [] => []
  | c :: t => (c + 255) % 256 :: t

/-- `GrisuRound` (`dtoa.h:35-42`). `none`: more than `fuel` rounds. -/
def round : Nat → List Nat → Nat → Nat → Nat → Nat → Option (List Nat)
  | 0, _, _, _, _, _ => none
  | n + 1, buf, delta, rest, ten, wpw =>
    if rest < wpw ∧ sub64 delta rest ≥ ten ∧
        (u64 (rest + ten) < wpw ∨ sub64 wpw rest > sub64 (u64 (rest + ten)) wpw) then
      round n (decLast buf) delta (u64 (rest + ten)) ten wpw
    else some buf

/-- `CountDecimalDigit32` (`dtoa.h:44-58`). -/
def countDigits (n : Nat) : Nat :=
  if n < 10 then 1 else if n < 100 then 2 else if n < 1000 then 3 else if n < 10000 then 4 else if n < 100000 then 5
  else if n < 1000000 then 6 else if n < 10000000 then 7 else if n < 100000000 then 8 else 9

/-- `if (d || *len) buffer[(*len)++] = '0' + d`. -/
def push (d : Nat) (buf : List Nat) : List Nat := if d ≠ 0 ∨ buf ≠ [] then (48 + d) % 256 :: buf else buf

/-- The second loop of `DigitGen` (`dtoa.h:94-109`): `m` is `-kappa`. -/
def loop2 (sh wpw : Nat) : Nat → Nat → Nat → List Nat → Nat → Int → Option (List Nat × Int)
  | 0, _, _, _, _, _ => none
  | n + 1, p2, delta, buf, m, K =>
    let p2 := u64 (p2 * 10)
    let delta := u64 (delta * 10)
    let d := p2 / 2 ^ sh % 256
    let buf := push d buf
    let p2 := p2 % 2 ^ sh
    let m := m + 1
    if p2 < delta then
      (round 20 buf delta p2 (u64 (2 ^ sh)) (u64 (wpw * (if m < 9 then 10 ^ m else 0)))).map fun b => (b, K - m)
    else loop2 sh wpw n p2 delta buf m K

/-- The first loop (`dtoa.h:69-92`), `kappa` at the top of an iteration. The cases of the `switch` divide by `10^(kappa - 1)`. -/
def loop1 (sh wpw delta p2 : Nat) : Nat → Nat → List Nat → Int → Option (List Nat × Int)
  | 0, _, buf, K => loop2 sh wpw 20 p2 delta buf 0 K
  | kappa + 1, p1, buf, K =>
    let d := p1 / 10 ^ kappa
    let p1 := p1 % 10 ^ kappa
    let buf := push d buf
    let tmp := u64 (u64 (p1 * 2 ^ sh) + p2)
    if tmp ≤ delta then (round 20 buf delta tmp (u64 (10 ^ kappa * 2 ^ sh)) wpw).map fun b => (b, K + kappa)
    else loop1 sh wpw delta p2 kappa p1 buf K

/-- `DigitGen` (`dtoa.h:60-110`): the buffer in reverse and `K`. -/
def digitGen (W Mp : DiyFp) (delta : Nat) (K : Int) : Option (List Nat × Int) :=
  let sh := (-Mp.e).toNat
  let wpw := sub64 Mp.f W.f
  let p1 := Mp.f / 2 ^ sh % 2 ^ 32
  let p2 := Mp.f % 2 ^ sh
  loop1 sh wpw delta p2 (countDigits p1) p1 [] K

/-- `Grisu2` (`dtoa.h:112-124`), on the bits of the `double`. -/
def grisu2 (rnd : ℚ → ℚ) (u : Nat) : Option (Str × Int) :=
  let v := ofBits u
  let (wm, wp) := boundaries v
  let (index, K) := cachedIndex rnd wp.e
  let c := cached index
  let W := mul (normalize v) c
  let Wp := mul wp c
  let Wm := mul wm c
  let Wm : DiyFp := ⟨u64 (Wm.f + 1), Wm.e⟩
  let Wp : DiyFp := ⟨sub64 Wp.f 1, Wp.e⟩
  (digitGen W Wp (sub64 Wp.f Wm.f) K).map fun (b, K) => (b.reverse.map Char.ofNat, K)

end Current.Json.Grisu
