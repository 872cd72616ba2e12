import Mathlib.Order.Basic
/-!
C161: the hash functions and the comparator of storage's containers, `bricks/util/comparators.h`. `std::hash` is a parameter; `size_t` is `BitVec 64`.
-/
namespace Current.Util.Hash

/-- `HashCombine` (`comparators.h:37-40`), with the hash of the value. -/
def combine (seed h : BitVec 64) : BitVec 64 := seed ^^^ (h + 0x9e3779b9#64 + (seed <<< 6) + (seed >>> 2))

/-- `GenericHashFunctionImpl<std::pair<TF, TS>, false, false>` (`comparators.h:77-85`), with the hashes of the elements. -/
def pair (h1 h2 : BitVec 64) : BitVec 64 := combine (combine 0 h1) h2

/-- `GenericHashFunctionImpl<std::chrono::duration<R, P>, ...>` (`comparators.h:87-92`) for a period of `num / den` seconds: `duration_cast` to microseconds,
which truncates towards zero, then `std::hash<int64_t>`, `hash64`.
Simplified: without overflow, and with the ratio not reduced, which does not change the quotient. -/
def duration (hash64 : Int → BitVec 64) (num den count : Int) : BitVec 64 := hash64 ((count * (num * 1000000)).tdiv den)

/-- `GenericHashFunctionImpl<T, false, true>` (`comparators.h:94-97`): `static_cast<size_t>` of an enum, of which `v` is the underlying value. -/
def enum (v : Int) : BitVec 64 := BitVec.ofInt 64 v

/-- `CurrentComparatorImpl<T, true>` (`comparators.h:110-116`), on the underlying values. -/
def less (l r : Int) : Bool := decide (l < r)

/-- The types whose hash function is chosen in `comparators.h:43-102`: `Hash()` of the type, `std::hash`, pairs, durations, enums. -/
inductive Key where
  | own (hash : BitVec 64) (id : Nat)
  | std (id : Nat)
  | pair (a b : Key)
  | duration (num den count : Int)
  | enum (v : Int)

/-- `GenericHashFunction<T>` (`comparators.h:66-67`). -/
def hash (std : Nat → BitVec 64) (hash64 : Int → BitVec 64) : Key → BitVec 64
  | .own h _ => h
  | .std i => std i
  | .pair a b => Hash.pair (hash std hash64 a) (hash std hash64 b)
  | .duration n d c => Hash.duration hash64 n d c
  | .enum v => Hash.enum v

theorem xor_cancel {a b c : BitVec 64} (h : a ^^^ b = a ^^^ c) : b = c := by
  have := congrArg (a ^^^ ·) h
  simpa [← BitVec.xor_assoc] using this

theorem add_cancel {a b c : BitVec 64} (h : a + c = b + c) : a = b := by
  have := congrArg (· - c) h
  simpa [BitVec.add_sub_cancel] using this

/-- **C161.** Combining loses nothing of the value's hash: for one seed, different hashes give different results. -/
theorem combine_inj (seed h h' : BitVec 64) : combine seed h = combine seed h' ↔ h = h' := by
  refine ⟨fun e => ?_, fun e => by rw [e]⟩
  exact add_cancel (add_cancel (add_cancel (xor_cancel e)))

/-- **C161.** And every hash is reached: combining is a bijection for every seed. -/
theorem combine_surj (seed x : BitVec 64) : ∃ h, combine seed h = x := by
  refine ⟨(seed ^^^ x) - (seed >>> 2) - (seed <<< 6) - 0x9e3779b9#64, ?_⟩
  unfold combine
  rw [BitVec.sub_add_cancel, BitVec.sub_add_cancel, BitVec.sub_add_cancel, ← BitVec.xor_assoc, BitVec.xor_self, BitVec.zero_xor]

/-- **C161.** Pairs with the same first element (the cells of a row) have the same hash exactly if their second elements have. -/
theorem pair_inj_second (h1 h2 h2' : BitVec 64) : pair h1 h2 = pair h1 h2' ↔ h2 = h2' := combine_inj _ _ _

/-- **C161.** The order of the elements counts: hashing is not symmetric. -/
theorem pair_not_symmetric : pair 1 2 ≠ pair 2 1 := by decide

/-- **C161.** Some pairs share their hash with every given first element: a pair's hash says nothing of its first element. -/
theorem pair_any_first (h1 h1' h2 : BitVec 64) : ∃ h2', pair h1' h2' = pair h1 h2 := combine_surj _ _

/-- **C161.** Durations that are equal have the same hash, in whatever units they are given. -/
theorem duration_eq (hash64 : Int → BitVec 64) {num den c num' den' c' : Int} (hd : 0 < den) (hd' : 0 < den') (h : c * num * den' = c' * num' * den) :
    duration hash64 num den c = duration hash64 num' den' c' := by
  unfold duration
  have key : (c * (num * 1000000)).tdiv den = (c' * (num' * 1000000)).tdiv den' := by
    rw [← Int.mul_tdiv_mul_of_pos_left (c * (num * 1000000)) den hd', ← Int.mul_tdiv_mul_of_pos_left (c' * (num' * 1000000)) den' hd, Int.mul_comm den' den]
    congr 1
    have : c * (num * 1000000) * den' = (c * num * den') * 1000000 := by ac_rfl
    have h2 : c' * (num' * 1000000) * den = (c' * num' * den) * 1000000 := by ac_rfl
    rw [this, h2, h]
  rw [key]

/-- **C161.** Nanoseconds of the same microsecond share their hash, and so do all less than a microsecond from zero on either side. -/
theorem duration_coarse (hash64 : Int → BitVec 64) (us n n' : Int) (h0 : 0 ≤ us) (h : 0 ≤ n ∧ n < 1000) (h' : 0 ≤ n' ∧ n' < 1000) :
    duration hash64 1 1000000000 (us * 1000 + n) = duration hash64 1 1000000000 (us * 1000 + n') := by
  have key : ∀ m, 0 ≤ m ∧ m < 1000 → ((us * 1000 + m) * (1 * 1000000)).tdiv 1000000000 = us := by
    intro m hm
    rw [Int.tdiv_eq_ediv_of_nonneg (by omega)]
    omega
  unfold duration
  rw [key n h, key n' h']

/-- **C161.** Different values of an enum, of whatever underlying type of at most 64 bits, have different hashes. -/
theorem enum_inj {v v' : Int} (h : (-(2 ^ 63) ≤ v ∧ v < 2 ^ 63 ∧ -(2 ^ 63) ≤ v' ∧ v' < 2 ^ 63) ∨ (0 ≤ v ∧ v < 2 ^ 64 ∧ 0 ≤ v' ∧ v' < 2 ^ 64)) :
    enum v = enum v' ↔ v = v' := by
  refine ⟨fun e => ?_, fun e => by rw [e]⟩
  have := congrArg BitVec.toNat e
  unfold enum at this
  rw [BitVec.toNat_ofInt, BitVec.toNat_ofInt] at this
  omega

/-- **C161.** The comparator of enums is a strict total order, that of the underlying values. -/
theorem less_strict : (∀ a, less a a = false) ∧ (∀ a b c, less a b = true → less b c = true → less a c = true) ∧
    ∀ a b, less a b = false → less b a = false → a = b := by
  unfold less
  refine ⟨fun a => by simp, fun a b c h h' => ?_, fun a b h h' => ?_⟩
  · simp at *; omega
  · simp at *; omega

/-- **C161.** Two keys which are pairs with the same first element, nested to any depth, collide exactly if what follows collides. -/
theorem row_collisions (std : Nat → BitVec 64) (hash64 : Int → BitVec 64) (a b b' : Key) :
    hash std hash64 (.pair a b) = hash std hash64 (.pair a b') ↔ hash std hash64 b = hash std hash64 b' := pair_inj_second _ _ _

example : pair 3 7 ≠ pair 3 8 := by rw [Ne, pair_inj_second]; decide
/-- 1500 milliseconds, and 1500000 microseconds. -/
example : duration (BitVec.ofInt 64) 1 1000 1500 = duration (BitVec.ofInt 64) 1 1000000 1500000 := duration_eq _ (by decide) (by decide) (by decide)
example : duration (BitVec.ofInt 64) 1 1000 1500 = 1500000#64 := by decide
example : enum (-1) ≠ enum 1 := by rw [Ne, enum_inj (.inl (by decide))]; decide

end Current.Util.Hash
