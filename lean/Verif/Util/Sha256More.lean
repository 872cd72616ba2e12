import Verif.Util.Sha256Props
set_option linter.unusedSimpArgs false
set_option linter.unusedVariables false
namespace Current.Sha256
open Fips

/-! ### The constants -/

/-- The integer parts of the cube roots of the first 64 primes. -/
def ipart3 (p : Nat) : Nat := ((List.range 7).filter fun i => i ^ 3 ≤ p).length - 1
def ipart2 (p : Nat) : Nat := ((List.range 5).filter fun i => i ^ 2 ≤ p).length - 1

theorem constants_are_cube_roots : ∀ t < 64, CubeRootBits (primes.getD t 0) (consts.getD t 0) := by
  have h : ∀ t < 64, let p := primes.getD t 0; let k := consts.getD t 0; let r := ipart3 p * 2 ^ 32 + k.toNat
      r ^ 3 ≤ p * 2 ^ 96 ∧ p * 2 ^ 96 < (r + 1) ^ 3 ∧ k = BitVec.ofNat 32 r := by decide +kernel
  intro t ht
  exact ⟨_, h t ht⟩

def H0 (v : V) (i : Nat) : Word := [v.a, v.b, v.c, v.d, v.e, v.f, v.g, v.h].getD i 0

theorem initial_hash_is_square_roots (s : S) : ∀ i < 8, SquareRootBits (primes.getD i 0) (H0 (reset s).hash i) := by
  have h : ∀ i < 8, let p := primes.getD i 0
      let k := H0 ⟨0x6a09e667, 0xbb67ae85, 0x3c6ef372, 0xa54ff53a, 0x510e527f, 0x9b05688c, 0x1f83d9ab, 0x5be0cd19⟩ i
      let r := ipart2 p * 2 ^ 32 + k.toNat
      r ^ 2 ≤ p * 2 ^ 64 ∧ p * 2 ^ 64 < (r + 1) ^ 2 ∧ k = BitVec.ofNat 32 r := by decide +kernel
  intro i hi
  exact ⟨_, h i hi⟩

/-! ### Blocks -/

theorem blocksOf_nil : blocksOf [] = [] := by unfold blocksOf; simp
theorem blocksOf_one (q : List Byte) (h : q.length = 64) : blocksOf q = [q] := by
  unfold blocksOf
  rw [if_neg (by omega), List.take_of_length_le (by omega), List.drop_eq_nil_of_le (by omega), blocksOf_nil]

theorem blocksOf_append : ∀ (n : Nat) (p q : List Byte), p.length = 64 * n → blocksOf (p ++ q) = blocksOf p ++ blocksOf q
  | 0, p, q, h => by
    have : p = [] := List.eq_nil_of_length_eq_zero (by omega)
    subst this
    simp [blocksOf_nil]
  | n + 1, p, q, h => by
    conv => lhs; unfold blocksOf
    conv => rhs; arg 1; unfold blocksOf
    rw [if_neg (by simp; omega), if_neg (by omega), List.take_append_of_le_length (by omega), List.drop_append_of_le_length (by omega),
      blocksOf_append n (p.drop 64) q (by simp; omega)]
    rfl

/-! ### What has been added so far -/

abbrev K : Nat → Word := fun i => consts.getD i 0
abbrev H : V := ⟨0x6a09e667, 0xbb67ae85, 0x3c6ef372, 0xa54ff53a, 0x510e527f, 0x9b05688c, 0x1f83d9ab, 0x5be0cd19⟩

structure Has (s : S) (p q : List Byte) : Prop where
  whole : ∃ n, p.length = 64 * n
  size : q.length = s.size
  bytes : s.numBytes = BitVec.ofNat 64 p.length
  hash : s.hash = (blocksOf p).foldl (compress K) H
  buffer : ∀ i, i < s.size → s.buffer i = q.getD i 0

theorem has_reset (s : S) : Has (reset s) [] [] :=
  ⟨⟨0, rfl⟩, rfl, rfl, by simp [reset, blocksOf_nil], fun i h => absurd h (Nat.not_lt_zero i)⟩

theorem has_put {s : S} {p q : List Byte} (h : Has s p q) (x : Byte) :
    Has { s with buffer := put s.buffer s.size x, size := s.size + 1 } p (q ++ [x]) := by
  refine ⟨h.whole, by simp [h.size], h.bytes, h.hash, ?_⟩
  intro i hi
  simp only at hi
  have hs := h.size
  simp only [put]
  by_cases e : i = s.size
  · rw [if_pos e]; subst e
    simp [List.getD_eq_getElem?_getD, List.getElem?_append, hs]
  · rw [if_neg e, h.buffer i (by omega)]
    simp [List.getD_eq_getElem?_getD, List.getElem?_append, hs, show i < s.size by omega]

theorem has_fill : ∀ (l : List Byte) (s : S) (p q : List Byte), Has s p q → s.size ≤ 64 →
    ∃ t, l = t ++ (fill s l).2 ∧ Has (fill s l).1 p (q ++ t) ∧ (fill s l).1.size ≤ 64 ∧ ((fill s l).2 = [] ∨ (fill s l).1.size = 64)
  | [], s, p, q, h, hs => ⟨[], rfl, by simpa [fill] using h, hs, Or.inl rfl⟩
  | x :: l, s, p, q, h, hs => by
    unfold fill
    split
    · next lt =>
      obtain ⟨t, h1, h2, h3, h4⟩ := has_fill l _ p (q ++ [x]) (has_put h x) (by simp only; omega)
      refine ⟨x :: t, ?_, ?_, h3, h4⟩
      · rw [List.cons_append]; exact congrArg _ h1
      · rw [List.append_assoc] at h2; exact h2
    · exact ⟨[], rfl, by simpa using h, hs, Or.inr (by simp only; omega)⟩

theorem has_keep : ∀ (l : List Byte) (s : S) (p q : List Byte), Has s p q → Has (keep s l) p (q ++ l)
  | [], s, p, q, h => by simpa [keep] using h
  | x :: l, s, p, q, h => by
    have := has_keep l _ p (q ++ [x]) (has_put h x)
    rw [List.append_assoc] at this
    exact this

theorem keep_size : ∀ (l : List Byte) (s : S), (keep s l).size = s.size + l.length
  | [], s => rfl
  | x :: l, s => by
    unfold keep
    rw [keep_size l]; simp; omega

theorem has_block {s : S} {p : List Byte} (block : List Byte) (data : Nat → Byte) (z : Nat) (hw : ∃ n, p.length = 64 * n)
    (hb : s.numBytes = BitVec.ofNat 64 p.length) (hh : s.hash = (blocksOf p).foldl (compress K) H) (hl : block.length = 64)
    (hd : ∀ i, i < 64 → data i = block.getD i 0) :
    Has { s with hash := processBlock data s.hash, numBytes := s.numBytes + 64, size := 0 } (p ++ block) [] := by
  obtain ⟨n, hn⟩ := hw
  refine ⟨⟨n + 1, by simp; omega⟩, rfl, ?_, ?_, fun i h => absurd h (Nat.not_lt_zero i)⟩
  · simp only [hb, List.length_append, hl]
    rw [BitVec.ofNat_add]; rfl
  · simp only
    rw [blocksOf_append n p block hn, blocksOf_one block hl, List.foldl_append, ← hh, processBlock_eq data block _ hd]
    rfl

theorem has_blocks : ∀ (k : Nat) (l : List Byte) (s : S) (p : List Byte), l.length ≤ k → Has s p [] →
    ∃ t, l = t ++ (blocks s l).2 ∧ Has (blocks s l).1 (p ++ t) [] ∧ (blocks s l).2.length < 64
  | k, l, s, p, hk, h => by
    unfold blocks
    split
    · next hl =>
      have hz : s.size = 0 := by have := h.size; simpa using this.symm
      have hb := has_block (s := s) (p := p) (l.take 64) (fun i => l.getD i 0) 0 h.whole h.bytes h.hash (by simp; omega) (by
        intro i hi
        simp [List.getD_eq_getElem?_getD, List.getElem?_take, hi])
      have e : ({ s with hash := processBlock (fun i => l.getD i 0) s.hash, numBytes := s.numBytes + 64, size := 0 } : S) =
          { s with hash := processBlock (fun i => l.getD i 0) s.hash, numBytes := s.numBytes + 64 } := by rw [← hz]
      rw [e] at hb
      match k with
      | 0 => omega
      | k + 1 =>
        obtain ⟨t, h1, h2, h3⟩ := has_blocks k (l.drop 64) _ _ (by simp; omega) hb
        refine ⟨l.take 64 ++ t, ?_, ?_, h3⟩
        · rw [List.append_assoc, ← h1, List.take_append_drop]
        · rw [List.append_assoc] at h2; exact h2
    · exact ⟨[], rfl, by simpa using h, by simp only; omega⟩

/-- The object knows of the message `m`: the whole blocks are in the hash and in the count, the rest is in the buffer. -/
def Added (s : S) (m : List Byte) : Prop := ∃ p q, m = p ++ q ∧ Has s p q ∧ s.size < 64

theorem added_reset (s : S) : Added (reset s) [] := ⟨[], [], rfl, has_reset s, show 0 < 64 by decide⟩

/-- The part of `add` after the buffer. -/
theorem add_tail {s : S} {p : List Byte} (l : List Byte) (h : Has s p []) :
    Added (if l = [] then s else let (s, l) := blocks s l; keep s l) (p ++ l) := by
  have hz : s.size = 0 := by have := h.size; simpa using this.symm
  split
  · next e => subst e; exact ⟨p, [], rfl, h, by omega⟩
  · obtain ⟨t, h1, h2, h3⟩ := has_blocks _ l s p (Nat.le_refl _) h
    have hz' : (blocks s l).1.size = 0 := by have := h2.size; simpa using this.symm
    refine ⟨p ++ t, (blocks s l).2, ?_, by simpa using has_keep (blocks s l).2 _ _ _ h2, ?_⟩
    · rw [List.append_assoc, ← h1]
    · show (keep (blocks s l).1 (blocks s l).2).size < 64
      rw [keep_size]; omega

theorem added_add {s : S} {m : List Byte} (l : List Byte) (h : Added s m) : Added (add s l) (m ++ l) := by
  obtain ⟨p, q, e, h, hs⟩ := h
  subst e
  by_cases hz : s.size > 0
  · obtain ⟨t, h1, h2, h3, h4⟩ := has_fill l s p q h (by omega)
    simp only [add, if_pos hz]
    by_cases h64 : (fill s l).1.size = 64
    · simp only [if_pos h64]
      have := has_block (s := (fill s l).1) (p := p) (q ++ t) (fill s l).1.buffer 0 h2.whole h2.bytes h2.hash
        (by rw [h2.size, h64]) (fun i hi => h2.buffer i (by omega))
      have := add_tail (fill s l).2 this
      rw [List.append_assoc, List.append_assoc, ← h1, ← List.append_assoc] at this
      exact this
    · simp only [if_neg h64]
      have hn : (fill s l).2 = [] := by rcases h4 with h4 | h4; exact h4; exact absurd h4 h64
      rw [if_pos hn]
      rw [hn, List.append_nil] at h1
      subst h1
      exact ⟨p, q ++ l, by simp, h2, by omega⟩
  · have hq : q = [] := List.eq_nil_of_length_eq_zero (by have := h.size; omega)
    subst hq
    simp only [add, if_neg hz]
    rw [if_neg (by omega : ¬s.size = 64)]
    simpa using add_tail l h

/-! ### The last block -/

theorem zero_eq : ∀ (n a : Nat) (p : Nat → Byte) (j : Nat), zero n a p j = if a ≤ j ∧ j < a + n then 0 else p j
  | 0, a, p, j => by unfold zero; rw [if_neg (by omega)]
  | n + 1, a, p, j => by
    unfold zero
    rw [zero_eq n (a + 1)]
    simp only [put]
    by_cases h : j = a
    · subst h; rw [if_neg (by omega), if_pos rfl, if_pos (by omega)]
    · rw [if_neg h]
      by_cases h' : a + 1 ≤ j ∧ j < a + 1 + n
      · rw [if_pos h', if_pos (by omega)]
      · rw [if_neg h', if_neg (by omega)]

theorem byte_eq (n k j : Nat) (hk : k = 8 * j) (hj : j < 8) :
    ((BitVec.ofNat 64 n) >>> k).setWidth 8 = BitVec.ofNat 8 (n / 256 ^ j) := by
  apply BitVec.eq_of_toNat_eq
  subst hk
  simp only [BitVec.toNat_setWidth, BitVec.toNat_ushiftRight, BitVec.toNat_ofNat, Nat.shiftRight_eq_div_pow]
  rcases (by omega : j = 0 ∨ j = 1 ∨ j = 2 ∨ j = 3 ∨ j = 4 ∨ j = 5 ∨ j = 6 ∨ j = 7) with h|h|h|h|h|h|h|h <;> subst h <;> omega

theorem putLength_eq (p : Nat → Byte) (i n j : Nat) (h : j < i + 8) :
    putLength p i (BitVec.ofNat 64 n) j = if j < i then p j else (bigEndian 8 n).getD (j - i) 0 := by
  simp only [putLength, put]
  by_cases hj : j < i
  · rw [if_pos hj]
    simp [show ¬j = i + 7 by omega, show ¬j = i + 6 by omega, show ¬j = i + 5 by omega, show ¬j = i + 4 by omega,
      show ¬j = i + 3 by omega, show ¬j = i + 2 by omega, show ¬j = i + 1 by omega, show ¬j = i by omega]
  · rw [if_neg hj]
    obtain ⟨d, rfl⟩ : ∃ d, j = i + d := ⟨j - i, by omega⟩
    rw [Nat.add_sub_cancel_left]
    rw [byte_eq n 56 7 rfl (by omega), byte_eq n 48 6 rfl (by omega), byte_eq n 40 5 rfl (by omega), byte_eq n 32 4 rfl (by omega),
      byte_eq n 24 3 rfl (by omega), byte_eq n 16 2 rfl (by omega), byte_eq n 8 1 rfl (by omega), byte_eq n 0 0 rfl (by omega)]
    rcases (by omega : d = 0 ∨ d = 1 ∨ d = 2 ∨ d = 3 ∨ d = 4 ∨ d = 5 ∨ d = 6 ∨ d = 7) with h|h|h|h|h|h|h|h <;> subst h <;>
      simp [bigEndian]

theorem bigEndian_length : ∀ n x, (bigEndian n x).length = n
  | 0, _ => rfl
  | n + 1, x => by simp [bigEndian, bigEndian_length n]

/-- What `pad` adds, after the bytes of the last incomplete block. -/
def rest (q : List Byte) (len : Nat) : List Byte :=
  q ++ [0x80] ++ List.replicate ((119 - q.length % 64) % 64) 0 ++ bigEndian 8 (8 * len)

theorem rest_getD (q : List Byte) (len j : Nat) (hq : q.length < 64) :
    (rest q len).getD j 0 =
      if j < q.length then q.getD j 0 else if j = q.length then 128
      else if j < q.length + 1 + (119 - q.length % 64) % 64 then 0
      else (bigEndian 8 (8 * len)).getD (j - (q.length + 1 + (119 - q.length % 64) % 64)) 0 := by
  simp only [rest, List.getD_eq_getElem?_getD, List.getElem?_append, List.length_append, List.length_replicate, List.length_singleton]
  generalize (119 - q.length % 64) % 64 = z
  by_cases h1 : j < q.length
  · rw [if_pos (by omega), if_pos (by omega), if_pos h1, if_pos h1]
  · by_cases h2 : j = q.length
    · subst h2
      rw [if_pos (by omega), if_pos (by omega), if_neg h1, if_neg h1, if_pos rfl]
      simp
    · rw [if_neg (by omega : ¬j < q.length + 1)]
      simp only [if_neg h1, if_neg h2]
      by_cases h3 : j < q.length + 1 + z
      · rw [if_pos h3, if_pos h3]
        simp only [List.getElem?_replicate]
        rw [if_pos (by omega)]; rfl
      · rw [if_neg h3, if_neg h3]

theorem pad_eq (p q : List Byte) (n : Nat) (hp : p.length = 64 * n) : pad (p ++ q) = p ++ rest q (p.length + q.length) := by
  have : (p ++ q).length % 64 = q.length % 64 := by simp; omega
  simp only [pad, rest, this]
  simp [List.append_assoc]

theorem msgBits_eq (s : S) (p q : List Byte) (h : Has s p q) :
    8 * (s.numBytes + BitVec.ofNat 64 s.size) = BitVec.ofNat 64 (8 * (p.length + q.length)) := by
  rw [h.bytes, ← h.size, ← BitVec.ofNat_add, BitVec.ofNat_mul]; rfl

theorem processBuffer_hash {s : S} {m : List Byte} (junk : Nat → Byte) (h : Added s m) : (processBuffer junk s).hash = digest K H m := by
  obtain ⟨p, q, e, h, hs⟩ := h
  subst e
  obtain ⟨n, hn⟩ := h.whole
  have hq := h.size
  simp only [digest]
  rw [pad_eq p q n hn, blocksOf_append n p _ hn, List.foldl_append, ← h.hash]
  simp only [processBuffer, msgBits_eq s p q h, if_pos hs]
  have hbits : (if (s.size * 8 + 1) % 512 ≤ 448 then s.size * 8 + 1 + (448 - (s.size * 8 + 1) % 512)
      else s.size * 8 + 1 + (512 + 448 - (s.size * 8 + 1) % 512)) / 8 = if s.size ≤ 55 then 56 else 120 := by
    repeat' split
    all_goals omega
  rw [hbits]
  have hl : (rest q (p.length + q.length)).length = if s.size ≤ 55 then 64 else 128 := by
    simp only [rest, List.length_append, List.length_replicate, List.length_singleton, bigEndian_length]
    split <;> omega
  by_cases h55 : s.size ≤ 55
  · rw [if_pos h55] at hl
    rw [if_pos h55, if_pos (show 56 < 64 by decide), if_neg (show ¬56 > 64 by decide), if_pos (show 56 < 64 by decide), blocksOf_one _ hl]
    simp only [List.foldl_cons, List.foldl_nil]
    apply processBlock_eq
    intro i hi
    rw [putLength_eq _ _ _ _ (by omega), rest_getD q _ i (by omega), zero_eq]
    simp only [put]
    have hz : q.length + 1 + (119 - q.length % 64) % 64 = 56 := by omega
    rw [hz]
    by_cases a : i < q.length
    · rw [if_pos (by omega), if_neg (by omega), if_neg (by omega), if_pos a, h.buffer i (by omega)]
    · by_cases b : i = q.length
      · rw [if_pos (by omega), if_neg (by omega), if_pos (by omega), if_neg a, if_pos b]
      · by_cases c : i < 56
        · rw [if_pos c, if_pos (by omega), if_neg a, if_neg b, if_pos c]
        · rw [if_neg c, if_neg a, if_neg b, if_neg c]
  · rw [if_neg h55] at hl
    rw [if_neg h55, if_neg (show ¬120 < 64 by decide), if_pos (show 120 > 64 by decide), if_neg (show ¬120 < 64 by decide),
      show 120 - max 64 (s.size + 1) = 56 by omega, show max 64 (s.size + 1) - 64 = 0 by omega]
    have hb : blocksOf (rest q (p.length + q.length)) =
        [(rest q (p.length + q.length)).take 64, (rest q (p.length + q.length)).drop 64] := by
      conv => lhs; rw [← List.take_append_drop 64 (rest q (p.length + q.length))]
      rw [blocksOf_append 1 _ _ (by simp; omega), blocksOf_one _ (by simp; omega), blocksOf_one _ (by simp; omega)]
      rfl
    rw [hb]
    simp only [List.foldl_cons, List.foldl_nil]
    have hz : q.length + 1 + (119 - q.length % 64) % 64 = 120 := by omega
    have h1 : processBlock (zero (64 - (s.size + 1)) (s.size + 1) (put s.buffer s.size 128)) s.hash =
        compress K s.hash ((rest q (p.length + q.length)).take 64) := by
      apply processBlock_eq
      intro i hi
      rw [show ((rest q (p.length + q.length)).take 64).getD i 0 = (rest q (p.length + q.length)).getD i 0 by
        simp [List.getD_eq_getElem?_getD, List.getElem?_take, hi], rest_getD q _ i (by omega), zero_eq]
      simp only [put]
      rw [hz]
      by_cases a : i < q.length
      · rw [if_neg (by omega), if_neg (by omega), if_pos a, h.buffer i (by omega)]
      · by_cases b : i = q.length
        · rw [if_neg (by omega), if_pos (by omega), if_neg a, if_pos b]
        · rw [if_pos (by omega), if_neg a, if_neg b, if_pos (by omega)]
    rw [h1]
    apply processBlock_eq
    intro i hi
    rw [show ((rest q (p.length + q.length)).drop 64).getD i 0 = (rest q (p.length + q.length)).getD (64 + i) 0 by
      simp [List.getD_eq_getElem?_getD, List.getElem?_drop], rest_getD q _ _ (by omega), putLength_eq _ _ _ _ (by omega), zero_eq]
    rw [hz]
    rw [if_neg (by omega : ¬64 + i < q.length), if_neg (by omega : ¬64 + i = q.length)]
    by_cases c : i < 56
    · rw [if_pos (by omega), if_pos (by omega), if_pos (by omega)]
    · rw [if_neg (by omega), if_neg (by omega)]
      congr 1; omega

/-! ### The text -/

theorem digit_eq : ∀ n < 16, dec2hex.getD n '?' = if n < 10 then Char.ofNat (48 + n) else Char.ofNat (87 + n) := by decide

theorem nib (w : Word) (k : Nat) : ((w >>> k) &&& 15).toNat = w.toNat / 2 ^ k % 16 := by
  rw [BitVec.toNat_and, BitVec.toNat_ushiftRight, Nat.shiftRight_eq_div_pow]
  exact Nat.and_two_pow_sub_one_eq_mod _ 4

theorem hexWord_eq (w : Word) : hexWord w = (bigEndian 4 w.toNat).flatMap hexByte := by
  have hw := w.isLt
  generalize hn : w.toNat = n
  rw [hn] at hw
  have e : ∀ k, ((w >>> k) &&& 15).toNat = n / 2 ^ k % 16 := fun k => by rw [nib, hn]
  have d : ∀ k, dec2hex.getD (n / 2 ^ k % 16) '?' = if n / 2 ^ k % 16 < 10 then Char.ofNat (48 + n / 2 ^ k % 16) else Char.ofNat (87 + n / 2 ^ k % 16) :=
    fun k => digit_eq _ (Nat.mod_lt _ (by decide))
  simp only [hexWord, List.map_cons, List.map_nil, e, d, bigEndian, List.flatMap_cons, List.flatMap_nil, hexByte, BitVec.toNat_ofNat,
    List.cons_append, List.nil_append]
  have a3 : n / 256 ^ 3 % 2 ^ 8 / 16 = n / 2 ^ 28 % 16 := by omega
  have b3 : n / 256 ^ 3 % 2 ^ 8 % 16 = n / 2 ^ 24 % 16 := by omega
  have a2 : n / 256 ^ 2 % 2 ^ 8 / 16 = n / 2 ^ 20 % 16 := by omega
  have b2 : n / 256 ^ 2 % 2 ^ 8 % 16 = n / 2 ^ 16 % 16 := by omega
  have a1 : n / 256 ^ 1 % 2 ^ 8 / 16 = n / 2 ^ 12 % 16 := by omega
  have b1 : n / 256 ^ 1 % 2 ^ 8 % 16 = n / 2 ^ 8 % 16 := by omega
  have a0 : n / 256 ^ 0 % 2 ^ 8 / 16 = n / 2 ^ 4 % 16 := by omega
  have b0 : n / 256 ^ 0 % 2 ^ 8 % 16 = n / 2 ^ 0 % 16 := by omega
  rw [a3, b3, a2, b2, a1, b1, a0, b0]

theorem getHash_text {s : S} {m : List Byte} (junk : Nat → Byte) (h : Added s m) :
    (getHash junk s).1 = (bytes (digest K H m)).flatMap hexByte := by
  simp only [getHash, processBuffer_hash junk h, hexWord_eq, bytes, List.flatMap_cons, List.flatMap_nil, List.flatMap_append,
    List.append_nil, List.append_assoc]

theorem getHash_keeps {s : S} {m : List Byte} (junk : Nat → Byte) (h : Added s m) : Added (getHash junk s).2 m := by
  obtain ⟨p, q, e, h, hs⟩ := h
  refine ⟨p, q, e, ⟨h.whole, h.size, h.bytes, h.hash, ?_⟩, hs⟩
  intro i hi
  have hi' : i < s.size := hi
  rw [← h.buffer i hi']
  simp only [getHash, processBuffer, msgBits_eq s p q h, if_pos hs]
  have hbits : (if (s.size * 8 + 1) % 512 ≤ 448 then s.size * 8 + 1 + (448 - (s.size * 8 + 1) % 512)
      else s.size * 8 + 1 + (512 + 448 - (s.size * 8 + 1) % 512)) / 8 = if s.size ≤ 55 then 56 else 120 := by
    repeat' split
    all_goals omega
  rw [hbits]
  by_cases h55 : s.size ≤ 55
  · rw [if_pos h55, if_pos (show 56 < 64 by decide), putLength_eq _ _ _ _ (by omega), if_pos (by omega), zero_eq, if_neg (by omega)]
    simp only [put]
    rw [if_neg (by omega)]
  · rw [if_neg h55, if_neg (show ¬120 < 64 by decide), zero_eq, if_neg (by omega)]
    simp only [put]
    rw [if_neg (by omega)]

/-! ### The properties -/

/-- C152: for every string, whatever the memory of the object and of the local buffer held before, the text is the 64 lower-case hexadecimal
digits of the FIPS 180-4 digest. -/
theorem sha256_is_fips (any : S) (junk : Nat → Byte) (input : List Byte) :
    SHA256 any junk input = (bytes (digest K H input)).flatMap hexByte := by
  have := added_add input (added_reset any)
  rw [List.nil_append] at this
  exact getHash_text junk this

/-- What a user of the object does, in any order. -/
inductive Op
  | add (l : List Byte)
  | get (junk : Nat → Byte)
  | reset

def perform : S → Op → S
  | s, .add l => add s l
  | s, .get junk => (getHash junk s).2
  | s, .reset => reset s

/-- The bytes added since the last `reset`. -/
def message : List Byte → Op → List Byte
  | m, .add l => m ++ l
  | m, .get _ => m
  | _, .reset => []

theorem added_run : ∀ (ops : List Op) (s : S) (m : List Byte), Added s m → Added (ops.foldl perform s) (ops.foldl message m)
  | [], s, m, h => h
  | .add l :: ops, s, m, h => added_run ops _ _ (added_add l h)
  | .get junk :: ops, s, m, h => added_run ops _ _ (getHash_keeps junk h)
  | .reset :: ops, s, m, h => added_run ops _ _ (added_reset s)

/-- C152: the pieces in which the bytes come, the hashes read on the way and what was added before a `reset` make no difference. -/
theorem sha256_streaming (any : S) (junk : Nat → Byte) (ops : List Op) :
    (getHash junk (ops.foldl perform (reset any))).1 = (bytes (digest K H (ops.foldl message []))).flatMap hexByte :=
  getHash_text junk (added_run ops _ _ (added_reset any))

/-- The digest of "abc" is that of FIPS 180-4, and of the empty string; of two pieces with a hash read between them. -/
theorem sha256_of_abc : SHA256 ⟨7, 70, fun _ => 9, H⟩ (fun _ => 5) [0x61, 0x62, 0x63] =
    "ba7816bf8f01cfea414140de5dae2223b00361a396177a9cb410ff61f20015ad".toList := by decide +kernel
theorem sha256_of_empty : SHA256 ⟨7, 70, fun _ => 9, H⟩ (fun _ => 5) [] =
    "e3b0c44298fc1c149afbf4c8996fb92427ae41e4649b934ca495991b7852b855".toList := by decide +kernel
theorem sha256_of_two_pieces : (getHash (fun _ => 5) ([.add [0x61], .get (fun _ => 3), .add [0x62, 0x63]].foldl perform (reset ⟨7, 70, fun _ => 9, H⟩))).1 =
    "ba7816bf8f01cfea414140de5dae2223b00361a396177a9cb410ff61f20015ad".toList := by decide +kernel

end Current.Sha256
