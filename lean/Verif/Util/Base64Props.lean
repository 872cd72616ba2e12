import Verif.Util.Base64
/-!
Proofs about `bricks/util/base64.h` (C39). The property theorems are at the end.
-/
namespace Current.Base64
open Current.Persist

/-! ### Lemmas: encoding -/

theorem put_append {α : Type} (w : List α) (x : α) (r : List α) (c : α) :
    (Out.mk (w ++ x :: r) w.length).put c = some ⟨(w ++ [c]) ++ r, (w ++ [c]).length⟩ := by
  simp [Out.put, List.set_append]

/-- The characters of a group, arithmetically. -/
def sym (map : List Char) (n : Nat) : Char := map.getD n '\x00'

def text (map : List Char) : List UInt8 → Str
  | a :: b :: c :: r =>
    sym map (a.toNat / 4) :: sym map (a.toNat % 4 * 16 + b.toNat / 16) :: sym map (b.toNat % 16 * 4 + c.toNat / 64) ::
      sym map (c.toNat % 64) :: text map r
  | [a, b] => [sym map (a.toNat / 4), sym map (a.toNat % 4 * 16 + b.toNat / 16), sym map (b.toNat % 16 * 4)]
  | [a] => [sym map (a.toNat / 4), sym map (a.toNat % 4 * 16)]
  | [] => []

theorem drain8 (map : List Char) (buf : Nat) (w : List Char) (x : Char) (r : List Char) :
    drain map buf 8 ⟨w ++ x :: r, w.length⟩ = some (2, ⟨(w ++ [sym map (buf / 4 % 64)]) ++ r, (w ++ [sym map (buf / 4 % 64)]).length⟩) := by
  rw [drain, if_pos (by omega), put_append]
  simp only [Nat.reduceSub]
  rw [drain, if_neg (by omega)]
  rfl

theorem drain10 (map : List Char) (buf : Nat) (w : List Char) (x : Char) (r : List Char) :
    drain map buf 10 ⟨w ++ x :: r, w.length⟩ = some (4, ⟨(w ++ [sym map (buf / 16 % 64)]) ++ r, (w ++ [sym map (buf / 16 % 64)]).length⟩) := by
  rw [drain, if_pos (by omega), put_append]
  simp only [Nat.reduceSub]
  rw [drain, if_neg (by omega)]
  rfl

theorem drain12 (map : List Char) (buf : Nat) (w : List Char) (x y : Char) (r : List Char) :
    drain map buf 12 ⟨w ++ x :: y :: r, w.length⟩ =
      some (0, ⟨(w ++ [sym map (buf / 64 % 64)] ++ [sym map (buf % 64)]) ++ r, (w ++ [sym map (buf / 64 % 64)] ++ [sym map (buf % 64)]).length⟩) := by
  rw [drain, if_pos (by omega), put_append]
  simp only [Nat.reduceSub]
  rw [drain, if_pos (by omega), put_append]
  simp only [Nat.reduceSub]
  rw [drain, if_neg (by omega)]
  simp only [sym, Nat.reducePow, Nat.div_one]

theorem loop1 (map : List Char) (a : UInt8) (rest : List UInt8) (buf : Nat) (w : List Char) (x : Char) (r : List Char) :
    encodeLoop map (a :: rest) buf 0 ⟨w ++ x :: r, w.length⟩ =
      encodeLoop map rest ((buf * 256 + a.toNat) % 65536) 2
        ⟨(w ++ [sym map (a.toNat / 4)]) ++ r, (w ++ [sym map (a.toNat / 4)]).length⟩ := by
  have ha := a.toNat_lt
  rw [encodeLoop]
  simp only [Nat.zero_add, drain8]
  have : (buf * 256 + a.toNat) % 65536 / 4 % 64 = a.toNat / 4 := by omega
  rw [this]

theorem loop2 (map : List Char) (b : UInt8) (rest : List UInt8) (buf : Nat) (w : List Char) (x : Char) (r : List Char) :
    encodeLoop map (b :: rest) buf 2 ⟨w ++ x :: r, w.length⟩ =
      encodeLoop map rest ((buf * 256 + b.toNat) % 65536) 4
        ⟨(w ++ [sym map (buf % 4 * 16 + b.toNat / 16)]) ++ r, (w ++ [sym map (buf % 4 * 16 + b.toNat / 16)]).length⟩ := by
  have hb := b.toNat_lt
  rw [encodeLoop]
  simp only [Nat.reduceAdd, drain10]
  have : (buf * 256 + b.toNat) % 65536 / 16 % 64 = buf % 4 * 16 + b.toNat / 16 := by omega
  rw [this]

theorem loop3 (map : List Char) (c : UInt8) (rest : List UInt8) (buf : Nat) (w : List Char) (x y : Char) (r : List Char) :
    encodeLoop map (c :: rest) buf 4 ⟨w ++ x :: y :: r, w.length⟩ =
      encodeLoop map rest ((buf * 256 + c.toNat) % 65536) 0
        ⟨(w ++ [sym map (buf % 16 * 4 + c.toNat / 64)] ++ [sym map (c.toNat % 64)]) ++ r,
         (w ++ [sym map (buf % 16 * 4 + c.toNat / 64)] ++ [sym map (c.toNat % 64)]).length⟩ := by
  have hc := c.toNat_lt
  rw [encodeLoop]
  simp only [Nat.reduceAdd, drain12]
  have h1 : (buf * 256 + c.toNat) % 65536 / 64 % 64 = buf % 16 * 4 + c.toNat / 64 := by omega
  have h2 : (buf * 256 + c.toNat) % 65536 % 64 = c.toNat % 64 := by omega
  rw [h1, h2]

/-- What `encode` does after the loop. -/
def finish (map : List Char) (size : Nat) : Option (Nat × Nat × Out Char) → Outcome Str
  | none => .oob
  | some (buf, nbits, o) =>
    match (if 0 < nbits then o.put (map.getD (buf * 64 / 2 ^ nbits % 64) '\x00') else some o) with
    | none => .oob
    | some o' =>
      if o'.p ≤ size then
        match padLoop (size - o'.p) o' with
        | none => .oob
        | some o'' => .ok o''.cells
      else .asserts

theorem encode_eq (kind : Kind) (s : List UInt8) :
    encode kind s = finish (encodeMap kind) (4 * (s.length / 3) + (if s.length % 3 ≠ 0 then 4 else 0))
      (encodeLoop (encodeMap kind) s 0 0 ⟨List.replicate (4 * (s.length / 3) + (if s.length % 3 ≠ 0 then 4 else 0)) '\x00', 0⟩) := rfl

theorem padLoop_eq (k : Nat) (w r : List Char) (h : r.length = k) :
    padLoop k ⟨w ++ r, w.length⟩ = some ⟨w ++ List.replicate k '=', (w ++ List.replicate k '=').length⟩ := by
  induction k generalizing w r with
  | zero =>
    have : r = [] := List.length_eq_zero_iff.mp h
    simp [padLoop, this]
  | succ k ih =>
    cases r with
    | nil => cases h
    | cons x r =>
      rw [padLoop, put_append]
      simp only
      rw [ih _ _ (by simpa using h)]
      simp [padChar, List.replicate_succ]

def sizeOf' (n : Nat) : Nat := 4 * (n / 3) + (if n % 3 ≠ 0 then 4 else 0)

theorem sizeOf'_add (n : Nat) : sizeOf' (n + 3) = sizeOf' n + 4 := by
  unfold sizeOf'
  split <;> split <;> omega

theorem mod16 (x b : Nat) (_ : b < 2 ^ 8) : (x * 256 + b) % 65536 % 16 = b % 16 := by omega

theorem mod64 (x b : Nat) (_ : b < 2 ^ 8) : (x * 256 + b) % 65536 * 64 / 2 ^ 4 % 64 = b % 16 * 4 := by omega

theorem finish_ok (map : List Char) (w r : List Char) (buf : Nat) :
    finish map (w ++ r).length (some (buf, 0, ⟨w ++ r, w.length⟩)) = .ok (w ++ List.replicate r.length '=') := by
  have h : (w ++ r).length - w.length = r.length := by simp
  have h2 : w.length ≤ (w ++ r).length := by simp
  simp only [finish, Nat.lt_irrefl, if_false, if_pos h2, h, padLoop_eq _ w r rfl]

theorem finish_put (map : List Char) (w : List Char) (x : Char) (r : List Char) (buf nbits : Nat) (hn : 0 < nbits) :
    finish map (w ++ x :: r).length (some (buf, nbits, ⟨w ++ x :: r, w.length⟩)) =
      .ok (w ++ [sym map (buf * 64 / 2 ^ nbits % 64)] ++ List.replicate r.length '=') := by
  have e : (w ++ x :: r).length = ((w ++ [sym map (buf * 64 / 2 ^ nbits % 64)]) ++ r).length := by simp
  rw [e]
  have := finish_ok map (w ++ [sym map (buf * 64 / 2 ^ nbits % 64)]) r buf
  simp only [finish, Nat.lt_irrefl, if_false] at this
  simp only [finish, if_pos hn, put_append]
  exact this

theorem text_length (map : List Char) (s : List UInt8) : (text map s).length = (4 * s.length + 2) / 3 := by
  induction s using text.induct with
  | case1 a b c r ih => simp only [text, List.length_cons, ih]; omega
  | case2 => simp [text]
  | case3 => simp [text]
  | case4 => simp [text]

theorem encode_loop_eq (map : List Char) (s : List UInt8) : ∀ (buf : Nat) (w r : List Char), r.length = sizeOf' s.length →
    finish map (w ++ r).length (encodeLoop map s buf 0 ⟨w ++ r, w.length⟩) =
      .ok (w ++ text map s ++ List.replicate (r.length - (text map s).length) '=') := by
  induction s using text.induct with
  | case1 a b c s ih =>
    intro buf w r hr
    have hr' : r.length = sizeOf' s.length + 4 := by
      rw [hr]; exact sizeOf'_add s.length
    match r, hr' with
    | x1 :: x2 :: x3 :: x4 :: r, hr' =>
      rw [loop1, loop2, loop3]
      have hb := b.toNat_lt; have ha := a.toNat_lt
      have e1 : (buf * 256 + a.toNat) % 65536 % 4 = a.toNat % 4 := by omega
      have e2 : (((buf * 256 + a.toNat) % 65536 * 256 + b.toNat) % 65536) % 16 = b.toNat % 16 := mod16 _ _ hb
      rw [e1, e2]
      have := ih ((((buf * 256 + a.toNat) % 65536 * 256 + b.toNat) % 65536 * 256 + c.toNat) % 65536)
        (w ++ [sym map (a.toNat / 4)] ++ [sym map (a.toNat % 4 * 16 + b.toNat / 16)] ++
          [sym map (b.toNat % 16 * 4 + c.toNat / 64)] ++ [sym map (c.toNat % 64)]) r (by simpa using hr')
      have el : (w ++ x1 :: x2 :: x3 :: x4 :: r).length = (w ++ [sym map (a.toNat / 4)] ++ [sym map (a.toNat % 4 * 16 + b.toNat / 16)] ++
          [sym map (b.toNat % 16 * 4 + c.toNat / 64)] ++ [sym map (c.toNat % 64)] ++ r).length := by simp
      rw [el, this]
      simp only [text, List.append_assoc, List.cons_append, List.nil_append, List.length_cons]
      congr 1
      congr 1
      have : r.length + 1 + 1 + 1 + 1 - ((text map s).length + 1 + 1 + 1 + 1) = r.length - (text map s).length := by omega
      rw [this]
  | case2 a b =>
    intro buf w r hr
    have hr' : r.length = 4 := by rw [hr]; simp [sizeOf']
    match r, hr' with
    | [x1, x2, x3, x4], _ =>
      rw [loop1, loop2, encodeLoop]
      have hb := b.toNat_lt; have ha := a.toNat_lt
      have e1 : (buf * 256 + a.toNat) % 65536 % 4 = a.toNat % 4 := by omega
      have el : (w ++ [x1, x2, x3, x4]).length = (w ++ [sym map (a.toNat / 4)] ++ [sym map (a.toNat % 4 * 16 + b.toNat / 16)] ++ [x3, x4]).length := by simp
      rw [e1, el, finish_put _ _ _ _ _ _ (by omega)]
      have e2 : ((((buf * 256 + a.toNat) % 65536) * 256 + b.toNat) % 65536) * 64 / 2 ^ 4 % 64 = b.toNat % 16 * 4 := mod64 _ _ hb
      rw [e2]
      simp [text]
  | case3 a =>
    intro buf w r hr
    have hr' : r.length = 4 := by rw [hr]; simp [sizeOf']
    match r, hr' with
    | [x1, x2, x3, x4], _ =>
      rw [loop1, encodeLoop]
      have ha := a.toNat_lt
      have el : (w ++ [x1, x2, x3, x4]).length = (w ++ [sym map (a.toNat / 4)] ++ [x2, x3, x4]).length := by simp
      rw [el, finish_put _ _ _ _ _ _ (by omega)]
      have e2 : ((buf * 256 + a.toNat) % 65536) * 64 / 2 ^ 2 % 64 = a.toNat % 4 * 16 := by omega
      rw [e2]
      simp [text]
  | case4 =>
    intro buf w r hr
    have hr' : r.length = 0 := by rw [hr]; rfl
    have : r = [] := List.length_eq_zero_iff.mp hr'
    subst this
    rw [encodeLoop, finish_ok]
    simp [text]

theorem encode_text (kind : Kind) (s : List UInt8) :
    encode kind s = .ok (text (encodeMap kind) s ++ List.replicate (sizeOf' s.length - (text (encodeMap kind) s).length) '=') := by
  have := encode_loop_eq (encodeMap kind) s 0 [] (List.replicate (sizeOf' s.length) '\x00') (by simp)
  simp only [List.nil_append, List.length_nil, List.length_replicate] at this
  rw [encode_eq]
  exact this

/-! ### Lemmas: bits -/

theorem bits_length (k n : Nat) : (bits k n).length = k := by
  induction k with
  | zero => rfl
  | succ k ih => simp [bits, ih]

theorem sextets_cons (l r : List Nat) (h : l.length = 6) : sextets (l ++ r) = l :: sextets r := by
  rw [sextets, if_neg (by intro e; have := congrArg List.length e; simp [h] at this)]
  have e1 : ((l ++ r) ++ List.replicate 5 0).take 6 = l := by
    rw [List.append_assoc, List.take_append_of_le_length (by omega), List.take_of_length_le (by omega)]
  have e2 : (l ++ r).drop 6 = r := by rw [← h, List.drop_left]
  rw [e1, e2]

theorem sextets_nil : sextets [] = [] := by rw [sextets, if_pos rfl]

theorem sextets_last (l : List Nat) (h : l ≠ []) (h6 : l.length ≤ 6) : sextets l = [(l ++ List.replicate 5 0).take 6] := by
  rw [sextets, if_neg h]
  have e : l.drop 6 = [] := List.drop_eq_nil_of_le h6
  rw [e, sextets_nil]

theorem octets_cons (l r : List Nat) (h : l.length = 8) : octets (l ++ r) = l :: octets r := by
  rw [octets, if_neg (by simp [h])]
  have e1 : (l ++ r).take 8 = l := by rw [← h, List.take_left]
  have e2 : (l ++ r).drop 8 = r := by rw [← h, List.drop_left]
  rw [e1, e2]

theorem octets_short (l : List Nat) (h : l.length < 8) : octets l = [] := by rw [octets, if_pos h]

/-! ### RFC 3548 -/

theorem specText_eq (kind : Kind) (s : List UInt8) : specText kind s = text (encodeMap kind) s := by
  unfold specText
  induction s using text.induct with
  | case1 a b c r ih =>
    have ha := a.toNat_lt; have hb := b.toNat_lt; have hc := c.toNat_lt
    have e : bitsOf (a :: b :: c :: r) =
        (bits 8 a.toNat).take 6 ++ (((bits 8 a.toNat).drop 6 ++ (bits 8 b.toNat).take 4) ++
          (((bits 8 b.toNat).drop 4 ++ (bits 8 c.toNat).take 2) ++ ((bits 8 c.toNat).drop 2 ++ bitsOf r))) := by
      simp only [bitsOf, List.flatMap_cons, bits, List.take, List.drop, List.cons_append, List.nil_append]
    rw [e, sextets_cons _ _ (by simp [bits_length]), sextets_cons _ _ (by simp [bits_length]),
      sextets_cons _ _ (by simp [bits_length]), sextets_cons _ _ (by simp [bits_length])]
    simp only [List.map_cons, ih, text, sym]
    have f1 : ofBits ((bits 8 a.toNat).take 6) = a.toNat / 4 := by
      simp only [ofBits, bits, List.take, List.foldl]; omega
    have f2 : ofBits ((bits 8 a.toNat).drop 6 ++ (bits 8 b.toNat).take 4) = a.toNat % 4 * 16 + b.toNat / 16 := by
      simp only [ofBits, bits, List.take, List.drop, List.foldl, List.cons_append, List.nil_append]; omega
    have f3 : ofBits ((bits 8 b.toNat).drop 4 ++ (bits 8 c.toNat).take 2) = b.toNat % 16 * 4 + c.toNat / 64 := by
      simp only [ofBits, bits, List.take, List.drop, List.foldl, List.cons_append, List.nil_append]; omega
    have f4 : ofBits ((bits 8 c.toNat).drop 2) = c.toNat % 64 := by
      simp only [ofBits, bits, List.drop, List.foldl]; omega
    rw [f1, f2, f3, f4]
  | case2 a b =>
    have ha := a.toNat_lt; have hb := b.toNat_lt
    have e : bitsOf [a, b] =
        (bits 8 a.toNat).take 6 ++ (((bits 8 a.toNat).drop 6 ++ (bits 8 b.toNat).take 4) ++ (bits 8 b.toNat).drop 4) := by
      simp only [bitsOf, List.flatMap_cons, List.flatMap_nil, bits, List.take, List.drop, List.cons_append, List.nil_append]
    rw [e, sextets_cons _ _ (by simp [bits_length]), sextets_cons _ _ (by simp [bits_length]),
      sextets_last _ (by simp [bits]) (by simp [bits_length])]
    simp only [List.map_cons, List.map_nil, text, sym]
    have f1 : ofBits ((bits 8 a.toNat).take 6) = a.toNat / 4 := by
      simp only [ofBits, bits, List.take, List.foldl]; omega
    have f2 : ofBits ((bits 8 a.toNat).drop 6 ++ (bits 8 b.toNat).take 4) = a.toNat % 4 * 16 + b.toNat / 16 := by
      simp only [ofBits, bits, List.take, List.drop, List.foldl, List.cons_append, List.nil_append]; omega
    have f3 : ofBits (((bits 8 b.toNat).drop 4 ++ List.replicate 5 0).take 6) = b.toNat % 16 * 4 := by
      simp only [ofBits, bits, List.take, List.drop, List.foldl, List.cons_append, List.nil_append, List.replicate]; omega
    rw [f1, f2, f3]
  | case3 a =>
    have ha := a.toNat_lt
    have e : bitsOf [a] = (bits 8 a.toNat).take 6 ++ (bits 8 a.toNat).drop 6 := by
      simp only [bitsOf, List.flatMap_cons, List.flatMap_nil, bits, List.take, List.drop, List.cons_append, List.nil_append]
    rw [e, sextets_cons _ _ (by simp [bits_length]), sextets_last _ (by simp [bits]) (by simp [bits_length])]
    simp only [List.map_cons, List.map_nil, text, sym]
    have f1 : ofBits ((bits 8 a.toNat).take 6) = a.toNat / 4 := by
      simp only [ofBits, bits, List.take, List.foldl]; omega
    have f3 : ofBits (((bits 8 a.toNat).drop 6 ++ List.replicate 5 0).take 6) = a.toNat % 4 * 16 := by
      simp only [ofBits, bits, List.take, List.drop, List.foldl, List.cons_append, List.nil_append, List.replicate]; omega
    rw [f1, f3]
  | case4 => simp [bitsOf, sextets_nil, text]

/-! ### Lemmas: decoding -/

/-- The characters of both alphabets. -/
def good (c : Char) : Bool := isValidChar .canonical c || isValidChar .url c

theorem good_lt (c : Char) (h : good c = true) : c.toNat < 128 := by
  simp only [good, isValidChar, Bool.or_eq_true, Bool.and_eq_true, decide_eq_true_eq, Char.le_def, UInt32.le_iff_toNat_le] at h
  have e : c.toNat = c.val.toNat := rfl
  rw [e]
  have e0 : '0'.val.toNat = 48 := rfl
  have e1 : '9'.val.toNat = 57 := rfl
  have e2 : 'A'.val.toNat = 65 := rfl
  have e3 : 'Z'.val.toNat = 90 := rfl
  have e4 : 'a'.val.toNat = 97 := rfl
  have e5 : 'z'.val.toNat = 122 := rfl
  rcases h with (((h | h) | h) | h | h) | (((h | h) | h) | h | h)
  · omega
  · omega
  · omega
  · subst h; decide
  · subst h; decide
  · omega
  · omega
  · omega
  · subst h; decide
  · subst h; decide

theorem digit_lt (c : Char) : digit c < 64 := by
  unfold digit
  simp only [Char.le_def, UInt32.le_iff_toNat_le]
  have e : c.toNat = c.val.toNat := rfl
  rw [e]
  have e0 : '0'.val.toNat = 48 := rfl
  have e1 : '9'.val.toNat = 57 := rfl
  have e2 : 'A'.val.toNat = 65 := rfl
  have e3 : 'Z'.val.toNat = 90 := rfl
  have e4 : 'a'.val.toNat = 97 := rfl
  have e5 : 'z'.val.toNat = 122 := rfl
  repeat' split
  all_goals omega

theorem table : ∀ n, n < 128 → good (Char.ofNat n) = true →
    decodeMap.getD n 0 = digit (Char.ofNat n) ∧ digit (Char.ofNat n) < 64 ∧ Char.ofNat n ≠ '=' := by
  decide +kernel

theorem good_digit (c : Char) (h : good c = true) : decodeMap.getD c.toNat 0 = digit c ∧ digit c < 64 ∧ c ≠ '=' := by
  have := table c.toNat (good_lt c h)
  rw [Char.ofNat_toNat] at this
  exact this h

theorem valid_good {kind : Kind} {c : Char} (h : isValidChar kind c = true) : good c = true := by
  cases kind <;> simp [good, h]

/-- The bytes of a group, arithmetically. -/
def bytes : Str → List UInt8
  | a :: b :: c :: d :: r =>
    UInt8.ofNat (digit a * 4 + digit b / 16) :: UInt8.ofNat (digit b % 16 * 16 + digit c / 4) ::
      UInt8.ofNat (digit c % 4 * 64 + digit d) :: bytes r
  | [a, b, c] => [UInt8.ofNat (digit a * 4 + digit b / 16), UInt8.ofNat (digit b % 16 * 16 + digit c / 4)]
  | [a, b] => [UInt8.ofNat (digit a * 4 + digit b / 16)]
  | [_] => []
  | [] => []

theorem bytes_length (t : Str) : (bytes t).length = 3 * t.length / 4 := by
  induction t using bytes.induct with
  | case1 a b c d r ih => simp only [bytes, List.length_cons, ih]; omega
  | case2 => simp [bytes]
  | case3 => simp [bytes]
  | case4 => simp [bytes]
  | case5 => simp [bytes]

/-- The characters that the mode accepts. -/
def accepts (kind : Kind) (debug : Bool) (c : Char) : Bool := if debug then isValidChar kind c else good c

theorem accepts_good {kind : Kind} {debug : Bool} {c : Char} (h : accepts kind debug c = true) : good c = true := by
  unfold accepts at h
  split at h
  · exact valid_good h
  · exact h

theorem step0 {kind : Kind} {debug : Bool} {c : Char} (h : accepts kind debug c = true) (rest : Str) (buf : Nat) (o : Out UInt8) :
    decodeLoop kind debug (c :: rest) buf 0 o = decodeLoop kind debug rest ((buf * 64 + digit c) % 65536) 6 o := by
  have hg := accepts_good h
  have ⟨h1, h2, h3⟩ := good_digit c hg
  have hd : (debug && !isValidChar kind c) = false := by
    unfold accepts at h; cases debug <;> simp_all
  have hl : ¬ decodeMap.length ≤ c.toNat := by have := good_lt c hg; simp only [decodeMap, List.length_cons, List.length_nil]; omega
  rw [decodeLoop, if_neg (show ¬ c = padChar from h3), hd, if_neg (by simp), if_neg hl, h1]
  simp

theorem stepPut {kind : Kind} {debug : Bool} {c : Char} (h : accepts kind debug c = true) (rest : Str) (buf nbits : Nat)
    (hn : 2 ≤ nbits) (w : List UInt8) (x : UInt8) (r : List UInt8) :
    decodeLoop kind debug (c :: rest) buf nbits ⟨w ++ x :: r, w.length⟩ =
      decodeLoop kind debug rest ((buf * 64 + digit c) % 65536) (nbits + 6 - 8)
        ⟨(w ++ [UInt8.ofNat ((buf * 64 + digit c) % 65536 / 2 ^ (nbits + 6 - 8) % 256)]) ++ r,
         (w ++ [UInt8.ofNat ((buf * 64 + digit c) % 65536 / 2 ^ (nbits + 6 - 8) % 256)]).length⟩ := by
  have hg := accepts_good h
  have ⟨h1, h2, h3⟩ := good_digit c hg
  have hd : (debug && !isValidChar kind c) = false := by
    unfold accepts at h; cases debug <;> simp_all
  have hl : ¬ decodeMap.length ≤ c.toNat := by have := good_lt c hg; simp only [decodeMap, List.length_cons, List.length_nil]; omega
  rw [decodeLoop, if_neg (show ¬ c = padChar from h3), hd, if_neg (by simp), if_neg hl, h1]
  simp only
  rw [if_pos (by omega), put_append]

theorem m1 (x a b : Nat) (_ : a < 64) (_ : b < 64) (h : x % 64 = a) : (x * 64 + b) % 65536 / 2 ^ (6 + 6 - 8) % 256 = a * 4 + b / 16 := by omega
theorem m2 (x b c : Nat) (_ : b < 64) (_ : c < 64) (h : x % 64 = b) : (x * 64 + c) % 65536 / 2 ^ (4 + 6 - 8) % 256 = b % 16 * 16 + c / 4 := by omega
theorem m3 (x c d : Nat) (_ : c < 64) (_ : d < 64) (h : x % 64 = c) : (x * 64 + d) % 65536 / 2 ^ (2 + 6 - 8) % 256 = c % 4 * 64 + d := by omega
theorem m0 (x b : Nat) (_ : b < 64) : (x * 64 + b) % 65536 % 64 = b := by omega

theorem decode_loop_eq (kind : Kind) (debug : Bool) (t : Str) : ∀ (rest : Str) (buf : Nat) (w r : List UInt8),
    (∀ c ∈ t, accepts kind debug c = true) → 3 * t.length / 4 ≤ r.length →
    ∃ buf' nbits', decodeLoop kind debug (t ++ rest) buf 0 ⟨w ++ r, w.length⟩ =
      decodeLoop kind debug rest buf' nbits' ⟨(w ++ bytes t) ++ r.drop (bytes t).length, (w ++ bytes t).length⟩ := by
  induction t using bytes.induct with
  | case1 a b c d t ih =>
    intro rest buf w r hg hr
    simp only [List.mem_cons, forall_eq_or_imp] at hg
    have hr' : 3 * t.length / 4 + 3 ≤ r.length := by simp only [List.length_cons] at hr; omega
    have ga := good_digit a (accepts_good hg.1)
    have gb := good_digit b (accepts_good hg.2.1)
    have gc := good_digit c (accepts_good hg.2.2.1)
    have gd := good_digit d (accepts_good hg.2.2.2.1)
    match r, hr' with
    | x :: y :: z :: r, hr' =>
      obtain ⟨b', n', e⟩ := ih rest _ (w ++ [UInt8.ofNat (digit a * 4 + digit b / 16)] ++
        [UInt8.ofNat (digit b % 16 * 16 + digit c / 4)] ++ [UInt8.ofNat (digit c % 4 * 64 + digit d)]) r hg.2.2.2.2
        (by simp only [List.length_cons] at hr'; omega)
      refine ⟨b', n', ?_⟩
      simp only [List.cons_append]
      rw [step0 hg.1, stepPut hg.2.1 _ _ _ (by omega), m1 _ _ _ ga.2.1 gb.2.1 (m0 _ _ ga.2.1),
        stepPut hg.2.2.1 _ _ _ (by omega), m2 _ _ _ gb.2.1 gc.2.1 (m0 _ _ gb.2.1),
        stepPut hg.2.2.2.1 _ _ _ (by omega), m3 _ _ _ gc.2.1 gd.2.1 (m0 _ _ gc.2.1)]
      refine Eq.trans e ?_
      simp [bytes]
  | case2 a b c =>
    intro rest buf w r hg hr
    simp only [List.mem_cons, forall_eq_or_imp] at hg
    have hr' : 2 ≤ r.length := by simp only [List.length_cons, List.length_nil] at hr; omega
    have ga := good_digit a (accepts_good hg.1)
    have gb := good_digit b (accepts_good hg.2.1)
    have gc := good_digit c (accepts_good hg.2.2.1)
    match r, hr' with
    | x :: y :: r, hr' =>
      simp only [List.cons_append, List.nil_append]
      rw [step0 hg.1, stepPut hg.2.1 _ _ _ (by omega), m1 _ _ _ ga.2.1 gb.2.1 (m0 _ _ ga.2.1),
        stepPut hg.2.2.1 _ _ _ (by omega), m2 _ _ _ gb.2.1 gc.2.1 (m0 _ _ gb.2.1)]
      exact ⟨_, _, by simp [bytes]; rfl⟩
  | case3 a b =>
    intro rest buf w r hg hr
    simp only [List.mem_cons, forall_eq_or_imp] at hg
    have hr' : 1 ≤ r.length := by simp only [List.length_cons, List.length_nil] at hr; omega
    have ga := good_digit a (accepts_good hg.1)
    have gb := good_digit b (accepts_good hg.2.1)
    match r, hr' with
    | x :: r, hr' =>
      simp only [List.cons_append, List.nil_append]
      rw [step0 hg.1, stepPut hg.2.1 _ _ _ (by omega), m1 _ _ _ ga.2.1 gb.2.1 (m0 _ _ ga.2.1)]
      exact ⟨_, _, by simp [bytes]; rfl⟩
  | case4 a =>
    intro rest buf w r hg hr
    simp only [List.mem_cons, forall_eq_or_imp] at hg
    simp only [List.cons_append, List.nil_append]
    rw [step0 hg.1]
    exact ⟨_, _, by simp [bytes]; rfl⟩
  | case5 =>
    intro rest buf w r hg hr
    exact ⟨buf, 0, by simp [bytes]⟩

theorem decode_loop_nil (kind : Kind) (debug : Bool) (buf nbits : Nat) (o : Out UInt8) :
    decodeLoop kind debug [] buf nbits o = .ok o := by rw [decodeLoop]

theorem decode_loop_pad (kind : Kind) (debug : Bool) (rest : Str) (buf nbits : Nat) (o : Out UInt8) :
    decodeLoop kind debug ('=' :: rest) buf nbits o = .ok ⟨resize o.cells o.p, o.p⟩ := by
  rw [decodeLoop, if_pos (show '=' = padChar from rfl)]

/-- A text of accepted characters, followed by nothing, or by `=` and anything. -/
theorem decode_ok (kind : Kind) (debug : Bool) (t rest : Str) (ht : ∀ c ∈ t, accepts kind debug c = true)
    (hrest : rest = [] ∨ ∃ r, rest = '=' :: r) : decode kind debug (t ++ rest) = .ok (bytes t) := by
  have hl : 3 * t.length / 4 ≤ (List.replicate (3 * (t ++ rest).length / 4) (0 : UInt8)).length := by
    simp only [List.length_replicate, List.length_append]; omega
  obtain ⟨b, n, e⟩ := decode_loop_eq kind debug t rest 0 [] _ ht hl
  simp only [List.nil_append, List.length_nil] at e
  simp only [decode, e]
  rcases hrest with rfl | ⟨r, rfl⟩
  · rw [decode_loop_nil]
    have hd : (List.replicate (3 * (t ++ []).length / 4) (0 : UInt8)).drop (bytes t).length = [] := by
      apply List.drop_eq_nil_of_le; simp [bytes_length]
    simp only
    rw [hd, List.append_nil, if_neg (by simp)]
  · rw [decode_loop_pad]
    have hz : resize (bytes t ++ (List.replicate (3 * (t ++ '=' :: r).length / 4) (0 : UInt8)).drop (bytes t).length) (bytes t).length = bytes t := by
      unfold resize
      rw [List.take_left, List.length_append, Nat.sub_eq_zero_of_le (by omega)]
      simp
    simp only [hz]
    simp

theorem o1 (a b : Nat) (_ : a < 64) (_ : b < 64) : ofBits (bits 6 a ++ (bits 6 b).take 2) = a * 4 + b / 16 := by
  simp only [ofBits, bits, List.take, List.foldl, List.cons_append, List.nil_append]
  have ea : 2 * (2 * (2 * (2 * (2 * (2 * 0 + a / 2 ^ 5 % 2) + a / 2 ^ 4 % 2) + a / 2 ^ 3 % 2) + a / 2 ^ 2 % 2) + a / 2 ^ 1 % 2) + a / 2 ^ 0 % 2 = a := by omega
  rw [ea]; omega

theorem o2 (b c : Nat) (_ : b < 64) (_ : c < 64) : ofBits ((bits 6 b).drop 2 ++ (bits 6 c).take 4) = b % 16 * 16 + c / 4 := by
  simp only [ofBits, bits, List.take, List.drop, List.foldl, List.cons_append, List.nil_append]
  have eb : 2 * (2 * (2 * (2 * 0 + b / 2 ^ 3 % 2) + b / 2 ^ 2 % 2) + b / 2 ^ 1 % 2) + b / 2 ^ 0 % 2 = b % 16 := by omega
  rw [eb]; omega

theorem o3 (c d : Nat) (_ : c < 64) (_ : d < 64) : ofBits ((bits 6 c).drop 4 ++ bits 6 d) = c % 4 * 64 + d := by
  simp only [ofBits, bits, List.drop, List.foldl, List.cons_append, List.nil_append]
  have ec : 2 * (2 * 0 + c / 2 ^ 1 % 2) + c / 2 ^ 0 % 2 = c % 4 := by omega
  rw [ec]; omega

theorem bytes_spec (t : Str) : bytes t = specDecode t := by
  unfold specDecode
  induction t using bytes.induct with
  | case1 a b c d r ih =>
    have ha := digit_lt a; have hb := digit_lt b; have hc := digit_lt c; have hd := digit_lt d
    have e : (a :: b :: c :: d :: r).flatMap (fun c => bits 6 (digit c)) =
        (bits 6 (digit a) ++ (bits 6 (digit b)).take 2) ++ (((bits 6 (digit b)).drop 2 ++ (bits 6 (digit c)).take 4) ++
          (((bits 6 (digit c)).drop 4 ++ bits 6 (digit d)) ++ r.flatMap fun c => bits 6 (digit c))) := by
      simp only [List.flatMap_cons, bits, List.take, List.drop, List.cons_append, List.nil_append]
    rw [e, octets_cons _ _ (by simp [bits_length]), octets_cons _ _ (by simp [bits_length]), octets_cons _ _ (by simp [bits_length])]
    simp only [List.map_cons, ← ih, bytes, o1 _ _ ha hb, o2 _ _ hb hc, o3 _ _ hc hd]
  | case2 a b c =>
    have ha := digit_lt a; have hb := digit_lt b; have hc := digit_lt c
    have e : [a, b, c].flatMap (fun c => bits 6 (digit c)) =
        (bits 6 (digit a) ++ (bits 6 (digit b)).take 2) ++ (((bits 6 (digit b)).drop 2 ++ (bits 6 (digit c)).take 4) ++
          (bits 6 (digit c)).drop 4) := by
      simp only [List.flatMap_cons, List.flatMap_nil, bits, List.take, List.drop, List.cons_append, List.nil_append]
    rw [e, octets_cons _ _ (by simp [bits_length]), octets_cons _ _ (by simp [bits_length]), octets_short _ (by simp [bits_length])]
    simp only [List.map_cons, List.map_nil, bytes, o1 _ _ ha hb, o2 _ _ hb hc]
  | case3 a b =>
    have ha := digit_lt a; have hb := digit_lt b
    have e : [a, b].flatMap (fun c => bits 6 (digit c)) =
        (bits 6 (digit a) ++ (bits 6 (digit b)).take 2) ++ (bits 6 (digit b)).drop 2 := by
      simp only [List.flatMap_cons, List.flatMap_nil, bits, List.take, List.drop, List.cons_append, List.nil_append]
    rw [e, octets_cons _ _ (by simp [bits_length]), octets_short _ (by simp [bits_length])]
    simp only [List.map_cons, List.map_nil, bytes, o1 _ _ ha hb]
  | case4 a =>
    rw [octets_short _ (by simp [bits_length])]; rfl
  | case5 => rw [octets_short _ (by simp)]; rfl

theorem decode_loop_throws (kind : Kind) (rest : Str) (c : Char) (hc : isValidChar kind c = false) (hp : c ≠ '=') (buf nbits : Nat) (o : Out UInt8) :
    decodeLoop kind true (c :: rest) buf nbits o = .throws := by
  rw [decodeLoop, if_neg (show ¬ c = padChar from hp), if_pos (by simp [hc])]

theorem takeWhile_imp (p : Char → Bool) (t : Str) (c : Char) (h : c ∈ t.takeWhile p) : p c = true := by
  induction t with
  | nil => simp at h
  | cons a t ih =>
    rw [List.takeWhile_cons] at h
    split at h
    · rcases List.mem_cons.mp h with rfl | h
      · assumption
      · exact ih h
    · simp at h

/-- The split of a text at the first character that is not accepted. -/
theorem split_at (p : Char → Bool) (t : Str) : (∀ c ∈ t, p c = true) ∨ ∃ v c r, t = v ++ c :: r ∧ (∀ d ∈ v, p d = true) ∧ p c = false := by
  induction t with
  | nil => left; simp
  | cons a t ih =>
    cases ha : p a with
    | false => exact Or.inr ⟨[], a, t, rfl, by simp, ha⟩
    | true =>
      rcases ih with h | ⟨v, c, r, h1, h2, h3⟩
      · left; intro c hc; rcases List.mem_cons.mp hc with rfl | hc
        · exact ha
        · exact h c hc
      · refine Or.inr ⟨a :: v, c, r, by simp [h1], ?_, h3⟩
        intro d hd; rcases List.mem_cons.mp hd with rfl | hd
        · exact ha
        · exact h2 d hd

theorem alphabet_table : ∀ k : Fin 64, good ((encodeMap .canonical).getD k '\x00') = true ∧
    isValidChar .canonical ((encodeMap .canonical).getD k '\x00') = true ∧ digit ((encodeMap .canonical).getD k '\x00') = k ∧
    good ((encodeMap .url).getD k '\x00') = true ∧
    isValidChar .url ((encodeMap .url).getD k '\x00') = true ∧ digit ((encodeMap .url).getD k '\x00') = k := by
  decide +kernel

theorem sym_ok (kind : Kind) (n : Nat) (h : n < 64) :
    isValidChar kind (sym (encodeMap kind) n) = true ∧ digit (sym (encodeMap kind) n) = n := by
  have := alphabet_table ⟨n, h⟩
  cases kind
  · exact ⟨this.2.1, this.2.2.1⟩
  · exact ⟨this.2.2.2.2.1, this.2.2.2.2.2⟩

theorem text_valid (kind : Kind) (s : List UInt8) : ∀ c ∈ text (encodeMap kind) s, isValidChar kind c = true := by
  induction s using text.induct with
  | case1 a b c r ih =>
    have ha := a.toNat_lt; have hb := b.toNat_lt; have hc := c.toNat_lt
    intro x hx
    simp only [text, List.mem_cons] at hx
    rcases hx with rfl | rfl | rfl | rfl | hx
    · exact (sym_ok kind _ (by omega)).1
    · exact (sym_ok kind _ (by omega)).1
    · exact (sym_ok kind _ (by omega)).1
    · exact (sym_ok kind _ (by omega)).1
    · exact ih x hx
  | case2 a b =>
    have ha := a.toNat_lt; have hb := b.toNat_lt
    intro x hx
    simp only [text, List.mem_cons, List.not_mem_nil, or_false] at hx
    rcases hx with rfl | rfl | rfl
    · exact (sym_ok kind _ (by omega)).1
    · exact (sym_ok kind _ (by omega)).1
    · exact (sym_ok kind _ (by omega)).1
  | case3 a =>
    have ha := a.toNat_lt
    intro x hx
    simp only [text, List.mem_cons, List.not_mem_nil, or_false] at hx
    rcases hx with rfl | rfl
    · exact (sym_ok kind _ (by omega)).1
    · exact (sym_ok kind _ (by omega)).1
  | case4 => simp [text]

theorem bytes_text (kind : Kind) (s : List UInt8) : bytes (text (encodeMap kind) s) = s := by
  have key : ∀ n, n < 64 → digit (sym (encodeMap kind) n) = n := fun n h => (sym_ok kind n h).2
  induction s using text.induct with
  | case1 a b c r ih =>
    have ha := a.toNat_lt; have hb := b.toNat_lt; have hc := c.toNat_lt
    simp only [text, bytes, ih]
    rw [key _ (by omega), key _ (by omega), key _ (by omega), key _ (by omega)]
    simp only [List.cons.injEq, and_true]
    refine ⟨?_, ?_, ?_⟩
    all_goals
      apply UInt8.toNat_inj.mp
      simp only [UInt8.toNat_ofNat']
      omega
  | case2 a b =>
    have ha := a.toNat_lt; have hb := b.toNat_lt
    simp only [text, bytes]
    rw [key _ (by omega), key _ (by omega), key _ (by omega)]
    simp only [List.cons.injEq, and_true]
    refine ⟨?_, ?_⟩
    all_goals
      apply UInt8.toNat_inj.mp
      simp only [UInt8.toNat_ofNat']
      omega
  | case3 a =>
    have ha := a.toNat_lt
    simp only [text, bytes]
    rw [key _ (by omega), key _ (by omega)]
    simp only [List.cons.injEq, and_true]
    apply UInt8.toNat_inj.mp
    simp only [UInt8.toNat_ofNat']
    omega
  | case4 => rfl

/-- In release builds nothing is written out of bounds. -/
theorem release_loop (kind : Kind) (t : Str) : ∀ (buf nbits : Nat) (o : Out UInt8), nbits < 8 → nbits % 2 = 0 →
    o.p + (nbits + 6 * t.length) / 8 ≤ o.cells.length →
    ((∀ c ∈ t.takeWhile (· ≠ '='), c.toNat < 128) → ∃ o', decodeLoop kind false t buf nbits o = .ok o') ∧
    ((∃ c ∈ t.takeWhile (· ≠ '='), 128 ≤ c.toNat) → decodeLoop kind false t buf nbits o = .oob) := by
  induction t with
  | nil =>
    intro buf nbits o _ _ _
    exact ⟨fun _ => ⟨o, by rw [decodeLoop]⟩, fun h => by simp at h⟩
  | cons c t ih =>
    intro buf nbits o hn he hp
    rw [decodeLoop]
    by_cases h1 : c = padChar
    · rw [if_pos h1]
      refine ⟨fun _ => ⟨_, rfl⟩, fun h => ?_⟩
      have : c = '=' := h1
      simp [this] at h
    rw [if_neg h1, if_neg (by simp)]
    have h1' : c ≠ '=' := h1
    have hl : decodeMap.length = 128 := rfl
    rw [hl]
    by_cases h2 : 128 ≤ c.toNat
    · rw [if_pos h2]
      refine ⟨fun h => ?_, fun _ => rfl⟩
      have := h c (by simp [h1'])
      omega
    rw [if_neg h2]
    dsimp only
    have htw : (∀ d ∈ (c :: t).takeWhile (· ≠ '='), d.toNat < 128) → ∀ d ∈ t.takeWhile (· ≠ '='), d.toNat < 128 := by
      intro h d hd
      exact h d (by simp [List.takeWhile_cons, h1'] ; right; simpa using hd)
    have hex : (∃ d ∈ (c :: t).takeWhile (· ≠ '='), 128 ≤ d.toNat) → ∃ d ∈ t.takeWhile (· ≠ '='), 128 ≤ d.toNat := by
      rintro ⟨d, hd, hd2⟩
      simp only [List.takeWhile_cons, h1', ne_eq, not_false_eq_true, decide_true, if_true, List.mem_cons] at hd
      rcases hd with rfl | hd
      · omega
      · exact ⟨d, by simpa using hd, hd2⟩
    simp only [List.length_cons] at hp
    by_cases h8 : 8 ≤ nbits + 6
    · rw [if_pos h8]
      have hlt : o.p < o.cells.length := by omega
      simp only [Out.put, if_pos hlt]
      have := ih ((buf * 64 + decodeMap.getD c.toNat 0) % 65536) (nbits + 6 - 8)
        ⟨o.cells.set o.p (UInt8.ofNat ((buf * 64 + decodeMap.getD c.toNat 0) % 65536 / 2 ^ (nbits + 6 - 8) % 256)), o.p + 1⟩
        (by omega) (by omega) (by simp only [List.length_set]; omega)
      exact ⟨fun h => this.1 (htw h), fun h => this.2 (hex h)⟩
    · rw [if_neg h8]
      have := ih ((buf * 64 + decodeMap.getD c.toNat 0) % 65536) (nbits + 6) o (by omega) (by omega) (by omega)
      exact ⟨fun h => this.1 (htw h), fun h => this.2 (hex h)⟩

/-! ### Properties -/

/-- C39. What is encoded is the RFC 3548 text of the bytes; no write is out of bounds and the assertion never fails. -/
theorem encode_is_rfc3548 (kind : Kind) (s : List UInt8) : encode kind s = .ok (specEncode kind s) := by
  rw [encode_text, specEncode, specText_eq]
  congr 2
  rw [text_length]
  congr 1
  unfold sizeOf'
  split <;> omega

/-- C39. The encoding has four characters for each (started) group of three bytes; they are from the alphabet of the
encoding, except that the last one or two may be `=`. -/
theorem encoding_shape (kind : Kind) (s : List UInt8) : ∃ t, encode kind s = .ok t ∧ t.length = 4 * ((s.length + 2) / 3) ∧
    ∃ body pads, t = body ++ List.replicate pads '=' ∧ pads ≤ 2 ∧ pads = (3 - s.length % 3) % 3 ∧ ∀ c ∈ body, c ∈ encodeMap kind := by
  refine ⟨_, encode_text kind s, ?_, _, _, rfl, ?_, ?_, ?_⟩
  · simp only [List.length_append, List.length_replicate, text_length, sizeOf']
    split <;> omega
  · rw [text_length]; unfold sizeOf'; split <;> omega
  · rw [text_length]; unfold sizeOf'
    obtain h | h | h : s.length % 3 = 0 ∨ s.length % 3 = 1 ∨ s.length % 3 = 2 := by omega
    all_goals (rw [h]; simp only [ne_eq, not_true_eq_false, if_false, Nat.reduceSub, Nat.reduceMod, Nat.reduceEqDiff, not_false_eq_true, if_true]; omega)
  · intro c hc
    have hv := text_valid kind s c hc
    have hl := good_lt c (valid_good hv)
    have key : ∀ n, n < 128 → (isValidChar .canonical (Char.ofNat n) = true → Char.ofNat n ∈ encodeMap .canonical) ∧
        (isValidChar .url (Char.ofNat n) = true → Char.ofNat n ∈ encodeMap .url) := by decide +kernel
    have := key c.toNat hl
    rw [Char.ofNat_toNat] at this
    cases kind
    · exact this.1 hv
    · exact this.2 hv

/-- C39. Decoding what was encoded gives the bytes back, in debug and in release builds. -/
theorem decode_encode (kind : Kind) (debug : Bool) (s : List UInt8) :
    ∃ t, encode kind s = .ok t ∧ decode kind debug t = .ok s := by
  refine ⟨_, encode_text kind s, ?_⟩
  rw [decode_ok kind debug, bytes_text]
  · intro c hc
    have := text_valid kind s c hc
    unfold accepts; split
    · exact this
    · exact valid_good this
  · cases h : sizeOf' s.length - (text (encodeMap kind) s).length with
    | zero => left; rfl
    | succ n => right; exact ⟨List.replicate n '=', by simp [List.replicate_succ]⟩

/-- C39. Different strings have different encodings. -/
theorem encode_injective (kind : Kind) (s s' : List UInt8) (h : encode kind s = encode kind s') : s = s' := by
  obtain ⟨t, h1, h2⟩ := decode_encode kind true s
  obtain ⟨t', h1', h2'⟩ := decode_encode kind true s'
  rw [h1, h1'] at h
  injection h with h
  subst h
  rw [h2] at h2'
  injection h2'

/-- C39. A debug build decodes every text whose characters before the first `=` (if any) are of the alphabet, and to the
bytes RFC 3548 says; it throws on every other text. Nothing else can happen: no assertion fails, and no memory out of
bounds is touched. -/
theorem decode_debug (kind : Kind) (t : Str) :
    decode kind true t =
      if ∀ c ∈ t.takeWhile (· ≠ '='), isValidChar kind c = true then .ok (specDecode (t.takeWhile (· ≠ '='))) else .throws := by
  have hsplit : t = t.takeWhile (· ≠ '=') ++ t.dropWhile (· ≠ '=') := (List.takeWhile_append_dropWhile ..).symm
  split
  · rename_i h
    rw [← bytes_spec]
    conv => lhs; rw [hsplit]
    apply decode_ok
    · intro c hc; simpa [accepts] using h c hc
    · cases hd : t.dropWhile (· ≠ '=') with
      | nil => left; rfl
      | cons a r =>
        have := List.head_dropWhile_not (· ≠ '=') (l := t) (by rw [hd]; simp)
        simp only [hd, List.head_cons] at this
        right
        exact ⟨r, by simp at this; rw [this]⟩
  · rename_i h
    rcases split_at (isValidChar kind) (t.takeWhile (· ≠ '=')) with h' | ⟨v, c, r, h1, h2, h3⟩
    · exact absurd h' h
    have hc : c ≠ '=' := by
      have hm : c ∈ t.takeWhile (· ≠ '=') := by rw [h1]; simp
      simpa using takeWhile_imp _ _ _ hm
    have ht : t = v ++ (c :: (r ++ t.dropWhile (· ≠ '='))) := by
      conv => lhs; rw [hsplit, h1]
      simp
    have hl : 3 * v.length / 4 ≤ (List.replicate (3 * t.length / 4) (0 : UInt8)).length := by
      rw [List.length_replicate, ht]; simp only [List.length_append]; omega
    obtain ⟨b, n, e⟩ := decode_loop_eq kind true v (c :: (r ++ t.dropWhile (· ≠ '='))) 0 [] _ (fun d hd => by simpa [accepts] using h2 d hd) hl
    rw [← ht] at e
    simp only [List.nil_append, List.length_nil] at e
    simp only [decode, e, decode_loop_throws kind _ c h3 hc]

/-- C39. A release build reads outside of `decode_map` exactly for texts that have a byte above 127 before the first `=`. -/
theorem release_reads_out_of_bounds (kind : Kind) (t : Str) :
    decode kind false t = .oob ↔ ∃ c ∈ t.takeWhile (· ≠ '='), 128 ≤ c.toNat := by
  have := release_loop kind t 0 0 ⟨List.replicate (3 * t.length / 4) 0, 0⟩ (by omega) (by omega)
    (by simp only [List.length_replicate]; omega)
  by_cases h : ∃ c ∈ t.takeWhile (· ≠ '='), 128 ≤ c.toNat
  · simp only [decode, this.2 h, h]
  · obtain ⟨o', e⟩ := this.1 (fun c hc => by
      by_cases hl : c.toNat < 128
      · exact hl
      · exact absurd ⟨c, hc, by omega⟩ h)
    simp only [decode, e, h, iff_false]
    simp

/-- C39. On texts of the two alphabets a release build gives what RFC 3548 says; it takes characters of either alphabet. -/
theorem decode_release (kind : Kind) (t : Str)
    (h : ∀ c ∈ t.takeWhile (· ≠ '='), isValidChar .canonical c = true ∨ isValidChar .url c = true) :
    decode kind false t = .ok (specDecode (t.takeWhile (· ≠ '='))) := by
  have hsplit : t = t.takeWhile (· ≠ '=') ++ t.dropWhile (· ≠ '=') := (List.takeWhile_append_dropWhile ..).symm
  rw [← bytes_spec]
  conv => lhs; rw [hsplit]
  apply decode_ok
  · intro c hc; simp [accepts, good, h c hc]
  · cases hd : t.dropWhile (· ≠ '=') with
    | nil => left; rfl
    | cons a r =>
      have := List.head_dropWhile_not (· ≠ '=') (l := t) (by rw [hd]; simp)
      simp only [hd, List.head_cons] at this
      right
      exact ⟨r, by simp at this; rw [this]⟩

/-! ### Witnesses -/

/-- Two and one bytes in the last group. -/
example : encode .canonical [102, 111, 111, 98, 97] = .ok ['Z', 'm', '9', 'v', 'Y', 'm', 'E', '='] := by rw [encode_text]; decide +kernel
example : encode .url [255] = .ok ['_', 'w', '=', '='] := by rw [encode_text]; decide +kernel
/-- A text that is not an encoding of anything is decoded as well (the last bits are not looked at). -/
theorem not_only_encodings : decode .canonical true ['Q', 'Q', '=', '='] = .ok [65] ∧
    decode .canonical true ['Q', 'R', '=', '='] = .ok [65] ∧ decode .canonical true ['Q', 'R', '=', '?'] = .ok [65] ∧
    decode .canonical true ['Q'] = .ok [] := by decide +kernel
/-- A debug build throws; a release build does not notice. -/
theorem release_accepts_garbage : decode .canonical true ['Q', '?', 'Q', 'Q'] = .throws ∧
    decode .canonical false ['Q', '?', 'Q', 'Q'] = .ok [79, 244, 16] := by decide +kernel

end Current.Base64
