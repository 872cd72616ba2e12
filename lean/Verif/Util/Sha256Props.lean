import Verif.Util.Sha256
/-! C152: proofs. -/
set_option linter.unusedSimpArgs false
set_option linter.unusedVariables false
namespace Current.Sha256
open Fips

theorem rotate_eq (a : Word) (c : Nat) (h : c < 32) : rotate a c = a.rotateRight c := by
  rw [BitVec.rotateRight_eq_rotateRightAux_of_lt h]
  rfl

theorem f1_eq (e f g : Word) : f1 e f g = Sigma1 e + Ch e f g := by
  simp only [f1, rotate_eq _ _ (show 6 < 32 by decide), rotate_eq _ _ (show 11 < 32 by decide), rotate_eq _ _ (show 25 < 32 by decide)]
  rfl

theorem maj_eq (a b c : Word) : ((a ||| b) &&& c) ||| (a &&& b) = Maj a b c := by
  apply BitVec.eq_of_getLsbD_eq
  intro i hi
  simp only [Maj, BitVec.getLsbD_or, BitVec.getLsbD_and, BitVec.getLsbD_xor]
  cases a.getLsbD i <;> cases b.getLsbD i <;> cases c.getLsbD i <;> rfl

theorem f2_eq (a b c : Word) : f2 a b c = Sigma0 a + Maj a b c := by
  simp only [f2, rotate_eq _ _ (show 2 < 32 by decide), rotate_eq _ _ (show 13 < 32 by decide), rotate_eq _ _ (show 22 < 32 by decide), maj_eq]
  rfl

theorem swap_load (p : Nat → Byte) (i : Nat) : swap (load p i) = p (4 * i) ++ p (4 * i + 1) ++ p (4 * i + 2) ++ p (4 * i + 3) := by
  apply BitVec.eq_of_getLsbD_eq
  intro j hj
  simp only [swap, load, BitVec.getLsbD_append, BitVec.getLsbD_extractLsb']
  generalize p (4 * i) = b0
  generalize p (4 * i + 1) = b1
  generalize p (4 * i + 2) = b2
  generalize p (4 * i + 3) = b3
  have hj : j = 0 ∨ j = 1 ∨ j = 2 ∨ j = 3 ∨ j = 4 ∨ j = 5 ∨ j = 6 ∨ j = 7 ∨ j = 8 ∨ j = 9 ∨ j = 10 ∨ j = 11 ∨ j = 12 ∨ j = 13 ∨ j = 14 ∨ j = 15 ∨ j = 16 ∨ j = 17 ∨ j = 18 ∨ j = 19 ∨ j = 20 ∨ j = 21 ∨ j = 22 ∨ j = 23 ∨ j = 24 ∨ j = 25 ∨ j = 26 ∨ j = 27 ∨ j = 28 ∨ j = 29 ∨ j = 30 ∨ j = 31 := by omega
  rcases hj with rfl | rfl | rfl | rfl | rfl | rfl | rfl | rfl | rfl | rfl | rfl | rfl | rfl | rfl | rfl | rfl | rfl | rfl | rfl | rfl | rfl | rfl | rfl | rfl | rfl | rfl | rfl | rfl | rfl | rfl | rfl | rfl <;> simp

/-! ### The rounds -/

theorem line_step (K : Nat → Word) (block : List Byte) (v : V) (t : Nat) (k w : Word) (hk : k = K t) (hw : w = W block t) :
    step K block v t = ⟨(line v.a v.b v.c v.d v.e v.f v.g v.h k w).2, v.a, v.b, v.c, (line v.a v.b v.c v.d v.e v.f v.g v.h k w).1, v.e, v.f, v.g⟩ := by
  subst hk hw
  simp only [step, line, f1_eq, f2_eq, BitVec.add_assoc]

theorem eight_steps (K : Nat → Word) (block : List Byte) (k w : Nat → Word) (i : Nat) (v : V)
    (hk : ∀ j, j < 8 → k (i + j) = K (i + j)) (hw : ∀ j, j < 8 → w (i + j) = W block (i + j)) :
    eight k w i v = (List.range' i 8).foldl (step K block) v := by
  have h0 := fun v => line_step K block v i (k i) (w i) (hk 0 (by decide)) (hw 0 (by decide))
  have h1 := fun v => line_step K block v (i + 1) (k (i + 1)) (w (i + 1)) (hk 1 (by decide)) (hw 1 (by decide))
  have h2 := fun v => line_step K block v (i + 2) (k (i + 2)) (w (i + 2)) (hk 2 (by decide)) (hw 2 (by decide))
  have h3 := fun v => line_step K block v (i + 3) (k (i + 3)) (w (i + 3)) (hk 3 (by decide)) (hw 3 (by decide))
  have h4 := fun v => line_step K block v (i + 4) (k (i + 4)) (w (i + 4)) (hk 4 (by decide)) (hw 4 (by decide))
  have h5 := fun v => line_step K block v (i + 5) (k (i + 5)) (w (i + 5)) (hk 5 (by decide)) (hw 5 (by decide))
  have h6 := fun v => line_step K block v (i + 6) (k (i + 6)) (w (i + 6)) (hk 6 (by decide)) (hw 6 (by decide))
  have h7 := fun v => line_step K block v (i + 7) (k (i + 7)) (w (i + 7)) (hk 7 (by decide)) (hw 7 (by decide))
  show _ = step K block (step K block (step K block (step K block (step K block (step K block (step K block (step K block v i) (i + 1))
    (i + 2)) (i + 3)) (i + 4)) (i + 5)) (i + 6)) (i + 7)
  simp only [eight]
  rw [h0 v]
  generalize line v.a v.b v.c v.d v.e v.f v.g v.h (k i) (w i) = r0
  obtain ⟨d0, hh0⟩ := r0
  rw [h1]
  dsimp only
  generalize line hh0 v.a v.b v.c d0 v.e v.f v.g (k (i + 1)) (w (i + 1)) = r
  obtain ⟨c1, g1⟩ := r
  rw [h2]
  dsimp only
  generalize line g1 hh0 v.a v.b c1 d0 v.e v.f (k (i + 2)) (w (i + 2)) = r
  obtain ⟨b1, f1'⟩ := r
  rw [h3]
  dsimp only
  generalize line f1' g1 hh0 v.a b1 c1 d0 v.e (k (i + 3)) (w (i + 3)) = r
  obtain ⟨a1, e1⟩ := r
  rw [h4]
  dsimp only
  generalize line e1 f1' g1 hh0 a1 b1 c1 d0 (k (i + 4)) (w (i + 4)) = r
  obtain ⟨h1', d1⟩ := r
  rw [h5]
  dsimp only
  generalize line d1 e1 f1' g1 h1' a1 b1 c1 (k (i + 5)) (w (i + 5)) = r
  obtain ⟨g2, c2⟩ := r
  rw [h6]
  dsimp only
  generalize line c2 d1 e1 f1' g2 h1' a1 b1 (k (i + 6)) (w (i + 6)) = r
  obtain ⟨f2', b2⟩ := r
  rw [h7]

/-! ### The message schedule -/

theorem W_word (block : List Byte) (t : Nat) (h : t < 16) : W block t = M block t := by
  rw [W, if_pos h]

theorem extend_W (block : List Byte) : ∀ (n m : Nat), 16 ≤ m →
    extend n ((List.range m).map (W block)) = (List.range (m + n)).map (W block)
  | 0, m, _ => rfl
  | n + 1, m, hm => by
    have at_ : ∀ j, j < m → ((List.range m).map (W block)).getD j 0 = W block j := by
      intro j hj
      simp [List.getD_eq_getElem?_getD, hj]
    simp only [extend, List.length_map, List.length_range]
    rw [at_ _ (by omega), at_ _ (by omega), at_ _ (by omega), at_ _ (by omega)]
    simp only [rotate_eq _ _ (show 7 < 32 by decide), rotate_eq _ _ (show 18 < 32 by decide), rotate_eq _ _ (show 17 < 32 by decide),
      rotate_eq _ _ (show 19 < 32 by decide)]
    have hW : W block m = W block (m - 16) + ((W block (m - 15)).rotateRight 7 ^^^ (W block (m - 15)).rotateRight 18 ^^^ (W block (m - 15)) >>> 3) +
        W block (m - 7) + ((W block (m - 2)).rotateRight 17 ^^^ (W block (m - 2)).rotateRight 19 ^^^ (W block (m - 2)) >>> 10) := by
      conv => lhs; rw [W, if_neg (by omega)]
      simp only [sigma0, sigma1]
      generalize W block (m - 16) = a
      generalize W block (m - 7) = b
      generalize ((W block (m - 15)).rotateRight 7 ^^^ (W block (m - 15)).rotateRight 18 ^^^ (W block (m - 15)) >>> 3) = c
      generalize ((W block (m - 2)).rotateRight 17 ^^^ (W block (m - 2)).rotateRight 19 ^^^ (W block (m - 2)) >>> 10) = d
      ac_rfl
    rw [← hW, show (List.range m).map (W block) ++ [W block m] = (List.range (m + 1)).map (W block) by simp [List.range_succ],
      extend_W block n (m + 1) (by omega)]
    congr 2
    omega

theorem processBlock_eq (data : Nat → Byte) (block : List Byte) (m : V) (h : ∀ i, i < 64 → data i = block.getD i 0) :
    processBlock data m = compress (fun i => consts.getD i 0) m block := by
  have hw0 : ((List.range 16).map fun i => swap (load data i)) = (List.range 16).map (W block) := by
    apply List.map_congr_left
    intro i hi
    have hi := List.mem_range.1 hi
    rw [swap_load, W_word _ _ hi, M, h _ (by omega), h _ (by omega), h _ (by omega), h _ (by omega)]
  have at_ : ∀ n i, i + 8 ≤ n → ∀ j, j < 8 → ((List.range n).map (W block)).getD (i + j) 0 = W block (i + j) := by
    intro n i hn j hj
    simp [List.getD_eq_getElem?_getD, show i + j < n by omega]
  simp only [processBlock, hw0, extend_W block 8 16 (by decide), extend_W block 8 (16 + 8) (by decide), extend_W block 8 (16 + 8 + 8) (by decide),
    extend_W block 8 (16 + 8 + 8 + 8) (by decide), extend_W block 8 (16 + 8 + 8 + 8 + 8) (by decide),
    extend_W block 8 (16 + 8 + 8 + 8 + 8 + 8) (by decide)]
  rw [eight_steps (fun i => consts.getD i 0) block _ _ 0 m (fun _ _ => rfl) (at_ _ 0 (by decide))]
  rw [eight_steps (fun i => consts.getD i 0) block _ _ 8 _ (fun _ _ => rfl) (at_ _ 8 (by decide))]
  rw [eight_steps (fun i => consts.getD i 0) block _ _ 16 _ (fun _ _ => rfl) (at_ _ 16 (by decide))]
  rw [eight_steps (fun i => consts.getD i 0) block _ _ 24 _ (fun _ _ => rfl) (at_ _ 24 (by decide))]
  rw [eight_steps (fun i => consts.getD i 0) block _ _ 32 _ (fun _ _ => rfl) (at_ _ 32 (by decide))]
  rw [eight_steps (fun i => consts.getD i 0) block _ _ 40 _ (fun _ _ => rfl) (at_ _ 40 (by decide))]
  rw [eight_steps (fun i => consts.getD i 0) block _ _ 48 _ (fun _ _ => rfl) (at_ _ 48 (by decide))]
  rw [eight_steps (fun i => consts.getD i 0) block _ _ 56 _ (fun _ _ => rfl) (at_ _ 56 (by decide))]
  simp only [← List.foldl_append]
  have : List.range' 0 8 ++ (List.range' 8 8 ++ (List.range' 16 8 ++ (List.range' 24 8 ++ (List.range' 32 8 ++ (List.range' 40 8 ++
      (List.range' 48 8 ++ List.range' 56 8)))))) = List.range 64 := by decide
  simp only [List.append_assoc, this, compress, BitVec.add_comm]

end Current.Sha256
