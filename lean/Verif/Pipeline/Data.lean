import Verif.Pipeline.Count
set_option linter.unusedSimpArgs false
set_option linter.unusedVariables false

/-! # Pipelines: what the workers see. -/

namespace Current.Pipeline

variable {β σ : Type}

/-- A worker which does not change the blobs. -/
def ReadOnly (c : Cfg β σ) (i : Nat) : Prop := ∀ w x, (c.f i w x).1 = x

/-- The invariant of the data. -/
structure Dat (c : Cfg β σ) (s : St β σ) : Prop where
  seen : ∀ i, 1 ≤ i → i < nOf c.workers → (s.seen i).reverse = (List.range (s.th i).cur).map (after c (i - 1))
  ws : ∀ i, 1 ≤ i → i < nOf c.workers → s.ws i = stateAfter (c.f i) (c.init i) (after c (i - 1)) (s.th i).cur
  blob : ∀ k, (k + 1) * c.B ≤ s.src.cur → s.src.cur ≤ k * c.B + c.SB → ∀ m, m < nOf c.workers →
    (∀ j, 1 ≤ j → j ≤ m → k < (s.th j).cur ∨ ReadOnly c j) → (∀ j, m < j → j < nOf c.workers → (s.th j).cur ≤ k ∨ ReadOnly c j) →
    readBlob c s.buf (k % c.S) = after c m k
  part : ∀ x, s.src.cur / c.B * c.B ≤ x → x < s.src.cur → s.buf (x % c.SB) = c.input x

theorem dat_init (c : Cfg β σ) : Dat c (St.init c) := by
  have hz : (St.init c).src.cur = 0 := rfl
  have ht : ∀ i, ((St.init c).th i).cur = 0 := fun _ => rfl
  constructor
  · intro i _ _; rw [ht]; rfl
  · intro i _ _; rw [ht]; rfl
  · intro k h; rw [hz, Nat.add_mul] at h; have := c.B_pos; omega
  · intro x _ h; rw [hz] at h; omega

/-- Steps which do not touch the data. -/
theorem Dat.congr {c : Cfg β σ} {s s' : St β σ} (h : Dat c s) (h1 : ∀ i, (s'.th i).cur = (s.th i).cur) (h2 : s'.src.cur = s.src.cur) (h3 : s'.buf = s.buf)
    (h4 : s'.ws = s.ws) (h5 : s'.seen = s.seen) : Dat c s' := by
  constructor
  · intro i a b; rw [h5, h1]; exact h.seen i a b
  · intro i a b; rw [h4, h1]; exact h.ws i a b
  · intro k; rw [h2, h3]; simp only [h1]; exact h.blob k
  · rw [h2, h3]; exact h.part

/-! ### Slots -/

theorem addr {S B k j : Nat} (hj : j < B) (hS : 0 < S) : k % S * B + j = (k * B + j) % (S * B) := by
  have h1 := Nat.div_add_mod k S
  have h2 := Nat.mod_lt k hS
  have h3 : k % S * B + j < S * B := by
    have : (k % S + 1) * B ≤ S * B := Nat.mul_le_mul_right _ h2
    rw [Nat.add_mul] at this
    omega
  have h4 : k * B + j = (k % S * B + j) + S * B * (k / S) := by
    calc k * B + j = (S * (k / S) + k % S) * B + j := by rw [h1]
      _ = _ := by rw [Nat.add_mul, Nat.mul_right_comm]; omega
  rw [h4, Nat.add_mul_mod_self_left, Nat.mod_eq_of_lt h3]

/-- Two positions in a window of the size of the buffer have different slots. -/
theorem slot_ne {S a b : Nat} (h1 : a < b) (h2 : b < a + S) : a % S ≠ b % S := by
  intro h
  have ha := Nat.div_add_mod a S
  have hb := Nat.div_add_mod b S
  have hS : 0 < S := by omega
  rcases Nat.lt_or_ge (a / S) (b / S) with hq | hq
  · have : S * (a / S + 1) ≤ S * (b / S) := Nat.mul_le_mul_left _ hq
    rw [Nat.mul_add] at this
    omega
  · have : S * (b / S) ≤ S * (a / S) := Nat.mul_le_mul_left _ hq
    omega

theorem readBlob_write (c : Cfg β σ) (buf : Nat → β) (p : Nat) (y : List β) (hy : y.length = c.B) : readBlob c (writeBlob c buf p y) p = y := by
  apply List.ext_getElem
  · simp [readBlob, hy]
  · intro n h1 h2
    rw [hy] at h2
    simp only [readBlob, List.getElem_map, List.getElem_range, writeBlob]
    rw [if_pos (by omega)]
    have : p * c.B + n - p * c.B = n := by omega
    rw [this, List.getD_eq_getElem?_getD, List.getElem?_eq_getElem (by omega)]
    rfl

theorem write_other (c : Cfg β σ) (buf : Nat → β) (p : Nat) (y : List β) {q : Nat} (hq : q / c.B ≠ p) : writeBlob c buf p y q = buf q := by
  unfold writeBlob
  rw [if_neg]
  intro ⟨h1, h2⟩
  apply hq
  rw [Nat.div_eq_iff c.B_pos]
  have := c.B_pos
  omega

theorem readBlob_other (c : Cfg β σ) (buf : Nat → β) (p p' : Nat) (y : List β) (hp : p' ≠ p) : readBlob c (writeBlob c buf p y) p' = readBlob c buf p' := by
  unfold readBlob
  apply List.map_congr_left
  intro j hj
  rw [List.mem_range] at hj
  apply write_other
  rw [Nat.mul_comm, Nat.mul_add_div c.B_pos, Nat.div_eq_of_lt hj]
  omega

theorem readBlob_length (c : Cfg β σ) (buf : Nat → β) (p : Nat) : (readBlob c buf p).length = c.B := by simp [readBlob]

/-! ### Workers which do not change the blobs -/

theorem after_readOnly (c : Cfg β σ) (a k : Nat) : ∀ d, (∀ j, a < j → j ≤ a + d → ReadOnly c j) → after c (a + d) k = after c a k := by
  intro d
  induction d with
  | zero => intro _; rfl
  | succ d ih =>
    intro h
    have e : after c (a + (d + 1)) k = after c (a + d) k := by
      show (c.f (a + d + 1) _ (after c (a + d) k)).1 = _
      exact h (a + d + 1) (by omega) (by omega) _ _
    rw [e]
    exact ih (fun j h1 h2 => h j h1 (by omega))

theorem after_readOnly' (c : Cfg β σ) {a b k : Nat} (hab : a ≤ b) (h : ∀ j, a < j → j ≤ b → ReadOnly c j) : after c b k = after c a k := by
  have := after_readOnly c a k (b - a) (by intro j h1 h2; exact h j h1 (by omega))
  rwa [show a + (b - a) = b by omega] at this

/-- Workers which share their stage do not change the blobs. -/
theorem mates {c : Cfg β σ} (hok : c.Ok) {i j : Nat} (h1 : 1 ≤ i) (h2 : i < nOf c.workers) (hj1 : U c.workers i ≤ j) (hj2 : j ≤ V c.workers i) (hne : j ≠ i) : ReadOnly c j := by
  have hl := Cnt.layout c
  have hb := hl.bounds i h1 h2
  have hs := hl.same i j h1 h2 hj1 hj2
  apply hok.parallel
  apply uv_isParallel
  show U c.workers j ≠ V c.workers j
  omega

theorem mates' {c : Cfg β σ} (hok : c.Ok) {i : Nat} (h1 : 1 ≤ i) (h2 : i < nOf c.workers) (hne : U c.workers i ≠ V c.workers i) : ReadOnly c i := by
  apply hok.parallel
  apply uv_isParallel
  exact hne

/-- Who is after the stage of a worker is not ahead of it. -/
theorem Cnt.later {c : Cfg β σ} {s : St β σ} (h : Cnt c s) {i j : Nat} (h1 : 1 ≤ i) (h2 : i < nOf c.workers) (hj : V c.workers i < j) (hj2 : j < nOf c.workers) :
    (s.th j).trail ≤ s.pub i := by
  have hl := Cnt.layout c
  have hb := hl.bounds i h1 h2
  have hb' := hl.bounds j (by omega) hj2
  refine h.trail_le (by omega) hj2 i ?_
  rcases Nat.lt_or_ge i (U c.workers j) with h' | h'
  · exact h'
  · have := hl.same j i (by omega) hj2 h' (by omega)
    omega

theorem Cnt.cur_le_blobs {c : Cfg β σ} {s : St β σ} (h : Cnt c s) {i : Nat} (h1 : 1 ≤ i) (h2 : i < nOf c.workers) : (s.th i).cur ≤ s.pub 0 := by
  have hb := (Cnt.layout c).bounds i h1 h2
  exact Nat.le_trans (h.cur_le_trail h1 h2) (h.trail_le h1 h2 0 (by omega))

theorem Cnt.bytes_le_cur {s : St β σ} : s.src.bytes ≤ s.src.cur := by unfold Source.cur at_; omega

theorem Cnt.cur_le_aval {c : Cfg β σ} {s : St β σ} (h : Cnt c s) : s.src.cur ≤ s.src.aval := by
  have := h.sle
  unfold Source.cur at_
  cases hw : s.src.work with
  | none => simpa using this
  | some k =>
    have := h.swork k hw
    unfold ChunkOk at this
    simp only
    omega

/-- What a worker which is about to do a blob has in its hands: the slot, and that the blob is in the buffer. -/
theorem Cnt.atBlob {c : Cfg β σ} {s : St β σ} (h : Cnt c s) {i : Nat} (h1 : 1 ≤ i) (h2 : i < nOf c.workers) {k : Chunk} (hk : (s.th i).work = some k) (hp : k.p < k.e) :
    k.p = (s.th i).cur % c.S ∧ (s.th i).cur < (s.th i).trail ∧ ((s.th i).cur + 1) * c.B ≤ s.src.cur ∧ s.src.cur ≤ (s.th i).cur * c.B + c.SB := by
  have hw := h.work i h1 h2 k hk
  unfold ChunkOk at hw
  have hc : (s.th i).cur = (s.th i).done + (k.p - k.p0) := by unfold Thread.cur at_; rw [hk]
  have hlt : (s.th i).cur < (s.th i).trail := by omega
  refine ⟨?_, hlt, ?_, ?_⟩
  · have h3 := Nat.div_add_mod (s.th i).done c.S
    have h4 : (s.th i).cur = k.p + c.S * ((s.th i).done / c.S) := by omega
    rw [h4, Nat.add_mul_mod_self_left, Nat.mod_eq_of_lt (by omega)]
  · have hb := (Cnt.layout c).bounds i h1 h2
    have h3 := h.trail_le h1 h2 0 (by omega)
    have h4 := h.bytes_ge
    have h5 : ((s.th i).cur + 1) * c.B ≤ s.pub 0 * c.B := Nat.mul_le_mul_right _ (by omega)
    have h6 := Cnt.bytes_le_cur (s := s)
    omega
  · have h3 := h.window h2
    have h4 := h.cur_le_aval
    have h5 : s.pub i * c.B ≤ (s.th i).cur * c.B := Nat.mul_le_mul_right _ (h.pub_le_cur h1 h2)
    omega

/-- What a worker is about to read. -/
theorem Dat.reads {c : Cfg β σ} {s : St β σ} (hok : c.Ok) (h : Cnt c s) (hd : Dat c s) {i : Nat} (h1 : 1 ≤ i) (h2 : i < nOf c.workers) {k : Chunk} (hk : (s.th i).work = some k)
    (hp : k.p < k.e) : readBlob c s.buf k.p = after c (i - 1) (s.th i).cur := by
  obtain ⟨e, hlt, h3, h4⟩ := h.atBlob h1 h2 hk hp
  have hl := Cnt.layout c
  have hb := hl.bounds i h1 h2
  rw [e]
  refine hd.blob _ h3 h4 (i - 1) (by omega) ?_ ?_
  · intro j hj1 hj2
    rcases Nat.lt_or_ge j (U c.workers i) with hj | hj
    · left
      have := h.trail_le h1 h2 j hj
      have := h.pub_le_cur hj1 (by omega)
      omega
    · right
      exact mates hok h1 h2 hj (by omega) (by omega)
  · intro j hj1 hj2
    rcases Nat.lt_or_ge (V c.workers i) j with hj | hj
    · left
      have := h.later h1 h2 hj hj2
      have := h.cur_le_trail (i := j) (by omega) hj2
      have := h.pub_le_cur h1 h2
      omega
    · by_cases hji : j = i
      · subst hji; left; exact Nat.le_refl _
      · right; exact mates hok h1 h2 (by omega) hj hji

theorem Dat.blobStep {c : Cfg β σ} {s : St β σ} (hok : c.Ok) (h : Cnt c s) (hd : Dat c s) {i : Nat} (h1 : 1 ≤ i) (h2 : i < nOf c.workers) {k : Chunk} (hk : (s.th i).work = some k)
    (hp : k.p < k.e) {s' : St β σ} (hcur : ∀ j, (s'.th j).cur = if j = i then (s.th i).cur + 1 else (s.th j).cur) (hsrc : s'.src = s.src)
    (hbuf : s'.buf = writeBlob c s.buf k.p (c.f i (s.ws i) (readBlob c s.buf k.p)).1)
    (hws : s'.ws = fun j => if j = i then (c.f i (s.ws i) (readBlob c s.buf k.p)).2 else s.ws j)
    (hseen : s'.seen = fun j => if j = i then readBlob c s.buf k.p :: s.seen i else s.seen j) : Dat c s' := by
  have hr := hd.reads hok h h1 h2 hk hp
  obtain ⟨e, hlt, h3, h4⟩ := h.atBlob h1 h2 hk hp
  have hl := Cnt.layout c
  have hb := hl.bounds i h1 h2
  have hB := c.B_pos
  constructor
  · intro j hj1 hj2
    rw [hseen, hcur]
    by_cases hj : j = i
    · subst hj
      simp only [if_pos]
      rw [List.reverse_cons, hd.seen j hj1 hj2, List.range_succ, List.map_append, hr]
      rfl
    · simp only [if_neg hj]; exact hd.seen j hj1 hj2
  · intro j hj1 hj2
    rw [hws, hcur]
    by_cases hj : j = i
    · subst hj
      simp only [if_pos]
      rw [hd.ws j hj1 hj2, hr]
      rfl
    · simp only [if_neg hj]; exact hd.ws j hj1 hj2
  · intro k' ha hb' m hm hA hBb
    rw [hsrc] at ha hb'
    rw [hbuf]
    by_cases hkk : k' = (s.th i).cur
    · subst hkk
      rw [← e, readBlob_write c _ _ _ (by rw [hok.size, readBlob_length])]
      have hai : (c.f i (s.ws i) (readBlob c s.buf k.p)).1 = after c i (s.th i).cur := by
        obtain ⟨i', rfl⟩ : ∃ i', i = i' + 1 := ⟨i - 1, by omega⟩
        rw [hd.ws _ h1 h2, hr]
        rfl
      rw [hai]
      rcases Nat.lt_or_ge m i with hmi | hmi
      · refine after_readOnly' c (Nat.le_of_lt hmi) ?_
        intro j hj1 hj2
        have := hBb j hj1 (by omega)
        rw [hcur] at this
        by_cases hji : j = i
        · subst hji
          rw [if_pos rfl] at this
          rcases this with h' | h'
          · omega
          · exact h'
        · rw [if_neg hji] at this
          rcases this with h' | h'
          · rcases Nat.lt_or_ge j (U c.workers i) with hju | hju
            · have := h.trail_le h1 h2 j hju
              have := h.pub_le_cur (i := j) (by omega) (by omega)
              omega
            · exact mates hok h1 h2 hju (by omega) hji
          · exact h'
      · refine (after_readOnly' c hmi ?_).symm
        intro j hj1 hj2
        have := hA j (by omega) hj2
        rw [hcur, if_neg (by omega)] at this
        rcases this with h' | h'
        · rcases Nat.lt_or_ge (V c.workers i) j with hjv | hjv
          · have := h.later h1 h2 hjv (by omega)
            have := h.cur_le_trail (i := j) (by omega) (by omega)
            have := h.pub_le_cur h1 h2
            omega
          · exact mates hok h1 h2 (by omega) hjv (by omega)
        · exact h'
    · have hslot : k' % c.S ≠ k.p := by
        rw [e]
        rw [Nat.add_mul] at ha h3
        rcases Nat.lt_or_ge k' (s.th i).cur with hlt' | hge'
        · apply slot_ne hlt'
          rw [c.SB_eq, ← Nat.add_mul] at hb'
          have : ((s.th i).cur + 1) * c.B ≤ (k' + c.S) * c.B := by rw [Nat.add_mul]; omega
          have := Nat.le_of_mul_le_mul_right this hB
          omega
        · intro heq
          refine slot_ne (a := (s.th i).cur) (b := k') (S := c.S) (by omega) ?_ heq.symm
          rw [c.SB_eq, ← Nat.add_mul] at h4
          have : (k' + 1) * c.B ≤ ((s.th i).cur + c.S) * c.B := by rw [Nat.add_mul]; omega
          have := Nat.le_of_mul_le_mul_right this hB
          omega
      rw [readBlob_other c _ _ _ _ hslot]
      refine hd.blob k' ha hb' m hm ?_ ?_
      · intro j hj1 hj2
        have := hA j hj1 hj2
        rw [hcur] at this
        by_cases hji : j = i
        · subst hji; rw [if_pos rfl] at this
          rcases this with h' | h'
          · left; omega
          · right; exact h'
        · rwa [if_neg hji] at this
      · intro j hj1 hj2
        have := hBb j hj1 hj2
        rw [hcur] at this
        by_cases hji : j = i
        · subst hji; rw [if_pos rfl] at this
          rcases this with h' | h'
          · left; omega
          · right; exact h'
        · rwa [if_neg hji] at this
  · intro x hx1 hx2
    rw [hsrc] at hx1 hx2
    rw [hbuf, write_other]
    · exact hd.part x hx1 hx2
    · rw [e]
      have hxB : (x % c.SB) / c.B = (x / c.B) % c.S := by
        rw [c.SB_eq, Nat.mul_comm c.S c.B, Nat.mod_mul_right_div_self]
      rw [hxB]
      have hq1 := Nat.div_add_mod x c.B
      have hq2 := Nat.mod_lt x hB
      have hdd : s.src.cur / c.B ≤ x / c.B := by rw [Nat.le_div_iff_mul_le hB]; exact hx1
      have hdd2 : (s.th i).cur + 1 ≤ s.src.cur / c.B := by rw [Nat.le_div_iff_mul_le hB]; exact h3
      have hlt2 : x / c.B < (s.th i).cur + c.S := by
        rw [Nat.div_lt_iff_lt_mul hB, Nat.add_mul, ← c.SB_eq]
        omega
      exact fun heq => slot_ne (by omega) hlt2 heq.symm

theorem Dat.byteStep {c : Cfg β σ} {s : St β σ} (h : Cnt c s) (hd : Dat c s) {k : Chunk} (hk : s.src.work = some k) (hp : k.p < k.e) {s' : St β σ} (hth : s'.th = s.th)
    (hcur : s'.src.cur = s.src.cur + 1) (hbuf : s'.buf = fun y => if y = k.p then c.input (s.src.bytes + (k.p - k.p0)) else s.buf y) (hws : s'.ws = s.ws) (hseen : s'.seen = s.seen)
    (hav : s.src.cur + 1 ≤ s.src.aval) : Dat c s' := by
  have hB := c.B_pos
  have hw := h.swork k hk
  unfold ChunkOk at hw
  have hc : s.src.cur = s.src.bytes + (k.p - k.p0) := by unfold Source.cur at_; rw [hk]
  have hp' : k.p = s.src.cur % c.SB := by
    have h3 := Nat.div_add_mod s.src.bytes c.SB
    have h4 : s.src.cur = k.p + c.SB * (s.src.bytes / c.SB) := by omega
    rw [h4, Nat.add_mul_mod_self_left, Nat.mod_eq_of_lt (by omega)]
  have hpart : ∀ x, x < s.src.cur + 1 → s.src.cur / c.B * c.B ≤ x → s'.buf (x % c.SB) = c.input x := by
    intro x hx1 hx2
    rw [hbuf]
    simp only
    by_cases hx : x = s.src.cur
    · subst hx; rw [if_pos hp'.symm, ← hc]
    · rw [if_neg]
      · exact hd.part x hx2 (by omega)
      · rw [hp']
        refine slot_ne (by omega) ?_
        have := Nat.div_add_mod s.src.cur c.B
        have h5 := Nat.mod_lt s.src.cur hB
        have h6 : c.B ≤ c.SB := by rw [c.SB_eq]; exact Nat.le_mul_of_pos_left _ c.S_pos
        rw [Nat.mul_comm] at hx2
        omega
  constructor
  · intro i h1 h2; rw [hseen, hth]; exact hd.seen i h1 h2
  · intro i h1 h2; rw [hws, hth]; exact hd.ws i h1 h2
  · intro k' ha hb m hm hA hBb
    rw [hcur] at ha hb
    rw [hth] at hA hBb
    rcases Nat.lt_or_ge s.src.cur ((k' + 1) * c.B) with hnew | hold
    · have hkB : s.src.cur + 1 = (k' + 1) * c.B := by omega
      have hdiv : s.src.cur / c.B = k' := by
        rw [Nat.div_eq_iff hB]
        rw [Nat.add_mul] at hkB
        omega
      have hall : ∀ j, 1 ≤ j → j < nOf c.workers → (s.th j).cur ≤ k' := by
        intro j hj1 hj2
        have h3 := h.cur_le_blobs hj1 hj2
        have h4 : s.pub 0 ≤ s.src.cur / c.B := by rw [h.blobs]; exact Nat.div_le_div_right Cnt.bytes_le_cur
        omega
      have e : after c m k' = after c 0 k' := by
        refine after_readOnly' c (Nat.zero_le _) ?_
        intro j hj1 hj2
        rcases hA j hj1 hj2 with h' | h'
        · have := hall j hj1 (by omega); omega
        · exact h'
      rw [e]
      show _ = raw c k'
      unfold readBlob raw
      apply List.map_congr_left
      intro j hj
      rw [List.mem_range] at hj
      rw [addr hj c.S_pos, ← c.SB_eq]
      refine hpart (k' * c.B + j) ?_ ?_
      · rw [Nat.add_mul] at hkB; omega
      · rw [hdiv]; omega
    · have hr := hd.blob k' hold (by omega) m hm hA hBb
      rw [← hr]
      unfold readBlob
      apply List.map_congr_left
      intro j hj
      rw [List.mem_range] at hj
      rw [hbuf]
      simp only
      rw [if_neg]
      rw [addr hj c.S_pos, ← c.SB_eq, hp']
      rw [Nat.add_mul] at hold
      exact slot_ne (by omega) (by omega)
  · intro x hx1 hx2
    rw [hcur] at hx1 hx2
    refine hpart x hx2 (Nat.le_trans ?_ hx1)
    exact Nat.mul_le_mul_right _ (Nat.div_le_div_right (by omega))

theorem Dat.step {c : Cfg β σ} {s s' : St β σ} {o : Op} (hok : c.Ok) (h : Cnt c s) (hd : Dat c s) (hs : step c s o = some s') : Dat c s' := by
  cases o with
  | look i r =>
    simp only [Pipeline.step] at hs
    split at hs
    · injection hs with hs
      subst hs
      refine hd.congr ?_ rfl rfl rfl rfl
      intro j
      simp only [St.setTh]
      split
      · rename_i hj; subst hj; rfl
      · rfl
    · cases hs
  | start i =>
    simp only [Pipeline.step] at hs
    split at hs
    · rename_i hg
      injection hs with hs
      subst hs
      refine hd.congr ?_ rfl rfl rfl rfl
      intro j
      simp only [St.setTh]
      split
      · rename_i hj; subst hj
        have hn : (s.th j).work = none := by simpa using hg.2.2.1
        simp [Thread.cur, at_, hn]
      · rfl
    · cases hs
  | blob i =>
    simp only [Pipeline.step] at hs
    split at hs
    · cases hs
    · rename_i k hk
      split at hs
      · rename_i hg
        injection hs with hs
        subst hs
        obtain ⟨g1, g2, g3⟩ := hg
        refine hd.blobStep hok h g1 g2 hk g3 ?_ rfl rfl rfl rfl
        intro j
        simp only [St.setTh]
        split
        · have hw := h.work i g1 g2 k hk
          unfold ChunkOk at hw
          simp only [Thread.cur, at_, hk]
          omega
        · rfl
      · cases hs
  | finish i =>
    simp only [Pipeline.step] at hs
    split at hs
    · cases hs
    · rename_i k hk
      split at hs
      · injection hs with hs
        subst hs
        refine hd.congr ?_ rfl rfl rfl rfl
        intro j
        simp only [St.setTh]
        split
        · rename_i hj; subst hj
          simp [Thread.cur, at_, hk]
        · rfl
      · cases hs
  | srcLook r =>
    simp only [Pipeline.step] at hs
    split at hs
    · injection hs with hs
      subst hs
      exact hd.congr (fun _ => rfl) rfl rfl rfl rfl
    · cases hs
  | srcStart =>
    simp only [Pipeline.step] at hs
    split at hs
    · rename_i hg
      injection hs with hs
      subst hs
      have hn : s.src.work = none := by simpa using hg.1
      refine hd.congr (fun _ => rfl) ?_ rfl rfl rfl
      simp [Source.cur, at_, hn]
    · cases hs
  | srcByte =>
    simp only [Pipeline.step] at hs
    split at hs
    · cases hs
    · rename_i k hk
      split at hs
      · rename_i hg
        injection hs with hs
        subst hs
        have hw := h.swork k hk
        unfold ChunkOk at hw
        refine hd.byteStep h hk hg rfl ?_ rfl rfl rfl ?_
        · simp only [Source.cur, at_, hk]; omega
        · simp only [Source.cur, at_, hk]; omega
      · cases hs
  | srcFinish =>
    simp only [Pipeline.step] at hs
    split at hs
    · cases hs
    · rename_i k hk
      split at hs
      · split at hs
        · injection hs with hs
          subst hs
          refine hd.congr (fun _ => rfl) ?_ rfl rfl rfl
          simp [Source.cur, at_, hk]
        · injection hs with hs
          subst hs
          refine hd.congr (fun _ => rfl) ?_ rfl rfl rfl
          simp [Source.cur, at_, hk]
      · rename_i hz
        injection hs with hs
        subst hs
        refine hd.congr (fun _ => rfl) ?_ rfl rfl rfl
        simp only [Source.cur, at_, hk]
        omega

theorem Dat.run {c : Cfg β σ} {s s' : St β σ} {os : List Op} (hok : c.Ok) (h : Cnt c s) (hd : Dat c s) (hs : run c s os = some s') : Dat c s' := by
  induction os generalizing s with
  | nil => cases hs; exact hd
  | cons o os ih =>
    simp only [Pipeline.run] at hs
    split at hs
    · cases hs
    · rename_i s1 h1
      exact ih (h.step h1) (hd.step hok h h1) hs

end Current.Pipeline
