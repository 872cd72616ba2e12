import Verif.Pipeline.Layout
set_option linter.unusedSimpArgs false
set_option linter.unusedVariables false

/-! # Pipelines: the counters, and what the threads have in their hands. -/

namespace Current.Pipeline

variable {β σ : Type}

theorem Cfg.S_pos (c : Cfg β σ) : 0 < c.S := Nat.two_pow_pos _
theorem Cfg.B_pos (c : Cfg β σ) : 0 < c.B := Nat.two_pow_pos _
theorem Cfg.SB_eq (c : Cfg β σ) : c.SB = c.S * c.B := rfl
theorem Cfg.SB_pos (c : Cfg β σ) : 0 < c.SB := Nat.mul_pos c.S_pos c.B_pos
theorem Cfg.mask_S (c : Cfg β σ) (n : Nat) : n &&& (c.S - 1) = n % c.S := Nat.and_two_pow_sub_one_eq_mod n c.s
theorem Cfg.mask_SB (c : Cfg β σ) (n : Nat) : n &&& (c.SB - 1) = n % c.SB := by
  unfold Cfg.SB
  rw [← Nat.pow_add]
  exact Nat.and_two_pow_sub_one_eq_mod n (c.s + c.b)

theorem chunk_end {S d t : Nat} (hS : 0 < S) (h1 : d < t) (h2 : t ≤ d + S) :
    d % S < chunkEnd (d % S) (t % S) S ∧ chunkEnd (d % S) (t % S) S ≤ S ∧ d + (chunkEnd (d % S) (t % S) S - d % S) ≤ t := by
  have hd := Nat.div_add_mod d S
  have ht := Nat.div_add_mod t S
  have hd' := Nat.mod_lt d hS
  have ht' := Nat.mod_lt t hS
  have hq1 : d / S ≤ t / S := Nat.div_le_div_right (by omega)
  have hq2 : t / S ≤ d / S + 1 := by
    have := Nat.div_le_div_right (c := S) h2
    rwa [Nat.add_div_right _ hS] at this
  unfold chunkEnd
  rcases Nat.lt_or_ge (d / S) (t / S) with h | h
  · have e : t / S = d / S + 1 := by omega
    rw [e, Nat.mul_add] at ht
    split <;> omega
  · have e : t / S = d / S := by omega
    rw [e] at ht
    split <;> omega

/-- What a chunk of a thread at `n` with limit `lim` looks like. -/
def ChunkOk (size n lim : Nat) (k : Chunk) : Prop := k.p0 = n % size ∧ k.p0 ≤ k.p ∧ k.p ≤ k.e ∧ k.e ≤ size ∧ n + (k.e - k.p0) ≤ lim

/-- How far a thread is. -/
def at_ (n : Nat) (w : Option Chunk) : Nat := n + (match w with | none => 0 | some k => k.p - k.p0)

/-- How many blobs a worker has done, with those of the current call. -/
def Thread.cur (t : Thread) : Nat := at_ t.done t.work
/-- How many bytes the source has delivered, with those of the current call. -/
def Source.cur (t : Source) : Nat := at_ t.bytes t.work

/-- The invariant of the counters. -/
structure Cnt (c : Cfg β σ) (s : St β σ) : Prop where
  done : ∀ i, 1 ≤ i → i < nOf c.workers → (s.th i).done = s.pub i
  le : ∀ i, 1 ≤ i → i < nOf c.workers → (s.th i).done ≤ (s.th i).trail
  trail : ∀ i, 1 ≤ i → i < nOf c.workers → (s.th i).trail ≤ readyFor c.workers s.pub i
  work : ∀ i, 1 ≤ i → i < nOf c.workers → ∀ k, (s.th i).work = some k → ChunkOk c.S (s.th i).done (s.th i).trail k
  blobs : s.pub 0 = s.src.bytes / c.B
  blobs' : s.src.blobs = s.src.bytes / c.B
  strail : s.src.trail ≤ readyFor c.workers s.pub 0
  aval : s.src.aval ≤ s.src.trail * c.B + c.SB
  sle : s.src.bytes ≤ s.src.aval
  swork : ∀ k, s.src.work = some k → ChunkOk c.SB s.src.bytes s.src.aval k

theorem Cnt.layout (c : Cfg β σ) : Layout c.workers := build_layout c.blocks

theorem Cnt.cur_le_trail {c : Cfg β σ} {s : St β σ} (h : Cnt c s) {i : Nat} (h1 : 1 ≤ i) (h2 : i < nOf c.workers) : (s.th i).cur ≤ (s.th i).trail := by
  have := h.le i h1 h2
  unfold Thread.cur at_
  cases hw : (s.th i).work with
  | none => simpa using this
  | some k =>
    have := h.work i h1 h2 k hw
    unfold ChunkOk at this
    simp only
    omega

theorem Cnt.pub_le_cur {c : Cfg β σ} {s : St β σ} (h : Cnt c s) {i : Nat} (h1 : 1 ≤ i) (h2 : i < nOf c.workers) : s.pub i ≤ (s.th i).cur := by
  rw [← h.done i h1 h2]
  unfold Thread.cur at_
  omega

/-- A worker is not ahead of any worker of an earlier stage, nor of the source. -/
theorem Cnt.trail_le {c : Cfg β σ} {s : St β σ} (h : Cnt c s) {i : Nat} (h1 : 1 ≤ i) (h2 : i < nOf c.workers) :
    ∀ j, j < U c.workers i → (s.th i).trail ≤ s.pub j := by
  have hl := Cnt.layout c
  induction i using Nat.strongRecOn with
  | _ i ih =>
    intro j hj
    have hb := hl.bounds i h1 h2
    have ht := h.trail i h1 h2
    rw [ready_worker hl h1 h2] at ht
    rcases Nat.lt_or_ge 1 (U c.workers i) with hu | hu
    · have hv := prev_stage hl h1 h2 hu
      have hb' := hl.bounds (U c.workers i - 1) (by omega) (by omega)
      rcases Nat.lt_or_ge j (U c.workers (U c.workers i - 1)) with hj' | hj'
      · have h3 := ih (U c.workers i - 1) (by omega) (by omega) (by omega) j hj'
        have h4 := internal_le hl (i := U c.workers i - 1) (j := U c.workers i - 1) (by omega) (by omega) s.pub (by omega) (by omega)
        have h5 := h.pub_le_cur (i := U c.workers i - 1) (by omega) (by omega)
        have h6 := h.cur_le_trail (i := U c.workers i - 1) (by omega) (by omega)
        omega
      · have h4 := internal_le hl (i := U c.workers i - 1) (j := j) (by omega) (by omega) s.pub hj' (by omega)
        omega
    · have e : U c.workers i - 1 = 0 := by omega
      rw [e, internal_zero] at ht
      have : j = 0 := by omega
      subst this
      exact ht

/-- The last stage is not ahead of anybody. -/
theorem Cnt.total_le {c : Cfg β σ} {s : St β σ} (h : Cnt c s) {i : Nat} (h2 : i < nOf c.workers) : readyFor c.workers s.pub 0 ≤ s.pub i := by
  have hl := Cnt.layout c
  rw [ready_source]
  unfold grandTotal
  rcases Nat.lt_or_ge 1 (nOf c.workers) with hn | hn
  · have hb := hl.bounds (nOf c.workers - 1) (by omega) (by omega)
    rcases Nat.lt_or_ge i (U c.workers (nOf c.workers - 1)) with hi | hi
    · have h3 := h.trail_le (i := nOf c.workers - 1) (by omega) (by omega) i hi
      have h4 := internal_le hl (i := nOf c.workers - 1) (j := nOf c.workers - 1) (by omega) (by omega) s.pub (by omega) (by omega)
      have h5 := h.pub_le_cur (i := nOf c.workers - 1) (by omega) (by omega)
      have h6 := h.cur_le_trail (i := nOf c.workers - 1) (by omega) (by omega)
      omega
    · exact internal_le hl (by omega) (by omega) s.pub hi (by omega)
  · have e : nOf c.workers - 1 = 0 := by omega
    have : i = 0 := by omega
    subst this
    rw [e, internal_zero]
    exact Nat.le_refl _

theorem Cnt.bytes_ge {c : Cfg β σ} {s : St β σ} (h : Cnt c s) : s.pub 0 * c.B ≤ s.src.bytes := by
  rw [h.blobs]; exact Nat.div_mul_le_self _ _

/-- The source never goes more than the size of the buffer beyond what all workers have done. -/
theorem Cnt.window {c : Cfg β σ} {s : St β σ} (h : Cnt c s) {i : Nat} (h2 : i < nOf c.workers) : s.src.aval ≤ s.pub i * c.B + c.SB := by
  have h1 := h.total_le h2
  have h3 := h.strail
  have h4 := h.aval
  have : s.src.trail * c.B ≤ s.pub i * c.B := Nat.mul_le_mul_right _ (by omega)
  omega

theorem Cnt.trail_window {c : Cfg β σ} {s : St β σ} (h : Cnt c s) {i : Nat} (h1 : 1 ≤ i) (h2 : i < nOf c.workers) : (s.th i).trail ≤ (s.th i).done + c.S := by
  have hb := (Cnt.layout c).bounds i h1 h2
  have h3 := h.trail_le h1 h2 0 (by omega)
  have h4 := h.bytes_ge
  have h5 := h.window h2
  have h6 := h.sle
  rw [h.done i h1 h2]
  rw [c.SB_eq, ← Nat.add_mul] at h5
  have h7 : (s.th i).trail * c.B ≤ (s.pub i + c.S) * c.B := Nat.le_trans (Nat.mul_le_mul_right _ h3) (by omega)
  exact Nat.le_of_mul_le_mul_right h7 c.B_pos

theorem readyFor_mono {ws : List W} {a b : Nat → Nat} (h : ∀ j, a j ≤ b j) (i : Nat) : readyFor ws a i ≤ readyFor ws b i := minRange_mono _ _ h _ _

theorem cnt_init (c : Cfg β σ) : Cnt c (St.init c) := by
  constructor <;> simp [St.init]

theorem ChunkOk.next {size n lim : Nat} {k : Chunk} (h : ChunkOk size n lim k) (hp : k.p < k.e) : ChunkOk size n lim { k with p := k.p + 1 } := by
  unfold ChunkOk at *
  simp only
  omega

theorem ChunkOk.start {size n lim : Nat} (hS : 0 < size) (h1 : n < lim) (h2 : lim ≤ n + size) : ChunkOk size n lim ⟨n % size, n % size, chunkEnd (n % size) (lim % size) size⟩ := by
  obtain ⟨h3, h4, h5⟩ := chunk_end hS h1 h2
  exact ⟨rfl, Nat.le_refl _, by simp only; omega, h4, h5⟩

/-- A change of one worker's thread which keeps the counters. -/
theorem Cnt.setTh {c : Cfg β σ} {s : St β σ} (h : Cnt c s) {i : Nat} (h1 : 1 ≤ i) (h2 : i < nOf c.workers) {t : Thread} (hd : t.done = s.pub i) (hle : t.done ≤ t.trail)
    (ht : t.trail ≤ readyFor c.workers s.pub i) (hw : ∀ k, t.work = some k → ChunkOk c.S t.done t.trail k) : Cnt c (s.setTh i t) := by
  refine ⟨?_, ?_, ?_, ?_, h.blobs, h.blobs', h.strail, h.aval, h.sle, h.swork⟩ <;> intro j hj1 hj2 <;> simp only [St.setTh] <;> by_cases hj : j = i
  · subst hj; rw [if_pos rfl]; exact hd
  · rw [if_neg hj]; exact h.done j hj1 hj2
  · subst hj; rw [if_pos rfl]; exact hle
  · rw [if_neg hj]; exact h.le j hj1 hj2
  · subst hj; rw [if_pos rfl]; exact ht
  · rw [if_neg hj]; exact h.trail j hj1 hj2
  · subst hj; rw [if_pos rfl]; exact hw
  · rw [if_neg hj]; exact h.work j hj1 hj2

theorem Cnt.step {c : Cfg β σ} {s s' : St β σ} {o : Op} (h : Cnt c s) (hs : step c s o = some s') : Cnt c s' := by
  cases o with
  | look i r =>
    simp only [Pipeline.step] at hs
    split at hs
    · rename_i hg
      injection hs with hs
      subst hs
      obtain ⟨g1, g2, g3, g4⟩ := hg
      have h1 := h.le i g1 g2
      have h2 := h.trail i g1 g2
      refine h.setTh g1 g2 (h.done i g1 g2) (by simp only; omega) (by simp only; omega) ?_
      intro k hk
      simp only at hk
      rw [hk] at g3
      simp at g3
    · cases hs
  | start i =>
    simp only [Pipeline.step] at hs
    split at hs
    · rename_i hg
      injection hs with hs
      subst hs
      obtain ⟨g1, g2, g3, g4⟩ := hg
      refine h.setTh g1 g2 (h.done i g1 g2) (h.le i g1 g2) (h.trail i g1 g2) ?_
      intro k hk
      simp only [Option.some.injEq] at hk
      subst hk
      rw [c.mask_S, c.mask_S]
      exact ChunkOk.start c.S_pos g4 (h.trail_window g1 g2)
    · cases hs
  | blob i =>
    simp only [Pipeline.step] at hs
    split at hs
    · cases hs
    · rename_i k hk
      split at hs
      · rename_i hg
        injection hs with hs
        subst hs
        obtain ⟨g1, g2, g3⟩ := hg
        have := h.setTh g1 g2 (t := { s.th i with work := some { k with p := k.p + 1 } }) (h.done i g1 g2) (h.le i g1 g2) (h.trail i g1 g2) (by
          intro k' hk'
          simp only [Option.some.injEq] at hk'
          subst hk'
          exact (h.work i g1 g2 k hk).next g3)
        exact ⟨this.done, this.le, this.trail, this.work, this.blobs, this.blobs', this.strail, this.aval, this.sle, this.swork⟩
      · cases hs
  | finish i =>
    simp only [Pipeline.step] at hs
    split at hs
    · cases hs
    · rename_i k hk
      split at hs
      · rename_i hg
        injection hs with hs
        subst hs
        obtain ⟨g1, g2⟩ := hg
        have hc := h.work i g1 g2 k hk
        unfold ChunkOk at hc
        have hmono : ∀ j, s.pub j ≤ (fun j => if j = i then (s.th i).done + (k.p - k.p0) else s.pub j) j := by
          intro j
          simp only
          split
          · rename_i hj; subst hj; rw [← h.done j g1 g2]; omega
          · exact Nat.le_refl _
        have hr := fun j => readyFor_mono (ws := c.workers) hmono j
        refine ⟨?_, ?_, ?_, ?_, ?_, h.blobs', Nat.le_trans h.strail (hr 0), h.aval, h.sle, h.swork⟩
        · intro j hj1 hj2
          simp only [St.setTh]
          split
          · rfl
          · exact h.done j hj1 hj2
        · intro j hj1 hj2
          simp only [St.setTh]
          split
          · simp only; omega
          · exact h.le j hj1 hj2
        · intro j hj1 hj2
          simp only [St.setTh]
          split
          · rename_i hj; subst hj; exact Nat.le_trans (h.trail j hj1 hj2) (hr j)
          · exact Nat.le_trans (h.trail j hj1 hj2) (hr j)
        · intro j hj1 hj2
          simp only [St.setTh]
          split
          · intro k' hk'; cases hk'
          · exact h.work j hj1 hj2
        · simp only [St.setTh]
          rw [if_neg (by omega)]
          exact h.blobs
      · cases hs
  | srcLook r =>
    simp only [Pipeline.step] at hs
    split at hs
    · rename_i hg
      injection hs with hs
      subst hs
      obtain ⟨g1, g2⟩ := hg
      have h3 := h.strail
      have h4 := h.aval
      have h5 := h.sle
      have h6 : s.src.trail * c.B ≤ max s.src.trail r * c.B := Nat.mul_le_mul_right _ (by omega)
      refine ⟨h.done, h.le, h.trail, h.work, h.blobs, h.blobs', by simp only; omega, Nat.le_refl _, by simp only; omega, ?_⟩
      intro k hk
      simp only at hk
      rw [hk] at g1
      simp at g1
    · cases hs
  | srcStart =>
    simp only [Pipeline.step] at hs
    split at hs
    · rename_i hg
      injection hs with hs
      subst hs
      obtain ⟨g1, g2⟩ := hg
      refine ⟨h.done, h.le, h.trail, h.work, h.blobs, h.blobs', h.strail, h.aval, h.sle, ?_⟩
      intro k hk
      simp only [Option.some.injEq] at hk
      subst hk
      rw [c.mask_SB, c.mask_SB]
      have h5 := h.sle
      have h6 := h.window (i := 0) (by unfold nOf; omega)
      have h7 := h.bytes_ge
      exact ChunkOk.start (n := s.src.bytes) (lim := s.src.aval) c.SB_pos (by omega) (by omega)
    · cases hs
  | srcByte =>
    simp only [Pipeline.step] at hs
    split at hs
    · cases hs
    · rename_i k hk
      split at hs
      · rename_i hg
        injection hs with hs
        subst hs
        refine ⟨h.done, h.le, h.trail, h.work, h.blobs, h.blobs', h.strail, h.aval, h.sle, ?_⟩
        intro k' hk'
        simp only [Option.some.injEq] at hk'
        subst hk'
        exact (h.swork k hk).next hg
      · cases hs
  | srcFinish =>
    simp only [Pipeline.step] at hs
    split at hs
    · cases hs
    · rename_i k hk
      have hc := h.swork k hk
      unfold ChunkOk at hc
      split at hs
      · split at hs
        · injection hs with hs
          subst hs
          have hmono : ∀ j, s.pub j ≤ (fun j => if j = 0 then (s.src.bytes + (k.p - k.p0)) / c.B else s.pub j) j := by
            intro j
            simp only
            split
            · rename_i hj; subst hj; rw [h.blobs]; exact Nat.div_le_div_right (by omega)
            · exact Nat.le_refl _
          have hr := fun j => readyFor_mono (ws := c.workers) hmono j
          refine ⟨?_, h.le, fun j hj1 hj2 => Nat.le_trans (h.trail j hj1 hj2) (hr j), h.work, by simp, rfl, Nat.le_trans h.strail (hr 0), h.aval, by simp only; omega, by simp⟩
          intro j hj1 hj2
          simp only
          rw [if_neg (by omega)]
          exact h.done j hj1 hj2
        · rename_i hcand
          simp only [ne_eq, Decidable.not_not] at hcand
          injection hs with hs
          subst hs
          exact ⟨h.done, h.le, h.trail, h.work, by simp only; rw [h.blobs, hcand, h.blobs'], by simp only; rw [hcand], h.strail, h.aval, by simp only; omega, by simp⟩
      · injection hs with hs
        subst hs
        exact ⟨h.done, h.le, h.trail, h.work, h.blobs, h.blobs', h.strail, h.aval, h.sle, by simp⟩

theorem Cnt.run {c : Cfg β σ} {s s' : St β σ} {os : List Op} (h : Cnt c s) (hs : run c s os = some s') : Cnt c s' := by
  induction os generalizing s with
  | nil => cases hs; exact h
  | cons o os ih =>
    simp only [Pipeline.run] at hs
    split at hs
    · cases hs
    · rename_i s1 h1
      exact ih (h.step h1) hs

end Current.Pipeline
