import Verif.Pipeline.Data
set_option linter.unusedSimpArgs false
set_option linter.unusedVariables false

/-! # Pipelines: theorems (C128) -/

namespace Current.Pipeline

variable {β σ : Type}

/-- C128 (a): whatever the schedule, whatever the sizes of the chunks, whichever stale counters the threads read: each worker is given the blobs of the stream in order, each once, as they are after all workers before it in the list have gone over them one after the other, and its state is that of having done these. -/
theorem workers_see_the_sequential_stream {c : Cfg β σ} (hok : c.Ok) {os : List Op} {s : St β σ} (h : run c (St.init c) os = some s) (i : Nat) (h1 : 1 ≤ i) (h2 : i ≤ c.workers.length) :
    (s.seen i).reverse = (List.range (s.seen i).length).map (after c (i - 1)) ∧ s.ws i = stateAfter (c.f i) (c.init i) (after c (i - 1)) (s.seen i).length ∧
      s.pub i ≤ (s.seen i).length := by
  have hc := (cnt_init c).run h
  have hd := (dat_init c).run hok (cnt_init c) h
  have hn : i < nOf c.workers := by unfold nOf; omega
  have hs := hd.seen i h1 hn
  have hlen : (s.seen i).length = (s.th i).cur := by
    have := congrArg List.length hs
    simpa using this
  rw [hlen]
  exact ⟨hs, hd.ws i h1 hn, hc.pub_le_cur h1 hn⟩

/-- The stage of a worker as the user wrote it: the number of the argument of `Pipeline(source, ...)` it came from. -/
def stageOf (i j : Nat) : List Block → Nat
  | [] => 0
  | .worker :: bs => if j = i then 1 else 1 + stageOf (i + 1) j bs
  | .parallel n :: bs => if j < i + (n + 1) then 1 else 1 + stageOf (i + (n + 1)) j bs

theorem find_stage (bs : List Block) : ∀ (i z y : Nat) (w : W), i ≤ z → i ≤ y → (build i bs).find? (fun w => decide (w.i = z)) = some w → w.u ≤ y → y ≤ w.v →
    stageOf i y bs = stageOf i z bs := by
  induction bs with
  | nil => intro i z y w _ _ h; simp [build] at h
  | cons bl bs ih =>
    intro i z y w hz hy h h1 h2
    cases bl with
    | worker =>
      simp only [build, List.find?_cons, stageOf] at *
      by_cases hzi : i = z
      · simp only [hzi, decide_true] at h
        cases h
        simp only at h1 h2
        have : y = z := by omega
        rw [this]
      · simp only [hzi, decide_false] at h
        have hu := build_spec bs (i + 1) z (by omega) (by
          have := List.find?_some h
          rcases Nat.lt_or_ge z (i + 1 + (build (i + 1) bs).length) with h' | h'
          · exact h'
          · exfalso
            have hm := List.mem_of_find?_eq_some h
            have hi : ∀ (bs : List Block) (i : Nat), ∀ w ∈ build i bs, w.i < i + (build i bs).length := by
              intro bs
              induction bs with
              | nil => intro i w hw; simp [build] at hw
              | cons bl bs ih2 =>
                intro i w hw
                cases bl with
                | worker =>
                  simp only [build, List.mem_cons, List.length_cons] at *
                  rcases hw with rfl | hw
                  · simp only; omega
                  · have := ih2 _ w hw; omega
                | parallel n =>
                  simp only [build, List.mem_append, List.length_append, expand_length] at *
                  rcases hw with hw | hw
                  · have he : ∀ (n i u v : Nat), ∀ w ∈ expand i u v n, w.i < i + n := by
                      intro n
                      induction n with
                      | zero => intro i u v w hw; simp [expand] at hw
                      | succ n ih3 =>
                        intro i u v w hw
                        simp only [expand, List.mem_cons] at hw
                        rcases hw with rfl | hw
                        · simp only; omega
                        · have := ih3 _ _ _ w hw; omega
                    have := he _ _ _ _ w hw
                    omega
                  · have := ih2 _ w hw; omega
            have := hi _ _ w hm
            simp only [decide_eq_true_eq] at *
            omega)
        obtain ⟨u, v, g1, g2, g3, g4, g5, g6⟩ := hu
        rw [g1] at h
        cases h
        simp only at h1 h2
        rw [if_neg (by omega), if_neg (by omega), ih (i + 1) z y ⟨z, u, v⟩ (by omega) (by omega) g1 h1 h2]
    | parallel n =>
      simp only [build, List.find?_append, find_expand, stageOf] at *
      by_cases hzi : i ≤ z ∧ z < i + (n + 1)
      · rw [if_pos hzi] at h
        simp only [Option.some_or, Option.some.injEq] at h
        subst h
        simp only at h1 h2
        rw [if_pos (by omega), if_pos hzi.2]
      · rw [if_neg hzi] at h
        simp only [Option.none_or] at h
        have hge : i + (n + 1) ≤ w.u := by
          have hi : ∀ (bs : List Block) (i : Nat), ∀ w ∈ build i bs, i ≤ w.u := by
            intro bs
            induction bs with
            | nil => intro i w hw; simp [build] at hw
            | cons bl bs ih2 =>
              intro i w hw
              cases bl with
              | worker =>
                simp only [build, List.mem_cons] at *
                rcases hw with rfl | hw
                · exact Nat.le_refl _
                · have := ih2 _ w hw; omega
              | parallel n =>
                simp only [build, List.mem_append] at *
                rcases hw with hw | hw
                · have he : ∀ (n i u v : Nat), ∀ w ∈ expand i u v n, w.u = u := by
                    intro n
                    induction n with
                    | zero => intro i u v w hw; simp [expand] at hw
                    | succ n ih3 =>
                      intro i u v w hw
                      simp only [expand, List.mem_cons] at hw
                      rcases hw with rfl | hw
                      · rfl
                      · exact ih3 _ _ _ w hw
                  rw [he _ _ _ _ w hw]
                  exact Nat.le_refl _
                · have := ih2 _ w hw; omega
          exact hi _ _ w (List.mem_of_find?_eq_some h)
        rw [if_neg (by omega), if_neg (by omega), ih (i + (n + 1)) z y w (by omega) (by omega) h h1 h2]

/-- Workers which wait for the same stage came from the same argument. -/
theorem stage_eq {c : Cfg β σ} {i j : Nat} (h1 : 1 ≤ i) (h2 : i < nOf c.workers) (h3 : U c.workers i ≤ j) (h4 : j ≤ V c.workers i) : stageOf 1 j c.blocks = stageOf 1 i c.blocks := by
  have hb := (Cnt.layout c).bounds i h1 h2
  obtain ⟨u, v, g1, g2, g3, g4, g5, g6⟩ := build_spec c.blocks 1 i h1 (by unfold nOf at h2; unfold Cfg.workers at h2; omega)
  have e : uv c.workers i = (u, v) := by
    unfold uv Cfg.workers
    rw [if_neg (by omega), g1]
  unfold U V at *
  rw [e] at h3 h4 hb
  exact find_stage c.blocks 1 i j ⟨i, u, v⟩ h1 (by omega) g1 h3 h4

theorem disjoint_chunks {c : Cfg β σ} {s : St β σ} (h : Cnt c s) {i j : Nat} (h1 : 1 ≤ i) (h2 : i < nOf c.workers) (hj1 : 1 ≤ j) (hj2 : j < U c.workers i) {a b : Chunk}
    (ha : (s.th i).work = some a) (hb : (s.th j).work = some b) (q : Nat) : ¬ (a.p0 ≤ q ∧ q < a.e ∧ b.p0 ≤ q ∧ q < b.e) := by
  have hl := (Cnt.layout c).bounds i h1 h2
  have wa := h.work i h1 h2 a ha
  have wb := h.work j hj1 (by omega) b hb
  unfold ChunkOk at wa wb
  intro ⟨q1, q2, q3, q4⟩
  have t1 := h.trail_le h1 h2 j hj2
  rw [← h.done j hj1 (by omega)] at t1
  have hlj := (Cnt.layout c).bounds j hj1 (by omega)
  have t2 := h.trail_le hj1 (by omega) 0 (by omega)
  have t3 := h.bytes_ge
  have t4 := h.window h2
  have t5 := h.sle
  rw [← h.done i h1 h2] at t4
  have t6 : (s.th j).trail ≤ (s.th i).done + c.S := by
    have : (s.th j).trail * c.B ≤ ((s.th i).done + c.S) * c.B := by
      rw [Nat.add_mul, ← c.SB_eq]
      exact Nat.le_trans (Nat.mul_le_mul_right _ t2) (by omega)
    exact Nat.le_of_mul_le_mul_right this c.B_pos
  -- the positions of the stream
  have ea := Nat.div_add_mod (s.th i).done c.S
  have eb := Nat.div_add_mod (s.th j).done c.S
  refine slot_ne (S := c.S) (a := (s.th i).done + (q - a.p0)) (b := (s.th j).done + (q - b.p0)) (by omega) (by omega) ?_
  have e1 : (s.th i).done + (q - a.p0) = q + c.S * ((s.th i).done / c.S) := by omega
  have e2 : (s.th j).done + (q - b.p0) = q + c.S * ((s.th j).done / c.S) := by omega
  rw [e1, e2, Nat.add_mul_mod_self_left, Nat.add_mul_mod_self_left]

/-- C128 (b): no two threads of different stages ever have the same place of the buffer in their hands: not two workers, … -/
theorem workers_do_not_race {c : Cfg β σ} {os : List Op} {s : St β σ} (h : run c (St.init c) os = some s) {i j : Nat} (h1 : 1 ≤ i) (h2 : i ≤ c.workers.length) (hj1 : 1 ≤ j)
    (hj2 : j ≤ c.workers.length) (hst : stageOf 1 i c.blocks ≠ stageOf 1 j c.blocks) {a b : Chunk} (ha : (s.th i).work = some a) (hb : (s.th j).work = some b) (q : Nat) :
    ¬ (a.p0 ≤ q ∧ q < a.e ∧ b.p0 ≤ q ∧ q < b.e) := by
  have hc := (cnt_init c).run h
  have hn : i < nOf c.workers := by unfold nOf; omega
  have hm : j < nOf c.workers := by unfold nOf; omega
  have hl := (Cnt.layout c).bounds i h1 hn
  rcases Nat.lt_or_ge j (U c.workers i) with hlt | hge
  · exact disjoint_chunks hc h1 hn hj1 hlt ha hb q
  · rcases Nat.lt_or_ge (V c.workers i) j with hlt2 | hge2
    · intro hq
      have hl' := (Cnt.layout c).bounds j hj1 hm
      have hlt3 : i < U c.workers j := by
        rcases Nat.lt_or_ge i (U c.workers j) with h' | h'
        · exact h'
        · have := (Cnt.layout c).same j i hj1 hm h' (by omega)
          omega
      exact disjoint_chunks hc hj1 hm h1 hlt3 hb ha q ⟨hq.2.2.1, hq.2.2.2, hq.1, hq.2.1⟩
    · exact absurd (stage_eq h1 hn hge hge2).symm hst

/-- … and not a worker and the source: none of the bytes the source may write is in a blob which a worker has. -/
theorem source_does_not_race {c : Cfg β σ} {os : List Op} {s : St β σ} (h : run c (St.init c) os = some s) {i : Nat} (h1 : 1 ≤ i) (h2 : i ≤ c.workers.length) {a b : Chunk}
    (ha : (s.th i).work = some a) (hb : s.src.work = some b) (q : Nat) : ¬ (a.p0 * 2 ^ c.b ≤ q ∧ q < a.e * 2 ^ c.b ∧ b.p0 ≤ q ∧ q < b.e) := by
  have hc := (cnt_init c).run h
  have hn : i < nOf c.workers := by unfold nOf; omega
  have wa := hc.work i h1 hn a ha
  have wb := hc.swork b hb
  unfold ChunkOk at wa wb
  have hB := c.B_pos
  show ¬ (a.p0 * c.B ≤ q ∧ q < a.e * c.B ∧ _)
  intro ⟨q1, q2, q3, q4⟩
  have hl := (Cnt.layout c).bounds i h1 hn
  have t1 := hc.trail_le h1 hn 0 (by omega)
  have t2 := hc.bytes_ge
  have t3 := hc.window hn
  rw [← hc.done i h1 hn] at t3
  have k1 : a.p0 ≤ q / c.B := by rw [Nat.le_div_iff_mul_le hB]; exact q1
  have k2 : q / c.B < a.e := by rw [Nat.div_lt_iff_lt_mul hB]; exact q2
  have kq := Nat.div_add_mod q c.B
  have km := Nat.mod_lt q hB
  -- the position of the stream of this byte, for the worker and for the source
  have ea := Nat.div_add_mod (s.th i).done c.S
  have eb := Nat.div_add_mod s.src.bytes c.SB
  have ex : ((s.th i).done + (q / c.B - a.p0)) * c.B + q % c.B = q + c.SB * ((s.th i).done / c.S) := by
    have : (s.th i).done + (q / c.B - a.p0) = q / c.B + c.S * ((s.th i).done / c.S) := by omega
    have e2 : c.SB * ((s.th i).done / c.S) = c.S * ((s.th i).done / c.S) * c.B := by rw [c.SB_eq, Nat.mul_right_comm]
    rw [this, Nat.add_mul, e2, Nat.mul_comm (q / c.B)]
    omega
  have ey : s.src.bytes + (q - b.p0) = q + c.SB * (s.src.bytes / c.SB) := by omega
  have l1 : ((s.th i).done + (q / c.B - a.p0) + 1) * c.B ≤ s.src.bytes := by
    have : ((s.th i).done + (q / c.B - a.p0) + 1) * c.B ≤ s.pub 0 * c.B := Nat.mul_le_mul_right _ (by omega)
    omega
  have l2 : (s.th i).done * c.B ≤ ((s.th i).done + (q / c.B - a.p0)) * c.B := Nat.mul_le_mul_right _ (by omega)
  rw [Nat.add_mul] at l1
  refine slot_ne (S := c.SB) (a := ((s.th i).done + (q / c.B - a.p0)) * c.B + q % c.B) (b := s.src.bytes + (q - b.p0)) (by omega) (by omega) ?_
  rw [ex, ey, Nat.add_mul_mod_self_left, Nat.add_mul_mod_self_left]

/-- What the threads wait for: a worker that something is ready for it, `dsl.h:583-590`, and the source that there is room, `dsl.h:703-715`. -/
def canGo (c : Cfg β σ) (s : St β σ) (i : Nat) : Prop :=
  if i = 0 then s.src.bytes < readyFor c.workers s.pub 0 * 2 ^ c.b + 2 ^ c.s * 2 ^ c.b else (s.th i).done < readyFor c.workers s.pub i

/-- C128 (c): the pipeline never gets stuck: at any moment some thread is in the middle of its work or has something to do (unless the source gets no more bytes). -/
theorem never_stuck {c : Cfg β σ} {os : List Op} {s : St β σ} (h : run c (St.init c) os = some s) : ∃ i, i ≤ c.workers.length ∧ canGo c s i := by
  have hc := (cnt_init c).run h
  have hl := Cnt.layout c
  by_cases hg : ∃ i, 1 ≤ i ∧ i ≤ c.workers.length ∧ (s.th i).done < readyFor c.workers s.pub i
  · obtain ⟨i, h1, h2, h3⟩ := hg
    exact ⟨i, h2, by unfold canGo; rw [if_neg (by omega)]; exact h3⟩
  · refine ⟨0, Nat.zero_le _, ?_⟩
    unfold canGo
    rw [if_pos rfl]
    have hall : ∀ i, i < nOf c.workers → s.pub 0 ≤ s.pub i := by
      intro i
      induction i using Nat.strongRecOn with
      | _ i ih =>
        intro hi
        rcases Nat.eq_zero_or_pos i with h0 | hp
        · subst h0; exact Nat.le_refl _
        · have h3 : readyFor c.workers s.pub i ≤ (s.th i).done := by
            rcases Nat.lt_or_ge (s.th i).done (readyFor c.workers s.pub i) with h' | h'
            · exact absurd ⟨i, hp, by unfold nOf at hi; omega, h'⟩ hg
            · exact h'
          rw [hc.done i hp hi, ready_worker hl hp hi] at h3
          have hb := hl.bounds i hp hi
          refine Nat.le_trans ?_ h3
          unfold internalReady
          obtain ⟨j, j1, j2, j3⟩ := minRange_mem s.pub (uv c.workers (U c.workers i - 1)).1 ((uv c.workers (U c.workers i - 1)).2 - (uv c.workers (U c.workers i - 1)).1)
          rw [j3]
          have hj : j ≤ U c.workers i - 1 := by
            rcases Nat.lt_or_ge 1 (U c.workers i) with hu | hu
            · have hv := prev_stage hl hp hi hu
              have hb' := hl.bounds (U c.workers i - 1) (by omega) (by omega)
              unfold U V at *
              omega
            · have e : U c.workers i - 1 = 0 := by omega
              rw [e] at j2
              simp [uv] at j2
              omega
          exact ih j (by omega) (by omega)
    have hgt : s.pub 0 ≤ readyFor c.workers s.pub 0 := by
      rw [ready_source]
      unfold grandTotal internalReady
      obtain ⟨j, j1, j2, j3⟩ := minRange_mem s.pub (uv c.workers (nOf c.workers - 1)).1 ((uv c.workers (nOf c.workers - 1)).2 - (uv c.workers (nOf c.workers - 1)).1)
      rw [j3]
      apply hall
      rcases Nat.lt_or_ge 1 (nOf c.workers) with hn | hn
      · have hb := hl.bounds (nOf c.workers - 1) (by omega) (by omega)
        unfold U V at hb
        omega
      · have e : nOf c.workers - 1 = 0 := by omega
        rw [e] at j2
        simp [uv] at j2
        have : 0 < nOf c.workers := by unfold nOf; omega
        omega
    have h4 : s.pub 0 * c.B ≤ readyFor c.workers s.pub 0 * c.B := Nat.mul_le_mul_right _ hgt
    rw [hc.blobs] at h4
    have h5 := Nat.div_add_mod s.src.bytes c.B
    have h6 := Nat.mod_lt s.src.bytes c.B_pos
    have h7 : c.B ≤ c.SB := by rw [c.SB_eq]; exact Nat.le_mul_of_pos_left _ c.S_pos
    rw [Nat.mul_comm] at h5
    show s.src.bytes < readyFor c.workers s.pub 0 * c.B + c.SB
    omega

/-- A thread which has something to do and is not in a call can look and start, and then do its first blob (byte). -/
theorem canGo_goes {c : Cfg β σ} {os : List Op} {s : St β σ} (h : run c (St.init c) os = some s) {i : Nat} (h2 : i ≤ c.workers.length) (hg : canGo c s i) :
    (i ≠ 0 → (s.th i).work = none → ∃ s', run c s [.look i (readyFor c.workers s.pub i), .start i, .blob i] = some s' ∧ (s'.seen i).length = (s.seen i).length + 1) ∧
      (i = 0 → s.src.work = none → ∃ s', run c s [.srcLook (readyFor c.workers s.pub 0), .srcStart, .srcByte, .srcFinish] = some s' ∧ s'.src.bytes = s.src.bytes + 1) := by
  have hc := (cnt_init c).run h
  have hn : i < nOf c.workers := by unfold nOf; omega
  constructor
  · intro hi hw
    unfold canGo at hg
    rw [if_neg hi] at hg
    have h1 : 1 ≤ i := by omega
    have ht := hc.trail i h1 hn
    have hmax : max (s.th i).trail (readyFor c.workers s.pub i) = readyFor c.workers s.pub i := by omega
    have hwin : readyFor c.workers s.pub i ≤ (s.th i).done + c.S := by
      have e : step c s (.look i (readyFor c.workers s.pub i)) = some (s.setTh i { s.th i with trail := readyFor c.workers s.pub i }) := by
        simp only [step]
        rw [if_pos ⟨h1, hn, by simp [hw], Nat.le_refl _⟩, hmax]
      have := (hc.step e).trail_window h1 hn
      simpa [St.setTh] using this
    obtain ⟨p1, p2, p3⟩ := chunk_end c.S_pos hg hwin
    simp only [run, step]
    rw [if_pos ⟨h1, hn, by simp [hw], Nat.le_refl _⟩]
    simp only [St.setTh, if_pos, hmax]
    rw [if_pos ⟨h1, hn, by simp [hw], hg⟩]
    simp only [if_pos, c.mask_S]
    rw [if_pos ⟨h1, hn, p1⟩]
    exact ⟨_, rfl, by simp⟩
  · intro hi hw
    subst hi
    unfold canGo at hg
    rw [if_pos rfl] at hg
    replace hg : s.src.bytes < readyFor c.workers s.pub 0 * c.B + c.SB := hg
    have ht := hc.strail
    have hmax : max s.src.trail (readyFor c.workers s.pub 0) = readyFor c.workers s.pub 0 := by omega
    have hwin : readyFor c.workers s.pub 0 * c.B + c.SB ≤ s.src.bytes + c.SB := by
      have h3 : readyFor c.workers s.pub 0 * c.B ≤ s.pub 0 * c.B := Nat.mul_le_mul_right _ (hc.total_le hn)
      have := hc.bytes_ge
      omega
    obtain ⟨p1, p2, p3⟩ := chunk_end c.SB_pos hg hwin
    simp only [run, step]
    rw [if_pos ⟨by simp [hw], Nat.le_refl _⟩]
    simp only [hmax]
    rw [if_pos ⟨by simp [hw], by omega⟩]
    simp only [c.mask_SB]
    rw [if_pos p1]
    simp only
    have e : s.src.bytes % c.SB + 1 - s.src.bytes % c.SB = 1 := by omega
    rw [e, if_pos (by omega)]
    by_cases hx : (s.src.bytes + 1) / c.B ≠ s.src.blobs
    · rw [if_pos hx]; exact ⟨_, rfl, rfl⟩
    · rw [if_neg hx]; exact ⟨_, rfl, rfl⟩

/-- C128 (d): the total which the pipeline reports is the minimum of the workers' counts of the last stage; no worker and not the source have done less. -/
theorem total_is_reached_by_all {c : Cfg β σ} (hok : c.Ok) {os : List Op} {s : St β σ} (h : run c (St.init c) os = some s) (i : Nat) (h1 : 1 ≤ i) (h2 : i ≤ c.workers.length) :
    grandTotal c.workers s.pub ≤ (s.seen i).length := by
  have hc := (cnt_init c).run h
  rw [← ready_source]
  exact Nat.le_trans (hc.total_le (i := i) (by unfold nOf; omega)) (workers_see_the_sequential_stream hok h i h1 h2).2.2

/-- The counters only grow. -/
theorem pub_mono {c : Cfg β σ} {s s' : St β σ} {o : Op} (h : Cnt c s) (hs : step c s o = some s') (i : Nat) : s.pub i ≤ s'.pub i := by
  cases o <;> simp only [step] at hs <;> (repeat' split at hs) <;> first | contradiction | (injection hs with hs; subst hs)
  all_goals first | exact Nat.le_refl _ | skip
  · rename_i k hk hg
    have := h.done _ hg.1 hg.2
    simp only
    split
    · rename_i hj; subst hj; omega
    · exact Nat.le_refl _
  · rename_i k hk h1 h2
    simp only
    split
    · rename_i hj; subst hj; rw [h.blobs]; exact Nat.div_le_div_right (by omega)
    · exact Nat.le_refl _

/-- C128 (e): the total never goes down. -/
theorem total_only_grows {c : Cfg β σ} {os os' : List Op} {s s' : St β σ} (h : run c (St.init c) os = some s) (h' : run c s os' = some s') :
    grandTotal c.workers s.pub ≤ grandTotal c.workers s'.pub := by
  have hc := (cnt_init c).run h
  clear h
  induction os' generalizing s with
  | nil => cases h'; exact Nat.le_refl _
  | cons o os' ih =>
    simp only [run] at h'
    split at h'
    · cases h'
    · rename_i s1 h1
      exact Nat.le_trans (minRange_mono _ _ (pub_mono hc h1) _ _) (ih h' (hc.step h1))

theorem roundUp_spec (x : Nat) : ∀ (d n : Nat), x - n ≤ d → (∃ s, n = 2 ^ s) → (n = 1 ∨ n < 2 * x) →
    (∃ s, roundUp x n = 2 ^ s) ∧ x ≤ roundUp x n ∧ (roundUp x n = 1 ∨ roundUp x n < 2 * x) := by
  intro d
  induction d with
  | zero =>
    intro n hd hs hn
    rw [roundUp, if_neg (by omega)]
    exact ⟨hs, by omega, hn⟩
  | succ d ih =>
    intro n hd hs hn
    rw [roundUp]
    obtain ⟨s, rfl⟩ := hs
    have hp := Nat.two_pow_pos s
    split
    · exact ih (2 ^ s * 2) (by omega) ⟨s + 1, by rw [Nat.pow_succ]⟩ (by omega)
    · exact ⟨⟨s, rfl⟩, by omega, hn⟩

/-- C128 (f): the buffer is as large as asked for, less than twice as large, and its size is a power of two, as the threads need it. -/
theorem buffer_size (x : Nat) : (∃ s, roundUp x 1 = 2 ^ s) ∧ x ≤ roundUp x 1 ∧ (roundUp x 1 = 1 ∨ roundUp x 1 < 2 * x) :=
  roundUp_spec x (x - 1) 1 (Nat.le_refl _) ⟨0, rfl⟩ (Or.inl rfl)

example : roundUp 5 1 = 8 ∧ roundUp 0 1 = 1 ∧ roundUp 8 1 = 8 := by
  refine ⟨?_, ?_, ?_⟩ <;> simp [roundUp]

/-! ### A history -/

/-- One worker which adds up and doubles, then two in parallel which only look; four blobs of two bytes in the buffer. -/
def demo : Cfg Nat Nat := ⟨[.worker, .parallel 1], 2, 1, fun x => x, 0, fun _ => 0, fun i w x => if i = 1 then (x.map (2 * ·), w + x.sum) else (x, w + x.sum)⟩

theorem demo_ok : demo.Ok := by
  constructor
  · intro i w x
    simp only [demo]
    split <;> simp
  · intro i h w x
    simp only [demo, isParallel] at *
    split
    · rename_i h1; subst h1; simp at h
    · rfl

/-- Five bytes arrive, the first worker does two blobs, then more bytes; one of the parallel workers runs ahead of the other; the source goes around the buffer. -/
def demoOps : List Op :=
  [.srcLook 0, .srcStart] ++ List.replicate 5 .srcByte ++ [.srcFinish, .look 1 2, .start 1, .blob 1, .blob 1, .finish 1] ++ [.srcStart] ++ List.replicate 3 .srcByte ++ [.srcFinish] ++
    [.look 3 1, .start 3, .blob 3, .finish 3, .look 2 2, .start 2, .blob 2, .look 3 2, .start 3, .blob 3, .blob 2, .finish 2, .finish 3, .srcLook 2, .srcStart, .srcByte, .srcByte, .srcFinish] ++
    [.look 1 5, .start 1, .blob 1, .blob 1, .finish 1, .start 1, .blob 1, .finish 1, .look 2 5, .start 2, .blob 2, .blob 2, .finish 2, .start 2, .blob 2]

example : (run demo (St.init demo) demoOps).map (fun s => ((s.seen 1).reverse, (s.seen 2).reverse, (s.seen 3).reverse, s.ws 1, grandTotal demo.workers s.pub)) =
    some ([[0, 1], [2, 3], [4, 5], [6, 7], [8, 9]], [[0, 2], [4, 6], [8, 10], [12, 14], [16, 18]], [[0, 2], [4, 6]], 45, 2) := by rfl

/-- The hypotheses of the theorems are met: threads of two stages and the source are at work at once. -/
example : (run demo (St.init demo) ([.srcLook 0, .srcStart] ++ List.replicate 4 .srcByte ++ [.srcFinish, .srcStart, .srcByte, .look 1 2, .start 1, .blob 1, .finish 1, .start 1, .look 2 1, .start 2])).map
    (fun s => ((s.th 1).work.map (fun k => (k.p0, k.e)), (s.th 2).work.map (fun k => (k.p0, k.e)), s.src.work.map (fun k => (k.p0, k.e)), stageOf 1 1 demo.blocks, stageOf 1 2 demo.blocks)) =
    some (some (1, 2), some (0, 1), some (4, 8), 1, 2) := by rfl

/-- Workers of a `ParallelPipeline` which do change the blobs see what the schedule makes of it: the condition of `Cfg.Ok` is needed. -/
def racy : Cfg Nat Nat := ⟨[.parallel 1], 1, 0, fun x => x + 1, 0, fun _ => 0, fun _ w x => (x.map (2 * ·), w)⟩

theorem parallel_writers_depend_on_the_schedule :
    (run racy (St.init racy) [.srcLook 0, .srcStart, .srcByte, .srcFinish, .look 1 1, .start 1, .blob 1, .look 2 1, .start 2, .blob 2]).map (fun s => (s.seen 1, s.seen 2)) = some ([[1]], [[2]]) ∧
      (run racy (St.init racy) [.srcLook 0, .srcStart, .srcByte, .srcFinish, .look 2 1, .start 2, .blob 2, .look 1 1, .start 1, .blob 1]).map (fun s => (s.seen 1, s.seen 2)) = some ([[2]], [[1]]) :=
  ⟨rfl, rfl⟩

end Current.Pipeline
