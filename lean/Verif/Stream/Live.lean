import Verif.Stream.Props
/-!
Properties C21 (catching up), C22 (`from_us`) and the second half of C48 (termination is prompt).
-/
namespace Current.Stream
open Current.Persist
variable {E : Type}

/-- `n` steps of the subscriber thread alone, the subscriber always answering `More`. -/
def alone (n : Nat) : List (Act E) := List.replicate n (.thread .more true)

theorem run_append (p : Params E) (s : St E) (as bs : List (Act E)) :
    run p s (as ++ bs) = match run p s as with | some s' => run p s' bs | none => none := by
  induction as generalizing s with
  | nil => rfl
  | cons a as ih =>
    simp only [List.cons_append, run]
    cases step p s a with
    | none => rfl
    | some s' => exact ih s'

theorem replicate_add' {α : Type} (n m : Nat) (a : α) : List.replicate (n + m) a = List.replicate n a ++ List.replicate m a :=
  (List.replicate_append_replicate).symm

/-- `s'` is reached from `s` by steps of the thread alone. -/
def To (p : Params E) (s s' : St E) : Prop := ∃ n, run p s (alone n) = some s'

theorem To.refl (p : Params E) (s : St E) : To p s s := ⟨0, rfl⟩
theorem To.step {p : Params E} {s s1 s2 : St E} (h : s.thread p .more true = some s1) (h2 : To p s1 s2) : To p s s2 := by
  obtain ⟨n, h2⟩ := h2
  refine ⟨n + 1, ?_⟩
  simp [alone, List.replicate_succ, run, Stream.step, h]
  exact h2
theorem To.trans {p : Params E} {s s1 s2 : St E} (h : To p s s1) (h2 : To p s1 s2) : To p s s2 := by
  obtain ⟨n, h⟩ := h
  obtain ⟨m, h2⟩ := h2
  refine ⟨n + m, ?_⟩
  unfold alone
  rw [replicate_add', run_append]
  unfold alone at h h2
  rw [h]; exact h2
theorem To.inv {p : Params E} {s s' : St E} (h : To p s s') (hi : Inv p s) : Inv p s' := by
  obtain ⟨n, h⟩ := h
  exact run_inv hi h
theorem To.inv2 {p : Params E} {s s' : St E} (h : To p s s') (hi : Inv p s) (h2 : Inv2 p s) : Inv2 p s' := by
  obtain ⟨n, h⟩ := h
  exact run_inv2 hi h2 h

/-- The thread waits, and the condition it waits for is false: without another call or signal it stays there. -/
def Idle (p : Params E) (s : St E) : Prop :=
  s.pc = .waiting ∧ s.mem.size ≤ s.index ∧ (p.begin_ < s.index → s.mem.head ≤ s.head)

theorem idle_stays {p : Params E} {s : St E} (h : Idle p s) (ht : s.term = false) (r : Resp) (w : Bool) : s.thread p r w = some s := by
  obtain ⟨h1, h2, h3⟩ := h
  unfold St.thread
  simp only [h1]
  rw [if_neg]
  simp only [ht, Mem.currentHead]
  intro hh
  rcases hh with hh | hh | ⟨hh, hh'⟩
  · cases hh
  · omega
  · have := h3 hh; omega

/-- What an alone run ends in. -/
def Goal (p : Params E) (s : St E) : Prop := ∃ s', To p s s' ∧ Idle p s' ∧ s'.mem = s.mem ∧ s'.term = false

theorem Goal.step {p : Params E} {s s1 : St E} (h : s.thread p .more true = some s1) (hm : s1.mem = s.mem) (g : Goal p s1) : Goal p s := by
  obtain ⟨s', h1, h2, h3, h4⟩ := g
  exact ⟨s', To.step h h1, h2, h3.trans hm, h4⟩

theorem goal_top_done {p : Params E} {s : St E} (hi : Inv p s) (ht : s.term = false) (hpc : s.pc = .top) (hh : s.mem.head ≤ s.head)
    (hs : s.mem.size ≤ s.index) : Goal p s := by
  refine Goal.step (s1 := { s with pc := .snap }) (by simp [St.thread, hpc, ht]) rfl ?_
  refine Goal.step (s1 := { s with pc := .waiting }) ?_ rfl ?_
  · simp only [St.thread]
    rcases headAndLast_cases hi.mem with ⟨he, h0⟩ | ⟨x, v, he, hd, hpos, hx⟩
    · rw [he]; dsimp only; rw [if_neg (by omega)]
    · rw [he]; dsimp only; rw [if_neg (by omega)]
  · exact ⟨_, To.refl _ _, ⟨rfl, hs, fun _ => hh⟩, rfl, ht⟩

theorem to_headCall {p : Params E} (k : Nat) : ∀ {s : St E}, Inv p s → s.term = false → ∀ {i e : Nat} {n : Snap}, s.pc = .fetch i e n →
    e - i = k → ∃ log, To p s { s with index := n.size, head := n.us, log := log, pc := .headCall n.head n.size } := by
  induction k with
  | zero =>
    intro s hi ht i e n hpc hk
    have hp := hi.pcOk
    simp only [PcOk, hpc] at hp
    refine ⟨s.log, To.step ?_ (To.refl _ _)⟩
    simp only [St.thread, hpc]
    rw [if_pos (by omega)]
  | succ k ih =>
    intro s hi ht i e n hpc hk
    have hp := hi.pcOk
    simp only [PcOk, hpc] at hp
    obtain ⟨x, v, hd⟩ := deref_exists (m := s.mem) (i := i) (by have := hp.1.size_le; omega)
    have s1 : s.thread p .more true = some { s with pc := .check i e n x v } := by
      simp only [St.thread, hpc]
      rw [if_neg (by omega), hd]
    have i1 := thread_inv hi _ _ s1
    have s2 : St.thread p { s with pc := .check i e n x v } .more true = some { s with pc := .pass i e n x v } := by
      simp [St.thread, ht]
    have i2 := thread_inv i1 _ _ s2
    obtain ⟨hlt, hxi⟩ := deref_lt hd
    obtain ⟨last, lv, hl, hld⟩ := lastPublished_ok hi.mem (by omega)
    have hli := (deref_lt hld).2
    have s3 : ∃ log, St.thread p { s with pc := .pass i e n x v } .more true = some { s with log := log, pc := .fetch (i + 1) e n } := by
      simp only [St.thread, hl]
      split
      · exact ⟨_, rfl⟩
      · rw [if_neg (by omega)]
        split
        · exact ⟨s.log, rfl⟩
        · exact ⟨_, rfl⟩
    obtain ⟨log, s3⟩ := s3
    have i3 := thread_inv i2 _ _ s3
    obtain ⟨log', h⟩ := ih i3 ht rfl (by omega)
    exact ⟨log', To.step s1 (To.step s2 (To.step s3 h))⟩

theorem goal_headCall_fresh {p : Params E} {s : St E} (hi : Inv p s) (ht : s.term = false) {h : Int} {size : Nat}
    (hpc : s.pc = .headCall h size) (hh : s.mem.head ≤ h) (hs : s.mem.size ≤ s.index) : Goal p s := by
  have : ∃ log, s.thread p .more true = some { s with log := log, head := h, pc := .top } := by
    simp only [St.thread, hpc]
    split
    · exact ⟨_, rfl⟩
    · exact ⟨s.log, rfl⟩
  obtain ⟨log, h1⟩ := this
  exact Goal.step h1 rfl (goal_top_done (thread_inv hi _ _ h1) ht rfl hh hs)

theorem goal_top {p : Params E} {s : St E} (hi : Inv p s) (h2 : Inv2 p s) (ht : s.term = false) (hpc : s.pc = .top)
    (hfrom : p.fromUs ≤ s.mem.head ∨ s.mem.size ≤ p.begin_) : Goal p s := by
  have hok := h2.headOk
  simp only [HeadOk, hpc] at hok
  have s1 : s.thread p .more true = some { s with pc := .snap } := by simp [St.thread, hpc, ht]
  have i1 := thread_inv hi _ _ s1
  refine Goal.step s1 rfl ?_
  have hidle : ¬ s.mem.head > s.head → s.mem.size ≤ s.index := by
    intro hle
    have hb := hi.beg
    rcases hok with ⟨h, hidx⟩ | ⟨_, ha⟩
    · omega
    · by_cases hlt : s.index < s.mem.entries.length
      · obtain ⟨x, v, hd⟩ := deref_exists (m := s.mem) hlt
        have := ha _ x v (Nat.le_refl _) hd
        have := deref_head hi.mem hd
        omega
      · simp only [Mem.size]; omega
  rcases headAndLast_cases hi.mem with ⟨he, h0⟩ | ⟨x, v, he, hd, hpos, hx⟩
  · by_cases hc : s.mem.head > s.head
    · have s2 : St.thread p { s with pc := .snap } .more true = some { s with pc := .headCall s.mem.head 0 } := by
        simp only [St.thread, he]; rw [if_pos hc]
      refine Goal.step s2 rfl (goal_headCall_fresh (thread_inv i1 _ _ s2) ht rfl (Int.le_refl _) ?_)
      simp [Mem.size, h0]
    · have s2 : St.thread p { s with pc := .snap } .more true = some { s with pc := .waiting } := by
        simp only [St.thread, he]; rw [if_neg hc]
      refine Goal.step s2 rfl ⟨_, To.refl _ _, ⟨rfl, hidle hc, fun _ => by dsimp only; omega⟩, rfl, ht⟩
  · by_cases hc : s.mem.head > s.head
    · by_cases hsz : x.index + 1 > s.index
      · have s2 : St.thread p { s with pc := .snap } .more true =
            some { s with pc := .iter ⟨s.mem.head, x.index + 1, x.us⟩ } := by
          simp only [St.thread, he]; rw [if_pos hc, if_pos hsz]
        have i2 := thread_inv i1 _ _ s2
        have hr : s.mem.iterateRange s.index (some (x.index + 1)) = .ok (s.index, x.index + 1) := by
          unfold Mem.iterateRange
          simp only [Option.getD_some]
          rw [if_neg (by omega), if_neg (by omega), if_neg (by omega), if_neg (by omega)]
        have s3 : St.thread p { s with pc := .iter ⟨s.mem.head, x.index + 1, x.us⟩ } .more true =
            some { s with pc := .fetch s.index (x.index + 1) ⟨s.mem.head, x.index + 1, x.us⟩ } := by
          simp only [St.thread, hr]
        have i3 := thread_inv i2 _ _ s3
        refine Goal.step s2 rfl (Goal.step s3 rfl ?_)
        obtain ⟨log, hto⟩ := to_headCall _ i3 ht rfl rfl
        obtain ⟨s', h1, h2', h3, h4⟩ := goal_headCall_fresh (hto.inv i3) ht rfl (Int.le_refl _)
          (show s.mem.size ≤ x.index + 1 by simp only [Mem.size]; omega)
        exact ⟨s', hto.trans h1, h2', h3, h4⟩
      · have s2 : St.thread p { s with pc := .snap } .more true = some { s with pc := .headCall s.mem.head (x.index + 1) } := by
          simp only [St.thread, he]; rw [if_pos hc, if_neg hsz]
        refine Goal.step s2 rfl (goal_headCall_fresh (thread_inv i1 _ _ s2) ht rfl (Int.le_refl _) ?_)
        simp only [Mem.size]; omega
    · have s2 : St.thread p { s with pc := .snap } .more true = some { s with pc := .waiting } := by
        simp only [St.thread, he]; rw [if_neg hc]
      refine Goal.step s2 rfl ⟨_, To.refl _ _, ⟨rfl, hidle hc, fun _ => by dsimp only; omega⟩, rfl, ht⟩

theorem goal_headCall {p : Params E} {s : St E} (hi : Inv p s) (h2 : Inv2 p s) (ht : s.term = false) {h : Int} {size : Nat}
    (hpc : s.pc = .headCall h size) (hfrom : p.fromUs ≤ s.mem.head ∨ s.mem.size ≤ p.begin_) : Goal p s := by
  have : ∃ log, s.thread p .more true = some { s with log := log, head := h, pc := .top } := by
    simp only [St.thread, hpc]
    split
    · exact ⟨_, rfl⟩
    · exact ⟨s.log, rfl⟩
  obtain ⟨log, h1⟩ := this
  exact Goal.step h1 rfl (goal_top (thread_inv hi _ _ h1) (thread_inv2 hi h2 _ _ h1) ht rfl hfrom)

theorem goal_fetch {p : Params E} {s : St E} (hi : Inv p s) (h2 : Inv2 p s) (ht : s.term = false) {i e : Nat} {n : Snap}
    (hpc : s.pc = .fetch i e n) (hfrom : p.fromUs ≤ s.mem.head ∨ s.mem.size ≤ p.begin_) : Goal p s := by
  obtain ⟨log, hto⟩ := to_headCall _ hi ht hpc rfl
  obtain ⟨s', h1, h3, h4, h5⟩ := goal_headCall (hto.inv hi) (hto.inv2 hi h2) ht rfl hfrom
  exact ⟨s', hto.trans h1, h3, h4, h5⟩

/-- Any state whose thread is not over. -/
theorem goal_any {p : Params E} {s : St E} (hi : Inv p s) (h2 : Inv2 p s) (ht : s.term = false) (hpc : s.pc ≠ .returned)
    (hfrom : p.fromUs ≤ s.mem.head ∨ s.mem.size ≤ p.begin_) : Goal p s := by
  have hp := hi.pcOk
  unfold PcOk at hp
  have one : ∀ {s1 : St E}, s.thread p .more true = some s1 → s1.mem = s.mem → s1.term = false →
      (Inv p s1 → Inv2 p s1 → Goal p s1) → Goal p s := fun h hm _ g =>
    Goal.step h hm (g (thread_inv hi _ _ h) (thread_inv2 hi h2 _ _ h))
  cases hq : s.pc with
  | top => exact goal_top hi h2 ht hq hfrom
  | snap =>
    -- the same state with pc `top` reaches it in one step
    have i0 : Inv p { s with pc := .top } := by
      refine quiet_inv hi hpc rfl rfl rfl rfl (Or.inr (by simp [St.proc, hq])) ?_
      simp only [hq] at hp
      exact hp
    have j0 : Inv2 p { s with pc := .top } := by
      refine ⟨?_, h2.told, h2.start, h2.heads, h2.delayed, ?_, h2.once, h2.sent⟩
      · have := h2.headOk
        simp only [HeadOk, hq] at this
        exact this
      · intro l1 ev l2 e hf
        have := (h2.fin _ _ _ e hf).2
        exact absurd this hpc
    obtain ⟨s', ⟨n, hn⟩, h3, h4, h5⟩ := goal_top i0 j0 ht rfl hfrom
    have hs : St.thread p { s with pc := .top } .more true = some s := by
      have e : s = { s with pc := .snap } := by rw [← hq]
      have : St.thread p { s with pc := .top } .more true = some { s with pc := .snap } := by simp [St.thread, ht]
      rw [this, ← e]
    refine ⟨s', ?_, h3, h4, h5⟩
    cases n with
    | zero => simp [alone, run] at hn; rw [← hn] at h3; simp [Idle] at h3
    | succ n =>
      refine ⟨n, ?_⟩
      simp only [alone, List.replicate_succ, run, step, hs] at hn
      exact hn
  | iter n =>
    simp only [hq] at hp
    have h1 := hp.1.size_le
    have hr : s.mem.iterateRange s.index (some n.size) = .ok (s.index, n.size) := by
      unfold Mem.iterateRange
      simp only [Option.getD_some]
      rw [if_neg (by omega), if_neg (by omega), if_neg (by omega), if_neg (by omega)]
    exact one (s1 := { s with pc := .fetch s.index n.size n }) (by simp only [St.thread, hq, hr]) rfl ht
      (fun a b => goal_fetch a b ht rfl hfrom)
  | fetch i e n => exact goal_fetch hi h2 ht hq hfrom
  | check i e n x v =>
    refine one (s1 := { s with pc := .pass i e n x v }) (by simp [St.thread, hq, ht]) rfl ht ?_
    intro a b
    have hp := a.pcOk
    simp only [PcOk] at hp
    obtain ⟨hlt, hxi⟩ := deref_lt hp.2.2.2.2.2
    obtain ⟨last, lv, hl, hld⟩ := lastPublished_ok hi.mem (by omega)
    have hli := (deref_lt hld).2
    have s3 : ∃ log, St.thread p { s with pc := .pass i e n x v } .more true = some { s with log := log, pc := .fetch (i + 1) e n } := by
      simp only [St.thread, hl]
      split
      · exact ⟨_, rfl⟩
      · rw [if_neg (by omega)]
        split
        · exact ⟨s.log, rfl⟩
        · exact ⟨_, rfl⟩
    obtain ⟨log, s3⟩ := s3
    exact Goal.step s3 rfl (goal_fetch (thread_inv a _ _ s3) (thread_inv2 a b _ _ s3) ht rfl hfrom)
  | pass i e n x v =>
    simp only [hq] at hp
    obtain ⟨hlt, hxi⟩ := deref_lt hp.2.2.2.2.2
    obtain ⟨last, lv, hl, hld⟩ := lastPublished_ok hi.mem (by omega)
    have hli := (deref_lt hld).2
    have s3 : ∃ log, s.thread p .more true = some { s with log := log, pc := .fetch (i + 1) e n } := by
      simp only [St.thread, hq, hl]
      split
      · exact ⟨_, rfl⟩
      · rw [if_neg (by omega)]
        split
        · exact ⟨s.log, rfl⟩
        · exact ⟨_, rfl⟩
    obtain ⟨log, s3⟩ := s3
    exact one s3 rfl ht (fun a b => goal_fetch a b ht rfl hfrom)
  | headCall h size => exact goal_headCall hi h2 ht hq hfrom
  | waiting =>
    by_cases hw : s.term ∨ s.mem.size > s.index ∨ (s.index > p.begin_ ∧ s.mem.currentHead > s.head)
    · exact one (s1 := { s with pc := .top }) (by simp only [St.thread, hq]; rw [if_pos hw]) rfl ht
        (fun a b => goal_top a b ht rfl hfrom)
    · refine ⟨s, To.refl _ _, ⟨hq, ?_, ?_⟩, rfl, ht⟩
      · omega
      · intro hb
        simp only [Mem.currentHead] at hw
        omega
  | returned => exact absurd hq hpc
  | crashed => simp only [hq] at hp

/-- C21, up to the two exceptions below. From every reachable state in which the subscription is alive and was not asked to end: if publishing
stops and the subscriber keeps answering `More`, the thread comes, after finitely many of its own steps, to a state where it
stays (it waits and the condition it waits for is false), and by then the subscriber has been passed *all* matching
entries of the stream from `begin` on. If there was any entry from `begin` on, then also the stream's head is known to the subscriber: it was
the last notification, or it is the timestamp of the last entry.
Missing: `fromUs` above the head while there are entries (`spins_until_from_us`), head updates before any entry
(`head_update_not_noticed`). -/
theorem subscriber_catches_up_partial {p : Params E} {s : St E} (hs : Reachable p s) (hterm : s.term = false)
    (halive : s.pc ≠ .returned) (hfrom : p.fromUs ≤ s.mem.head ∨ s.mem.size ≤ p.begin_) :
    ∃ N s', (∀ n ≥ N, run p s (alone n) = some s') ∧ s'.pc = .waiting ∧
      entriesOf s'.log = (s.mem.all.drop p.begin_).filter (fun x => p.sel x.2) ∧
      (p.begin_ < s.mem.size → s.mem.head ∈ timesOf s'.log ∨ s.mem.all.getLast?.map (·.1.us) = some s.mem.head) := by
  obtain ⟨s', ⟨N, hN⟩, hidle, hm, ht⟩ := goal_any hs.inv hs.inv2 hterm halive hfrom
  have hi := run_inv hs.inv hN
  have hi2 := run_inv2 hs.inv hs.inv2 hN
  have hmem : s'.mem = s.mem := hm
  refine ⟨N, s', ?_, hidle.1, ?_, ?_⟩
  · intro n hn
    obtain ⟨k, rfl⟩ : ∃ k, n = N + k := ⟨n - N, by omega⟩
    unfold alone at hN ⊢
    rw [replicate_add', run_append, hN]
    clear hn hN
    induction k with
    | zero => rfl
    | succ k ih =>
      simp only [List.replicate_succ, run, step, idle_stays hidle ht]
      exact ih
  · obtain ⟨k, h1, h2, h3, h4⟩ := hi.pass
    have hk : k = s'.index := by rw [h1 (by simp [hidle.1])]; simp [St.proc, hidle.1]
    have hsz := hidle.2.1
    rw [entriesOf_eq, h4, ← hmem]
    unfold slice
    have hl := Mem.all_length s'.mem
    simp only [Mem.size] at hsz
    rw [List.take_of_length_le (by simp; omega)]
  · intro hb
    have hsz := hidle.2.1
    rw [hmem] at hsz
    have hbi : p.begin_ < s'.index := by omega
    have hh := hidle.2.2 hbi
    rw [hmem] at hh
    have hidx : s'.index = s.mem.entries.length := by
      have := hi.idx
      rw [hmem] at this
      simp only [Mem.size] at hsz hb
      omega
    rcases hi2.told hbi with h | ⟨x, v, hd, hx⟩
    · left
      rw [timesOf_eq]
      have := hi.bound _ h
      rw [hmem] at this
      rw [show s.mem.head = s'.head by omega]
      exact h
    · right
      have := deref_head hi.mem hd
      rw [hmem] at this hd
      rw [List.getLast?_eq_getElem?, Mem.all_getElem?, Mem.all_length, ← hidx, hd]
      simp
      omega

example : ∃ s : St Nat, Reachable (demoParams fun _ => true) s ∧ s.term = false ∧ s.pc ≠ .returned ∧
    (demoParams fun _ => true).fromUs ≤ s.mem.head ∧ (demoParams fun _ => true).begin_ < s.mem.size :=
  ⟨_, ⟨[], [.call (.publish 10 100), .call (.publish 21 200), .thread .more true], rfl⟩, rfl, by simp, by decide, by decide⟩

theorem spin3 {p : Params E} {s : St E} (hi : s.mem.Inv) (hpc : s.pc = .top) (hno : (!s.sent && s.term) = false)
    (hhead : s.mem.head ≤ s.head)
    (hw : s.term ∨ s.mem.size > s.index ∨ (s.index > p.begin_ ∧ s.mem.currentHead > s.head)) (n : Nat) :
    run p s (alone (3 * n)) = some s := by
  have h3 : run p s (alone 3) = some s := by
    have s1 : St.thread p s .more true = some { s with pc := .snap } := by
      simp only [St.thread, hpc, hno]; rfl
    have s2 : St.thread p { s with pc := .snap } .more true = some { s with pc := .waiting } := by
      simp only [St.thread]
      rcases headAndLast_cases hi with ⟨he, h0⟩ | ⟨x, v, he, hd, hpos, hx⟩
      · rw [he]; dsimp only; rw [if_neg (by omega)]
      · rw [he]; dsimp only; rw [if_neg (by omega)]
    have s3 : St.thread p { s with pc := .waiting } .more true = some s := by
      simp only [St.thread]
      rw [if_pos hw, ← hpc]
    simp only [alone, List.replicate, run, step, s1, s2, s3]
  induction n with
  | zero => rfl
  | succ n ih =>
    unfold alone at h3 ih ⊢
    rw [show 3 * (n + 1) = 3 + 3 * n by omega, replicate_add', run_append, h3]
    exact ih

/-- C21 is false of the code when `from_us` is above the stream's head and there are entries from `begin` on: the thread passes nothing
and never waits; every three of its steps bring it back to the very state it started in (a busy loop through
`stream.h:385-413`), until a head reaches `from_us`. -/
theorem spins_until_from_us (p : Params E) (m : Mem E) (hm : m.Inv) (hfrom : m.head < p.fromUs) (hsz : p.begin_ < m.size) (n : Nat) :
    run p (St.init p m) (alone (3 * n)) = some (St.init p m) := by
  exact spin3 (s := St.init p m) hm rfl rfl (by simp only [St.init]; omega) (Or.inr (Or.inl hsz)) n

example : ∃ m : Mem Nat, m.Inv ∧ m.head < 500 ∧ 1 < m.size :=
  ⟨(Mem.init.run demoCodec [.publish 10 100, .publish 21 200]).1, Mem.run_inv Mem.Inv.init _, by decide, by decide⟩

/-- C21 is false of the code for head updates that come before the first entry: a subscriber that waits and has got
no entry yet is not told of any later `UpdateHead`, no matter how long it runs. -/
theorem head_update_not_noticed {p : Params E} {s : St E} (hpc : s.pc = .waiting) (hterm : s.term = false)
    (hidx : s.index = p.begin_) (hsz : s.mem.size ≤ p.begin_) (ts : Int) (n : Nat) :
    run p s (.call (.updateHead ts) :: alone n) = some { s with mem := (s.mem.updateHead ts).1 } := by
  have hst : ∀ t : St E, t.pc = .waiting → t.term = false → t.index = p.begin_ → t.mem.size ≤ p.begin_ →
      run p t (alone n) = some t := by
    intro t h1 h2 h3 h4
    have : t.thread p .more true = some t := by
      refine idle_stays ⟨h1, by omega, by omega⟩ h2 _ _
    unfold alone
    induction n with
    | zero => rfl
    | succ n ih => simp only [List.replicate_succ, run, step, this]; exact ih
  simp only [run, step]
  refine hst _ hpc hterm hidx ?_
  simp only [Mem.call, Mem.updateHead]
  split <;> exact hsz

example : ∃ s : St Nat, Reachable ⟨0, 0, fun _ => true, demoCodec⟩ s ∧ s.pc = .waiting ∧ s.term = false ∧ s.index = 0 ∧ s.mem.size ≤ 0 :=
  ⟨_, ⟨[], [.thread .more true, .thread .more true], rfl⟩, rfl, rfl, rfl, by decide⟩

/-! ### C22 -/

/-- C22, what `from_us` does guarantee: nothing is passed before the stream's head has reached `from_us`, and every
head notification is at or above `from_us`. Missing: entries below `from_us` are passed, `from_us_does_not_filter`. -/
theorem from_us_delays_partial {p : Params E} {s : St E} (hs : Reachable p s) :
    (∀ us r, Ev.head us r ∈ s.log → p.fromUs ≤ us) ∧
    ((∃ ev ∈ s.log, ∀ w, ev ≠ .terminate w) → p.fromUs ≤ s.mem.head) := by
  refine ⟨hs.inv2.heads, ?_⟩
  rintro ⟨ev, he, hn⟩
  refine hs.inv2.delayed ev he ?_
  cases ev <;> first | rfl | exact absurd rfl (hn _)

/-- C22 is false of the code: a subscriber asking for entries from time 150 on is passed the entry of time 100. -/
theorem from_us_does_not_filter :
    ∃ s : St Nat, Reachable ⟨0, 150, fun _ => true, demoCodec⟩ s ∧
      s.log = [.entry ⟨0, 100⟩ 10 ⟨1, 200⟩ .more, .entry ⟨1, 200⟩ 21 ⟨1, 200⟩ .more] :=
  ⟨_, ⟨[.publish 10 100, .publish 21 200], List.replicate 12 (.thread .more true), rfl⟩, rfl⟩

/-! ### C48 -/

/-- C48: once the scope was asked to end, a subscriber that agrees (answers anything but `Wait`) ends within five steps
of the thread, whatever it answers to the calls still made in them. -/
theorem termination_is_prompt {p : Params E} {s : St E} (hs : Reachable p s) (hterm : s.term = true) (hsent : s.sent = false)
    (rs : List Resp) (hlen : rs.length = 5) :
    ∃ n ≤ 5, ∃ s', run p s ((rs.take n).map (fun r => .thread r false)) = some s' ∧ s'.pc = .returned := by
  obtain ⟨r1, r2, r3, r4, r5, rfl⟩ : ∃ r1 r2 r3 r4 r5, rs = [r1, r2, r3, r4, r5] := by
    match rs, hlen with
    | [a, b, c, d, e], _ => exact ⟨a, b, c, d, e, rfl⟩
  -- `Ends k t`: ends within `k` steps
  let Ends (k : Nat) (t : St E) : Prop := ∀ rs : List Resp, k ≤ rs.length →
    ∃ n ≤ k, ∃ s', run p t ((rs.take n).map (fun r => .thread r false)) = some s' ∧ s'.pc = .returned
  have cons : ∀ k t, (∀ r, ∃ t', t.thread p r false = some t' ∧ (t'.pc = .returned ∨ Ends k t')) → Ends (k + 1) t := by
    intro k t h rs hl
    cases rs with
    | nil => simp at hl
    | cons r rs =>
      obtain ⟨t', h1, h2⟩ := h r
      rcases h2 with h2 | h2
      · exact ⟨1, by omega, t', by simp [run, step, h1], h2⟩
      · obtain ⟨n, hn, s', h3, h4⟩ := h2 rs (by simpa using hl)
        exact ⟨n + 1, by omega, s', by simp only [List.take_succ_cons, List.map_cons, run, step, h1]; exact h3, h4⟩
  have mono : ∀ k k' t, k ≤ k' → Ends k t → Ends k' t := by
    intro k k' t hk h rs hl
    obtain ⟨n, hn, r⟩ := h rs (by omega)
    exact ⟨n, by omega, r⟩
  have top : ∀ t : St E, t.term = true → t.sent = false → t.pc = .top → Ends 1 t := by
    intro t h1 h2 h3
    refine cons 0 t (fun r => ?_)
    simp only [St.thread, h3, h1, h2]
    exact ⟨_, rfl, Or.inl rfl⟩
  have headCall : ∀ t : St E, t.term = true → t.sent = false → ∀ h size, t.pc = .headCall h size → Ends 2 t := by
    intro t h1 h2 h size h3
    refine cons 1 t (fun r => ?_)
    simp only [St.thread, h3]
    split
    · split
      · exact ⟨_, rfl, Or.inl rfl⟩
      · exact ⟨_, rfl, Or.inr (top _ h1 h2 rfl)⟩
    · exact ⟨_, rfl, Or.inr (top _ h1 h2 rfl)⟩
  have fetch : ∀ t : St E, Inv p t → t.term = true → t.sent = false → ∀ i e n, t.pc = .fetch i e n → Ends 3 t := by
    intro t hi h1 h2 i e n h3
    have hp := hi.pcOk
    simp only [PcOk, h3] at hp
    refine cons 2 t (fun r => ?_)
    simp only [St.thread, h3]
    split
    · exact ⟨_, rfl, Or.inr (headCall _ h1 h2 _ _ rfl)⟩
    · obtain ⟨x, v, hd⟩ := deref_exists (m := t.mem) (i := i) (by have := hp.1.size_le; omega)
      rw [hd]
      refine ⟨_, rfl, Or.inr (mono 1 2 _ (by omega) (cons 0 _ (fun r => ?_)))⟩
      simp only [St.thread, h1, h2]
      exact ⟨_, rfl, Or.inl rfl⟩
  have iter : ∀ t : St E, Inv p t → t.term = true → t.sent = false → ∀ n, t.pc = .iter n → Ends 4 t := by
    intro t hi h1 h2 n h3
    have hp := hi.pcOk
    simp only [PcOk, h3] at hp
    have hsz := hp.1.size_le
    have hr : t.mem.iterateRange t.index (some n.size) = .ok (t.index, n.size) := by
      unfold Mem.iterateRange
      simp only [Option.getD_some]
      rw [if_neg (by omega), if_neg (by omega), if_neg (by omega), if_neg (by omega)]
    refine cons 3 t (fun r => ?_)
    have hs1 : t.thread p r false = some { t with pc := .fetch t.index n.size n } := by simp only [St.thread, h3, hr]
    exact ⟨_, hs1, Or.inr (fetch _ (thread_inv hi _ _ hs1) h1 h2 _ _ _ rfl)⟩
  have main : Ends 5 s := by
    have hp := hs.inv.pcOk
    unfold PcOk at hp
    cases hq : s.pc with
    | top => exact mono 1 5 _ (by omega) (top s hterm hsent hq)
    | snap =>
      refine cons 4 s (fun r => ?_)
      obtain ⟨t, ht⟩ : ∃ t, s.thread p r false = some t := by
        simp only [St.thread, hq]
        rcases headAndLast_cases hs.inv.mem with ⟨he, h0⟩ | ⟨x, v, he, hd, hpos, hx⟩
        · rw [he]; dsimp only; split <;> exact ⟨_, rfl⟩
        · rw [he]; dsimp only; split
          · split <;> exact ⟨_, rfl⟩
          · exact ⟨_, rfl⟩
      refine ⟨t, ht, Or.inr ?_⟩
      have hit := thread_inv hs.inv _ _ ht
      simp only [St.thread, hq] at ht
      have waiting : ∀ u : St E, u.term = true → u.sent = false → u.pc = .waiting → Ends 2 u := by
        intro u h1 h2 h3
        refine cons 1 u (fun r => ⟨{ u with pc := .top }, ?_, Or.inr (top _ h1 h2 rfl)⟩)
        simp only [St.thread, h3]
        rw [if_pos (Or.inl h1)]
      rcases headAndLast_cases hs.inv.mem with ⟨he, h0⟩ | ⟨x, v, he, hd, hpos, hx⟩
      · rw [he] at ht; dsimp only at ht
        split at ht <;> cases ht
        · exact mono 2 4 _ (by omega) (headCall _ hterm hsent _ _ rfl)
        · exact mono 2 4 _ (by omega) (waiting _ hterm hsent rfl)
      · rw [he] at ht; dsimp only at ht
        split at ht
        · split at ht <;> cases ht
          · exact iter _ hit hterm hsent _ rfl
          · exact mono 2 4 _ (by omega) (headCall _ hterm hsent _ _ rfl)
        · cases ht; exact mono 2 4 _ (by omega) (waiting _ hterm hsent rfl)
    | iter n => exact mono 4 5 _ (by omega) (iter s hs.inv hterm hsent n hq)
    | fetch i e n => exact mono 3 5 _ (by omega) (fetch s hs.inv hterm hsent i e n hq)
    | check i e n x v =>
      refine mono 1 5 _ (by omega) (cons 0 _ (fun r => ?_))
      simp only [St.thread, hq, hterm, hsent]
      exact ⟨_, rfl, Or.inl rfl⟩
    | pass i e n x v =>
      simp only [hq] at hp
      obtain ⟨hlt, hxi⟩ := deref_lt hp.2.2.2.2.2
      obtain ⟨last, lv, hl, hld⟩ := lastPublished_ok hs.inv.mem (by omega)
      have hli := (deref_lt hld).2
      refine mono 4 5 _ (by omega) (cons 3 s (fun r => ?_))
      obtain ⟨t, ht, hc⟩ : ∃ t, s.thread p r false = some t ∧ (t.pc = .returned ∨ (t.pc = .fetch (i + 1) e n ∧ t.term = true ∧ t.sent = false)) := by
        simp only [St.thread, hq, hl]
        by_cases hr : r = .done
        · subst hr
          split
          · exact ⟨_, rfl, Or.inl rfl⟩
          · rw [if_neg (by omega)]
            split
            · exact ⟨_, rfl, Or.inr ⟨rfl, hterm, hsent⟩⟩
            · exact ⟨_, rfl, Or.inl rfl⟩
        · simp only [hr, if_false]
          split
          · exact ⟨_, rfl, Or.inr ⟨rfl, hterm, hsent⟩⟩
          · rw [if_neg (by omega)]
            split
            · exact ⟨_, rfl, Or.inr ⟨rfl, hterm, hsent⟩⟩
            · exact ⟨_, rfl, Or.inr ⟨rfl, hterm, hsent⟩⟩
      refine ⟨t, ht, ?_⟩
      rcases hc with hc | ⟨h1, h2, h3⟩
      · exact Or.inl hc
      · exact Or.inr (fetch t (thread_inv hs.inv _ _ ht) h2 h3 _ _ _ h1)
    | headCall h size => exact mono 2 5 _ (by omega) (headCall s hterm hsent h size hq)
    | waiting =>
      refine mono 2 5 _ (by omega) (cons 1 s (fun r => ⟨{ s with pc := .top }, ?_, Or.inr (top _ hterm hsent rfl)⟩))
      simp only [St.thread, hq]
      rw [if_pos (Or.inl hterm)]
    | returned => exact fun rs _ => ⟨0, by omega, s, rfl, hq⟩
    | crashed => simp only [hq] at hp
  exact main _ (by simp)

example : ∃ s : St Nat, Reachable (demoParams fun _ => true) s ∧ s.term = true ∧ s.sent = false :=
  ⟨_, ⟨[.publish 10 100, .publish 21 200], [.thread .more true, .thread .more true, .signal], rfl⟩, rfl, rfl⟩

/-- A subscriber that answers `Wait` when asked to end, on a stream with nothing more to pass, makes its thread spin: it
comes back to the same state every three steps without ever blocking (the wait condition includes the signal). -/
theorem spins_after_wait {p : Params E} {s : St E} (hi : s.mem.Inv) (hpc : s.pc = .top) (hterm : s.term = true) (hsent : s.sent = true)
    (hhead : s.mem.head ≤ s.head) (n : Nat) : run p s (alone (3 * n)) = some s := by
  exact spin3 hi hpc (by simp [hsent]) hhead (Or.inl hterm) n

end Current.Stream
