import Verif.Stream.Model
/-! Inductive invariants of the subscriber thread. -/
namespace Current.Stream
open Current.Persist
variable {E : Type}

/-- Entries passed to the subscriber. -/
def passed : List (Ev E) → List (IdxTs × E)
  | [] => []
  | .entry i e _ _ :: l => (i, e) :: passed l
  | _ :: l => passed l

/-- Timestamps of what the subscriber was passed: entries and heads. -/
def stamps : List (Ev E) → List Int
  | [] => []
  | .entry i _ _ _ :: l => i.us :: stamps l
  | .head us _ :: l => us :: stamps l
  | _ :: l => stamps l

theorem passed_append (a b : List (Ev E)) : passed (a ++ b) = passed a ++ passed b := by
  induction a with
  | nil => rfl
  | cons x a ih => cases x <;> simp [passed, ih]

theorem stamps_append (a b : List (Ev E)) : stamps (a ++ b) = stamps a ++ stamps b := by
  induction a with
  | nil => rfl
  | cons x a ih => cases x <;> simp [stamps, ih]

/-- Number of entries of the stream the thread is done with. -/
def St.proc (s : St E) : Nat :=
  match s.pc with
  | .fetch i _ _ | .check i _ _ _ _ | .pass i _ _ _ _ => i
  | _ => s.index

/-- Entries `[b, e)` with their indexes. -/
def slice (m : Mem E) (b e : Nat) : List (IdxTs × E) := (m.all.drop b).take (e - b)

theorem slice_self (m : Mem E) (b : Nat) : slice m b b = [] := by simp [slice]

theorem slice_succ (m : Mem E) (b i : Nat) (x : IdxTs) (v : E) (hb : b ≤ i) (h : m.deref i = some (x, v)) :
    slice m b (i + 1) = slice m b i ++ [(x, v)] := by
  unfold slice
  rw [show i + 1 - b = (i - b) + 1 by omega, List.take_add_one]
  congr 1
  rw [List.getElem?_drop, show b + (i - b) = i by omega, Mem.all_getElem?, h]
  rfl

theorem all_prefix (k : Codec E) (m : Mem E) (c : Call E) : ∃ t, (m.call k c).1.all = m.all ++ t := by
  obtain ⟨t, ht⟩ := Mem.call_prefix k m c
  refine ⟨t.mapIdx fun i p => (⟨i + m.entries.length, p.1⟩, p.2), ?_⟩
  unfold Mem.all
  rw [← ht, List.mapIdx_append]

theorem slice_call (k : Codec E) (m : Mem E) (c : Call E) (b e : Nat) (h : e ≤ m.entries.length ∨ e ≤ b) :
    slice (m.call k c).1 b e = slice m b e := by
  by_cases heb : e ≤ b
  · simp [slice, show e - b = 0 by omega]
  · have h : e ≤ m.entries.length := by omega
    obtain ⟨t, ht⟩ := all_prefix k m c
    unfold slice
    rw [ht]
    have hl := Mem.all_length m
    rw [List.drop_append_of_le_length (by omega), List.take_append_of_le_length (by simp; omega)]

theorem call_length (k : Codec E) (m : Mem E) (c : Call E) : m.entries.length ≤ (m.call k c).1.entries.length := by
  obtain ⟨t, ht⟩ := Mem.call_prefix k m c
  rw [← ht]; simp

theorem call_head (k : Codec E) (m : Mem E) (c : Call E) : m.head ≤ (m.call k c).1.head := by
  cases c with
  | publish e ts => simp only [Mem.call, Mem.publish]; split <;> simp <;> omega
  | publishUnsafe l =>
    simp only [Mem.call, Mem.publishUnsafe]
    repeat' split
    all_goals simp
    rename_i h _ _ _
    omega
  | updateHead ts => simp only [Mem.call, Mem.updateHead]; split <;> simp <;> omega

/-- New entries are later than the head before the call. -/
theorem call_new (k : Codec E) (m : Mem E) (c : Call E) (i : Nat) (x : IdxTs) (v : E)
    (hi : m.entries.length ≤ i) (h : (m.call k c).1.deref i = some (x, v)) : m.head < x.us := by
  have key : ∀ (ts : Int) (e : E), ts > m.head →
      Mem.deref { entries := m.entries ++ [(ts, e)], head := ts } i = some (x, v) → m.head < x.us := by
    intro ts e hts h
    simp only [Mem.deref, Option.map_eq_some_iff] at h
    obtain ⟨a, h1, h2⟩ := h
    rw [List.getElem?_append_right hi] at h1
    have : a = (ts, e) := by
      have := List.mem_of_getElem? h1
      simpa using this
    subst this
    simp at h2
    rw [← h2.1]
    exact hts
  have none : m.deref i ≠ some (x, v) := by
    simp [Mem.deref, List.getElem?_eq_none hi]
  cases c with
  | publish e ts =>
    simp only [Mem.call, Mem.publish] at h
    split at h
    · exact key ts e ‹_› h
    · exact absurd h none
  | publishUnsafe l =>
    simp only [Mem.call, Mem.publishUnsafe] at h
    repeat' split at h
    all_goals first
      | exact absurd h none
      | (rename_i h1 _ _ _; exact key _ _ (by simpa using h1) h)
  | updateHead ts =>
    simp only [Mem.call, Mem.updateHead] at h
    split at h
    · exact absurd (show m.deref i = some (x, v) by simpa [Mem.deref] using h) none
    · exact absurd h none

theorem call_deref (k : Codec E) (m : Mem E) (c : Call E) (i : Nat) (hi : i < m.entries.length) :
    (m.call k c).1.deref i = m.deref i := by
  obtain ⟨t, ht⟩ := Mem.call_prefix k m c
  unfold Mem.deref
  rw [← ht, List.getElem?_append_left hi]

theorem deref_lt {m : Mem E} {i : Nat} {x : IdxTs} {v : E} (h : m.deref i = some (x, v)) :
    i < m.entries.length ∧ x.index = i := by
  simp only [Mem.deref, Option.map_eq_some_iff] at h
  obtain ⟨a, h1, h2⟩ := h
  rw [List.getElem?_eq_some_iff] at h1
  obtain ⟨h1, _⟩ := h1
  simp at h2
  exact ⟨h1, by rw [← h2.1]⟩

theorem deref_us_lt {m : Mem E} (hm : m.Inv) {i j : Nat} {x y : IdxTs} {v u : E} (h : m.deref i = some (x, v))
    (h' : m.deref j = some (y, u)) (hij : i < j) : x.us < y.us := by
  simp only [Mem.deref, Option.map_eq_some_iff] at h h'
  obtain ⟨a, h1, h2⟩ := h
  obtain ⟨b, h3, h4⟩ := h'
  rw [List.getElem?_eq_some_iff] at h1 h3
  obtain ⟨h1, h1'⟩ := h1
  obtain ⟨h3, h3'⟩ := h3
  have := List.pairwise_iff_getElem.1 hm.sorted i j h1 h3 hij
  simp at h2 h4
  rw [← h2.1, ← h4.1]
  rw [h1', h3'] at this
  exact this

theorem deref_head {m : Mem E} (hm : m.Inv) {i : Nat} {x : IdxTs} {v : E} (h : m.deref i = some (x, v)) :
    x.us ≤ m.head := by
  simp only [Mem.deref, Option.map_eq_some_iff] at h
  obtain ⟨a, h1, h2⟩ := h
  have := hm.le_head a (List.mem_of_getElem? h1)
  simp at h2
  rw [← h2.1]
  exact this

theorem deref_exists {m : Mem E} {i : Nat} (h : i < m.entries.length) : ∃ x v, m.deref i = some (x, v) := by
  refine ⟨⟨i, m.entries[i].1⟩, m.entries[i].2, ?_⟩
  simp [Mem.deref, h]

/-- The snapshot is still good: the entries below `size` are there, the last of them has timestamp `us`, and
every entry from `size` on is later than the head of that moment. -/
structure SnapOk (m : Mem E) (n : Snap) : Prop where
  size_le : n.size ≤ m.entries.length
  pos : 0 < n.size
  last : ∃ x v, m.deref (n.size - 1) = some (x, v) ∧ x.us = n.us
  us_le : n.us ≤ n.head
  head_le : n.head ≤ m.head
  later : ∀ i x v, n.size ≤ i → m.deref i = some (x, v) → n.head < x.us

theorem SnapOk.call {k : Codec E} {m : Mem E} {n : Snap} (h : SnapOk m n) (c : Call E) : SnapOk (m.call k c).1 n := by
  have h1 := h.size_le
  have h2 := call_length k m c
  have h3 := call_head k m c
  have h4 := h.pos
  obtain ⟨x, v, h5, h6⟩ := h.last
  refine ⟨by omega, h.pos, ⟨x, v, ?_, h6⟩, h.us_le, by have := h.head_le; omega, ?_⟩
  · rw [call_deref k m c _ (by omega)]; exact h5
  · intro i x v hi hd
    by_cases hlt : i < m.entries.length
    · rw [call_deref k m c i hlt] at hd
      exact h.later i x v hi hd
    · have := call_new k m c i x v (by omega) hd
      have := h.head_le
      omega

/-- What the program counter says. -/
def PcOk (p : Params E) (s : St E) : Prop :=
  match s.pc with
  | .iter n => SnapOk s.mem n ∧ s.index < n.size ∧ s.head < n.head
  | .fetch i e n => SnapOk s.mem n ∧ e = n.size ∧ s.index ≤ i ∧ i ≤ e ∧ s.index < e ∧ s.head < n.head ∧
    ∀ t ∈ stamps s.log, t ≤ n.us
  | .check i e n x v | .pass i e n x v =>
    SnapOk s.mem n ∧ e = n.size ∧ s.index ≤ i ∧ i < e ∧ s.head < n.head ∧ s.mem.deref i = some (x, v)
  | .headCall h size =>
    h ≤ s.mem.head ∧ size ≤ s.mem.entries.length ∧ (∀ i x v, size ≤ i → s.mem.deref i = some (x, v) → h < x.us) ∧
    size ≤ s.index ∧ (size = s.index ∨ s.index = p.begin_) ∧
    (∀ t ∈ stamps s.log, t ≤ s.head) ∧ s.head ≤ h
  | .crashed => False
  | .returned => True
  | .top | .snap | .waiting => ∀ t ∈ stamps s.log, t ≤ s.head

structure Inv (p : Params E) (s : St E) : Prop where
  mem : s.mem.Inv
  pcOk : PcOk p s
  beg : p.begin_ ≤ s.index
  idx : s.index ≤ s.mem.entries.length ∨ s.index = p.begin_
  pass : ∃ n, (s.pc ≠ .returned → n = s.proc) ∧ p.begin_ ≤ n ∧ (n ≤ s.mem.entries.length ∨ n = p.begin_) ∧
    passed s.log = (slice s.mem p.begin_ n).filter (fun x => p.sel x.2)
  ord : (stamps s.log).Pairwise (· < ·)
  bound : ∀ t ∈ stamps s.log, t ≤ s.mem.head
  later : s.pc ≠ .returned → ∀ t ∈ stamps s.log, ∀ i x v, s.proc ≤ i → s.mem.deref i = some (x, v) → t < x.us

theorem init_inv (p : Params E) (m : Mem E) (hm : m.Inv) : Inv p (St.init p m) := by
  constructor
  · exact hm
  · simp [PcOk, St.init, stamps]
  · simp [St.init]
  · simp [St.init]
  · exact ⟨p.begin_, fun _ => rfl, Nat.le_refl _, Or.inr rfl, by simp [St.init, slice_self, passed]⟩
  · simp [St.init, stamps]
  · simp [St.init, stamps]
  · simp [St.init, stamps]

theorem proc_le {p : Params E} {s : St E} (h : Inv p s) : s.proc ≤ s.mem.entries.length ∨ s.proc = p.begin_ := by
  have hp := h.pcOk
  have hi := h.idx
  unfold St.proc
  unfold PcOk at hp
  split <;> simp_all
  · have := hp.1.size_le; omega
  · have := hp.1.size_le; omega
  · have := hp.1.size_le; omega

theorem call_inv {p : Params E} {s : St E} (h : Inv p s) (c : Call E) :
    Inv p { s with mem := (s.mem.call p.codec c).1 } := by
  have hl := call_length p.codec s.mem c
  have hh := call_head p.codec s.mem c
  have hproc := proc_le h
  constructor
  · exact h.mem.call c
  · have hp := h.pcOk
    unfold PcOk at hp ⊢
    split at hp <;> rename_i hpc <;> simp only [hpc]
    · exact ⟨hp.1.call c, hp.2⟩
    · exact ⟨hp.1.call c, hp.2⟩
    · refine ⟨hp.1.call c, hp.2.1, hp.2.2.1, hp.2.2.2.1, hp.2.2.2.2.1, ?_⟩
      rw [call_deref _ _ _ _ (deref_lt hp.2.2.2.2.2).1]; exact hp.2.2.2.2.2
    · refine ⟨hp.1.call c, hp.2.1, hp.2.2.1, hp.2.2.2.1, hp.2.2.2.2.1, ?_⟩
      rw [call_deref _ _ _ _ (deref_lt hp.2.2.2.2.2).1]; exact hp.2.2.2.2.2
    · obtain ⟨h1, h2, h3, h4⟩ := hp
      refine ⟨by omega, by omega, ?_, h4⟩
      intro i x v hi hd
      by_cases hlt : i < s.mem.entries.length
      · rw [call_deref _ _ _ i hlt] at hd
        exact h3 i x v hi hd
      · have := call_new _ _ _ i x v (by omega) hd
        omega
    · exact hp
    · exact hp
    · exact hp
    · exact hp
  · exact h.beg
  · rcases h.idx with h | h
    · exact Or.inl (by dsimp only; omega)
    · exact Or.inr h
  · obtain ⟨n, h1, h2, h3, h4⟩ := h.pass
    refine ⟨n, h1, h2, ?_, ?_⟩
    · rcases h3 with h3 | h3
      · exact Or.inl (by dsimp only; omega)
      · exact Or.inr h3
    · dsimp only
      rw [slice_call _ _ _ _ _ (by omega)]
      exact h4
  · exact h.ord
  · intro t ht
    have := h.bound t ht
    dsimp only; omega
  · intro hr t ht i x v hi hd
    by_cases hlt : i < s.mem.entries.length
    · rw [call_deref _ _ _ i hlt] at hd
      exact h.later hr t ht i x v hi hd
    · have := call_new _ _ _ i x v (by omega) hd
      have := h.bound t ht
      omega

theorem headAndLast_cases {m : Mem E} (hm : m.Inv) :
    (m.headAndLast = .ok (m.head, none) ∧ m.entries.length = 0) ∨
    ∃ x v, m.headAndLast = .ok (m.head, some x) ∧ m.deref (m.entries.length - 1) = some (x, v) ∧
      0 < m.entries.length ∧ x.index = m.entries.length - 1 := by
  unfold Mem.headAndLast
  rcases List.eq_nil_or_concat m.entries with h | ⟨l, ⟨us, v⟩, h⟩
  · left; simp [h]
  · right
    have hlast : m.entries.getLast? = some (us, v) := by simp [h]
    have hle := hm.le_head (us, v) (by simp [h])
    refine ⟨⟨m.entries.length - 1, us⟩, v, ?_, ?_, by simp [h], rfl⟩
    · simp only [hlast]
      simp at hle
      simp [hle]
    · unfold Mem.deref
      have : m.entries[m.entries.length - 1]? = some (us, v) := by rw [← hlast, List.getLast?_eq_getElem?]
      rw [this]; rfl

theorem lastPublished_ok {m : Mem E} (hm : m.Inv) (h : 0 < m.entries.length) :
    ∃ x v, m.lastPublished = .ok x ∧ m.deref (m.entries.length - 1) = some (x, v) := by
  unfold Mem.lastPublished
  rcases List.eq_nil_or_concat m.entries with h' | ⟨l, ⟨us, v⟩, h'⟩
  · simp [h'] at h
  · have hlast : m.entries.getLast? = some (us, v) := by simp [h']
    have hle := hm.le_head (us, v) (by simp [h'])
    refine ⟨⟨m.entries.length - 1, us⟩, v, ?_, ?_⟩
    · simp only [hlast]
      simp at hle
      simp [hle]
    · unfold Mem.deref
      have : m.entries[m.entries.length - 1]? = some (us, v) := by rw [← hlast, List.getLast?_eq_getElem?]
      rw [this]; rfl

/-- A step that changes neither the stream, nor what was passed, nor the position. -/
theorem quiet_inv {p : Params E} {s s' : St E} (h : Inv p s) (hr : s.pc ≠ .returned) (hm : s'.mem = s.mem)
    (hidx : s'.index = s.index) (hp : passed s'.log = passed s.log) (hst : stamps s'.log = stamps s.log)
    (hproc : s'.pc = .returned ∨ s'.proc = s.proc) (hpc : PcOk p s') : Inv p s' := by
  constructor
  · rw [hm]; exact h.mem
  · exact hpc
  · rw [hidx]; exact h.beg
  · rw [hidx, hm]; exact h.idx
  · obtain ⟨n, h1, h2, h3, h4⟩ := h.pass
    refine ⟨n, fun hr' => ?_, h2, by rw [hm]; exact h3, by rw [hp, hm]; exact h4⟩
    rcases hproc with hh | hh
    · exact absurd hh hr'
    · rw [hh]; exact h1 hr
  · rw [hst]; exact h.ord
  · rw [hst, hm]; exact h.bound
  · intro hr' t ht i x v hi hd
    rcases hproc with hh | hh
    · exact absurd hh hr'
    · rw [hst] at ht; rw [hm] at hd; rw [hh] at hi
      exact h.later hr t ht i x v hi hd

theorem thread_inv {p : Params E} {s s' : St E} (h : Inv p s) (r : Resp) (w : Bool) (hs : s.thread p r w = some s') :
    Inv p s' := by
  have hpc := h.pcOk
  unfold PcOk at hpc
  unfold St.thread at hs
  split at hs
  · -- top
    rename_i hq
    simp only [hq] at hpc
    split at hs
    · split at hs <;> cases hs
      · refine quiet_inv h (by simp [hq]) rfl rfl (by simp [passed_append, passed]) (by simp [stamps_append, stamps])
          (Or.inr (by simp [St.proc, hq])) ?_
        simpa [PcOk, stamps_append, stamps] using hpc
      · exact quiet_inv h (by simp [hq]) rfl rfl (by simp [passed_append, passed]) (by simp [stamps_append, stamps])
          (Or.inl rfl) (by simp [PcOk])
    · cases hs
      exact quiet_inv h (by simp [hq]) rfl rfl rfl rfl (Or.inr (by simp [St.proc, hq])) hpc
  · -- snap
    rename_i hq
    simp only [hq] at hpc
    have hlater : ∀ i x v, s.mem.entries.length ≤ i → s.mem.deref i = some (x, v) → s.mem.head < x.us := by
      intro i x v hi hd
      have := (deref_lt hd).1
      omega
    rcases headAndLast_cases h.mem with ⟨he, h0⟩ | ⟨x, v, he, hd, hpos, hx⟩
    · rw [he] at hs
      dsimp only at hs
      split at hs
      · cases hs
        refine quiet_inv h (by simp [hq]) rfl rfl rfl rfl (Or.inr (by simp [St.proc, hq])) ?_
        have := h.idx
        refine ⟨Int.le_refl _, by dsimp only; omega, ?_, by dsimp only; omega, ?_, hpc, by dsimp only; omega⟩
        · intro i x v hi hd; exact hlater i x v (by omega) hd
        · dsimp only; omega
      · cases hs
        exact quiet_inv h (by simp [hq]) rfl rfl rfl rfl (Or.inr (by simp [St.proc, hq])) hpc
    · rw [he] at hs
      dsimp only at hs
      split at hs
      · split at hs
        · cases hs
          refine quiet_inv h (by simp [hq]) rfl rfl rfl rfl (Or.inr (by simp [St.proc, hq])) ?_
          refine ⟨⟨by dsimp only; omega, by simp, ⟨x, v, ?_, rfl⟩, ?_, Int.le_refl _, ?_⟩, by simpa using ‹_›, by simpa using ‹_›⟩
          · dsimp only; rw [hx]; exact hd
          · exact deref_head h.mem hd
          · intro i y u hi hd'
            dsimp only at hi
            exact hlater i y u (by omega) hd'
        · cases hs
          refine quiet_inv h (by simp [hq]) rfl rfl rfl rfl (Or.inr (by simp [St.proc, hq])) ?_
          have := h.idx
          refine ⟨Int.le_refl _, by dsimp only; omega, ?_, by dsimp only; omega, ?_, hpc, by dsimp only; omega⟩
          · intro i y u hi hd'; exact hlater i y u (by omega) hd'
          · dsimp only; omega
      · cases hs
        exact quiet_inv h (by simp [hq]) rfl rfl rfl rfl (Or.inr (by simp [St.proc, hq])) hpc
  · -- iter
    rename_i n hq
    simp only [hq] at hpc
    have h1 := hpc.1.size_le
    have hr : s.mem.iterateRange s.index (some n.size) = .ok (s.index, n.size) := by
      unfold Mem.iterateRange
      simp only [Option.getD_some]
      rw [if_neg (by omega), if_neg (by omega), if_neg (by omega), if_neg (by omega)]
    rw [hr] at hs
    dsimp only at hs
    cases hs
    refine quiet_inv h (by simp [hq]) rfl rfl rfl rfl (Or.inr (by simp [St.proc, hq])) ?_
    refine ⟨hpc.1, rfl, Nat.le_refl _, by omega, hpc.2.1, hpc.2.2, ?_⟩
    obtain ⟨x, v, hd, hu⟩ := hpc.1.last
    intro t ht
    have := h.later (by simp [hq]) t ht _ x v (by simp [St.proc, hq]; omega) hd
    omega
  · -- fetch
    rename_i i e n hq
    simp only [hq] at hpc
    obtain ⟨hsn, he, hi1, hi2, hi3, hh, hst⟩ := hpc
    split at hs
    · rename_i hie
      cases hs
      constructor
      · exact h.mem
      · refine ⟨hsn.head_le, hsn.size_le, hsn.later, Nat.le_refl _, Or.inl rfl, hst, hsn.us_le⟩
      · have := h.beg; dsimp only; omega
      · exact Or.inl hsn.size_le
      · obtain ⟨k, h1, h2, h3, h4⟩ := h.pass
        have := h1 (by simp [hq])
        refine ⟨k, fun _ => ?_, h2, h3, h4⟩
        rw [this]; simp [St.proc, hq]; omega
      · exact h.ord
      · exact h.bound
      · intro _ t ht j y u hj hd
        refine h.later (by simp [hq]) t ht j y u ?_ hd
        simp [St.proc] at hj
        simp [St.proc, hq]; omega
    · rename_i hie
      obtain ⟨x, v, hd⟩ := deref_exists (m := s.mem) (i := i) (by have := hsn.size_le; omega)
      rw [hd] at hs
      dsimp only at hs
      cases hs
      refine quiet_inv h (by simp [hq]) rfl rfl rfl rfl (Or.inr (by simp [St.proc, hq])) ?_
      exact ⟨hsn, he, hi1, by omega, hh, hd⟩
  · -- check
    rename_i i e n x v hq
    simp only [hq] at hpc
    split at hs
    · split at hs <;> cases hs
      · refine quiet_inv h (by simp [hq]) rfl rfl (by simp [passed_append, passed]) (by simp [stamps_append, stamps])
          (Or.inr (by simp [St.proc, hq])) ?_
        exact hpc
      · exact quiet_inv h (by simp [hq]) rfl rfl (by simp [passed_append, passed]) (by simp [stamps_append, stamps])
          (Or.inl rfl) (by simp [PcOk])
    · cases hs
      exact quiet_inv h (by simp [hq]) rfl rfl rfl rfl (Or.inr (by simp [St.proc, hq])) hpc
  · -- pass
    rename_i i e n x v hq
    simp only [hq] at hpc
    obtain ⟨hsn, he, hi1, hi2, hh, hd⟩ := hpc
    obtain ⟨hlt, hxi⟩ := deref_lt hd
    obtain ⟨last, lv, hl, hld⟩ := lastPublished_ok h.mem (by omega)
    have hli := (deref_lt hld).2
    have hbeg := h.beg
    rw [hl] at hs
    dsimp only at hs
    obtain ⟨y, u, hyd, hyu⟩ := hsn.last
    have hxy : x.us ≤ n.us := by
      rw [← hyu]
      by_cases hc : i = n.size - 1
      · rw [← hc, hd] at hyd; cases hyd; exact Int.le_refl _
      · exact Int.le_of_lt (deref_us_lt h.mem hd hyd (by omega))
    have hold : ∀ t ∈ stamps s.log, t < x.us := fun t ht =>
      h.later (by simp [hq]) t ht i x v (by simp [St.proc, hq]) hd
    obtain ⟨k, h1, h2, h3, h4⟩ := h.pass
    have hk : k = i := by rw [h1 (by simp [hq])]; simp [St.proc, hq]
    subst hk
    have hsl := slice_succ s.mem p.begin_ k x v (by omega) hd
    have hlater : ∀ t ∈ stamps s.log, ∀ j y u, k + 1 ≤ j → s.mem.deref j = some (y, u) → t < y.us := by
      intro t ht j y u hj hdj
      exact h.later (by simp [hq]) t ht j y u (by simp [St.proc, hq]; omega) hdj
    split at hs
    · -- the entry is passed
      rename_i hsel
      cases hs
      have hst : stamps (s.log ++ [.entry x v last r]) = stamps s.log ++ [x.us] := by simp [stamps_append, stamps]
      have hstm : ∀ t ∈ stamps (s.log ++ [Ev.entry x v last r]), t ≤ x.us := by
        rw [hst]; intro t ht
        rcases List.mem_append.1 ht with ht | ht
        · exact Int.le_of_lt (hold t ht)
        · simp at ht; omega
      constructor
      · exact h.mem
      · unfold PcOk
        by_cases hr : r = .done
        · simp [hr]
        · simp only [hr, if_false]
          refine ⟨hsn, he, by omega, by omega, by omega, hh, ?_⟩
          intro t ht
          have := hstm t ht
          omega
      · exact h.beg
      · exact h.idx
      · refine ⟨k + 1, ?_, by omega, Or.inl (by dsimp only; omega), ?_⟩
        · intro hr
          by_cases hrd : r = .done
          · simp [hrd] at hr
          · simp [St.proc, hrd]
        · dsimp only
          rw [passed_append, h4, hsl, List.filter_append]
          simp [passed, hsel]
      · dsimp only
        rw [hst, List.pairwise_append]
        refine ⟨h.ord, by simp, ?_⟩
        intro a ha b hb
        simp at hb; subst hb
        exact hold a ha
      · intro t ht
        have := hstm t ht
        have := deref_head h.mem hd
        dsimp only; omega
      · intro hr t ht j y u hj hdj
        have ht := hstm t ht
        have hj : k + 1 ≤ j := by
          by_cases hrd : r = .done
          · simp [hrd] at hr
          · simpa [St.proc, hrd] using hj
        have := deref_us_lt h.mem hd hdj (by omega)
        omega
    · -- filtered out
      rename_i hsel
      have hsel : p.sel v = false := by simpa using hsel
      have hflt : passed s.log = (slice s.mem p.begin_ (k + 1)).filter (fun x => p.sel x.2) := by
        rw [hsl, List.filter_append, h4]
        simp [hsel]
      have hstn : ∀ t ∈ stamps s.log, t ≤ n.us := fun t ht => by have := hold t ht; omega
      split at hs
      · omega
      · split at hs
        · cases hs
          constructor
          · exact h.mem
          · exact ⟨hsn, he, by dsimp only; omega, by omega, by dsimp only; omega, hh, hstn⟩
          · exact h.beg
          · exact h.idx
          · exact ⟨k + 1, fun _ => rfl, by omega, Or.inl (by dsimp only; omega), hflt⟩
          · exact h.ord
          · exact h.bound
          · intro _ t ht j y u hj hdj
            exact hlater t ht j y u hj hdj
        · cases hs
          have hst : stamps (s.log ++ [.noMore x r]) = stamps s.log := by simp [stamps_append, stamps]
          have hps : passed (s.log ++ [.noMore x r]) = passed s.log := by simp [passed_append, passed]
          constructor
          · exact h.mem
          · unfold PcOk
            by_cases hr : r = .done
            · simp [hr]
            · simp only [hr, if_false]
              refine ⟨hsn, he, by omega, by omega, by omega, hh, ?_⟩
              rw [hst]; exact hstn
          · exact h.beg
          · exact h.idx
          · refine ⟨k + 1, ?_, by omega, Or.inl (by dsimp only; omega), by rw [hps]; exact hflt⟩
            intro hr
            by_cases hrd : r = .done
            · simp [hrd] at hr
            · simp [St.proc, hrd]
          · dsimp only; rw [hst]; exact h.ord
          · dsimp only; rw [hst]; exact h.bound
          · intro hr t ht j y u hj hdj
            dsimp only at ht
            rw [hst] at ht
            refine hlater t ht j y u ?_ hdj
            by_cases hrd : r = .done
            · simp [hrd] at hr
            · simpa [St.proc, hrd] using hj
  · -- headCall
    rename_i hd size hq
    simp only [hq] at hpc
    obtain ⟨c1, c2, c3, c4, c5, c6, c7⟩ := hpc
    have hlat := h.later (by simp [hq])
    simp only [St.proc, hq] at hlat
    obtain ⟨k, h1, h2, h3, h4⟩ := h.pass
    have hk : k = s.index := by rw [h1 (by simp [hq])]; simp [St.proc, hq]
    split at hs
    · rename_i hc
      have hst : stamps (s.log ++ [.head hd r]) = stamps s.log ++ [hd] := by simp [stamps_append, stamps]
      have hps : passed (s.log ++ [.head hd r]) = passed s.log := by simp [passed_append, passed]
      have hstm : ∀ t ∈ stamps (s.log ++ [.head hd r]), t ≤ hd := by
        rw [hst]; intro t ht
        rcases List.mem_append.1 ht with ht | ht
        · have := c6 t ht; omega
        · simp at ht; omega
      have hord : (stamps (s.log ++ [.head hd r])).Pairwise (· < ·) := by
        rw [hst, List.pairwise_append]
        refine ⟨h.ord, by simp, ?_⟩
        intro a ha b hb
        simp at hb; subst hb
        have := c6 a ha
        omega
      have hbound : ∀ t ∈ stamps (s.log ++ [.head hd r]), t ≤ s.mem.head := by
        intro t ht
        have := hstm t ht
        omega
      split at hs <;> cases hs
      · constructor
        · exact h.mem
        · simp [PcOk]
        · exact h.beg
        · exact h.idx
        · exact ⟨k, by simp, h2, h3, by rw [hps]; exact h4⟩
        · exact hord
        · exact hbound
        · simp
      · constructor
        · exact h.mem
        · exact hstm
        · exact h.beg
        · exact h.idx
        · exact ⟨k, fun _ => hk, h2, h3, by rw [hps]; exact h4⟩
        · exact hord
        · exact hbound
        · intro _ t ht j y u hj hdj
          have := hstm t ht
          have hj : s.index ≤ j := hj
          have := c3 j y u (by omega) hdj
          omega
    · cases hs
      refine quiet_inv h (by simp [hq]) rfl rfl rfl rfl (Or.inr (by simp [St.proc, hq])) ?_
      intro t ht
      have := c6 t ht
      dsimp only; omega
  · -- waiting
    rename_i hq
    simp only [hq] at hpc
    split at hs <;> cases hs
    · exact quiet_inv h (by simp [hq]) rfl rfl rfl rfl (Or.inr (by simp [St.proc, hq])) hpc
    · exact h
  · cases hs
  · cases hs

theorem signal_inv {p : Params E} {s : St E} (h : Inv p s) : Inv p { s with term := true } :=
  ⟨h.mem, h.pcOk, h.beg, h.idx, h.pass, h.ord, h.bound, h.later⟩

theorem step_inv {p : Params E} {s s' : St E} (h : Inv p s) (a : Act E) (hs : step p s a = some s') : Inv p s' := by
  cases a with
  | call c => cases hs; exact call_inv h c
  | signal => cases hs; exact signal_inv h
  | thread r w => exact thread_inv h r w hs

theorem run_inv {p : Params E} {s s' : St E} {as : List (Act E)} (h : Inv p s) (hr : run p s as = some s') : Inv p s' := by
  induction as generalizing s with
  | nil => simp [run] at hr; subst hr; exact h
  | cons a as ih =>
    simp only [run] at hr
    split at hr
    · rename_i s1 h1; exact ih (step_inv h a h1) hr
    · cases hr

theorem Reachable.inv {p : Params E} {s : St E} (h : Reachable p s) : Inv p s := by
  obtain ⟨cs, as, h⟩ := h
  exact run_inv (init_inv p _ (Mem.run_inv Mem.Inv.init cs)) h

theorem Reachable.step {p : Params E} {s s' : St E} (h : Reachable p s) (a : Act E) (hs : step p s a = some s') :
    Reachable p s' := by
  obtain ⟨cs, as, h⟩ := h
  refine ⟨cs, as ++ [a], ?_⟩
  have : ∀ (as : List (Act E)) (t : St E), run p t as = some s → run p t (as ++ [a]) = some s' := by
    intro as
    induction as with
    | nil => intro t ht; simp [run] at ht; subst ht; simp [run, hs]
    | cons b as ih =>
      intro t ht
      simp only [run, List.cons_append] at ht ⊢
      split at ht
      · rename_i t1 h1; exact ih t1 ht
      · cases ht
  exact this as _ h

end Current.Stream
