import Verif.Stream.Inv
/-! A second layer of invariants of the subscriber thread: what its local `head` means, `from_us`, termination. -/
namespace Current.Stream
open Current.Persist
variable {E : Type}

/-- Everything from `i` on is later than `h`. -/
def After (m : Mem E) (i : Nat) (h : Int) : Prop := ∀ j x v, i ≤ j → m.deref j = some (x, v) → h < x.us

def HeadOk (p : Params E) (s : St E) : Prop :=
  match s.pc with
  | .top | .snap | .waiting => (s.head = p.fromUs - 1 ∧ s.index = p.begin_) ∨
    (s.head ≤ s.mem.head ∧ After s.mem s.index s.head)
  | .iter n | .fetch _ _ n | .check _ _ n _ _ | .pass _ _ n _ _ => p.fromUs ≤ n.head
  | .headCall h _ => p.fromUs ≤ h
  | _ => True

/-- The event is a call that passes something about the data. -/
def Ev.data : Ev E → Bool
  | .terminate _ => false
  | _ => true

def Ev.final : Ev E → Bool
  | .entry _ _ _ r | .head _ r | .noMore _ r => decide (r = .done)
  | .terminate w => !w

def Ev.isTerminate : Ev E → Bool
  | .terminate _ => true
  | _ => false

structure Inv2 (p : Params E) (s : St E) : Prop where
  headOk : HeadOk p s
  told : p.begin_ < s.index →
    s.head ∈ stamps s.log ∨ ∃ x v, s.mem.deref (s.index - 1) = some (x, v) ∧ x.us = s.head
  start : s.head = p.fromUs - 1 ∨ p.fromUs ≤ s.mem.head
  heads : ∀ us r, Ev.head us r ∈ s.log → p.fromUs ≤ us
  delayed : ∀ ev ∈ s.log, ev.data = true → p.fromUs ≤ s.mem.head
  fin : ∀ l1 ev l2, s.log = l1 ++ ev :: l2 → ev.final = true → l2 = [] ∧ s.pc = .returned
  once : (s.log.countP Ev.isTerminate) = if s.sent then 1 else 0
  sent : s.sent = true → s.term = true

theorem split_snoc {α : Type} {l l1 l2 : List α} {x y : α} (h : l ++ [x] = l1 ++ y :: l2) :
    (l2 = [] ∧ y = x ∧ l1 = l) ∨ ∃ l2', l2 = l2' ++ [x] ∧ l = l1 ++ y :: l2' := by
  rcases List.eq_nil_or_concat l2 with rfl | ⟨l2', z, rfl⟩
  · have h' : l ++ [x] = l1 ++ [y] := h
    have := List.append_inj' h' rfl
    simp_all
  · have h' : l ++ [x] = (l1 ++ y :: l2') ++ [z] := by simp [h]
    have := List.append_inj' h' rfl
    simp_all

theorem fin_snoc {s : St E} (p : Params E) (h : Inv2 p s) (hr : s.pc ≠ .returned) (ev : Ev E) (pc : Pc E)
    (hpc : ev.final = true → pc = .returned) :
    ∀ l1 ev' l2, s.log ++ [ev] = l1 ++ ev' :: l2 → ev'.final = true → l2 = [] ∧ pc = .returned := by
  intro l1 ev' l2 e hf
  rcases split_snoc e with ⟨rfl, rfl, rfl⟩ | ⟨l2', rfl, e'⟩
  · exact ⟨rfl, hpc hf⟩
  · exact absurd (h.fin _ _ _ e' hf).2 hr

theorem init_inv2 (p : Params E) (m : Mem E) : Inv2 p (St.init p m) := by
  constructor <;> simp [St.init, HeadOk]

theorem call_inv2 {p : Params E} {s : St E} (h1 : Inv p s) (h : Inv2 p s) (c : Call E) :
    Inv2 p { s with mem := (s.mem.call p.codec c).1 } := by
  have hl := call_length p.codec s.mem c
  have hh := call_head p.codec s.mem c
  have hpcok := h1.pcOk
  have hstart := h.start
  refine ⟨?_, ?_, ?_, h.heads, ?_, h.fin, h.once, h.sent⟩
  · have hp := h.headOk
    have key : (s.head = p.fromUs - 1 ∧ s.index = p.begin_) ∨ (s.head ≤ s.mem.head ∧ After s.mem s.index s.head) →
        (s.head = p.fromUs - 1 ∧ s.index = p.begin_) ∨
        (s.head ≤ (s.mem.call p.codec c).1.head ∧ After (s.mem.call p.codec c).1 s.index s.head) := by
      rintro (ha | ⟨hle, ha⟩)
      · exact Or.inl ha
      · refine Or.inr ⟨by omega, ?_⟩
        intro j x v hj hd
        by_cases hlt : j < s.mem.entries.length
        · rw [call_deref _ _ _ j hlt] at hd
          exact ha j x v hj hd
        · have := call_new _ _ _ j x v (by omega) hd
          omega
    unfold HeadOk at hp ⊢
    split at hp <;> rename_i hpc <;> simp only [hpc]
    · exact key hp
    · exact key hp
    · exact key hp
    all_goals exact hp
  · intro hb
    rcases h.told hb with ht | ⟨x, v, hd, hx⟩
    · exact Or.inl ht
    · exact Or.inr ⟨x, v, by dsimp only; rw [call_deref _ _ _ _ (deref_lt hd).1]; exact hd, hx⟩
  · rcases hstart with hs | hs
    · exact Or.inl hs
    · exact Or.inr (by dsimp only; omega)
  · intro ev he hd
    have := h.delayed ev he hd
    dsimp only; omega

theorem thread_inv2 {p : Params E} {s s' : St E} (h1 : Inv p s) (h : Inv2 p s) (r : Resp) (w : Bool)
    (hs : s.thread p r w = some s') : Inv2 p s' := by
  have hok := h.headOk
  have hpc := h1.pcOk
  unfold HeadOk at hok
  unfold PcOk at hpc
  have hsent := h.sent
  have honce := h.once
  unfold St.thread at hs
  split at hs
  · -- top
    rename_i hq
    simp only [hq] at hok
    split at hs
    · rename_i hc
      simp at hc
      have hno : ∀ l1 ev l2, s.log = l1 ++ ev :: l2 → ev.final = true → False := by
        intro l1 ev l2 e hf
        have := (h.fin _ _ _ e hf).2
        simp [hq] at this
      split at hs <;> cases hs
      · refine ⟨hok, ?_, h.start, ?_, ?_, fin_snoc p h (by simp [hq]) _ _ (by simp_all [Ev.final]), ?_, fun _ => hc.2⟩
        · simpa [stamps_append, stamps] using h.told
        · simpa using h.heads
        · intro ev he hd
          rcases List.mem_append.1 he with he | he
          · exact h.delayed ev he hd
          · have := List.mem_singleton.1 he; subst this; simp [Ev.data] at hd
        · simp [List.countP_append, honce, hc.1, Ev.isTerminate]
      · refine ⟨trivial, ?_, h.start, ?_, ?_, fin_snoc p h (by simp [hq]) _ _ (fun _ => rfl), ?_, fun _ => hc.2⟩
        · simpa [stamps_append, stamps] using h.told
        · simpa using h.heads
        · intro ev he hd
          rcases List.mem_append.1 he with he | he
          · exact h.delayed ev he hd
          · have := List.mem_singleton.1 he; subst this; simp [Ev.data] at hd
        · simp [List.countP_append, honce, hc.1, Ev.isTerminate]
    · cases hs
      refine ⟨hok, h.told, h.start, h.heads, h.delayed, ?_, honce, hsent⟩
      intro l1 ev l2 e hf
      have := (h.fin _ _ _ e hf).2
      simp [hq] at this
  · -- snap
    rename_i hq
    simp only [hq] at hok
    have hfin : ∀ pc : Pc E, ∀ l1 ev l2, s.log = l1 ++ ev :: l2 → ev.final = true → l2 = [] ∧ pc = Pc.returned := by
      intro pc l1 ev l2 e hf
      have := (h.fin _ _ _ e hf).2
      simp [hq] at this
    rcases headAndLast_cases h1.mem with ⟨he, h0⟩ | ⟨x, v, he, hd, hpos, hx⟩
    · rw [he] at hs
      dsimp only at hs
      split at hs
      · cases hs
        refine ⟨?_, h.told, h.start, h.heads, h.delayed, hfin _, honce, hsent⟩
        have := h.start
        simp only [HeadOk]; omega
      · cases hs
        exact ⟨hok, h.told, h.start, h.heads, h.delayed, hfin _, honce, hsent⟩
    · rw [he] at hs
      dsimp only at hs
      split at hs
      · split at hs
        · cases hs
          refine ⟨?_, h.told, h.start, h.heads, h.delayed, hfin _, honce, hsent⟩
          have := h.start
          simp only [HeadOk]; omega
        · cases hs
          refine ⟨?_, h.told, h.start, h.heads, h.delayed, hfin _, honce, hsent⟩
          have := h.start
          simp only [HeadOk]; omega
      · cases hs
        exact ⟨hok, h.told, h.start, h.heads, h.delayed, hfin _, honce, hsent⟩
  · -- iter
    rename_i n hq
    simp only [hq] at hok hpc
    have hfin : ∀ pc : Pc E, ∀ l1 ev l2, s.log = l1 ++ ev :: l2 → ev.final = true → l2 = [] ∧ pc = Pc.returned := by
      intro pc l1 ev l2 e hf
      have := (h.fin _ _ _ e hf).2
      simp [hq] at this
    split at hs <;> cases hs
    · exact ⟨hok, h.told, h.start, h.heads, h.delayed, hfin _, honce, hsent⟩
    · exact ⟨trivial, h.told, h.start, h.heads, h.delayed, hfin _, honce, hsent⟩
  · -- fetch
    rename_i i e n hq
    simp only [hq] at hok hpc
    have hfin : ∀ pc : Pc E, ∀ l1 ev l2, s.log = l1 ++ ev :: l2 → ev.final = true → l2 = [] ∧ pc = Pc.returned := by
      intro pc l1 ev l2 e hf
      have := (h.fin _ _ _ e hf).2
      simp [hq] at this
    obtain ⟨hsn, _⟩ := hpc
    split at hs
    · cases hs
      refine ⟨hok, ?_, ?_, h.heads, h.delayed, hfin _, honce, hsent⟩
      · intro _; exact Or.inr hsn.last
      · have := hsn.head_le; exact Or.inr (by dsimp only; omega)
    · split at hs <;> cases hs
      · exact ⟨hok, h.told, h.start, h.heads, h.delayed, hfin _, honce, hsent⟩
      · exact ⟨trivial, h.told, h.start, h.heads, h.delayed, hfin _, honce, hsent⟩
  · -- check
    rename_i i e n x v hq
    simp only [hq] at hok hpc
    split at hs
    · rename_i hc
      simp at hc
      split at hs <;> cases hs
      · refine ⟨hok, ?_, h.start, ?_, ?_, fin_snoc p h (by simp [hq]) _ _ (by simp_all [Ev.final]), ?_, fun _ => hc.2⟩
        · simpa [stamps_append, stamps] using h.told
        · simpa using h.heads
        · intro ev he hd
          rcases List.mem_append.1 he with he | he
          · exact h.delayed ev he hd
          · have := List.mem_singleton.1 he; subst this; simp [Ev.data] at hd
        · simp [List.countP_append, honce, hc.1, Ev.isTerminate]
      · refine ⟨trivial, ?_, h.start, ?_, ?_, fin_snoc p h (by simp [hq]) _ _ (fun _ => rfl), ?_, fun _ => hc.2⟩
        · simpa [stamps_append, stamps] using h.told
        · simpa using h.heads
        · intro ev he hd
          rcases List.mem_append.1 he with he | he
          · exact h.delayed ev he hd
          · have := List.mem_singleton.1 he; subst this; simp [Ev.data] at hd
        · simp [List.countP_append, honce, hc.1, Ev.isTerminate]
    · cases hs
      refine ⟨hok, h.told, h.start, h.heads, h.delayed, ?_, honce, hsent⟩
      intro l1 ev l2 e hf
      have := (h.fin _ _ _ e hf).2
      simp [hq] at this
  · -- pass
    rename_i i e n x v hq
    simp only [hq] at hok hpc
    have hfin : ∀ pc : Pc E, ∀ l1 ev l2, s.log = l1 ++ ev :: l2 → ev.final = true → l2 = [] ∧ pc = Pc.returned := by
      intro pc l1 ev l2 e hf
      have := (h.fin _ _ _ e hf).2
      simp [hq] at this
    have hle := hpc.1.head_le
    have hpcr : ∀ (ev : Ev E), ev.final = decide (r = .done) → ev.final = true →
        (if r = .done then Pc.returned else Pc.fetch (i + 1) e n : Pc E) = .returned := by
      intro ev he hf; rw [he] at hf; simp at hf; simp [hf]
    have hdel : ∀ (ev : Ev E), ∀ ev' ∈ s.log ++ [ev], ev'.data = true → p.fromUs ≤ s.mem.head := by
      intro ev ev' _ _; omega
    have hok' : ∀ (t : St E), t.pc = (if r = .done then Pc.returned else Pc.fetch (i + 1) e n) → HeadOk p t := by
      intro t ht
      unfold HeadOk
      rw [ht]
      by_cases hr : r = .done
      · simp [hr]
      · simp only [hr, if_false]; exact hok
    split at hs
    · split at hs
      · cases hs
        refine ⟨hok' _ rfl, ?_, h.start, ?_, hdel _, fin_snoc p h (by simp [hq]) _ _ (hpcr _ rfl), ?_, hsent⟩
        · intro hb
          rcases h.told hb with ht | ht
          · exact Or.inl (by simp [stamps_append, ht])
          · exact Or.inr ht
        · simpa using h.heads
        · simp [List.countP_append, honce, Ev.isTerminate]
      · split at hs
        · cases hs; exact ⟨trivial, h.told, h.start, h.heads, h.delayed, hfin _, honce, hsent⟩
        · split at hs
          · cases hs; exact ⟨hok, h.told, h.start, h.heads, h.delayed, hfin _, honce, hsent⟩
          · cases hs
            refine ⟨hok' _ rfl, ?_, h.start, ?_, hdel _, fin_snoc p h (by simp [hq]) _ _ (hpcr _ rfl), ?_, hsent⟩
            · intro hb
              rcases h.told hb with ht | ht
              · exact Or.inl (by simp [stamps_append, ht])
              · exact Or.inr ht
            · simpa using h.heads
            · simp [List.countP_append, honce, Ev.isTerminate]
    · cases hs; exact ⟨trivial, h.told, h.start, h.heads, h.delayed, hfin _, honce, hsent⟩
  · -- headCall
    rename_i hd size hq
    simp only [hq] at hok hpc
    obtain ⟨c1, c2, c3, c4, c5, c6, c7⟩ := hpc
    have hheads : ∀ us r', Ev.head us r' ∈ s.log ++ [Ev.head hd r] → p.fromUs ≤ us := by
      intro us r' hm
      rcases List.mem_append.1 hm with hm | hm
      · exact h.heads us r' hm
      · simp at hm; omega
    have hdel : ∀ ev' ∈ s.log ++ [Ev.head hd r], ev'.data = true → p.fromUs ≤ s.mem.head := by
      intro ev' _ _; omega
    have hafter : After s.mem s.index hd := fun j x v hj hdj => c3 j x v (by omega) hdj
    split at hs
    · split at hs <;> cases hs
      · refine ⟨trivial, ?_, h.start, hheads, hdel, fin_snoc p h (by simp [hq]) _ _ (fun _ => rfl), ?_, hsent⟩
        · intro hb
          rcases h.told hb with ht | ht
          · exact Or.inl (by simp [stamps_append, ht])
          · exact Or.inr ht
        · simp [List.countP_append, honce, Ev.isTerminate]
      · rename_i hr
        refine ⟨Or.inr ⟨c1, hafter⟩, ?_, Or.inr (by dsimp only; omega), hheads, hdel,
          fin_snoc p h (by simp [hq]) _ _ (by simp [Ev.final, hr]), ?_, hsent⟩
        · intro _; exact Or.inl (by simp [stamps_append, stamps])
        · simp [List.countP_append, honce, Ev.isTerminate]
    · rename_i hc
      cases hs
      refine ⟨Or.inr ⟨c1, hafter⟩, ?_, Or.inr (by dsimp only; omega), h.heads, h.delayed, ?_, honce, hsent⟩
      · intro hb
        dsimp only at hb
        have he : hd = s.head := by omega
        have := h.told hb
        rw [← he] at this
        exact this
      · intro l1 ev l2 e hf
        have := (h.fin _ _ _ e hf).2
        simp [hq] at this
  · -- waiting
    rename_i hq
    simp only [hq] at hok
    split at hs <;> cases hs
    · refine ⟨hok, h.told, h.start, h.heads, h.delayed, ?_, honce, hsent⟩
      intro l1 ev l2 e hf
      have := (h.fin _ _ _ e hf).2
      simp [hq] at this
    · exact h
  · cases hs
  · cases hs

theorem step_inv2 {p : Params E} {s s' : St E} (h1 : Inv p s) (h : Inv2 p s) (a : Act E) (hs : step p s a = some s') :
    Inv2 p s' := by
  cases a with
  | call c => cases hs; exact call_inv2 h1 h c
  | signal => cases hs; exact ⟨h.headOk, h.told, h.start, h.heads, h.delayed, h.fin, h.once, fun _ => rfl⟩
  | thread r w => exact thread_inv2 h1 h r w hs

theorem run_inv2 {p : Params E} {s s' : St E} {as : List (Act E)} (h1 : Inv p s) (h : Inv2 p s)
    (hr : run p s as = some s') : Inv2 p s' := by
  induction as generalizing s with
  | nil => simp [run] at hr; subst hr; exact h
  | cons a as ih =>
    simp only [run] at hr
    split at hr
    · rename_i s1 hs1; exact ih (step_inv h1 a hs1) (step_inv2 h1 h a hs1) hr
    · cases hr

theorem Reachable.inv2 {p : Params E} {s : St E} (h : Reachable p s) : Inv2 p s := by
  obtain ⟨cs, as, h⟩ := h
  exact run_inv2 (init_inv p _ (Mem.run_inv Mem.Inv.init cs)) (init_inv2 p _) h

end Current.Stream
