import Verif.MMQ.Model
/-! Invariants of the MMQ model, preserved by every action. -/
namespace Current.MMQ
open Current.Persist (IdxTs)

variable {M : Type}

@[simp] theorem upd_same {α : Type} (f : Nat → α) (i : Nat) (v : α) : upd f i v i = v := by simp [upd]
theorem upd_other {α : Type} (f : Nat → α) {i j : Nat} (v : α) (h : j ≠ i) : upd f i v j = f j := by simp [upd, h]

theorem mod_inj {n k k' d : Nat} (h1 : d ≤ k) (h2 : k < d + n) (h3 : d ≤ k') (h4 : k' < d + n)
    (h : k % n = k' % n) : k = k' := by
  have a := Nat.div_add_mod k n
  have b := Nat.div_add_mod k' n
  rcases Nat.lt_trichotomy (k / n) (k' / n) with hlt | heq | hgt
  · have := Nat.mul_le_mul_left n hlt
    rw [Nat.mul_succ] at this; omega
  · rw [heq] at a; omega
  · have := Nat.mul_le_mul_left n hgt
    rw [Nat.mul_succ] at this; omega

/-- What a publisher holds, if it is past the allocation. -/
def PPc.hold : PPc M → Option (PPc M)
  | .importing i m own => some (.importing i m own)
  | .written i m own => some (.written i m own)
  | .committed i m own => some (.committed i m own)
  | _ => none

def State.hold (s : State M) (t : Nat) : Option (PPc M) := (s.pubs[t]?).bind PPc.hold

/-- 1 while the consumer is about to be called, 2 when it returned and the slot is not free yet. -/
def CPc.stage : CPc → Nat
  | .exporting _ => 1
  | .exported => 2
  | _ => 0

/-- The index of the message a publisher is still writing. -/
def PPc.pending : PPc M → Option Nat
  | .importing _ _ own => some own.index
  | .written _ _ own => some own.index
  | _ => none

structure Core (c : Cfg) (slots : Nat → Slot M) (head tail : Nat) (last : IdxTs) (accepted : List (M × IdxTs))
    (delivered : List (M × IdxTs × IdxTs)) (frees stage : Nat) (hold : Nat → Option (PPc M)) : Prop where
  acc : accepted.length = last.index
  head_ : head = last.index % c.cap
  tail_ : tail = frees % c.cap
  le1 : frees ≤ last.index
  le2 : last.index ≤ frees + c.cap
  idx : ∀ (k : Nat) p, accepted[k]? = some p → p.2.index = k + 1
  occ : ∀ (k : Nat) p, frees ≤ k → accepted[k]? = some p →
    (slots (k % c.cap)).idx = p.2 ∧ (slots (k % c.cap)).status ≠ .free ∧
    ((slots (k % c.cap)).status = .ready ∨ (slots (k % c.cap)).status = .exported → (slots (k % c.cap)).body = p.1) ∧
    ((slots (k % c.cap)).status = .exported ↔ k = frees ∧ stage ≠ 0) ∧
    ((slots (k % c.cap)).status = .imported → ∃ t pc, hold t = some pc ∧ pc.pending = some (k + 1))
  vac : ∀ k, last.index ≤ k → k < frees + c.cap → (slots (k % c.cap)).status = .free
  imp : ∀ t i m own, hold t = some (.importing i m own) → ∃ k, frees ≤ k ∧ accepted[k]? = some (m, own) ∧
    i = k % c.cap ∧ (slots i).status = .imported
  wri : ∀ t i m own, hold t = some (.written i m own) → ∃ k, frees ≤ k ∧ accepted[k]? = some (m, own) ∧
    i = k % c.cap ∧ (slots i).status = .imported ∧ (slots i).body = m
  com : ∀ t i m own, hold t = some (.committed i m own) → ∃ k, accepted[k]? = some (m, own) ∧ i = k % c.cap ∧
    own.index ≤ (slots i).idx.index
  uniq : ∀ t t' p p' n, hold t = some p → hold t' = some p' → p.pending = some n → p'.pending = some n → t = t'
  exp : stage ≠ 0 → frees < last.index
  del : delivered.map (fun d => (d.1, d.2.1)) = accepted.take (frees + if stage = 2 then 1 else 0)
  us : -1 ≤ last.us ∧ ∀ p, accepted.getLast? = some p → p.2 = last
  vis : ∀ j, (slots j).idx ≠ ⟨0, 0⟩ → ∃ k p, accepted[k]? = some p ∧ (slots j).idx = p.2 ∧ k % c.cap = j

def Inv (c : Cfg) (s : State M) : Prop :=
  Core c s.slots s.head s.tail s.last s.accepted s.delivered s.frees s.cons.stage s.hold

theorem init_inv (c : Cfg) (m0 : M) (n : Nat) : Inv c (init m0 n) := by
  have hh : ∀ t, (init m0 n).hold t = none := by
    intro t
    simp only [State.hold, init, List.getElem?_replicate]
    split <;> simp [PPc.hold]
  refine ⟨rfl, by simp [init], by simp [init], ?_, ?_, ?_, ?_, ?_, ?_, ?_, ?_, ?_, ?_, ?_, ?_, ?_⟩
  · simp [init]
  · simp [init]
  · simp [init]
  · simp [init]
  · simp [init]
  · intro t i m own h; rw [hh] at h; simp at h
  · intro t i m own h; rw [hh] at h; simp at h
  · intro t i m own h; rw [hh] at h; simp at h
  · intro t t' p p' n' h; rw [hh] at h; simp at h
  · simp [init, CPc.stage]
  · simp [init]
  · simp [init]
  · simp [init]

/-- `hold` after one publisher changed its program counter. -/
theorem hold_set (s : State M) (t : Nat) (p : PPc M) (old : PPc M) (h : s.pubs[t]? = some old) (t' : Nat) :
    ((s.pubs.set t p)[t']?).bind PPc.hold = if t' = t then p.hold else s.hold t' := by
  have hlt : t < s.pubs.length := by
    rcases Nat.lt_or_ge t s.pubs.length with h' | h'
    · exact h'
    · rw [List.getElem?_eq_none h'] at h; simp at h
  rw [List.getElem?_set]
  by_cases ht : t = t'
  · subst ht; simp [hlt]
  · simp [ht, Ne.symm ht, State.hold]

theorem hold_of {s : State M} {t : Nat} {p : PPc M} (h : s.pubs[t]? = some p) : s.hold t = p.hold := by
  simp [State.hold, h]

theorem hold_wakeP (p : PPc M) : (wakeP p).hold = p.hold := by cases p <;> rfl
theorem stage_wakeC (p : CPc) : (wakeC p).stage = p.stage := by cases p <;> rfl

theorem hold_notifyAll (s : State M) : s.notifyAll.hold = s.hold := by
  funext t
  simp only [State.hold, State.notifyAll, List.getElem?_map]
  cases s.pubs[t]? with
  | none => rfl
  | some p => simp [hold_wakeP]

theorem Inv.notifyAll {c : Cfg} {s : State M} (h : Inv c s) : Inv c s.notifyAll := by
  unfold Inv at h ⊢
  rw [hold_notifyAll]
  simp only [State.notifyAll, stage_wakeC]
  exact h

/-- Changing the program counter of a publisher between states that hold nothing. -/
theorem Inv.setPub {c : Cfg} {s : State M} (h : Inv c s) {t : Nat} {old p : PPc M} (ho : s.pubs[t]? = some old)
    (h1 : old.hold = none) (h2 : p.hold = none) : Inv c { s with pubs := s.pubs.set t p } := by
  unfold Inv at h ⊢
  have : ({ s with pubs := s.pubs.set t p } : State M).hold = s.hold := by
    funext t'
    simp only [State.hold]
    rw [hold_set s t p old ho]
    split
    · rename_i e; subst e; rw [h2, ho]; exact h1.symm
    · rfl
  rw [this]
  exact h

theorem Core.congrHold {c : Cfg} {slots : Nat → Slot M} {head tail : Nat} {last : IdxTs} {accepted : List (M × IdxTs)}
    {delivered : List (M × IdxTs × IdxTs)} {frees stage : Nat} {hold hold' : Nat → Option (PPc M)}
    (h : Core c slots head tail last accepted delivered frees stage hold) (e : ∀ t, hold' t = hold t) :
    Core c slots head tail last accepted delivered frees stage hold' := by
  have : hold' = hold := funext e
  rw [this]; exact h

/-- Allocation of the slot at the head, when it is free. -/
theorem Inv.alloc {c : Cfg} (hc : 0 < c.cap) {s : State M} (h : Inv c s) {t : Nat} {old : PPc M}
    (ho : s.pubs[t]? = some old) (h1 : old.hold = none) (hf : (s.slots s.head).status = .free) (m : M) (us : Int)
    (hus : -1 ≤ us) : Inv c (s.alloc c t m us) := by
  unfold Inv at h ⊢
  -- the buffer is not full
  have hroom : s.last.index < s.frees + c.cap := by
    rcases Nat.lt_or_ge s.last.index (s.frees + c.cap) with hlt | hge
    · exact hlt
    · have heq : s.last.index = s.frees + c.cap := Nat.le_antisymm h.le2 hge
      have hlt : s.frees < s.accepted.length := by rw [h.acc]; omega
      have hp := h.occ s.frees _ (Nat.le_refl _) (List.getElem?_eq_getElem hlt)
      have : s.head = s.frees % c.cap := by rw [h.head_, heq]; simp
      rw [this] at hf
      exact absurd hf hp.2.1
  have hholdeq : ∀ t', (s.alloc c t m us).hold t' =
      if t' = t then some (.importing s.head m ⟨s.last.index + 1, us⟩) else s.hold t' := by
    intro t'
    have := hold_set s t (.importing s.head m ⟨s.last.index + 1, us⟩) old ho t'
    simp only [State.hold, State.alloc] at this ⊢
    exact this
  have hnone : s.hold t = none := by rw [hold_of ho, h1]
  refine Core.congrHold (hold := fun t' => if t' = t then some (.importing s.head m ⟨s.last.index + 1, us⟩) else s.hold t')
    ?_ hholdeq
  -- lookups in the longer list
  have hget : ∀ (k : Nat) p, (s.accepted ++ [(m, (⟨s.last.index + 1, us⟩ : IdxTs))])[k]? = some p →
      (k < s.last.index ∧ s.accepted[k]? = some p) ∨ (k = s.last.index ∧ p = (m, ⟨s.last.index + 1, us⟩)) := by
    intro k p hp
    rcases Nat.lt_trichotomy k s.last.index with hk | hk | hk
    · left; rw [List.getElem?_append_left (by rw [h.acc]; exact hk)] at hp; exact ⟨hk, hp⟩
    · right
      rw [List.getElem?_append_right (by rw [h.acc]; omega), h.acc, hk] at hp
      simp at hp; exact ⟨hk, hp.symm⟩
    · rw [List.getElem?_eq_none (by simp [h.acc]; omega)] at hp; simp at hp
  have hold_get : ∀ (k : Nat) p, s.accepted[k]? = some p → k < s.last.index := by
    intro k p hp
    rcases Nat.lt_or_ge k s.accepted.length with hk | hk
    · rw [h.acc] at hk; exact hk
    · rw [List.getElem?_eq_none hk] at hp; simp at hp
  have hne : ∀ k, s.frees ≤ k → k < s.last.index → k % c.cap ≠ s.head := by
    intro k hk1 hk2 he
    rw [h.head_] at he
    have := mod_inj hk1 (by omega) h.le1 hroom he
    omega
  have hext : ∀ (k : Nat) p, s.accepted[k]? = some p →
      (s.accepted ++ [(m, (⟨s.last.index + 1, us⟩ : IdxTs))])[k]? = some p := by
    intro k p hp
    rw [List.getElem?_append_left (by rw [h.acc]; exact hold_get k p hp)]; exact hp
  have hself : (s.accepted ++ [(m, (⟨s.last.index + 1, us⟩ : IdxTs))])[s.last.index]? =
      some (m, ⟨s.last.index + 1, us⟩) := by
    rw [List.getElem?_append_right (by rw [h.acc]; omega), h.acc]; simp
  have hidxle : ∀ (k : Nat) p, s.accepted[k]? = some p → p.2.index ≤ s.last.index := by
    intro k p hp
    have := h.idx k p hp
    have := hold_get k p hp
    omega
  -- what a pending publisher's index is
  have hpend : ∀ t' p n, s.hold t' = some p → p.pending = some n → n ≤ s.last.index := by
    intro t' p n hp hn
    cases p with
    | importing i m' own =>
      obtain ⟨k, _, hk, _⟩ := h.imp t' i m' own hp
      simp [PPc.pending] at hn
      rw [← hn]; exact hidxle k _ hk
    | written i m' own =>
      obtain ⟨k, _, hk, _⟩ := h.wri t' i m' own hp
      simp [PPc.pending] at hn
      rw [← hn]; exact hidxle k _ hk
    | _ => simp [PPc.pending] at hn
  simp only [State.alloc]
  refine ⟨?_, ?_, h.tail_, ?_, ?_, ?_, ?_, ?_, ?_, ?_, ?_, ?_, ?_, ?_, ?_, ?_⟩
  · simp [h.acc]
  · simp only [inc, h.head_]; rw [Nat.mod_add_mod]
  · have := h.le1; simp only; omega
  · simp only; omega
  · intro k p hp
    rcases hget k p hp with ⟨_, hp⟩ | ⟨hk, hp⟩
    · exact h.idx k p hp
    · subst hp; simp [hk]
  · -- occupied slots
    intro k p hk hp
    rcases hget k p hp with ⟨hkl, hp⟩ | ⟨hkl, hp⟩
    · rw [upd_other _ _ (hne k hk hkl)]
      obtain ⟨o1, o2, o3, o4, o5⟩ := h.occ k p hk hp
      refine ⟨o1, o2, o3, o4, fun hi => ?_⟩
      obtain ⟨t', pc, ht', hpc⟩ := o5 hi
      refine ⟨t', pc, ?_, hpc⟩
      have : t' ≠ t := by intro e; subst e; rw [hnone] at ht'; simp at ht'
      simp [this, ht']
    · subst hp
      have hke : k % c.cap = s.head := by rw [hkl, h.head_]
      rw [hke, upd_same]
      refine ⟨rfl, by simp, by simp, ?_, fun _ => ⟨t, .importing s.head m ⟨s.last.index + 1, us⟩, by simp, ?_⟩⟩
      · constructor
        · intro hh; simp at hh
        · intro ⟨hh1, hh2⟩
          have := h.exp hh2
          omega
      · simp [PPc.pending, hkl]
  · -- vacant slots
    intro k hk1 hk2
    have hk1 : s.last.index + 1 ≤ k := hk1
    have hne' : k % c.cap ≠ s.head := by
      intro he
      rw [h.head_] at he
      have := mod_inj (d := s.last.index) (by omega) (by have := h.le1; omega) (Nat.le_refl _) (by omega) he
      omega
    rw [upd_other _ _ hne']
    exact h.vac k (by omega) hk2
  · intro t' i m' own hh
    split at hh
    · injection hh with hh
      injection hh with e1 e2 e3
      subst e1 e2 e3
      exact ⟨s.last.index, h.le1, hself, h.head_, by simp⟩
    · obtain ⟨k, hk1, hk2, hk3, hk4⟩ := h.imp t' i m' own hh
      exact ⟨k, hk1, hext _ _ hk2, hk3, by rw [hk3, upd_other _ _ (hne k hk1 (hold_get _ _ hk2)), ← hk3]; exact hk4⟩
  · intro t' i m' own hh
    split at hh
    · simp at hh
    · obtain ⟨k, hk1, hk2, hk3, hk4, hk5⟩ := h.wri t' i m' own hh
      refine ⟨k, hk1, hext _ _ hk2, hk3, ?_, ?_⟩
      · rw [hk3, upd_other _ _ (hne k hk1 (hold_get _ _ hk2)), ← hk3]; exact hk4
      · rw [hk3, upd_other _ _ (hne k hk1 (hold_get _ _ hk2)), ← hk3]; exact hk5
  · intro t' i m' own hh
    split at hh
    · simp at hh
    · obtain ⟨k, hk2, hk3, hk4⟩ := h.com t' i m' own hh
      refine ⟨k, hext _ _ hk2, hk3, ?_⟩
      by_cases e : i = s.head
      · rw [e]; simp only [upd_same]; have := hidxle k _ hk2; simp only at this; omega
      · rw [upd_other _ _ e]; exact hk4
  · intro t1 t2 p p' n hp hp' hn hn'
    by_cases e1 : t1 = t <;> by_cases e2 : t2 = t
    · rw [e1, e2]
    · simp only [e1, e2, if_true, if_false] at hp hp'
      injection hp with hp
      subst hp
      simp [PPc.pending] at hn
      have := hpend t2 p' n hp' hn'
      omega
    · simp only [e1, e2, if_true, if_false] at hp hp'
      injection hp' with hp'
      subst hp'
      simp [PPc.pending] at hn'
      have := hpend t1 p n hp hn
      omega
    · simp only [e1, e2, if_false] at hp hp'
      exact h.uniq t1 t2 p p' n hp hp' hn hn'
  · intro hs; have := h.exp hs; simp only; omega
  · rw [List.take_append_of_le_length]
    · exact h.del
    · rw [h.acc]
      split
      · have := h.exp (by omega); omega
      · have := h.le1; omega
  · refine ⟨hus, ?_⟩
    intro p hp
    simp at hp
    rw [← hp]
  · intro j hj
    by_cases hjh : j = s.head
    · subst hjh
      exact ⟨s.last.index, _, hself, by simp, h.head_.symm⟩
    · rw [upd_other _ _ hjh] at hj ⊢
      obtain ⟨k, p, hk, hp, hm⟩ := h.vis j hj
      exact ⟨k, p, hext _ _ hk, hp, hm⟩

theorem stage_le (p : CPc) : p.stage = 0 ∨ p.stage = 1 ∨ p.stage = 2 := by cases p <;> simp [CPc.stage]

theorem getElem?_lt {α : Type} {l : List α} {k : Nat} {p : α} (h : l[k]? = some p) : k < l.length := by
  rcases Nat.lt_or_ge k l.length with hk | hk
  · exact hk
  · rw [List.getElem?_eq_none hk] at h; simp at h

/-- The publisher copies its message into the slot. -/
theorem Inv.write {c : Cfg} {s : State M} (h : Inv c s) {t i : Nat} {m : M} {own : IdxTs}
    (ho : s.pubs[t]? = some (.importing i m own)) :
    Inv c { s with slots := upd s.slots i { s.slots i with body := m }, pubs := s.pubs.set t (.written i m own) } := by
  unfold Inv at h ⊢
  have hst : s.hold t = some (.importing i m own) := hold_of ho
  obtain ⟨k0, a1, a2, a3, a4⟩ := h.imp t i m own hst
  have hroom : ∀ (k : Nat) p, s.accepted[k]? = some p → k < s.frees + c.cap := by
    intro k p hp; have := getElem?_lt hp; have := h.acc; have := h.le2; omega
  have hstat : ∀ j, (upd s.slots i { s.slots i with body := m } j).status = (s.slots j).status := by
    intro j; by_cases e : j = i
    · subst e; simp
    · rw [upd_other _ _ e]
  have hidx : ∀ j, (upd s.slots i { s.slots i with body := m } j).idx = (s.slots j).idx := by
    intro j; by_cases e : j = i
    · subst e; simp
    · rw [upd_other _ _ e]
  refine Core.congrHold (hold := fun t' => if t' = t then some (.written i m own) else s.hold t') ?_
    (fun t' => by
      have := hold_set s t (.written i m own) _ ho t'
      simp only [State.hold] at this ⊢; exact this)
  have hbody : ∀ j, j ≠ i → (upd s.slots i { s.slots i with body := m } j).body = (s.slots j).body := by
    intro j e; rw [upd_other _ _ e]
  dsimp only
  refine ⟨h.acc, h.head_, h.tail_, h.le1, h.le2, h.idx, ?_, ?_, ?_, ?_, ?_, ?_, h.exp, h.del, h.us, ?_⟩
  · intro k p hk hp
    obtain ⟨o1, o2, o3, o4, o5⟩ := h.occ k p hk hp
    simp only [hstat, hidx]
    refine ⟨o1, o2, ?_, o4, ?_⟩
    · intro hr
      by_cases e : k % c.cap = i
      · rw [e, a4] at hr; simp at hr
      · rw [hbody _ e]; exact o3 hr
    · intro hi
      obtain ⟨t', pc, ht', hpc⟩ := o5 hi
      by_cases e : t' = t
      · subst e
        rw [hst] at ht'
        injection ht' with ht'
        subst ht'
        exact ⟨t', .written i m own, by simp, hpc⟩
      · exact ⟨t', pc, by simp [e, ht'], hpc⟩
  · intro k hk1 hk2; rw [hstat]; exact h.vac k hk1 hk2
  · intro t' i' m' own' hh
    by_cases e : t' = t
    · simp [e] at hh
    · simp only [e, if_false] at hh
      obtain ⟨k, b1, b2, b3, b4⟩ := h.imp t' i' m' own' hh
      exact ⟨k, b1, b2, b3, by rw [hstat]; exact b4⟩
  · intro t' i' m' own' hh
    by_cases e : t' = t
    · simp only [e, if_true] at hh
      injection hh with hh
      injection hh with e1 e2 e3
      subst e1 e2 e3
      exact ⟨k0, a1, a2, a3, by rw [hstat]; exact a4, by simp⟩
    · simp only [e, if_false] at hh
      obtain ⟨k, b1, b2, b3, b4, b5⟩ := h.wri t' i' m' own' hh
      refine ⟨k, b1, b2, b3, by rw [hstat]; exact b4, ?_⟩
      have hne : i' ≠ i := by
        intro he
        have hkk : k = k0 := mod_inj b1 (hroom _ _ b2) a1 (hroom _ _ a2) (by rw [← b3, ← a3, he])
        subst hkk
        rw [a2] at b2
        injection b2 with b2
        injection b2 with b2 b2'
        subst b2'
        exact e (h.uniq t' t _ _ own.index hh hst rfl rfl)
      rw [hbody _ hne]; exact b5
  · intro t' i' m' own' hh
    by_cases e : t' = t
    · simp [e] at hh
    · simp only [e, if_false] at hh; rw [hidx]; exact h.com t' i' m' own' hh
  · intro t1 t2 p p' n hp hp' hn hn'
    -- the pending index of `t` did not change
    have old : ∀ t' q, (if t' = t then some (PPc.written i m own) else s.hold t') = some q → q.pending = some n →
        ∃ q', s.hold t' = some q' ∧ q'.pending = some n := by
      intro t' q hq hqn
      by_cases e : t' = t
      · simp only [e, if_true] at hq
        injection hq with hq
        subst hq
        exact ⟨.importing i m own, by rw [e]; exact hst, hqn⟩
      · simp only [e, if_false] at hq; exact ⟨q, hq, hqn⟩
    obtain ⟨q, hq1, hq2⟩ := old t1 p hp hn
    obtain ⟨q', hq1', hq2'⟩ := old t2 p' hp' hn'
    exact h.uniq t1 t2 q q' n hq1 hq1' hq2 hq2'
  · intro j hj; rw [hidx] at hj ⊢; exact h.vis j hj

/-- The publisher commits its message. -/
theorem Inv.commit {c : Cfg} {s : State M} (h : Inv c s) {t i : Nat} {m : M} {own : IdxTs}
    (ho : s.pubs[t]? = some (.written i m own)) :
    Inv c { s with slots := upd s.slots i { s.slots i with status := .ready }
                   pubs := s.pubs.set t (.committed i m own) } := by
  unfold Inv at h ⊢
  have hst : s.hold t = some (.written i m own) := hold_of ho
  obtain ⟨k0, a1, a2, a3, a4, a5⟩ := h.wri t i m own hst
  have hroom : ∀ (k : Nat) p, s.accepted[k]? = some p → k < s.frees + c.cap := by
    intro k p hp; have := getElem?_lt hp; have := h.acc; have := h.le2; omega
  have hidx : ∀ j, (upd s.slots i { s.slots i with status := .ready } j).idx = (s.slots j).idx := by
    intro j; by_cases e : j = i
    · subst e; simp
    · rw [upd_other _ _ e]
  have hbody : ∀ j, (upd s.slots i { s.slots i with status := .ready } j).body = (s.slots j).body := by
    intro j; by_cases e : j = i
    · subst e; simp
    · rw [upd_other _ _ e]
  refine Core.congrHold (hold := fun t' => if t' = t then some (.committed i m own) else s.hold t') ?_
    (fun t' => by
      have := hold_set s t (.committed i m own) _ ho t'
      simp only [State.hold] at this ⊢; exact this)
  have hother : ∀ t' q, t' ≠ t → s.hold t' = some q → ∀ k m' own', s.frees ≤ k → s.accepted[k]? = some (m', own') →
      q.pending = some own'.index → k % c.cap ≠ i := by
    intro t' q hne hq k m' own' hk1 hk2 hpend he
    have hkk : k = k0 := mod_inj hk1 (hroom _ _ hk2) a1 (hroom _ _ a2) (by rw [he, a3])
    subst hkk
    rw [a2] at hk2
    injection hk2 with hk2
    injection hk2 with _ hk2
    subst hk2
    exact hne (h.uniq t' t _ _ own.index hq hst hpend rfl)
  dsimp only
  refine ⟨h.acc, h.head_, h.tail_, h.le1, h.le2, h.idx, ?_, ?_, ?_, ?_, ?_, ?_, h.exp, h.del, h.us, ?_⟩
  · intro k p hk hp
    obtain ⟨o1, o2, o3, o4, o5⟩ := h.occ k p hk hp
    by_cases e : k % c.cap = i
    · have hkk : k = k0 := mod_inj hk (hroom _ _ hp) a1 (hroom _ _ a2) (by rw [e, a3])
      subst hkk
      rw [a2] at hp
      injection hp with hp
      subst hp
      rw [e] at o1 o4 ⊢
      simp only [upd_same]
      refine ⟨o1, by simp, fun _ => a5, ?_, by simp⟩
      rw [a4] at o4
      constructor
      · intro hh; simp at hh
      · intro hh; have := o4.2 hh; simp at this
    · rw [upd_other _ _ e]
      refine ⟨o1, o2, o3, o4, ?_⟩
      intro hi
      obtain ⟨t', pc, ht', hpc⟩ := o5 hi
      have : t' ≠ t := by
        intro e'
        subst e'
        rw [hst] at ht'
        injection ht' with ht'
        subst ht'
        simp [PPc.pending] at hpc
        have := h.idx k0 _ a2
        simp at this
        have : k = k0 := by omega
        exact e (by rw [this, a3])
      exact ⟨t', pc, by simp [this, ht'], hpc⟩
  · intro k hk1 hk2
    have hne : k % c.cap ≠ i := by
      intro he
      have := h.vac k hk1 hk2
      rw [he, a4] at this; simp at this
    rw [upd_other _ _ hne]; exact h.vac k hk1 hk2
  · intro t' i' m' own' hh
    by_cases e : t' = t
    · simp [e] at hh
    · simp only [e, if_false] at hh
      obtain ⟨k, b1, b2, b3, b4⟩ := h.imp t' i' m' own' hh
      have hne : i' ≠ i := by rw [b3]; exact hother t' _ e hh k m' own' b1 b2 rfl
      exact ⟨k, b1, b2, b3, by rw [upd_other _ _ hne]; exact b4⟩
  · intro t' i' m' own' hh
    by_cases e : t' = t
    · simp [e] at hh
    · simp only [e, if_false] at hh
      obtain ⟨k, b1, b2, b3, b4, b5⟩ := h.wri t' i' m' own' hh
      have hne : i' ≠ i := by rw [b3]; exact hother t' _ e hh k m' own' b1 b2 rfl
      exact ⟨k, b1, b2, b3, by rw [upd_other _ _ hne]; exact b4, by rw [upd_other _ _ hne]; exact b5⟩
  · intro t' i' m' own' hh
    by_cases e : t' = t
    · simp only [e, if_true] at hh
      injection hh with hh
      injection hh with e1 e2 e3
      subst e1 e2 e3
      refine ⟨k0, a2, a3, ?_⟩
      have := (h.occ k0 _ a1 a2).1
      rw [hidx, a3, this]
      exact Nat.le_refl _
    · simp only [e, if_false] at hh; rw [hidx]; exact h.com t' i' m' own' hh
  · intro t1 t2 p p' n hp hp' hn hn'
    have old : ∀ t' q, (if t' = t then some (PPc.committed i m own) else s.hold t') = some q → q.pending = some n →
        s.hold t' = some q := by
      intro t' q hq hqn
      by_cases e : t' = t
      · simp only [e, if_true] at hq
        injection hq with hq
        subst hq
        simp [PPc.pending] at hqn
      · simpa only [e, if_false] using hq
    exact h.uniq t1 t2 p p' n (old t1 p hp hn) (old t2 p' hp' hn') hn hn'
  · intro j hj; rw [hidx] at hj ⊢; exact h.vis j hj

/-- The publisher returns. -/
theorem Inv.ret {c : Cfg} {s : State M} (h : Inv c s) {t i : Nat} {m : M} {own : IdxTs} (r : List (Ret M))
    (ho : s.pubs[t]? = some (.committed i m own)) : Inv c { s with pubs := s.pubs.set t .idle, rets := r } := by
  unfold Inv at h ⊢
  have hst : s.hold t = some (.committed i m own) := hold_of ho
  refine Core.congrHold (hold := fun t' => if t' = t then none else s.hold t') ?_
    (fun t' => by
      have := hold_set s t .idle _ ho t'
      simp only [State.hold] at this ⊢; exact this)
  have sub : ∀ t' q, (if t' = t then none else s.hold t') = some q → s.hold t' = some q := by
    intro t' q hq
    by_cases e : t' = t
    · simp [e] at hq
    · simpa only [e, if_false] using hq
  dsimp only
  refine ⟨h.acc, h.head_, h.tail_, h.le1, h.le2, h.idx, ?_, h.vac, ?_, ?_, ?_, ?_, h.exp, h.del, h.us, h.vis⟩
  · intro k p hk hp
    obtain ⟨o1, o2, o3, o4, o5⟩ := h.occ k p hk hp
    refine ⟨o1, o2, o3, o4, ?_⟩
    intro hi
    obtain ⟨t', pc, ht', hpc⟩ := o5 hi
    have : t' ≠ t := by
      intro e'
      subst e'
      rw [hst] at ht'
      injection ht' with ht'
      subst ht'
      simp [PPc.pending] at hpc
    exact ⟨t', pc, by simp [this, ht'], hpc⟩
  · intro t' i' m' own' hh; exact h.imp t' i' m' own' (sub _ _ hh)
  · intro t' i' m' own' hh; exact h.wri t' i' m' own' (sub _ _ hh)
  · intro t' i' m' own' hh; exact h.com t' i' m' own' (sub _ _ hh)
  · intro t1 t2 p p' n hp hp' hn hn'; exact h.uniq t1 t2 p p' n (sub _ _ hp) (sub _ _ hp') hn hn'

/-- The consumer takes the message at the tail. -/
theorem Inv.take {c : Cfg} {s : State M} (h : Inv c s) (hs : s.cons.stage = 0)
    (hr : (s.slots s.tail).status = .ready) (hc : 0 < c.cap) :
    Inv c { s with slots := upd s.slots s.tail { s.slots s.tail with status := .exported }, cons := .exporting s.last } := by
  unfold Inv at h ⊢
  have hlt : s.frees < s.last.index := by
    rcases Nat.lt_or_ge s.frees s.last.index with hl | hl
    · exact hl
    · have := h.vac s.frees hl (by omega)
      rw [← h.tail_, hr] at this; simp at this
  have hroom : ∀ (k : Nat) p, s.accepted[k]? = some p → k < s.frees + c.cap := by
    intro k p hp; have := getElem?_lt hp; have := h.acc; have := h.le2; omega
  have hidx : ∀ j, (upd s.slots s.tail { s.slots s.tail with status := .exported } j).idx = (s.slots j).idx := by
    intro j; by_cases e : j = s.tail
    · subst e; simp
    · rw [upd_other _ _ e]
  have hne : ∀ k, s.frees < k → k < s.frees + c.cap → k % c.cap ≠ s.tail := by
    intro k h1 h2 he
    rw [h.tail_] at he
    have := mod_inj (d := s.frees) (by omega) h2 (Nat.le_refl _) (by omega) he
    omega
  have himp : ∀ i, (s.slots i).status = .imported → i ≠ s.tail := by
    intro i hi e; rw [e, hr] at hi; simp at hi
  have hd := h.del
  rw [hs] at hd
  have hold : ({ s with slots := upd s.slots s.tail { s.slots s.tail with status := .exported },
                        cons := .exporting s.last } : State M).hold = s.hold := rfl
  rw [hold]
  simp only [CPc.stage]
  refine ⟨h.acc, h.head_, h.tail_, h.le1, h.le2, h.idx, ?_, ?_, ?_, ?_, by simpa only [hidx] using h.com, h.uniq, fun _ => hlt, ?_, h.us, ?_⟩
  · intro k p hk hp
    obtain ⟨o1, o2, o3, o4, o5⟩ := h.occ k p hk hp
    by_cases e : k = s.frees
    · subst e
      rw [← h.tail_] at o1 o2 o3 ⊢
      simp only [upd_same]
      exact ⟨o1, by simp, fun _ => o3 (.inl hr), by simp, by simp⟩
    · rw [upd_other _ _ (hne k (by omega) (hroom _ _ hp))]
      refine ⟨o1, o2, o3, ?_, o5⟩
      rw [hs] at o4
      constructor
      · intro hh; exact absurd rfl (o4.1 hh).2
      · intro hh; exact absurd hh.1 e
  · intro k hk1 hk2
    rw [upd_other _ _ (hne k (by omega) hk2)]; exact h.vac k hk1 hk2
  · intro t i m own hh
    obtain ⟨k, b1, b2, b3, b4⟩ := h.imp t i m own hh
    exact ⟨k, b1, b2, b3, by rw [upd_other _ _ (himp i b4)]; exact b4⟩
  · intro t i m own hh
    obtain ⟨k, b1, b2, b3, b4, b5⟩ := h.wri t i m own hh
    exact ⟨k, b1, b2, b3, by rw [upd_other _ _ (himp i b4)]; exact b4, by rw [upd_other _ _ (himp i b4)]; exact b5⟩
  · simpa using hd
  · intro j hj; rw [hidx] at hj ⊢; exact h.vis j hj

/-- The consumer is called. -/
theorem Inv.export {c : Cfg} {s : State M} (h : Inv c s) {last : IdxTs} (hs : s.cons = .exporting last) :
    Inv c { s with cons := .exported
                   delivered := s.delivered ++ [((s.slots s.tail).body, (s.slots s.tail).idx, last)] } := by
  unfold Inv at h ⊢
  have hst : s.cons.stage = 1 := by rw [hs]; rfl
  rw [hst] at h
  have hlt := h.exp (by simp)
  have hlt' : s.frees < s.accepted.length := by rw [h.acc]; exact hlt
  obtain ⟨o1, o2, o3, o4, o5⟩ := h.occ s.frees _ (Nat.le_refl _) (List.getElem?_eq_getElem hlt')
  rw [← h.tail_] at o1 o3 o4
  have hb := o3 (.inr (o4.2 ⟨rfl, by simp⟩))
  dsimp only
  refine ⟨h.acc, h.head_, h.tail_, h.le1, h.le2, h.idx, ?_, h.vac, h.imp, h.wri, h.com, h.uniq, fun _ => hlt, ?_, h.us, h.vis⟩
  · intro k p hk hp
    obtain ⟨q1, q2, q3, q4, q5⟩ := h.occ k p hk hp
    exact ⟨q1, q2, q3, by simpa [CPc.stage] using q4, q5⟩
  · have hd := h.del
    simp only [CPc.stage, List.map_append, hd]
    simp only [if_true, List.map_cons, List.map_nil, hb, o1]
    simp only [Nat.reduceEqDiff, if_false, Nat.add_zero]
    rw [List.take_succ_eq_append_getElem hlt']

/-- The slot is freed. -/
theorem Inv.release {c : Cfg} {s : State M} (h : Inv c s) (hs : s.cons = .exported) (hc : 0 < c.cap) :
    Inv c { s with slots := upd s.slots s.tail { s.slots s.tail with status := .free }, tail := inc c s.tail
                   cons := .freed, frees := s.frees + 1 } := by
  unfold Inv at h ⊢
  have hst : s.cons.stage = 2 := by rw [hs]; rfl
  rw [hst] at h
  have hlt := h.exp (by simp)
  have hlt' : s.frees < s.accepted.length := by rw [h.acc]; exact hlt
  have hocc := h.occ s.frees _ (Nat.le_refl _) (List.getElem?_eq_getElem hlt')
  have hexp : (s.slots s.tail).status = .exported := by
    rw [h.tail_]; exact hocc.2.2.2.1.2 ⟨rfl, by simp⟩
  have hroom : ∀ (k : Nat) p, s.accepted[k]? = some p → k < s.frees + c.cap := by
    intro k p hp; have := getElem?_lt hp; have := h.acc; have := h.le2; omega
  have hidx : ∀ j, (upd s.slots s.tail { s.slots s.tail with status := .free } j).idx = (s.slots j).idx := by
    intro j; by_cases e : j = s.tail
    · subst e; simp
    · rw [upd_other _ _ e]
  have hne : ∀ k, s.frees < k → k < s.frees + c.cap → k % c.cap ≠ s.tail := by
    intro k h1 h2 he
    rw [h.tail_] at he
    have := mod_inj (d := s.frees) (by omega) h2 (Nat.le_refl _) (by omega) he
    omega
  have himp : ∀ i, (s.slots i).status = .imported → i ≠ s.tail := by
    intro i hi e; rw [e, hexp] at hi; simp at hi
  have hkne : ∀ (k : Nat), s.frees ≤ k → (s.slots (k % c.cap)).status = .imported → s.frees + 1 ≤ k := by
    intro k hk hi
    rcases Nat.lt_or_ge s.frees k with hl | hl
    · omega
    · have : k = s.frees := by omega
      subst this
      rw [← h.tail_, hexp] at hi; simp at hi
  have hold : ({ s with slots := upd s.slots s.tail { s.slots s.tail with status := .free }, tail := inc c s.tail,
                        cons := .freed, frees := s.frees + 1 } : State M).hold = s.hold := rfl
  rw [hold]
  simp only [CPc.stage]
  refine ⟨h.acc, h.head_, ?_, hlt, by have := h.le2; omega, h.idx, ?_, ?_, ?_, ?_, by simpa only [hidx] using h.com, h.uniq, by simp, ?_, h.us, ?_⟩
  · simp only [inc, h.tail_]; rw [Nat.mod_add_mod]
  · intro k p hk hp
    obtain ⟨o1, o2, o3, o4, o5⟩ := h.occ k p (by omega) hp
    rw [upd_other _ _ (hne k (by omega) (hroom _ _ hp))]
    refine ⟨o1, o2, o3, ?_, o5⟩
    constructor
    · intro hh; have := (o4.1 hh).1; omega
    · intro hh; exact absurd rfl hh.2
  · intro k hk1 hk2
    by_cases hk : k < s.frees + c.cap
    · rw [upd_other _ _ (hne k (by omega) hk)]; exact h.vac k hk1 hk
    · have : k = s.frees + c.cap := by omega
      have : k % c.cap = s.tail := by rw [this, h.tail_]; simp
      rw [this]; simp
  · intro t i m own hh
    obtain ⟨k, b1, b2, b3, b4⟩ := h.imp t i m own hh
    exact ⟨k, hkne k b1 (by rw [← b3]; exact b4), b2, b3, by rw [upd_other _ _ (himp i b4)]; exact b4⟩
  · intro t i m own hh
    obtain ⟨k, b1, b2, b3, b4, b5⟩ := h.wri t i m own hh
    exact ⟨k, hkne k b1 (by rw [← b3]; exact b4), b2, b3, by rw [upd_other _ _ (himp i b4)]; exact b4,
      by rw [upd_other _ _ (himp i b4)]; exact b5⟩
  · have := h.del
    simpa using this
  · intro j hj; rw [hidx] at hj ⊢; exact h.vis j hj

/-- A change of the consumer's program counter that does not touch the buffer. -/
theorem Inv.setCons {c : Cfg} {s : State M} (h : Inv c s) {p : CPc} (hp : p.stage = s.cons.stage) :
    Inv c { s with cons := p } := by
  unfold Inv at h ⊢
  simp only [hp]
  exact h

theorem Inv.setRets {c : Cfg} {s : State M} (h : Inv c s) (r : List (Ret M)) : Inv c { s with rets := r } := h
theorem Inv.setDestr {c : Cfg} {s : State M} (h : Inv c s) (b : Bool) : Inv c { s with destructing := b } := h

theorem stamp_of_gt {ts now last : Int} (h1 : -1 ≤ last) (h2 : ts > last) : stamp ts now = ts := by
  unfold stamp; rw [if_pos (by omega)]

/-- Waiting publishers passed the check of line 215, so their timestamps are not negative. -/
def StampsOk (s : State M) : Prop :=
  ∀ (t : Nat) (m : M) (ts : Int), s.pubs[t]? = some (.asleep m ts) ∨ s.pubs[t]? = some (.awake m ts) → 0 ≤ ts

theorem getElem?_set_eq {α : Type} {l : List α} {t t' : Nat} {p q : α} (h : (l.set t p)[t']? = some q) :
    (t' = t ∧ q = p) ∨ (t' ≠ t ∧ l[t']? = some q) := by
  rw [List.getElem?_set] at h
  by_cases e : t = t'
  · subst e
    simp only [if_true] at h
    split at h
    · left; injection h with h; exact ⟨rfl, h.symm⟩
    · simp at h
  · simp only [e, if_false] at h; exact .inr ⟨Ne.symm e, h⟩

theorem StampsOk.set {s : State M} (h : StampsOk s) {t : Nat} {p : PPc M} {s' : State M}
    (he : s'.pubs = s.pubs.set t p) (hp : ∀ m ts, p = .asleep m ts ∨ p = .awake m ts → 0 ≤ ts) : StampsOk s' := by
  intro t' m ts hh
  rw [he] at hh
  rcases hh with hh | hh
  · rcases getElem?_set_eq hh with ⟨_, e⟩ | ⟨_, e⟩
    · exact hp m ts (.inl e.symm)
    · exact h t' m ts (.inl e)
  · rcases getElem?_set_eq hh with ⟨_, e⟩ | ⟨_, e⟩
    · exact hp m ts (.inr e.symm)
    · exact h t' m ts (.inr e)

theorem StampsOk.notifyAll {s : State M} (h : StampsOk s) : StampsOk s.notifyAll := by
  intro t m ts hh
  simp only [State.notifyAll, List.getElem?_map, Option.map_eq_some_iff] at hh
  rcases hh with ⟨p, hp, e⟩ | ⟨p, hp, e⟩
  · cases p <;> simp [wakeP] at e
  · cases p <;> simp [wakeP] at e
    · obtain ⟨rfl, rfl⟩ := e; exact h t _ _ (.inl hp)
    · obtain ⟨rfl, rfl⟩ := e; exact h t _ _ (.inr hp)

theorem StampsOk.same {s s' : State M} (h : StampsOk s) (he : s'.pubs = s.pubs) : StampsOk s' := by
  intro t m ts hh; rw [he] at hh; exact h t m ts hh

theorem step_stamps {c : Cfg} {s s' : State M} (h : Inv c s) (hw : StampsOk s) (a : Act M)
    (ha : step c s a = some s') : StampsOk s' := by
  have alloc : ∀ t m us, StampsOk (s.alloc c t m us) := fun t m us => hw.set (t := t) rfl (by simp)
  cases a with
  | publish t m ts now =>
    simp only [step] at ha
    split at ha
    · injection ha with ha; subst ha
      unfold State.publish
      split
      · split
        · split
          · exact hw.same rfl
          · exact alloc _ _ _
        · exact hw.same rfl
      · split
        · exact hw.same rfl
        · split
          · exact hw.same rfl
          · rename_i hts
            split
            · exact alloc _ _ _
            · refine hw.set (t := t) rfl ?_
              intro m' ts' hh
              have := h.us.1
              rcases hh with hh | hh
              · injection hh with _ e; omega
              · simp at hh
    · simp at ha
  | spurious t =>
    simp only [step] at ha
    split at ha
    · rename_i m ts ho
      injection ha with ha; subst ha
      refine hw.set (t := t) rfl ?_
      intro m' ts' hh
      rcases hh with hh | hh
      · simp at hh
      · injection hh with _ e; have := hw t m ts (.inl ho); omega
    · simp at ha
  | resume t now =>
    simp only [step] at ha
    split at ha
    · rename_i m ts ho
      injection ha with ha; subst ha
      unfold State.resume
      split
      · exact hw.set (t := t) rfl (by simp)
      · split
        · exact alloc _ _ _
        · refine hw.set (t := t) rfl ?_
          intro m' ts' hh
          rcases hh with hh | hh
          · injection hh with _ e; have := hw t m ts (.inr ho); omega
          · simp at hh
    · simp at ha
  | write t =>
    simp only [step] at ha
    split at ha
    · injection ha with ha; subst ha
      exact hw.set (t := t) rfl (by simp)
    · simp at ha
  | commit t =>
    simp only [step] at ha
    split at ha
    · injection ha with ha; subst ha
      exact StampsOk.notifyAll (hw.set (t := t) rfl (by simp))
    · simp at ha
  | ret t =>
    simp only [step] at ha
    split at ha
    · injection ha with ha; subst ha
      exact hw.set (t := t) rfl (by simp)
    · simp at ha
  | spuriousC =>
    simp only [step] at ha
    split at ha
    · injection ha with ha; subst ha; exact hw.same rfl
    · simp at ha
  | consume =>
    simp only [step] at ha
    split at ha
    · injection ha with ha; subst ha
      unfold State.consume
      split
      · exact hw.same rfl
      · split <;> exact hw.same rfl
    · simp at ha
  | «export» =>
    simp only [step] at ha
    split at ha
    · injection ha with ha; subst ha; exact hw.same rfl
    · simp at ha
  | release =>
    simp only [step] at ha
    split at ha
    · injection ha with ha; subst ha; exact hw.same rfl
    · simp at ha
  | notify t =>
    simp only [step] at ha
    split at ha
    · split at ha
      · split at ha
        · simp at ha
        · injection ha with ha; subst ha; exact hw.same rfl
      · split at ha
        · rename_i t _ m ts ho
          injection ha with ha; subst ha
          refine hw.set (t := t) rfl ?_
          intro m' ts' hh
          rcases hh with hh | hh
          · simp at hh
          · injection hh with _ e; have := hw t m ts (.inl ho); omega
        · simp at ha
    · simp at ha
  | destruct =>
    simp only [step] at ha
    split at ha
    · simp at ha
    · injection ha with ha; subst ha
      exact StampsOk.notifyAll (hw.same rfl)

/-- **Every action preserves the invariant.** -/
theorem step_inv {c : Cfg} (hc : 0 < c.cap) {s s' : State M} (h : Inv c s) (a : Act M) (hw : StampsOk s)
    (ha : step c s a = some s') : Inv c s' := by
  cases a with
  | publish t m ts now =>
    simp only [step] at ha
    split at ha
    · rename_i ho
      injection ha with ha; subst ha
      unfold State.publish
      split
      · split
        · rename_i hf
          split
          · exact h.setRets _
          · rename_i hts
            exact h.alloc hc ho rfl hf m ts (by have := h.us.1; omega)
        · exact h.setRets _
      · split
        · exact h.setRets _
        · split
          · exact h.setRets _
          · rename_i hts
            split
            · rename_i hf
              refine h.alloc hc ho rfl hf m _ ?_
              have := h.us.1
              rw [stamp_of_gt this (by omega)]; omega
            · exact h.setPub ho rfl rfl
    · simp at ha
  | spurious t =>
    simp only [step] at ha
    split at ha
    · rename_i ho
      injection ha with ha; subst ha
      exact h.setPub ho rfl rfl
    · simp at ha
  | resume t now =>
    simp only [step] at ha
    split at ha
    · rename_i m ts ho
      injection ha with ha; subst ha
      unfold State.resume
      split
      · exact (h.setPub ho rfl rfl).setRets _
      · split
        · rename_i hf
          refine h.alloc hc ho rfl hf m _ ?_
          have := hw t m ts (.inr ho)
          unfold stamp; split <;> omega
        · exact h.setPub ho rfl rfl
    · simp at ha
  | write t =>
    simp only [step] at ha
    split at ha
    · rename_i ho
      injection ha with ha; subst ha
      exact h.write ho
    · simp at ha
  | commit t =>
    simp only [step] at ha
    split at ha
    · rename_i ho
      injection ha with ha; subst ha
      exact (h.commit ho).notifyAll
    · simp at ha
  | ret t =>
    simp only [step] at ha
    split at ha
    · rename_i ho
      injection ha with ha; subst ha
      exact h.ret _ ho
    · simp at ha
  | spuriousC =>
    simp only [step] at ha
    split at ha
    · rename_i hs
      injection ha with ha; subst ha
      exact h.setCons (by rw [hs]; rfl)
    · simp at ha
  | consume =>
    simp only [step] at ha
    split at ha
    · rename_i hs
      injection ha with ha; subst ha
      unfold State.consume
      split
      · exact h.setCons (by rw [hs]; rfl)
      · split
        · rename_i hr
          exact h.take (by rw [hs]; rfl) hr hc
        · exact h.setCons (by rw [hs]; rfl)
    · simp at ha
  | «export» =>
    simp only [step] at ha
    split at ha
    · rename_i hs
      injection ha with ha; subst ha
      exact h.export hs
    · simp at ha
  | release =>
    simp only [step] at ha
    split at ha
    · rename_i hs
      injection ha with ha; subst ha
      exact h.release hs hc
    · simp at ha
  | notify t =>
    simp only [step] at ha
    split at ha
    · rename_i hs
      split at ha
      · split at ha
        · simp at ha
        · injection ha with ha; subst ha
          exact h.setCons (by rw [hs]; rfl)
      · split at ha
        · rename_i m ts ho
          injection ha with ha; subst ha
          have := (h.setPub (p := .awake m ts) ho rfl rfl).setCons (p := .awake) (by simp only [hs]; rfl)
          exact this
        · simp at ha
    · simp at ha
  | destruct =>
    simp only [step] at ha
    split at ha
    · simp at ha
    · injection ha with ha; subst ha
      exact (h.setDestr true).notifyAll

end Current.MMQ
