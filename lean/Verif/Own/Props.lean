import Verif.Own.Inv
/-! Properties of `Owned`/`Borrowed` (C49, C50, C51). -/
namespace Current.Own

/-- C49: the instance is not destroyed while some borrower object refers to it, whatever the threads do. -/
theorem alive_while_borrowed {s : St} (hs : Reachable s) {i k : Nat} (h : s.h i = .live k) : s.d ≠ .freed :=
  hs.inv.live_not_freed h

/-- C49: no use, copy, move or release of a borrower ever touches a destroyed instance, and the assertion in
`UnRegisterBorrower` never fails. What is left is an access through a moved-away borrower (`nullDeref`, the user's error)
and the library's own late `notify_one`, which is possible: `late_notify_touches_destroyed_instance`. -/
theorem no_access_after_destruction_partial {s : St} (hs : Reachable s) (b : Bad) (hb : b ∈ s.bad) :
    b = .notify ∨ b = .nullDeref := hs.inv.bads b hb

/-- The full C49 is false of the code: the last borrower unlocks, the destructor sees no borrowers and returns, and only
then the last borrower calls `notify_one()` on the destroyed condition variable. -/
theorem late_notify_touches_destroyed_instance :
    ∃ s, Reachable s ∧ s.d = .freed ∧ s.bad = [.notify] :=
  ⟨_, ⟨[.borrowOwner 1 7, .destroy, .destroy, .destroy, .release 1, .destroy, .destroy, .notify 1], rfl⟩, rfl, rfl⟩

/-- C49: `operator bool` of a borrower: true iff it has not been moved away and destruction has not begun. -/
theorem valid_iff {s : St} (hs : Reachable s) (i : Nat) :
    s.isValid i = true ↔ (∃ k, s.h i = .live k) ∧ s.d = .idle := by
  have hd := hs.inv.destr
  unfold St.isValid
  cases h : s.h i with
  | live k =>
    simp only [HSt.live.injEq, exists_eq', true_and]
    cases hx : s.destructing <;> simp_all
  | none => simp
  | null => simp
  | notifying => simp

example : ∃ s, Reachable s ∧ s.h 1 = .live 1 ∧ s.h 2 = .live 2 ∧ s.h 3 = .null ∧ s.isValid 1 = true ∧ s.numBorrowers = 2 :=
  ⟨_, ⟨[.borrowOwner 3 7, .move 3 1 7, .borrow 1 2 8], rfl⟩, rfl, rfl, rfl, rfl, rfl⟩

/-! C50: the destructor finishes once the borrowers are gone. -/

/-- A registration that no borrower object will ever remove. -/
def Leak (s : St) (k : Nat) : Prop := k ∈ keys s.regs ∧ (k = 0 ∨ ∀ i, s.h i ≠ .live k)

theorem destroy_same {s s' : St} (h : s.destroy = some s') : s'.regs = s.regs ∧ s'.h = s.h ∧ s'.total = s.total := by
  unfold St.destroy at h
  split at h
  · cases h; exact ⟨rfl, rfl, rfl⟩
  · cases h; exact ⟨rfl, rfl, rfl⟩
  · cases h; exact ⟨rfl, rfl, rfl⟩
  · cases h; exact ⟨rfl, rfl, rfl⟩
  · split at h <;> cases h <;> exact ⟨rfl, rfl, rfl⟩
  · cases h
  · cases h

theorem leak_step {s s' : St} (hi : Inv s) {k : Nat} (hl : Leak s k) (a : Act) (hs : step s a = some s') : Leak s' k := by
  obtain ⟨hk, h0⟩ := hl
  have reg : ∀ dst cb, Leak (s.register dst cb) k := by
    intro dst cb
    refine ⟨(mem_keys_setReg _ _ _ _).2 (Or.inr hk), ?_⟩
    rcases h0 with h | h
    · exact Or.inl h
    · refine Or.inr (fun i hh => ?_)
      rcases upd_eq _ hh with ⟨_, hh⟩ | ⟨_, hh⟩
      · cases hh; have := hi.bound _ hk; omega
      · exact h i hh
  have mv : ∀ src dst j cb, s.h src = .live j → Leak (s.moveKey src dst j cb) k := by
    intro src dst j cb hj
    refine ⟨(mem_keys_setReg _ _ _ _).2 (Or.inr hk), ?_⟩
    rcases h0 with h | h
    · exact Or.inl h
    · refine Or.inr (fun i hh => ?_)
      rcases upd_eq _ hh with ⟨_, hh⟩ | ⟨_, hh⟩
      · cases hh
      · rcases upd_eq _ hh with ⟨_, hh⟩ | ⟨_, hh⟩
        · cases hh; exact h src hj
        · exact h i hh
  have nul : ∀ (t : St) (src : Nat) (v : HSt), (∀ m, v ≠ .live m) → t.regs = s.regs → t.h = upd s.h src v → Leak t k := by
    intro t src v hv hr hh
    refine ⟨hr ▸ hk, ?_⟩
    rcases h0 with h | h
    · exact Or.inl h
    · refine Or.inr (fun i hx => ?_)
      rw [hh] at hx
      rcases upd_eq _ hx with ⟨_, hx⟩ | ⟨_, hx⟩
      · exact hv _ hx
      · exact h i hx
  cases a <;> simp only [step] at hs
  case borrowOwner dst cb => split at hs <;> cases hs; exact reg dst cb
  case borrow src dst cb =>
    split at hs
    · cases hs
    · split at hs
      · split at hs <;> cases hs
        · exact ⟨hk, h0⟩
        · exact reg dst cb
      · cases hs; exact ⟨hk, h0⟩
      · cases hs
  case move src dst cb =>
    split at hs
    · cases hs
    · split at hs
      · rename_i hh
        split at hs <;> cases hs
        · exact ⟨hk, h0⟩
        · exact mv _ _ _ _ hh
      · cases hs; exact ⟨hk, h0⟩
      · cases hs
  case moveOwner dst cb =>
    split at hs <;> cases hs
    refine ⟨(mem_keys_setReg _ _ _ _).2 (Or.inr hk), ?_⟩
    rcases h0 with h | h
    · exact Or.inl h
    · by_cases hz : k = 0
      · exact Or.inl hz
      · refine Or.inr (fun i hh => ?_)
        rcases upd_eq _ hh with ⟨_, hh⟩ | ⟨_, hh⟩
        · cases hh; exact hz rfl
        · exact h i hh
  case moveAssign src dst cb =>
    split at hs
    · cases hs
    · split at hs
      · rename_i hh
        split at hs <;> cases hs
        · exact ⟨hk, h0⟩
        · exact mv _ _ _ _ hh
      · cases hs; exact ⟨hk, h0⟩
      · cases hs
  case use src =>
    split at hs
    · split at hs <;> cases hs <;> exact ⟨hk, h0⟩
    · cases hs; exact ⟨hk, h0⟩
    · cases hs
  case release src =>
    split at hs
    · rename_i j hj
      split at hs
      · cases hs
        exact nul _ _ .null (by simp) rfl rfl
      · rename_i hj0
        split at hs
        · cases hs; exact ⟨hk, h0⟩
        · split at hs
          · cases hs; exact ⟨hk, h0⟩
          · cases hs
            refine ⟨(filter_keys _ _ _).2 ⟨hk, ?_⟩, ?_⟩
            · rintro rfl
              rcases h0 with h | h
              · exact hj0 h
              · exact h src hj
            · rcases h0 with h | h
              · exact Or.inl h
              · refine Or.inr (fun i hx => ?_)
                rcases upd_eq _ hx with ⟨_, hx⟩ | ⟨_, hx⟩
                · split at hx <;> cases hx
                · exact h i hx
    · cases hs; exact nul _ _ .none (by simp) rfl rfl
    · cases hs
  case notify src =>
    split at hs
    · split at hs <;> cases hs <;> exact nul _ _ .null (by simp) rfl rfl
    · cases hs
  case destroy =>
    obtain ⟨h1, h2, _⟩ := destroy_same hs
    exact ⟨h1 ▸ hk, h2 ▸ h0⟩
  case spurious => split at hs <;> cases hs; exact ⟨hk, h0⟩

/-- C50, the converse: a leaked registration makes the destructor wait forever, on every schedule. -/
theorem leak_hangs_forever {s : St} (hs : Reachable s) {k : Nat} (hl : Leak s k) (as : List Act) {t : St}
    (ht : run s as = some t) : t.d ≠ .freed := by
  have hi := hs.inv
  have : ∀ (as : List Act) (s : St), Inv s → Leak s k → run s as = some t → Inv t ∧ Leak t k := by
    intro as
    induction as with
    | nil => intro s hi hl h; simp [run] at h; subst h; exact ⟨hi, hl⟩
    | cons a as ih =>
      intro s hi hl h
      simp only [run] at h
      split at h
      · rename_i u hu; exact ih u (step_inv hi a hu) (leak_step hi hl a hu) h
      · cases h
  obtain ⟨hi', hl'⟩ := this as s hi hl ht
  intro hf
  have := hl'.1
  rw [hi'.freedEmpty hf] at this
  simp at this

/-- Only two operations leak: move-assignment over a borrower that is still registered (`MoveFrom` overwrites the key
without unregistering it), which includes self-move-assignment, and moving a borrower out of the `Owned` itself. -/
theorem leak_comes_from_move {s s' : St} (hs : Reachable s) (hn : ∀ k, ¬Leak s k) (a : Act) (h : step s a = some s')
    (hassign : ∀ src dst cb, a = .moveAssign src dst cb → s.h dst = .null)
    (howner : ∀ dst cb, a ≠ .moveOwner dst cb) : ∀ k, ¬Leak s' k := by
  have hi := hs.inv
  have live : ∀ k ∈ keys s.regs, k ≠ 0 ∧ ∃ i, s.h i = .live k := by
    intro k hk
    have := hn k
    unfold Leak at this
    by_cases h0 : k = 0
    · exact absurd ⟨hk, Or.inl h0⟩ this
    · refine ⟨h0, ?_⟩
      by_cases hex : ∃ i, s.h i = .live k
      · exact hex
      · exact absurd ⟨hk, Or.inr (fun i hh => hex ⟨i, hh⟩)⟩ this
  have fin : ∀ t : St, (∀ k ∈ keys t.regs, k ≠ 0 ∧ ∃ i, t.h i = .live k) → ∀ k, ¬Leak t k := by
    rintro t ht k ⟨hk, hl⟩
    obtain ⟨h1, i, h2⟩ := ht k hk
    rcases hl with hl | hl
    · exact h1 hl
    · exact hl i h2
  apply fin
  have reg : ∀ dst cb, s.h dst = .none → ∀ k ∈ keys (s.register dst cb).regs, k ≠ 0 ∧ ∃ i, (s.register dst cb).h i = .live k := by
    intro dst cb hd k hk
    rcases (mem_keys_setReg _ _ _ _).1 hk with rfl | hk
    · exact ⟨by omega, dst, upd_self _ _ _⟩
    · obtain ⟨h1, i, h2⟩ := live k hk
      refine ⟨h1, i, ?_⟩
      show upd _ _ _ i = _
      rw [upd_ne _ _ (by rintro rfl; rw [hd] at h2; cases h2)]
      exact h2
  have mv : ∀ src dst j cb, s.h src = .live j → (s.h dst = .none ∨ s.h dst = .null) →
      ∀ k ∈ keys (s.moveKey src dst j cb).regs, k ≠ 0 ∧ ∃ i, (s.moveKey src dst j cb).h i = .live k := by
    intro src dst j cb hj hd k hk
    have hne : dst ≠ src := by
      rintro rfl; rw [hj] at hd; simp at hd
    have hk' : k ∈ keys s.regs := by
      rcases (mem_keys_setReg _ _ _ _).1 hk with rfl | hk
      · exact hi.liveReg _ _ hj
      · exact hk
    obtain ⟨h1, i, h2⟩ := live k hk'
    refine ⟨h1, ?_⟩
    by_cases e : i = src
    · refine ⟨dst, ?_⟩
      show upd _ _ _ dst = _
      rw [upd_ne _ _ hne, upd_self]
      rw [e, hj] at h2; exact h2
    · refine ⟨i, ?_⟩
      show upd _ _ _ i = _
      have hid : i ≠ dst := by rintro rfl; rw [h2] at hd; simp at hd
      rw [upd_ne _ _ e, upd_ne _ _ hid]; exact h2
  have nul : ∀ (t : St) (src : Nat) (v : HSt), (∀ m, s.h src ≠ .live m) → t.regs = s.regs → t.h = upd s.h src v →
      ∀ k ∈ keys t.regs, k ≠ 0 ∧ ∃ i, t.h i = .live k := by
    intro t src v hv hr hh k hk
    rw [hr] at hk
    obtain ⟨h1, i, h2⟩ := live k hk
    refine ⟨h1, i, ?_⟩
    rw [hh, upd_ne _ _ (by rintro rfl; exact hv _ h2)]
    exact h2
  cases a <;> simp only [step] at h
  case borrowOwner dst cb => split at h <;> cases h; rename_i h; exact reg dst cb h.2
  case borrow src dst cb =>
    split at h
    · cases h
    · rename_i hd
      split at h
      · split at h <;> cases h
        · exact live
        · exact reg dst cb (by simpa using hd)
      · cases h; exact live
      · cases h
  case move src dst cb =>
    split at h
    · cases h
    · rename_i hd
      split at h
      · rename_i hh
        split at h <;> cases h
        · exact live
        · exact mv _ _ _ _ hh (Or.inl (by simpa using hd))
      · cases h; exact live
      · cases h
  case moveOwner dst cb => exact absurd rfl (howner dst cb)
  case moveAssign src dst cb =>
    split at h
    · cases h
    · split at h
      · rename_i hh
        split at h <;> cases h
        · exact live
        · exact mv _ _ _ _ hh (Or.inr (hassign _ _ _ rfl))
      · cases h; exact live
      · cases h
  case use src =>
    split at h
    · split at h <;> cases h <;> exact live
    · cases h; exact live
    · cases h
  case release src =>
    split at h
    · rename_i j hj
      split at h
      · rename_i hj0
        exact absurd hj0 (live j (hi.liveReg _ _ hj)).1
      · split at h
        · cases h; exact live
        · split at h
          · cases h; exact live
          · cases h
            intro k hk
            rw [filter_keys] at hk
            obtain ⟨h1, i, h2⟩ := live k hk.1
            refine ⟨h1, i, ?_⟩
            dsimp only
            rw [upd_ne _ _ (by rintro rfl; rw [hj] at h2; cases h2; exact hk.2 rfl)]
            exact h2
    · rename_i hh; cases h; exact nul _ src .none (by simp [hh]) rfl rfl
    · cases h
  case notify src =>
    split at h
    · rename_i hh
      split at h <;> cases h <;> exact nul _ src .null (by simp [hh]) rfl rfl
    · cases h
  case destroy =>
    obtain ⟨h1, h2, _⟩ := destroy_same h
    rw [h1, h2]; exact live
  case spurious => split at h <;> cases h; exact live

theorem calling_drains (cs : List Nat) (s : St) (hd : s.d = .calling cs) (hr : s.regs = []) :
    ∃ t, run s (List.replicate (cs.length + 2) .destroy) = some t ∧ t.d = .freed := by
  induction cs generalizing s with
  | nil =>
    refine ⟨{ s with d := .freed }, ?_, rfl⟩
    simp [List.replicate, run, step, St.destroy, hd, hr]
  | cons c cs ih =>
    obtain ⟨t, h1, h2⟩ := ih { s with d := .calling cs, called := s.called ++ [c] } rfl hr
    refine ⟨t, ?_, h2⟩
    rw [List.length_cons, show cs.length + 1 + 2 = (cs.length + 2) + 1 by omega, List.replicate_succ, run]
    simp only [step, St.destroy, hd]
    exact h1

/-- C50 (partial: without leaked registrations, see above for when they arise): once destruction has begun and the last
borrower object is gone, the destructor reaches its end by its own steps. No wake-up is lost. -/
theorem destructor_finishes_partial {s : St} (hs : Reachable s) (hn : ∀ k, ¬Leak s k) (hd : s.d ≠ .idle)
    (hgone : ∀ i, s.h i = .none ∨ s.h i = .null) :
    ∃ n t, run s (List.replicate n .destroy) = some t ∧ t.d = .freed := by
  have hi := hs.inv
  have hr : s.regs = [] := by
    cases h : s.regs with
    | nil => rfl
    | cons x r =>
      refine absurd ⟨?_, Or.inr ?_⟩ (hn x.1)
      · simp [h]
      · intro i hh
        rcases hgone i with h | h <;> rw [h] at hh <;> cases hh
  cases hc : s.d with
  | idle => exact absurd hc hd
  | marked =>
    obtain ⟨t, h1, h2⟩ := calling_drains [] { s with d := .calling (s.regs.map (·.2)) } (by simp [hr]) hr
    refine ⟨3, t, ?_, h2⟩
    rw [show 3 = 2 + 1 by rfl, List.replicate_succ, run]
    simp only [step, St.destroy, hc]
    exact h1
  | calling cs =>
    obtain ⟨t, h1, h2⟩ := calling_drains cs s hc hr
    exact ⟨_, t, h1, h2⟩
  | check => exact ⟨1, { s with d := .freed }, by simp [List.replicate, run, step, St.destroy, hc, hr], rfl⟩
  | sleeping =>
    rcases hi.sleep hc with h | ⟨i, h⟩
    · exact absurd hr h
    · rcases hgone i with h' | h' <;> rw [h] at h' <;> cases h'
  | freed => exact ⟨0, s, rfl, hc⟩

/-- C50, no lost wake-up with borrowers around: a sleeping destructor has a registered borrower left, or the release of the
last one is still about to notify it. -/
theorem sleeping_means_borrowed {s : St} (hs : Reachable s) (hd : s.d = .sleeping) (hn : ∀ k, ¬Leak s k) :
    (∃ i k, s.h i = .live k) ∨ ∃ i, s.h i = .notifying := by
  rcases hs.inv.sleep hd with h | h
  · left
    obtain ⟨x, r, hx⟩ := List.exists_cons_of_ne_nil h
    by_cases hex : ∃ i, s.h i = .live x.1
    · obtain ⟨i, hi⟩ := hex; exact ⟨i, _, hi⟩
    · exact absurd ⟨by simp [hx], Or.inr (fun i hh => hex ⟨i, hh⟩)⟩ (hn x.1)
  · exact Or.inr h

/-- The destructor was asleep, the last borrower left. -/
example : ∃ s, Reachable s ∧ s.d = .check ∧ s.h 1 = .null ∧ s.h 2 = .null ∧ s.regs = [] :=
  ⟨_, ⟨[.borrowOwner 1 7, .borrow 1 2 8, .destroy, .destroy, .destroy, .destroy, .destroy, .destroy, .release 1, .release 2, .notify 2],
    rfl⟩, rfl, rfl, rfl, rfl⟩

/-- C50 is false in full: one innocent move-assignment between two borrowers, then both are released, and the destructor waits
forever on every schedule. -/
theorem move_assignment_hangs_owner :
    ∃ s, Reachable s ∧ (∀ i, s.h i = .none ∨ s.h i = .null) ∧ ∀ as t, run s as = some t → t.d ≠ .freed := by
  obtain ⟨s, hrun, hregs, hh⟩ : ∃ s, run St.init [.borrowOwner 1 7, .borrowOwner 2 8, .moveAssign 1 2 8, .release 1, .release 2, .release 2] = some s ∧
      s.regs = [(2, 8)] ∧ s.h = upd (upd (upd (upd (upd (upd (upd (fun _ => .none) 1 (.live 1)) 2 (.live 2)) 2 (.live 1)) 1 .null) 1 .none) 2 .null) 2 .none :=
    ⟨_, rfl, rfl, rfl⟩
  have hnone : ∀ i, s.h i = .none := by
    intro i
    rw [hh]
    unfold upd
    by_cases h1 : i = 1 <;> by_cases h2 : i = 2 <;> simp [h1, h2]
  refine ⟨s, ⟨_, hrun⟩, fun i => Or.inl (hnone i), fun as t => leak_hangs_forever ⟨_, hrun⟩ (k := 2) ⟨?_, Or.inr ?_⟩ as⟩
  · simp [hregs]
  · intro i h; rw [hnone i] at h; cases h

/-! C51: the termination callbacks. -/

/-- What the destructor has still to call. -/
def todo : DPc → List Nat
  | .calling cs => cs
  | _ => []

theorem called_step {s s' : St} (hd : s.d ≠ .idle ∧ s.d ≠ .marked) (a : Act) (h : step s a = some s') :
    (s'.d ≠ .idle ∧ s'.d ≠ .marked) ∧ s'.called ++ todo s'.d = s.called ++ todo s.d := by
  cases a <;> simp only [step] at h
  case destroy =>
    unfold St.destroy at h
    split at h
    · rename_i hc; exact absurd hc hd.1
    · rename_i hc; exact absurd hc hd.2
    · rename_i hc; cases h; simp [hc, todo]
    · rename_i hc; cases h; simp [hc, todo]
    · rename_i hc; split at h <;> cases h <;> simp [hc, todo]
    · cases h
    · cases h
  case notify src =>
    split at h
    · split at h
      · cases h; exact ⟨hd, rfl⟩
      · cases h
        by_cases hsl : s.d = .sleeping
        · simp [hsl, todo]
        · simp only [hsl, if_false]; exact ⟨hd, trivial⟩
    · cases h
  case spurious => split at h <;> cases h; rename_i hc; simp [hc, todo]
  all_goals
    repeat' split at h
    all_goals cases h
    all_goals exact ⟨hd, rfl⟩

theorem called_nil {s : St} (hs : Reachable s) (hd : s.d = .idle ∨ s.d = .marked) : s.called = [] := by
  obtain ⟨as, h⟩ := hs
  have : ∀ (as : List Act) (s t : St), ((s.d = .idle ∨ s.d = .marked) → s.called = []) → run s as = some t →
      ((t.d = .idle ∨ t.d = .marked) → t.called = []) := by
    intro as
    induction as with
    | nil => intro s t hq h; simp [run] at h; subst h; exact hq
    | cons a as ih =>
      intro s t hq h
      simp only [run] at h
      split at h
      · rename_i u hu
        refine ih u t ?_ h
        intro hud
        by_cases hsd : s.d = .idle ∨ s.d = .marked
        · have hc := hq hsd
          cases a <;> simp only [step] at hu
          case destroy =>
            unfold St.destroy at hu
            split at hu
            · cases hu; exact hc
            · cases hu; exact hc
            all_goals (rename_i hx; rw [hx] at hsd; simp at hsd)
          all_goals
            repeat' split at hu
            all_goals cases hu
            all_goals exact hc
        · have := called_step (by simpa using hsd) a hu
          rcases hud with h | h
          · exact absurd h this.1.1
          · exact absurd h this.1.2
      · cases h
  exact this as _ _ (by simp [St.init]) h hd

/-- C51: no callback is called before destruction; once the destructor is past its calls, the callbacks called are exactly
those of the borrowers registered at the moment it collected them (`s`), each once, in order of registration — whatever
happened in between. -/
theorem callbacks_of_registered_borrowers {s t : St} (hs : Reachable s) (hm : s.d = .marked) (as : List Act)
    (h : run s (.destroy :: as) = some t) :
    s.called = [] ∧ t.called ++ todo t.d = s.regs.map (·.2) ∧ (s.regs.map (·.1)).Nodup := by
  have hc := called_nil hs (Or.inr hm)
  refine ⟨hc, ?_, ?_⟩
  · have : ∀ (as : List Act) (u : St), (u.d ≠ .idle ∧ u.d ≠ .marked) → run u as = some t →
        t.called ++ todo t.d = u.called ++ todo u.d := by
      intro as
      induction as with
      | nil => intro u _ h; simp [run] at h; subst h; rfl
      | cons a as ih =>
        intro u hu h
        simp only [run] at h
        split at h
        · rename_i v hv
          obtain ⟨h1, h2⟩ := called_step hu a hv
          rw [ih v h1 h, h2]
        · cases h
    simp only [run, step, St.destroy, hm] at h
    rw [this as _ (by simp) h]
    simp [todo, hc]
  · exact hs.inv.sorted.imp (fun h => Nat.ne_of_lt h)

/-- Two borrowers are registered when the destructor starts; one of them leaves before its callback is called. -/
example : ∃ s t, Reachable s ∧ s.d = .marked ∧ s.regs = [(1, 7), (2, 8)] ∧
    run s [.destroy, .destroy, .release 2, .destroy, .destroy] = some t ∧ t.called = [7, 8] ∧ t.d = .check :=
  ⟨_, _, ⟨[.borrowOwner 1 7, .borrow 1 2 8, .destroy], rfl⟩, rfl, rfl, rfl, rfl, rfl⟩

/-- C51 is false in full: a callback can be called after its borrower object is gone (the callbacks are copied out of the map and
called without the lock), so a callback that uses its borrower's memory touches freed memory. -/
theorem callback_after_release :
    ∃ s t, Reachable s ∧ (∀ k, s.h 1 ≠ .live k) ∧ 7 ∉ s.regs.map (·.2) ∧ 7 ∉ s.called ∧ step s .destroy = some t ∧ 7 ∈ t.called :=
  ⟨_, _, ⟨[.borrowOwner 2 8, .borrowOwner 1 7, .destroy, .destroy, .destroy, .release 1], rfl⟩, fun k h => (by change HSt.null = _ at h; cases h),
    by decide, by decide, rfl, by decide⟩

/-- C51 is false in full: a borrower that was registered after the callbacks were collected is waited for but never told. -/
theorem late_borrower_is_not_called {s t : St} (as : List Act) (hd : s.d ≠ .idle ∧ s.d ≠ .marked)
    (cb : Nat) (hcb : cb ∉ s.called ++ todo s.d) (h : run s as = some t) : cb ∉ t.called := by
  have : ∀ (as : List Act) (u : St), (u.d ≠ .idle ∧ u.d ≠ .marked) → run u as = some t →
      t.called ++ todo t.d = u.called ++ todo u.d := by
    intro as
    induction as with
    | nil => intro u _ h; simp [run] at h; subst h; rfl
    | cons a as ih =>
      intro u hu h
      simp only [run] at h
      split at h
      · rename_i v hv
        obtain ⟨h1, h2⟩ := called_step hu a hv
        rw [ih v h1 h, h2]
      · cases h
  have := this as s hd h
  intro hx
  exact hcb (this ▸ List.mem_append_left _ hx)

example : ∃ s, Reachable s ∧ (s.d ≠ .idle ∧ s.d ≠ .marked) ∧ 9 ∉ s.called ++ todo s.d ∧ (2, 9) ∈ s.regs :=
  ⟨_, ⟨[.borrowOwner 1 7, .destroy, .destroy, .borrow 1 2 9], rfl⟩, by decide, by decide, by decide⟩

end Current.Own
