import Verif.Own.Model
/-! Invariants of `Owned`/`Borrowed`. -/
namespace Current.Own

abbrev keys (r : List (Nat × Nat)) : List Nat := r.map (·.1)

theorem mem_keys_setReg (r : List (Nat × Nat)) (k c j : Nat) : j ∈ keys (setReg r k c) ↔ j = k ∨ j ∈ keys r := by
  induction r with
  | nil => simp [setReg]
  | cons x r ih =>
    obtain ⟨k', c'⟩ := x
    simp only [setReg]
    split
    · rename_i h; subst h; simp
    · split
      · simp
      · simp only [keys, List.map_cons, List.mem_cons] at *
        rw [ih]
        constructor
        · rintro (h | h | h) <;> simp [h]
        · rintro (h | h | h) <;> simp [h]

theorem setReg_ne_nil (r : List (Nat × Nat)) (k c : Nat) : setReg r k c ≠ [] := by
  cases r with
  | nil => simp [setReg]
  | cons x r => simp only [setReg]; repeat' split
                all_goals simp

theorem keys_sorted_setReg (r : List (Nat × Nat)) (k c : Nat) (h : (keys r).Pairwise (· < ·)) :
    (keys (setReg r k c)).Pairwise (· < ·) := by
  induction r with
  | nil => simp [setReg]
  | cons x r ih =>
    obtain ⟨k', c'⟩ := x
    simp only [setReg]
    simp only [keys, List.map_cons, List.pairwise_cons] at h
    split
    · rename_i e; subst e; simpa [keys] using h
    · split
      · rename_i e1 e2
        simp only [keys, List.map_cons, List.pairwise_cons, List.mem_cons]
        refine ⟨?_, h⟩
        rintro a (rfl | ha)
        · exact e2
        · exact Nat.lt_trans e2 (h.1 a ha)
      · rename_i e1 e2
        simp only [keys, List.map_cons, List.pairwise_cons]
        refine ⟨?_, ih h.2⟩
        intro a ha
        rcases (mem_keys_setReg r k c a).1 ha with rfl | ha
        · omega
        · exact h.1 a ha

@[simp] theorem upd_self (f : Nat → HSt) (i : Nat) (v : HSt) : upd f i v i = v := by simp [upd]
theorem upd_ne (f : Nat → HSt) {i j : Nat} (v : HSt) (h : j ≠ i) : upd f i v j = f j := by simp [upd, h]
theorem upd_eq (f : Nat → HSt) {i j : Nat} {v w : HSt} (h : upd f i v j = w) : (j = i ∧ v = w) ∨ (j ≠ i ∧ f j = w) := by
  by_cases e : j = i
  · subst e; exact Or.inl ⟨rfl, by simpa using h⟩
  · exact Or.inr ⟨e, by simpa [upd, e] using h⟩

structure Inv (s : St) : Prop where
  liveReg : ∀ i k, s.h i = .live k → k ∈ keys s.regs
  uniq : ∀ i j k, k ≠ 0 → s.h i = .live k → s.h j = .live k → i = j
  bound : ∀ k ∈ keys s.regs, k ≤ s.total
  sorted : (keys s.regs).Pairwise (· < ·)
  own : s.owner = true → s.d = .idle
  freedEmpty : s.d = .freed → s.regs = []
  sleep : s.d = .sleeping → s.regs ≠ [] ∨ ∃ i, s.h i = .notifying
  bads : ∀ b ∈ s.bad, b = .notify ∨ b = .nullDeref
  destr : s.destructing = true ↔ s.d ≠ .idle

theorem Inv.init : Inv St.init := by
  constructor <;> simp [St.init]

theorem Inv.live_not_freed {s : St} (hi : Inv s) {i k : Nat} (h : s.h i = .live k) : s.d ≠ .freed := by
  intro hf
  have := hi.liveReg i k h
  rw [hi.freedEmpty hf] at this
  simp at this

theorem Inv.hurt {s : St} (hi : Inv s) {b : Bad} (hb : b = .notify ∨ b = .nullDeref) : Inv (s.hurt b) := by
  refine ⟨hi.liveReg, hi.uniq, hi.bound, hi.sorted, hi.own, hi.freedEmpty, hi.sleep, ?_, hi.destr⟩
  intro b' h
  simp only [St.hurt, List.mem_append, List.mem_singleton] at h
  rcases h with h | rfl
  · exact hi.bads _ h
  · exact hb

theorem Inv.register {s : St} (hi : Inv s) (dst cb : Nat) (hd : s.h dst = .none) (hf : s.d ≠ .freed) :
    Inv (s.register dst cb) := by
  refine ⟨?_, ?_, ?_, ?_, hi.own, ?_, ?_, hi.bads, hi.destr⟩
  · intro i k h
    rw [St.register, mem_keys_setReg]
    rcases upd_eq _ h with ⟨_, h⟩ | ⟨_, h⟩
    · simp at h; exact Or.inl h.symm
    · exact Or.inr (hi.liveReg i k h)
  · intro i j k hk h1 h2
    have fresh : ∀ i, s.h i ≠ .live (s.total + 1) := fun i h => by
      have := hi.bound _ (hi.liveReg i _ h); omega
    rcases upd_eq _ h1 with ⟨e1, h1⟩ | ⟨e1, h1⟩ <;> rcases upd_eq _ h2 with ⟨e2, h2⟩ | ⟨e2, h2⟩
    · rw [e1, e2]
    · simp at h1; subst h1; exact absurd h2 (fresh j)
    · simp at h2; subst h2; exact absurd h1 (fresh i)
    · exact hi.uniq i j k hk h1 h2
  · intro k hk
    simp only [St.register] at hk ⊢
    rcases (mem_keys_setReg _ _ _ _).1 hk with rfl | h
    · exact Nat.le_refl _
    · have := hi.bound k h; omega
  · exact keys_sorted_setReg _ _ _ hi.sorted
  · intro h; exact absurd h hf
  · intro h; exact Or.inl (setReg_ne_nil _ _ _)

theorem Inv.moveKey {s : St} (hi : Inv s) (src dst k cb : Nat) (hs : s.h src = .live k) (hd : s.h dst ≠ .notifying) :
    Inv (s.moveKey src dst k cb) := by
  have hk := hi.liveReg src k hs
  have hh : ∀ i j, (s.moveKey src dst k cb).h i = .live j → (i = dst ∧ j = k ∧ i ≠ src) ∨ (i ≠ src ∧ i ≠ dst ∧ s.h i = .live j) := by
    intro i j h
    rcases upd_eq _ h with ⟨_, h⟩ | ⟨h0, h⟩
    · cases h
    · rcases upd_eq _ h with ⟨h1, h⟩ | ⟨h1, h⟩
      · cases h; exact Or.inl ⟨h1, rfl, h0⟩
      · exact Or.inr ⟨h0, h1, h⟩
  have hreg : ∀ j, j ∈ keys (s.moveKey src dst k cb).regs ↔ j ∈ keys s.regs := by
    intro j
    rw [St.moveKey, mem_keys_setReg]
    constructor
    · rintro (rfl | h)
      · exact hk
      · exact h
    · exact Or.inr
  refine ⟨?_, ?_, ?_, ?_, hi.own, ?_, ?_, hi.bads, hi.destr⟩
  · intro i j h
    rw [hreg]
    rcases hh i j h with ⟨_, rfl, _⟩ | ⟨_, _, h⟩
    · exact hk
    · exact hi.liveReg i j h
  · intro i j m hm h1 h2
    rcases hh i m h1 with ⟨e1, e4, _⟩ | ⟨a, b, g1⟩ <;> rcases hh j _ h2 with ⟨e2, e3, _⟩ | ⟨c, d, g2⟩
    · rw [e1, e2]
    · subst e4; exact absurd (hi.uniq _ _ _ hm g2 hs) c
    · subst e3; exact absurd (hi.uniq _ _ _ hm g1 hs) a
    · exact hi.uniq i j m hm g1 g2
  · intro j h; exact hi.bound j ((hreg j).1 h)
  · exact keys_sorted_setReg _ _ _ hi.sorted
  · intro h; exact absurd h (hi.live_not_freed hs)
  · intro h; exact Or.inl (setReg_ne_nil _ _ _)

theorem filter_keys (r : List (Nat × Nat)) (k j : Nat) : j ∈ keys (r.filter (·.1 ≠ k)) ↔ j ∈ keys r ∧ j ≠ k := by
  simp only [keys, List.mem_map, List.mem_filter]
  constructor
  · rintro ⟨x, ⟨h1, h2⟩, rfl⟩
    exact ⟨⟨x, h1, rfl⟩, by simpa using h2⟩
  · rintro ⟨⟨x, h1, rfl⟩, h2⟩
    exact ⟨x, ⟨h1, by simpa using h2⟩, rfl⟩

theorem step_inv {s s' : St} (hi : Inv s) (a : Act) (hs : step s a = some s') : Inv s' := by
  cases a with
  | borrowOwner dst cb =>
    simp only [step] at hs
    split at hs
    · rename_i h
      cases hs
      exact hi.register dst cb h.2 (by rw [hi.own h.1]; simp)
    · cases hs
  | borrow src dst cb =>
    simp only [step] at hs
    split at hs
    · cases hs
    · rename_i hd
      split at hs
      · rename_i k hk
        rw [if_neg (hi.live_not_freed hk)] at hs
        cases hs
        exact hi.register dst cb (by simpa using hd) (hi.live_not_freed hk)
      · cases hs; exact hi.hurt (Or.inr rfl)
      · cases hs
  | move src dst cb =>
    simp only [step] at hs
    split at hs
    · cases hs
    · rename_i hd
      split at hs
      · rename_i k hk
        rw [if_neg (hi.live_not_freed hk)] at hs
        cases hs
        exact hi.moveKey src dst k cb hk (by intro h; rw [h] at hd; simp at hd)
      · cases hs; exact hi.hurt (Or.inr rfl)
      · cases hs
  | moveOwner dst cb =>
    simp only [step] at hs
    split at hs
    · rename_i h
      cases hs
      refine ⟨?_, ?_, ?_, keys_sorted_setReg _ _ _ hi.sorted, by simp, ?_, ?_, hi.bads, hi.destr⟩
      · intro i k h'
        rw [mem_keys_setReg]
        rcases upd_eq _ h' with ⟨_, h'⟩ | ⟨_, h'⟩
        · cases h'; exact Or.inl rfl
        · exact Or.inr (hi.liveReg i k h')
      · intro i j k hk h1 h2
        rcases upd_eq _ h1 with ⟨e1, h1⟩ | ⟨e1, h1⟩
        · cases h1; exact absurd rfl hk
        · rcases upd_eq _ h2 with ⟨e2, h2⟩ | ⟨e2, h2⟩
          · cases h2; exact absurd rfl hk
          · exact hi.uniq i j k hk h1 h2
      · intro k hk
        rcases (mem_keys_setReg _ _ _ _).1 hk with rfl | h
        · exact Nat.zero_le _
        · exact hi.bound k h
      · intro hf
        have := hi.own h.1
        dsimp only at hf
        rw [hf] at this; cases this
      · intro _; exact Or.inl (setReg_ne_nil _ _ _)
    · cases hs
  | moveAssign src dst cb =>
    simp only [step] at hs
    split at hs
    · cases hs
    · rename_i hd
      split at hs
      · rename_i k hk
        rw [if_neg (hi.live_not_freed hk)] at hs
        cases hs
        exact hi.moveKey src dst k cb hk (fun h => hd (Or.inr h))
      · cases hs; exact hi.hurt (Or.inr rfl)
      · cases hs
  | use src =>
    simp only [step] at hs
    split at hs
    · rename_i k hk
      rw [if_neg (hi.live_not_freed hk)] at hs
      cases hs; exact hi
    · cases hs; exact hi.hurt (Or.inr rfl)
    · cases hs
  | release src =>
    simp only [step] at hs
    split at hs
    · rename_i k hk
      split at hs
      · cases hs
        refine ⟨?_, ?_, hi.bound, hi.sorted, hi.own, hi.freedEmpty, ?_, hi.bads, hi.destr⟩
        · intro i j h
          rcases upd_eq _ h with ⟨_, h⟩ | ⟨_, h⟩
          · cases h
          · exact hi.liveReg i j h
        · intro i j m hm h1 h2
          rcases upd_eq _ h1 with ⟨_, h1⟩ | ⟨_, h1⟩
          · cases h1
          · rcases upd_eq _ h2 with ⟨_, h2⟩ | ⟨_, h2⟩
            · cases h2
            · exact hi.uniq i j m hm h1 h2
        · intro hsl
          refine Or.inl (fun h => ?_)
          have := hi.liveReg src k hk
          dsimp only at h
          rw [h] at this; simp at this
      · rename_i hk0
        rw [if_neg (hi.live_not_freed hk), if_neg (by simpa [keys] using hi.liveReg src k hk)] at hs
        cases hs
        refine ⟨?_, ?_, ?_, ?_, hi.own, ?_, ?_, hi.bads, hi.destr⟩
        · intro i j h
          dsimp only at h ⊢
          rw [filter_keys]
          rcases upd_eq _ h with ⟨_, h⟩ | ⟨e, g⟩
          · split at h <;> cases h
          · refine ⟨hi.liveReg i j g, ?_⟩
            intro ej
            rw [ej] at g
            exact e (hi.uniq i src _ hk0 g hk)
        · intro i j m hm h1 h2
          dsimp only at h1 h2
          rcases upd_eq _ h1 with ⟨_, h1⟩ | ⟨_, h1⟩
          · split at h1 <;> cases h1
          · rcases upd_eq _ h2 with ⟨_, h2⟩ | ⟨_, h2⟩
            · split at h2 <;> cases h2
            · exact hi.uniq i j m hm h1 h2
        · intro j h
          dsimp only at h
          rw [filter_keys] at h
          exact hi.bound j h.1
        · dsimp only
          exact hi.sorted.sublist (List.filter_sublist.map _)
        · intro h; exact absurd h (hi.live_not_freed hk)
        · intro h
          by_cases he : s.regs.filter (·.1 ≠ k) = []
          · right
            refine ⟨src, ?_⟩
            simp only [upd_self]
            exact if_pos he
          · exact Or.inl he
    · cases hs
      rename_i hk
      refine ⟨?_, ?_, hi.bound, hi.sorted, hi.own, hi.freedEmpty, ?_, hi.bads, hi.destr⟩
      · intro i j h
        rcases upd_eq _ h with ⟨_, h⟩ | ⟨_, h⟩
        · cases h
        · exact hi.liveReg i j h
      · intro i j m hm h1 h2
        rcases upd_eq _ h1 with ⟨_, h1⟩ | ⟨_, h1⟩
        · cases h1
        · rcases upd_eq _ h2 with ⟨_, h2⟩ | ⟨_, h2⟩
          · cases h2
          · exact hi.uniq i j m hm h1 h2
      · intro hsl
        rcases hi.sleep hsl with h | ⟨i, h⟩
        · exact Or.inl h
        · right
          refine ⟨i, ?_⟩
          dsimp only
          rw [upd_ne _ _ (by rintro rfl; rw [h] at hk; cases hk)]
          exact h
    · cases hs
  | notify src =>
    simp only [step] at hs
    split at hs
    · rename_i hk
      have hq : ∀ (d : DPc) (b : List Bad), (d = s.d ∨ (s.d = .sleeping ∧ d = .check)) → d ≠ .sleeping →
          (∀ x ∈ b, x = .notify ∨ x = .nullDeref) → Inv { s with h := upd s.h src .null, d := d, bad := b } := by
        intro d b hd hns hb
        refine ⟨?_, ?_, hi.bound, hi.sorted, ?_, ?_, ?_, hb, ?_⟩
        · intro i j h
          rcases upd_eq _ h with ⟨_, h⟩ | ⟨_, h⟩
          · cases h
          · exact hi.liveReg i j h
        · intro i j m hm h1 h2
          rcases upd_eq _ h1 with ⟨_, h1⟩ | ⟨_, h1⟩
          · cases h1
          · rcases upd_eq _ h2 with ⟨_, h2⟩ | ⟨_, h2⟩
            · cases h2
            · exact hi.uniq i j m hm h1 h2
        · intro ho
          rcases hd with rfl | ⟨h, _⟩
          · exact hi.own ho
          · have := hi.own ho; rw [h] at this; cases this
        · intro hf
          rcases hd with rfl | ⟨_, rfl⟩
          · exact hi.freedEmpty hf
          · cases hf
        · intro h; exact absurd h hns
        · rcases hd with rfl | ⟨h, rfl⟩
          · exact hi.destr
          · have := hi.destr
            rw [h] at this
            simpa using this
      split at hs
      · rename_i hf
        cases hs
        have := (hq s.d s.bad (Or.inl rfl) (by rw [hf]; simp) hi.bads)
        exact this.hurt (Or.inl rfl)
      · cases hs
        by_cases hsl : s.d = .sleeping
        · have := hq .check s.bad (Or.inr ⟨hsl, rfl⟩) (by simp) hi.bads
          simpa [hsl] using this
        · have := hq s.d s.bad (Or.inl rfl) hsl hi.bads
          simpa [hsl] using this
    · cases hs
  | destroy =>
    simp only [step, St.destroy] at hs
    split at hs
    · rename_i hd
      cases hs
      exact ⟨hi.liveReg, hi.uniq, hi.bound, hi.sorted, by simp, by simp, by simp, hi.bads, by simp⟩
    · rename_i hd
      cases hs
      refine ⟨hi.liveReg, hi.uniq, hi.bound, hi.sorted, ?_, by simp, by simp, hi.bads, ?_⟩
      · intro h; have := hi.own h; rw [hd] at this; cases this
      · have := hi.destr; rw [hd] at this; simpa using this
    · rename_i hd
      cases hs
      refine ⟨hi.liveReg, hi.uniq, hi.bound, hi.sorted, ?_, by simp, by simp, hi.bads, ?_⟩
      · intro h; have := hi.own h; rw [hd] at this; cases this
      · have := hi.destr; rw [hd] at this; simpa using this
    · rename_i hd
      cases hs
      refine ⟨hi.liveReg, hi.uniq, hi.bound, hi.sorted, ?_, by simp, by simp, hi.bads, ?_⟩
      · intro h; have := hi.own h; rw [hd] at this; cases this
      · have := hi.destr; rw [hd] at this; simpa using this
    · rename_i hd
      split at hs
      · rename_i he
        cases hs
        refine ⟨hi.liveReg, hi.uniq, hi.bound, hi.sorted, ?_, fun _ => he, by simp, hi.bads, ?_⟩
        · intro h; have := hi.own h; rw [hd] at this; cases this
        · have := hi.destr; rw [hd] at this; simpa using this
      · rename_i he
        cases hs
        refine ⟨hi.liveReg, hi.uniq, hi.bound, hi.sorted, ?_, by simp, fun _ => Or.inl he, hi.bads, ?_⟩
        · intro h; have := hi.own h; rw [hd] at this; cases this
        · have := hi.destr; rw [hd] at this; simpa using this
    · cases hs
    · cases hs
  | spurious =>
    simp only [step] at hs
    split at hs
    · rename_i hd
      cases hs
      refine ⟨hi.liveReg, hi.uniq, hi.bound, hi.sorted, ?_, by simp, by simp, hi.bads, ?_⟩
      · intro h; have := hi.own h; rw [hd] at this; cases this
      · have := hi.destr; rw [hd] at this; simpa using this
    · cases hs

theorem run_inv {s s' : St} (hi : Inv s) (as : List Act) (hs : run s as = some s') : Inv s' := by
  induction as generalizing s with
  | nil => simp [run] at hs; subst hs; exact hi
  | cons a as ih =>
    simp only [run] at hs
    split at hs
    · rename_i t h; exact ih (step_inv hi a h) hs
    · cases hs

theorem Reachable.inv {s : St} (h : Reachable s) : Inv s := by
  obtain ⟨as, h⟩ := h; exact run_inv Inv.init as h

theorem run_append {s : St} (as bs : List Act) : run s (as ++ bs) = (run s as).bind (fun t => run t bs) := by
  induction as generalizing s with
  | nil => rfl
  | cons a as ih =>
    simp only [List.cons_append, run]
    split
    · exact ih
    · rfl

end Current.Own
