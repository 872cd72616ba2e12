import Verif.Stream.Live
/-! C23, the other direction: a subscriber that has caught up has been asked about a non-matching last entry. -/
namespace Current.Stream
open Current.Persist
variable {E : Type}

def AskedInv (p : Params E) (s : St E) : Prop :=
  s.pc ≠ .returned → p.begin_ < s.proc → ∀ x v, s.mem.deref (s.proc - 1) = some (x, v) → p.sel v = false →
    (∃ r, Ev.noMore x r ∈ s.log) ∨ s.proc < s.mem.entries.length

theorem AskedInv.quiet {p : Params E} {s s' : St E} (h : AskedInv p s) (hr : s.pc ≠ .returned) (hm : s'.mem = s.mem)
    (hlog : ∀ ev ∈ s.log, ev ∈ s'.log) (hproc : s'.pc = .returned ∨ s'.proc = s.proc) : AskedInv p s' := by
  intro hr' hb x v hd hsel
  rcases hproc with hp | hp
  · exact absurd hp hr'
  · rw [hp] at hb hd ⊢
    rw [hm] at hd ⊢
    rcases h hr hb x v hd hsel with ⟨r, h⟩ | h
    · exact Or.inl ⟨r, hlog _ h⟩
    · exact Or.inr h

theorem step_asked {p : Params E} {s s' : St E} (hi : Inv p s) (h : AskedInv p s) (a : Act E) (hs : step p s a = some s') :
    AskedInv p s' := by
  cases a with
  | call c =>
    cases hs
    intro hr hb x v hd hsel
    have hl := call_length p.codec s.mem c
    have hproc := proc_le hi
    have hb' : p.begin_ < s.proc := hb
    have hd' : s.mem.deref (s.proc - 1) = some (x, v) := by
      rw [← call_deref p.codec s.mem c _ (by omega)]; exact hd
    rcases h hr hb' x v hd' hsel with h | h
    · exact Or.inl h
    · right; show s.proc < _; dsimp only; omega
  | signal => cases hs; exact h
  | thread r w =>
    have hpc := hi.pcOk
    unfold PcOk at hpc
    simp only [step] at hs
    unfold St.thread at hs
    split at hs
    · rename_i hq
      repeat' split at hs
      all_goals cases hs
      all_goals refine h.quiet (by simp [hq]) rfl (by simp +contextual) ?_
      · exact Or.inr (by simp [St.proc, hq])
      · exact Or.inl rfl
      · exact Or.inr (by simp [St.proc, hq])
    · rename_i hq
      repeat' split at hs
      all_goals cases hs
      all_goals exact h.quiet (by simp [hq]) rfl (by simp) (Or.inr (by simp [St.proc, hq]))
    · rename_i n hq
      simp only [hq] at hpc
      have h1 := hpc.1.size_le
      have hr : s.mem.iterateRange s.index (some n.size) = .ok (s.index, n.size) := by
        unfold Mem.iterateRange
        simp only [Option.getD_some]
        rw [if_neg (by omega), if_neg (by omega), if_neg (by omega), if_neg (by omega)]
      rw [hr] at hs
      cases hs
      exact h.quiet (by simp [hq]) rfl (by simp) (Or.inr (by simp [St.proc, hq]))
    · rename_i i e n hq
      simp only [hq] at hpc
      repeat' split at hs
      all_goals cases hs
      · refine h.quiet (by simp [hq]) rfl (by simp) (Or.inr ?_)
        simp [St.proc, hq]; omega
      · exact h.quiet (by simp [hq]) rfl (by simp) (Or.inr (by simp [St.proc, hq]))
      · obtain ⟨x, v, hd⟩ := deref_exists (m := s.mem) (i := i) (by have := hpc.1.size_le; omega)
        simp_all
    · rename_i i e n x v hq
      repeat' split at hs
      all_goals cases hs
      all_goals refine h.quiet (by simp [hq]) rfl (by simp +contextual) ?_
      · exact Or.inr (by simp [St.proc, hq])
      · exact Or.inl rfl
      · exact Or.inr (by simp [St.proc, hq])
    · rename_i i e n x v hq
      simp only [hq] at hpc
      have hd := hpc.2.2.2.2.2
      obtain ⟨hlt, hxi⟩ := deref_lt hd
      obtain ⟨last, lv, hl, hld⟩ := lastPublished_ok hi.mem (by omega)
      have hli := (deref_lt hld).2
      rw [hl] at hs
      dsimp only at hs
      -- the entry that was just dealt with is `x`, `v`
      have key : ∀ t : St E, t.mem = s.mem → t.pc = .fetch (i + 1) e n →
          (p.sel v = false → (∃ r, Ev.noMore x r ∈ t.log) ∨ i + 1 < s.mem.entries.length) → AskedInv p t := by
        intro t hm ht hk _ _ x' v' hd' hsel
        have hp : t.proc = i + 1 := by simp [St.proc, ht]
        rw [hp, hm] at hd'
        rw [hp, hm]
        simp only [Nat.add_sub_cancel] at hd'
        rw [hd] at hd'
        cases hd'
        exact hk hsel
      split at hs
      · rename_i hsel
        cases hs
        by_cases hr : r = .done
        · intro hr'; exact absurd (if_pos hr) hr'
        · exact key _ rfl (if_neg hr) (fun hf => by simp [hf] at hsel)
      · rw [if_neg (by omega)] at hs
        split at hs
        · cases hs
          exact key _ rfl rfl (fun _ => Or.inr (by omega))
        · cases hs
          by_cases hr : r = .done
          · intro hr'; exact absurd (if_pos hr) hr'
          · exact key _ rfl (if_neg hr) (fun _ => Or.inl ⟨r, by simp⟩)
    · rename_i hd size hq
      repeat' split at hs
      all_goals cases hs
      all_goals refine h.quiet (by simp [hq]) rfl (by simp +contextual) ?_
      · exact Or.inl rfl
      · exact Or.inr (by simp [St.proc, hq])
      · exact Or.inr (by simp [St.proc, hq])
    · rename_i hq
      repeat' split at hs
      all_goals cases hs
      · exact h.quiet (by simp [hq]) rfl (by simp) (Or.inr (by simp [St.proc, hq]))
      · exact h
    · cases hs
    · cases hs

/-- C23: when the thread waits and there is nothing for it to pass, the stream's last entry was either passed or, if it
does not match the filter, the subscriber was asked at that entry whether to go on. -/
theorem asked_at_the_end {p : Params E} {s : St E} (hs : Reachable p s) (hw : s.pc = .waiting)
    (hidle : ∀ r w, s.thread p r w = some s) (hb : p.begin_ < s.mem.size) (i : IdxTs) (e : E)
    (hlast : s.mem.all.getLast? = some (i, e)) :
    if p.sel e then (i, e) ∈ entriesOf s.log else ∃ r, Ev.noMore i r ∈ s.log := by
  have hi := hs.inv
  have hsz : s.mem.size ≤ s.index := by
    have h := hidle .more true
    simp only [St.thread, hw] at h
    by_cases hc : s.mem.size ≤ s.index
    · exact hc
    · rw [if_pos (by omega)] at h
      have h := congrArg (fun o => o.map St.pc) h
      simp [hw] at h
  have hidx : s.index = s.mem.entries.length := by
    have := hi.idx
    simp only [Mem.size] at hsz hb
    omega
  have hd : s.mem.deref (s.mem.entries.length - 1) = some (i, e) := by
    rw [← hlast, List.getLast?_eq_getElem?, Mem.all_getElem?, Mem.all_length]
  split
  · rename_i hsel
    obtain ⟨k, h1, h2, h3, h4⟩ := hi.pass
    have hk : k = s.index := by rw [h1 (by simp [hw])]; simp [St.proc, hw]
    rw [entriesOf_eq, h4, List.mem_filter]
    refine ⟨?_, hsel⟩
    rw [hk, hidx]
    simp only [Mem.size] at hb
    obtain ⟨m, hm⟩ : ∃ m, s.mem.entries.length = m + 1 := ⟨s.mem.entries.length - 1, by omega⟩
    rw [hm] at hd ⊢
    rw [slice_succ s.mem _ m i e (by omega) hd]
    simp
  · rename_i hsel
    have hask : AskedInv p s := by
      obtain ⟨cs, as, hr⟩ := hs
      have : ∀ (as : List (Act E)) (t t' : St E), Inv p t → AskedInv p t → run p t as = some t' → AskedInv p t' := by
        intro as
        induction as with
        | nil => intro t t' _ h hr; simp [run] at hr; subst hr; exact h
        | cons a as ih =>
          intro t t' hi h hr
          simp only [run] at hr
          split at hr
          · rename_i t1 h1; exact ih _ _ (step_inv hi a h1) (step_asked hi h a h1) hr
          · cases hr
      refine this as _ _ (init_inv p _ (Mem.run_inv Mem.Inv.init cs)) ?_ hr
      intro _ hb'
      simp [St.init, St.proc] at hb'
    have hproc : s.proc = s.mem.entries.length := by simp [St.proc, hw, hidx]
    rcases hask (by simp [hw]) (by rw [hproc]; exact hb) i e (by rw [hproc]; exact hd) (by simpa using hsel) with h | h
    · exact h
    · omega

/-- A stream whose last entry does not match. -/
example : ∃ s : St Nat, Reachable (demoParams fun n => n % 2 == 0) s ∧ s.pc = .waiting ∧ (∀ r w, s.thread (demoParams fun n => n % 2 == 0) r w = some s) ∧
    1 < s.mem.size ∧ s.mem.all.getLast? = some (⟨1, 200⟩, 21) ∧ s.log = [.noMore ⟨1, 200⟩ .more] :=
  ⟨_, ⟨[.publish 10 100, .publish 21 200], List.replicate 10 (.thread .more true), rfl⟩, rfl, fun _ _ => rfl, by decide, rfl, rfl⟩

end Current.Stream
