import Verif.EmbeddedDb.Model
set_option linter.unusedSimpArgs false

/-! # The embedded event log DB: theorems (C130) -/

namespace Current.EmbeddedDb

theorem nickIn_snoc (l : List Ev) (e : Ev) (u : String) : nickIn (l ++ [e]) u = apply (nickIn l) e u := by
  unfold nickIn
  rw [List.reverse_append, List.reverse_singleton, List.singleton_append, List.findSome?_cons]
  cases e with
  | userAdded id n =>
    simp only [apply]
    by_cases h : id = u
    · subst h; simp
    · have : ¬ u = id := fun h' => h h'.symm
      simp [h, this]
  | other x => simp [apply]

theorem Grows.mono {log : List Ev} {n m : Nat} {rs : List Resp} (h : Grows log n rs) (hm : n ≤ m) : Grows log m rs := by
  cases h with
  | nil => exact .nil _
  | cons h1 h2 h3 => exact .cons (by omega) h2 h3

theorem Grows.append {log : List Ev} {n : Nat} {rs : List Resp} (h : Grows log n rs) (hn : n ≤ log.length) (more : List Ev) : Grows (log ++ more) n rs := by
  induction h with
  | nil => exact .nil _
  | cons h1 h2 _ ih =>
    refine .cons h1 ?_ (ih (by omega))
    rw [List.take_append_of_le_length (by omega)]
    exact h2

/-- The invariant; `n0` is the number of entries at the start. -/
structure Inv (log0 : List Ev) (s : St) : Prop where
  pre : ∃ more, s.log = log0 ++ more
  pos : s.pos ≤ s.log.length
  db : s.nicknames = nickIn (s.log.take s.pos)
  last : ∀ t, s.last = some t → log0.length ≤ t + 1 ∧ t < s.log.length ∧ s.pos ≤ t
  done : s.done = true → log0.length ≤ s.pos + 1
  out : Grows s.log s.pos s.out

theorem inv_start (log : List Ev) : Inv log (start log) := by
  refine ⟨⟨[], by simp [start]⟩, Nat.zero_le _, ?_, by simp [start], by simp [start], .nil _⟩
  funext u
  simp [start, nickIn]

theorem Inv.step {log0 : List Ev} {s s' : St} {o : Op} (h : Inv log0 s) (hs : step s o = some s') : Inv log0 s' := by
  obtain ⟨more, hpre⟩ := h.pre
  have hlen : log0.length ≤ s.log.length := by rw [hpre]; simp
  cases o with
  | publish e =>
    simp only [EmbeddedDb.step] at hs
    split at hs
    · injection hs with hs; subst hs
      refine ⟨⟨more ++ [e], by simp [hpre]⟩, ?_, ?_, ?_, h.done, ?_⟩
      · have := h.pos; simp only [List.length_append]; omega
      · simp only
        rw [List.take_append_of_le_length h.pos]
        exact h.db
      · intro t ht
        have := h.last t ht
        simp only [List.length_append]
        omega
      · refine .cons (Nat.le_refl _) trivial ?_
        exact h.out.append h.pos _
    · cases hs
  | subRead =>
    simp only [EmbeddedDb.step] at hs
    split at hs
    · rename_i hg
      injection hs with hs; subst hs
      refine ⟨h.pre, h.pos, h.db, ?_, h.done, h.out⟩
      intro t ht
      simp only [Option.some.injEq] at ht
      subst ht
      simp only
      omega
    · cases hs
  | subApply =>
    simp only [EmbeddedDb.step] at hs
    split at hs
    · rename_i total e hl he
      injection hs with hs; subst hs
      have ht := h.last total hl
      refine ⟨h.pre, ?_, ?_, by simp, ?_, ?_⟩
      · simp only; omega
      · funext u
        simp only
        rw [List.take_add_one, he]
        simp only [Option.toList_some]
        rw [nickIn_snoc, h.db]
      · intro hd
        simp only [Bool.or_eq_true, decide_eq_true_eq] at hd
        simp only
        rcases hd with hd | hd
        · have := h.done hd; omega
        · omega
      · exact h.out.mono (by simp only; omega)
    · cases hs
  | ready =>
    simp only [EmbeddedDb.step] at hs
    split at hs
    · injection hs with hs; subst hs
      refine ⟨h.pre, h.pos, h.db, h.last, h.done, .cons (Nat.le_refl _) ?_ h.out⟩
      split <;> trivial
    · cases hs
  | ask id =>
    simp only [EmbeddedDb.step] at hs
    split at hs
    · split at hs
      · injection hs with hs; subst hs
        exact ⟨h.pre, h.pos, h.db, h.last, h.done, h.out⟩
      · injection hs with hs; subst hs
        exact ⟨h.pre, h.pos, h.db, h.last, h.done, .cons (Nat.le_refl _) trivial h.out⟩
    · cases hs
  | answer =>
    simp only [EmbeddedDb.step] at hs
    split at hs
    · rename_i id hid
      injection hs with hs; subst hs
      refine ⟨h.pre, h.pos, h.db, h.last, h.done, .cons (Nat.le_refl _) ?_ h.out⟩
      rw [h.db]
      split <;> (rename_i hn; exact hn)
    · cases hs

theorem Inv.run {log0 : List Ev} {s s' : St} {os : List Op} (h : Inv log0 s) (hs : run s os = some s') : Inv log0 s' := by
  induction os generalizing s with
  | nil => cases hs; exact h
  | cons o os ih =>
    simp only [EmbeddedDb.run] at hs
    split at hs
    · cases hs
    · rename_i s1 h1; exact ih (h.step h1) hs

/-- C130 (a): every answer of `/nickname` is right for a beginning of the log, later answers for no shorter ones than earlier answers. -/
theorem answers_are_prefix_reads {log : List Ev} {os : List Op} {s : St} (h : run (start log) os = some s) : Grows s.log s.log.length s.out :=
  let hi := (inv_start log).run h
  hi.out.mono hi.pos

/-- The answers which say that the model is ready (204 of `/ready`, or a nickname answer). -/
def saysReady : Resp → Bool
  | .ready => true
  | .nick _ _ => true
  | .notFound _ => true
  | _ => false

/-- C130 (b), partial: when the read model says that it is ready then it has gone over the whole log that was there at the start — except perhaps for the last entry. -/
theorem ready_means_replayed_partial {log : List Ev} {os : List Op} {s : St} (h : run (start log) os = some s) (hr : s.out.any saysReady = true) :
    log.length ≤ s.pos + 1 ∧ ∀ u, s.nicknames u = nickIn (s.log.take s.pos) u := by
  have key : ∀ (os : List Op) (s s' : St), run s os = some s' → (s.out.any saysReady = true ∨ s.asking.isSome = true → s.done = true) → (s'.out.any saysReady = true ∨ s'.asking.isSome = true → s'.done = true) := by
    intro os
    induction os with
    | nil => intro s s' h; cases h; exact id
    | cons o os ih =>
      intro s s' h hs
      simp only [EmbeddedDb.run] at h
      split at h
      · cases h
      · rename_i s1 h1
        refine ih s1 s' h ?_
        cases o <;> simp only [EmbeddedDb.step] at h1 <;> (repeat' split at h1) <;> first | contradiction | (injection h1 with h1; subst h1)
        all_goals simp only [List.any_cons, Option.isSome_some, Option.isSome_none] at *
        all_goals grind [saysReady]
  have hd := key os _ _ h (by simp [start]) (Or.inl hr)
  have hi := (inv_start log).run h
  exact ⟨hi.done hd, fun u => by rw [hi.db]⟩

/-- The full statement is false: a log of two entries of the same user; after the first the model says it is ready, and answers with the nickname before the restart's last one. -/
theorem ready_one_early : (run (start [.userAdded "luke" "old", .userAdded "luke" "new"]) [.subRead, .subApply, .ready, .ask "luke", .answer]).map (fun s => s.out) =
    some [.nick "luke" "old", .ready] := by rfl

/-- C130 (c): with two entries at the start, if nobody publishes, the model gets ready, when it is one short of the end. -/
theorem gets_ready (log : List Ev) (h : 2 ≤ log.length) : ∃ os s, run (start log) os = some s ∧ s.done = true ∧ s.log = log := by
  have key : ∀ k, k ≤ log.length - 1 → ∃ os s, run (start log) os = some s ∧ s.log = log ∧ s.pos = k ∧ s.last = none ∧ s.asking = none ∧ (k = log.length - 1 → s.done = true) := by
    intro k
    induction k with
    | zero => intro _; exact ⟨[], start log, rfl, rfl, rfl, rfl, rfl, by omega⟩
    | succ k ih =>
      intro hk
      obtain ⟨os, s, h1, h2, h3, h4, h5, h6⟩ := ih (by omega)
      have happ : ∀ (os : List Op) (a b : St) (more : List Op), run a os = some b → run a (os ++ more) = run b more := by
        intro os
        induction os with
        | nil => intro a b more h; cases h; rfl
        | cons o os ih =>
          intro a b more h
          simp only [EmbeddedDb.run, List.cons_append] at *
          split at h
          · cases h
          · rename_i s1 e1; exact ih _ _ _ h
      refine ⟨os ++ [.subRead, .subApply], ?_⟩
      rw [happ _ _ _ _ h1]
      have hget : log[k]? = some (log[k]'(by omega)) := List.getElem?_eq_getElem _
      simp only [EmbeddedDb.run, EmbeddedDb.step]
      rw [if_pos ⟨by simp [h4], by rw [h2, h3]; omega⟩]
      simp only [h2, h3, hget]
      refine ⟨_, rfl, rfl, rfl, rfl, h5, ?_⟩
      intro hk'
      simp [hk']
  obtain ⟨os, s, h1, h2, h3, h4, h5, h6⟩ := key (log.length - 1) (Nat.le_refl _)
  exact ⟨os, s, h1, h6 rfl, h2⟩

/-- … and in every history without publications: from one short of the end on it is ready. -/
theorem quiet_replay_is_ready {log : List Ev} (hl : 2 ≤ log.length) {os : List Op} (hq : ∀ e, Op.publish e ∉ os) {s : St} (h : run (start log) os = some s) (hp : log.length ≤ s.pos + 1) :
    s.done = true := by
  have key : ∀ (os : List Op) (s s' : St), (∀ e, Op.publish e ∉ os) → run s os = some s' → (s.log = log ∧ (∀ t, s.last = some t → t + 1 = log.length) ∧ (log.length ≤ s.pos + 1 → s.done = true)) →
      (log.length ≤ s'.pos + 1 → s'.done = true) := by
    intro os
    induction os with
    | nil => intro s s' _ h hi; cases h; exact hi.2.2
    | cons o os ih =>
      intro s s' hq h hi
      simp only [EmbeddedDb.run] at h
      split at h
      · cases h
      · rename_i s1 h1
        refine ih s1 s' (fun e he => hq e (by simp [he])) h ?_
        obtain ⟨i1, i2, i3⟩ := hi
        cases o <;> simp only [EmbeddedDb.step] at h1 <;> (repeat' split at h1) <;> first | contradiction | (injection h1 with h1; subst h1)
        · rename_i e _; exact absurd List.mem_cons_self (hq e)
        · refine ⟨i1, ?_, i3⟩
          intro t ht
          simp only [Option.some.injEq] at ht
          rw [i1] at ht
          omega
        · rename_i total e h2 h3
          refine ⟨i1, by simp, ?_⟩
          have := i2 total h2
          intro hlen
          simp only [Bool.or_eq_true, decide_eq_true_eq]
          simp only at hlen
          by_cases hx : log.length ≤ s.pos + 1
          · exact Or.inl (i3 hx)
          · exact Or.inr (by omega)
        all_goals exact ⟨i1, i2, i3⟩
  exact key os _ _ hq h ⟨rfl, by simp [start], by simp [start]; omega⟩ hp

/-- Publishing some events, each processed before the next one is published. -/
def oneByOne (es : List Ev) : List Op := es.flatMap fun e => [.publish e, .subRead, .subApply]

/-- C130 (d): but started on an empty log, with the entries published one at a time, it never gets ready, however many there are: all `/nickname` requests are answered with "still replaying". -/
theorem never_ready (es : List Ev) (id : String) : ∃ s, run (start []) (oneByOne es ++ [.ask id]) = some s ∧ s.pos = es.length ∧ s.log = es ∧ s.out.head? = some .notYet := by
  have key : ∀ (es : List Ev) (s : St), s.pos = s.log.length → s.last = none → s.asking = none → s.done = false →
      ∃ s', run s (oneByOne es ++ [.ask id]) = some s' ∧ s'.pos = s.pos + es.length ∧ s'.log = s.log ++ es ∧ s'.out.head? = some .notYet := by
    intro es
    induction es with
    | nil =>
      intro s h1 h2 h3 h4
      refine ⟨_, by simp only [oneByOne, List.flatMap_nil, List.nil_append, EmbeddedDb.run, EmbeddedDb.step]; rw [if_pos (by simp [h3]), if_neg (by simp [h4])], ?_⟩
      simp
    | cons e es ih =>
      intro s h1 h2 h3 h4
      let s1 : St := { s with log := s.log ++ [e], pos := s.pos + 1, nicknames := apply s.nicknames e, out := .published :: s.out }
      obtain ⟨s', g1, g2, g3, g4⟩ := ih s1 (by simp [s1, h1]) h2 h3 h4
      refine ⟨s', ?_, ?_, ?_, g4⟩
      · have e1 : oneByOne (e :: es) ++ [.ask id] = .publish e :: .subRead :: .subApply :: (oneByOne es ++ [.ask id]) := by simp [oneByOne]
        rw [e1]
        simp only [EmbeddedDb.run, EmbeddedDb.step]
        rw [if_pos (by simp [h3])]
        simp only
        rw [if_pos ⟨by simp [h2], by simp [h1]⟩]
        simp only [h1, List.getElem?_concat_length, List.length_append, List.length_singleton]
        rw [← g1]
        simp [s1, h2, h4, h1]
      · rw [g2]; simp [s1]; omega
      · rw [g3]; simp [s1]
  obtain ⟨s, h1, h2, h3, h4⟩ := key es (start []) rfl rfl rfl rfl
  exact ⟨s, h1, by simpa [start] using h2, by simpa [start] using h3, h4⟩

/-- C130 (e): once ready, always ready: no later request is refused. -/
theorem stays_ready {s s' : St} {os : List Op} (hd : s.done = true) (h : run s os = some s') : s'.done = true := by
  induction os generalizing s with
  | nil => cases h; exact hd
  | cons o os ih =>
    simp only [EmbeddedDb.run] at h
    split at h
    · cases h
    · rename_i s1 h1
      refine ih ?_ h
      cases o <;> simp only [EmbeddedDb.step] at h1 <;> (repeat' split at h1) <;> first | contradiction | (injection h1 with h1; subst h1)
      all_goals simp [hd]

/-- A history: replay of three entries, questions before, while and after. -/
example : (run (start [.userAdded "a" "A", .other "x", .userAdded "b" "B"])
    [.ask "a", .subRead, .subApply, .ready, .subRead, .subApply, .ready, .ask "b", .answer, .subRead, .subApply, .ask "b", .publish (.other "y"), .answer]).map (fun s => s.out) = none := by rfl

example : (run (start [.userAdded "a" "A", .other "x", .userAdded "b" "B"])
    [.ask "a", .subRead, .subApply, .ready, .subRead, .subApply, .ready, .ask "b", .answer, .ask "b", .subRead, .subApply, .answer, .publish (.userAdded "a" "AA"), .ask "a", .answer]).map (fun s => s.out) =
    some [.nick "a" "A", .published, .nick "b" "B", .notFound "b", .ready, .notYet, .notYet] := by rfl

end Current.EmbeddedDb
