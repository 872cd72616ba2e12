import Verif.MMQ.Wake
/-! Properties C13–C16, C45, C46 of the MMQ. The theorems range over every schedule (`List (Act M)`) of any number `n`
of publisher threads, the consumer thread and the destructor, every buffer size `0 < cap`, and both overflow modes. -/
namespace Current.MMQ
open Current.Persist (IdxTs)

variable {M : Type}

/-! ## C13: delivery in order, exactly once, no gaps -/

/-- **C13.** In every reachable state the calls of the consumer so far are, in order, a prefix of the accepted messages, each with its
own index and timestamp; accepted messages carry the indexes 1, 2, 3, …; and the consumer is never more than one buffer
behind. -/
theorem delivery_is_fifo_exactly_once {c : Cfg} (hc : 0 < c.cap) {m0 : M} {n : Nat} {as : List (Act M)} {s : State M}
    (h : run c (init m0 n) as = some s) :
    (s.delivered.map fun d => (d.1, d.2.1)) = s.accepted.take s.delivered.length ∧
    (∀ (k : Nat) p, s.accepted[k]? = some p → p.2.index = k + 1) ∧
    s.accepted.length ≤ s.delivered.length + c.cap := by
  obtain ⟨i, _, _⟩ := reachable_inv hc h
  unfold Inv at i
  have hd := i.del
  have hle : s.frees + (if s.cons.stage = 2 then 1 else 0) ≤ s.accepted.length := by
    rw [i.acc]
    split
    · have := i.exp (by omega); omega
    · have := i.le1; omega
  have hlen : s.delivered.length = s.frees + (if s.cons.stage = 2 then 1 else 0) := by
    have := congrArg List.length hd
    simp only [List.length_map, List.length_take] at this
    omega
  refine ⟨by rw [hlen]; exact hd, i.idx, ?_⟩
  rw [i.acc, hlen]
  have := i.le2
  omega

theorem countP_snoc {α : Type} (f : α → Bool) (l : List α) (a : α) :
    (l ++ [a]).countP f = l.countP f + (f a).toNat := by
  cases h : f a <;> simp [List.countP_append, List.countP_cons, h]

theorem countP_set_toNat {α : Type} (f : α → Bool) {l : List α} {t : Nat} {p q : α} (h : l[t]? = some q) :
    (l.set t p).countP f + (f q).toNat = l.countP f + (f p).toNat := by
  have := countP_set_eq f (p := p) h
  cases h1 : f q <;> cases h2 : f p <;> simp [h1, h2] at this ⊢ <;> omega

def Act.publishes (q : M → Bool) : Act M → Bool
  | .publish _ m _ _ => q m
  | _ => false

/-- The number of calls of `Publish` in a schedule whose message matches `q`. -/
def published (q : M → Bool) (as : List (Act M)) : Nat := as.countP (Act.publishes q)

/-- What the first critical section of `Publish` can do. -/
theorem publish_cases (c : Cfg) (s : State M) (t : Nat) (m : M) (ts now : Int) :
    ((c.drop = true ∧ (s.slots s.head).status ≠ .free ∨ c.drop = false ∧ s.destructing = true) ∧
      s.publish c t m ts now = { s with rets := s.rets ++ [.dropped m] }) ∨
    (¬ ts > s.last.us ∧ s.publish c t m ts now = { s with rets := s.rets ++ [.thrown m (s.last.us + 1) ts] }) ∨
    ((s.slots s.head).status = .free ∧ ts > s.last.us ∧ ∃ us, (us = ts ∨ us = stamp ts now) ∧
      s.publish c t m ts now = s.alloc c t m us) ∨
    (c.drop = false ∧ s.destructing = false ∧ ts > s.last.us ∧ (s.slots s.head).status ≠ .free ∧
      s.publish c t m ts now = { s with pubs := s.pubs.set t (.asleep m ts) }) := by
  unfold State.publish
  by_cases h1 : c.drop = true
  · by_cases h2 : (s.slots s.head).status = .free
    · by_cases h3 : ts > s.last.us
      · right; right; left; exact ⟨h2, h3, ts, .inl rfl, by simp [h1, h2, h3]⟩
      · right; left; exact ⟨h3, by simp [h1, h2, h3]⟩
    · left; exact ⟨.inl ⟨h1, h2⟩, by simp [h1, h2]⟩
  · have h1' : c.drop = false := by simpa using h1
    by_cases h4 : s.destructing = true
    · left; exact ⟨.inr ⟨h1', h4⟩, by simp [h1, h4]⟩
    · by_cases h3 : ts > s.last.us
      · by_cases h2 : (s.slots s.head).status = .free
        · right; right; left; exact ⟨h2, h3, _, .inr rfl, by simp [h1, h2, h3, h4]⟩
        · right; right; right; exact ⟨h1', by simpa using h4, h3, h2, by simp [h1, h2, h3, h4]⟩
      · right; left; exact ⟨h3, by simp [h1, h3, h4]⟩

def Ret.refused (q : M → Bool) : Ret M → Bool
  | .value _ _ _ => false
  | .dropped m => q m
  | .thrown m _ _ => q m

def PPc.waitsWith (q : M → Bool) : PPc M → Bool
  | .asleep m _ => q m
  | .awake m _ => q m
  | _ => false

/-- **C13/C14, accounting.** No message is lost or duplicated on the way in: for any class `q` of messages, the number of
`Publish` calls with such a message equals the number accepted plus the number refused (dropped or rejected) plus the number of
publishers still waiting with one. -/
theorem publish_accounting {c : Cfg} (q : M → Bool) {m0 : M} {n : Nat} {as : List (Act M)} {s : State M}
    (h : run c (init m0 n) as = some s) :
    published q as = s.accepted.countP (fun p => q p.1) + s.rets.countP (Ret.refused q) +
      s.pubs.countP (PPc.waitsWith q) := by
  refine run_induction (c := c) (s₀ := init m0 n) (fun as s => published q as = s.accepted.countP (fun p => q p.1) +
    s.rets.countP (Ret.refused q) + s.pubs.countP (PPc.waitsWith q)) ?_ ?_ as s h
  · simp [published, init, List.countP_replicate, PPc.waitsWith]
  · intro as s a s' _ ih hs
    have pa : published q (as ++ [a]) = published q as + (a.publishes q).toNat := by
      simp only [published, countP_snoc]
    have wset : ∀ (t : Nat) (p o : PPc M), s.pubs[t]? = some o →
        (s.pubs.set t p).countP (PPc.waitsWith q) + (o.waitsWith q).toNat =
          s.pubs.countP (PPc.waitsWith q) + (p.waitsWith q).toNat :=
      fun t p o ho => countP_set_toNat _ ho
    have wmap : ∀ l : List (PPc M), (l.map wakeP).countP (PPc.waitsWith q) = l.countP (PPc.waitsWith q) := by
      intro l
      rw [List.countP_map]
      apply List.countP_congr
      intro p _
      cases p <;> simp [wakeP, PPc.waitsWith]
    rw [pa, ih]
    cases a with
    | publish t m ts now =>
      simp only [step] at hs
      split at hs
      · rename_i ho
        injection hs with hs; subst hs
        have w1 := fun p => wset t p _ ho
        simp only [PPc.waitsWith, Bool.toNat_false, Nat.add_zero] at w1
        simp only [Act.publishes]
        rcases publish_cases c s t m ts now with ⟨_, e⟩ | ⟨_, e⟩ | ⟨_, _, us, _, e⟩ | ⟨_, _, _, _, e⟩
        · rw [e]; simp only [countP_snoc, Ret.refused]; omega
        · rw [e]; simp only [countP_snoc, Ret.refused]; omega
        · rw [e]
          have := w1 (.importing s.head m ⟨s.last.index + 1, us⟩)
          simp only [Bool.toNat_false, Nat.add_zero] at this
          simp only [State.alloc, countP_snoc, this]; omega
        · rw [e]
          have := w1 (.asleep m ts)
          simp only at this ⊢
          omega
      · simp at hs
    | spurious t =>
      simp only [step] at hs
      split at hs
      · rename_i m ts ho
        injection hs with hs; subst hs; simp only [Act.publishes, Bool.toNat_false, Nat.add_zero]
        have := wset t (.awake m ts) _ ho
        simp only [PPc.waitsWith] at this
        omega
      · simp at hs
    | resume t now =>
      simp only [step] at hs
      split at hs
      · rename_i m ts ho
        injection hs with hs; subst hs; simp only [Act.publishes, Bool.toNat_false, Nat.add_zero]
        have w1 := fun p => wset t p _ ho
        simp only [PPc.waitsWith] at w1
        simp only [State.resume]
        split
        · have := w1 .idle
          simp only [Bool.toNat_false, Nat.add_zero] at this
          simp only [countP_snoc, Ret.refused]; omega
        · split
          · have := w1 (.importing s.head m ⟨s.last.index + 1, stamp ts now⟩)
            simp only [Bool.toNat_false, Nat.add_zero] at this
            simp only [State.alloc, countP_snoc]; omega
          · have := w1 (.asleep m ts)
            simp only at this ⊢
            omega
      · simp at hs
    | write t =>
      simp only [step] at hs
      split at hs
      · rename_i i m own ho
        injection hs with hs; subst hs; simp only [Act.publishes, Bool.toNat_false, Nat.add_zero]
        have := wset t (.written i m own) _ ho
        simp only [PPc.waitsWith, Bool.toNat_false, Nat.add_zero] at this
        simp only [this, Nat.add_zero]
      · simp at hs
    | commit t =>
      simp only [step] at hs
      split at hs
      · rename_i i m own ho
        injection hs with hs; subst hs; simp only [Act.publishes, Bool.toNat_false, Nat.add_zero]
        have := wset t (.committed i m own) _ ho
        simp only [PPc.waitsWith, Bool.toNat_false, Nat.add_zero] at this
        simp only [State.notifyAll, wmap, this, Nat.add_zero]
      · simp at hs
    | ret t =>
      simp only [step] at hs
      split at hs
      · rename_i i m own ho
        injection hs with hs; subst hs; simp only [Act.publishes, Bool.toNat_false, Nat.add_zero]
        have := wset t .idle _ ho
        simp only [PPc.waitsWith, Bool.toNat_false, Nat.add_zero] at this
        simp [this, countP_snoc, Ret.refused]
      · simp at hs
    | spuriousC =>
      simp only [step] at hs
      split at hs
      · injection hs with hs; subst hs; simp [Act.publishes]
      · simp at hs
    | consume =>
      simp only [step] at hs
      split at hs
      · injection hs with hs; subst hs; simp only [Act.publishes, Bool.toNat_false, Nat.add_zero]
        simp only [State.consume]
        split
        · rfl
        · split <;> rfl
      · simp at hs
    | «export» =>
      simp only [step] at hs
      split at hs
      · injection hs with hs; subst hs; simp [Act.publishes]
      · simp at hs
    | release =>
      simp only [step] at hs
      split at hs
      · injection hs with hs; subst hs; simp [Act.publishes]
      · simp at hs
    | notify t =>
      simp only [step] at hs
      split at hs
      · split at hs
        · split at hs
          · simp at hs
          · injection hs with hs; subst hs; simp [Act.publishes]
        · split at hs
          · rename_i t' _ m ts ho
            injection hs with hs; subst hs; simp only [Act.publishes, Bool.toNat_false, Nat.add_zero]
            have := wset t' (.awake m ts) _ ho
            simp only [PPc.waitsWith] at this
            omega
          · simp at hs
      · simp at hs
    | destruct =>
      simp only [step] at hs
      split at hs
      · simp at hs
      · injection hs with hs; subst hs; simp only [Act.publishes, Bool.toNat_false, Nat.add_zero]
        simp [State.notifyAll, wmap]

/-! ## C14: capacity and the drop rule -/

/-- Messages accepted whose slot is not free again, i.e. whose delivery is not complete. -/
def State.undelivered (s : State M) : Nat := s.accepted.length - s.frees

/-- **C14 (capacity).** At most `cap` messages are undelivered at any time. -/
theorem capacity {c : Cfg} (hc : 0 < c.cap) {m0 : M} {n : Nat} {as : List (Act M)} {s : State M}
    (h : run c (init m0 n) as = some s) : s.undelivered ≤ c.cap := by
  obtain ⟨i, _, _⟩ := reachable_inv hc h
  unfold Inv at i
  have := i.le2; have := i.acc
  unfold State.undelivered; omega

/-- **C14 (drop mode).** In drop mode a call of `Publish` is dropped iff exactly `cap` messages are undelivered at that
moment; it is rejected iff there is room and the timestamp is not above the last one; else it is accepted. -/
theorem drop_rule {c : Cfg} (hc : 0 < c.cap) (hd : c.drop = true) {m0 : M} {n : Nat} {as : List (Act M)} {s s' : State M}
    (h : run c (init m0 n) as = some s) (t : Nat) (m : M) (ts now : Int)
    (hs : step c s (.publish t m ts now) = some s') :
    (s'.rets = s.rets ++ [.dropped m] ∧ s'.accepted = s.accepted ↔ s.undelivered = c.cap) ∧
    (s'.rets = s.rets ++ [.thrown m (s.last.us + 1) ts] ∧ s'.accepted = s.accepted ↔
      s.undelivered < c.cap ∧ ts ≤ s.last.us) ∧
    (s'.rets = s.rets ∧ s'.accepted = s.accepted ++ [(m, ⟨s.accepted.length + 1, ts⟩)] ↔
      s.undelivered < c.cap ∧ s.last.us < ts) := by
  obtain ⟨i, _, _⟩ := reachable_inv hc h
  have hf := head_free_iff hc i
  have hcap := capacity hc h
  unfold Inv at i
  have hroom : s.room c = c.cap - s.undelivered := by
    have := i.le1; have := i.acc
    unfold State.room State.undelivered; omega
  have ne1 : ∀ (l : List (Ret M)) (r : Ret M), ¬ l = l ++ [r] := by
    intro l r e; have := congrArg List.length e; simp at this
  have ne2 : ∀ (l : List (M × IdxTs)) (r : M × IdxTs), ¬ l = l ++ [r] := by
    intro l r e; have := congrArg List.length e; simp at this
  simp only [step] at hs
  split at hs
  · injection hs with hs; subst hs
    unfold State.publish
    rw [if_pos hd]
    by_cases hfr : (s.slots s.head).status = .free
    · have hr := hf.1 hfr
      by_cases hts : ts > s.last.us
      · rw [if_pos hfr, if_neg (by omega)]
        simp only [State.alloc, ne1, i.acc, List.append_cancel_left_eq]
        refine ⟨?_, ?_, ?_⟩
        · constructor
          · intro hh; exact hh.1.elim
          · intro hh; omega
        · constructor
          · intro hh; exact hh.1.elim
          · intro hh; omega
        · simp only [true_and]
          exact ⟨fun _ => by omega, fun _ => trivial⟩
      · rw [if_pos hfr, if_pos hts]
        simp only [List.append_cancel_left_eq, and_true]
        refine ⟨?_, ?_, ?_⟩
        · simp; omega
        · constructor
          · intro _; omega
          · intro _; trivial
        · constructor
          · intro hh; exact absurd hh.1.symm (ne1 _ _)
          · intro hh; omega
    · have hr := mt hf.2 hfr
      rw [if_neg hfr]
      simp only [List.append_cancel_left_eq, and_true]
      refine ⟨?_, ?_, ?_⟩
      · constructor
        · intro _; omega
        · intro _; trivial
      · simp; omega
      · constructor
        · intro hh; exact absurd hh.1.symm (ne1 _ _)
        · intro hh; omega
  · simp at hs

/-- **C14 (blocking mode).** Before destruction starts, no call of `Publish` is dropped. -/
theorem blocking_never_drops {c : Cfg} (hb : c.drop = false) {m0 : M} {n : Nat} {as : List (Act M)} {s : State M}
    (h : run c (init m0 n) as = some s) (hd : s.destructing = false) : ∀ m, Ret.dropped m ∉ s.rets := by
  refine run_induction (c := c) (s₀ := init m0 n)
    (fun _ s => s.destructing = false → ∀ m, Ret.dropped m ∉ s.rets) ?_ ?_ as s h hd
  · intro _ m; simp [init]
  · intro as s a s' _ ih hs hd m
    cases a with
    | publish t m' ts now =>
      simp only [step] at hs
      split at hs
      · injection hs with hs
        rcases publish_cases c s t m' ts now with ⟨hc, e⟩ | ⟨_, e⟩ | ⟨_, _, us, _, e⟩ | ⟨_, _, _, _, e⟩
        · rw [e] at hs; subst hs
          rcases hc with ⟨hc, _⟩ | ⟨_, hc⟩
          · rw [hb] at hc; simp at hc
          · simp only at hd; rw [hc] at hd; simp at hd
        · rw [e] at hs; subst hs
          have := ih hd m
          simp [this]
        · rw [e] at hs; subst hs; exact ih hd m
        · rw [e] at hs; subst hs; exact ih hd m
      · simp at hs
    | spurious t =>
      simp only [step] at hs
      split at hs
      · injection hs with hs; subst hs; exact ih hd m
      · simp at hs
    | resume t now =>
      simp only [step] at hs
      split at hs
      · injection hs with hs; subst hs
        unfold State.resume at hd ⊢
        split
        · rename_i hd'
          simp [hd'] at hd
        · rename_i hd'
          have hd' : s.destructing = false := by simpa using hd'
          split
          · exact ih hd' m
          · exact ih hd' m
      · simp at hs
    | write t =>
      simp only [step] at hs
      split at hs
      · injection hs with hs; subst hs; exact ih hd m
      · simp at hs
    | commit t =>
      simp only [step] at hs
      split at hs
      · injection hs with hs; subst hs; exact ih hd m
      · simp at hs
    | ret t =>
      simp only [step] at hs
      split at hs
      · injection hs with hs; subst hs
        have := ih hd m
        simp [this]
      · simp at hs
    | spuriousC =>
      simp only [step] at hs
      split at hs
      · injection hs with hs; subst hs; exact ih hd m
      · simp at hs
    | consume =>
      simp only [step] at hs
      split at hs
      · injection hs with hs; subst hs
        unfold State.consume at hd ⊢
        by_cases h1 : s.destructing = true
        · simp [h1] at hd
        · have h1 : s.destructing = false := by simpa using h1
          simp only [h1, Bool.false_eq_true, if_false] at hd ⊢
          split <;> exact ih h1 m
      · simp at hs
    | «export» =>
      simp only [step] at hs
      split at hs
      · injection hs with hs; subst hs; exact ih hd m
      · simp at hs
    | release =>
      simp only [step] at hs
      split at hs
      · injection hs with hs; subst hs; exact ih hd m
      · simp at hs
    | notify t =>
      simp only [step] at hs
      split at hs
      · split at hs
        · split at hs
          · simp at hs
          · injection hs with hs; subst hs; exact ih hd m
        · split at hs
          · injection hs with hs; subst hs; exact ih hd m
          · simp at hs
      · simp at hs
    | destruct =>
      simp only [step] at hs
      split at hs
      · simp at hs
      · injection hs with hs; subst hs; simp [State.notifyAll] at hd

/-! ## C15: timestamps -/

/-- How an action changes the accepted messages. -/
theorem step_accepted {c : Cfg} {s s' : State M} {a : Act M} (ha : step c s a = some s') :
    (s'.accepted = s.accepted ∧ s'.last = s.last ∧ s'.pubs.length = s.pubs.length ∧
      ∀ (t : Nat) (m : M) (ts : Int), s'.pubs[t]? = some (.asleep m ts) ∨ s'.pubs[t]? = some (.awake m ts) →
        ts > s.last.us ∨ s.pubs[t]? = some (.asleep m ts) ∨ s.pubs[t]? = some (.awake m ts)) ∨
    (∃ t m us, s' = s.alloc c t m us ∧ t < s.pubs.length ∧
      ((∃ ts now, a = .publish t m ts now ∧ ts > s.last.us ∧ (us = ts ∨ us = stamp ts now)) ∨
       (∃ ts now, a = .resume t now ∧ s.pubs[t]? = some (.awake m ts) ∧ us = stamp ts now))) := by
  have wk : ∀ (l : List (PPc M)) (t : Nat) (m : M) (ts : Int),
      (l.map wakeP)[t]? = some (.asleep m ts) ∨ (l.map wakeP)[t]? = some (.awake m ts) →
      l[t]? = some (.asleep m ts) ∨ l[t]? = some (.awake m ts) := by
    intro l t m ts hh
    simp only [List.getElem?_map, Option.map_eq_some_iff] at hh
    rcases hh with ⟨p, hp, e⟩ | ⟨p, hp, e⟩
    · cases p <;> simp [wakeP] at e
    · cases p <;> simp [wakeP] at e
      · obtain ⟨rfl, rfl⟩ := e; exact .inl hp
      · obtain ⟨rfl, rfl⟩ := e; exact .inr hp
  have st : ∀ (t : Nat) (p : PPc M), (∀ m ts, p = .asleep m ts ∨ p = .awake m ts →
        ts > s.last.us ∨ s.pubs[t]? = some (.asleep m ts) ∨ s.pubs[t]? = some (.awake m ts)) →
      ∀ (t' : Nat) (m : M) (ts : Int), (s.pubs.set t p)[t']? = some (.asleep m ts) ∨ (s.pubs.set t p)[t']? = some (.awake m ts) →
        ts > s.last.us ∨ s.pubs[t']? = some (.asleep m ts) ∨ s.pubs[t']? = some (.awake m ts) := by
    intro t p hp t' m ts hh
    rcases hh with hh | hh
    · rcases getElem?_set_eq hh with ⟨e1, e2⟩ | ⟨_, e2⟩
      · subst e1; exact hp m ts (.inl e2.symm)
      · exact .inr (.inl e2)
    · rcases getElem?_set_eq hh with ⟨e1, e2⟩ | ⟨_, e2⟩
      · subst e1; exact hp m ts (.inr e2.symm)
      · exact .inr (.inr e2)
  cases a with
  | publish t m ts now =>
    simp only [step] at ha
    split at ha
    · rename_i ho
      injection ha with ha
      rcases publish_cases c s t m ts now with ⟨_, e⟩ | ⟨_, e⟩ | ⟨_, h2, us, h3, e⟩ | ⟨_, _, h2, _, e⟩
      · rw [e] at ha; subst ha; left; exact ⟨rfl, rfl, rfl, fun t m ts hh => .inr hh⟩
      · rw [e] at ha; subst ha; left; exact ⟨rfl, rfl, rfl, fun t m ts hh => .inr hh⟩
      · rw [e] at ha; subst ha; right
        exact ⟨t, m, us, rfl, getElem?_lt ho, .inl ⟨ts, now, rfl, h2, h3⟩⟩
      · rw [e] at ha; subst ha; left
        refine ⟨rfl, rfl, by simp, st t _ ?_⟩
        intro m' ts' hh
        rcases hh with hh | hh
        · injection hh with _ e2; left; omega
        · simp at hh
    · simp at ha
  | spurious t =>
    simp only [step] at ha
    split at ha
    · rename_i m ts ho
      injection ha with ha; subst ha; left
      refine ⟨rfl, rfl, by simp, st t _ ?_⟩
      intro m' ts' hh
      rcases hh with hh | hh
      · simp at hh
      · injection hh with e1 e2; subst e1 e2; exact .inr (.inl ho)
    · simp at ha
  | resume t now =>
    simp only [step] at ha
    split at ha
    · rename_i m ts ho
      injection ha with ha; subst ha
      unfold State.resume
      split
      · left
        exact ⟨rfl, rfl, by simp, st t _ (by simp)⟩
      · split
        · right
          exact ⟨t, m, _, rfl, getElem?_lt ho, .inr ⟨ts, now, rfl, ho, rfl⟩⟩
        · left
          refine ⟨rfl, rfl, by simp, st t _ ?_⟩
          intro m' ts' hh
          rcases hh with hh | hh
          · injection hh with e1 e2; subst e1 e2; exact .inr (.inr ho)
          · simp at hh
    · simp at ha
  | write t =>
    simp only [step] at ha
    split at ha
    · injection ha with ha; subst ha; left; exact ⟨rfl, rfl, by simp, st t _ (by simp)⟩
    · simp at ha
  | commit t =>
    simp only [step] at ha
    split at ha
    · injection ha with ha; subst ha; left
      refine ⟨rfl, rfl, by simp [State.notifyAll], ?_⟩
      intro t' m' ts' hh
      exact st t _ (by simp) t' m' ts' (wk _ _ _ _ hh)
    · simp at ha
  | ret t =>
    simp only [step] at ha
    split at ha
    · injection ha with ha; subst ha; left; exact ⟨rfl, rfl, by simp, st t _ (by simp)⟩
    · simp at ha
  | spuriousC =>
    simp only [step] at ha
    split at ha
    · injection ha with ha; subst ha; left; exact ⟨rfl, rfl, rfl, fun _ _ _ hh => .inr hh⟩
    · simp at ha
  | consume =>
    simp only [step] at ha
    split at ha
    · injection ha with ha; subst ha; left
      unfold State.consume
      split
      · exact ⟨rfl, rfl, rfl, fun _ _ _ hh => .inr hh⟩
      · split <;> exact ⟨rfl, rfl, rfl, fun _ _ _ hh => .inr hh⟩
    · simp at ha
  | «export» =>
    simp only [step] at ha
    split at ha
    · injection ha with ha; subst ha; left; exact ⟨rfl, rfl, rfl, fun _ _ _ hh => .inr hh⟩
    · simp at ha
  | release =>
    simp only [step] at ha
    split at ha
    · injection ha with ha; subst ha; left; exact ⟨rfl, rfl, rfl, fun _ _ _ hh => .inr hh⟩
    · simp at ha
  | notify t =>
    simp only [step] at ha
    split at ha
    · split at ha
      · split at ha
        · simp at ha
        · injection ha with ha; subst ha; left; exact ⟨rfl, rfl, rfl, fun _ _ _ hh => .inr hh⟩
      · split at ha
        · rename_i t' _ m ts ho
          injection ha with ha; subst ha; left
          refine ⟨rfl, rfl, by simp, st t' _ ?_⟩
          intro m' ts' hh
          rcases hh with hh | hh
          · simp at hh
          · injection hh with e1 e2; subst e1 e2; exact .inr (.inl ho)
        · simp at ha
    · simp at ha
  | destruct =>
    simp only [step] at ha
    split at ha
    · simp at ha
    · injection ha with ha; subst ha; left
      exact ⟨rfl, rfl, by simp [State.notifyAll], fun t' m' ts' hh => .inr (wk _ _ _ _ hh)⟩

/-- The timestamps of the accepted messages strictly increase and end with the last one. -/
def Increasing (s : State M) : Prop :=
  (s.accepted.map (·.2.us)).Pairwise (· < ·) ∧ ∀ p ∈ s.accepted, p.2.us ≤ s.last.us

theorem Increasing.alloc {c : Cfg} {s : State M} (h : Increasing s) {t : Nat} {m : M} {us : Int} (hus : us > s.last.us) :
    Increasing (s.alloc c t m us) := by
  obtain ⟨h1, h2⟩ := h
  simp only [Increasing, State.alloc, List.map_append, List.pairwise_append]
  refine ⟨⟨h1, by simp, ?_⟩, ?_⟩
  · intro a ha b hb
    simp at hb
    simp only [List.mem_map] at ha
    obtain ⟨p, hp, rfl⟩ := ha
    have := h2 p hp
    omega
  · intro p hp
    simp only [List.mem_append, List.mem_singleton] at hp
    rcases hp with hp | rfl
    · have := h2 p hp; omega
    · simp

/-- From accepted to delivered. -/
theorem delivered_increasing {c : Cfg} (hc : 0 < c.cap) {m0 : M} {n : Nat} {as : List (Act M)} {s : State M}
    (h : run c (init m0 n) as = some s) (hi : Increasing s) : (s.delivered.map (·.2.1.us)).Pairwise (· < ·) := by
  have := (delivery_is_fifo_exactly_once hc h).1
  have e : s.delivered.map (·.2.1.us) = ((s.accepted.map (·.2.us)).take s.delivered.length) := by
    have := congrArg (List.map (fun p : M × IdxTs => p.2.us)) this
    simp only [List.map_map, List.map_take] at this
    exact this
  rw [e]
  exact List.Pairwise.sublist (List.take_sublist _ _) hi.1

/-- **C15, drop mode.** For every schedule the timestamps passed to the consumer strictly increase. -/
theorem drop_mode_timestamps_increase {c : Cfg} (hc : 0 < c.cap) (hd : c.drop = true) {m0 : M} {n : Nat}
    {as : List (Act M)} {s : State M} (h : run c (init m0 n) as = some s) :
    (s.delivered.map (·.2.1.us)).Pairwise (· < ·) := by
  refine delivered_increasing hc h ?_
  refine run_induction (c := c) (s₀ := init m0 n) (fun _ s => Increasing s) ?_ ?_ as s h
  · simp [Increasing, init]
  · intro as s a s' hr ih hs
    obtain ⟨i, _, w⟩ := reachable_inv hc hr
    unfold Inv at i
    rcases step_accepted hs with ⟨e1, e2, _⟩ | ⟨t, m, us, e, _, hh⟩
    · unfold Increasing at ih ⊢; rw [e1, e2]; exact ih
    · rw [e]
      refine ih.alloc ?_
      rcases hh with ⟨ts, now, _, h2, h3 | h3⟩ | ⟨ts, now, _, h2, _⟩
      · omega
      · rw [stamp_of_gt i.us.1 h2] at h3; omega
      · have := (w.noWait hd).2
        unfold State.awake at this
        rw [List.countP_eq_zero] at this
        have := this _ (List.mem_of_getElem? h2)
        simp [PPc.isAwake] at this

/-- **C15, blocking mode, partial.** With a single publisher thread the timestamps passed to the consumer strictly increase.
Missing: several publishers – false, see `blocking_mode_timestamps_can_decrease`. -/
theorem blocking_mode_timestamps_increase_partial {c : Cfg} (hc : 0 < c.cap) {m0 : M}
    {as : List (Act M)} {s : State M} (h : run c (init m0 1) as = some s) :
    (s.delivered.map (·.2.1.us)).Pairwise (· < ·) := by
  refine delivered_increasing hc h ?_
  have key := run_induction (c := c) (s₀ := init m0 1) (fun _ s => Increasing s ∧ s.pubs.length = 1 ∧
    ∀ (t : Nat) (m : M) (ts : Int), s.pubs[t]? = some (.asleep m ts) ∨ s.pubs[t]? = some (.awake m ts) → ts > s.last.us) ?_ ?_
    as s h
  · exact key.1
  · refine ⟨by simp [Increasing, init], by simp [init], ?_⟩
    intro t m ts hh
    simp only [init, List.getElem?_replicate] at hh
    rcases hh with hh | hh <;> split at hh <;> simp at hh
  · intro as s a s' hr ⟨ih, hlen, hw⟩ hs
    obtain ⟨i, _, w⟩ := reachable_inv hc hr
    unfold Inv at i
    rcases step_accepted hs with ⟨e1, e2, e3, e4⟩ | ⟨t, m, us, e, hlt, hh⟩
    · refine ⟨by unfold Increasing at ih ⊢; rw [e1, e2]; exact ih, by omega, ?_⟩
      intro t m ts hh
      rw [e2]
      rcases e4 t m ts hh with h1 | h1
      · exact h1
      · exact hw t m ts h1
    · have hus : us > s.last.us := by
        rcases hh with ⟨ts, now, _, h2, h3 | h3⟩ | ⟨ts, now, _, h2, h3⟩
        · omega
        · rw [stamp_of_gt i.us.1 h2] at h3; omega
        · have := hw t m ts (.inr h2)
          rw [stamp_of_gt i.us.1 this] at h3; omega
      rw [e]
      refine ⟨ih.alloc hus, by simp [State.alloc, hlen], ?_⟩
      intro t' m' ts' hh'
      exfalso
      have h0 : t = 0 := by omega
      simp only [State.alloc] at hh'
      rcases hh' with hh' | hh'
      · rcases getElem?_set_eq hh' with ⟨_, e2⟩ | ⟨e1, e2⟩
        · simp at e2
        · have := getElem?_lt e2; omega
      · rcases getElem?_set_eq hh' with ⟨_, e2⟩ | ⟨e1, e2⟩
        · simp at e2
        · have := getElem?_lt e2; omega

/-- One complete delivery by the consumer, with nobody waiting. -/
def deliverOne : List (Act M) := [.consume, .export, .release, .notify none]

/-- **C15 is false in blocking mode with two publishers.** The buffer has one slot. Both publishers pass the timestamp check while the
queue is full, with timestamps 20 and 10; the one with 20 gets the slot first. -/
theorem blocking_mode_timestamps_can_decrease :
    ∃ (as : List (Act Nat)) (s : State Nat), run ⟨1, false⟩ (init 0 2) as = some s ∧
      s.delivered.map (fun d => (d.1, d.2.1)) = [(100, ⟨1, 1⟩), (200, ⟨2, 20⟩), (300, ⟨3, 10⟩)] :=
  ⟨[.publish 0 100 1 0, .write 0, .commit 0, .ret 0, .publish 0 200 20 0, .publish 1 300 10 0, .consume, .export, .release,
    .notify (some 0), .resume 0 0, .write 0, .commit 0, .resume 1 0, .consume, .export, .release, .notify (some 1),
    .resume 1 0, .write 1, .commit 1, .consume, .export], _, rfl, rfl⟩

/-! ## C16: destruction -/

/-- **C16, what the code does instead.** Once the destructor has started, the consumer is called at most once more, however many
accepted messages are queued. -/
theorem destruction_delivers_at_most_one {c : Cfg} {s s' : State M} {as : List (Act M)} (hd : s.destructing = true)
    (h : run c s as = some s') : s'.destructing = true ∧ s.delivered <+: s'.delivered ∧
      s'.delivered.length ≤ s.delivered.length + 1 := by
  have aux : ∀ (as : List (Act M)) (s s' : State M), run c s as = some s' → s.destructing = true →
      s'.destructing = true ∧ s.delivered <+: s'.delivered ∧
        s'.delivered.length + (if s'.cons.stage = 1 then 1 else 0) ≤ s.delivered.length + (if s.cons.stage = 1 then 1 else 0) := by
    intro as
    induction as with
    | nil => intro s s' h hd; simp only [run] at h; injection h with h; subst h; exact ⟨hd, List.prefix_refl _, Nat.le_refl _⟩
    | cons a as ih =>
      intro s s' h hd
      simp only [run] at h
      split at h
      · rename_i s₁ hs
        have hstep : s₁.destructing = true ∧ s.delivered <+: s₁.delivered ∧
            s₁.delivered.length + (if s₁.cons.stage = 1 then 1 else 0) ≤
              s.delivered.length + (if s.cons.stage = 1 then 1 else 0) := by
          have same : ∀ s₁ : State M, s₁.destructing = true → s₁.delivered = s.delivered → s₁.cons.stage = s.cons.stage →
              s₁.destructing = true ∧ s.delivered <+: s₁.delivered ∧
              s₁.delivered.length + (if s₁.cons.stage = 1 then 1 else 0) ≤
                s.delivered.length + (if s.cons.stage = 1 then 1 else 0) := by
            intro s₁ h1 h2 h3
            exact ⟨h1, by rw [h2]; exact List.prefix_refl _, by rw [h2, h3]; exact Nat.le_refl _⟩
          have less : ∀ s₁ : State M, s₁.destructing = true → s₁.delivered = s.delivered → s₁.cons.stage = 0 →
              s₁.destructing = true ∧ s.delivered <+: s₁.delivered ∧
              s₁.delivered.length + (if s₁.cons.stage = 1 then 1 else 0) ≤
                s.delivered.length + (if s.cons.stage = 1 then 1 else 0) := by
            intro s₁ h1 h2 h3
            exact ⟨h1, by rw [h2]; exact List.prefix_refl _, by rw [h2, h3]; simp⟩
          cases a with
          | publish t m ts now =>
            simp only [step] at hs
            split at hs
            · injection hs with hs
              rcases publish_cases c s t m ts now with ⟨_, e⟩ | ⟨_, e⟩ | ⟨_, _, us, _, e⟩ | ⟨_, h2, _, _, e⟩
              · rw [e] at hs; subst hs; exact same _ hd rfl rfl
              · rw [e] at hs; subst hs; exact same _ hd rfl rfl
              · rw [e] at hs; subst hs; exact same _ hd rfl rfl
              · rw [hd] at h2; simp at h2
            · simp at hs
          | spurious t =>
            simp only [step] at hs
            split at hs
            · injection hs with hs; subst hs; exact same _ hd rfl rfl
            · simp at hs
          | resume t now =>
            simp only [step] at hs
            split at hs
            · injection hs with hs; subst hs
              unfold State.resume
              rw [if_pos hd]; exact same _ hd rfl rfl
            · simp at hs
          | write t =>
            simp only [step] at hs
            split at hs
            · injection hs with hs; subst hs; exact same _ hd rfl rfl
            · simp at hs
          | commit t =>
            simp only [step] at hs
            split at hs
            · injection hs with hs; subst hs; exact same _ hd rfl (stage_wakeC _)
            · simp at hs
          | ret t =>
            simp only [step] at hs
            split at hs
            · injection hs with hs; subst hs; exact same _ hd rfl rfl
            · simp at hs
          | spuriousC =>
            simp only [step] at hs
            split at hs
            · injection hs with hs; subst hs; exact less _ hd rfl rfl
            · simp at hs
          | consume =>
            simp only [step] at hs
            split at hs
            · injection hs with hs; subst hs
              unfold State.consume
              rw [if_pos hd]; exact less _ hd rfl rfl
            · simp at hs
          | «export» =>
            simp only [step] at hs
            split at hs
            · rename_i hcs
              injection hs with hs; subst hs
              refine ⟨hd, List.prefix_append _ _, ?_⟩
              simp [hcs, CPc.stage]
            · simp at hs
          | release =>
            simp only [step] at hs
            split at hs
            · injection hs with hs; subst hs; exact less _ hd rfl rfl
            · simp at hs
          | notify t =>
            simp only [step] at hs
            split at hs
            · split at hs
              · split at hs
                · simp at hs
                · injection hs with hs; subst hs; exact less _ hd rfl rfl
              · split at hs
                · injection hs with hs; subst hs; exact less _ hd rfl rfl
                · simp at hs
            · simp at hs
          | destruct =>
            simp only [step] at hs
            rw [if_pos hd] at hs; simp at hs
        obtain ⟨a1, a2, a3⟩ := hstep
        obtain ⟨b1, b2, b3⟩ := ih s₁ s' h a1
        exact ⟨b1, a2.trans b2, by omega⟩
      · simp at h
  obtain ⟨h1, h2, h3⟩ := aux as s s' h hd
  refine ⟨h1, h2, ?_⟩
  have : (if s.cons.stage = 1 then 1 else 0) ≤ 1 := by split <;> omega
  omega

/-- **C16 is false.** Three messages were published (the calls returned indexes 1, 2, 3), then the queue is destroyed: the consumer
thread terminates without being called at all. -/
theorem destruction_loses_accepted_messages :
    ∃ (as : List (Act Nat)) (s : State Nat), run ⟨8, false⟩ (init 0 1) (as ++ [.destruct, .consume]) = some s ∧
      s.rets = [.value 100 ⟨1, 1⟩ ⟨1, 1⟩, .value 200 ⟨2, 2⟩ ⟨2, 2⟩, .value 300 ⟨3, 3⟩ ⟨3, 3⟩] ∧
      s.cons = .terminated ∧ s.delivered = [] :=
  ⟨[.publish 0 100 1 0, .write 0, .commit 0, .ret 0, .publish 0 200 2 0, .write 0, .commit 0, .ret 0,
    .publish 0 300 3 0, .write 0, .commit 0, .ret 0], _, rfl, rfl, rfl, rfl⟩

/-! ## C45: the value returned by `Publish` -/

/-- **C45, partial.** `Publish` returns the index and timestamp of some accepted message that sat in the same slot: its own, or one
accepted later by a multiple of the buffer size.
Missing: "its own": false, see `publish_can_return_anothers_index`. -/
theorem publish_return_partial {c : Cfg} (hc : 0 < c.cap) {m0 : M} {n : Nat} {as : List (Act M)} {s : State M}
    (h : run c (init m0 n) as = some s) (m : M) (own r : IdxTs) (hr : Ret.value m own r ∈ s.rets) :
    (m, own) ∈ s.accepted ∧ own.index ≤ r.index ∧ own.index % c.cap = r.index % c.cap ∧ ∃ m', (m', r) ∈ s.accepted := by
  have mono : ∀ {s s' : State M} {a : Act M}, step c s a = some s' → ∀ p, p ∈ s.accepted → p ∈ s'.accepted := by
    intro s s' a hs p hp
    rcases step_accepted hs with ⟨e1, _⟩ | ⟨t, m, us, e, _⟩
    · rw [e1]; exact hp
    · rw [e]; simp [State.alloc, hp]
  refine run_induction (c := c) (s₀ := init m0 n) (fun _ s => ∀ m own r, Ret.value m own r ∈ s.rets →
    (m, own) ∈ s.accepted ∧ own.index ≤ r.index ∧ own.index % c.cap = r.index % c.cap ∧ ∃ m', (m', r) ∈ s.accepted)
    ?_ ?_ as s h m own r hr
  · intro m own r hr; simp [init] at hr
  · intro as s a s' hrun ih hs m own r hr
    obtain ⟨i, _, _⟩ := reachable_inv hc hrun
    unfold Inv at i
    have old : Ret.value m own r ∈ s.rets → (m, own) ∈ s'.accepted ∧ own.index ≤ r.index ∧
        own.index % c.cap = r.index % c.cap ∧ ∃ m', (m', r) ∈ s'.accepted := by
      intro hr
      obtain ⟨h1, h2, h3, m', h4⟩ := ih m own r hr
      exact ⟨mono hs _ h1, h2, h3, m', mono hs _ h4⟩
    cases a with
    | publish t m ts now =>
      simp only [step] at hs
      split at hs
      · injection hs with hs
        apply old
        rcases publish_cases c s t m ts now with ⟨_, e⟩ | ⟨_, e⟩ | ⟨_, _, us, _, e⟩ | ⟨_, h2, _, _, e⟩
        · rw [e] at hs; subst hs; simpa using hr
        · rw [e] at hs; subst hs; simpa using hr
        · rw [e] at hs; subst hs; exact hr
        · rw [e] at hs; subst hs; exact hr
      · simp at hs
    | spurious t =>
      simp only [step] at hs
      split at hs
      · injection hs with hs; subst hs; exact old hr
      · simp at hs
    | resume t now =>
      simp only [step] at hs
      split at hs
      · injection hs with hs
        apply old
        subst hs
        unfold State.resume at hr
        by_cases h1 : s.destructing = true
        · simp only [h1, if_true] at hr; simpa using hr
        · by_cases h2 : (s.slots s.head).status = .free
          · simp only [h1, h2, if_true] at hr; exact hr
          · simp only [h1, h2, if_false] at hr; exact hr
      · simp at hs
    | write t =>
      simp only [step] at hs
      split at hs
      · injection hs with hs; subst hs; exact old hr
      · simp at hs
    | commit t =>
      simp only [step] at hs
      split at hs
      · injection hs with hs; subst hs; exact old hr
      · simp at hs
    | ret t =>
      simp only [step] at hs
      split at hs
      · rename_i j m₁ own₁ ho
        injection hs with hs
        have hr' := hr
        rw [← hs] at hr'
        simp only [List.mem_append, List.mem_singleton] at hr'
        rcases hr' with hr' | hr'
        · exact old hr'
        · injection hr' with e1 e2 e3
          subst e1 e2
          obtain ⟨k, k1, k2, k3⟩ := i.com t j m own (by rw [hold_of ho]; rfl)
          have hown := i.idx k _ k1
          simp only at hown
          have hne : (s.slots j).idx ≠ ⟨0, 0⟩ := by
            intro e; rw [e] at k3; simp at k3; omega
          obtain ⟨k', p, q1, q2, q3⟩ := i.vis j hne
          have hp := i.idx k' p q1
          rw [e3]
          refine ⟨?_, k3, ?_, p.1, ?_⟩
          · rw [← hs]; exact List.mem_of_getElem? k1
          · rw [q2, hp, hown, Nat.add_mod, Nat.add_mod k', q3, ← k2]
          · rw [← hs, q2]; exact List.mem_of_getElem? q1
      · simp at hs
    | spuriousC =>
      simp only [step] at hs
      split at hs
      · injection hs with hs; subst hs; exact old hr
      · simp at hs
    | consume =>
      simp only [step] at hs
      split at hs
      · injection hs with hs; subst hs
        apply old
        unfold State.consume at hr
        by_cases h1 : s.destructing = true
        · simp only [h1, if_true] at hr; exact hr
        · by_cases h2 : (s.slots s.tail).status = .ready
          · simp only [h1, h2, if_true] at hr; exact hr
          · simp only [h1, h2, if_false] at hr; exact hr
      · simp at hs
    | «export» =>
      simp only [step] at hs
      split at hs
      · injection hs with hs; subst hs; exact old hr
      · simp at hs
    | release =>
      simp only [step] at hs
      split at hs
      · injection hs with hs; subst hs; exact old hr
      · simp at hs
    | notify t =>
      simp only [step] at hs
      split at hs
      · split at hs
        · split at hs
          · simp at hs
          · injection hs with hs; subst hs; exact old hr
        · split at hs
          · injection hs with hs; subst hs; exact old hr
          · simp at hs
      · simp at hs
    | destruct =>
      simp only [step] at hs
      split at hs
      · simp at hs
      · injection hs with hs; subst hs; exact old hr

/-- **C45 is false.** Line 108 reads the slot after the commit and outside the mutex: here the message was consumed and the slot
reused before the first publisher got to return, so it returns the other message's index and timestamp. -/
theorem publish_can_return_anothers_index :
    ∃ (as : List (Act Nat)) (s : State Nat), run ⟨1, false⟩ (init 0 2) as = some s ∧
      s.rets = [.value 100 ⟨1, 1⟩ ⟨2, 2⟩] ∧ s.delivered.map (fun d => (d.1, d.2.1)) = [(100, ⟨1, 1⟩)] :=
  ⟨[.publish 0 100 1 0, .write 0, .commit 0] ++ deliverOne ++ [.publish 1 200 2 0, .ret 0], _, rfl, rfl, rfl⟩

end Current.MMQ
