import Verif.Profiler.Profiler

/-!
# What the profiler should report, and what a call does to a trie
-/

set_option linter.unusedSimpArgs false

namespace Current.Profiler

/-! ## The specification, in terms of what happened and when -/

/-- What can happen to a thread, with the time. -/
inductive Ev where
  | enter (k : Key) (at_ : Nat)
  | leave (at_ : Nat)
  | reset (at_ : Nat)

/-- The time of an event. -/
def Ev.time : Ev → Nat
  | .enter _ t => t
  | .leave t => t
  | .reset t => t

/-- The time of the last event (events are listed newest first). -/
def lastTime : List Ev → Nat
  | [] => 0
  | e :: _ => e.time

/-- The scopes the thread is in, innermost first. -/
def opened : List Ev → List Key
  | [] => []
  | .enter k _ :: h => k :: opened h
  | .leave _ :: h => (opened h).tail
  | .reset _ :: h => opened h

/-- The thread is in the scope reached by entering the scopes of `p` one inside the other. -/
def inside (h : List Ev) (p : List Key) : Bool := p.isPrefixOf (opened h).reverse

/-- The scope has been entered. -/
def known : List Ev → List Key → Bool
  | [], _ => false
  | .enter k _ :: h, p => p == (opened h).reverse ++ [k] || known h p
  | .leave _ :: h, p => known h p
  | .reset _ :: h, p => known h p

/-- The number of visits to the scope since the last reset; a visit in progress at the reset
counts. -/
def visits : List Ev → List Key → Nat
  | [], _ => 0
  | .enter k _ :: h, p => visits h p + if p = (opened h).reverse ++ [k] then 1 else 0
  | .leave _ :: h, p => visits h p
  | .reset _ :: h, p => if inside h p then 1 else 0

/-- The time spent inside the scope from the last reset to the last event. -/
def spent : List Ev → List Key → Nat
  | [], _ => 0
  | .reset _ :: _, _ => 0
  | e :: h, p => spent h p + if inside h p then e.time - lastTime h else 0

/-- The time spent inside the scope from the last reset until `now`. -/
def spentUntil (h : List Ev) (p : List Key) (now : Nat) : Nat :=
  spent h p + if inside h p then now - lastTime h else 0

/-- The scope was known and was not being visited at the last reset. -/
def idleAtReset : List Ev → List Key → Bool
  | [], _ => false
  | .enter _ _ :: h, p => idleAtReset h p
  | .leave _ :: h, p => idleAtReset h p
  | .reset _ :: h, p => known h p && !inside h p

/-- The history of one thread in a sequence of calls (newest first). -/
def hist : List Act → Tid → List Ev
  | [], _ => []
  | .enter t' k _ post _ _ :: as, t => if t' = t then .enter k post :: hist as t else hist as t
  | .leave t' _ post _ _ :: as, t => if t' = t then .leave post :: hist as t else hist as t
  | .reset _ _ _ crt at_ fin :: as, t => .reset (resetTime crt fin at_ t) :: hist as t
  | .report .. :: as, t => hist as t

/-- The state after a sequence of calls (newest first). -/
def run : List Act → Option State
  | [] => some State.init
  | a :: as => (run as).bind (step · a)

/-! ## Pointers -/

theorem find_nil_path (f : Forest) : f.find [] = none := by cases f <;> rfl

theorem find_enterChild (f : Forest) (k : Key) (now : Nat) (q : List Key) :
    (f.enterChild k now).find q =
      if q = [k] then
        some { entered := now, total := ((f.find [k]).map (·.total)).getD 0,
               entries := ((f.find [k]).map (·.entries)).getD 0 + 1 }
      else f.find q := by
  induction f with
  | nil =>
    cases q with
    | nil => simp [Forest.enterChild, Forest.find]
    | cons a q =>
      cases q <;> simp [Forest.enterChild, Forest.find] <;> grind
  | cons k' n kids rest ih1 ih2 =>
    cases q with
    | nil => simp [Forest.enterChild, find_nil_path]
    | cons a q =>
      cases q <;> simp only [Forest.enterChild] <;> grind [Forest.find]

/-- A pointer is valid: it points to a node. -/
def Valid (f : Forest) (p : List Key) : Prop := p = [] ∨ (f.find p).isSome

theorem find_enter (f : Forest) (p : List Key) (k : Key) (now : Nat) (q : List Key)
    (hv : Valid f p) :
    (f.enter p k now).find q =
      if q = p ++ [k] then
        some { entered := now, total := ((f.find (p ++ [k])).map (·.total)).getD 0,
               entries := ((f.find (p ++ [k])).map (·.entries)).getD 0 + 1 }
      else f.find q := by
  induction f generalizing p q with
  | nil =>
    cases p with
    | nil => simpa [Forest.enter] using find_enterChild .nil k now q
    | cons a p => simp [Valid, Forest.find] at hv
  | cons k' n kids rest ih1 ih2 =>
    cases p with
    | nil => simpa [Forest.enter] using find_enterChild (.cons k' n kids rest) k now q
    | cons a p =>
      simp only [Forest.enter]
      by_cases hk : k' = a
      · subst hk
        have hv' : Valid kids p := by
          cases p <;> simp_all [Valid, Forest.find]
        have h1 := ih1 p
        cases q with
        | nil => simp [find_nil_path]
        | cons b q =>
          by_cases hb : k' = b
          · subst hb
            cases q with
            | nil => simp [Forest.find]
            | cons c q =>
              have := h1 (c :: q) hv'
              simp only [Forest.find, if_true, List.cons_append, List.cons.injEq, true_and]
              cases p <;> simp_all [Forest.find]
          · have : ¬ (b = k') := fun h => hb h.symm
            simp [Forest.find, hb, this]
      · have hv' : Valid rest (a :: p) := by
          simp_all [Valid, Forest.find]
        have h2 := ih2 (a :: p) q hv'
        simp only [if_neg hk]
        cases q with
        | nil => simp [find_nil_path]
        | cons b q =>
          by_cases hb : k' = b
          · subst hb
            simp [Forest.find, hk]
          · simp only [Forest.find, if_neg hb, if_neg hk, List.cons_append] at h2 ⊢
            exact h2

theorem find_leave (f : Forest) (p : List Key) (now : Nat) (q : List Key) :
    (f.leave p now).find q =
      if q = p then (f.find q).map (·.leave now) else f.find q := by
  induction f generalizing p q with
  | nil => cases p <;> cases q <;> simp [Forest.leave, Forest.find]
  | cons k' n kids rest ih1 ih2 =>
    cases p with
    | nil => cases q <;> simp [Forest.leave, Forest.find]
    | cons a p =>
      cases q with
      | nil => simp [find_nil_path]
      | cons b q =>
        simp only [Forest.leave]
        by_cases hk : k' = a
        · subst hk
          cases p with
          | nil =>
            by_cases hb : k' = b
            · subst hb; cases q <;> simp [Forest.find]
            · have : ¬ (b = k') := fun h => hb h.symm
              simp [Forest.find, hb, this]
          | cons a' p =>
            have h1 := ih1 (a' :: p)
            by_cases hb : k' = b
            · subst hb
              cases q with
              | nil => simp [Forest.find]
              | cons c q => simpa [Forest.find] using h1 (c :: q)
            · have : ¬ (b = k') := fun h => hb h.symm
              simp [Forest.find, hb, this]
        · have h2 := ih2 (a :: p) (b :: q)
          simp only [if_neg hk]
          by_cases hb : k' = b
          · subst hb; simp [Forest.find, hk]
          · simp only [Forest.find, if_neg hb]; exact h2

theorem find_reset (f : Forest) (now : Nat) (q : List Key) :
    (f.reset now).find q = (f.find q).map (·.reset now) := by
  induction f generalizing q with
  | nil => simp [Forest.reset, Forest.find]
  | cons k' n kids rest ih1 ih2 =>
    cases q with
    | nil => simp [Forest.reset, Forest.find]
    | cons b q =>
      simp only [Forest.reset, Forest.find]
      split
      · cases q <;> simp [ih1]
      · exact ih2 _

/-! ## Names of siblings are distinct -/

/-- The names of the siblings at the top. -/
def Forest.names : Forest → List Key
  | .nil => []
  | .cons k _ _ rest => k :: rest.names

/-- At every level the names are distinct. -/
def Forest.Distinct : Forest → Prop
  | .nil => True
  | .cons k _ kids rest => k ∉ rest.names ∧ kids.Distinct ∧ rest.Distinct

theorem names_enterChild (f : Forest) (k : Key) (now : Nat) (x : Key) :
    x ∈ (f.enterChild k now).names ↔ x ∈ f.names ∨ x = k := by
  induction f with
  | nil => simp [Forest.enterChild, Forest.names]
  | cons k' n kids rest _ ih =>
    simp only [Forest.enterChild]
    split <;> simp only [Forest.names, List.mem_cons] <;> grind

theorem distinct_enterChild (f : Forest) (k : Key) (now : Nat) (h : f.Distinct) :
    (f.enterChild k now).Distinct := by
  induction f with
  | nil => simp [Forest.enterChild, Forest.Distinct, Forest.names]
  | cons k' n kids rest _ ih =>
    obtain ⟨h1, h2, h3⟩ := h
    simp only [Forest.enterChild]
    split
    · exact ⟨h1, h2, h3⟩
    · rename_i hne
      refine ⟨?_, h2, ih h3⟩
      rw [names_enterChild]; grind

theorem names_enter_cons (f : Forest) (a : Key) (p : List Key) (k : Key) (now : Nat) :
    (f.enter (a :: p) k now).names = f.names := by
  induction f with
  | nil => rfl
  | cons k' n kids rest _ ih =>
    simp only [Forest.enter]
    split <;> simp [Forest.names, ih]

theorem distinct_enter (f : Forest) (p : List Key) (k : Key) (now : Nat) (h : f.Distinct) :
    (f.enter p k now).Distinct := by
  induction f generalizing p with
  | nil =>
    cases p with
    | nil => simpa [Forest.enter] using distinct_enterChild .nil k now h
    | cons => simp [Forest.enter, Forest.Distinct]
  | cons k' n kids rest ih1 ih2 =>
    cases p with
    | nil => simpa [Forest.enter] using distinct_enterChild _ k now h
    | cons a p =>
      obtain ⟨h1, h2, h3⟩ := h
      simp only [Forest.enter]
      split
      · exact ⟨h1, ih1 p h2, h3⟩
      · refine ⟨?_, h2, ih2 _ h3⟩
        rw [names_enter_cons]; exact h1

theorem names_leave (f : Forest) (p : List Key) (now : Nat) : (f.leave p now).names = f.names := by
  induction f with
  | nil => cases p <;> rfl
  | cons k' n kids rest _ ih =>
    cases p with
    | nil => rfl
    | cons a p =>
      simp only [Forest.leave]
      split
      · cases p <;> simp [Forest.names]
      · simp [Forest.names, ih]

theorem distinct_leave (f : Forest) (p : List Key) (now : Nat) (h : f.Distinct) :
    (f.leave p now).Distinct := by
  induction f generalizing p with
  | nil => cases p <;> exact h
  | cons k' n kids rest ih1 ih2 =>
    cases p with
    | nil => exact h
    | cons a p =>
      obtain ⟨h1, h2, h3⟩ := h
      simp only [Forest.leave]
      split
      · cases p with
        | nil => exact ⟨h1, h2, h3⟩
        | cons => exact ⟨h1, ih1 _ h2, h3⟩
      · refine ⟨?_, h2, ih2 _ h3⟩
        rw [names_leave]; exact h1

theorem names_reset (f : Forest) (now : Nat) : (f.reset now).names = f.names := by
  induction f with
  | nil => rfl
  | cons k' n kids rest _ ih => simp [Forest.reset, Forest.names, ih]

theorem distinct_reset (f : Forest) (now : Nat) (h : f.Distinct) : (f.reset now).Distinct := by
  induction f with
  | nil => trivial
  | cons k' n kids rest ih1 ih2 =>
    obtain ⟨h1, h2, h3⟩ := h
    exact ⟨by rw [names_reset]; exact h1, ih1 h2, ih2 h3⟩

/-! ## The report shows the trie -/

/-- What a report says about a scope: the number of entries and the time. -/
def Report.look : Report → List Key → Option (Nat × Nat)
  | .nil, _ => none
  | .cons _ _ _ _ _, [] => none
  | .cons k e us sub rest, p :: ps =>
    if k = p then
      match ps with
      | [] => some (e, us)
      | _ :: _ => sub.look ps
    else rest.look (p :: ps)

/-- The names at the top of a report. -/
def Report.names : Report → List Key
  | .nil => []
  | .cons k _ _ _ rest => k :: rest.names

/-- The times at the top of a report. -/
def Report.times : Report → List Nat
  | .nil => []
  | .cons _ _ us _ rest => us :: rest.times

/-- At every level: the longest time first, no name twice. -/
def Report.Tidy : Report → Prop
  | .nil => True
  | .cons k _ us sub rest =>
    (∀ v ∈ rest.times, v ≤ us) ∧ k ∉ rest.names ∧ sub.Tidy ∧ rest.Tidy

theorem look_nil_path (r : Report) : r.look [] = none := by cases r <;> rfl

theorem names_insert (r : Report) (k : Key) (e us : Nat) (sub : Report) (x : Key) :
    x ∈ (r.insert k e us sub).names ↔ x = k ∨ x ∈ r.names := by
  induction r with
  | nil => simp [Report.insert, Report.names]
  | cons k' e' us' sub' rest _ ih =>
    simp only [Report.insert]
    split <;> simp only [Report.names, List.mem_cons] <;> grind

theorem times_insert (r : Report) (k : Key) (e us : Nat) (sub : Report) (x : Nat) :
    x ∈ (r.insert k e us sub).times ↔ x = us ∨ x ∈ r.times := by
  induction r with
  | nil => simp [Report.insert, Report.times]
  | cons k' e' us' sub' rest _ ih =>
    simp only [Report.insert]
    split <;> simp only [Report.times, List.mem_cons] <;> grind

theorem look_insert (r : Report) (k : Key) (e us : Nat) (sub : Report) (hk : k ∉ r.names)
    (q : List Key) :
    (r.insert k e us sub).look q = (Report.cons k e us sub r).look q := by
  induction r with
  | nil => rfl
  | cons k' e' us' sub' rest _ ih =>
    simp only [Report.insert]
    split
    · rfl
    · simp only [Report.names, List.mem_cons, not_or] at hk
      have := ih hk.2
      cases q with
      | nil => simp [Report.look]
      | cons b q =>
        simp only [Report.look] at this ⊢
        rw [this]
        grind

theorem names_fill (f : Forest) (now : Nat) (x : Key) : x ∈ (f.fill now).names ↔ x ∈ f.names := by
  induction f with
  | nil => simp [Forest.fill, Report.names, Forest.names]
  | cons k n kids rest _ ih => simp [Forest.fill, names_insert, Forest.names, ih]

theorem look_fill (f : Forest) (now : Nat) (hd : f.Distinct) (q : List Key) :
    (f.fill now).look q = (f.find q).map (fun n => (n.entries, n.compute now)) := by
  induction f generalizing q with
  | nil => simp [Forest.fill, Report.look, Forest.find]
  | cons k n kids rest ih1 ih2 =>
    obtain ⟨h1, h2, h3⟩ := hd
    simp only [Forest.fill]
    rw [look_insert _ _ _ _ _ (by rw [names_fill]; exact h1)]
    cases q with
    | nil => simp [Report.look, Forest.find]
    | cons b q =>
      simp only [Report.look, Forest.find]
      split
      · cases q <;> simp [ih1 h2]
      · exact ih2 h3 _

theorem tidy_insert (r : Report) (k : Key) (e us : Nat) (sub : Report) (hk : k ∉ r.names)
    (hs : sub.Tidy) (hr : r.Tidy) : (r.insert k e us sub).Tidy := by
  induction r with
  | nil => simp [Report.insert, Report.Tidy, Report.times, Report.names, hs]
  | cons k' e' us' sub' rest _ ih =>
    simp only [Report.names, List.mem_cons, not_or] at hk
    obtain ⟨a, b, c, d⟩ := hr
    simp only [Report.insert]
    split
    · refine ⟨?_, ?_, hs, a, b, c, d⟩
      · intro v hv
        simp only [Report.times, List.mem_cons] at hv
        rcases hv with rfl | hv
        · assumption
        · have := a v hv; omega
      · simp only [Report.names, List.mem_cons, not_or]; exact hk
    · refine ⟨?_, ?_, c, ih hk.2 d⟩
      · intro v hv
        rw [times_insert] at hv
        rcases hv with rfl | hv
        · omega
        · exact a v hv
      · rw [names_insert]; grind

theorem tidy_fill (f : Forest) (now : Nat) (hd : f.Distinct) : (f.fill now).Tidy := by
  induction f with
  | nil => trivial
  | cons k n kids rest ih1 ih2 =>
    obtain ⟨h1, h2, h3⟩ := hd
    exact tidy_insert _ _ _ _ _ (by rw [names_fill]; exact h1) (ih1 h2) (ih2 h3)

end Current.Profiler
