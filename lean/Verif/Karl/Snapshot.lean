import Verif.Karl.Model
/-!
# Karl: the snapshot of a service

`ServeSnapshot`, `karl/karl.h:733-778`, and the line that remembers where the last keepalive of a service is,
`karl.h:549-558`.  Requests are taken one after another here (the two of them run on different threads; what is shown below
already fails without that).
-/
namespace Current.Karl
namespace Snapshot
variable {C E : Type} [DecidableEq C]

/-- `keepalives_stream_` (codename and the rest of each keepalive) and `latest_keepalive_index_plus_one_`, where 0 stands
for "not there" -/
structure State (C E : Type) where
  log : List (C × E)
  cache : C → Nat

def empty : State C E := ⟨[], fun _ => 0⟩

/-- `latest_keepalive_index_plus_one_[codename] = Publish(...).index`, `karl.h:554-555`; the index of a published entry is
the number of entries before it (C01) -/
def keepalive (s : State C E) (c : C) (e : E) : State C E := ⟨s.log ++ [(c, e)], put s.cache c s.log.length⟩

/-- the loop over the whole log, `karl.h:745-750`, from position `i` on -/
def scan (c : C) : List (C × E) → Nat → Nat → Nat
  | [], _, index => index
  | e :: es, i, index => scan c es (i + 1) (if e.1 = c then i + 1 else index)

/-- `karl.h:736-755`: the number used, and the state after it -/
def lookup (s : State C E) (c : C) : Nat × State C E :=
  if s.cache c = 0 then
    let index := scan c s.log 0 0
    (index, if index ≠ 0 then { s with cache := put s.cache c (max (s.cache c) index) } else s)
  else (s.cache c, s)

/-- What is answered, `karl.h:757-777`: `none` is "No keepalives from '...' have been received.", otherwise the entry the
answer is made of, `*(keepalives_data->Iterate(index - 1).begin())`. -/
def snapshot (s : State C E) (c : C) : Option (C × E) × State C E :=
  let (index, s') := lookup s c
  (if index ≠ 0 then s.log[index - 1]? else none, s')

inductive Op (C E : Type)
  | keepalive (c : C) (e : E)
  | snapshot (c : C)
  | restart           -- Karl is restarted: the log is in a file (C07), the other map is not

def apply (s : State C E) : Op C E → State C E
  | .keepalive c e => keepalive s c e
  | .snapshot c => (snapshot s c).2
  | .restart => { s with cache := fun _ => 0 }

def run (ops : List (Op C E)) : State C E := ops.foldl apply empty

/-! ## Specification -/

/-- the keepalives of a history -/
def received : List (Op C E) → List (C × E)
  | [] => []
  | .keepalive c e :: ops => (c, e) :: received ops
  | _ :: ops => received ops

/-- the last keepalive of the service is at position `i` of the log -/
def LastAt (c : C) (log : List (C × E)) (i : Nat) : Prop :=
  (∃ e, log[i]? = some (c, e)) ∧ ∀ (j : Nat) (e : E), i < j → log[j]? ≠ some (c, e)

/-- how many keepalives had been received when Karl was started for the last time -/
def sinceStart : List (Op C E) → Nat
  | ops => ops.foldl (fun (p : Nat × Nat) op => match op with
      | .keepalive _ _ => (p.1 + 1, p.2)
      | .snapshot _ => p
      | .restart => (p.1, p.1)) (0, 0) |>.2

/-! ## Proofs -/

theorem scan_spec (c : C) : ∀ (l : List (C × E)) (i index : Nat), index ≤ i →
    (scan c l i index = index ∧ ∀ (j : Nat) (e : E), l[j]? ≠ some (c, e)) ∨
    ∃ k, scan c l i index = i + k + 1 ∧ LastAt c l k := by
  intro l
  induction l with
  | nil => intro i index h; exact .inl ⟨rfl, by simp⟩
  | cons x xs ih =>
    intro i index h
    simp only [scan]
    rcases ih (i + 1) (if x.1 = c then i + 1 else index) (by split <;> omega) with ⟨h1, h2⟩ | ⟨k, h1, h2, h3⟩
    · by_cases hx : x.1 = c
      · right
        refine ⟨0, by rw [h1, if_pos hx], ⟨x.2, by simp [← hx]⟩, fun j e hj => ?_⟩
        cases j with
        | zero => omega
        | succ j => simpa using h2 j e
      · left
        refine ⟨by rw [h1, if_neg hx], fun j e => ?_⟩
        cases j with
        | zero => intro he; simp at he; exact hx (by rw [he])
        | succ j => simpa using h2 j e
    · right
      refine ⟨k + 1, by rw [h1]; omega, ?_, fun j e hj => ?_⟩
      · obtain ⟨e, he⟩ := h2; exact ⟨e, by simpa using he⟩
      · cases j with
        | zero => omega
        | succ j => simpa using h3 j e (by omega)

/-- what the map says about a codename, `b` entries being there when Karl was started -/
def Ok (s : State C E) (b : Nat) (c : C) : Prop :=
  (s.cache c = 0 ∧ ∀ (j : Nat) (e : E), s.log[j]? ≠ some (c, e)) ∨
  ∃ i, LastAt c s.log i ∧ ((i < b ∧ (s.cache c = 0 ∨ s.cache c = i + 1)) ∨
    (b ≤ i ∧ i = 0 ∧ (s.cache c = 0 ∨ s.cache c = 1)) ∨ (b ≤ i ∧ 0 < i ∧ s.cache c = i))

omit [DecidableEq C] in
theorem lastAt_unique {c : C} {log : List (C × E)} {i j : Nat} (hi : LastAt c log i) (hj : LastAt c log j) : i = j := by
  obtain ⟨⟨e, he⟩, h1⟩ := hi
  obtain ⟨⟨f, hf⟩, h2⟩ := hj
  rcases Nat.lt_trichotomy i j with h | h | h
  · exact absurd hf (h1 j f h)
  · exact h
  · exact absurd he (h2 i e h)

omit [DecidableEq C] in
theorem lastAt_lt {c : C} {log : List (C × E)} {i : Nat} (hi : LastAt c log i) : i < log.length := by
  obtain ⟨⟨e, he⟩, _⟩ := hi
  exact (List.getElem?_eq_some_iff.1 he).1

omit [DecidableEq C] in
theorem lastAt_other {c d : C} {log : List (C × E)} {i : Nat} (e : E) (h : d ≠ c) (hi : LastAt d log i) :
    LastAt d (log ++ [(c, e)]) i := by
  have hl := lastAt_lt hi
  refine ⟨by rw [List.getElem?_append_left hl]; exact hi.1, fun j f hj => ?_⟩
  by_cases hjl : j < log.length
  · rw [List.getElem?_append_left hjl]; exact hi.2 j f hj
  · rw [List.getElem?_append_right (by omega)]
    by_cases h0 : j - log.length = 0
    · rw [h0]; intro he; simp at he; exact h he.1.symm
    · obtain ⟨k, hk⟩ := Nat.exists_eq_succ_of_ne_zero h0
      rw [hk]; simp

theorem scan_ok (s : State C E) (c : C) :
    ((scan c s.log 0 0 = 0 ∧ ∀ (j : Nat) (e : E), s.log[j]? ≠ some (c, e)) ∨ ∃ i, scan c s.log 0 0 = i + 1 ∧ LastAt c s.log i) := by
  rcases scan_spec c s.log 0 0 (Nat.le_refl _) with h | ⟨k, h1, h2⟩
  · exact .inl h
  · exact .inr ⟨k, by omega, h2⟩

theorem ok_snapshot (s : State C E) (b : Nat) (h : ∀ c, Ok s b c) (c : C) : ∀ d, Ok (snapshot s c).2 b d := by
  intro d
  show Ok (lookup s c).2 b d
  unfold lookup
  by_cases h0 : s.cache c = 0
  · rw [if_pos h0]
    dsimp only
    split
    · next hne =>
      by_cases hd : d = c
      · subst hd
        rcases scan_ok s d with ⟨hs, _⟩ | ⟨i, hs, hl⟩
        · exact absurd hs hne
        · refine .inr ⟨i, hl, ?_⟩
          have hc : (put s.cache d (max (s.cache d) (scan d s.log 0 0))) d = i + 1 := by simp [put, h0, hs]
          show (i < b ∧ (put s.cache d (max (s.cache d) (scan d s.log 0 0)) d = 0 ∨
              put s.cache d (max (s.cache d) (scan d s.log 0 0)) d = i + 1)) ∨
            (b ≤ i ∧ i = 0 ∧ (put s.cache d (max (s.cache d) (scan d s.log 0 0)) d = 0 ∨
              put s.cache d (max (s.cache d) (scan d s.log 0 0)) d = 1)) ∨
            (b ≤ i ∧ 0 < i ∧ put s.cache d (max (s.cache d) (scan d s.log 0 0)) d = i)
          rw [hc]
          rcases h d with ⟨_, hno⟩ | ⟨j, hj, hh⟩
          · obtain ⟨e, he⟩ := hl.1; exact absurd he (hno i e)
          · have := lastAt_unique hl hj
            subst this
            omega
      · rcases h d with ⟨h1, h2⟩ | ⟨i, h1, h2⟩
        · exact .inl ⟨by simpa [put, hd] using h1, h2⟩
        · exact .inr ⟨i, h1, by simpa [put, hd] using h2⟩
    · exact h d
  · rw [if_neg h0]; exact h d

theorem ok_keepalive (s : State C E) (b : Nat) (h : ∀ c, Ok s b c) (hb : b ≤ s.log.length) (c : C) (e : E) :
    ∀ d, Ok (keepalive s c e) b d := by
  intro d
  by_cases hd : d = c
  · subst hd
    have hl : LastAt d (s.log ++ [(d, e)]) s.log.length := by
      refine ⟨⟨e, by simp⟩, fun j f hj => ?_⟩
      rw [List.getElem?_eq_none (by simp; omega)]
      simp
    refine .inr ⟨s.log.length, hl, ?_⟩
    have hc : (keepalive s d e).cache d = s.log.length := by simp [keepalive, put]
    rw [hc]
    omega
  · rcases h d with ⟨h1, h2⟩ | ⟨i, h1, h2⟩
    · refine .inl ⟨by simpa [keepalive, put, hd] using h1, fun j f hj => ?_⟩
      simp only [keepalive] at hj
      by_cases hjl : j < s.log.length
      · rw [List.getElem?_append_left hjl] at hj; exact h2 j f hj
      · rw [List.getElem?_append_right (by omega)] at hj
        have h0 : j - s.log.length = 0 := by
          by_cases h0 : j - s.log.length = 0
          · exact h0
          · rw [List.getElem?_eq_none (by simp; omega)] at hj; simp at hj
        rw [h0] at hj; simp at hj; exact hd hj.1.symm
    · exact .inr ⟨i, lastAt_other e hd h1, by simpa [keepalive, put, hd] using h2⟩

omit [DecidableEq C] in
theorem ok_restart (s : State C E) (b : Nat) (h : ∀ c, Ok s b c) (c : C) :
    Ok ({ s with cache := fun _ => 0 } : State C E) s.log.length c := by
  rcases h c with ⟨_, h2⟩ | ⟨i, h1, _⟩
  · exact .inl ⟨rfl, h2⟩
  · exact .inr ⟨i, h1, .inl ⟨lastAt_lt h1, .inl rfl⟩⟩

theorem snapshot_log (s : State C E) (c : C) : (snapshot s c).2.log = s.log := by
  show (lookup s c).2.log = s.log
  unfold lookup
  by_cases h0 : s.cache c = 0
  · rw [if_pos h0]; dsimp only; split <;> rfl
  · rw [if_neg h0]

theorem run_ok (ops : List (Op C E)) (s : State C E) (p : Nat × Nat) (h : ∀ c, Ok s p.2 c) (hp : p.1 = s.log.length)
    (hb : p.2 ≤ s.log.length) :
    (∀ c, Ok (ops.foldl apply s) (ops.foldl (fun (p : Nat × Nat) op => match op with
      | .keepalive _ _ => (p.1 + 1, p.2)
      | .snapshot _ => p
      | .restart => (p.1, p.1)) p).2 c) ∧ (ops.foldl apply s).log = s.log ++ received ops := by
  induction ops generalizing s p with
  | nil => exact ⟨h, by simp [received]⟩
  | cons o os ih =>
    simp only [List.foldl_cons]
    cases o with
    | keepalive c e =>
      obtain ⟨h1, h2⟩ := ih (keepalive s c e) (p.1 + 1, p.2) (ok_keepalive s p.2 h hb c e) (by simp [keepalive, hp])
        (by simp [keepalive]; omega)
      refine ⟨h1, ?_⟩
      show (os.foldl apply (keepalive s c e)).log = _
      rw [h2]; simp [keepalive, received]
    | snapshot c =>
      obtain ⟨h1, h2⟩ := ih (snapshot s c).2 p (ok_snapshot s p.2 h c) (by rw [snapshot_log]; exact hp)
        (by rw [snapshot_log]; exact hb)
      refine ⟨h1, ?_⟩
      show (os.foldl apply (snapshot s c).2).log = _
      rw [h2, snapshot_log]; rfl
    | restart =>
      obtain ⟨h1, h2⟩ := ih { s with cache := fun _ => 0 } (p.1, p.1)
        (by intro c; rw [hp]; exact ok_restart s p.2 h c) hp (by simp [hp])
      exact ⟨h1, h2⟩

theorem ok_of_history (ops : List (Op C E)) :
    (∀ c, Ok (run ops) (sinceStart ops) c) ∧ (run ops).log = received ops := by
  obtain ⟨h1, h2⟩ := run_ok ops (empty : State C E) (0, 0) (fun c => .inl ⟨rfl, by simp [empty]⟩) rfl (Nat.le_refl _)
  exact ⟨h1, by simpa [empty, run] using h2⟩

/-! ## Theorems -/

/-- A snapshot is refused exactly for the services that have never sent a keepalive. -/
theorem refused_iff_never_seen (ops : List (Op C E)) (c : C) :
    (snapshot (run ops) c).1 = none ↔ ∀ p ∈ received ops, p.1 ≠ c := by
  obtain ⟨hok, hlog⟩ := ok_of_history ops
  have hno : (∀ (j : Nat) (e : E), (run ops).log[j]? ≠ some (c, e)) → ∀ p ∈ received ops, p.1 ≠ c := by
    intro h p hp hc
    rw [← hlog] at hp
    obtain ⟨j, hj⟩ := List.mem_iff_getElem?.1 hp
    exact h j p.2 (by rw [hj, ← hc])
  have hyes : ∀ i, LastAt c (run ops).log i → ∃ p ∈ received ops, p.1 = c := by
    intro i hi
    obtain ⟨e, he⟩ := hi.1
    exact ⟨(c, e), by rw [← hlog]; exact List.mem_of_getElem? he, rfl⟩
  unfold snapshot lookup
  by_cases h0 : (run ops).cache c = 0
  · rw [if_pos h0]
    dsimp only
    rcases scan_ok _ c with ⟨hs, hn⟩ | ⟨i, hs, hl⟩
    · rw [hs, if_neg (by simp)]; exact ⟨fun _ => hno hn, fun _ => rfl⟩
    · have hlt := lastAt_lt hl
      rw [hs, if_pos (by omega), Nat.add_sub_cancel, List.getElem?_eq_getElem hlt]
      obtain ⟨p, hp, hpc⟩ := hyes i hl
      simp only [reduceCtorEq, false_iff]
      exact fun h => h p hp hpc
  · rw [if_neg h0]
    rcases hok c with ⟨h1, _⟩ | ⟨i, hl, hh⟩
    · exact absurd h1 h0
    · have hlt := lastAt_lt hl
      dsimp only
      rw [if_pos h0, List.getElem?_eq_getElem (by omega)]
      obtain ⟨p, hp, hpc⟩ := hyes i hl
      simp only [reduceCtorEq, false_iff]
      exact fun h => h p hp hpc

/-- What the snapshot of a service is made of.  `i` is the position of the last keepalive of the service among all
keepalives.  If that keepalive was received before Karl was started, or is the very first of all, it is what is shown;
otherwise what is shown is the keepalive *before* it, of whatever service that was. -/
theorem snapshot_exact (ops : List (Op C E)) (c : C) (i : Nat) (h : LastAt c (received ops) i) :
    (snapshot (run ops) c).1 =
      if i < sinceStart ops ∨ i = 0 then (received ops)[i]? else (received ops)[i - 1]? := by
  obtain ⟨hok, hlog⟩ := ok_of_history ops
  rw [← hlog] at h ⊢
  have hlt := lastAt_lt h
  unfold snapshot lookup
  have hi : ∀ j, LastAt c (run ops).log j → j = i := fun j hj => lastAt_unique hj h
  by_cases h0 : (run ops).cache c = 0
  · rw [if_pos h0]
    dsimp only
    rcases scan_ok _ c with ⟨hs, hn⟩ | ⟨j, hs, hl⟩
    · obtain ⟨e, he⟩ := h.1; exact absurd he (hn i e)
    · have := hi j hl; subst this
      rw [hs, if_pos (by omega), Nat.add_sub_cancel]
      rcases hok c with ⟨_, hn⟩ | ⟨k, hk, hh⟩
      · obtain ⟨e, he⟩ := h.1; exact absurd he (hn j e)
      · have := hi k hk; subst this
        rw [if_pos (by omega)]
  · rw [if_neg h0]
    rcases hok c with ⟨h1, _⟩ | ⟨k, hk, hh⟩
    · exact absurd h1 h0
    · have := hi k hk; subst this
      dsimp only
      rw [if_pos h0]
      rcases hh with ⟨h1, h2⟩ | ⟨h1, h2, h3⟩ | ⟨h1, h2, h3⟩
      · rw [if_pos (.inl h1)]; congr 1; omega
      · rw [if_pos (.inr h2)]; congr 1; omega
      · rw [if_neg (by omega)]; congr 1; omega

/-- The last keepalive of a service is shown if Karl was restarted after it. -/
theorem snapshot_is_last_partial (ops : List (Op C E)) (c : C) (i : Nat) (h : LastAt c (received ops) i)
    (hr : i < sinceStart ops) : (snapshot (run ops) c).1 = (received ops)[i]? := by
  rw [snapshot_exact ops c i h, if_pos (.inl hr)]

/-- The hypothesis is met. -/
example : LastAt 1 (received [Op.keepalive 1 10, .keepalive 2 20, .restart, .snapshot 2]) 0 ∧
    (0 : Nat) < sinceStart [Op.keepalive 1 10, .keepalive 2 20, .restart, .snapshot 2] := by
  refine ⟨⟨⟨10, rfl⟩, fun j e hj => ?_⟩, by decide⟩
  match j, hj with
  | 1, _ => simp [received]
  | n + 2, _ => simp [received]

/-- Services 1 and 2 send a keepalive each.  The snapshot of service 2 is the keepalive of service 1. -/
theorem snapshot_of_another_service :
    (snapshot (run [Op.keepalive 1 10, .keepalive 2 20]) 2).1 = some (1, 10) := by decide

/-- A single service sends two keepalives.  Its snapshot is the first one. -/
theorem snapshot_is_stale :
    (snapshot (run [Op.keepalive 1 10, .keepalive 1 20]) 1).1 = some (1, 10) := by decide
end Snapshot
end Current.Karl
