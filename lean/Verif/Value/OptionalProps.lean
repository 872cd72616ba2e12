import Verif.Value.Optional
set_option linter.unusedSimpArgs false
/-!
# `Optional<T>`: what holds of every program
-/
namespace Current.Value

variable {V : Type}

/-- no bare pointers -/
def Plain (s : St V) : Prop := ∀ d o, s.vars d = some o → o.ptr = o.own

theorem plain_init : Plain (St.init V) := by intro d o h; cases h

theorem St.free_user (s : St V) (x : Option Addr) : (s.free x).user = s.user := by cases x <;> rfl

theorem free_heap (s : St V) (x : Option Addr) (p : Addr) : (s.free x).heap p = if x = some p then none else s.heap p := by
  cases x with
  | none => simp [St.free]
  | some a =>
    simp only [St.free, St.setHeap, Option.some.injEq]
    by_cases h : p = a
    · simp [h]
    · rw [if_neg h, if_neg (fun h' => h h'.symm)]

theorem alloc_vars {s t : St V} {a : Addr} {v : V} (h : s.alloc a v = some t) (e : Nat) :
    t.vars e = s.vars e := by
  obtain ⟨_, rfl⟩ := alloc_eq h
  rfl

theorem plain_set {s : St V} (hp : Plain s) {d : Nat} {o : Option Opt} (ho : ∀ x, o = some x → x.ptr = x.own) {t : St V}
    (ht : t.vars = (s.setVar d o).vars) : Plain t := by
  intro e x hx
  rw [ht] at hx
  simp only [St.setVar] at hx
  split at hx
  · exact ho x hx
  · exact hp e x hx

set_option maxHeartbeats 4000000 in
theorem plain_step {s s' : St V} {o : Op V} (hp : Plain s) (hn : NoBare o) (h : step s o = some s') : Plain s' := by
  have hp' : ∀ d o, s.vars d = some o → o.ptr = o.own := hp
  cases o with
  | ctorBare d p => exact hn.elim
  | bare d p => exact hn.elim
  | ctorCopy d src a =>
    simp only [step] at h
    split at h
    · cases h
    · obtain ⟨r, hr, ⟨p, v, _, _, ha, rfl⟩ | ⟨_, rfl⟩⟩ := copyFrom_eq h <;> intro e x hx <;>
        simp only [St.setVar, free_vars, St.setHeap] at hx <;> grind
  | copy d src a =>
    simp only [step] at h
    split at h
    · cases h
    · obtain ⟨r, hr, ⟨p, v, _, _, ha, rfl⟩ | ⟨_, rfl⟩⟩ := copyFrom_eq h <;> intro e x hx <;>
        simp only [St.setVar, free_vars, St.setHeap] at hx <;> grind
  | ctorMove d src =>
    simp only [step] at h
    split at h
    · cases h
    · obtain ⟨r, o, hr, ho, ⟨hne, _, rfl⟩ | ⟨_, rfl⟩⟩ := moveFrom_eq h <;> intro e x hx <;>
        simp only [St.setVar, free_vars] at hx <;> grind
  | move d src =>
    obtain ⟨r, o, hr, ho, ⟨hne, _, rfl⟩ | ⟨_, rfl⟩⟩ := moveFrom_eq h <;> intro e x hx <;>
        simp only [St.setVar, free_vars] at hx <;> grind
  | null d =>
    obtain ⟨o, ho, rfl⟩ := setNull_eq h
    intro e x hx
    simp only [St.setVar, free_vars] at hx
    grind
  | _ =>
    simp only [step] at h
    repeat' split at h
    all_goals first | contradiction | (injection h with h; subst h) | skip
    all_goals try (rename_i s1 hs; have hv := alloc_vars hs)
    all_goals intro e x hx; try simp only [St.setVar, free_vars, St.setHeap, St.setUser] at hx
    all_goals grind

theorem spec_ext {a b : Spec V} (h1 : ∀ d, a.var d = b.var d) (h2 : ∀ p, a.obj p = b.obj p) : a = b := by
  cases a; cases b
  simp only [Spec.mk.injEq]
  exact ⟨funext h1, funext h2⟩

theorem seen_var (s : St V) (d : Nat) : s.seen.var d =
    match s.vars d with
    | none => none
    | some o =>
      match o.ptr with
      | none => some none
      | some p => some (s.heap p) := by
  unfold St.seen St.val
  dsimp only
  cases s.vars d with
  | none => rfl
  | some o => cases ho : o.ptr <;> simp [ho]

theorem seen_obj (s : St V) (p : Addr) : s.seen.obj p = if s.user p then s.heap p else none := rfl

set_option maxHeartbeats 8000000 in
theorem seen_step {s s' : St V} {o : Op V} (hi : Inv s) (hp : Plain s) (hn : NoBare o) (h : step s o = some s') :
    s'.seen = spec s.seen o := by
  obtain ⟨h1, h2, h3, h4, h5⟩ := hi
  have hp' : ∀ d o, s.vars d = some o → o.ptr = o.own := hp
  cases o with
  | ctorBare d p => exact hn.elim
  | bare d p => exact hn.elim
  | ctorCopy d src a =>
    simp only [step] at h
    split at h
    · cases h
    · obtain ⟨r, hr, ⟨p, v, _, _, ha, rfl⟩ | ⟨_, rfl⟩⟩ := copyFrom_eq h <;>
      (apply spec_ext <;> intro e <;>
        simp only [spec, seen_var, seen_obj, St.setVar, free_vars, St.free_user, free_heap, St.setHeap, upd] <;> clear h3 hp <;> (try clear h) <;> (repeat' split) <;> grind -ext -funext)
  | copy d src a =>
    simp only [step] at h
    split at h
    · cases h
    · obtain ⟨r, hr, ⟨p, v, _, _, ha, rfl⟩ | ⟨_, rfl⟩⟩ := copyFrom_eq h <;>
      (apply spec_ext <;> intro e <;>
        simp only [spec, seen_var, seen_obj, St.setVar, free_vars, St.free_user, free_heap, St.setHeap, upd] <;> clear h3 hp <;> (try clear h) <;> (repeat' split) <;> grind -ext -funext)
  | ctorMove d src =>
    simp only [step] at h
    split at h
    · cases h
    · obtain ⟨r, o, hr, ho, ⟨hne, _, rfl⟩ | ⟨_, rfl⟩⟩ := moveFrom_eq h <;>
      simp only [St.setVar] at hr ho <;>
      (apply spec_ext <;> intro e <;>
        simp only [spec, seen_var, seen_obj, St.setVar, free_vars, St.free_user, free_heap, St.setHeap, upd] <;> clear h3 hp <;> (try clear h) <;> (repeat' split) <;> grind -ext -funext)
  | move d src =>
    obtain ⟨r, o, hr, ho, ⟨hne, _, rfl⟩ | ⟨_, rfl⟩⟩ := moveFrom_eq h <;>
      (apply spec_ext <;> intro e <;>
        simp only [spec, seen_var, seen_obj, St.setVar, free_vars, St.free_user, free_heap, St.setHeap, upd] <;> clear h3 hp <;> (try clear h) <;> (repeat' split) <;> grind -ext -funext)
  | null d =>
    obtain ⟨o, ho, rfl⟩ := setNull_eq h
    (apply spec_ext <;> intro e <;>
        simp only [spec, seen_var, seen_obj, St.setVar, free_vars, St.free_user, free_heap, St.setHeap, upd] <;> clear h3 hp <;> (try clear h) <;> (repeat' split) <;> grind -ext -funext)
  | ctorValue d v a =>
    simp only [step] at h
    split at h
    · cases h
    · split at h
      · cases h
      · rename_i s1 hs
        obtain ⟨ha, rfl⟩ := alloc_eq hs
        injection h with h; subst h
        (apply spec_ext <;> intro e <;>
        simp only [spec, seen_var, seen_obj, St.setVar, free_vars, St.free_user, free_heap, St.setHeap, upd] <;> clear h3 hp <;> (try clear h) <;> (repeat' split) <;> grind -ext -funext)
  | value d v a =>
    simp only [step] at h
    split at h
    · cases h
    · rename_i o ho
      split at h
      · injection h with h; subst h
        (apply spec_ext <;> intro e <;>
        simp only [spec, seen_var, seen_obj, St.setVar, free_vars, St.free_user, free_heap, St.setHeap, upd] <;> clear h3 hp <;> (try clear h) <;> (repeat' split) <;> grind -ext -funext)
      · rename_i hb
        split at h
        · cases h
        · rename_i s1 hs
          obtain ⟨ha, rfl⟩ := alloc_eq hs
          injection h with h; subst h
          (apply spec_ext <;> intro e <;>
        simp only [spec, seen_var, seen_obj, St.setVar, free_vars, St.free_user, free_heap, St.setHeap, upd] <;> clear h3 hp <;> (try clear h) <;> (repeat' split) <;> grind -ext -funext)
  | userNew p v =>
    simp only [step] at h
    split at h
    · cases h
    · rename_i s1 hs
      obtain ⟨ha, rfl⟩ := alloc_eq hs
      injection h with h; subst h
      (apply spec_ext <;> intro e <;> simp only [spec, seen_var, seen_obj, St.setHeap, St.setUser, upd] <;> clear h3 hp <;> (try clear h) <;> (repeat' split) <;> grind -ext -funext)
  | write d v =>
    simp only [step] at h
    repeat' split at h
    all_goals first | contradiction | (injection h with h; subst h) | skip
    · apply spec_ext <;> intro e <;> simp only [spec, seen_var, seen_obj, upd] <;> (repeat' split) <;> grind -ext -funext
    · rename_i hv
      obtain ⟨w, hw⟩ := Option.ne_none_iff_exists'.1 hv
      apply spec_ext <;> intro e <;> simp only [spec, seen_var, seen_obj, St.setHeap, upd] <;> clear h3 hp <;>
        (repeat' split) <;> grind -ext -funext
  | _ =>
    simp only [step] at h
    repeat' split at h
    all_goals first | contradiction | (injection h with h; subst h) | skip
    all_goals apply spec_ext <;> intro e <;>
        simp only [spec, seen_var, seen_obj, St.setVar, free_vars, St.free_user, free_heap, St.setHeap, St.setUser, upd] <;> clear h3 hp <;> (try clear h) <;> (repeat' split) <;> grind -ext -funext

theorem run_seen {os : List (Op V)} {s s' : St V} (hi : Inv s) (hp : Plain s) (hn : ∀ o ∈ os, NoBare o) (h : run s os = some s') :
    Plain s' ∧ s'.seen = os.foldl spec s.seen := by
  induction os generalizing s with
  | nil => injection h with h; subst h; exact ⟨hp, rfl⟩
  | cons o os ih =>
    simp only [run, Option.bind_eq_some_iff] at h
    obtain ⟨s1, h1, h2⟩ := h
    have ho := hn o (List.mem_cons_self ..)
    have := ih (inv_step hi h1) (plain_step hp ho h1) (fun x hx => hn x (List.mem_cons_of_mem _ hx)) h2
    rw [seen_step hi hp ho h1] at this
    exact this

/-! ## Theorems -/

/-- **C110.** `Optional` is a value: after any program of any number of variables, without bare pointers, each variable has what it would
have if the variables held the values themselves -- a copy is independent of what it was made from, a write to one variable is a write
to no other, a moved-from variable is empty. -/
theorem optional_is_a_value {os : List (Op V)} {s : St V} (hn : ∀ o ∈ os, NoBare o) (h : run (St.init V) os = some s) :
    s.seen = os.foldl spec (Spec.init V) := by
  have := (run_seen inv_init plain_init hn h).2
  rw [this]
  congr 1

/-- **C110.** Memory: after any program, bare pointers or not, every object is the user's or has exactly one variable that owns it, and
what a variable owns is there. -/
theorem optional_owns {os : List (Op V)} {s : St V} (h : run (St.init V) os = some s) (a : Addr) :
    (s.heap a ≠ none ↔ s.user a = true ∨ ∃ d o, s.vars d = some o ∧ o.own = some a) ∧
    (s.user a = true → ∀ d o, s.vars d = some o → o.own ≠ some a) ∧
    (∀ d e o o', s.vars d = some o → s.vars e = some o' → o.own = some a → o'.own = some a → d = e) := by
  obtain ⟨h1, h2, h3, h4, h5⟩ := inv_run inv_init h
  refine ⟨⟨h3 a, ?_⟩, ?_, fun d e o o' x y z w => h2 d e o o' a x y z w⟩
  · rintro (hu | ⟨d, o, hd, ho⟩)
    · exact h4 a hu
    · exact (h1 d o a hd ho).1
  · intro hu d o hd ho
    have := (h1 d o a hd ho).2
    rw [hu] at this
    cases this

/-- **C110.** When the variables are gone, so is everything they had. -/
theorem optional_no_leak {os : List (Op V)} {s : St V} (h : run (St.init V) os = some s) (hd : ∀ d, s.vars d = none)
    (hu : ∀ p, s.user p = false) (a : Addr) : s.heap a = none := by
  cases ha : s.heap a with
  | none => rfl
  | some v =>
    rcases (optional_owns h a).1.1 (by rw [ha]; simp) with h1 | ⟨d, o, h1, _⟩
    · rw [hu a] at h1; cases h1
    · rw [hd d] at h1; cases h1

/-- **C110.** Without bare pointers `Exists` is right: a variable that says it has a value has one. -/
theorem optional_no_dangling {os : List (Op V)} {s : St V} (hn : ∀ o ∈ os, NoBare o) (h : run (St.init V) os = some s)
    {d : Nat} {o : Opt} {p : Addr} (hd : s.vars d = some o) (ho : o.ptr = some p) : s.heap p ≠ none := by
  have hp := (run_seen inv_init plain_init hn h).1
  rw [hp d o hd] at ho
  exact ((inv_run inv_init h).owned d o p hd ho).1

/-- **C110.** With bare pointers too: the copy has the value, its own object, and that object is new. -/
theorem optional_copy_is_deep {os : List (Op V)} {s s' : St V} {d src : Nat} {a : Addr} (hs : run (St.init V) os = some s)
    (h : step s (.copy d src a) = some s') :
    s'.val d = s.val src ∧ ∀ o, s'.vars d = some o → o.ptr = o.own ∧ (o.own ≠ none → o.own = some a ∧ s.heap a = none) := by
  simp only [step] at h
  split at h
  · cases h
  · rename_i o ho
    obtain ⟨r, hr, ⟨p, v, hp, hv, ha, rfl⟩ | ⟨hp, rfl⟩⟩ := copyFrom_eq h
    · refine ⟨?_, ?_⟩
      · have hne : o.own ≠ some a := fun hc => ((inv_run inv_init hs).owned d o a ho hc).1 ha
        simp [St.val, St.setVar, hr, hp, hv, free_heap, St.setHeap, hne]
      · intro o h
        simp [St.setVar] at h
        subst h
        simp [ha]
    · refine ⟨?_, ?_⟩
      · simp [St.val, St.setVar, hr, hp]
      · intro o h
        simp [St.setVar] at h
        subst h
        simp

/-! ## What is not so -/

/-- A moved `Optional` that has a bare pointer loses the value (`optional.h:334-342, 401-410` move `owned_optional_object_`, which is null,
and set the bare pointer from it): both are empty afterwards. -/
theorem optional_move_of_bare_loses {s s' : St V} {d src : Nat} {p : Addr} (hne : d ≠ src) (hs : s.vars src = some ⟨none, some p⟩)
    (h : step s (.move d src) = some s') : s'.val d = none ∧ s'.val src = none := by
  have hne' : ¬src = d := fun h => hne h.symm
  obtain ⟨r, o, hr, ho, ⟨_, _, rfl⟩ | ⟨hx, rfl⟩⟩ := moveFrom_eq h
  · rw [hs] at hr
    injection hr with hr
    subst hr
    simp [St.val, St.setVar, hne']
  · rw [hs] at hr
    injection hr with hr
    subst hr
    rcases hx with hx | hx
    · exact absurd hx hne
    · cases hx

/-- `x = std::move(x)` empties `x`. -/
theorem optional_self_move_empties {s s' : St V} {d : Nat} (h : step s (.move d d) = some s') : s'.val d = none := by
  obtain ⟨r, o, hr, ho, ⟨hne, _, rfl⟩ | ⟨_, rfl⟩⟩ := moveFrom_eq h
  · exact absurd rfl hne
  · simp [St.val, St.setVar]

/-- a program: a value, a copy, a write to the copy, a move, a self-copy, the user's object adopted, everything destroyed but one -/
def demoOptional : List (Op Nat) :=
  [.ctorValue 0 7 100, .ctorCopy 1 0 101, .write 1 8, .ctorMove 2 0, .copy 1 1 102, .userNew 50 3, .ctorUnique 3 50, .write 3 4,
   .copy 2 3 103, .null 3, .ctorNull 4, .write 4 9, .value 4 5 104, .value 4 6 105, .move 1 4, .destroy 2]

theorem demoOptional_runs :
    (∀ o ∈ demoOptional, NoBare o) ∧
    (run (St.init Nat) demoOptional).map
      (fun s => ((List.range 5).map s.seen.var, (List.range 106).filter fun a => (s.heap a).isSome)) =
      some ([some none, some (some 6), none, some none, some none], [104]) := by
  refine ⟨?_, by decide +kernel⟩
  intro o ho
  simp only [demoOptional, List.mem_cons, List.not_mem_nil, or_false] at ho
  rcases ho with h | h | h | h | h | h | h | h | h | h | h | h | h | h | h | h <;> subst h <;> trivial

/-- with a bare pointer: the user's object is written through the variable; the copy is its own; the move loses -/
def demoBare : List (Op Nat) :=
  [.userNew 50 3, .ctorBare 0 50, .write 0 4, .ctorCopy 1 0 100, .userWrite 50 5, .ctorNull 2, .move 2 0]

theorem demoBare_runs :
    (run (St.init Nat) demoBare).map (fun s => ((List.range 3).map s.seen.var, s.heap 50)) =
      some ([some none, some (some 4), some none], some 5) := by decide +kernel

/-- a bare pointer outlives the object -/
theorem optional_bare_dangles :
    ∃ s : St Nat, run (St.init Nat) [.userNew 50 3, .ctorBare 0 50, .userDelete 50] = some s ∧
      ∃ o, s.vars 0 = some o ∧ o.ptr = some 50 ∧ s.heap 50 = none := by
  refine ⟨_, rfl, ⟨none, some 50⟩, ?_, rfl, ?_⟩ <;> simp [St.setHeap, St.setUser, St.setVar]

end Current.Value
