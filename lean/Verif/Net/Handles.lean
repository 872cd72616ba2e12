/-!
# Who owns a socket

`SocketHandle`, `ReservedLocalPort`, `Connection` and `Socket`, `bricks/net/tcp/impl/posix.h:107-249, 280-298, 377-387, 562-623`: the
objects that own a file descriptor, their constructors, moves and destructors.  A program is any sequence of these operations
on any number of objects; the numbers of descriptors are the kernel's choice among those that are not open.
-/
namespace Current.Net.Handles

inductive Ev
  | opened (fd : Nat)
  | closed (fd : Nat)
  deriving DecidableEq

/-- what using `socket` gives, `ReadOnlyValidSocketAccessor`, `posix.h:220-238` -/
inductive Use
  | fd (n : Nat)
  | invalid     -- `InvalidSocketException`
  | moved       -- `AttemptedToUseMovedAwayConnection`
  deriving DecidableEq

/-- `socket_` of an object; `none` is `-1` -/
abbrev Sock := Option Nat

structure St where
  /-- the objects ever constructed; `none`: destroyed -/
  objs : List (Option Sock) := []
  /-- the descriptors that are open -/
  fds : List Nat := []
  log : List Ev := []
  /-- what the uses gave -/
  uses : List (Nat × Use) := []
  /-- `std::terminate` -/
  dead : Bool := false

inductive Op
  /-- a handle is constructed: `posix.h:109-150, 152-195`, and `Accept`, `posix.h:585-622`; `fd` is what the kernel gave -/
  | create (fd : Nat)
  /-- `::bind` or `::listen` fails: the body of a delegating constructor throws, the object is complete and is destroyed -/
  | createBindFails (fd : Nat)
  /-- `::setsockopt` fails in the constructor proper, or `::getsockname` in `Accept`: there is no object yet -/
  | createFails (fd : Nat)
  /-- a handle is constructed from another one: `posix.h:212`, also as `ReservedLocalPort`, `Connection`, `Socket` -/
  | moveCtor (i : Nat)
  /-- `Socket::operator=(Socket&&)`: `posix.h:245-248, 575-579`; object `i` is assigned object `j` -/
  | assign (i j : Nat)
  | destroy (i : Nat)
  | use (i : Nat)

/-- the accessor, `posix.h:223-231` -/
def access : Sock → Use
  | some 0 => .invalid
  | some (n + 1) => .fd (n + 1)
  | none => .moved

/-- `~SocketHandle`, `posix.h:197-210`: `shutdown` goes through the accessor, which throws for descriptor zero, and a destructor is
`noexcept` -/
def close (s : St) : Sock → St
  | none => s
  | some fd =>
    match access (some fd) with
    | .fd _ => { s with fds := s.fds.filter (· ≠ fd), log := s.log ++ [.closed fd] }
    | _ => { s with dead := true }

/-- `::socket` or `::accept` -/
def openFd (s : St) (fd : Nat) : St := { s with fds := fd :: s.fds, log := s.log ++ [.opened fd] }

/-- `none`: not a program (no such object, or a descriptor which the kernel cannot give) -/
def step (s : St) (o : Op) : Option St :=
  if s.dead = true then none
  else match o with
  | .create fd =>
    if fd ∈ s.fds then none else some { openFd s fd with objs := s.objs ++ [some (some fd)] }
  | .createBindFails fd =>
    if fd ∈ s.fds then none else some (close (openFd s fd) (some fd))
  | .createFails fd =>
    if fd ∈ s.fds then none else some (openFd s fd)
  | .moveCtor i =>
    match s.objs[i]? with
    | some (some x) => some { s with objs := s.objs.set i (some none) ++ [some x] }
    | _ => none
  | .assign i j =>
    match s.objs[i]?, s.objs[j]? with
    | some (some _), some (some x) => some { s with objs := (s.objs.set i (some x)).set j (some none) }
    | _, _ => none
  | .destroy i =>
    match s.objs[i]? with
    | some (some x) => some (close { s with objs := s.objs.set i none } x)
    | _ => none
  | .use i =>
    match s.objs[i]? with
    | some (some x) => some { s with uses := s.uses ++ [(i, access x)] }
    | _ => none

def run : St → List Op → Option St
  | s, [] => some s
  | s, o :: os => (step s o).bind (run · os)

/-! ## Specification -/

def opens (fd : Nat) (log : List Ev) : Nat := log.count (.opened fd)
def closes (fd : Nat) (log : List Ev) : Nat := log.count (.closed fd)

/-- at no time has a descriptor been closed more often than it was opened, nor opened again before it was closed -/
def NeverTwice (log : List Ev) : Prop :=
  ∀ pre fd, pre <+: log → closes fd pre ≤ opens fd pre ∧ opens fd pre ≤ closes fd pre + 1

/-- operations that do not assign to an object which has a socket, and no constructor that fails before there is an object -/
def Careful (s : St) : Op → Prop
  | .createFails _ => False
  | .assign i _ => s.objs[i]? = some (some none)
  | _ => True

def CarefulRun : St → List Op → Prop
  | _, [] => True
  | s, o :: os => Careful s o ∧ ∀ t, step s o = some t → CarefulRun t os

/-- object `i` has descriptor `fd` -/
def Has (s : St) (i fd : Nat) : Prop := s.objs[i]? = some (some (some fd))

/-! ## Proofs -/

structure Inv (s : St) : Prop where
  owned : ∀ i fd, Has s i fd → fd ∈ s.fds
  one : ∀ i j fd, Has s i fd → Has s j fd → i = j
  counts : ∀ fd, opens fd s.log = closes fd s.log + if fd ∈ s.fds then 1 else 0
  twice : NeverTwice s.log

theorem opens_concat (fd : Nat) (l : List Ev) (e : Ev) :
    opens fd (l ++ [e]) = opens fd l + if e = .opened fd then 1 else 0 := by
  simp [opens, List.count_append, List.count_singleton]

theorem closes_concat (fd : Nat) (l : List Ev) (e : Ev) :
    closes fd (l ++ [e]) = closes fd l + if e = .closed fd then 1 else 0 := by
  simp [closes, List.count_append, List.count_singleton]

theorem twice_concat {l : List Ev} {e : Ev} (h : NeverTwice l)
    (he : ∀ fd, closes fd (l ++ [e]) ≤ opens fd (l ++ [e]) ∧ opens fd (l ++ [e]) ≤ closes fd (l ++ [e]) + 1) :
    NeverTwice (l ++ [e]) := by
  intro pre fd hp
  rcases List.prefix_concat_iff.1 hp with h1 | h1
  · rw [h1]; exact he fd
  · exact h pre fd h1

theorem inv_openFd {s : St} (h : Inv s) {fd : Nat} (hf : fd ∉ s.fds) : Inv (openFd s fd) := by
  obtain ⟨h1, h2, h3, h4⟩ := h
  have hc : ∀ fd', opens fd' (openFd s fd).log = closes fd' (openFd s fd).log + if fd' ∈ (openFd s fd).fds then 1 else 0 := by
    intro fd'
    have := h3 fd'
    simp only [openFd, opens_concat, closes_concat]
    grind
  refine ⟨fun i fd' hi => List.mem_cons_of_mem _ (h1 i fd' hi), h2, hc, ?_⟩
  apply twice_concat h4
  intro fd'
  have := hc fd'
  simp only [openFd] at this
  grind

theorem inv_close {s : St} (h : Inv s) {x : Sock} (hx : ∀ fd, x = some fd → fd ∈ s.fds ∧ ∀ i, ¬Has s i fd) : Inv (close s x) := by
  cases x with
  | none => exact h
  | some fd =>
    obtain ⟨h1, h2, h3, h4⟩ := h
    obtain ⟨hm, hn⟩ := hx fd rfl
    cases fd with
    | zero => exact ⟨h1, h2, h3, h4⟩
    | succ n =>
      have hc : ∀ fd', opens fd' (close s (some (n + 1))).log = closes fd' (close s (some (n + 1))).log +
          if fd' ∈ (close s (some (n + 1))).fds then 1 else 0 := by
        intro fd'
        have := h3 fd'
        simp only [close, access, opens_concat, closes_concat]
        grind
      refine ⟨?_, h2, hc, ?_⟩
      · intro i fd' hi
        have hi' : Has s i fd' := hi
        have := h1 i fd' hi'
        simp only [close, access]
        rw [List.mem_filter]
        refine ⟨this, ?_⟩
        have : fd' ≠ n + 1 := fun he => hn i (he ▸ hi')
        simpa using this
      · apply twice_concat h4
        intro fd'
        have := hc fd'
        simp only [close, access] at this
        grind

theorem inv_objs {s : St} (h : Inv s) {objs : List (Option Sock)} (hs : ∃ σ : Nat → Nat,
    (∀ i j fd, objs[i]? = some (some (some fd)) → objs[j]? = some (some (some fd)) → σ i = σ j → i = j) ∧
    ∀ i fd, objs[i]? = some (some (some fd)) → Has s (σ i) fd) : Inv { s with objs := objs } := by
  obtain ⟨σ, hinj, hσ⟩ := hs
  exact ⟨fun i fd hi => h.owned _ _ (hσ i fd hi), fun i j fd hi hj => hinj i j fd hi hj (h.one _ _ _ (hσ i fd hi) (hσ j fd hj)),
    h.counts, h.twice⟩

set_option maxHeartbeats 4000000 in
theorem inv_step {s s' : St} {o : Op} (hi : Inv s) (h : step s o = some s') : Inv s' := by
  unfold step at h
  split at h
  · cases h
  · cases o with
    | create fd =>
      simp only at h
      split at h
      · cases h
      · rename_i hf
        injection h with h
        subst h
        have h0 := inv_openFd hi hf
        obtain ⟨h1, h2, h3, h4⟩ := h0
        have key : ∀ i fd', (s.objs ++ [some (some fd)])[i]? = some (some (some fd')) →
            (Has s i fd' ∧ i < s.objs.length) ∨ (i = s.objs.length ∧ fd' = fd) := by
          unfold Has
          grind
        refine ⟨?_, ?_, h3, h4⟩
        · intro i fd' hi'
          rcases key i fd' hi' with h | h
          · exact h1 i fd' h.1
          · rw [h.2]; exact List.mem_cons_self
        · intro i j fd' hi' hj'
          rcases key i fd' hi' with h | h <;> rcases key j fd' hj' with g | g
          · exact h2 i j fd' h.1 g.1
          · exact absurd (hi.owned _ _ h.1) (g.2 ▸ hf)
          · exact absurd (hi.owned _ _ g.1) (h.2 ▸ hf)
          · omega
    | createBindFails fd =>
      simp only at h
      split at h
      · cases h
      · rename_i hf
        injection h with h
        subst h
        apply inv_close (inv_openFd hi hf)
        intro fd' he
        injection he with he
        subst he
        exact ⟨List.mem_cons_self, fun i hh => hf (hi.owned i fd hh)⟩
    | createFails fd =>
      simp only at h
      split at h
      · cases h
      · rename_i hf
        injection h with h
        subst h
        exact inv_openFd hi hf
    | moveCtor i =>
      simp only at h
      split at h
      · rename_i x hx
        injection h with h
        subst h
        apply inv_objs hi
        refine ⟨fun k => if k = s.objs.length then i else k, ?_, ?_⟩
        · grind
        · unfold Has; grind
      · cases h
    | assign i j =>
      simp only at h
      split at h
      · rename_i x y hx hy
        injection h with h
        subst h
        apply inv_objs hi
        refine ⟨fun k => if k = i then j else k, ?_, ?_⟩
        · grind
        · unfold Has; grind
      · cases h
    | destroy i =>
      simp only at h
      split at h
      · rename_i x hx
        injection h with h
        subst h
        apply inv_close
        · apply inv_objs hi
          refine ⟨id, fun _ _ _ _ _ h => h, ?_⟩
          unfold Has; grind
        · intro fd he
          subst he
          refine ⟨hi.owned i fd hx, ?_⟩
          intro k hk
          have hk' : Has s k fd ∧ k ≠ i := by
            unfold Has at hk ⊢
            dsimp only at hk
            grind
          exact hk'.2 (hi.one k i fd hk'.1 hx)
      · cases h
    | use i =>
      simp only at h
      split at h
      · injection h with h
        subst h
        exact ⟨hi.1, hi.2, hi.3, hi.4⟩
      · cases h

theorem inv_init : Inv {} := by
  refine ⟨?_, ?_, ?_, ?_⟩
  · intro i fd h; simp [Has] at h
  · intro i j fd h; simp [Has] at h
  · intro fd; simp [opens, closes]
  · intro pre fd h
    rw [List.prefix_nil.1 h]
    simp [opens, closes]

theorem inv_run {os : List Op} {s s' : St} (hi : Inv s) (h : run s os = some s') : Inv s' := by
  induction os generalizing s with
  | nil => injection h with h; subst h; exact hi
  | cons o os ih =>
    unfold run at h
    cases hs : step s o with
    | none => rw [hs] at h; cases h
    | some t => rw [hs] at h; exact ih (inv_step hi hs) h

/-- no leak: all open descriptors have an owner -/
def NoLeak (s : St) : Prop := s.dead = false → ∀ fd ∈ s.fds, ∃ i, Has s i fd

set_option maxHeartbeats 4000000 in
theorem noLeak_step {s s' : St} {o : Op} (hn : NoLeak s) (hc : Careful s o) (h : step s o = some s') : NoLeak s' := by
  unfold step at h
  split at h
  · cases h
  · rename_i hd
    have hd' : s.dead = false := by simpa using hd
    have hn := hn hd'
    cases o with
    | create fd =>
      simp only at h
      split at h
      · cases h
      · injection h with h
        subst h
        intro _ fd' hf
        rcases List.mem_cons.1 hf with h | h
        · exact ⟨s.objs.length, by rw [h]; simp [Has]⟩
        · obtain ⟨i, hi⟩ := hn fd' h
          refine ⟨i, ?_⟩
          unfold Has at hi ⊢
          dsimp only
          grind
    | createBindFails fd =>
      simp only at h
      split at h
      · cases h
      · injection h with h
        subst h
        cases fd with
        | zero => intro hx; cases hx
        | succ n =>
          intro _ fd' hf
          simp only [close, access, openFd] at hf
          have : fd' ∈ s.fds := by grind
          exact hn fd' this
    | createFails fd => exact hc.elim
    | moveCtor i =>
      simp only at h
      split at h
      · rename_i x hx
        injection h with h
        subst h
        intro _ fd hf
        obtain ⟨k, hk⟩ := hn fd hf
        refine ⟨if k = i then s.objs.length else k, ?_⟩
        unfold Has at hk ⊢
        dsimp only
        grind
      · cases h
    | assign i j =>
      simp only at h
      split at h
      · rename_i x y hx hy
        injection h with h
        subst h
        intro _ fd hf
        obtain ⟨k, hk⟩ := hn fd hf
        refine ⟨if k = j then i else k, ?_⟩
        unfold Careful at hc
        unfold Has at hk ⊢
        dsimp only
        grind
      · cases h
    | destroy i =>
      simp only at h
      split at h
      · rename_i x hx
        injection h with h
        subst h
        cases x with
        | none =>
          intro _ fd hf
          obtain ⟨k, hk⟩ := hn fd hf
          refine ⟨k, ?_⟩
          unfold Has at hk ⊢
          simp only [close]
          grind
        | some n =>
          cases n with
          | zero => intro hx; cases hx
          | succ n =>
            intro _ fd hf
            simp only [close, access] at hf
            have hf' : fd ∈ s.fds ∧ fd ≠ n + 1 := by grind
            obtain ⟨k, hk⟩ := hn fd hf'.1
            refine ⟨k, ?_⟩
            unfold Has at hk ⊢
            simp only [close, access]
            grind
      · cases h
    | use i =>
      simp only at h
      split at h
      · injection h with h
        subst h
        exact fun _ => hn
      · cases h

theorem noLeak_run {os : List Op} {s s' : St} (hn : NoLeak s) (hc : CarefulRun s os) (h : run s os = some s') : NoLeak s' := by
  induction os generalizing s with
  | nil => injection h with h; subst h; exact hn
  | cons o os ih =>
    unfold run at h
    cases hs : step s o with
    | none => rw [hs] at h; cases h
    | some t => rw [hs] at h; exact ih (noLeak_step hn hc.1 hs) (hc.2 t hs) h

/-! ## Theorems -/

/-- Whatever is done with the objects, no descriptor is closed twice: each is closed only after it was opened, once, so that
never a descriptor is closed that the system has given to someone else in the meantime. -/
theorem never_closed_twice {os : List Op} {s : St} (h : run {} os = some s) : NeverTwice s.log :=
  (inv_run inv_init h).twice

/-- An open descriptor has one owner at most, and what an object has is open. -/
theorem one_owner {os : List Op} {s : St} (h : run {} os = some s) :
    (∀ i fd, Has s i fd → fd ∈ s.fds) ∧ ∀ i j fd, Has s i fd → Has s j fd → i = j :=
  ⟨(inv_run inv_init h).owned, (inv_run inv_init h).one⟩

/-- When all objects have been destroyed, all that was opened is closed - unless an object with a socket was assigned to or a
constructor failed halfway.  These are missing for the full claim; with them it is false (`assign_leaks`,
`failed_constructor_leaks`). -/
theorem all_closed_partial {os : List Op} {s : St} (h : run {} os = some s) (hc : CarefulRun {} os) (hd : s.dead = false)
    (hall : ∀ (i : Nat) (x : Option Sock), s.objs[i]? = some x → x = none) (fd : Nat) : closes fd s.log = opens fd s.log := by
  have hi := (inv_run inv_init h).counts fd
  have hn : NoLeak s := noLeak_run (by intro _ fd hf; cases hf) hc h
  have : fd ∉ s.fds := by
    intro hf
    obtain ⟨i, hi⟩ := hn hd fd hf
    cases hall i _ hi
  rw [if_neg this] at hi
  omega

/-- An object that was moved from throws when it is used, and its destruction closes nothing. -/
theorem moved_away {s s' : St} {i : Nat} (h : step s (.moveCtor i) = some s') (hd : s.dead = false) :
    (step s' (.use i)).map (·.uses) = some (s.uses ++ [(i, .moved)]) ∧
    (step s' (.destroy i)).map (fun t => (t.fds, t.log)) = some (s.fds, s.log) := by
  simp only [step, hd] at h
  rw [if_neg (by decide)] at h
  split at h
  · rename_i x hx
    injection h with h
    subst h
    have hlt : i < s.objs.length := by
      by_cases hlt : i < s.objs.length
      · exact hlt
      · rw [List.getElem?_eq_none (by omega)] at hx; cases hx
    have hx' : (s.objs.set i (some none) ++ [some x])[i]? = some (some none) := by grind
    constructor
    · simp only [step, hx', access]
      rfl
    · simp only [step, hx', close]
      rfl
  · cases h

/-! ## Witnesses -/

set_option synthInstance.maxSize 8192 in
set_option synthInstance.maxHeartbeats 400000 in
/-- a port is reserved, becomes a socket, a connection is accepted, moved into its handler, all are destroyed -/
theorem demo_handles :
    (run {} [.create 3, .moveCtor 0, .destroy 0, .create 4, .moveCtor 2, .use 2, .use 3, .destroy 3, .destroy 2, .destroy 1]).map
      (fun s => (s.objs, s.fds, s.log, s.uses)) =
    some ([none, none, none, none], [], [.opened 3, .opened 4, .closed 4, .closed 3], [(2, .moved), (3, .fd 4)]) := by
  decide +kernel

/-- Assignment does not close the socket the object had: it stays open for ever. -/
theorem assign_leaks :
    (run {} [.create 3, .create 4, .assign 0 1, .destroy 1, .destroy 0]).map (fun s => (s.objs, s.fds, s.log)) =
    some ([none, none], [3], [.opened 3, .opened 4, .closed 4]) := by
  decide +kernel

/-- ... as does an object's assignment to itself. -/
theorem self_assign_leaks :
    (run {} [.create 3, .assign 0 0, .destroy 0]).map (fun s => (s.objs, s.fds, s.log)) =
    some ([none], [3], [.opened 3]) := by
  decide +kernel

/-- A constructor that fails after `::socket`, or an `Accept` that fails after `::accept`, leaves the descriptor open; one that fails
in `::bind` does not. -/
theorem failed_constructor_leaks :
    (run {} [.createFails 3, .createBindFails 4]).map (fun s => (s.fds, s.log)) =
    some ([3], [.opened 3, .opened 4, .closed 4]) := by
  decide +kernel

/-- In a process whose standard input is closed, the first socket has descriptor zero: it cannot be used, and its destructor ends
the process. -/
theorem descriptor_zero :
    (run {} [.create 0, .use 0, .destroy 0]).map (fun s => (s.uses, s.dead)) = some ([(0, .invalid)], true) := by
  decide +kernel

end Current.Net.Handles
