import Verif.Replicate.CtlProps
/-!
C116: who may publish into the stream of a `MasterFlipController`.
-/

set_option linter.unusedSimpArgs false

namespace Current.Ctl

/-- C116. Whatever overlaps within the discipline, the calls that have returned form a history of roles: each starts in the role the previous one has left and ends in the role its result
says; a call that fails leaves the role as it was; and a null follower is never used. -/
theorem roles_history {s : State} (h : Reach s) : Hist s.log ∧ s.crashed = false := ⟨(inv_reach h).hist, (inv_reach h).ok⟩

/-- C116. When no call is in progress exactly one of the three has the right to publish: whoever asks the stream, the controller, the follower; and it is the one the calls that have returned say. -/
theorem one_holder_at_rest {s : State} (h : Reach s) (hq : ∀ t, s.pc t = .idle) :
    (s.master.toNat + s.borrowed.toNat + s.follower.toNat = 1) ∧ last s.log = s.role ∧ s.role ≠ none ∧ s.temp = 0 ∧ (s.ext ≠ 0 → s.master = true) := by
  have hi := inv_reach h
  have hr := hi.quiet fun t => by rw [hq t]; rfl
  refine ⟨?_, hi.since0 fun t => by rw [hq t]; rfl, hr, hi.temp0 fun t g => by rw [hq t]; simp, fun h => hi.ext (Nat.pos_of_ne_zero h)⟩
  rw [role_eq] at hr
  revert hr
  cases s.master <;> cases s.borrowed <;> cases s.follower <;> simp [roleOf]

/-- C116. At every moment, in the middle of calls too, at most one of them, or of the calls in progress, holds the publisher; and it is borrowed by others only from a master. -/
theorem one_holder_always {s : State} (h : Reach s) : s.master.toNat + s.borrowed.toNat + s.follower.toNat + s.temp ≤ 1 ∧ (s.ext ≠ 0 → s.master = true) := by
  have hi := inv_reach h
  refine ⟨?_, fun h => hi.ext (Nat.pos_of_ne_zero h)⟩
  by_cases hf : ∃ t g, s.pc t = .f4 g
  · obtain ⟨t, g, hf⟩ := hf
    have h1 := hi.here t
    rw [hf] at h1
    obtain ⟨a, b, c⟩ := h1
    simp [a, b, c, hi.temp1 t g hf]
  · have h0 := hi.temp0 fun t g h => hf ⟨t, g, h⟩
    rw [h0]
    by_cases hb : ∀ u, between (s.pc u) = false
    · have hr := hi.quiet hb
      rw [role_eq] at hr
      revert hr
      cases s.master <;> cases s.borrowed <;> cases s.follower <;> simp [roleOf]
    · simp only [Classical.not_forall] at hb
      obtain ⟨u, hb⟩ := hb
      have h5 := hi.here u
      cases hpu : s.pc u <;> simp_all [At, between]

/-- C116. If others give the publisher up, a call in progress can always go on. -/
theorem never_stuck {s : State} (h : Reach s) (he : s.ext = 0) {t : Nat} (ht : s.pc t ≠ .idle) : ∃ u b, s.pc u ≠ .idle ∧ ∃ s', step s (.go u b) = some s' := by
  have hi := inv_reach h
  have act : ∀ u, locked (s.pc u) = true ∨ isM (s.pc u) = true → ∃ u b, s.pc u ≠ .idle ∧ ∃ s', step s (.go u b) = some s' := by
    intro u hu
    have hat := hi.here u
    have h1 := hi.temp1 u
    have h0 := hi.temp0
    have ho : (∀ g, s.pc u ≠ .f4 g) → s.temp = 0 := by
      have hq := hi.others (t := u) (hu.elim Or.inl fun h => Or.inr (Or.inl h))
      intro hg
      refine h0 fun v g => ?_
      by_cases hv : v = u
      · rw [hv]; exact hg g
      · exact (quiet_facts _ (hq v hv)).2.2.2.2.1 g
    refine ⟨u, true, ?_, ?_⟩
    · intro hp; rw [hp] at hu; simp [locked, isM] at hu
    · cases hp : s.pc u <;> rw [hp] at hu hat ho <;> simp [locked, isM] at hu <;> simp only [step, hp, At] at * <;> simp_all [State.free]
      · cases hb : s.borrowed <;> simp_all
      · split <;> simp
      · split <;> simp
  cases hl : s.lock with
  | some u => exact act u (Or.inl ((hi.lock u).mp hl))
  | none =>
    by_cases hm : ∃ u, isM (s.pc u) = true
    · obtain ⟨u, hm⟩ := hm; exact act u (Or.inr hm)
    · have hm' : isM (s.pc t) = false := by cases h : isM (s.pc t); rfl; exact absurd ⟨t, h⟩ hm
      have hl' : locked (s.pc t) = false := by
        cases h : locked (s.pc t) with
        | false => rfl
        | true => have := (hi.lock t).mpr h; simp [hl] at this
      refine ⟨t, true, ht, ?_⟩
      cases hp : s.pc t <;> rw [hp] at hm' hl' ht <;> first | (simp only [locked, isM] at hm' hl'; contradiction) | contradiction | skip
      all_goals simp only [step, hp, hl]
      all_goals simp only [ne_eq, not_true_eq_false, if_true, if_false]
      all_goals (repeat' split) <;> exact ⟨_, rfl⟩

/-- Steps left for a call, at most. -/
def left : Pc → Nat
  | .idle => 0
  | .f2 => 4 | .f3 => 3 | .f4 _ => 2 | .f5 _ => 1
  | .m2 => 4 | .m3 => 3 | .m4 => 2 | .m5 => 1
  | .r2 => 7 | .r3 => 6 | .r3a => 5 | .r3b => 4 | .r4 _ => 3 | .r5 _ => 2 | .r6 _ => 1
  | .e2 | .s2 => 1

/-- C116. A call returns after at most seven steps of its own: together with `never_stuck`, every call returns once the others let it. -/
theorem steps_left {s s' : State} (h : Reach s) {t : Nat} {b : Bool} (hs : step s (.go t b) = some s') : left (s'.pc t) < left (s.pc t) ∧ left (s.pc t) ≤ 7 := by
  have hi := inv_reach h
  have h5 := hi.here t
  simp only [step] at hs
  cases hp : s.pc t <;> simp only [hp] at hs h5 <;> (try contradiction) <;> (repeat' split at hs) <;> (first | contradiction | (injection hs with hs; subst hs)) <;>
    simp_all [State.ret, State.set, State.unlock, left, At]

/-! ### Runs -/

/-- Two threads and a request: follow, flip to master, yield to another node, fail to follow, follow, be asked through the chain. -/
def sampleRun : List Act :=
  [.call 0 .expose, .go 0 true,
   .call 0 .follow, .go 0 true, .go 0 true, .go 0 true,
   .call 1 .follow,
   .call 0 .flip, .go 0 true, .go 0 true, .go 0 true, .go 0 true,
   .borrow, .call 1 .request, .go 1 true, .release, .call 0 .follow, .go 1 true, .go 1 true,
   .go 0 true, .go 0 true, .go 0 false, .go 0 true,
   .call 0 .follow, .go 0 true, .go 0 true, .go 0 true,
   .call 1 .request, .go 1 true, .go 1 true, .go 1 true, .go 1 true, .go 1 true, .go 1 true]

def trace (s : State) : List (Nat × Res × Option Role) := s.log.reverse.map fun e => (e.t, e.res, e.after)

example : (run {} sampleRun).map (fun s => (s.role, trace s)) = some (some .yielded,
    [(0, .exposed, some .master), (0, .followed, some .following), (1, .alreadyFollowing, some .following), (0, .flipped, some .master), (1, .reqYielded, some .yielded),
     (0, .followFailed, some .yielded), (0, .followed, some .following), (1, .reqYielded, some .yielded)]) := by decide +kernel

/-- A flip through the chain whose diff cannot be sent ends as a master although it followed: the remote master has yielded by then. -/
example : (run {} [.call 0 .expose, .go 0 true, .call 0 .follow, .go 0 true, .go 0 true, .go 0 true, .call 1 .request, .go 1 true, .go 1 true, .go 1 true, .go 1 true, .go 1 true,
    .go 1 false, .go 1 true]).map (fun s => (s.role, trace s)) = some (some .master,
    [(0, .exposed, some .master), (0, .followed, some .following), (1, .reqDiffFailed, some .master)]) := by decide +kernel

/-! ### Without the discipline -/

/-- Two concurrent `FollowRemoteStream`: both pass the check of line 578 before either locks, and the second waits for the publisher that the first has given to the follower. -/
def twoFollows : List Act := [.call 0 .follow, .call 1 .follow, .go 0 true, .go 0 true, .go 0 true, .go 1 true]

def stuckNow (s : State) (t : Nat) : Bool := (step s (.go t true)).isNone && (step s (.go t false)).isNone

/-- The second call never returns, and holds the mutex: nor does any later call that needs it. The controller cannot be used again, except to flip to master. -/
theorem two_follows_hang : ∃ s, run {} twoFollows = some s ∧ s.pc 1 = .f3 ∧ s.lock = some 1 ∧ s.ext = 0 ∧ (∀ u b, step s (.go u b) = none) := by
  refine ⟨_, rfl, rfl, rfl, rfl, ?_⟩
  intro u b
  simp only [step, State.ret, State.set, State.unlock, State.free, Bool.and_true, Bool.not_false, if_true, Bool.false_eq_true, if_false]
  by_cases h1 : u = 1
  · subst h1; rfl
  · by_cases h0 : u = 0
    · subst h0; rfl
    · simp [h0, h1]

/-- And as long as nobody flips, whatever is called and done, the call stays there with the mutex. -/
theorem two_follows_hang_for_ever {s s' : State} {a : Act} (hp : s.pc 1 = .f3) (hl : s.lock = some 1) (hf : s.follower = true) (hb : s.borrowed = false) (hm : s.master = false)
    (hq : ∀ u, u ≠ 1 → locked (s.pc u) = false ∧ isM (s.pc u) = false) (ha : ∀ t, a ≠ .call t .flip) (h : step s a = some s') :
    s'.pc 1 = .f3 ∧ s'.lock = some 1 ∧ s'.follower = true ∧ s'.borrowed = false ∧ s'.master = false ∧ ∀ u, u ≠ 1 → locked (s'.pc u) = false ∧ isM (s'.pc u) = false := by
  cases a with
  | borrow => simp [step, hm] at h
  | release => simp only [step] at h; split at h <;> first | contradiction | (injection h with h; subst h; exact ⟨hp, hl, hf, hb, hm, hq⟩)
  | call t o =>
    simp only [step] at h
    split at h <;> first | contradiction | skip
    cases o with
    | flip => exact absurd rfl (ha t)
    | _ =>
      simp only [hf, if_true] at h
      injection h with h; subst h
      refine ⟨?_, hl, hf, hb, hm, fun u hu => ?_⟩ <;> simp only [State.ret, State.set] <;> split <;> simp_all [locked, isM]
  | go t b =>
    by_cases ht : t = 1
    · subst ht; simp [step, hp, hb, hf, State.free] at h
    · have := hq t ht
      cases hpt : s.pc t <;> rw [hpt] at this <;> simp [locked, isM] at this <;> simp [step, hpt, hl] at h

/-- `FlipToMaster` while a flip requested by another node is in progress: the request has taken the follower away, and the null pointer is used. -/
theorem flip_during_request_crashes : ((run {} [.call 0 .expose, .go 0 true, .call 0 .follow, .go 0 true, .go 0 true, .go 0 true,
    .call 1 .request, .go 1 true, .go 1 true, .call 0 .flip, .go 0 true, .go 1 true, .go 0 true]).map (fun s => s.crashed)) = some true := by decide +kernel

/-- `FlipToMaster` while `FollowRemoteStream` is called: the remote has yielded, the local stream has a new follower, and `FlipToMaster` waits for it. Nobody is a master any more. -/
theorem flip_during_follow_hangs : ((run {} [.call 0 .follow, .go 0 true, .go 0 true, .go 0 true, .call 0 .flip, .go 0 true, .go 0 true, .go 0 true,
    .call 1 .follow, .go 1 true, .go 1 true, .go 1 true]).map (fun s => (s.role, s.pc 0, s.pc 1, stuckNow s 0))) = some (some .following, .m5, .idle, true) := by decide +kernel

/-- The discipline is needed: without it the properties above fail. -/
theorem discipline_is_needed : ∃ s, run {} twoFollows = some s ∧ ¬ Reach s := by
  obtain ⟨s, h, hp, hl, he, hs⟩ := two_follows_hang
  refine ⟨s, h, fun hr => ?_⟩
  obtain ⟨u, b, _, s', h'⟩ := never_stuck hr he (t := 1) (by rw [hp]; simp)
  rw [hs u b] at h'
  contradiction

end Current.Ctl
