import Verif.Karl.ClaireInv
/-! # Claire: theorems -/
namespace Current.Claire

/-- states that a Claire constructed at `t₀` can get into -/
def Reach (lo hi t₀ : Nat) (s : State) : Prop := Steps lo hi (start t₀) s

theorem reach_inv {lo hi t₀ : Nat} {s : State} (r : Reach lo hi t₀ s) :
    Basic s ∧ Period lo hi s ∧ Calls s ∧ Dtor s := by
  unfold Reach at r
  generalize hs : start t₀ = s₀ at r
  induction r with
  | refl => subst hs; exact ⟨basic_start _, period_start _ _ _, calls_start _, dtor_start _⟩
  | step _ h ih =>
    obtain ⟨i1, i2, i3, i4⟩ := ih
    exact ⟨basic_step _ _ _ _ _ h i1, period_step _ _ _ _ _ h i1 i2, calls_step _ _ _ _ _ h i1 i3, dtor_step _ _ _ _ _ h i4⟩

theorem reach_exec {lo hi t₀ : Nat} {s t : State} (r : Reach lo hi t₀ s) (as : List Action) (h : exec lo hi s as = some t) :
    Reach lo hi t₀ t := by
  induction as generalizing s with
  | nil => simp only [exec, Option.some.injEq] at h; subst h; exact r
  | cons a as ih =>
    simp only [exec] at h
    cases h1 : step lo hi s a with
    | none => rw [h1] at h; cases h
    | some u => rw [h1] at h; exact ih (.step r h1) h

/-- **Not too late.**  While Claire's thread runs and is not talking to Karl, at most `hi` has passed since the last attempt
began, or no time since it ended, not counting the time the thread was ready to run and did not. -/
theorem keepalive_not_late {lo hi t₀ : Nat} {s : State} (r : Reach lo hi t₀ s) (h1 : s.loop ≠ .off) (h2 : s.loop ≠ .send)
    (h3 : s.loop ≠ .done) : s.now ≤ max (s.last + hi) s.freeAt + s.lag := by
  have p := (reach_inv r).2.1
  cases h : s.loop with
  | off => exact absurd h h1
  | send => exact absurd h h2
  | done => exact absurd h h3
  | top => exact p.top h
  | wait d => exact (p.wait d h).2

/-- **Not too often.**  Of two attempts of the thread in a row, the second, unless it was asked for, begins at least `lo` after
the first. -/
theorem keepalive_not_often {lo hi t₀ : Nat} {s : State} (r : Reach lo hi t₀ s) (later earlier : List (Nat × Bool)) (t₁ t₂ : Nat)
    (g : Bool) (h : s.log = later ++ (t₂, false) :: (t₁, g) :: earlier) : t₁ + lo ≤ t₂ := by
  have p := (reach_inv r).2.1.spaced
  rw [h] at p
  clear h
  induction later with
  | nil => exact p.1 rfl
  | cons x xs ih =>
    apply ih
    cases xs with
    | nil => exact p.2
    | cons y ys => exact p.2

/-- An attempt that was not asked for can only be one for which the time has come: a thread that has something in its log
asks the clock before it sends again (this is `keepalive_not_often`), and it says `true` in the log only if
`ForceSendKeepalive` has set the flag since the attempt before. -/
theorem asked_for {lo hi t₀ : Nat} {s s' : State} {a : Action} (_ : Reach lo hi t₀ s) (h : step lo hi s a = some s') (t : Nat)
    (hl : s'.log = (t, true) :: s.log) : s.force = true ∧ t = s.now := by
  cases a <;> simp only [step, go, startThread, regStart, setCall] at h <;> (repeat' split at h) <;>
    first
    | contradiction
    | (injection h with h; subst h)
  all_goals first
    | (exfalso; have := congrArg List.length hl; simp at this; done)
    | (simp at hl; exact ⟨hl.2, hl.1.symm⟩)

/-- **`ForceSendKeepalive(Wait)` tells the truth.**  When it returns, more attempts have ended than had begun when it was
called: there is one that began after the call and has ended. -/
theorem wait_is_truthful {lo hi t₀ : Nat} {s : State} (r : Reach lo hi t₀ s) (i m : Nat) (h : s.calls i = .returned true m) :
    m < s.ended :=
  (reach_inv r).2.2.1.returned i m h

/-- the mark of a call is the number of attempts that had begun when it was called -/
theorem call_mark {lo hi : Nat} {s s' : State} (i : Nat) (w : Bool) (h : step lo hi s (.call i w) = some s') :
    s'.calls i = .begun w s.began := by
  claire_open h
  all_goals simp [setCall]

/-- and it stays that -/
theorem mark_stays {lo hi : Nat} {s s' : State} (a : Action) (h : step lo hi s a = some s') (i m : Nat)
    (hm : (∃ w, s.calls i = .begun w m) ∨ s.calls i = .reset m ∨ (∃ w, s.calls i = .forced w m) ∨ (∃ w, s.calls i = .told w m) ∨
      ∃ w, s.calls i = .returned w m) :
    (∃ w, s'.calls i = .begun w m) ∨ s'.calls i = .reset m ∨ (∃ w, s'.calls i = .forced w m) ∨ (∃ w, s'.calls i = .told w m) ∨
      ∃ w, s'.calls i = .returned w m := by
  cases a <;> simp only [step, go, startThread, regStart, setCall] at h <;> (repeat' split at h) <;>
    first
    | contradiction
    | (injection h with h; subst h)
  all_goals grind

/-- **A request is not lost.**  Once `ForceSendKeepalive` has notified the thread, an attempt has begun since it was called,
or the thread is not asleep and will send without waiting. -/
theorem force_not_lost {lo hi t₀ : Nat} {s : State} (r : Reach lo hi t₀ s) (i m : Nat) (w : Bool)
    (h : s.calls i = .told w m ∨ s.calls i = .returned w m) : m < s.began ∨ (s.force = true ∧ asleep s = false) := by
  have c := (reach_inv r).2.2.1
  rcases h with h | h
  · exact (c.told i w m h).2.symm
  · exact (c.told2 i w m h).2.symm

/-- what "without waiting" means: the next step of the thread begins an attempt, unless Claire is being destroyed -/
theorem forced_sends {lo hi : Nat} {s s' : State} (a : Action) (ha : (∃ q, a = .plan q) ∨ a = .wake ∨ a = .timeout)
    (h : step lo hi s a = some s') (hf : s.force = true) :
    s'.loop = .send ∧ s'.began = s.began + 1 ∧ s'.last = s.now ∨ s.destructing = true ∧ s'.loop = .done := by
  rcases ha with ⟨q, rfl⟩ | rfl | rfl <;> simp only [step, go] at h <;> (repeat' split at h) <;>
    first
    | contradiction
    | (injection h with h; subst h)
  all_goals simp_all

/-- distance of the keepalive thread from its end, once the destructor has run -/
def dist : Loop → Nat
  | .done => 0
  | .off => 0
  | .top => 1
  | .wait _ => 2
  | .send => 2

/-- the steps of the keepalive thread -/
def IsThread : Action → Prop
  | .plan _ | .wake | .timeout | .sendEnd => True
  | _ => False

/-- Once the destructor has notified the keepalive thread, that thread is never blocked, and each of its steps brings it
closer to its end.  So joining it in the destructor returns, provided that talking to Karl does. -/
theorem destructor_returns {lo hi t₀ : Nat} {s : State} (hlh : lo ≤ hi) (r : Reach lo hi t₀ s) (hn : s.dtorNotified = true)
    (hx : s.exited = false) (hg : s.registering = false) :
    asleep s = false ∧
    (s.loop ≠ .done → s.loop ≠ .off → ∃ a, IsThread a ∧ ∃ s', step lo hi s a = some s' ∧ dist s'.loop < dist s.loop) ∧
    (∀ a, IsThread a → ∀ s', step lo hi s a = some s' → dist s'.loop < dist s.loop) ∧
    (∀ a s', step lo hi s a = some s' → dist s'.loop ≤ dist s.loop ∧ s'.dtorNotified = true) := by
  obtain ⟨b, _, _, d⟩ := reach_inv r
  have hd := d.dest hn
  refine ⟨?_, ?_, ?_, ?_⟩
  · unfold asleep
    split
    · next h => simp [d.wait _ h hn]
    · rfl
  · intro h1 h2
    cases hs : s.loop with
    | off => exact absurd hs h2
    | done => exact absurd hs h1
    | top => exact ⟨.plan lo, trivial, _, by simp [step, hx, hs, hd, hlh]; rfl, by simp [dist]⟩
    | wait q => exact ⟨.wake, trivial, _, by simp [step, hx, hs, hd, hg, go]; rfl, by simp [dist]⟩
    | send => exact ⟨.sendEnd, trivial, _, by simp [step, hx, hs]; rfl, by simp [dist]⟩
  · intro a ha s' h
    cases a <;> simp only [IsThread] at ha <;> simp only [step, go] at h <;> (repeat' split at h) <;>
      first
      | contradiction
      | (injection h with h; subst h)
    all_goals simp_all [dist]
  · intro a s' h
    have hr := b.running
    cases a <;> simp only [step, go, startThread, regStart, setCall] at h <;> (repeat' split at h) <;>
      first
      | contradiction
      | (injection h with h; subst h)
    all_goals simp_all [dist]

/-- If nobody has made Claire send a keepalive before, `Register` does not end the program. -/
theorem register_ok_partial {lo hi t₀ : Nat} {s s' : State} (_ : Reach lo hi t₀ s) (a : Action)
    (ha : (∃ c, a = .register c) ∨ ∃ k, a = .registered k) (h : step lo hi s a = some s') (hoff : s.loop = .off) : s'.exited = false := by
  have hr := (reach_inv ‹_›).1.running
  rcases ha with ⟨c, rfl⟩ | ⟨c, rfl⟩ <;> simp only [step, regStart, startThread] at h <;> (repeat' split at h) <;>
    first
    | contradiction
    | (injection h with h; subst h)
  all_goals simp_all

/-! ## Concrete histories, and what goes wrong -/

/-- the action that asks for a keepalive -/
def asks : Action → Bool
  | .force _ => true
  | _ => false

theorem asked_step {lo hi : Nat} {s s' : State} {a : Action} (h : step lo hi s a = some s') :
    (s'.log.filter (·.2)).length + s'.force.toNat ≤ (s.log.filter (·.2)).length + s.force.toNat + (asks a).toNat := by
  unfold step at h
  split at h
  · cases h
  · cases a <;> dsimp only at h <;> (repeat' split at h) <;>
      first
      | contradiction
      | (injection h with h; subst h
         simp only [go, regStart, startThread, setCall]
         (repeat' split) <;> simp_all [asks] <;> first | omega | (cases s.force <;> simp) | skip)

/-- **One keepalive for a request.**  However the calls and the thread interleave, the thread sends no more keepalives out of turn than
there were requests for them: a request is answered once. -/
theorem asked_once {lo hi t₀ : Nat} {s : State} (as : List Action) (h : exec lo hi (start t₀) as = some s) :
    (s.log.filter (·.2)).length ≤ as.countP asks := by
  have key : ∀ (as : List Action) (s t : State), exec lo hi s as = some t →
      (t.log.filter (·.2)).length + t.force.toNat ≤ (s.log.filter (·.2)).length + s.force.toNat + as.countP asks := by
    intro as
    induction as with
    | nil => intro s t h; simp only [exec, Option.some.injEq] at h; subst h; simp
    | cons a as ih =>
      intro s t h
      simp only [exec] at h
      cases h1 : step lo hi s a with
      | none => rw [h1] at h; cases h
      | some u =>
        rw [h1] at h
        have h2 := ih u t h
        have h3 := asked_step h1
        have h4 : (a :: as).countP asks = as.countP asks + (asks a).toNat := by
          rw [List.countP_cons]
          cases asks a <;> rfl
        omega
  have := key as _ _ h
  simp only [start, List.filter_nil, List.length_nil, Bool.toNat_false] at this
  omega

/-- A Claire that registers, sends at once and then again after 20 units. -/
theorem demo_two :
    (exec 18 22 (start 100) ([.register false, .plan 18, .tick, .sendEnd, .plan 20] ++ List.replicate 19 .tick ++
      [.timeout, .sendEnd])).map (fun s => (s.log, s.ended, s.loop, s.now)) =
    some ([(120, false), (100, false)], 2, .top, 120) := by decide +kernel

/-- `ForceSendKeepalive(Wait)` while the thread sleeps. -/
theorem demo_force :
    (exec 18 22 (start 100) [.register false, .plan 18, .sendEnd, .plan 20, .tick, .call 0 true, .reset 0, .force 0, .notify 0,
      .wake, .tick, .sendEnd, .ret 0]).map (fun s => (s.log, s.calls 0, s.ended)) =
    some ([(101, true), (100, false)], .returned true 1, 2) := by decide +kernel

/-- **`Register` after a request to send.**  `ForceSendKeepalive`, `SetKarlLocator` and the HTTP requests that call them start
the thread.  `Register` finds it running and ends the program. -/
theorem register_after_force_exits :
    (exec 18 22 (start 100) [.call 0 false, .force 0, .notify 0, .ret 0, .register false]).map (fun s => s.exited) =
    some true := by decide +kernel

/-- once the thread has ended without having sent, `keepalive_sent_` stays `false` -/
theorem never_sent {lo hi : Nat} {s u : State} (h : Steps lo hi s u) (hr : s.running = true) (hl : s.loop = .done)
    (hs : s.sent = false) : u.running = true ∧ u.loop = .done ∧ u.sent = false := by
  induction h with
  | refl => exact ⟨hr, hl, hs⟩
  | step _ h ih =>
    rename_i t u a _
    obtain ⟨h1, h2, h3⟩ := ih
    cases a <;> simp only [step, go, startThread, regStart, setCall] at h <;> (repeat' split at h) <;>
      first
      | contradiction
      | (injection h with h; subst h)
    all_goals simp_all

/-- **`ForceSendKeepalive(Wait)` while Claire is being destroyed never returns.**  A request to `/.current?initiate_keepalive=wait`
puts `keepalive_sent_` back, the destructor ends the thread before it has sent anything.  The call is then stuck for ever:
so is the HTTP thread, and with it the destructor, which unregisters the HTTP handler at its end. -/
theorem wait_in_destruction_stuck :
    ∃ s, Reach 18 22 100 s ∧ s.calls 0 = .told true 1 ∧
      ∀ u, Steps 18 22 s u → ∀ m, u.calls 0 ≠ .returned true m ∧ step 18 22 u (.ret 0) = none := by
  let acts : List Action := [.register false, .plan 18, .sendEnd, .plan 20, .call 0 true, .reset 0, .force 0, .destruct,
      .dtorNotify, .wake, .notify 0]
  have hex : (exec 18 22 (start 100) acts).isSome = true := by decide +kernel
  obtain ⟨s, hs⟩ := Option.isSome_iff_exists.1 hex
  have hp : (exec 18 22 (start 100) acts).map (fun s => (s.calls 0, s.running, s.loop, s.sent)) =
      some (.told true 1, true, .done, false) := by decide +kernel
  rw [hs] at hp
  simp only [Option.map_some, Option.some.injEq, Prod.mk.injEq] at hp
  obtain ⟨hc, hr, hl, hsn⟩ := hp
  refine ⟨s, reach_exec (.refl _) acts hs, hc, fun u hu m => ?_⟩
  have hcall : u.calls 0 = .told true 1 := by
    clear hs hex
    induction hu with
    | refl => exact hc
    | step hst h ih =>
      rename_i t u a
      have hns := never_sent hst hr hl hsn
      cases a <;> simp only [step, go, startThread, regStart, setCall] at h <;> (repeat' split at h) <;>
        first
        | contradiction
        | (injection h with h; subst h)
      all_goals grind
  have hns := never_sent hu hr hl hsn
  refine ⟨by rw [hcall]; simp, ?_⟩
  simp [step, hcall, hns.2.2]
end Current.Claire
