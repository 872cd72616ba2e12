import Verif.Karl.Bound
/-! What the users of Karl can rely on: registered states and timeouts. -/
namespace Current.Karl
variable {C L S : Type} [DecidableEq C] [DecidableEq L] [Inhabited L] [Inhabited S]

theorem reach_times {T t₀ : Nat} {dom : List C} {cl : C → Option (Claire L S)} (h0 : 0 < t₀)
    (hd : ∀ c, cl c ≠ none → c ∈ dom) {s : State C L S} (r : Reach T t₀ dom cl s) : Times s := by
  induction r with
  | start => exact times_start t₀ dom cl h0 hd
  | step a _ h ih => exact times_step T _ _ a h ih

theorem reach_wake {T t₀ : Nat} {dom : List C} {cl : C → Option (Claire L S)} {s : State C L S}
    (r : Reach T t₀ dom cl s) : Wake s := by
  induction r with
  | start => exact wake_start t₀ dom cl
  | step a _ h ih => exact wake_step T _ _ a h ih

theorem reach_track {T t₀ : Nat} {dom : List C} {cl : C → Option (Claire L S)} {s : State C L S}
    (r : Reach T t₀ dom cl s) : Track s := by
  induction r with
  | start => exact track_start t₀ dom cl
  | step a _ h ih => exact track_step T _ _ a h ih

theorem fresh_reach {T t₀ : Nat} {dom : List C} {cl : C → Option (Claire L S)} {s : State C L S}
    (r : Fresh T t₀ dom cl s) : Reach T t₀ dom cl s := by
  induction r with
  | start => exact .start
  | step a _ h _ ih => exact .step a ih h

theorem fresh_bound {T t₀ : Nat} {dom : List C} {cl : C → Option (Claire L S)} (h0 : 0 < t₀)
    (hd : ∀ c, cl c ≠ none → c ∈ dom) {s : State C L S} (r : Fresh T t₀ dom cl s) : Bound T s := by
  induction r with
  | start => exact bound_start T t₀ dom cl
  | step a r h hq ih =>
    exact bound_step T _ _ a h ih (reach_times h0 hd (fresh_reach r)) (reach_wake (fresh_reach r)) hq

/-! ## Registered states -/

/-- A keepalive makes its service active, at the place it came from, whatever the storage said before. -/
theorem keepalive_activates (T : Nat) (s s' : State C L S) (c : C) (l : L) (sv : S) (t : Nat)
    (hh : s.hand = .ka c l sv t) (h : step T s .kaTx = some s') :
    (∃ x, s'.claires c = some x ∧ x.reg = .active ∧ x.location = l) ∧
    (∀ d, d ≠ c → s'.claires d = s.claires d) ∧ s'.events = s.events ++ [.keepalive c t] := by
  simp only [step, hh, Option.some.injEq] at h
  subst h
  refine ⟨⟨kept (s.claires c) l sv t, by simp [put], ?_, ?_⟩, fun d hd => by simp [put, hd], rfl⟩
  · unfold kept; repeat' split
    all_goals simp_all
  · unfold kept; repeat' split
    all_goals simp_all

/-- A `DELETE` deregisters its service, and nothing else about the service is lost. -/
theorem delete_deregisters (T : Nat) (s s' : State C L S) (c : C)
    (hh : s.hand = .del c) (h : step T s .delTx = some s') :
    (∃ x, s'.claires c = some x ∧ x.reg = .deregistered ∧
      ∀ y, s.claires c = some y → x.location = y.location ∧ x.service = y.service ∧ x.reported = y.reported) ∧
    (∀ d, d ≠ c → s'.claires d = s.claires d) ∧ s'.events = s.events ++ [.deregistered c] := by
  simp only [step, hh, Option.some.injEq] at h
  subst h
  refine ⟨⟨deregistered (s.claires c), by simp [put], deregistered_reg _, fun y hy => ?_⟩,
    fun d hd => by simp [put, hd], rfl⟩
  simp [hy, deregistered]

/-- Every active service is watched: it is in the cache that the state update thread scans, or that thread has already
picked it, or the keepalive that made it active is just being finished. -/
theorem active_is_watched {T t₀ : Nat} {dom : List C} {cl : C → Option (Claire L S)} {s : State C L S}
    (r : Reach T t₀ dom cl s) (hc : s.constructed = true) (c : C) (ha : Active s c) :
    s.cache c ≠ none ∨ pending s c = true ∨ ∃ t, s.hand = .kaCache c t :=
  (reach_track r).act hc c ha

theorem events_grow (T : Nat) (s s' : State C L S) (a : Action C L S) (h : step T s a = some s') :
    ∃ new, s'.events = s.events ++ new := by
  cases a <;> karl_open h <;> first | exact ⟨_, rfl⟩ | exact ⟨[], (List.append_nil _).symm⟩

theorem timedOut_event (T : Nat) (s s' : State C L S) (a : Action C L S) (h : step T s a = some s') (c : C)
    (new : List (Event C)) (he : s'.events = s.events ++ new) (hm : Event.timedOut c ∈ new) :
    pending s c = true ∧ s'.claires c = some (timedOut (s.claires c)) := by
  have key : ∀ l, s.events ++ l = s.events ++ new → Event.timedOut c ∈ l := fun l hl =>
    (List.append_cancel_left hl) ▸ hm
  have key0 : s.events = s.events ++ new → False := fun hl => by
    have : new = [] := by simpa using hl
    simp [this] at hm
  clear hm
  cases a <;> karl_open h <;> first
    | exact (key0 he).elim
    | (have h2 := key _ he; simp at h2; done)
    | (have h2 := key _ he; simp at h2; clear he key key0; simp_all [pending])

/-- what the state update thread knows of the codenames it has picked -/
structure Picked (T : Nat) (s : State C L S) : Prop where
  len : s.scanned ≤ s.finished.length
  old : ∀ c, pending s c = true → ∀ p ∈ s.finished.take s.scanned, p.1 = c → p.2 + T < s.lastScan

theorem picked_step (T : Nat) (s s' : State C L S) (a : Action C L S) (h : step T s a = some s') (i : Picked T s)
    (ht : Times s) : Picked T s' := by
  have hn := ht.newest
  obtain ⟨i1, i2⟩ := i
  clear ht
  cases a <;> karl_open h
  all_goals constructor
  all_goals grind [pending, scanLate, late]

/-- Who is told to have timed out has been silent.  Whenever `OnTimedOut` is called for a service, the state update thread
looked at the cache at some earlier moment (`lastScan`), and every keepalive of that service whose handling was finished by
that moment was more than `service_timeout_interval` old at that moment. -/
theorem timed_out_was_silent {T t₀ : Nat} {dom : List C} {cl : C → Option (Claire L S)} (h0 : 0 < t₀)
    (hd : ∀ c, cl c ≠ none → c ∈ dom) {s s' : State C L S} (r : Reach T t₀ dom cl s) (a : Action C L S)
    (h : step T s a = some s') (c : C) (new : List (Event C)) (he : s'.events = s.events ++ new)
    (hm : Event.timedOut c ∈ new) :
    s.lastScan ≤ s.now ∧ s.scanned ≤ s.finished.length ∧
    (∀ p ∈ s.finished.take s.scanned, p.1 = c → p.2 + T < s.lastScan) ∧
    ∃ x, s'.claires c = some x ∧ x.reg = .disconnected := by
  have hp : Picked T s := by
    clear h he hm
    induction r with
    | start => constructor <;> simp [start, pending]
    | step a r h ih => exact picked_step T _ _ a h ih (reach_times h0 hd r)
  have hl : s.lastScan ≤ s.now := by
    clear h he hm hp
    induction r with
    | start => simp [start]
    | step a r h ih => cases a <;> karl_open h <;> (try exact ih) <;> simp_all <;> omega
  obtain ⟨h1, h2⟩ := timedOut_event T s s' a h c new he hm
  exact ⟨hl, hp.len, fun p hpm hpc => hp.old c h1 p hpm hpc, _, h2, timedOut_reg _⟩

/-- The same for any state: a service is marked as disconnected by timeout only together with `OnTimedOut` or when it was
not in the storage at all. -/
theorem disconnected_was_told (T : Nat) (s s' : State C L S) (a : Action C L S) (h : step T s a = some s') (c : C)
    (x : Claire L S) (hx : s.claires c = some x) (hn : x.reg ≠ .disconnected) (y : Claire L S)
    (hy : s'.claires c = some y) (hr : y.reg = .disconnected) (hd : ∀ c, s.claires c ≠ none → c ∈ s.dom) :
    ∃ new, s'.events = s.events ++ new ∧ Event.timedOut c ∈ new := by
  have := hd c (by simp [hx])
  cases a <;> karl_open h
  all_goals grind [put, kept, deregistered_reg]

/-- A service that has been deregistered, and that nobody is about to touch -/
def Gone (s : State C L S) (c : C) : Prop :=
  (∃ x, s.claires c = some x ∧ x.reg = .deregistered) ∧ s.cache c = none ∧ pending s c = false ∧
  (∀ l sv t, s.hand ≠ .ka c l sv t) ∧ ∀ t, s.hand ≠ .kaCache c t

theorem gone_step (T : Nat) (s s' : State C L S) (a : Action C L S) (h : step T s a = some s') (c : C)
    (hg : Gone s c) (hk : ∀ l sv, a ≠ .kaBegin c l sv) : Gone s' c ∧
      ∀ new, s'.events = s.events ++ new → Event.timedOut c ∉ new := by
  obtain ⟨⟨x, hx, hr⟩, h2, h3, h4, h5⟩ := hg
  refine ⟨?_, fun new he hm => by simp [(timedOut_event T s s' a h c new he hm).1] at h3⟩
  cases a <;> karl_open h
  all_goals (refine ⟨?_, ?_, ?_, ?_, ?_⟩ <;> grind [put, deregistered_reg, pending, scanLate])

/-- runs -/
def Steps (T : Nat) (s : State C L S) : List (Action C L S) → Option (State C L S)
  | [] => some s
  | a :: as => (step T s a).bind fun s' => Steps T s' as

/-- A gracefully deregistered service stays deregistered until its next keepalive, and `OnTimedOut` is not called for it —
provided the state update thread had not already picked it when it was deregistered.  (Without that: see
`deregistered_overwritten`.) -/
theorem deregistered_stays_partial (T : Nat) (c : C) (as : List (Action C L S)) : ∀ (s s' : State C L S), Gone s c →
    (∀ a ∈ as, ∀ l sv, a ≠ .kaBegin c l sv) → Steps T s as = some s' →
    Gone s' c ∧ ∀ new, s'.events = s.events ++ new → Event.timedOut c ∉ new := by
  induction as with
  | nil =>
    intro s s' hg _ h
    simp only [Steps, Option.some.injEq] at h
    subst h
    refine ⟨hg, fun new hn => ?_⟩
    have : new = [] := by simpa using hn
    simp [this]
  | cons a as ih =>
    intro s s' hg hk h
    simp only [Steps] at h
    cases hs : step T s a with
    | none => simp [hs] at h
    | some s1 =>
      rw [hs, Option.bind_some] at h
      obtain ⟨g1, e1⟩ := gone_step T s s1 a hs c hg (hk a (by simp))
      obtain ⟨g2, e2⟩ := ih s1 s' g1 (fun b hb => hk b (by simp [hb])) h
      refine ⟨g2, fun new hn hm => ?_⟩
      obtain ⟨n1, hn1⟩ : ∃ n1, s1.events = s.events ++ n1 := by
        exact events_grow T s s1 a hs
      obtain ⟨n2, hn2⟩ : ∃ n2, s'.events = s1.events ++ n2 := by
        clear ih e1 e2 hn hm g1 g2 hn1 hk hs hg
        induction as generalizing s1 with
        | nil => simp only [Steps, Option.some.injEq] at h; subst h; exact ⟨[], by simp⟩
        | cons b bs ihb =>
          simp only [Steps] at h
          cases hb : step T s1 b with
          | none => simp [hb] at h
          | some s2 =>
            rw [hb, Option.bind_some] at h
            obtain ⟨m2, hm2⟩ := ihb s2 h
            obtain ⟨m1, hm1⟩ : ∃ m1, s2.events = s1.events ++ m1 := by
              exact events_grow T s1 s2 b hb
            exact ⟨m1 ++ m2, by rw [hm2, hm1, List.append_assoc]⟩
      have : new = n1 ++ n2 := by
        rw [hn2, hn1, List.append_assoc] at hn
        exact (List.append_cancel_left hn).symm
      rw [this, List.mem_append] at hm
      rcases hm with hm | hm
      · exact e1 n1 hn1 hm
      · exact e2 n2 hn2 hm

/-! ## Timeouts -/

/-- How long a service can be silent and still be active.  In every run of a Karl in which no service was active when the
constructor looked at the storage: an active service is one whose last keepalive was recorded at most
`2 * service_timeout_interval + 1` microseconds ago (not counting the time the state update thread was delayed: `lag`), or
one that the state update thread is about to mark, or one whose keepalive is being finished. -/
theorem silent_is_dropped_partial {T t₀ : Nat} {dom : List C} {cl : C → Option (Claire L S)} (h0 : 0 < t₀)
    (hd : ∀ c, cl c ≠ none → c ∈ dom) {s : State C L S} (r : Fresh T t₀ dom cl s) (hc : s.constructed = true)
    (hr : s.loop ≠ .done) (c : C) (ha : Active s c) :
    s.now ≤ s.seen c + 2 * T + 1 + s.lag ∨ (pending s c = true ∧ s.now ≤ s.lastScan + s.lag) ∨
    ∃ t, s.hand = .kaCache c t := by
  have hb := fresh_bound h0 hd r
  rcases active_is_watched (fresh_reach r) hc c ha with h | h | h
  · obtain ⟨t, ht⟩ := Option.ne_none_iff_exists'.1 h
    exact .inl (hb.bound hr c t ht)
  · refine .inr (.inl ⟨h, ?_⟩)
    unfold pending at h
    cases hl : s.loop with
    | tx lt rc => exact (hb.tx lt rc hl).2.1
    | _ => simp [hl] at h
  · exact .inr (.inr h)

/-- the recorded time is never older than the recording, nor newer than now -/
theorem seen_is_recording (T : Nat) (s s' : State C L S) (c : C) (t : Nat) (hh : s.hand = .kaCache c t)
    (h : step T s .kaCache = some s') : s'.seen c = s.now ∧ s'.cache c = some t ∧ s'.finished = s.finished ++ [(c, t)] := by
  simp only [step, hh, Option.some.injEq] at h
  subst h
  simp [put]

/-! ## The destructor -/

/-- distance of the state update thread from its end, once the destructor has run -/
def dist : Loop C → Nat
  | .done => 0
  | .top => 1
  | .wait _ => 2
  | .sleep _ => 2
  | .tx _ _ => 3

def loopActions : List (Action C L S) := [.scan, .loopTx, .loopSleep, .loopWake, .loopTimeout]

/-- Once the destructor has notified the state update thread, that thread is never blocked: it can always take a step, and
each of its steps brings it closer to its end.  So joining it in the destructor returns. -/
theorem destructor_returns {T t₀ : Nat} {dom : List C} {cl : C → Option (Claire L S)} {s : State C L S}
    (r : Reach T t₀ dom cl s) (hn : s.dtorNotified = true) :
    asleep s = false ∧
    (s.loop ≠ .done → ∃ a ∈ (loopActions : List (Action C L S)), ∃ s', step T s a = some s' ∧ dist s'.loop < dist s.loop) ∧
    (∀ a ∈ (loopActions : List (Action C L S)), ∀ s', step T s a = some s' → dist s'.loop < dist s.loop) ∧
    (∀ a s', step T s a = some s' → dist s'.loop ≤ dist s.loop ∧ s'.dtorNotified = true) := by
  have hw := reach_wake r
  have hd := hw.dest hn
  have h1 : asleep s = false := by
    unfold asleep
    split
    · next h => simp [hw.dtor _ h hn]
    · next d h => simp [hw.dtor _ h hn]
    · rfl
  refine ⟨h1, ?_, ?_, ?_⟩
  · intro hl
    cases hs : s.loop with
    | done => exact absurd hs hl
    | top => exact ⟨.scan, by simp [loopActions], _, by simp [step, hs, hd]; rfl, by simp [dist]⟩
    | tx lt rc => exact ⟨.loopTx, by simp [loopActions], _, by simp [step, hs]; rfl, by simp [dist]⟩
    | wait d => exact ⟨.loopWake, by simp [loopActions], _, by simp [step, hs, hd]; rfl, by simp [dist]⟩
    | sleep rc =>
      refine ⟨.loopSleep, by simp [loopActions], { s with loop := .top, force := false }, ?_, by simp [dist]⟩
      simp only [step, hs, hd, Bool.true_or, if_true]
      repeat' split
      all_goals rfl
  · intro a ha s' h
    simp only [loopActions, List.mem_cons, List.not_mem_nil, or_false] at ha
    rcases ha with rfl | rfl | rfl | rfl | rfl <;> karl_open h <;> simp_all [dist]
  · intro a s' h
    cases a <;> karl_open h <;> simp_all [dist]
end Current.Karl
