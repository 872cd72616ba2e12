import Verif.Own.Flip
/-! C24: publisher ownership through master/following flips. -/
namespace Current.Own.Flip

/-- Specification. What a history of events says about the stream: who may publish now. -/
inductive Mode where
  | master (gen : Nat)        -- anybody who asks the stream for the publisher number `gen`
  | following (gen : Nat)     -- only the party that was given publisher `gen`
  | changing                  -- a flip is in progress
  deriving DecidableEq, Repr

def mode : List Ev → Mode
  | [] => .master 0
  | l => l.foldl (fun m e => match e with
      | .flipping => .changing
      | .flipped true g => .master g
      | .flipped false g => .following g
      | _ => m) (.master 0)

theorem mode_eq (l : List Ev) : mode l = l.foldl (fun m e => match e with
      | .flipping => .changing
      | .flipped true g => .master g
      | .flipped false g => .following g
      | _ => m) (.master 0) := by cases l <;> rfl

theorem mode_snoc (l : List Ev) (e : Ev) : mode (l ++ [e]) = match e with
      | .flipping => .changing
      | .flipped true g => .master g
      | .flipped false g => .following g
      | _ => mode l := by
  rw [mode_eq, mode_eq, List.foldl_append]; rfl

/-- Every event is allowed by the history before it. -/
def Allowed (before : List Ev) : Ev → Prop
  | .published g fromStream => if fromStream then mode before = .master g else mode before = .following g
  | .publishedRef g => mode before = .master g
  | .refused => ∃ g, mode before = .following g
  | .flipping => mode before ≠ .changing
  | .flipped _ _ => mode before = .changing
  | .dangling => True

structure Inv (s : St) : Prop where
  cur : ∀ x ∈ s.h, x.2.gen = s.gen
  create : ∀ m, s.flip = some ⟨m, .create⟩ → s.h = []
  flipping : s.flip ≠ none → s.borrowable = false ∧ mode s.log = .changing
  idle : s.flip = none → mode s.log = (if s.borrowable then .master s.gen else .following s.gen) ∧ ∀ x ∈ s.h, x.2.fromStream = s.borrowable
  log : ∀ l1 e l2, s.log = l1 ++ e :: l2 → Allowed l1 e

theorem mem_of_lookup {α : Type} {l : List (Nat × α)} {i : Nat} {x : α} (h : l.lookup i = some x) : (i, x) ∈ l := by
  induction l with
  | nil => cases h
  | cons a l ih =>
    obtain ⟨j, y⟩ := a
    simp only [List.lookup] at h
    split at h
    · rename_i e; cases h
      have : i = j := by simpa using e
      subst this; exact List.mem_cons_self ..
    · exact List.mem_cons_of_mem _ (ih h)

theorem mem_del {α : Type} {l : List (Nat × α)} {i : Nat} {x : Nat × α} (h : x ∈ del l i) : x ∈ l := (List.mem_filter.1 h).1
theorem mem_set {α : Type} {l : List (Nat × α)} {i : Nat} {v : α} {x : Nat × α} (h : x ∈ set l i v) : x = (i, v) ∨ x ∈ l := by
  rcases List.mem_cons.1 h with h | h
  · exact Or.inl h
  · exact Or.inr (mem_del h)

theorem split_snoc {α : Type} {l l1 l2 : List α} {x y : α} (h : l ++ [x] = l1 ++ y :: l2) :
    (l2 = [] ∧ l1 = l ∧ y = x) ∨ ∃ l3, l2 = l3 ++ [x] ∧ l = l1 ++ y :: l3 := by
  rcases List.eq_nil_or_concat l2 with h2 | ⟨l3, z, h2⟩
  · subst h2
    have := List.append_inj' h (by simp)
    simp at this
    exact Or.inl ⟨rfl, this.1.symm, this.2.symm⟩
  · subst h2
    right
    have h' : l ++ [x] = (l1 ++ y :: l3) ++ [z] := by simpa using h
    have := List.append_inj' h' (by simp)
    simp at this
    exact ⟨l3, by simp [this.2], this.1⟩

theorem Inv.init : Inv St.init := by
  constructor <;> simp [St.init, mode]

theorem log_snoc {s : St} (hi : Inv s) {e : Ev} (he : Allowed s.log e) (l1 : List Ev) (e' : Ev) (l2 : List Ev)
    (h : s.log ++ [e] = l1 ++ e' :: l2) : Allowed l1 e' := by
  rcases split_snoc h with ⟨_, rfl, rfl⟩ | ⟨l3, _, h⟩
  · exact he
  · exact hi.log _ _ _ h

/-- Changing handles only, to values of handles already there. -/
theorem Inv.handles {s : St} (hi : Inv s) (h' : List (Nat × Handle)) (hne : s.h ≠ [])
    (hh : ∀ y ∈ h', ∃ x ∈ s.h, y.2.gen = x.2.gen ∧ y.2.fromStream = x.2.fromStream) : Inv { s with h := h' } := by
  refine ⟨?_, ?_, hi.flipping, ?_, hi.log⟩
  · intro y hy
    obtain ⟨x, hx, h1, _⟩ := hh y hy
    rw [h1]; exact hi.cur x hx
  · intro m hm; exact absurd (hi.create m hm) hne
  · intro hf
    refine ⟨(hi.idle hf).1, ?_⟩
    intro y hy
    obtain ⟨x, hx, _, h2⟩ := hh y hy
    rw [h2]; exact (hi.idle hf).2 x hx

theorem Inv.emit {s : St} (hi : Inv s) (e : Ev) (he : Allowed s.log e) (hm : mode (s.log ++ [e]) = mode s.log) :
    Inv { s with log := s.log ++ [e] } := by
  refine ⟨hi.cur, hi.create, ?_, ?_, log_snoc hi he⟩
  · intro h; exact ⟨(hi.flipping h).1, hm ▸ (hi.flipping h).2⟩
  · intro h; exact ⟨hm ▸ (hi.idle h).1, (hi.idle h).2⟩

theorem step_inv {s s' : St} (hi : Inv s) (a : Act) (hs : step s a = some s') : Inv s' := by
  cases a with
  | borrow dst =>
    simp only [step] at hs
    split at hs
    · cases hs
    · rename_i hc
      have hf : s.flip = none := by
        cases h : s.flip with
        | none => rfl
        | some f => exact absurd (Or.inl (by simp [h])) hc
      split at hs
      · rename_i hb
        cases hs
        refine ⟨?_, ?_, hi.flipping, ?_, hi.log⟩
        · intro x hx
          rcases mem_set hx with rfl | hx
          · rfl
          · exact hi.cur x hx
        · intro m hm; rw [hf] at hm; cases hm
        · intro _
          refine ⟨(hi.idle hf).1, ?_⟩
          intro x hx
          rcases mem_set hx with rfl | hx
          · exact hb.symm
          · exact (hi.idle hf).2 x hx
      · rename_i hb
        cases hs
        refine hi.emit .refused ⟨s.gen, ?_⟩ (mode_snoc _ _)
        rw [(hi.idle hf).1, if_neg hb]
  | copy src dst =>
    simp only [step] at hs
    split at hs
    · cases hs
    · split at hs
      · rename_i x hx
        split at hs
        · cases hs
        · cases hs
          have hm := mem_of_lookup hx
          refine hi.handles _ (List.ne_nil_of_mem hm) ?_
          intro y hy
          rcases mem_set hy with rfl | hy
          · exact ⟨_, hm, rfl, rfl⟩
          · exact ⟨y, hy, rfl, rfl⟩
      · cases hs
  | move src dst =>
    simp only [step] at hs
    split at hs
    · cases hs
    · split at hs
      · rename_i x hx
        split at hs
        · cases hs
        · cases hs
          have hm := mem_of_lookup hx
          refine hi.handles _ (List.ne_nil_of_mem hm) ?_
          intro y hy
          rcases mem_set hy with rfl | hy
          · exact ⟨_, hm, rfl, rfl⟩
          · exact ⟨y, mem_del hy, rfl, rfl⟩
      · cases hs
  | release src =>
    simp only [step] at hs
    split at hs
    · rename_i x hx
      split at hs
      · cases hs
      · cases hs
        refine hi.handles _ (List.ne_nil_of_mem (mem_of_lookup hx)) ?_
        intro y hy
        exact ⟨y, mem_del hy, rfl, rfl⟩
    · cases hs
  | enterPublish src =>
    simp only [step] at hs
    split at hs
    · rename_i x hx
      split at hs
      · cases hs
      · cases hs
        have hm := mem_of_lookup hx
        refine hi.handles _ (List.ne_nil_of_mem hm) ?_
        intro y hy
        rcases mem_set hy with rfl | hy
        · exact ⟨_, hm, rfl, rfl⟩
        · exact ⟨y, hy, rfl, rfl⟩
    · cases hs
  | publish src =>
    simp only [step] at hs
    split at hs
    · cases hs
    · rename_i hf
      have hf : s.flip = none := by
        cases h : s.flip with
        | none => rfl
        | some f => exact absurd (by simp [h]) hf
      split at hs
      · rename_i x hx
        split at hs
        · cases hs
          have hm := mem_of_lookup hx
          have h1 : Inv { s with h := set s.h src { x with busy := false } } := by
            refine hi.handles _ (List.ne_nil_of_mem hm) ?_
            intro y hy
            rcases mem_set hy with rfl | hy
            · exact ⟨_, hm, rfl, rfl⟩
            · exact ⟨y, hy, rfl, rfl⟩
          refine h1.emit (.published x.gen x.fromStream) ?_ (mode_snoc _ _)
          have hg := hi.cur _ hm
          obtain ⟨hmo, hfs⟩ := hi.idle hf
          have hfs := hfs _ hm
          dsimp only at hg hfs
          simp only [Allowed, hg, hfs, hmo]
          cases s.borrowable <;> simp
        · cases hs
      · cases hs
  | getRef r =>
    simp only [step] at hs
    split at hs
    · cases hs
    · rename_i hf
      have hf : s.flip = none := by
        cases h : s.flip with
        | none => rfl
        | some f => exact absurd (by simp [h]) hf
      split at hs
      · cases hs; exact ⟨hi.cur, hi.create, hi.flipping, hi.idle, hi.log⟩
      · rename_i hb
        cases hs
        refine hi.emit .refused ⟨s.gen, ?_⟩ (mode_snoc _ _)
        rw [(hi.idle hf).1, if_neg hb]
  | publishRef r =>
    simp only [step] at hs
    split at hs
    · rename_i g hg
      split at hs
      · rename_i hb
        cases hs
        refine hi.emit (.publishedRef g) ?_ (mode_snoc _ _)
        have hf : s.flip = none := by
          cases h : s.flip with
          | none => rfl
          | some f => have := (hi.flipping (by simp [h])).1; rw [hb.1] at this; cases this
        simp only [Allowed]
        rw [(hi.idle hf).1, if_pos hb.1, hb.2]
      · cases hs
        exact hi.emit .dangling trivial (mode_snoc _ _)
    · cases hs
  | becomeMaster =>
    simp only [step] at hs
    split at hs
    · cases hs
    · rename_i hf
      have hf : s.flip = none := by
        cases h : s.flip with
        | none => rfl
        | some f => exact absurd (by simp [h]) hf
      cases hs
      refine ⟨hi.cur, by simp, fun _ => ⟨rfl, mode_snoc _ _⟩, by simp, log_snoc hi ?_⟩
      simp only [Allowed]
      rw [(hi.idle hf).1]
      split <;> simp
  | becomeFollowing =>
    simp only [step] at hs
    split at hs
    · cases hs
    · rename_i hf
      have hf : s.flip = none := by
        cases h : s.flip with
        | none => rfl
        | some f => exact absurd (by simp [h]) hf
      cases hs
      refine ⟨hi.cur, by simp, fun _ => ⟨rfl, mode_snoc _ _⟩, by simp, log_snoc hi ?_⟩
      simp only [Allowed]
      rw [(hi.idle hf).1]
      split <;> simp
  | flipWait =>
    simp only [step] at hs
    split at hs
    · rename_i m hm
      split at hs
      · rename_i hall
        cases hs
        refine ⟨hi.cur, ?_, fun _ => hi.flipping (by simp [hm]), by simp, hi.log⟩
        intro _ _
        cases h : s.h with
        | nil => rfl
        | cons x r =>
          have hx : x ∈ s.h := by simp [h]
          exact absurd (hi.cur x hx) (hall x hx)
      · cases hs
    · cases hs
  | flipDone dst =>
    simp only [step] at hs
    split at hs
    · rename_i hf
      cases hs
      have hc := hi.create _ hf
      refine ⟨by simp [hc], by simp, by simp, fun _ => ⟨by simpa using mode_snoc _ _, by simp [hc]⟩, log_snoc hi ?_⟩
      exact (hi.flipping (by simp [hf])).2
    · rename_i hf
      cases hs
      have hc := hi.create _ hf
      have hb := (hi.flipping (by simp [hf])).1
      refine ⟨?_, by simp, by simp, fun _ => ⟨?_, ?_⟩, log_snoc hi ?_⟩
      · intro x hx
        rcases mem_set hx with rfl | hx
        · rfl
        · rw [hc] at hx; cases hx
      · dsimp only; rw [hb, mode_snoc]; rfl
      · intro x hx
        rcases mem_set hx with rfl | hx
        · exact hb.symm
        · rw [hc] at hx; cases hx
      · exact (hi.flipping (by simp [hf])).2
    · cases hs

theorem run_inv {s s' : St} (hi : Inv s) (as : List Act) (hs : run s as = some s') : Inv s' := by
  induction as generalizing s with
  | nil => simp [run] at hs; subst hs; exact hi
  | cons a as ih =>
    simp only [run] at hs
    split at hs
    · rename_i t h; exact ih (step_inv hi a h) hs
    · cases hs

theorem Reachable.inv {s : St} (h : Reachable s) : Inv s := by
  obtain ⟨as, h⟩ := h; exact run_inv Inv.init as h

/-- C24: whatever the threads do, every publication goes through the publisher that is current at that moment: in a master
stream through a publisher obtained from the stream since its last flip, in a following stream through the publisher given away by that
flip (or a copy of it), during a flip not at all; the stream refuses to give its publisher out exactly when it follows. -/
theorem publications_use_the_current_publisher {s : St} (hs : Reachable s) (l1 : List Ev) (e : Ev) (l2 : List Ev)
    (h : s.log = l1 ++ e :: l2) : Allowed l1 e := hs.inv.log l1 e l2 h

/-- C24: when a flip has returned no publisher handed out before it is left. -/
theorem no_old_publisher_after_flip {s : St} (hs : Reachable s) (i : Nat) (x : Handle) (h : (i, x) ∈ s.h) :
    x.gen = s.gen ∧ (s.flip = none → x.fromStream = s.isMaster ∧
      mode s.log = if s.isMaster then .master x.gen else .following x.gen) := by
  have hi := hs.inv
  refine ⟨hi.cur _ h, fun hf => ⟨(hi.idle hf).2 _ h, ?_⟩⟩
  rw [(hi.idle hf).1, hi.cur _ h]; rfl

/-- C24: a following stream refuses, a master stream gives. -/
theorem following_refuses {s : St} (hs : Reachable s) (g : Nat) (hm : mode s.log = .following g) (dst : Nat)
    (hd : s.h.lookup dst = none) :
    step s (.borrow dst) = some { s with log := s.log ++ [.refused] } ∧
    step s (.getRef dst) = some { s with log := s.log ++ [.refused] } := by
  have hi := hs.inv
  have hf : s.flip = none := by
    cases h : s.flip with
    | none => rfl
    | some f => have := (hi.flipping (by simp [h])).2; rw [hm] at this; cases this
  have hb : s.borrowable = false := by
    have := (hi.idle hf).1
    rw [hm] at this
    cases hb : s.borrowable
    · rfl
    · rw [hb] at this; simp at this
  constructor
  · simp [step, hf, hd, hb]
  · simp [step, hf, hb]

theorem master_gives {s : St} (hs : Reachable s) (g : Nat) (hm : mode s.log = .master g) (dst : Nat)
    (hd : s.h.lookup dst = none) :
    ∃ s', step s (.borrow dst) = some s' ∧ s'.h.lookup dst = some ⟨g, false, true⟩ ∧ s'.log = s.log := by
  have hi := hs.inv
  have hf : s.flip = none := by
    cases h : s.flip with
    | none => rfl
    | some f => have := (hi.flipping (by simp [h])).2; rw [hm] at this; cases this
  have := (hi.idle hf).1
  rw [hm] at this
  have hb : s.borrowable = true := by
    cases hb : s.borrowable
    · rw [hb] at this; simp at this
    · rfl
  rw [hb] at this
  simp at this
  refine ⟨{ s with h := set s.h dst ⟨s.gen, false, true⟩ }, by simp [step, hf, hd, hb], ?_, rfl⟩
  simp [set, List.lookup, this]

/-- A history with both flips, publications through a borrowed publisher, through a copy of the one given away, and a refusal. -/
example : ∃ s, Reachable s ∧ s.log = [.published 0 true, .publishedRef 0, .flipping, .flipped false 1, .refused, .published 1 false,
      .flipping, .flipped true 2, .publishedRef 2] ∧ mode s.log = .master 2 ∧ s.h = [] :=
  ⟨_, ⟨[.borrow 1, .enterPublish 1, .publish 1, .getRef 1, .publishRef 1, .becomeFollowing, .release 1, .flipWait, .flipDone 2, .borrow 1, .copy 2 3,
    .enterPublish 3, .publish 3, .becomeMaster, .release 2, .release 3, .flipWait, .flipDone 0, .getRef 5, .publishRef 5], rfl⟩, rfl, rfl, rfl⟩

example : ∃ s, Reachable s ∧ mode s.log = .following 1 ∧ s.h = [(2, ⟨1, false, false⟩)] ∧ s.flip = none :=
  ⟨_, ⟨[.becomeFollowing, .flipWait, .flipDone 2], rfl⟩, rfl, rfl, rfl⟩

/-- A flip completes as soon as the publishers handed out are released. -/
theorem flip_completes_when_released {s : St} (m : Bool) (hf : s.flip = some ⟨m, .waiting⟩) (hh : s.h = []) (dst : Nat) :
    ∃ t, run s [.flipWait, .flipDone dst] = some t ∧ t.flip = none ∧ t.log = s.log ++ [.flipped m (s.gen + 1)] := by
  cases m
  · exact ⟨_, by simp [run, step, hf, hh]; rfl, rfl, rfl⟩
  · exact ⟨_, by simp [run, step, hf, hh]; rfl, rfl, rfl⟩

theorem stuck_step {s s' : St} (m : Bool) (i : Nat) (x : Handle) (hf : s.flip = some ⟨m, .waiting⟩) (hx : s.h.lookup i = some x)
    (hb : x.busy = true) (hg : x.gen = s.gen) (hbo : s.borrowable = false) (a : Act) (hs : step s a = some s') :
    s'.flip = some ⟨m, .waiting⟩ ∧ s'.h.lookup i = some x ∧ s'.gen = s.gen ∧ s'.borrowable = false ∧
      (s'.log = s.log ∨ s'.log = s.log ++ [.dangling]) := by
  have lset : ∀ (l : List (Nat × Handle)) (j : Nat) (v : Handle), l.lookup i = some x → j ≠ i → (set l j v).lookup i = some x := by
    intro l j v hl hj
    have hdel : (del l j).lookup i = some x := by
      induction l with
      | nil => cases hl
      | cons a l ih =>
        obtain ⟨k, y⟩ := a
        simp only [List.lookup] at hl
        split at hl
        · rename_i e
          have e : i = k := by simpa using e
          subst e
          cases hl
          simp [del, Ne.symm hj]
        · rename_i e
          simp only [del, List.filter]
          split
          · simp only [List.lookup, e]; exact ih hl
          · exact ih hl
    simp only [set, List.lookup]
    split
    · rename_i e; exact absurd (by simpa using e : i = j).symm hj
    · exact hdel
  have ldel : ∀ j, j ≠ i → (del s.h j).lookup i = some x := by
    intro j hj
    have := lset s.h j x hx hj
    simp only [set, List.lookup] at this
    split at this
    · rename_i e; exact absurd (by simpa using e : i = j).symm hj
    · exact this
  have same : s'.flip = s.flip → s'.h = s.h → s'.gen = s.gen → s'.borrowable = s.borrowable →
      (s'.log = s.log ∨ s'.log = s.log ++ [.dangling]) → _ := fun h1 h2 h3 h4 h5 =>
    (⟨h1 ▸ hf, h2 ▸ hx, h3, h4 ▸ hbo, h5⟩ : s'.flip = some ⟨m, .waiting⟩ ∧ s'.h.lookup i = some x ∧ s'.gen = s.gen ∧ s'.borrowable = false ∧
      (s'.log = s.log ∨ s'.log = s.log ++ [.dangling]))
  cases a <;> simp only [step, hf] at hs
  case borrow dst => simp at hs
  case copy src dst =>
    split at hs
    · cases hs
    · rename_i hd
      split at hs
      · rename_i y hy
        split at hs
        · cases hs
        · cases hs
          exact ⟨rfl, lset _ _ _ hx (by rintro rfl; rw [hx] at hd; simp at hd), rfl, hbo, Or.inl rfl⟩
      · cases hs
  case move src dst =>
    split at hs
    · cases hs
    · rename_i hd
      split at hs
      · rename_i y hy
        split at hs
        · cases hs
        · rename_i hyb
          cases hs
          refine ⟨rfl, lset _ _ _ (ldel _ ?_) (by rintro rfl; rw [hx] at hd; simp at hd), rfl, hbo, Or.inl rfl⟩
          rintro rfl; rw [hx] at hy; cases hy; exact hyb hb
      · cases hs
  case release src =>
    split at hs
    · rename_i y hy
      split at hs
      · cases hs
      · rename_i hyb
        cases hs
        refine ⟨rfl, ldel _ ?_, rfl, hbo, Or.inl rfl⟩
        rintro rfl; rw [hx] at hy; cases hy; exact hyb hb
    · cases hs
  case enterPublish src =>
    split at hs
    · rename_i y hy
      split at hs
      · cases hs
      · rename_i hyb
        cases hs
        refine ⟨rfl, lset _ _ _ hx ?_, rfl, hbo, Or.inl rfl⟩
        rintro rfl; rw [hx] at hy; cases hy; exact hyb hb
    · cases hs
  case publish src => simp at hs
  case getRef r => simp at hs
  case publishRef r =>
    split at hs
    · rw [if_neg (by simp [hbo])] at hs
      cases hs
      exact same hf.symm rfl rfl rfl (Or.inr rfl)
    · cases hs
  case becomeMaster => simp at hs
  case becomeFollowing => simp at hs
  case flipWait =>
    rw [if_neg (fun h => h _ (mem_of_lookup hx) hg)] at hs
    cases hs
  case flipDone dst => cases hs

/-- A finding about the code: `BecomeMasterStream`/`BecomeFollowingStream` holds `publishing_mutex` while it waits for the publishers
handed out, and `Publish` needs that mutex. If the flip starts while some thread is inside `Publish` of a borrowed publisher
(and has not got the mutex yet), then, on every schedule, neither the flip nor the publication ever completes, and nothing
more is ever published. -/
theorem flip_deadlocks_with_concurrent_publish {s : St} (hs : Reachable s) (m : Bool) (hf : s.flip = some ⟨m, .waiting⟩)
    (i : Nat) (x : Handle) (hx : s.h.lookup i = some x) (hb : x.busy = true) (as : List Act) {t : St} (ht : run s as = some t) :
    t.flip = some ⟨m, .waiting⟩ ∧ t.h.lookup i = some x ∧ ∃ n, t.log = s.log ++ List.replicate n .dangling := by
  have hi := hs.inv
  have hg := hi.cur _ (mem_of_lookup hx)
  have hbo := (hi.flipping (by simp [hf])).1
  clear hi hs
  induction as generalizing s with
  | nil => simp [run] at ht; subst ht; exact ⟨hf, hx, 0, by simp⟩
  | cons a as ih =>
    simp only [run] at ht
    split at ht
    · rename_i u hu
      obtain ⟨h1, h2, h3, h4, h5⟩ := stuck_step m i x hf hx hb hg hbo a hu
      obtain ⟨e1, e2, n, e3⟩ := ih h1 h2 ht (h3 ▸ hg) h4
      refine ⟨e1, e2, ?_⟩
      rcases h5 with h5 | h5
      · exact ⟨n, by rw [e3, h5]⟩
      · exact ⟨n + 1, by rw [e3, h5, List.append_assoc, List.replicate_succ]; rfl⟩
    · cases ht

example : ∃ s, Reachable s ∧ s.flip = some ⟨false, .waiting⟩ ∧ s.h.lookup 1 = some ⟨0, true, true⟩ :=
  ⟨_, ⟨[.borrow 1, .enterPublish 1, .becomeFollowing], rfl⟩, rfl, rfl⟩

/-- A finding about the code: `stream->Publisher()->Publish(...)` racing with a flip uses a destroyed object. -/
theorem publisher_reference_can_dangle : ∃ s, Reachable s ∧ .dangling ∈ s.log :=
  ⟨_, ⟨[.getRef 1, .becomeMaster, .flipWait, .flipDone 0, .publishRef 1], rfl⟩, by decide⟩

end Current.Own.Flip
