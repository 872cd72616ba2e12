import Verif.Storage.Txn
/-!
C35–C38: transactions.
-/
namespace Current.Storage
variable {F K R C E P V : Type} [DecidableEq F] [DecidableEq K] [DecidableEq R] [DecidableEq C]

/-! ### Specification -/

/-- What the operations of a body do to the fields, and the mutations they make, in order. -/
def runOps (S : F → Schema K R C E P) : Fields F K R C E → List (Act F K R C E P) → Option (Fields F K R C E × List (F × FEv K R C E P))
  | σ, [] => some (σ, [])
  | σ, .op f o :: as => match σ.op S f o with
    | none => none
    | some (σ', l) => (runOps S σ' as).map fun r => (r.1, l.map (·.1) ++ r.2)
  | σ, .setMeta _ _ :: as => runOps S σ as
  | σ, .eraseMeta _ :: as => runOps S σ as

/-- The meta fields a body sets. -/
def metaSpec : (String → Option String) → List (Act F K R C E P) → String → Option String
  | g, [] => g
  | g, .op _ _ :: as => metaSpec g as
  | g, .setMeta k v :: as => metaSpec (fun x => if x = k then some v else g x) as
  | g, .eraseMeta k :: as => metaSpec (fun x => if x = k then none else g x) as

/-- The calls on a storage. -/
inductive Call (F K R C E P V : Type) where
  | readWrite (t : Clock) (acts : List (Act F K R C E P)) (out : Outcome V)
  | readWriteVoid (t : Clock) (acts : List (Act F K R C E P)) (out : Outcome Unit)
  | twoStep (t : Clock) (acts : List (Act F K R C E P)) (out : Outcome V) (f2 : Nat → V → Outcome V)
  | readOnly (out : Outcome V)
  | publishOther (ts : Time)
  | gracefulShutdown
  /-- The process ends, between transactions or in the middle of one, and a new one opens the stream. -/
  | restart
  /-- A following storage, after some steps, gets everything and takes over. -/
  | handOver (steps : List FollowerStep)

def Storage.call (S : F → Schema K R C E P) (kinds : F → Kind) (st : Storage F K R C E P) : Call F K R C E P V → Option (Storage F K R C E P)
  | .readWrite t acts out => (st.readWrite S t acts out).map (·.1)
  | .readWriteVoid t acts out => (st.readWriteVoid S t acts out).map (·.1)
  | .twoStep t acts out f2 => (st.twoStep S t acts out f2).map (·.1)
  | .readOnly out => (st.readOnly out).map (·.1)
  | .publishOther ts => some (st.publishOther ts)
  | .gracefulShutdown => some { st with destructing := true }
  | .restart => Storage.create S kinds st.stream st.head
  | .handOver steps => match Storage.followerSteps S st.stream (Storage.createFollowing kinds [] st.head) (steps ++ [.receive st.stream.length]) with
    | none => none
    | some fo => (fo.becomeMaster S true).map (·.1)

/-- A history of a storage. `none`: the process ended. -/
def Storage.calls (S : F → Schema K R C E P) (kinds : F → Kind) : Storage F K R C E P → List (Call F K R C E P V) → Option (Storage F K R C E P)
  | st, [] => some st
  | st, c :: cs => match st.call S kinds c with
    | none => none
    | some st' => Storage.calls S kinds st' cs

/-- A new master storage on an empty stream. -/
def Storage.fresh (kinds : F → Kind) : Storage F K R C E P := { fields := fun f => (kinds f).empty }

/-- No user can tell the fields of the storages apart. -/
def Storage.SameFields (a b : Storage F K R C E P) : Prop := ∀ f, (a.fields f).SameObservations (b.fields f)

/-! ### Proofs -/

/-- The fields are in order, the journal is empty, and the stream rebuilds the fields. -/
structure Storage.Good (S : F → Schema K R C E P) (kinds : F → Kind) (st : Storage F K R C E P) : Prop where
  inv : st.fields.Inv S
  journal : st.journal = {}
  applied : st.lastApplied ≤ st.head
  rebuilt : ∃ g, applyEntries S (fun f => (kinds f).empty) (-1) st.stream = some (g, st.lastApplied) ∧ g.Inv S ∧ g.view = st.fields.view

theorem good_fresh (S : F → Schema K R C E P) (kinds : F → Kind) : (Storage.fresh kinds : Storage F K R C E P).Good S kinds :=
  ⟨fun f => Kind.inv (S f) (kinds f), rfl, Int.le_refl _, _, rfl, fun f => Kind.inv (S f) (kinds f), rfl⟩

theorem runActs_spec {S : F → Schema K R C E P} (hS : ∀ f, (S f).KeepsKeys) (acts : List (Act F K R C E P)) {σ : Fields F K R C E} (hσ : σ.Inv S) (j : Journal F K R C E P) :
    ∃ σ' j' l, runActs S σ j acts = some (σ', j') ∧ j'.log = j.log ++ l ∧ FChain S σ l σ' ∧ runOps S σ acts = some (σ', l.map (·.1)) ∧
      (∀ k, find j'.info.fields k = metaSpec (find j.info.fields) acts k) ∧ j'.info.beginUs = j.info.beginUs := by
  induction acts generalizing σ j with
  | nil => exact ⟨σ, j, [], rfl, by simp, .nil _, rfl, fun _ => rfl, rfl⟩
  | cons a as ih =>
    cases a with
    | op f o =>
      obtain ⟨σ₁, l₁, h1, h2⟩ := fop_chain hS hσ f o
      obtain ⟨σ', j', l, a1, a2, a3, a4, a5, a6⟩ := ih (h2.inv hσ) { j with log := j.log ++ l₁ }
      refine ⟨σ', j', l₁ ++ l, by simp only [runActs, h1, a1], by rw [a2]; simp, h2.append a3, ?_, ?_, a6⟩
      · simp only [runOps, h1, a4, Option.map_some, List.map_append]
      · intro k; rw [a5]; rfl
    | setMeta x v =>
      obtain ⟨σ', j', l, a1, a2, a3, a4, a5, a6⟩ := ih hσ { j with info := { j.info with fields := put j.info.fields x v } }
      refine ⟨σ', j', l, by simp only [runActs, a1], a2, a3, by simp only [runOps, a4], ?_, a6⟩
      intro k; rw [a5, find_put]; rfl
    | eraseMeta x =>
      obtain ⟨σ', j', l, a1, a2, a3, a4, a5, a6⟩ := ih hσ { j with info := { j.info with fields := del j.info.fields x } }
      refine ⟨σ', j', l, by simp only [runActs, a1], a2, a3, by simp only [runOps, a4], ?_, a6⟩
      intro k; rw [a5, find_del]; rfl

/-- The state a body leaves, before it is committed or rolled back. -/
theorem run_spec {S : F → Schema K R C E P} (hS : ∀ f, (S f).KeepsKeys) {kinds : F → Kind} {st : Storage F K R C E P} (h : st.Good S kinds) (t : Clock) (acts : List (Act F K R C E P)) :
    ∃ σ' info l, st.run S t acts = some { st with fields := σ', journal := ⟨info, l⟩ } ∧ FChain S st.fields l σ' ∧ runOps S st.fields acts = some (σ', l.map (·.1)) ∧
      (∀ k, find info.fields k = metaSpec (fun _ => none) acts k) ∧ info.beginUs = t.beginUs := by
  obtain ⟨σ', j', l, a1, a2, a3, a4, a5, a6⟩ := runActs_spec hS acts h.inv { st.journal with info := { st.journal.info with beginUs := t.beginUs } }
  refine ⟨σ', j'.info, l, ?_, a3, a4, ?_, a6⟩
  · unfold Storage.run
    rw [a1]
    have : j'.log = l := by rw [a2, h.journal]; rfl
    simp only [← this]
  · intro k; rw [a5, h.journal]; rfl

/-- Rolling back. -/
theorem rollback_good {S : F → Schema K R C E P} {kinds : F → Kind} {st : Storage F K R C E P} (h : st.Good S kinds) {σ' : Fields F K R C E} (info : Meta)
    {l : List (Logged F K R C E P)} (hc : FChain S st.fields l σ') :
    (Storage.rollback { st with fields := σ', journal := ⟨info, l⟩ }).Good S kinds ∧ (Storage.rollback { st with fields := σ', journal := ⟨info, l⟩ }).SameFields st := by
  obtain ⟨a, b⟩ := hc.undo h.inv σ' (hc.inv h.inv) rfl
  obtain ⟨g, g1, g2, g3⟩ := h.rebuilt
  refine ⟨⟨a, rfl, h.applied, g, g1, g2, g3.trans b.symm⟩, fun f => ?_⟩
  exact Field.same_observations (a f) (h.inv f) (congrFun b f)

theorem applyEntries_append (S : F → Schema K R C E P) (σ : Fields F K R C E) (t : Time) (l l' : List (StreamEntry F K R C E P)) :
    applyEntries S σ t (l ++ l') = (applyEntries S σ t l).bind fun r => applyEntries S r.1 r.2 l' := by
  induction l generalizing σ t with
  | nil => rfl
  | cons e l ih =>
    obtain ⟨ts, tx⟩ := e
    cases tx with
    | none => simp only [List.cons_append, applyEntries]; exact ih σ t
    | some tx =>
      simp only [List.cons_append, applyEntries]
      split
      · exact ih _ _
      · rfl

/-- The stream after a commit. -/
def committedStream (st : Storage F K R C E P) (t : Clock) (info : Meta) (muts : List (F × FEv K R C E P)) : List (StreamEntry F K R C E P) :=
  st.stream ++ (if muts = [] then [] else [(t.ts, some ⟨{ info with endUs := t.endUs }, muts⟩)])

/-- When the clock is in order for a commit. -/
def Clock.Ok (t : Clock) (st : Storage F K R C E P) : Prop := t.beginUs < t.endUs ∧ st.head < t.ts ∧ st.lastApplied < t.ts

instance (t : Clock) (st : Storage F K R C E P) : Decidable (t.Ok st) := by unfold Clock.Ok; infer_instance

/-- Persisting. -/
theorem persist_spec {S : F → Schema K R C E P} {kinds : F → Kind} {st : Storage F K R C E P} (h : st.Good S kinds) (hm : st.master = true) {σ' : Fields F K R C E} {info : Meta}
    {l : List (Logged F K R C E P)} (hc : FChain S st.fields l σ') (t : Clock) (hb : info.beginUs = t.beginUs) :
    ((l = [] ∨ t.Ok st) → ∃ st', (Storage.after { st with fields := σ', journal := ⟨info, l⟩ } t).persist t.ts = some st' ∧ st'.Good S kinds ∧ st'.fields = σ' ∧
      st'.stream = committedStream st t info (l.map (·.1)) ∧ st'.master = true ∧ st'.destructing = st.destructing) ∧
    (¬ (l = [] ∨ t.Ok st) → (Storage.after { st with fields := σ', journal := ⟨info, l⟩ } t).persist t.ts = none) := by
  obtain ⟨g, g1, g2, g3⟩ := h.rebuilt
  obtain ⟨r1, r2⟩ := hc.replay g g2 g3
  constructor
  · intro hok
    by_cases hl : l = []
    · subst hl
      cases hc
      refine ⟨{ st with journal := {} }, ?_, ⟨h.inv, rfl, h.applied, g, g1, g2, g3⟩, rfl, by simp [committedStream], hm, rfl⟩
      unfold Storage.after Storage.persist
      simp [hm]
    · have hok : t.Ok st := hok.resolve_left hl
      refine ⟨{ st with fields := σ', journal := {}, stream := committedStream st t info (l.map (·.1)), head := t.ts, lastApplied := t.ts }, ?_,
        ⟨hc.inv h.inv, rfl, Int.le_refl _, g.replayAll S (l.map (·.1)), ?_, r1, r2⟩, rfl, rfl, hm, rfl⟩
      · unfold Storage.after Storage.persist committedStream
        have : l.isEmpty = false := by cases l with
          | nil => exact absurd rfl hl
          | cons => rfl
        have hmm : ¬ (l.map (·.1)) = [] := by simpa using hl
        have hok2 : info.beginUs < t.endUs ∧ st.head < t.ts ∧ st.lastApplied < t.ts := by rw [hb]; exact hok
        simp only [hm, if_true, this, Bool.false_eq_true, if_false]
        rw [if_pos hok2, if_neg hmm]
      · show applyEntries S _ _ (committedStream st t info (l.map (·.1))) = _
        have hmm : ¬ (l.map (·.1)) = [] := by simpa using hl
        unfold committedStream
        rw [if_neg hmm, applyEntries_append, g1]
        simp only [Option.bind_some, applyEntries]
        rw [if_pos hok.2.2]
  · intro hok
    rw [not_or] at hok
    unfold Storage.after Storage.persist
    have : l.isEmpty = false := by cases l with
      | nil => exact absurd rfl hok.1
      | cons => rfl
    have hok2 : ¬ (info.beginUs < t.endUs ∧ st.head < t.ts ∧ st.lastApplied < t.ts) := by rw [hb]; exact hok.2
    simp only [hm, if_true, this, Bool.false_eq_true, if_false]
    rw [if_neg hok2]

/-- What a following storage has: the transactions among the first entries of its stream, applied. -/
structure Storage.Follows (S : F → Schema K R C E P) (kinds : F → Kind) (all : List (StreamEntry F K R C E P)) (fo : Storage F K R C E P) : Prop where
  prefix_ : fo.stream = all.take fo.stream.length
  len : fo.next ≤ fo.stream.length
  applied : applyEntries S (fun f => (kinds f).empty) (-1) (all.take fo.next) = some (fo.fields, fo.lastApplied)
  journal : fo.journal = {}
  master : fo.master = false
  destructing : fo.destructing = false

theorem follows_rest {S : F → Schema K R C E P} {kinds : F → Kind} {all : List (StreamEntry F K R C E P)} {fo : Storage F K R C E P} (h : fo.Follows S kinds all) {σ : Fields F K R C E} {t : Time}
    (ha : applyEntries S (fun f => (kinds f).empty) (-1) all = some (σ, t)) : applyEntries S fo.fields fo.lastApplied (all.drop fo.next) = some (σ, t) := by
  have : all = all.take fo.next ++ all.drop fo.next := (List.take_append_drop _ _).symm
  rw [this, applyEntries_append, h.applied] at ha
  exact ha

theorem follows_steps {S : F → Schema K R C E P} {kinds : F → Kind} {all : List (StreamEntry F K R C E P)} {σ : Fields F K R C E} {t : Time}
    (ha : applyEntries S (fun f => (kinds f).empty) (-1) all = some (σ, t)) (steps : List FollowerStep) {fo : Storage F K R C E P} (h : fo.Follows S kinds all) :
    ∃ fo', fo.followerSteps S all steps = some fo' ∧ fo'.Follows S kinds all ∧ fo'.head = fo.head ∧ fo'.subscribed = fo.subscribed := by
  induction steps generalizing fo with
  | nil => exact ⟨fo, rfl, h, rfl, rfl⟩
  | cons x xs ih =>
    have : ∃ fo', fo.followerStep S all x = some fo' ∧ fo'.Follows S kinds all ∧ fo'.head = fo.head ∧ fo'.subscribed = fo.subscribed := by
      cases x with
      | receive n =>
        simp only [Storage.followerStep]
        split
        · rename_i hn
          refine ⟨_, rfl, ⟨?_, ?_, h.applied, h.journal, h.master, h.destructing⟩, rfl, rfl⟩
          · show all.take n = all.take (all.take n).length
            rw [List.length_take]
            by_cases hl : n ≤ all.length
            · rw [Nat.min_eq_left hl]
            · rw [Nat.min_eq_right (by omega), List.take_of_length_le (by omega), List.take_of_length_le (by omega)]
          · show fo.next ≤ (all.take n).length
            have h1 := h.len
            have h2 : fo.stream.length ≤ all.length := by have := congrArg List.length h.prefix_; rw [List.length_take] at this; omega
            rw [List.length_take]; omega
        · exact ⟨fo, rfl, h, rfl, rfl⟩
      | apply =>
        simp only [Storage.followerStep, Storage.follow]
        split
        · split
          · exact ⟨fo, rfl, h, rfl, rfl⟩
          · rename_i i hi
            have hlen : fo.next + i + 1 ≤ fo.stream.length := by
              have := (List.findIdx?_eq_some_iff_getElem.1 hi).1
              rw [List.length_drop] at this; omega
            have h2 : fo.stream.length ≤ all.length := by have := congrArg List.length h.prefix_; rw [List.length_take] at this; omega
            have hes : (fo.stream.drop fo.next).take (i + 1) = (all.drop fo.next).take (i + 1) := by
              rw [h.prefix_, List.drop_take, List.take_take, Nat.min_eq_left (by omega)]
            have htake : all.take (fo.next + i + 1) = all.take fo.next ++ (all.drop fo.next).take (i + 1) := by
              rw [Nat.add_assoc, List.take_add]
            have hall : all = all.take (fo.next + i + 1) ++ all.drop (fo.next + i + 1) := (List.take_append_drop _ _).symm
            have hpart : ∃ r, applyEntries S (fun f => (kinds f).empty) (-1) (all.take (fo.next + i + 1)) = some r := by
              rw [hall, applyEntries_append] at ha
              cases hx : applyEntries S (fun f => (kinds f).empty) (-1) (all.take (fo.next + i + 1)) with
              | none => rw [hx] at ha; cases ha
              | some r => exact ⟨r, rfl⟩
            obtain ⟨⟨σ', t'⟩, hr⟩ := hpart
            have hr' := hr
            rw [htake, applyEntries_append, h.applied] at hr
            have hr2 : applyEntries S fo.fields fo.lastApplied ((all.drop fo.next).take (i + 1)) = some (σ', t') := hr
            rw [hes, hr2]
            exact ⟨_, rfl, ⟨h.prefix_, hlen, hr', h.journal, h.master, h.destructing⟩, rfl, rfl⟩
        · exact ⟨fo, rfl, h, rfl, rfl⟩
    obtain ⟨fo1, a1, a2, a3, a4⟩ := this
    obtain ⟨fo', b1, b2, b3, b4⟩ := ih a2
    exact ⟨fo', by simp only [Storage.followerSteps, a1, b1], b2, b3.trans a3, b4.trans a4⟩

theorem follows_fresh (S : F → Schema K R C E P) (kinds : F → Kind) (all : List (StreamEntry F K R C E P)) (head : Time) :
    (Storage.createFollowing kinds [] head : Storage F K R C E P).Follows S kinds all := ⟨by simp [Storage.createFollowing], by simp [Storage.createFollowing], by
      show applyEntries S _ _ (all.take 0) = _
      rfl, rfl, rfl, rfl⟩

/-- Taking over, with the whole stream received. -/
theorem takes_over {S : F → Schema K R C E P} {kinds : F → Kind} {all : List (StreamEntry F K R C E P)} {fo : Storage F K R C E P} (h : fo.Follows S kinds all) (hfull : fo.stream = all)
    {σ : Fields F K R C E} {t : Time} (ha : applyEntries S (fun f => (kinds f).empty) (-1) all = some (σ, t)) :
    fo.becomeMaster S true = some ({ fo with fields := σ, lastApplied := t, master := true, subscribed := false }, true) := by
  unfold Storage.becomeMaster
  have := follows_rest h ha
  rw [if_neg (by simp [h.master]), if_pos rfl, hfull, this]

theorem followerSteps_append (S : F → Schema K R C E P) (all : List (StreamEntry F K R C E P)) (fo : Storage F K R C E P) (l l' : List FollowerStep) :
    fo.followerSteps S all (l ++ l') = (fo.followerSteps S all l).bind fun x => x.followerSteps S all l' := by
  induction l generalizing fo with
  | nil => rfl
  | cons x xs ih =>
    simp only [List.cons_append, Storage.followerSteps]
    cases fo.followerStep S all x with
    | none => rfl
    | some y => exact ih y

theorem handOver_spec {S : F → Schema K R C E P} {kinds : F → Kind} {st : Storage F K R C E P} (h : st.Good S kinds) (steps : List FollowerStep) :
    ∃ fo st', Storage.followerSteps S st.stream (Storage.createFollowing kinds [] st.head) (steps ++ [.receive st.stream.length]) = some fo ∧
      fo.becomeMaster S true = some (st', true) ∧ st'.Good S kinds ∧ st'.SameFields st ∧ st'.stream = st.stream ∧ st'.lastApplied = st.lastApplied ∧ st'.master = true ∧
      st'.destructing = false := by
  obtain ⟨g, g1, g2, g3⟩ := h.rebuilt
  obtain ⟨fo, a1, a2, a3, a4⟩ := follows_steps g1 steps (follows_fresh S kinds st.stream st.head)
  obtain ⟨fo', b1, b2, b3, b4⟩ := follows_steps g1 [.receive st.stream.length] a2
  have hfull : fo'.stream = st.stream := by
    simp only [Storage.followerSteps, Storage.followerStep] at b1
    have hle : fo.stream.length ≤ st.stream.length := by have := congrArg List.length a2.prefix_; rw [List.length_take] at this; omega
    rw [if_pos hle] at b1
    cases b1
    exact List.take_length
  refine ⟨fo', _, ?_, takes_over b2 hfull g1, ⟨g2, b2.journal, ?_, g, ?_, g2, rfl⟩, fun f => Field.same_observations (g2 f) (h.inv f) (congrFun g3 f), hfull, rfl, rfl, b2.destructing⟩
  · rw [followerSteps_append, a1]; exact b1
  · show st.lastApplied ≤ fo'.head
    rw [b3, a3]; exact h.applied
  · show applyEntries S _ _ fo'.stream = _
    rw [hfull]; exact g1

theorem good_empty {S : F → Schema K R C E P} {kinds : F → Kind} {st : Storage F K R C E P} (h : st.Good S kinds) : st.journal.isEmpty = true := by
  rw [h.journal]; rfl

theorem good_call {S : F → Schema K R C E P} (hS : ∀ f, (S f).KeepsKeys) {kinds : F → Kind} {st st' : Storage F K R C E P} (h : st.Good S kinds) (c : Call F K R C E P V)
    (hc : st.call S kinds c = some st') : st'.Good S kinds := by
  cases c with
  | gracefulShutdown => cases hc; exact ⟨h.inv, h.journal, h.applied, h.rebuilt⟩
  | restart =>
    obtain ⟨g, g1, g2, g3⟩ := h.rebuilt
    simp only [Storage.call, Storage.create, g1, Option.some.injEq] at hc
    subst hc
    exact ⟨g2, rfl, h.applied, g, g1, g2, rfl⟩
  | handOver steps =>
    obtain ⟨fo, x, a, b, c, _⟩ := handOver_spec h steps
    simp only [Storage.call, a, b, Option.map_some, Option.some.injEq] at hc
    rw [← hc]; exact c
  | publishOther ts =>
    cases hc
    unfold Storage.publishOther
    split
    · rename_i hlt
      obtain ⟨g, g1, g2, g3⟩ := h.rebuilt
      refine ⟨h.inv, h.journal, Int.le_of_lt (Int.lt_of_le_of_lt h.applied hlt), g, ?_, g2, g3⟩
      show applyEntries S _ _ (st.stream ++ [(ts, none)]) = _
      rw [applyEntries_append, g1]; rfl
    · exact h
  | readOnly out =>
    simp only [Storage.call, Storage.readOnly, good_empty h] at hc
    split at hc
    · cases hc
    · split at hc
      · cases hc; exact h
      · cases out <;> (cases hc; exact h)
  | readWrite t acts out =>
    simp only [Storage.call, Storage.readWrite, good_empty h] at hc
    split at hc
    · cases hc; exact h
    rename_i hm; rw [Bool.not_eq_false] at hm
    rw [if_neg (by simp)] at hc
    split at hc
    · cases hc; exact h
    obtain ⟨σ', info, l, a1, a2, a3, a4, a5⟩ := run_spec hS h t acts
    rw [a1] at hc
    cases out with
    | returns v =>
      by_cases hok : l = [] ∨ t.Ok st
      · obtain ⟨x, b1, b2, _⟩ := (persist_spec h hm a2 t a5).1 hok
        simp only [b1, Option.map_some, Option.some.injEq] at hc
        rw [← hc]; exact b2
      · have := (persist_spec h hm a2 t a5).2 hok
        simp only [this, Option.map_none] at hc; cases hc
    | rollbackWith v => cases hc; exact (rollback_good h info a2).1
    | rollback => cases hc; exact (rollback_good h info a2).1
    | throws => cases hc; exact (rollback_good h info a2).1
  | readWriteVoid t acts out =>
    simp only [Storage.call, Storage.readWriteVoid, good_empty h] at hc
    split at hc
    · cases hc; exact h
    rename_i hm; rw [Bool.not_eq_false] at hm
    rw [if_neg (by simp)] at hc
    split at hc
    · cases hc; exact h
    obtain ⟨σ', info, l, a1, a2, a3, a4, a5⟩ := run_spec hS h t acts
    rw [a1] at hc
    cases out with
    | returns v =>
      by_cases hok : l = [] ∨ t.Ok st
      · obtain ⟨x, b1, b2, _⟩ := (persist_spec h hm a2 t a5).1 hok
        simp only [b1, Option.map_some, Option.some.injEq] at hc
        rw [← hc]; exact b2
      · have := (persist_spec h hm a2 t a5).2 hok
        simp only [this, Option.map_none] at hc; cases hc
    | rollbackWith v => cases hc; exact (rollback_good h info a2).1
    | rollback => cases hc; exact (rollback_good h info a2).1
    | throws => cases hc; exact (rollback_good h info a2).1
  | twoStep t acts out f2 =>
    simp only [Storage.call, Storage.twoStep, good_empty h] at hc
    split at hc
    · cases hc; exact h
    rename_i hm; rw [Bool.not_eq_false] at hm
    rw [if_neg (by simp)] at hc
    split at hc
    · cases hc; exact h
    obtain ⟨σ', info, l, a1, a2, a3, a4, a5⟩ := run_spec hS h t acts
    rw [a1] at hc
    have nothing : ∀ x : Storage F K R C E P, x.Good S kinds → x.rollback.Good S kinds := by
      intro x hx
      have : x.rollback = { x with journal := {} } := by unfold Storage.rollback; rw [hx.journal]; rfl
      rw [this]
      exact ⟨hx.inv, rfl, hx.applied, hx.rebuilt⟩
    cases out with
    | returns v =>
      by_cases hok : l = [] ∨ t.Ok st
      · obtain ⟨x, b1, b2, _⟩ := (persist_spec h hm a2 t a5).1 hok
        simp only [b1, Option.map_some, Option.some.injEq] at hc
        cases h0 : f2 0 v with
        | returns w => rw [h0] at hc; rw [← hc]; exact b2
        | rollbackWith w =>
          rw [h0] at hc; simp only at hc; rw [← hc]
          cases f2 [v].length w <;> exact nothing x b2
        | rollback => rw [h0] at hc; rw [← hc]; exact nothing x b2
        | throws => rw [h0] at hc; rw [← hc]; exact nothing x b2
      · have := (persist_spec h hm a2 t a5).2 hok
        simp only [this, Option.map_none] at hc; cases hc
    | rollbackWith v =>
      simp only [Option.map_some, Option.some.injEq] at hc
      rw [← hc]
      cases f2 ([] : List V).length v <;> exact (rollback_good h info a2).1
    | rollback => cases hc; exact (rollback_good h info a2).1
    | throws => cases hc; exact (rollback_good h info a2).1

theorem good_calls {S : F → Schema K R C E P} (hS : ∀ f, (S f).KeepsKeys) {kinds : F → Kind} (cs : List (Call F K R C E P V)) {st st' : Storage F K R C E P} (h : st.Good S kinds)
    (hc : st.calls S kinds cs = some st') : st'.Good S kinds := by
  induction cs generalizing st with
  | nil => cases hc; exact h
  | cons c cs ih =>
    simp only [Storage.calls] at hc
    cases h1 : st.call S kinds c with
    | none => rw [h1] at hc; cases hc
    | some x => rw [h1] at hc; exact ih (good_call hS h c h1) hc

theorem persist_stream {st st' : Storage F K R C E P} {ts : Time} (h : st.persist ts = some st') : st.stream <+: st'.stream ∧ st'.stream.length ≤ st.stream.length + 1 := by
  unfold Storage.persist at h
  split at h
  · split at h
    · cases h; exact ⟨List.prefix_rfl, Nat.le_succ _⟩
    · split at h
      · cases h; exact ⟨List.prefix_append _ _, by simp⟩
      · cases h
  · cases h

theorem run_stream {S : F → Schema K R C E P} {st st' : Storage F K R C E P} {t : Clock} {acts : List (Act F K R C E P)} (h : st.run S t acts = some st') : st'.stream = st.stream := by
  unfold Storage.run at h
  split at h
  · cases h
  · cases h; rfl

/-- Every call adds at most one entry to the stream. -/
theorem call_stream {S : F → Schema K R C E P} {kinds : F → Kind} {st st' : Storage F K R C E P} (hg : st.Good S kinds) (c : Call F K R C E P V) (hc : st.call S kinds c = some st') :
    st.stream <+: st'.stream ∧ st'.stream.length ≤ st.stream.length + 1 := by
  have same : ∀ x : Storage F K R C E P, x.stream = st.stream → st.stream <+: x.stream ∧ x.stream.length ≤ st.stream.length + 1 := by
    intro x hx; rw [hx]; exact ⟨List.prefix_rfl, Nat.le_succ _⟩
  cases c with
  | gracefulShutdown => cases hc; exact same _ rfl
  | restart =>
    simp only [Storage.call, Storage.create] at hc
    split at hc
    · cases hc
    · cases hc; exact same _ rfl
  | handOver steps =>
    obtain ⟨fo, x, a, b, _, _, e, _⟩ := handOver_spec hg steps
    simp only [Storage.call, a, b, Option.map_some, Option.some.injEq] at hc
    rw [← hc]; exact same _ e
  | publishOther ts =>
    cases hc
    unfold Storage.publishOther
    split
    · exact ⟨List.prefix_append _ _, by simp⟩
    · exact same _ rfl
  | readOnly out =>
    simp only [Storage.call, Storage.readOnly] at hc
    split at hc
    · cases hc
    · split at hc
      · cases hc; exact same _ rfl
      · cases out <;> (cases hc; exact same _ rfl)
  | readWrite t acts out =>
    simp only [Storage.call, Storage.readWrite] at hc
    split at hc
    · cases hc; exact same _ rfl
    split at hc
    · cases hc
    split at hc
    · cases hc; exact same _ rfl
    cases hr : st.run S t acts with
    | none => rw [hr] at hc; cases hc
    | some x =>
      rw [hr] at hc
      have hx := run_stream hr
      cases out with
      | returns v =>
        cases hp : (x.after t).persist t.ts with
        | none => simp only [hp, Option.map_none] at hc; cases hc
        | some y =>
          simp only [hp, Option.map_some, Option.some.injEq] at hc
          rw [← hc, ← hx]; exact persist_stream (st := x.after t) hp
      | rollbackWith v => cases hc; exact same _ hx
      | rollback => cases hc; exact same _ hx
      | throws => cases hc; exact same _ hx
  | readWriteVoid t acts out =>
    simp only [Storage.call, Storage.readWriteVoid] at hc
    split at hc
    · cases hc; exact same _ rfl
    split at hc
    · cases hc
    split at hc
    · cases hc; exact same _ rfl
    cases hr : st.run S t acts with
    | none => rw [hr] at hc; cases hc
    | some x =>
      rw [hr] at hc
      have hx := run_stream hr
      cases out with
      | returns v =>
        cases hp : (x.after t).persist t.ts with
        | none => simp only [hp, Option.map_none] at hc; cases hc
        | some y =>
          simp only [hp, Option.map_some, Option.some.injEq] at hc
          rw [← hc, ← hx]; exact persist_stream (st := x.after t) hp
      | rollbackWith v => cases hc; exact same _ hx
      | rollback => cases hc; exact same _ hx
      | throws => cases hc; exact same _ hx
  | twoStep t acts out f2 =>
    simp only [Storage.call, Storage.twoStep] at hc
    split at hc
    · cases hc; exact same _ rfl
    split at hc
    · cases hc
    split at hc
    · cases hc; exact same _ rfl
    cases hr : st.run S t acts with
    | none => rw [hr] at hc; cases hc
    | some x =>
      rw [hr] at hc
      have hx := run_stream hr
      cases out with
      | returns v =>
        cases hp : (x.after t).persist t.ts with
        | none => simp only [hp, Option.map_none] at hc; cases hc
        | some y =>
          simp only [hp, Option.map_some, Option.some.injEq] at hc
          have hq : st.stream <+: y.stream ∧ y.stream.length ≤ st.stream.length + 1 := by rw [← hx]; exact persist_stream (st := x.after t) hp
          cases h0 : f2 0 v with
          | returns w => rw [h0] at hc; rw [← hc]; exact hq
          | rollbackWith w =>
            rw [h0] at hc; simp only at hc; rw [← hc]
            cases f2 [v].length w <;> exact hq
          | rollback => rw [h0] at hc; rw [← hc]; exact hq
          | throws => rw [h0] at hc; rw [← hc]; exact hq
      | rollbackWith v =>
        simp only [Option.map_some, Option.some.injEq] at hc
        rw [← hc]
        cases f2 ([] : List V).length v <;> exact same _ hx
      | rollback => cases hc; exact same _ hx
      | throws => cases hc; exact same _ hx

theorem calls_stream {S : F → Schema K R C E P} (hS : ∀ f, (S f).KeepsKeys) {kinds : F → Kind} (cs : List (Call F K R C E P V)) {st st' : Storage F K R C E P} (h : st.Good S kinds)
    (hc : st.calls S kinds cs = some st') : st.stream <+: st'.stream := by
  induction cs generalizing st with
  | nil => cases hc; exact List.prefix_rfl
  | cons c cs ih =>
    simp only [Storage.calls] at hc
    cases h1 : st.call S kinds c with
    | none => rw [h1] at hc; cases hc
    | some x => rw [h1] at hc; exact (call_stream h c h1).1.trans (ih (good_call hS h c h1) hc)

/-- The stream of the past. -/
theorem past_stream {S : F → Schema K R C E P} (hS : ∀ f, (S f).KeepsKeys) {kinds : F → Kind} (history : List (Call F K R C E P V)) {st₀ st : Storage F K R C E P} (hg : st₀.Good S kinds)
    (hst : st₀.calls S kinds history = some st) (n : Nat) (_hn : n ≤ st.stream.length) (hn0 : st₀.stream.length ≤ n) :
    ∃ past x, past <+: history ∧ st₀.calls S kinds past = some x ∧ x.stream = st.stream.take n := by
  induction history generalizing st₀ with
  | nil => cases hst; exact ⟨[], st, List.prefix_rfl, rfl, by rw [List.take_of_length_le hn0]⟩
  | cons c cs ih =>
    by_cases he : st₀.stream.length = n
    · refine ⟨[], st₀, List.nil_prefix, rfl, ?_⟩
      rw [← he]; exact List.prefix_iff_eq_take.1 (calls_stream hS _ hg hst)
    · simp only [Storage.calls] at hst
      cases h1 : st₀.call S kinds c with
      | none => rw [h1] at hst; cases hst
      | some y =>
        rw [h1] at hst
        obtain ⟨past, x, a, b, d⟩ := ih (good_call hS hg c h1) hst (by have := (call_stream hg c h1).2; omega)
        exact ⟨c :: past, x, (List.prefix_cons_inj c).2 a, by simp only [Storage.calls, h1, b], d⟩

/-! ### Theorems -/

/-- C35: after any history, a read-write transaction — whatever its body did — that ends by a rollback or an exception leaves every container as it was: contents, indexes, modification
times; nothing is published. -/
theorem rollback_restores {S : F → Schema K R C E P} (hS : ∀ f, (S f).KeepsKeys) (kinds : F → Kind) (history : List (Call F K R C E P V)) {st : Storage F K R C E P}
    (hst : (Storage.fresh kinds).calls S kinds history = some st) (hm : st.master = true) (hd : st.destructing = false) (t : Clock) (acts : List (Act F K R C E P)) (out : Outcome V)
    (ho : ∀ v, out ≠ .returns v) :
    ∃ st' res, st.readWrite S t acts out = some (st', res) ∧ st'.SameFields st ∧ st'.stream = st.stream ∧ st'.lastApplied = st.lastApplied ∧ st'.journal = {} ∧
      res = (match out with | .returns v => .committed v | .rollbackWith v => .rolledBack (some v) | .rollback => .rolledBack none | .throws => .exception) := by
  have h := good_calls hS history (good_fresh S kinds) hst
  obtain ⟨σ', info, l, a1, a2, a3, a4, a5⟩ := run_spec hS h t acts
  obtain ⟨_, hs⟩ := rollback_good h info a2
  unfold Storage.readWrite
  simp only [hm, Bool.true_eq_false, if_false, good_empty h, hd, Bool.false_eq_true, a1]
  cases out with
  | returns v => exact absurd rfl (ho v)
  | rollbackWith v => exact ⟨_, _, rfl, hs, rfl, rfl, rfl, rfl⟩
  | rollback => exact ⟨_, _, rfl, hs, rfl, rfl, rfl, rfl⟩
  | throws => exact ⟨_, _, rfl, hs, rfl, rfl, rfl, rfl⟩

/-- C35 for transactions returning nothing. -/
theorem rollback_restores_void {S : F → Schema K R C E P} (hS : ∀ f, (S f).KeepsKeys) (kinds : F → Kind) (history : List (Call F K R C E P V)) {st : Storage F K R C E P}
    (hst : (Storage.fresh kinds).calls S kinds history = some st) (hm : st.master = true) (hd : st.destructing = false) (t : Clock) (acts : List (Act F K R C E P)) (out : Outcome Unit)
    (ho : ∀ v, out ≠ .returns v) :
    ∃ st' res, st.readWriteVoid S t acts out = some (st', res) ∧ st'.SameFields st ∧ st'.stream = st.stream ∧ st'.lastApplied = st.lastApplied ∧ st'.journal = {} ∧
      res.wasCommitted = false ∧ (out = .rollback → res = .rolledBack (some ())) := by
  have h := good_calls hS history (good_fresh S kinds) hst
  obtain ⟨σ', info, l, a1, a2, a3, a4, a5⟩ := run_spec hS h t acts
  obtain ⟨_, hs⟩ := rollback_good h info a2
  unfold Storage.readWriteVoid
  simp only [hm, Bool.true_eq_false, if_false, good_empty h, hd, Bool.false_eq_true, a1]
  cases out with
  | returns v => exact absurd rfl (ho v)
  | rollbackWith v => exact ⟨_, _, rfl, hs, rfl, rfl, rfl, rfl, by simp⟩
  | rollback => exact ⟨_, _, rfl, hs, rfl, rfl, rfl, rfl, by simp⟩
  | throws => exact ⟨_, _, rfl, hs, rfl, rfl, rfl, rfl, by simp⟩

/-- C37, commit: after any history, a read-write transaction whose body returns `v` reports `v` as committed, the fields are what its operations made of them, and the stream has exactly
one more entry, with all the mutations in order and the meta fields it set — none if there were no mutations. The process ends if there are mutations and the clock went wrong (it was
not strictly increasing, or something was published with a time ahead of it), and in no other case. -/
theorem transaction_commits {S : F → Schema K R C E P} (hS : ∀ f, (S f).KeepsKeys) (kinds : F → Kind) (history : List (Call F K R C E P V)) {st : Storage F K R C E P}
    (hst : (Storage.fresh kinds).calls S kinds history = some st) (hm : st.master = true) (hd : st.destructing = false) (t : Clock) (acts : List (Act F K R C E P)) (v : V) :
    ∃ σ' muts, runOps S st.fields acts = some (σ', muts) ∧
      (muts = [] ∨ t.Ok st → ∃ st', st.readWrite S t acts (.returns v) = some (st', .committed v) ∧ st'.fields = σ' ∧ st'.journal = {} ∧
        ((muts = [] ∧ st'.stream = st.stream) ∨
          (muts ≠ [] ∧ ∃ tx, st'.stream = st.stream ++ [(t.ts, some tx)] ∧ tx.mutations = muts ∧ tx.info.beginUs = t.beginUs ∧ tx.info.endUs = t.endUs ∧
            ∀ k, find tx.info.fields k = metaSpec (fun _ => none) acts k))) ∧
      (¬ (muts = [] ∨ t.Ok st) → st.readWrite S t acts (.returns v) = none) := by
  have h := good_calls hS history (good_fresh S kinds) hst
  obtain ⟨σ', info, l, a1, a2, a3, a4, a5⟩ := run_spec hS h t acts
  refine ⟨σ', _, a3, ?_, ?_⟩
  · intro hok
    have hok' : l = [] ∨ t.Ok st := by simpa using hok
    obtain ⟨x, b1, b2, b3, b4, _⟩ := (persist_spec h hm a2 t a5).1 hok'
    refine ⟨x, ?_, b3, b2.journal, ?_⟩
    · unfold Storage.readWrite
      rw [if_neg (by simp [hm]), if_neg (by simp [good_empty h]), if_neg (by simp [hd]), a1]
      simp only [b1, Option.map_some]
    · rw [b4]
      unfold committedStream
      by_cases hl : l.map (·.1) = []
      · left; exact ⟨hl, by rw [if_pos hl]; simp⟩
      · right; exact ⟨hl, _, by rw [if_neg hl], rfl, a5, rfl, a4⟩
  · intro hok
    have hok' : ¬ (l = [] ∨ t.Ok st) := by simpa using hok
    unfold Storage.readWrite
    rw [if_neg (by simp [hm]), if_neg (by simp [good_empty h]), if_neg (by simp [hd]), a1]
    simp only [(persist_spec h hm a2 t a5).2 hok', Option.map_none]

/-- The same for transactions returning nothing. -/
theorem transaction_commits_void (S : F → Schema K R C E P) (st : Storage F K R C E P) (t : Clock) (acts : List (Act F K R C E P)) :
    st.readWriteVoid S t acts (.returns ()) = st.readWrite S t acts (.returns ()) := by
  unfold Storage.readWriteVoid Storage.readWrite; rfl

/-- C37: on a following storage, and once graceful shutdown began, transactions change nothing and say so. Read-only transactions never change anything. -/
theorem refused_transactions {S : F → Schema K R C E P} (hS : ∀ f, (S f).KeepsKeys) (kinds : F → Kind) (history : List (Call F K R C E P V)) {st : Storage F K R C E P}
    (hst : (Storage.fresh kinds).calls S kinds history = some st) (t : Clock) (acts : List (Act F K R C E P)) (out : Outcome V) (f2 : Nat → V → Outcome V) :
    (st.destructing = true → st.master = true → st.readWrite S t acts out = some (st, .shutdown) ∧ st.twoStep S t acts out f2 = some (st, .shutdown, []) ∧
      st.readOnly out = some (st, .shutdown)) ∧
    (st.master = false → st.readWrite S t acts out = some (st, .notMaster) ∧ st.twoStep S t acts out f2 = some (st, .notMaster, [])) ∧
    (∃ res, st.readOnly out = some (st, res)) := by
  have h := good_calls hS history (good_fresh S kinds) hst
  refine ⟨fun hd hm => ?_, fun hm => ?_, ?_⟩
  · simp [Storage.readWrite, Storage.twoStep, Storage.readOnly, hm, hd, good_empty h]
  · simp [Storage.readWrite, Storage.twoStep, hm]
  · unfold Storage.readOnly
    simp only [good_empty h, Bool.true_eq_false, if_false]
    cases st.destructing
    · cases out <;> exact ⟨_, rfl⟩
    · exact ⟨_, rfl⟩

/-- C36: after any history, a storage rebuilt from the stream has the same fields: no user can tell them apart. -/
theorem replay_rebuilds {S : F → Schema K R C E P} (hS : ∀ f, (S f).KeepsKeys) (kinds : F → Kind) (history : List (Call F K R C E P V)) {st : Storage F K R C E P}
    (hst : (Storage.fresh kinds).calls S kinds history = some st) (head : Time) :
    ∃ st', Storage.create S kinds st.stream head = some st' ∧ st'.SameFields st ∧ st'.lastApplied = st.lastApplied ∧ st'.journal = {} := by
  have h := good_calls hS history (good_fresh S kinds) hst
  obtain ⟨g, g1, g2, g3⟩ := h.rebuilt
  refine ⟨{ fields := g, stream := st.stream, head := head, lastApplied := st.lastApplied }, by simp only [Storage.create, g1], fun f => Field.same_observations (g2 f) (h.inv f) (congrFun g3 f), rfl, rfl⟩

/-- C36 for following storages: whatever a following storage has applied so far, its fields are those the master had at some moment of its history — the one of the last entry applied —
and after it received everything and took over, its fields are the master's. -/
theorem following_storage {S : F → Schema K R C E P} (hS : ∀ f, (S f).KeepsKeys) (kinds : F → Kind) (history : List (Call F K R C E P V)) {st : Storage F K R C E P}
    (hst : (Storage.fresh kinds).calls S kinds history = some st) (steps : List FollowerStep) :
    (∃ fo, Storage.followerSteps S st.stream (Storage.createFollowing kinds [] st.head) steps = some fo ∧
      ∃ past st₀, past <+: history ∧ (Storage.fresh kinds).calls S kinds past = some st₀ ∧ st₀.stream = st.stream.take fo.next ∧ fo.SameFields st₀) ∧
    ∃ fo st', Storage.followerSteps S st.stream (Storage.createFollowing kinds [] st.head) (steps ++ [.receive st.stream.length]) = some fo ∧
      fo.becomeMaster S true = some (st', true) ∧ st'.SameFields st ∧ st'.stream = st.stream ∧ st'.lastApplied = st.lastApplied ∧ st'.master = true := by
  have h := good_calls hS history (good_fresh S kinds) hst
  refine ⟨?_, ?_⟩
  · obtain ⟨g, g1, g2, g3⟩ := h.rebuilt
    obtain ⟨fo, a1, a2, a3, a4⟩ := follows_steps g1 steps (follows_fresh S kinds st.stream st.head)
    have hlen : fo.next ≤ st.stream.length := by
      have := congrArg List.length a2.prefix_; rw [List.length_take] at this; have := a2.len; omega
    obtain ⟨past, st₀, p1, p2, p3⟩ := past_stream hS history (good_fresh S kinds) hst fo.next hlen (Nat.zero_le _)
    have h0 := good_calls hS past (good_fresh S kinds) p2
    obtain ⟨g', e1, e2, e3⟩ := h0.rebuilt
    rw [p3, a2.applied] at e1
    simp only [Option.some.injEq, Prod.mk.injEq] at e1
    refine ⟨fo, a1, past, st₀, p1, p2, p3, fun f => ?_⟩
    rw [e1.1]
    exact Field.same_observations (e2 f) (h0.inv f) (congrFun e3 f)
  · obtain ⟨fo, st', a, b, _, d, e, f, g, _⟩ := handOver_spec h steps
    exact ⟨fo, st', a, b, d, e, f, g⟩

theorem applyEntries_others (S : F → Schema K R C E P) (σ : Fields F K R C E) (t : Time) (l : List (StreamEntry F K R C E P)) (h : ∀ e ∈ l, e.2.isSome = false) :
    applyEntries S σ t l = some (σ, t) := by
  induction l with
  | nil => rfl
  | cons e l ih =>
    obtain ⟨ts, tx⟩ := e
    have := h (ts, tx) (by simp)
    cases tx with
    | some x => cases this
    | none => exact ih fun e he => h e (by simp [he])

theorem catches_up_aux {S : F → Schema K R C E P} {kinds : F → Kind} {all : List (StreamEntry F K R C E P)} {σ : Fields F K R C E} {t : Time}
    (ha : applyEntries S (fun f => (kinds f).empty) (-1) all = some (σ, t)) (k : Nat) {fo : Storage F K R C E P} (h : fo.Follows S kinds all) (hsub : fo.subscribed = true)
    (hfull : fo.stream = all) (hk : all.length - fo.next ≤ k) :
    ∃ fo', fo.followerSteps S all (List.replicate k .apply) = some fo' ∧ fo'.fields = σ ∧ fo'.lastApplied = t := by
  induction k generalizing fo with
  | zero =>
    have := follows_rest h ha
    rw [List.drop_eq_nil_of_le (by omega)] at this
    cases this
    exact ⟨fo, rfl, rfl, rfl⟩
  | succ k ih =>
    rw [List.replicate_succ]
    cases hf : (fo.stream.drop fo.next).findIdx? (fun e => e.2.isSome) with
    | none =>
      have hstep : fo.followerStep S all .apply = some fo := by simp only [Storage.followerStep, Storage.follow, hsub, if_true, hf]
      have hrest := follows_rest h ha
      rw [applyEntries_others] at hrest
      · cases hrest
        have : ∀ k, fo.followerSteps S all (List.replicate k .apply) = some fo := by
          intro k
          induction k with
          | zero => rfl
          | succ k ih => simp only [List.replicate_succ, Storage.followerSteps, hstep, ih]
        exact ⟨fo, by rw [← List.replicate_succ]; exact this _, rfl, rfl⟩
      · intro e he
        rw [hfull] at hf
        exact List.findIdx?_eq_none_iff.1 hf e he
    | some i =>
      obtain ⟨fo1, a1, a2, a3, a4⟩ := follows_steps ha [.apply] h
      have a1' : fo.followerStep S all .apply = some fo1 := by
        simp only [Storage.followerSteps] at a1
        cases hx : fo.followerStep S all .apply with
        | none => rw [hx] at a1; cases a1
        | some y => rw [hx] at a1; cases a1; rfl
      have hn : fo1.next = fo.next + i + 1 ∧ fo1.stream = fo.stream := by
        simp only [Storage.followerStep, Storage.follow, hsub, if_true, hf] at a1'
        split at a1'
        · cases a1'
        · cases a1'; exact ⟨rfl, rfl⟩
      obtain ⟨fo', b1, b2, b3⟩ := ih a2 (a4.trans hsub) (hn.2.trans hfull) (by omega)
      exact ⟨fo', by simp only [Storage.followerSteps, a1', b1], b2, b3⟩

/-- A following storage catches up: once it received everything and its subscriber ran often enough, its fields are the master's. -/
theorem follower_catches_up {S : F → Schema K R C E P} (hS : ∀ f, (S f).KeepsKeys) (kinds : F → Kind) (history : List (Call F K R C E P V)) {st : Storage F K R C E P}
    (hst : (Storage.fresh kinds).calls S kinds history = some st) (steps : List FollowerStep) (k : Nat) (hk : st.stream.length ≤ k) :
    ∃ fo, Storage.followerSteps S st.stream (Storage.createFollowing kinds [] st.head) (steps ++ [.receive st.stream.length] ++ List.replicate k .apply) = some fo ∧ fo.SameFields st ∧
      fo.lastApplied = st.lastApplied := by
  have h := good_calls hS history (good_fresh S kinds) hst
  obtain ⟨g, g1, g2, g3⟩ := h.rebuilt
  obtain ⟨fo, a1, a2, a3, a4⟩ := follows_steps g1 steps (follows_fresh S kinds st.stream st.head)
  obtain ⟨fo', b1, b2, b3, b4⟩ := follows_steps g1 [.receive st.stream.length] a2
  have hfull : fo'.stream = st.stream := by
    simp only [Storage.followerSteps, Storage.followerStep] at b1
    have hle : fo.stream.length ≤ st.stream.length := by have := congrArg List.length a2.prefix_; rw [List.length_take] at this; omega
    rw [if_pos hle] at b1
    cases b1
    exact List.take_length
  obtain ⟨x, c1, c2, c3⟩ := catches_up_aux g1 k b2 (b4.trans (a4.trans rfl)) hfull (by omega)
  refine ⟨x, ?_, fun f => ?_, c3⟩
  · rw [followerSteps_append, followerSteps_append, a1]
    simp only [Option.bind_some, b1]; exact c1
  · rw [c2]; exact Field.same_observations (g2 f) (h.inv f) (congrFun g3 f)

/-- A following storage whose stream does not let it become master (`BecomeFollowingStream` throws) has already dropped its subscription: it stays as it is for ever, whatever its stream
receives. -/
theorem failed_flip_stops_following {S : F → Schema K R C E P} (fo : Storage F K R C E P) (hm : fo.master = false) :
    ∃ fo', fo.becomeMaster S false = some (fo', false) ∧ fo'.master = false ∧
      ∀ all steps, ∃ fo'', fo'.followerSteps S all steps = some fo'' ∧ fo''.fields = fo.fields ∧ fo''.next = fo.next := by
  refine ⟨{ fo with subscribed := false }, by simp [Storage.becomeMaster, hm], hm, fun all steps => ?_⟩
  have : ∀ (steps : List FollowerStep) (x : Storage F K R C E P), x.subscribed = false → ∃ y, x.followerSteps S all steps = some y ∧ y.fields = x.fields ∧ y.next = x.next := by
    intro steps
    induction steps with
    | nil => intro x hx; exact ⟨x, rfl, rfl, rfl⟩
    | cons s ss ih =>
      intro x hx
      cases s with
      | receive n =>
        simp only [Storage.followerSteps, Storage.followerStep]
        split
        · exact ih _ hx
        · exact ih _ hx
      | apply =>
        simp only [Storage.followerSteps, Storage.followerStep, Storage.follow, hx, Bool.false_eq_true, if_false]
        exact ih _ hx
  exact this steps _ rfl

/-- C38, the part that holds. Two-step transactions, after any history, when the first step returns and the second one returns too: reported as committed, the second step was called once,
with the value of the first; the stream has the mutations of the first step. When the first step rolls back or throws: never reported as committed, nothing published, the fields as
they were; a rollback with a value calls the second step once, with that value. -/
theorem two_step_partial {S : F → Schema K R C E P} (hS : ∀ f, (S f).KeepsKeys) (kinds : F → Kind) (history : List (Call F K R C E P V)) {st : Storage F K R C E P}
    (hst : (Storage.fresh kinds).calls S kinds history = some st) (hm : st.master = true) (hd : st.destructing = false) (t : Clock) (acts : List (Act F K R C E P)) (out : Outcome V)
    (f2 : Nat → V → Outcome V) :
    (∀ v, out = .returns v → ∀ w, f2 0 v = .returns w → ∀ st' res calls, st.twoStep S t acts out f2 = some (st', res, calls) → res = .committed () ∧ calls = [v] ∧
      ∃ muts, runOps S st.fields acts = some (st'.fields, muts) ∧
        ((muts = [] ∧ st'.stream = st.stream) ∨ (muts ≠ [] ∧ ∃ tx, st'.stream = st.stream ++ [(t.ts, some tx)] ∧ tx.mutations = muts))) ∧
    ((∀ v, out ≠ .returns v) → ∃ st' res calls, st.twoStep S t acts out f2 = some (st', res, calls) ∧ res.wasCommitted = false ∧ st'.SameFields st ∧ st'.stream = st.stream ∧
      calls = (match out with | .rollbackWith v => [v] | _ => [])) := by
  have h := good_calls hS history (good_fresh S kinds) hst
  obtain ⟨σ', info, l, a1, a2, a3, a4, a5⟩ := run_spec hS h t acts
  obtain ⟨_, hs⟩ := rollback_good h info a2
  constructor
  · intro v hv w hw st' res calls hc
    subst hv
    unfold Storage.twoStep at hc
    rw [if_neg (by simp [hm]), if_neg (by simp [good_empty h]), if_neg (by simp [hd]), a1] at hc
    by_cases hok : l = [] ∨ t.Ok st
    · obtain ⟨x, b1, b2, b3, b4, _⟩ := (persist_spec h hm a2 t a5).1 hok
      simp only [b1, Option.map_some, hw, Option.some.injEq, Prod.mk.injEq] at hc
      obtain ⟨rfl, rfl, rfl⟩ := hc
      refine ⟨rfl, rfl, _, by rw [b3]; exact a3, ?_⟩
      rw [b4]
      unfold committedStream
      by_cases hl : l.map (·.1) = []
      · left; exact ⟨hl, by rw [if_pos hl]; simp⟩
      · right; exact ⟨hl, _, by rw [if_neg hl], rfl⟩
    · simp only [(persist_spec h hm a2 t a5).2 hok, Option.map_none] at hc; cases hc
  · intro ho
    unfold Storage.twoStep
    rw [if_neg (by simp [hm]), if_neg (by simp [good_empty h]), if_neg (by simp [hd]), a1]
    cases out with
    | returns v => exact absurd rfl (ho v)
    | rollbackWith v =>
      simp only
      cases f2 ([] : List V).length v <;> exact ⟨_, _, _, rfl, rfl, hs, rfl, rfl⟩
    | rollback => exact ⟨_, _, _, rfl, rfl, hs, rfl, rfl⟩
    | throws => exact ⟨_, _, _, rfl, rfl, hs, rfl, rfl⟩

/-! ### Examples and findings -/

/-- Two fields: a dictionary (`false`) and a one-to-one matrix (`true`). -/
def demoKinds : Bool → Kind := fun b => if b then .matrix .oneToOne else .dictionary
def demoSchema : Bool → Schema Nat Nat Nat (Nat × Nat × Nat) Nat := fun _ => cellSchema
theorem demo_keeps : ∀ f, (demoSchema f).KeepsKeys := fun _ => cellSchema_keeps

abbrev DemoCall := Call Bool Nat Nat Nat (Nat × Nat × Nat) Nat Nat
abbrev DemoStorage := Storage Bool Nat Nat Nat (Nat × Nat × Nat) Nat

def demoHistory : List DemoCall :=
  [.readWrite ⟨1, 5, 6⟩ [.op false (.dict (.add 2 (1, 1, 10))), .op true (.matrix (.add 3 4 4 (1, 1, 10))), .setMeta "who" "me"] (.returns 7),
   .readWrite ⟨7, 9, 10⟩ [.op true (.matrix (.add 8 9 10 (1, 2, 20)))] (.rollbackWith 3),
   .publishOther 11,
   .restart,
   .twoStep ⟨12, 16, 17⟩ [.op true (.matrix (.add 13 14 15 (1, 2, 30)))] (.returns 8) (fun _ _ => .returns 0),
   .handOver [.receive 2, .apply, .receive 3]]

/-- A history with a commit, a rollback, a restart and a hand-over: two transactions in the stream. -/
theorem demo_runs : ∃ st : DemoStorage, (Storage.fresh demoKinds).calls demoSchema demoKinds demoHistory = some st ∧ st.master = true ∧ st.destructing = false ∧
    st.stream.map (·.1) = [6, 11, 17] ∧ (st.stream.map fun e => (e.2.map fun x => x.mutations.length)) = [some 2, none, some 2] :=
  ⟨_, rfl, rfl, rfl, rfl, rfl⟩

/-- A two-step transaction reports a rollback although its mutations were persisted: the second step throws a rollback. C38 as stated is false. -/
theorem two_step_misreports : ∃ (st st' : DemoStorage) (tx : Transaction Bool Nat Nat Nat (Nat × Nat × Nat) Nat), st = Storage.fresh demoKinds ∧
    st.twoStep demoSchema ⟨1, 3, 4⟩ [.op false (.dict (.add 2 (1, 1, 10)))] (.returns (7 : Nat)) (fun _ _ => .rollback) = some (st', .rolledBack none, [7]) ∧
    st'.stream = [(4, some tx)] ∧ tx.mutations.length = 1 ∧ st'.fields false = .dict ⟨[(1, (1, 1, 10))], [(1, 2)]⟩ :=
  ⟨_, _, _, rfl, rfl, rfl, rfl, rfl⟩

/-- … and calls the second step twice when that throws a rollback with a value. -/
theorem two_step_calls_twice : ∃ (st st' : DemoStorage), st = Storage.fresh demoKinds ∧
    st.twoStep demoSchema ⟨1, 3, 4⟩ [.op false (.dict (.add 2 (1, 1, 10)))] (.returns (7 : Nat)) (fun n v => if n = 0 then .rollbackWith (v + 1) else .returns 0) =
      some (st', .rolledBack none, [7, 8]) ∧ st'.stream.length = 1 :=
  ⟨_, _, rfl, rfl, rfl⟩

/-- A schema whose patches change keys. -/
def badSchema : Bool → Schema Nat Nat Nat (Nat × Nat × Nat) Nat := fun _ => { cellSchema with patch := fun p e => (p, e.2) }

/-- If patches change keys, the rebuilt storage differs: the entry patched and then erased comes back. The deletion is logged under the key of the object, not of the entry. -/
theorem patched_key_breaks_replay : ∃ st st' : DemoStorage,
    (Storage.fresh demoKinds).calls badSchema demoKinds
      ([.readWrite ⟨1, 6, 7⟩ [.op false (.dict (.add 2 (1, 1, 10))), .op false (.dict (.patch 3 1 2)), .op false (.dict (.erase 4 1))] (.returns 7)] : List DemoCall) = some st ∧
    Storage.create badSchema demoKinds st.stream st.head = some st' ∧ st.fields false = .dict ⟨[], [(1, 4)]⟩ ∧ st'.fields false = .dict ⟨[(1, (2, 1, 10))], [(1, 3), (2, 4)]⟩ :=
  ⟨_, _, rfl, rfl, rfl, rfl⟩

/-- The process ends if the time of a commit is not above the head: for instance when something was published through `PublisherUsed()` with a time in the future. -/
theorem published_ahead_ends_process :
    (Storage.fresh demoKinds : DemoStorage).calls demoSchema demoKinds ([.publishOther 100, .readWrite ⟨1, 3, 4⟩ [.op false (.dict (.add 2 (1, 1, 10)))] (.returns 7)] : List DemoCall) = none :=
  rfl

end Current.Storage
