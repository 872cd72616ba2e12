import Verif.Rest.General
/-!
Conditional requests (C79).
-/
namespace Current.Rest
open Current.Persist Current.Url Current.Strings Current.Storage

variable {F K R C E P V : Type} [DecidableEq F] [DecidableEq K] [DecidableEq R] [DecidableEq C]

/-! ### What is promised -/

/-- The readings of the clock by the operations of a transaction. -/
def opTimes : FOp K R C E P → List Time
  | .dict (.add now _) => [now]
  | .dict (.erase now _) => [now]
  | .dict (.patch now _ _) => [now]
  | .matrix (.add t₁ t₂ t₃ _) => [t₁, t₂, t₃]
  | .matrix (.erase now _) => [now]
  | .matrix (.eraseRow now _) => [now]
  | .matrix (.eraseCol now _) => [now]

def actTimes : Act F K R C E P → List Time
  | .op _ o => opTimes o
  | _ => []

def callActs : Call F K R C E P V → List (Act F K R C E P)
  | .readWrite _ acts _ => acts
  | .readWriteVoid _ acts _ => acts
  | .twoStep _ acts _ _ => acts
  | _ => []

/-- Anything that can happen to a storage. -/
inductive Step (F K R C E P V : Type) where
  /-- By the program itself: transactions, restarts, moving to another machine. -/
  | call (c : Call F K R C E P V)
  /-- A request of some client. -/
  | request (f : F) (env : Env E) (req : Req)

/-- The clock, when the step writes to a container, shows a time after `t`. -/
def After (t : Time) : Step F K R C E P V → Prop
  | .call c => ∀ a ∈ callActs c, ∀ u ∈ actTimes a, t < u
  | .request _ env _ => t < env.ticks.t₁ ∧ t < env.ticks.t₂ ∧ t < env.ticks.t₃

/-- A history of a storage which ends in a state (and not in the end of the process). -/
inductive Leads (api : Api K R C E) (S : F → Schema K R C E P) (kinds : F → Kind) : Storage F K R C E P → List (Step F K R C E P V) → Storage F K R C E P → Prop where
  | done (st : Storage F K R C E P) : Leads api S kinds st [] st
  | call {st st' st'' : Storage F K R C E P} {c : Call F K R C E P V} {l : List (Step F K R C E P V)} :
      st.call S kinds c = some st' → Leads api S kinds st' l st'' → Leads api S kinds st (.call c :: l) st''
  | request {st st' st'' : Storage F K R C E P} {f : F} {env : Env E} {req : Req} {r : Resp K R C E} {l : List (Step F K R C E P V)} :
      serve api S f st env req = some (st', r) → Leads api S kinds st' l st'' → Leads api S kinds st (.request f env req :: l) st''

/-! ### Views -/

def vEntry : FView K R C E → Key K R C → Option E
  | .dict v, .one k => v.content k
  | .matrix v, .cell r c => v.content (r, c)
  | _, _ => none

def vLm : FView K R C E → Key K R C → Option Time
  | .dict v, .one k => v.lm k
  | .matrix v, .cell r c => v.lm (r, c)
  | _, _ => none

theorem entryAt_view {S : Schema K R C E P} {fld : Field K R C E} (h : fld.Inv S) (k : Key K R C) : entryAt fld k = vEntry fld.view k := by
  cases fld with
  | dict d => cases k <;> rfl
  | matrix m =>
    cases k with
    | one k => rfl
    | cell r c => exact entryAt_matrix h r c

theorem lastMod_view (fld : Field K R C E) (k : Key K R C) : lastMod fld k = vLm fld.view k := by
  cases fld <;> cases k <;> rfl

/-- Either nothing happened to the entry, or its modification time is one of these. -/
def Moved (times : List Time) (a b : Field K R C E) (k : Key K R C) : Prop :=
  (entryAt b k = entryAt a k ∧ lastMod b k = lastMod a k) ∨ ∃ u ∈ times, lastMod b k = some u

theorem moved_op {S : F → Schema K R C E P} (hS : ∀ f, (S f).KeepsKeys) {σ σ' : Fields F K R C E} (hσ : σ.Inv S) {g : F} {o : FOp K R C E P}
    {log : List (Logged F K R C E P)} (hop : σ.op S g o = some (σ', log)) (f : F) (k : Key K R C) : Moved (opTimes o) (σ f) (σ' f) k := by
  obtain ⟨σ₁, l₁, h1, h2⟩ := fop_chain hS hσ g o
  rw [hop] at h1
  simp only [Option.some.injEq, Prod.mk.injEq] at h1
  obtain ⟨rfl, rfl⟩ := h1
  have hσ' := h2.inv hσ
  by_cases hf : f ≠ g
  · have : σ' f = σ f := by
      unfold Fields.op at hop
      cases hg : σ g with
      | dict d =>
        cases o with
        | dict o =>
          simp only [hg] at hop
          cases hx : Dict.op (S g) d o with
          | none => rw [hx] at hop; cases hop
          | some r => rw [hx] at hop; cases hop; exact upd_other hf
        | matrix o => simp only [hg] at hop; cases hop; rfl
      | matrix m =>
        cases o with
        | dict o => simp only [hg] at hop; cases hop; rfl
        | matrix o =>
          simp only [hg] at hop
          cases hx : Matrix.op (S g) m o with
          | none => rw [hx] at hop; cases hop
          | some r => rw [hx] at hop; cases hop; exact upd_other hf
    rw [this]; exact Or.inl ⟨rfl, rfl⟩
  · have hf := Classical.not_not.1 hf
    subst hf
    have hi := hσ f
    have hi' := hσ' f
    cases hf : σ f with
    | dict d =>
      rw [hf] at hi
      cases o with
      | matrix o =>
        simp only [Fields.op, hf, Option.some.injEq, Prod.mk.injEq] at hop
        obtain ⟨rfl, _⟩ := hop
        rw [hf]; exact Or.inl ⟨rfl, rfl⟩
      | dict o =>
        obtain ⟨d', hv, hd⟩ := dop_chain (hS f) hi o
        have : ∃ l, d.op (S f) o = some (d', l) := by
          rcases hd with ⟨a, _⟩ | ⟨_, _, a, _⟩ <;> exact ⟨_, a⟩
        obtain ⟨l, hl⟩ := this
        simp only [Fields.op, hf, hl, Option.map_some, Option.some.injEq, Prod.mk.injEq] at hop
        obtain ⟨e1, _⟩ := hop
        subst e1
        rw [upd_same]
        cases k with
        | cell r c => exact Or.inl ⟨rfl, rfl⟩
        | one k =>
          obtain ⟨v, hdv⟩ : ∃ v, d.view = v := ⟨_, rfl⟩
          rw [hdv] at hv
          have hc : find d'.map k = (o.spec (S f) v).content k := congrArg (fun v => v.content k) hv
          have hm : find d'.lm k = (o.spec (S f) v).lm k := congrArg (fun v => v.lm k) hv
          have e1 : entryAt (.dict d' : Field K R C E) (.one k) = find d'.map k := rfl
          have e2 : entryAt (.dict d : Field K R C E) (.one k) = v.content k := by rw [← hdv]; rfl
          have e3 : lastMod (.dict d' : Field K R C E) (.one k) = find d'.lm k := rfl
          have e4 : lastMod (.dict d : Field K R C E) (.one k) = v.lm k := by rw [← hdv]; rfl
          unfold Moved
          rw [e1, e2, e3, e4, hc, hm]
          cases o with
          | add now e =>
            simp only [DOp.spec, opTimes, List.mem_singleton]
            by_cases hk : k = (S f).key e
            · right; exact ⟨now, rfl, by simp [hk]⟩
            · left; simp [hk]
          | erase now k' =>
            simp only [DOp.spec, opTimes, List.mem_singleton]
            by_cases hk : k = k' ∧ v.content k' ≠ none
            · right; exact ⟨now, rfl, by rw [if_pos hk]⟩
            · left
              refine ⟨?_, by rw [if_neg hk]⟩
              by_cases hkk : k = k'
              · subst hkk
                have : v.content k = none := Classical.byContradiction fun hn => hk ⟨rfl, hn⟩
                simp [this]
              · rw [if_neg hkk]
          | patch now k' p =>
            simp only [DOp.spec, opTimes, List.mem_singleton]
            by_cases hk : k = k' ∧ v.content k' ≠ none
            · right; exact ⟨now, rfl, by rw [if_pos hk]⟩
            · left
              refine ⟨?_, by rw [if_neg hk]⟩
              by_cases hkk : k = k'
              · subst hkk
                have : v.content k = none := Classical.byContradiction fun hn => hk ⟨rfl, hn⟩
                simp [this]
              · rw [if_neg hkk]
    | matrix m =>
      rw [hf] at hi
      cases o with
      | dict o =>
        simp only [Fields.op, hf, Option.some.injEq, Prod.mk.injEq] at hop
        obtain ⟨rfl, _⟩ := hop
        rw [hf]; exact Or.inl ⟨rfl, rfl⟩
      | matrix o =>
        obtain ⟨m', l, hl, ht⟩ := op_times hi o
        simp only [Fields.op, hf, hl, Option.map_some, Option.some.injEq, Prod.mk.injEq] at hop
        obtain ⟨e1, _⟩ := hop
        subst e1
        rw [upd_same] at hi' ⊢
        cases k with
        | one k => exact Or.inl ⟨rfl, rfl⟩
        | cell r c =>
          have et : opTimes (.matrix o : FOp K R C E P) = o.times := by cases o <;> rfl
          unfold Moved
          rw [entryAt_matrix hi', entryAt_matrix hi, et]
          by_cases hw : o.Writes (S f) (r, c) ∨ m'.content (r, c) ≠ m.content (r, c)
          · right; exact (ht (r, c)).1 hw
          · rw [not_or, Classical.not_not] at hw
            left; exact ⟨hw.2, (ht (r, c)).2 hw.1 hw.2⟩

theorem moved_trans {s s' : List Time} {a b c : Field K R C E} {k : Key K R C} (h : Moved s a b k) (h' : Moved s' b c k) : Moved (s ++ s') a c k := by
  rcases h' with ⟨h1, h2⟩ | ⟨u, hu, hl⟩
  · rcases h with ⟨h3, h4⟩ | ⟨u, hu, hl⟩
    · exact Or.inl ⟨h1.trans h3, h2.trans h4⟩
    · exact Or.inr ⟨u, by simp [hu], h2.trans hl⟩
  · exact Or.inr ⟨u, by simp [hu], hl⟩

theorem moved_acts {S : F → Schema K R C E P} (hS : ∀ f, (S f).KeepsKeys) (acts : List (Act F K R C E P)) {σ σ' : Fields F K R C E} (hσ : σ.Inv S)
    {j j' : Journal F K R C E P} (h : runActs S σ j acts = some (σ', j')) (f : F) (k : Key K R C) : Moved (acts.flatMap actTimes) (σ f) (σ' f) k := by
  induction acts generalizing σ j with
  | nil => cases h; exact Or.inl ⟨rfl, rfl⟩
  | cons a as ih =>
    cases a with
    | op g o =>
      simp only [runActs] at h
      obtain ⟨σ₁, l₁, h1, h2⟩ := fop_chain hS hσ g o
      rw [h1] at h
      exact moved_trans (moved_op hS hσ h1 f k) (ih (h2.inv hσ) h)
    | setMeta x y => exact ih hσ h
    | eraseMeta x => exact ih hσ h

theorem moved_view {S : Schema K R C E P} {a b c : Field K R C E} (hb : b.Inv S) (hc : c.Inv S) (hv : c.view = b.view) {s : List Time} {k : Key K R C} (h : Moved s a b k) :
    Moved s a c k := by
  unfold Moved at *
  rw [entryAt_view hc, lastMod_view c, hv, ← entryAt_view hb, ← lastMod_view b]
  exact h

theorem moved_call {S : F → Schema K R C E P} (hS : ∀ f, (S f).KeepsKeys) {kinds : F → Kind} {st st' : Storage F K R C E P} (h : st.Good S kinds) (c : Call F K R C E P V)
    (hc : st.call S kinds c = some st') (f : F) (k : Key K R C) : Moved ((callActs c).flatMap actTimes) (st.fields f) (st'.fields f) k := by
  have hg := good_call hS h c hc
  have same : st'.fields.view = st.fields.view → Moved ((callActs c).flatMap actTimes) (st.fields f) (st'.fields f) k := fun hv =>
    moved_view (h.inv f) (hg.inv f) (congrFun hv f) (Or.inl ⟨rfl, rfl⟩)
  have ran : ∀ t acts st₁, st.run S t acts = some st₁ → callActs c = acts → st'.fields.view = st₁.fields.view →
      Moved ((callActs c).flatMap actTimes) (st.fields f) (st'.fields f) k := by
    intro t acts st₁ hr ha hv
    obtain ⟨σ', info, l, a1, a2, _⟩ := run_spec hS h t acts
    have hr' := hr
    rw [a1] at hr
    simp only [Option.some.injEq] at hr
    rw [← hr] at hv
    unfold Storage.run at a1
    cases hx : runActs S st.fields { st.journal with info := { st.journal.info with beginUs := t.beginUs } } acts with
    | none => rw [hx] at a1; cases a1
    | some p =>
      obtain ⟨σ₂, j₂⟩ := p
      rw [hx] at a1
      simp only [Option.some.injEq] at a1
      have : σ₂ = σ' := congrArg Storage.fields a1
      subst this
      rw [ha]
      exact moved_view (a2.inv h.inv f) (hg.inv f) (congrFun hv f) (moved_acts hS acts h.inv hx f k)
  have undone : ∀ {t acts st₁}, st.run S t acts = some st₁ → st₁.rollback.fields.view = st.fields.view := by
    intro t acts st₁ hr
    obtain ⟨σ', info, l, a1, a2, _⟩ := run_spec hS h t acts
    rw [hr] at a1
    simp only [Option.some.injEq] at a1
    rw [a1]
    exact (a2.undo h.inv σ' (a2.inv h.inv) rfl).2
  have kept : ∀ {st₁ st₂ : Storage F K R C E P} {t : Clock}, (st₁.after t).persist t.ts = some st₂ → st₂.fields = st₁.fields ∧ st₂.journal = {} := by
    intro st₁ st₂ t hp
    unfold Storage.persist Storage.after at hp
    split at hp
    · split at hp
      · cases hp; exact ⟨rfl, rfl⟩
      · split at hp
        · cases hp; exact ⟨rfl, rfl⟩
        · cases hp
    · cases hp
  have rb : ∀ {x : Storage F K R C E P}, x.journal = {} → x.rollback.fields = x.fields := by
    intro x hx; unfold Storage.rollback; rw [hx]; rfl
  cases c with
  | gracefulShutdown => cases hc; exact same rfl
  | restart =>
    obtain ⟨g, g1, g2, g3⟩ := h.rebuilt
    simp only [Storage.call, Storage.create, g1, Option.some.injEq] at hc
    subst hc
    exact same g3
  | handOver steps =>
    obtain ⟨g, g1, g2, g3⟩ := h.rebuilt
    obtain ⟨fo, x, a, b, c, d, e, _⟩ := handOver_spec h steps
    simp only [Storage.call, a, b, Option.map_some, Option.some.injEq] at hc
    subst hc
    obtain ⟨g', g1', g2', g3'⟩ := c.rebuilt
    rw [e, g1] at g1'
    simp only [Option.some.injEq, Prod.mk.injEq] at g1'
    exact same (by rw [← g3', ← g1'.1, g3])
  | publishOther ts =>
    cases hc
    exact same (by unfold Storage.publishOther; split <;> rfl)
  | readOnly out =>
    simp only [Storage.call, Storage.readOnly, good_empty h] at hc
    split at hc
    · cases hc
    · split at hc
      · cases hc; exact same rfl
      · cases out <;> (cases hc; exact same rfl)
  | readWrite t acts out =>
    simp only [Storage.call, Storage.readWrite, good_empty h] at hc
    split at hc
    · cases hc; exact same rfl
    rw [if_neg (by simp)] at hc
    split at hc
    · cases hc; exact same rfl
    cases hr : st.run S t acts with
    | none => rw [hr] at hc; cases hc
    | some st₁ =>
      rw [hr] at hc
      cases out with
      | returns v =>
        simp only at hc
        cases hp : (st₁.after t).persist t.ts with
        | none => rw [hp] at hc; cases hc
        | some st₂ => rw [hp] at hc; cases hc; exact ran t acts st₁ hr rfl (by rw [(kept hp).1])
      | rollbackWith v => cases hc; exact same (undone hr)
      | rollback => cases hc; exact same (undone hr)
      | throws => cases hc; exact same (undone hr)
  | readWriteVoid t acts out =>
    simp only [Storage.call, Storage.readWriteVoid, good_empty h] at hc
    split at hc
    · cases hc; exact same rfl
    rw [if_neg (by simp)] at hc
    split at hc
    · cases hc; exact same rfl
    cases hr : st.run S t acts with
    | none => rw [hr] at hc; cases hc
    | some st₁ =>
      rw [hr] at hc
      cases out with
      | returns v =>
        simp only at hc
        cases hp : (st₁.after t).persist t.ts with
        | none => rw [hp] at hc; cases hc
        | some st₂ => rw [hp] at hc; cases hc; exact ran t acts st₁ hr rfl (by rw [(kept hp).1])
      | rollbackWith v => cases hc; exact same (undone hr)
      | rollback => cases hc; exact same (undone hr)
      | throws => cases hc; exact same (undone hr)
  | twoStep t acts out f2 =>
    simp only [Storage.call, Storage.twoStep, good_empty h] at hc
    split at hc
    · cases hc; exact same rfl
    rw [if_neg (by simp)] at hc
    split at hc
    · cases hc; exact same rfl
    cases hr : st.run S t acts with
    | none => rw [hr] at hc; cases hc
    | some st₁ =>
      rw [hr] at hc
      cases out with
      | returns v =>
        simp only at hc
        cases hp : (st₁.after t).persist t.ts with
        | none => rw [hp] at hc; cases hc
        | some st₂ =>
          rw [hp] at hc
          obtain ⟨k1, k2⟩ := kept hp
          simp only [Option.map_some, Option.some.injEq] at hc
          have hf : st'.fields = st₂.fields := by
            rw [← hc]
            cases f2 0 v with
            | returns w => rfl
            | rollbackWith w =>
              simp only
              cases f2 [v].length w <;> exact rb k2
            | rollback => exact rb k2
            | throws => exact rb k2
          exact ran t acts st₁ hr rfl (by rw [hf, k1])
      | rollbackWith v =>
        simp only [Option.map_some, Option.some.injEq] at hc
        rw [← hc]
        refine moved_view (h.inv f) ?_ ?_ (Or.inl ⟨rfl, rfl⟩)
        · rw [hc]; exact hg.inv f
        · cases f2 ([] : List V).length v <;> exact congrFun (undone hr) f
      | rollback => cases hc; exact same (undone hr)
      | throws => cases hc; exact same (undone hr)

/-! ### Requests as calls -/

def Ticks.all (t : Ticks) : List Time := [t.t₁, t.t₂, t.t₃]

/-- The operation of a plan reads the clock of the request only. -/
def Timely (t : Ticks) (plan : Option (Plan K R C E P)) : Prop := ∀ o r, plan = some (some o, r) → ∀ u ∈ opTimes o, u ∈ t.all

theorem timely_say (t : Ticks) (r : Resp K R C E) : Timely t (say r : Option (Plan K R C E P)) := by
  intro o r' h; cases h

theorem timely_none (t : Ticks) : Timely t (none : Option (Plan K R C E P)) := by
  intro o r' h; cases h

theorem timely_add (t : Ticks) (fld : Field K R C E) (e : E) (r : Field K R C E → Resp K R C E) :
    Timely t (some (some (addOp t fld e), r) : Option (Plan K R C E P)) := by
  intro o r' h
  simp only [Option.some.injEq, Prod.mk.injEq] at h
  rw [← h.1]
  cases fld <;> simp [addOp, opTimes, Ticks.all]

theorem timely_erase (t : Ticks) (k : Key K R C) (r : Field K R C E → Resp K R C E) :
    Timely t (some (some (eraseOp t k), r) : Option (Plan K R C E P)) := by
  intro o r' h
  simp only [Option.some.injEq, Prod.mk.injEq] at h
  rw [← h.1]
  cases k <;> simp [eraseOp, opTimes, Ticks.all]

theorem timely_post (api : Api K R C E) (S : Schema K R C E P) (env : Env E) (ow : Bool) (fld : Field K R C E) (e : E) : Timely env.ticks (postPlan api S env ow fld e) := by
  unfold postPlan
  split
  · dsimp only
    split
    · exact timely_none _
    · split
      · exact timely_add _ _ _ _
      · exact timely_say _ _
  · exact timely_say _ _

theorem timely_put (api : Api K R C E) (S : Schema K R C E P) (env : Env E) (ius : Option Time) (fld : Field K R C E) (k : Key K R C) (e : E) :
    Timely env.ticks (putPlan api S env ius fld k e) := by
  unfold putPlan
  split
  · split
    · exact timely_none _
    · split
      · exact timely_say _ _
      · exact timely_add _ _ _ _
  · exact timely_say _ _

theorem timely_patch (api : Api K R C E) (S : Schema K R C E P) (env : Env E) (ius : Option Time) (fld : Field K R C E) (k : Key K R C) (b : Str) :
    Timely env.ticks (patchPlan api S env ius fld k b) := by
  unfold patchPlan
  split
  · exact timely_none _
  · exact timely_say _ _
  · split
    · exact timely_say _ _
    · split
      · exact timely_say _ _
      · split
        · exact timely_add _ _ _ _
        · exact timely_say _ _

theorem timely_delete (api : Api K R C E) (env : Env E) (ius : Option Time) (fld : Field K R C E) (k : Key K R C) :
    Timely env.ticks (deletePlan api env ius fld k : Option (Plan K R C E P)) := by
  unfold deletePlan
  split
  · exact timely_none _
  · split
    · exact timely_say _ _
    · exact timely_erase _ _ _

/-- What a write does is one two-step transaction. -/
theorem write_call {S : F → Schema K R C E P} (kinds : F → Kind) {st st' : Storage F K R C E P} {f : F} {env : Env E} {plan : Option (Plan K R C E P)} {r : Resp K R C E}
    (ht : Timely env.ticks plan) (h : write S f st env plan = some (st', r)) :
    ∃ c : Call F K R C E P (Resp K R C E), st.call S kinds c = some st' ∧ ∀ a ∈ callActs c, ∀ u ∈ actTimes a, u ∈ env.ticks.all := by
  unfold write at h
  cases plan with
  | none => cases h
  | some p =>
    obtain ⟨o, resp⟩ := p
    simp only at h
    have key : ∀ acts : List (Act F K R C E P), (∀ a ∈ acts, ∀ u ∈ actTimes a, u ∈ env.ticks.all) →
        (match st.run S env.clock acts with
          | none => none
          | some st₁ =>
            match st.twoStep S env.clock acts (.returns (resp (st₁.fields f))) (fun _ v => if env.sent then .returns v else .throws) with
            | none => none
            | some (st', _, calls) => some (st', calls.head?.getD { code := 500 })) = some (st', r) →
        ∃ c : Call F K R C E P (Resp K R C E), st.call S kinds c = some st' ∧ ∀ a ∈ callActs c, ∀ u ∈ actTimes a, u ∈ env.ticks.all := by
      intro acts hacts h
      cases hr : st.run S env.clock acts with
      | none => rw [hr] at h; cases h
      | some st₁ =>
        rw [hr] at h
        simp only at h
        cases h2 : st.twoStep S env.clock acts (.returns (resp (st₁.fields f))) (fun _ v => if env.sent then .returns v else .throws) with
        | none => rw [h2] at h; cases h
        | some x =>
          obtain ⟨a, b, c⟩ := x
          rw [h2] at h
          simp only [Option.some.injEq, Prod.mk.injEq] at h
          refine ⟨.twoStep env.clock acts (.returns (resp (st₁.fields f))) (fun _ v => if env.sent then .returns v else .throws), ?_, hacts⟩
          rw [Storage.call, h2, Option.map_some, h.1]
    cases o with
    | none => exact key [] (by simp) h
    | some o =>
      refine key [.op f o] (fun a ha u hu => ?_) h
      simp only [List.mem_singleton] at ha
      subst ha
      exact ht o resp rfl u hu

/-- Every request does what at most one call does. -/
theorem serve_call (api : Api K R C E) {S : F → Schema K R C E P} (kinds : F → Kind) {st st' : Storage F K R C E P} {f : F} {env : Env E} {req : Req} {r : Resp K R C E}
    (h : serve api S f st env req = some (st', r)) :
    ∃ c : Call F K R C E P (Resp K R C E), st.call S kinds c = some st' ∧ ∀ a ∈ callActs c, ∀ u ∈ actTimes a, u ∈ env.ticks.all := by
  have stay : ∀ (code : Nat), some (st, ({ code := code } : Resp K R C E)) = some (st', r) →
      ∃ c : Call F K R C E P (Resp K R C E), st.call S kinds c = some st' ∧ ∀ a ∈ callActs c, ∀ u ∈ actTimes a, u ∈ env.ticks.all := by
    intro code hh
    simp only [Option.some.injEq, Prod.mk.injEq] at hh
    refine ⟨.publishOther st.head, ?_, by simp [callActs]⟩
    simp only [Storage.call, Storage.publishOther]
    rw [if_neg (Int.lt_irrefl _), hh.1]
  unfold serve at h
  simp only at h
  cases hreq : req.method with
  | other => rw [hreq] at h; exact stay _ h
  | get =>
    rw [hreq] at h
    simp only [read] at h
    cases hb : getBody api st.master (exportOf req.query) req.query (st.fields f) ((keyOfUrl (isDict (st.fields f)) req.args req.query).map api.parseKey) with
    | undefined => rw [hb] at h; cases h
    | ok v =>
      rw [hb] at h
      simp only at h
      cases hr : st.readOnly (.returns v) with
      | none => rw [hr] at h; cases h
      | some x =>
        obtain ⟨s, res⟩ := x
        rw [hr] at h
        refine ⟨.readOnly (.returns v), ?_, by simp [callActs]⟩
        rw [Storage.call, hr, Option.map_some]
        cases res <;> cases h <;> rfl
    | throws =>
      rw [hb] at h
      simp only at h
      cases hr : st.readOnly (.throws (V := Resp K R C E)) with
      | none => rw [hr] at h; cases h
      | some x =>
        obtain ⟨s, res⟩ := x
        rw [hr] at h
        refine ⟨.readOnly .throws, ?_, by simp [callActs]⟩
        rw [Storage.call, hr, Option.map_some]
        cases res <;> cases h <;> rfl
  | post =>
    simp only [hreq] at h
    split at h
    · split at h
      · exact stay _ h
      · cases hj : api.parseJSON req.body with
        | none => rw [hj] at h; exact stay _ h
        | some e => rw [hj] at h; exact write_call kinds (timely_post _ _ _ _ _ _) h
    · exact stay _ h
  | put =>
    simp only [hreq] at h
    split at h
    · split at h
      · exact stay _ h
      · exact stay _ h
      · cases hj : api.parseJSON req.body with
        | none => rw [hj] at h; exact stay _ h
        | some e => rw [hj] at h; exact write_call kinds (timely_put _ _ _ _ _ _ _) h
    · exact stay _ h
  | patch =>
    simp only [hreq] at h
    split at h
    · split at h
      · exact stay _ h
      · exact stay _ h
      · exact write_call kinds (timely_patch _ _ _ _ _ _ _) h
    · exact stay _ h
  | delete =>
    simp only [hreq] at h
    split at h
    · split at h
      · exact stay _ h
      · exact stay _ h
      · exact write_call kinds (timely_delete _ _ _ _ _) h
    · exact stay _ h

theorem good_leads {api : Api K R C E} {S : F → Schema K R C E P} (hS : ∀ f, (S f).KeepsKeys) {kinds : F → Kind} {st st' : Storage F K R C E P}
    {l : List (Step F K R C E P V)} (h : Leads api S kinds st l st') (hg : st.Good S kinds) : st'.Good S kinds := by
  induction h with
  | done => exact hg
  | call hc _ ih => exact ih (good_call hS hg _ hc)
  | request hc _ ih =>
    obtain ⟨c, h1, _⟩ := serve_call api kinds hc
    exact ih (good_call hS hg c h1)

/-- Since a moment, the entry is as it was, or its modification time is later. -/
theorem since {api : Api K R C E} {S : F → Schema K R C E P} (hS : ∀ f, (S f).KeepsKeys) {kinds : F → Kind} {st st' : Storage F K R C E P}
    {l : List (Step F K R C E P V)} (h : Leads api S kinds st l st') (hg : st.Good S kinds) {t : Time} (hl : ∀ x ∈ l, After t x) (f : F) (k : Key K R C) :
    (entryAt (st'.fields f) k = entryAt (st.fields f) k ∧ lastMod (st'.fields f) k = lastMod (st.fields f) k) ∨ ∃ u, t < u ∧ lastMod (st'.fields f) k = some u := by
  have step : ∀ {a b : Storage F K R C E P} {s : List Time}, (∀ u ∈ s, t < u) → Moved s (a.fields f) (b.fields f) k →
      ((entryAt (st'.fields f) k = entryAt (b.fields f) k ∧ lastMod (st'.fields f) k = lastMod (b.fields f) k) ∨ ∃ u, t < u ∧ lastMod (st'.fields f) k = some u) →
      (entryAt (st'.fields f) k = entryAt (a.fields f) k ∧ lastMod (st'.fields f) k = lastMod (a.fields f) k) ∨ ∃ u, t < u ∧ lastMod (st'.fields f) k = some u := by
    intro a b s hs hm hi
    rcases hi with ⟨i1, i2⟩ | hi
    · rcases hm with ⟨m1, m2⟩ | ⟨u, hu, m⟩
      · exact Or.inl ⟨i1.trans m1, i2.trans m2⟩
      · exact Or.inr ⟨u, hs u hu, i2.trans m⟩
    · exact Or.inr hi
  induction h with
  | done => exact Or.inl ⟨rfl, rfl⟩
  | @call a b _ c l hc hr ih =>
    refine step ?_ (moved_call hS hg c hc f k) (ih (good_call hS hg _ hc) (fun x hx => hl x (by simp [hx])) step)
    intro u hu
    obtain ⟨x, hx, hu⟩ := List.mem_flatMap.1 hu
    exact hl (.call c) (by simp) x hx u hu
  | @request a b _ g env req r l hc hr ih =>
    obtain ⟨c, h1, h2⟩ := serve_call api kinds hc
    refine step ?_ (moved_call hS hg c h1 f k) (ih (good_call hS hg _ h1) (fun x hx => hl x (by simp [hx])) step)
    intro u hu
    obtain ⟨x, hx, hu⟩ := List.mem_flatMap.1 hu
    have := h2 x hx u hu
    have ha : t < env.ticks.t₁ ∧ t < env.ticks.t₂ ∧ t < env.ticks.t₃ := hl (.request g env req) (by simp)
    simp only [Ticks.all, List.mem_cons, List.not_mem_nil, or_false] at this
    rcases this with e | e | e <;> rw [e]
    · exact ha.1
    · exact ha.2.1
    · exact ha.2.2

/-! ### C79 -/

/-- **C79.** As `no_lost_update` below, when the time in the client's header is `x` instead of `t`: then only a change between the two can be lost. -/
theorem no_lost_update_since (api : Api K R C E) (ha : api.flavor = .hypermedia) {S : F → Schema K R C E P} (hS : ∀ f, (S f).KeepsKeys) {kinds : F → Kind}
    {st st₁ st₂ : Storage F K R C E P} (h : st.Good S kinds) (f : F) {env₀ env : Env E} {req₀ req : Req} {e : E} {t : Time} {kt : KeyText}
    (hget : req₀.method = .get) (hk₀ : keyOfUrl (isDict (st.fields f)) req₀.args req₀.query = some kt)
    (hseen : serve api S f st env₀ req₀ = some (st, { code := 200, body := .entry e, lastModified := some t }))
    {l : List (Step F K R C E P V)} (hl : Leads api S kinds st l st₁) (hlate : ∀ x ∈ l, After t x)
    (hm : req.method = .put ∨ req.method = .patch ∨ req.method = .delete) (hk : keyOfUrl (isDict (st₁.fields f)) req.args req.query = some kt)
    {x : Time} (hius : unmodifiedSince api req = some (some x)) (hc : env.clock.Ok st₁) {r : Resp K R C E} (hres : serve api S f st₁ env req = some (st₂, r)) :
    (∃ u, t < u ∧ u ≤ x ∧ lastMod (st₁.fields f) (api.parseKey kt) = some u) ∨
    ((entryAt (st₁.fields f) (api.parseKey kt) = some e ∧ lastMod (st₁.fields f) (api.parseKey kt) = some t) ∨ st₂ = st₁ ∨
      (req.method = .put ∧ entryAt (st₁.fields f) (api.parseKey kt) = none)) ∧
    (r.code = 200 → req.method ≠ .delete → entryAt (st₁.fields f) (api.parseKey kt) = some e) := by
  -- What the client saw.
  have hsaw : entryAt (st.fields f) (api.parseKey kt) = some e ∧ lastMod (st.fields f) (api.parseKey kt) = some t := by
    cases hd : st.destructing with
    | true =>
      rw [(get_behaviour api h f env₀ req₀ hget).1 hd] at hseen
      simp at hseen
    | false =>
      obtain ⟨h1, h2⟩ := ((get_behaviour api h f env₀ req₀ hget).2 hd).1 kt hk₀
      cases he : entryAt (st.fields f) (api.parseKey kt) with
      | none => rw [h1 he] at hseen; simp at hseen
      | some e' =>
        obtain ⟨t', ht', _, h3⟩ := h2 e' he
        obtain ⟨h4, h5⟩ := h3 ha
        cases hx : exportOf req₀.query with
        | none =>
          rw [h4 hx] at hseen
          simp at hseen
          exact ⟨by rw [hseen.1], by rw [ht', hseen.2]⟩
        | some x =>
          rw [h5 x hx] at hseen
          simp at hseen
  have hg := good_leads hS hl h
  have hfinal : entryAt (st₁.fields f) (api.parseKey kt) = some e ∧ lastMod (st₁.fields f) (api.parseKey kt) = some t ∨
      ∃ u, t < u ∧ lastMod (st₁.fields f) (api.parseKey kt) = some u := by
    rcases since hS hl h hlate f (api.parseKey kt) with ⟨a, b⟩ | hb
    · exact Or.inl ⟨a.trans hsaw.1, b.trans hsaw.2⟩
    · exact Or.inr hb
  rcases hfinal with hsame | ⟨u, hu, hlm⟩
  · exact Or.inr ⟨Or.inl hsame, fun _ _ => hsame.1⟩
  by_cases hux : u ≤ x
  · exact Or.inl ⟨u, hu, hux, hlm⟩
  replace hux : x < u := Int.not_le.1 hux
  right
  -- It was modified since.
  have changed : ∀ {r' : Resp K R C E}, serve api S f st₁ env req = some (st₁, r') → r'.code ≠ 200 →
      ((entryAt (st₁.fields f) (api.parseKey kt) = some e ∧ lastMod (st₁.fields f) (api.parseKey kt) = some t) ∨ st₂ = st₁ ∨
        (req.method = .put ∧ entryAt (st₁.fields f) (api.parseKey kt) = none)) ∧
      (r.code = 200 → req.method ≠ .delete → entryAt (st₁.fields f) (api.parseKey kt) = some e) := by
    intro r' hs hn
    rw [hs] at hres
    simp only [Option.some.injEq, Prod.mk.injEq] at hres
    exact ⟨Or.inr (Or.inl hres.1.symm), fun hcode => by rw [← hres.2] at hcode; exact absurd hcode hn⟩
  cases hd : st₁.destructing with
  | true =>
    obtain ⟨r', h1, h2⟩ := serve_shutdown api hS hg hd f env req
    refine changed h1 ?_
    simp only [List.mem_cons, List.not_mem_nil, or_false] at h2
    rcases h2 with e | e | e <;> simp [e]
  | false =>
  cases hmaster : st₁.master with
  | false =>
    refine changed (serve_follower api S hmaster f env req ?_) (by simp)
    rcases hm with e | e | e <;> simp [e]
  | true =>
  rcases hm with hreq | hreq | hreq
  · cases he : api.parseJSON req.body with
    | none => exact changed (serve_bad api S hmaster f env req (Or.inr (Or.inl ⟨hreq, he⟩))) (by simp)
    | some e' =>
      obtain ⟨h1, h2⟩ := put_behaviour api hS hg hmaster hd f env hc req hreq hk hius he
      by_cases hkey : keyOf (S f) (st₁.fields f) e' = api.parseKey kt
      · obtain ⟨h3, h4⟩ := h2 hkey
        cases hold : entryAt (st₁.fields f) (api.parseKey kt) with
        | some old => rw [← hold]; exact changed (h3 old x u hold rfl hlm hux) (by simp)
        | none =>
          obtain ⟨st', u', content, a1, _⟩ := h4 (Or.inl hold)
          rw [a1] at hres
          simp only [Option.some.injEq, Prod.mk.injEq] at hres
          refine ⟨Or.inr (Or.inr ⟨hreq, rfl⟩), fun hcode => ?_⟩
          rw [← hres.2, hold] at hcode
          simp at hcode
      · exact changed (h1 hkey) (by simp)
  · obtain ⟨h1, h2⟩ := patch_behaviour api hS hg hmaster hd f env hc req hreq hk hius
    cases hold : entryAt (st₁.fields f) (api.parseKey kt) with
    | none =>
      have hh := changed (h1 hold) (by simp)
      rw [hold] at hh
      exact hh
    | some old => rw [← hold]; exact changed ((h2 old hold).1 x u rfl hlm hux) (by simp)
  · obtain ⟨h1, h2⟩ := delete_behaviour api hS hg hmaster hd f env hc req hreq hk hius
    cases hold : entryAt (st₁.fields f) (api.parseKey kt) with
    | none =>
      rw [h1 hold] at hres
      simp only [Option.some.injEq, Prod.mk.injEq] at hres
      exact ⟨Or.inr (Or.inl hres.1.symm), fun _ hn => absurd hreq hn⟩
    | some old => rw [← hold]; exact changed ((h2 old hold).1 x u rfl hlm hux) (by simp)

/-- **C79.** No lost updates. A client of the hypermedia API got the entry `e` under a key, modified at the time `t`. Then anything happened: transactions, other clients' requests,
restarts, with the clock showing times after `t`. Then the client's PUT, PATCH or DELETE for the key, with the time `t` in its header, met the entry `e`, modified at `t`; or it
changed nothing; or it was a PUT and met no entry at all. If it replaced or changed an entry (200 for PUT and PATCH) then that entry was `e`. -/
theorem no_lost_update (api : Api K R C E) (ha : api.flavor = .hypermedia) {S : F → Schema K R C E P} (hS : ∀ f, (S f).KeepsKeys) {kinds : F → Kind}
    {st st₁ st₂ : Storage F K R C E P} (h : st.Good S kinds) (f : F) {env₀ env : Env E} {req₀ req : Req} {e : E} {t : Time} {kt : KeyText}
    (hget : req₀.method = .get) (hk₀ : keyOfUrl (isDict (st.fields f)) req₀.args req₀.query = some kt)
    (hseen : serve api S f st env₀ req₀ = some (st, { code := 200, body := .entry e, lastModified := some t }))
    {l : List (Step F K R C E P V)} (hl : Leads api S kinds st l st₁) (hlate : ∀ x ∈ l, After t x)
    (hm : req.method = .put ∨ req.method = .patch ∨ req.method = .delete) (hk : keyOfUrl (isDict (st₁.fields f)) req.args req.query = some kt)
    (hius : unmodifiedSince api req = some (some t)) (hc : env.clock.Ok st₁) {r : Resp K R C E} (hres : serve api S f st₁ env req = some (st₂, r)) :
    ((entryAt (st₁.fields f) (api.parseKey kt) = some e ∧ lastMod (st₁.fields f) (api.parseKey kt) = some t) ∨ st₂ = st₁ ∨
      (req.method = .put ∧ entryAt (st₁.fields f) (api.parseKey kt) = none)) ∧
    (r.code = 200 → req.method ≠ .delete → entryAt (st₁.fields f) (api.parseKey kt) = some e) := by
  rcases no_lost_update_since (V := V) api ha hS h f hget hk₀ hseen hl hlate hm hk hius hc hres with ⟨u, h1, h2, _⟩ | h'
  · exact absurd h1 (Int.not_lt.2 h2)
  · exact h'

/-- **C79.** The time a client got in `X-Current-Last-Modified` is what the server reads in `X-Current-If-Unmodified-Since`; with this header, `If-Unmodified-Since` does not matter. -/
theorem header_time (api : Api K R C E) (ha : api.flavor = .hypermedia) (req : Req) (t : Int) (h0 : 0 < t) (h1 : t < 2 ^ 63)
    (hh : req.headers hCurrentIus = some (toStringInt t)) : unmodifiedSince api req = some (some t) := by
  have := fromString_toString int64 t (by unfold IntTy.Fits int64; simp; omega)
  simp only [unmodifiedSince, ha, hh, this]
  rw [if_pos h0]

/-- **C79.** Times in this header that are not positive, or no numbers, are refused, whatever the other header says. -/
theorem header_bad (api : Api K R C E) (ha : api.flavor = .hypermedia) (req : Req) (v : Str) (hh : req.headers hCurrentIus = some v)
    (hv : fromStringInt int64 v ≤ 0) : unmodifiedSince api req = none := by
  simp only [unmodifiedSince, ha, hh]
  rw [if_neg (Int.not_lt.2 hv)]

/-- **C79.** Without the headers nothing is checked. The plain API never checks. -/
theorem header_none (api : Api K R C E) (req : Req) (h : api.flavor = .plain ∨ (req.headers hCurrentIus = none ∧ req.headers hIus = none)) :
    unmodifiedSince api req = some none := by
  cases hf : api.flavor with
  | plain => simp [unmodifiedSince, hf]
  | hypermedia =>
    rcases h with h | ⟨h1, h2⟩
    · rw [hf] at h; cases h
    · simp [unmodifiedSince, hf, h1, h2]

/-! ### Round trips -/

/-- **C78.** What is put can be got: the same entry, and the modification time that the PUT reported. -/
theorem put_get (api : Api K R C E) (ha : api.flavor = .hypermedia) {S : F → Schema K R C E P} (hS : ∀ f, (S f).KeepsKeys) {kinds : F → Kind} {st st' : Storage F K R C E P}
    (h : st.Good S kinds) (f : F) {env env' : Env E} (hc : env.clock.Ok st) {req req' : Req} {r : Resp K R C E}
    (hput : req.method = .put) (hres : serve api S f st env req = some (st', r)) (hok : r.code = 200 ∨ r.code = 201)
    (hget : req'.method = .get) (hx : exportOf req'.query = none)
    (hk : keyOfUrl (isDict (st.fields f)) req'.args req'.query = keyOfUrl (isDict (st.fields f)) req.args req.query) :
    ∃ e t, api.parseJSON req.body = some e ∧ r.lastModified = some t ∧
      serve api S f st' env' req' = some (st', { code := 200, body := .entry e, lastModified := some t }) := by
  have no : ∀ {r' : Resp K R C E} {s : Storage F K R C E P}, serve api S f st env req = some (s, r') → r'.code ≠ 200 → r'.code ≠ 201 → False := by
    intro r' s hs h1 h2
    rw [hs] at hres
    simp only [Option.some.injEq, Prod.mk.injEq] at hres
    rw [← hres.2] at hok
    rcases hok with e | e
    · exact h1 e
    · exact h2 e
  cases hd : st.destructing with
  | true =>
    obtain ⟨r', h1, h2⟩ := serve_shutdown api hS h hd f env req
    simp only [List.mem_cons, List.not_mem_nil, or_false] at h2
    exact (no h1 (by rcases h2 with e | e | e <;> simp [e]) (by rcases h2 with e | e | e <;> simp [e])).elim
  | false =>
  cases hm : st.master with
  | false => exact (no (serve_follower api S hm f env req (by simp [hput])) (by simp) (by simp)).elim
  | true =>
  cases hkt : keyOfUrl (isDict (st.fields f)) req.args req.query with
  | none => exact (no (serve_bad api S hm f env req (Or.inr (Or.inr ⟨Or.inl hput, Or.inl hkt⟩))) (by simp) (by simp)).elim
  | some kt =>
  cases hi : unmodifiedSince api req with
  | none => exact (no (serve_bad api S hm f env req (Or.inr (Or.inr ⟨Or.inl hput, Or.inr hi⟩))) (by simp) (by simp)).elim
  | some ius =>
  cases he : api.parseJSON req.body with
  | none => exact (no (serve_bad api S hm f env req (Or.inr (Or.inl ⟨hput, he⟩))) (by simp) (by simp)).elim
  | some e =>
    obtain ⟨h1, h2⟩ := put_behaviour api hS h hm hd f env hc req hput hkt hi he
    by_cases hkey : keyOf (S f) (st.fields f) e ≠ api.parseKey kt
    · exact (no (h1 hkey) (by simp) (by simp)).elim
    have hkey := Classical.not_not.1 hkey
    obtain ⟨h3, h4⟩ := h2 hkey
    by_cases hcond : entryAt (st.fields f) (api.parseKey kt) = none ∨ ius = none ∨ ∃ t m, ius = some t ∧ lastMod (st.fields f) (api.parseKey kt) = some m ∧ m ≤ t
    · obtain ⟨s, u, content, a1, a2, a3, a4, a5, _⟩ := h4 hcond
      rw [hres] at a1
      simp only [Option.some.injEq, Prod.mk.injEq] at a1
      obtain ⟨e1, e2⟩ := a1
      subst e1
      refine ⟨e, u, rfl, by rw [e2]; simp [ha], ?_⟩
      have hd' : st'.destructing = false := by rw [a2.flags.2, hd]
      have hk' : keyOfUrl (isDict (st'.fields f)) req'.args req'.query = some kt := by rw [a2.kind, hk, hkt]
      have hent : entryAt (st'.fields f) (api.parseKey kt) = some e := by
        rw [a2.content, ← hkey]; exact a3.1
      obtain ⟨t, ht, _, h6⟩ := (((get_behaviour api a4 f env' req' hget).2 hd').1 kt hk').2 e hent
      rw [a5] at ht
      cases ht
      exact (h6 ha).1 hx
    · obtain ⟨h5, h6⟩ := not_or.1 hcond
      obtain ⟨h7, h8⟩ := not_or.1 h6
      cases hold : entryAt (st.fields f) (api.parseKey kt) with
      | none => exact absurd hold h5
      | some old =>
        obtain ⟨m, hlm⟩ := lastMod_some (h.inv f) hold
        cases hius : ius with
        | none => exact absurd hius h7
        | some t => exact (no (h3 old t m hold hius hlm (Int.not_le.1 fun hle => h8 ⟨t, m, hius, hlm, hle⟩)) (by simp) (by simp)).elim

/-- **C78.** What was deleted is not found. -/
theorem delete_get (api : Api K R C E) {S : F → Schema K R C E P} (hS : ∀ f, (S f).KeepsKeys) {kinds : F → Kind} {st st' : Storage F K R C E P}
    (h : st.Good S kinds) (f : F) {env env' : Env E} (hc : env.clock.Ok st) {req req' : Req} {r : Resp K R C E}
    (hdel : req.method = .delete) (hres : serve api S f st env req = some (st', r)) (hok : r.code = 200)
    (hget : req'.method = .get) (hk : keyOfUrl (isDict (st.fields f)) req'.args req'.query = keyOfUrl (isDict (st.fields f)) req.args req.query) :
    serve api S f st' env' req' = some (st', { code := 404 }) := by
  have no : ∀ {r' : Resp K R C E} {s : Storage F K R C E P}, serve api S f st env req = some (s, r') → r'.code ≠ 200 → False := by
    intro r' s hs h1
    rw [hs] at hres
    simp only [Option.some.injEq, Prod.mk.injEq] at hres
    rw [← hres.2] at hok
    exact h1 hok
  cases hd : st.destructing with
  | true =>
    obtain ⟨r', h1, h2⟩ := serve_shutdown api hS h hd f env req
    simp only [List.mem_cons, List.not_mem_nil, or_false] at h2
    exact (no h1 (by rcases h2 with e | e | e <;> simp [e])).elim
  | false =>
  cases hm : st.master with
  | false => exact (no (serve_follower api S hm f env req (by simp [hdel])) (by simp)).elim
  | true =>
  cases hkt : keyOfUrl (isDict (st.fields f)) req.args req.query with
  | none => exact (no (serve_bad api S hm f env req (Or.inr (Or.inr ⟨Or.inr (Or.inr hdel), Or.inl hkt⟩))) (by simp)).elim
  | some kt =>
  cases hi : unmodifiedSince api req with
  | none => exact (no (serve_bad api S hm f env req (Or.inr (Or.inr ⟨Or.inr (Or.inr hdel), Or.inr hi⟩))) (by simp)).elim
  | some ius =>
    obtain ⟨h1, h2⟩ := delete_behaviour api hS h hm hd f env hc req hdel hkt hi
    have fin : st'.Good S kinds → st'.destructing = false → isDict (st'.fields f) = isDict (st.fields f) → entryAt (st'.fields f) (api.parseKey kt) = none →
        serve api S f st' env' req' = some (st', { code := 404 }) := fun hg hd' hki hn =>
      (((get_behaviour api hg f env' req' hget).2 hd').1 kt (by rw [hki, hk, hkt])).1 hn
    cases hold : entryAt (st.fields f) (api.parseKey kt) with
    | none =>
      have := h1 hold
      rw [hres] at this
      simp only [Option.some.injEq, Prod.mk.injEq] at this
      obtain ⟨e1, _⟩ := this
      subst e1
      exact fin h hd rfl hold
    | some old =>
      obtain ⟨h3, h4⟩ := h2 old hold
      obtain ⟨m, hlm⟩ := lastMod_some (h.inv f) hold
      by_cases hx : ius = none ∨ ∃ t m, ius = some t ∧ lastMod (st.fields f) (api.parseKey kt) = some m ∧ m ≤ t
      · obtain ⟨s, a1, a2, a3, _⟩ := h4 hx
        rw [hres] at a1
        simp only [Option.some.injEq, Prod.mk.injEq] at a1
        obtain ⟨e1, _⟩ := a1
        subst e1
        exact fin a3 (by rw [a2.flags.2, hd]) a2.kind (by rw [a2.content, if_pos rfl])
      · obtain ⟨h7, h8⟩ := not_or.1 hx
        cases hius : ius with
        | none => exact absurd hius h7
        | some t => exact (no (h3 t m hius hlm (Int.not_le.1 fun hle => h8 ⟨t, m, hius, hlm, hle⟩)) (by simp)).elim

/-- **C78.** The transaction is not rolled back if the response cannot be sent: it makes no difference to the storage. -/
theorem unsent_response (api : Api K R C E) {S : F → Schema K R C E P} (hS : ∀ f, (S f).KeepsKeys) {kinds : F → Kind} {st : Storage F K R C E P} (h : st.Good S kinds)
    (f : F) (env : Env E) (req : Req) (sent : Bool) : serve api S f st { env with sent := sent } req = serve api S f st env req := by
  have key : ∀ (hm : st.master = true) (plan : Option (Plan K R C E P)), write S f st { env with sent := sent } plan = write S f st env plan := by
    intro hm plan
    cases plan with
    | none => rfl
    | some p =>
      obtain ⟨o, r⟩ := p
      cases hd : st.destructing with
      | true => rw [write_shutdown h hS hm hd, write_shutdown h hS hm hd]
      | false =>
        cases o with
        | none => rw [write_nothing h hm, write_nothing h hm]
        | some o =>
          obtain ⟨σ', info, l, a1, a2, a3, a4, a5⟩ := run_spec hS h env.clock [.op f o]
          simp only [write, a1]
          by_cases hok : l = [] ∨ env.clock.Ok st
          · obtain ⟨x, b1, b2, _⟩ := (persist_spec h hm a2 env.clock a5).1 hok
            have he := good_empty h
            obtain ⟨r1, e1⟩ := two_step_returns hm he hd a1 b1 (rollback_id b2) (r (σ' f)) sent
            obtain ⟨r2, e2⟩ := two_step_returns hm he hd a1 b1 (rollback_id b2) (r (σ' f)) env.sent
            rw [e1, e2]
          · have hp := (persist_spec h hm a2 env.clock a5).2 hok
            have : ∀ b : Bool, st.twoStep S env.clock [.op f o] (.returns (r (σ' f))) (fun _ v => if b then .returns v else .throws) = none := by
              intro b
              unfold Storage.twoStep
              rw [if_neg (by rw [hm]; decide), if_neg (by rw [good_empty h]; decide), if_neg (by rw [hd]; decide)]
              simp only [a1, hp, Option.map_none]
            rw [this, this]
  unfold serve
  simp only
  cases hreq : req.method <;> simp only
  all_goals
    cases hm : st.master with
    | false => rfl
    | true =>
      simp only [if_true]
      first
      | (split
         · rfl
         · cases api.parseJSON req.body with
           | none => rfl
           | some e => exact key hm _)
      | (split
         · rfl
         · rfl
         · first
           | exact key hm _
           | (cases api.parseJSON req.body with
              | none => rfl
              | some e => exact key hm _))

end Current.Rest
