import Verif.Rest.Model
/-!
What requests do to a storage (C78).
-/
namespace Current.Rest
open Current.Persist Current.Url Current.Strings Current.Storage

variable {F K R C E P : Type} [DecidableEq F] [DecidableEq K] [DecidableEq R] [DecidableEq C]

/-! ### What is promised -/

/-- The entry of a field under a key. -/
def entryAt (fld : Field K R C E) (k : Key K R C) : Option E := (fetch fld k).getD none

/-- An entry under `b` cannot be there together with one under `a`: in the same row of a container whose rows have one entry, or in the same column of one whose
columns have. -/
def Conflict (fld : Field K R C E) : Key K R C → Key K R C → Prop
  | .cell r c, .cell r' c' =>
    match fld with
    | .matrix m => (m.fwd.isSingle = true ∧ r' = r) ∨ (m.tr.isSingle = true ∧ c' = c)
    | .dict _ => False
  | _, _ => False

/-- The request left the storage as it was. -/
abbrev Untouched (st st' : Storage F K R C E P) : Prop := st' = st

/-- Exactly one transaction was committed to the stream, with the timestamp `ts`; only the field `f` differs; it has the entries `content`. -/
structure Committed (st st' : Storage F K R C E P) (f : F) (ts : Time) (content : Key K R C → Option E) : Prop where
  others : ∀ g, g ≠ f → st'.fields g = st.fields g
  content : ∀ k, entryAt (st'.fields f) k = content k
  kind : isDict (st'.fields f) = isDict (st.fields f)
  stream : ∃ tx : Transaction F K R C E P, st'.stream = st.stream ++ [(ts, some tx)] ∧ tx.mutations ≠ []
  flags : st'.master = st.master ∧ st'.destructing = st.destructing

/-- An entry is written: whatever conflicts with it is gone, everything else is as it was. -/
def Written (S : Schema K R C E P) (fld : Field K R C E) (e : E) (content : Key K R C → Option E) : Prop :=
  content (keyOf S fld e) = some e ∧
  ∀ k, k ≠ keyOf S fld e → (Conflict fld (keyOf S fld e) k → content k = none) ∧ (¬ Conflict fld (keyOf S fld e) k → content k = entryAt fld k)

/-! ### Keys in URLs -/

/-- **C78.** Where the key is taken from. Of a dictionary: the path after the field, if it has one component, otherwise the parameter `key`. Of a matrix: the path, if it has
two components, otherwise the first of the pairs `key1` and `key2`, `row` and `col`, `1` and `2` of parameters that is complete. -/
theorem key_from_url (q : Query) :
    (∀ k, keyOfUrl true [k] q = some (.one k)) ∧ (∀ args, args.length ≠ 1 → keyOfUrl true args q = (q sKey).map .one) ∧
    (∀ r c, keyOfUrl false [r, c] q = some (.cell r c)) ∧
    (∀ args r c, args.length ≠ 2 → q sKey1 = some r → q sKey2 = some c → keyOfUrl false args q = some (.cell r c)) ∧
    (∀ args r c, args.length ≠ 2 → (q sKey1 = none ∨ q sKey2 = none) → q sRow = some r → q sCol = some c → keyOfUrl false args q = some (.cell r c)) ∧
    (∀ args r c, args.length ≠ 2 → (q sKey1 = none ∨ q sKey2 = none) → (q sRow = none ∨ q sCol = none) → q ['1'] = some r → q ['2'] = some c →
      keyOfUrl false args q = some (.cell r c)) ∧
    (∀ args, args.length ≠ 2 → (q sKey1 = none ∨ q sKey2 = none) → (q sRow = none ∨ q sCol = none) → (q ['1'] = none ∨ q ['2'] = none) →
      keyOfUrl false args q = none) := by
  have hb : ∀ a b, (q a = none ∨ q b = none) → both q a b = none := by
    intro a b h
    unfold both
    rcases h with h | h <;> rw [h]
    cases q a <;> rfl
  have hs : ∀ a b r c, q a = some r → q b = some c → both q a b = some (.cell r c) := by
    intro a b r c h1 h2
    unfold both
    rw [h1, h2]
  have h2 : ∀ args : List Str, args.length ≠ 2 → keyOfUrl false args q = match both q sKey1 sKey2 with
      | some k => some k
      | none => match both q sRow sCol with
        | some k => some k
        | none => both q ['1'] ['2'] := by
    intro args h
    rcases args with _ | ⟨a, _ | ⟨b, _ | ⟨c, l⟩⟩⟩ <;> first | rfl | exact absurd rfl h
  refine ⟨fun _ => rfl, fun args h => ?_, fun _ _ => rfl, ?_, ?_, ?_, ?_⟩
  · rcases args with _ | ⟨a, _ | ⟨b, l⟩⟩ <;> first | rfl | exact absurd rfl h
  · intro args r c h a b; rw [h2 args h, hs _ _ r c a b]
  · intro args r c h a b d; rw [h2 args h, hb _ _ a, hs _ _ r c b d]
  · intro args r c h a b d e; rw [h2 args h, hb _ _ a, hb _ _ b, hs _ _ r c d e]
  · intro args h a b d; rw [h2 args h, hb _ _ a, hb _ _ b, hb _ _ d]

/-! ### Access by key -/

theorem fetch_ok {S : Schema K R C E P} {fld : Field K R C E} (h : fld.Inv S) (k : Key K R C) : fetch fld k = some (entryAt fld k) := by
  cases fld with
  | dict d => cases k <;> rfl
  | matrix m =>
    cases k with
    | one k => rfl
    | cell r c =>
      have : m.get (r, c) = (m.content (r, c)).map some := Matrix.Inv.get h (r, c)
      simp only [entryAt, fetch, this]
      cases m.content (r, c) <;> rfl

theorem entryAt_matrix {S : Schema K R C E P} {m : Matrix R C E} (h : m.Inv S) (r : R) (c : C) :
    entryAt (.matrix m : Field K R C E) (.cell r c) = m.content (r, c) := by
  simp only [entryAt, fetch, h.get]
  cases m.content (r, c) <;> rfl

theorem lastMod_some {S : Schema K R C E P} {fld : Field K R C E} (h : fld.Inv S) {k : Key K R C} {e : E} (he : entryAt fld k = some e) :
    ∃ t, lastMod fld k = some t := by
  cases fld with
  | dict d =>
    cases k with
    | one k => exact h.lm k e he
    | cell r c => cases he
  | matrix m =>
    cases k with
    | one k => cases he
    | cell r c =>
      rw [entryAt_matrix h] at he
      exact h.lm (r, c) e he

theorem keyOf_at {S : Schema K R C E P} {fld : Field K R C E} (h : fld.Inv S) {k : Key K R C} {e : E} (he : entryAt fld k = some e) :
    keyOf S fld e = k := by
  cases fld with
  | dict d =>
    cases k with
    | one k => simp only [keyOf]; rw [h.key k e he]
    | cell r c => cases he
  | matrix m =>
    cases k with
    | one k => cases he
    | cell r c =>
      rw [entryAt_matrix h] at he
      unfold Matrix.content at he
      cases hp : find m.map (r, c) with
      | none => rw [hp] at he; cases he
      | some p =>
        obtain ⟨e', h1, h2⟩ := h.live _ _ hp
        rw [hp] at he
        simp only [Option.bind_some, Matrix.obj, h1, Option.some.injEq] at he
        subst he
        simp only [Schema.rc, Prod.mk.injEq] at h2
        simp only [keyOf, h2.1, h2.2]

/-! ### Operations -/

/-- What an operation does to the fields. -/
structure OpOk (S : F → Schema K R C E P) (σ σ' : Fields F K R C E) (f : F) (log : List (Logged F K R C E P)) : Prop where
  others : ∀ g, g ≠ f → σ' g = σ g
  kind : isDict (σ' f) = isDict (σ f)
  chain : FChain S σ log σ'

theorem add_op {S : F → Schema K R C E P} (hS : ∀ f, (S f).KeepsKeys) {σ : Fields F K R C E} (hσ : σ.Inv S) (f : F) (t : Ticks) (e : E) :
    ∃ σ' log, σ.op S f (addOp t (σ f) e) = some (σ', log) ∧ OpOk S σ σ' f log ∧ log ≠ [] ∧ Written (S f) (σ f) e (entryAt (σ' f)) ∧
      (∃ u, (u = t.t₁ ∨ u = t.t₂ ∨ u = t.t₃) ∧ lastMod (σ' f) (keyOf (S f) (σ f) e) = some u) := by
  obtain ⟨σ', log, hop, hch⟩ := fop_chain hS hσ f (addOp t (σ f) e)
  have hi := hσ f
  have hi' : (σ' f).Inv (S f) := hch.inv hσ f
  refine ⟨σ', log, hop, ?_⟩
  cases hf : σ f with
  | dict d =>
    rw [hf] at hi hop
    obtain ⟨d', hv, hd⟩ := dop_chain (hS f) hi (.add t.t₁ e)
    have hadd : ∃ l, d.op (S f) (.add t.t₁ e) = some (d', l) ∧ l ≠ [] := by
      rcases hd with ⟨h1, h2⟩ | ⟨ev, u, h1, _⟩
      · exfalso
        simp only [Dict.op, Dict.add] at h1
        cases ha : find d.map ((S f).key e) <;> cases hb : find d.lm ((S f).key e) <;> simp [ha, hb] at h1
      · exact ⟨_, h1, by simp⟩
    obtain ⟨l, h1, hl⟩ := hadd
    simp only [Fields.op, hf, addOp, h1, Option.map_some, Option.some.injEq, Prod.mk.injEq] at hop
    obtain ⟨e1, e2⟩ := hop
    subst e1
    refine ⟨⟨fun g hg => upd_other hg, by rw [upd_same, hf]; rfl, hch⟩, ?_, ?_, t.t₁, Or.inl rfl, ?_⟩
    · rw [← e2]; simpa using hl
    · rw [upd_same]
      have hc : ∀ k, entryAt (.dict d' : Field K R C E) (.one k) = if k = (S f).key e then some e else find d.map k := by
        intro k
        have := congrArg (fun v => v.content k) hv
        show find d'.map k = _
        simpa [Dict.view, DOp.spec] using this
      refine ⟨by simp only [keyOf]; rw [hc]; simp, fun k hk => ⟨fun h => ?_, fun _ => ?_⟩⟩
      · cases k <;> exact absurd h (by simp [Conflict, keyOf])
      · cases k with
        | one k =>
          rw [hc, if_neg (by intro h; subst h; exact hk rfl)]
          rfl
        | cell r c => rfl
    · rw [upd_same]
      have := congrArg (fun v => v.lm ((S f).key e)) hv
      simpa [Dict.view, DOp.spec, lastMod, keyOf] using this
  | matrix m =>
    rw [hf] at hi hop
    obtain ⟨m', l, h1, h2, h3, h4, h5⟩ := add_chain hi t.t₁ t.t₂ t.t₃ e
    have h1' : m.op (S f) (.add t.t₁ t.t₂ t.t₃ e) = some (m', l) := h1
    simp only [Fields.op, hf, addOp, h1', Option.map_some, Option.some.injEq, Prod.mk.injEq] at hop
    obtain ⟨e1, e2⟩ := hop
    subst e1
    rw [upd_same] at hi'
    refine ⟨⟨fun g hg => upd_other hg, by rw [upd_same, hf]; rfl, hch⟩, by rw [← e2]; simpa using h4, ?_, ?_⟩
    · rw [upd_same]
      refine ⟨?_, fun k hk => ?_⟩
      · rw [keyOf, entryAt_matrix hi', h3]; simp [MView.added, Schema.rc]
      · cases k with
        | one k => exact ⟨fun h => absurd h (by simp [Conflict, keyOf]), fun _ => rfl⟩
        | cell r c =>
          have hne : (r, c) ≠ (S f).rc e := by
            intro h; apply hk; simp only [Schema.rc, Prod.mk.injEq] at h; simp only [keyOf, h.1, h.2]
          rw [entryAt_matrix hi', entryAt_matrix hi, h3]
          simp only [MView.added, if_neg hne]
          constructor
          · intro h
            rw [if_pos]
            simpa [Conflict, keyOf, Matrix.view] using h
          · intro h
            rw [if_neg (by simpa [Conflict, keyOf, Matrix.view] using h)]
            rfl
    · rw [upd_same]
      obtain ⟨u, hu, hl⟩ := h5.1
      exact ⟨u, by simpa using hu, hl⟩

theorem erase_op {S : F → Schema K R C E P} (hS : ∀ f, (S f).KeepsKeys) {σ : Fields F K R C E} (hσ : σ.Inv S) (f : F) (t : Ticks) (k : Key K R C) :
    ∃ σ' log, σ.op S f (eraseOp t k) = some (σ', log) ∧ OpOk S σ σ' f log ∧ (log = [] ↔ entryAt (σ f) k = none) ∧ (log = [] → σ' = σ) ∧
      (∀ x, entryAt (σ' f) x = if x = k then none else entryAt (σ f) x) ∧
      (entryAt (σ f) k ≠ none → lastMod (σ' f) k = some t.t₁) := by
  obtain ⟨σ', log, hop, hch⟩ := fop_chain hS hσ f (eraseOp t k)
  have hi := hσ f
  have hi' : (σ' f).Inv (S f) := hch.inv hσ f
  refine ⟨σ', log, hop, ?_⟩
  cases hf : σ f with
  | dict d =>
    rw [hf] at hi
    cases k with
    | cell r c =>
      simp only [Fields.op, hf, eraseOp, Option.some.injEq, Prod.mk.injEq] at hop
      obtain ⟨rfl, rfl⟩ := hop
      refine ⟨⟨fun g hg => rfl, rfl, hch⟩, by simp [entryAt, fetch], fun _ => rfl, fun x => ?_, fun h => absurd rfl h⟩
      rw [hf]
      split
      · rename_i h; rw [h]; rfl
      · rfl
    | one k =>
      obtain ⟨d', hv, hd⟩ := dop_chain (hS f) hi (.erase t.t₁ k)
      have he : ∃ l, d.op (S f) (.erase t.t₁ k) = some (d', l) ∧ (l = [] ↔ find d.map k = none) ∧ (l = [] → d' = d) := by
        rcases hd with ⟨h1, h2⟩ | ⟨ev, u, h1, _⟩
        · refine ⟨[], h1, ⟨fun _ => ?_, fun _ => rfl⟩, fun _ => h2⟩
          simp only [Dict.op, Dict.erase] at h1
          cases ha : find d.map k with
          | none => rfl
          | some x => cases hb : find d.lm k <;> simp [ha, hb] at h1
        · refine ⟨_, h1, ⟨fun h => by simp at h, fun h => ?_⟩, fun h => by simp at h⟩
          simp [Dict.op, Dict.erase, h] at h1
      obtain ⟨l, h1, h2, h3⟩ := he
      simp only [Fields.op, hf, eraseOp, h1, Option.map_some, Option.some.injEq, Prod.mk.injEq] at hop
      obtain ⟨e1, e2⟩ := hop
      subst e1
      have hc : ∀ x, find d'.map x = if x = k then none else find d.map x := by
        intro x
        have := congrArg (fun v => v.content x) hv
        simpa [Dict.view, DOp.spec] using this
      refine ⟨⟨fun g hg => upd_other hg, by rw [upd_same, hf]; rfl, hch⟩, ?_, ?_, ?_, ?_⟩
      · rw [← e2, List.map_eq_nil_iff]; exact h2
      · intro h
        rw [h3 (by rw [← e2, List.map_eq_nil_iff] at h; exact h), ← hf, upd_id]
      · intro x
        rw [upd_same]
        cases x with
        | one x =>
          show find d'.map x = _
          rw [hc]
          by_cases hx : x = k
          · subst hx; simp
          · rw [if_neg hx, if_neg (by intro h; injection h; contradiction)]; rfl
        | cell r c => rw [if_neg (by intro h; cases h)]; rfl
      · intro hn
        rw [upd_same]
        have := congrArg (fun v => v.lm k) hv
        have hn' : find d.map k ≠ none := hn
        simpa [Dict.view, DOp.spec, lastMod, hn'] using this
  | matrix m =>
    rw [hf] at hi
    cases k with
    | one k =>
      simp only [Fields.op, hf, eraseOp, Option.some.injEq, Prod.mk.injEq] at hop
      obtain ⟨rfl, rfl⟩ := hop
      refine ⟨⟨fun g hg => rfl, rfl, hch⟩, by simp [entryAt, fetch], fun _ => rfl, fun x => ?_, fun h => absurd rfl h⟩
      rw [hf]
      split
      · rename_i h; rw [h]; rfl
      · rfl
    | cell r c =>
      obtain ⟨m', l, h1, h2, h3⟩ := op_chain hi (.erase t.t₁ (r, c))
      obtain ⟨m'', l', h1', h4⟩ := op_times hi (.erase t.t₁ (r, c))
      rw [h1] at h1'; cases h1'
      have hl : (l = [] ↔ m.content (r, c) = none) ∧ (l = [] → m' = m) := by
        simp only [Matrix.op, Matrix.erase] at h1
        cases hp : find m.map (r, c) with
        | none =>
          simp only [hp, Option.some.injEq, Prod.mk.injEq] at h1
          exact ⟨⟨fun _ => by simp [Matrix.content, hp], fun _ => h1.2.symm⟩, fun _ => h1.1.symm⟩
        | some p =>
          obtain ⟨x, hx, _⟩ := hi.live _ _ hp
          simp only [hp, Matrix.eraseAt, Matrix.obj, hx] at h1
          cases hlm : find m.lm (r, c) with
          | none => simp [hlm] at h1
          | some t =>
            simp only [hlm, Option.some.injEq, Prod.mk.injEq] at h1
            rw [← h1.2]
            simp [Matrix.content, hp, Matrix.obj, hx]
      simp only [Fields.op, hf, eraseOp, h1, Option.map_some, Option.some.injEq, Prod.mk.injEq] at hop
      obtain ⟨e1, e2⟩ := hop
      subst e1
      rw [upd_same] at hi'
      refine ⟨⟨fun g hg => upd_other hg, by rw [upd_same, hf]; rfl, hch⟩, ?_, ?_, ?_, ?_⟩
      · rw [← e2, List.map_eq_nil_iff, entryAt_matrix hi]; exact hl.1
      · intro h
        rw [hl.2 (by rw [← e2, List.map_eq_nil_iff] at h; exact h), ← hf, upd_id]
      · intro x
        rw [upd_same]
        cases x with
        | one x => rw [if_neg (by intro h; cases h)]; rfl
        | cell r' c' =>
          rw [entryAt_matrix hi', entryAt_matrix hi, h3]
          simp only [MOp.spec]
          by_cases hx : (r', c') = (r, c)
          · rw [if_pos hx, if_pos (by injection hx with a b; rw [a, b])]
          · rw [if_neg hx, if_neg (by intro h; injection h with a b; exact hx (by rw [a, b]))]
            rfl
      · intro hn
        rw [upd_same]
        rw [entryAt_matrix hi] at hn
        obtain ⟨u, hu, hlm⟩ := (h4 (r, c)).1 (Or.inr (by
          rw [h3]; simp only [MOp.spec, if_true]; exact fun h => hn h.symm))
        simp only [MOp.times, List.mem_singleton] at hu
        subst hu
        exact hlm

/-! ### Transactions of handlers -/

theorem runActs_one {S : F → Schema K R C E P} {σ σ' : Fields F K R C E} {f : F} {o : FOp K R C E P} {log : List (Logged F K R C E P)}
    (h : σ.op S f o = some (σ', log)) (j : Journal F K R C E P) : runActs S σ j [.op f o] = some (σ', { j with log := j.log ++ log }) := by
  simp [runActs, h]

theorem two_step_returns {S : F → Schema K R C E P} {V : Type} {st st₁ st₂ : Storage F K R C E P} {t : Clock} {acts : List (Act F K R C E P)} (hm : st.master = true)
    (he : st.journal.isEmpty = true) (hd : st.destructing = false) (hrun : st.run S t acts = some st₁) (hp : (st₁.after t).persist t.ts = some st₂)
    (hr : st₂.rollback = st₂) (v : V) (sent : Bool) :
    ∃ res, st.twoStep S t acts (.returns v) (fun _ v => if sent then .returns v else .throws) = some (st₂, res, [v]) := by
  unfold Storage.twoStep
  rw [if_neg (by rw [hm]; decide), if_neg (by rw [he]; decide), if_neg (by rw [hd]; decide)]
  simp only [hrun, hp, Option.map_some]
  cases sent
  · exact ⟨.exception, by simp [hr]⟩
  · exact ⟨.committed (), by simp⟩

theorem two_step_shutdown {S : F → Schema K R C E P} {V : Type} {st : Storage F K R C E P} {t : Clock} {acts : List (Act F K R C E P)} (hm : st.master = true)
    (he : st.journal.isEmpty = true) (hd : st.destructing = true) (out : Storage.Outcome V) (f2 : Nat → V → Storage.Outcome V) :
    st.twoStep S t acts out f2 = some (st, .shutdown, []) := by
  unfold Storage.twoStep
  rw [if_neg (by rw [hm]; decide), if_neg (by rw [he]; decide), if_pos hd]

theorem rollback_id {S : F → Schema K R C E P} {kinds : F → Kind} {st : Storage F K R C E P} (h : st.Good S kinds) : st.rollback = st := by
  have := h.journal
  unfold Storage.rollback
  rw [this]
  simp only [List.map_nil, List.reverse_nil, List.foldl_nil]
  rw [← this]

/-- A handler that changes nothing. -/
theorem write_nothing {S : F → Schema K R C E P} {kinds : F → Kind} {st : Storage F K R C E P} (h : st.Good S kinds) (hm : st.master = true) (f : F) (env : Env E)
    (r : Field K R C E → Resp K R C E) :
    write S f st env (some (none, r)) = some (st, if st.destructing then { code := 500 } else r (st.fields f)) := by
  have hj := h.journal
  obtain ⟨st₁, hst₁⟩ : ∃ st₁ : Storage F K R C E P, st₁ = { st with journal := { st.journal with info := { st.journal.info with beginUs := env.clock.beginUs } } } := ⟨_, rfl⟩
  have hrun : st.run S env.clock [] = some st₁ := by rw [hst₁]; rfl
  have hf : st₁.fields = st.fields := by rw [hst₁]
  have he := good_empty h
  have hst : ({ st with journal := {} } : Storage F K R C E P) = st := by rw [← hj]
  simp only [write, hrun, hf]
  cases hd : st.destructing with
  | true => rw [two_step_shutdown hm he hd]; rfl
  | false =>
    have hp : (st₁.after env.clock).persist env.clock.ts = some st := by
      conv => rhs; rw [← hst]
      simp [Storage.after, Storage.persist, hm, hj, hst₁]
    obtain ⟨res, hres⟩ := two_step_returns hm he hd hrun hp (rollback_id h) (r (st.fields f)) env.sent
    rw [hres]
    simp

/-- A handler that runs one operation which changes something. -/
theorem write_one {S : F → Schema K R C E P} {kinds : F → Kind} {st : Storage F K R C E P} (h : st.Good S kinds) (hm : st.master = true)
    (hd : st.destructing = false) (f : F) (env : Env E) (hc : env.clock.Ok st) {o : FOp K R C E P} {σ' : Fields F K R C E} {log : List (Logged F K R C E P)}
    (hop : st.fields.op S f o = some (σ', log)) (hch : FChain S st.fields log σ') (hlog : log ≠ []) (r : Field K R C E → Resp K R C E) :
    ∃ st', write S f st env (some (some o, r)) = some (st', r (σ' f)) ∧ st'.Good S kinds ∧ st'.fields = σ' ∧ st'.master = true ∧ st'.destructing = false ∧
      ∃ tx : Transaction F K R C E P, st'.stream = st.stream ++ [(env.clock.ts, some tx)] ∧ tx.mutations ≠ [] := by
  have hj := h.journal
  obtain ⟨info, hinfo⟩ : ∃ info : Meta, info = { beginUs := env.clock.beginUs } := ⟨_, rfl⟩
  have hrun : st.run S env.clock [.op f o] = some { st with fields := σ', journal := ⟨info, log⟩ } := by
    unfold Storage.run
    rw [runActs_one hop, hj, hinfo]
    simp
  have he := good_empty h
  obtain ⟨st', h1, h2, h3, h4, h5, h6⟩ := (persist_spec h hm hch env.clock (info := info) (by rw [hinfo])).1 (Or.inr hc)
  have hl : log.map (·.1) ≠ [] := by simpa using hlog
  refine ⟨st', ?_, h2, h3, h5, by rw [h6, hd], ⟨{ info with endUs := env.clock.endUs }, log.map (·.1)⟩, ?_, hl⟩
  · simp only [write, hrun]
    obtain ⟨res, hres⟩ := two_step_returns hm he hd hrun h1 (rollback_id h2) (r (σ' f)) env.sent
    rw [hres]
    simp
  · rw [h4, committedStream, if_neg hl]

/-- Erasing what is not there: committed, but nothing is logged. -/
theorem write_noop {S : F → Schema K R C E P} {kinds : F → Kind} {st : Storage F K R C E P} (h : st.Good S kinds) (hm : st.master = true)
    (hd : st.destructing = false) (f : F) (env : Env E) {o : FOp K R C E P} (hop : st.fields.op S f o = some (st.fields, [])) (r : Field K R C E → Resp K R C E) :
    write S f st env (some (some o, r)) = some (st, r (st.fields f)) := by
  have hw := write_nothing h hm f env r
  rw [hd] at hw
  simp only [Bool.false_eq_true, if_false] at hw
  rw [← hw]
  have hrun : st.run S env.clock [.op f o] = st.run S env.clock [] := by
    unfold Storage.run
    rw [runActs_one hop]
    simp [runActs]
  simp only [write, hrun, Storage.twoStep]

/-- A refused write during graceful shutdown. -/
theorem write_shutdown {S : F → Schema K R C E P} {kinds : F → Kind} {st : Storage F K R C E P} (h : st.Good S kinds) (hS : ∀ f, (S f).KeepsKeys) (hm : st.master = true)
    (hd : st.destructing = true) (f : F) (env : Env E) (o : Option (FOp K R C E P)) (r : Field K R C E → Resp K R C E) :
    write S f st env (some (o, r)) = some (st, { code := 500 }) := by
  have he := good_empty h
  cases o with
  | none => rw [write_nothing h hm, hd]; rfl
  | some o =>
    obtain ⟨σ', info, l, hrun, _⟩ := run_spec hS h env.clock [.op f o]
    simp only [write, hrun]
    rw [two_step_shutdown hm he hd]
    rfl

/-! ### C78: what each request does -/

/-- **C78.** PUT with a key in the URL and an entry in the body, once the storage is not shutting down. An entry with another key is refused (400). If
an entry is there and was modified after the time in the request's header, the request is refused (412). Otherwise the entry is written in one transaction, and the
response tells whether it is new (201) or not (200), with its key and, in the hypermedia API, its new modification time. Refused requests change nothing. -/
theorem put_behaviour (api : Api K R C E) {S : F → Schema K R C E P} (hS : ∀ f, (S f).KeepsKeys) {kinds : F → Kind} {st : Storage F K R C E P} (h : st.Good S kinds)
    (hm : st.master = true) (hd : st.destructing = false) (f : F) (env : Env E) (hc : env.clock.Ok st) (req : Req) (hreq : req.method = .put)
    {kt : KeyText} (hk : keyOfUrl (isDict (st.fields f)) req.args req.query = some kt) {ius : Option Time} (hi : unmodifiedSince api req = some ius)
    {e : E} (he : api.parseJSON req.body = some e) :
    (keyOf (S f) (st.fields f) e ≠ api.parseKey kt → serve api S f st env req = some (st, { code := 400 })) ∧
    (keyOf (S f) (st.fields f) e = api.parseKey kt →
      (∀ old t m, entryAt (st.fields f) (api.parseKey kt) = some old → ius = some t → lastMod (st.fields f) (api.parseKey kt) = some m → t < m →
        serve api S f st env req = some (st, { code := 412 })) ∧
      ((entryAt (st.fields f) (api.parseKey kt) = none ∨ ius = none ∨ ∃ t m, ius = some t ∧ lastMod (st.fields f) (api.parseKey kt) = some m ∧ m ≤ t) →
        ∃ st' u content, serve api S f st env req = some (st', {
            code := if entryAt (st.fields f) (api.parseKey kt) = none then 201 else 200, key := some (api.parseKey kt),
            lastModified := if api.flavor = .plain then none else some u }) ∧
          Committed st st' f env.clock.ts content ∧ Written (S f) (st.fields f) e content ∧ st'.Good S kinds ∧
          lastMod (st'.fields f) (api.parseKey kt) = some u ∧ (u = env.ticks.t₁ ∨ u = env.ticks.t₂ ∨ u = env.ticks.t₃))) := by
  have hinv := h.inv f
  have hserve : serve api S f st env req = write S f st env (putPlan api (S f) env ius (st.fields f) (api.parseKey kt) e) := by
    simp only [serve, hreq, hm, hi, hk, he, if_true, Option.map_some]
  rw [hserve]
  generalize hkk : api.parseKey kt = k
  have hfe := fetch_ok hinv k
  refine ⟨fun hne => ?_, fun heq => ⟨fun old t m h1 h2 h3 h4 => ?_, fun hor => ?_⟩⟩
  · unfold putPlan
    rw [if_neg hne, say, write_nothing h hm, hd]; rfl
  · unfold putPlan
    have hst : stale ius (lastMod (st.fields f) k) = true := by simp [stale, h2, h3, h4]
    simp only [heq, if_true, hfe, h1, hst, Option.isSome_some, Bool.and_true, say]
    rw [write_nothing h hm, hd]; rfl
  · have hns : ((entryAt (st.fields f) k).isSome && stale ius (lastMod (st.fields f) k)) = false := by
      rcases hor with h1 | h1 | ⟨t, m, h1, h2, h3⟩
      · simp [h1]
      · simp [h1, stale]
      · simp only [stale, h1, h2, Bool.and_eq_false_iff, decide_eq_false_iff_not]; right; exact Int.not_lt.2 h3
    obtain ⟨σ', log, o1, o2, o3, o4, u, o5, o6⟩ := add_op hS h.inv f env.ticks e
    unfold putPlan
    simp only [heq, if_true, hfe, hns, Bool.false_eq_true, if_false]
    obtain ⟨st', w1, w2, w3, w4, w5, w6⟩ := write_one h hm hd f env hc o1 o2.chain o3
      (fun fld' => ({ code := if (entryAt (st.fields f) k).isSome then 200 else 201, key := some k, lastModified := lmHeader api.flavor k fld' } : Resp K R C E))
    rw [heq] at o6
    refine ⟨st', u, entryAt (σ' f), ?_, ⟨by rw [w3]; exact o2.others, by rw [w3]; exact fun _ => rfl, by rw [w3]; exact o2.kind, w6, by rw [w4, hm], by rw [w5, hd]⟩,
      o4, w2, by rw [w3]; exact o6, o5⟩
    rw [w1]
    congr 2
    have e1 : (if (entryAt (st.fields f) k).isSome = true then 200 else 201) = (if entryAt (st.fields f) k = none then 201 else 200) := by
      cases entryAt (st.fields f) k <;> rfl
    have e2 : lmHeader api.flavor k (σ' f) = if api.flavor = .plain then none else some u := by
      cases hfl : api.flavor <;> simp [lmHeader, o6]
    rw [e1, e2]

/-- Writing an entry, as POST, PUT and PATCH do. -/
theorem write_entry (api : Api K R C E) {S : F → Schema K R C E P} (hS : ∀ f, (S f).KeepsKeys) {kinds : F → Kind} {st : Storage F K R C E P} (h : st.Good S kinds)
    (hm : st.master = true) (hd : st.destructing = false) (f : F) (env : Env E) (hc : env.clock.Ok st) (e : E) (code : Nat) {k : Key K R C}
    (hk : keyOf (S f) (st.fields f) e = k) :
    ∃ st' u content, write S f st env (some (some (addOp env.ticks (st.fields f) e),
          fun fld' => { code := code, key := some k, lastModified := lmHeader api.flavor k fld' })) =
        some (st', { code := code, key := some k, lastModified := if api.flavor = .plain then none else some u }) ∧
      Committed st st' f env.clock.ts content ∧ Written (S f) (st.fields f) e content ∧ st'.Good S kinds ∧
      lastMod (st'.fields f) k = some u ∧ (u = env.ticks.t₁ ∨ u = env.ticks.t₂ ∨ u = env.ticks.t₃) := by
  obtain ⟨σ', log, o1, o2, o3, o4, u, o5, o6⟩ := add_op hS h.inv f env.ticks e
  obtain ⟨st', w1, w2, w3, w4, w5, w6⟩ := write_one h hm hd f env hc o1 o2.chain o3
    (fun fld' => ({ code := code, key := some k, lastModified := lmHeader api.flavor k fld' } : Resp K R C E))
  rw [hk] at o6
  refine ⟨st', u, entryAt (σ' f), ?_, ⟨by rw [w3]; exact o2.others, by rw [w3]; exact fun _ => rfl, by rw [w3]; exact o2.kind, w6, by rw [w4, hm], by rw [w5, hd]⟩,
    o4, w2, by rw [w3]; exact o6, o5⟩
  rw [w1]
  congr 2
  have e2 : lmHeader api.flavor k (σ' f) = if api.flavor = .plain then none else some u := by
    cases hfl : api.flavor <;> simp [lmHeader, o6]
  rw [e2]

/-- **C78.** POST of an entry without a key in the URL. Entries which cannot make up their key are refused (405). If the key that was made up is in use and `?overwrite` is
not given, the request is refused (409). Otherwise the entry, with its key, is written in one transaction, and the response (201) tells the key. -/
theorem post_behaviour (api : Api K R C E) {S : F → Schema K R C E P} (hS : ∀ f, (S f).KeepsKeys) {kinds : F → Kind} {st : Storage F K R C E P} (h : st.Good S kinds)
    (hm : st.master = true) (hd : st.destructing = false) (f : F) (env : Env E) (hc : env.clock.Ok st) (req : Req) (hreq : req.method = .post)
    (hk : postHasKey api (isDict (st.fields f)) req = false) {e : E} (he : api.parseJSON req.body = some e) :
    (api.initializes = false → serve api S f st env req = some (st, { code := 405 })) ∧
    (api.initializes = true →
      ((entryAt (st.fields f) (keyOf (S f) (st.fields f) (env.init e)) ≠ none ∧ req.query sOverwrite = none →
        serve api S f st env req = some (st, { code := 409 })) ∧
      ((entryAt (st.fields f) (keyOf (S f) (st.fields f) (env.init e)) = none ∨ req.query sOverwrite ≠ none) →
        ∃ st' u content, serve api S f st env req = some (st', {
            code := 201, key := some (keyOf (S f) (st.fields f) (env.init e)), lastModified := if api.flavor = .plain then none else some u }) ∧
          Committed st st' f env.clock.ts content ∧ Written (S f) (st.fields f) (env.init e) content ∧ st'.Good S kinds ∧
          lastMod (st'.fields f) (keyOf (S f) (st.fields f) (env.init e)) = some u ∧ (u = env.ticks.t₁ ∨ u = env.ticks.t₂ ∨ u = env.ticks.t₃)))) := by
  have hserve : serve api S f st env req = write S f st env (postPlan api (S f) env (req.query sOverwrite).isSome (st.fields f) e) := by
    simp only [serve, hreq, hm, hk, he, if_true, Bool.false_eq_true, if_false]
  rw [hserve]
  have hfe := fetch_ok (h.inv f) (keyOf (S f) (st.fields f) (env.init e))
  refine ⟨fun hi => ?_, fun hi => ⟨fun ⟨h1, h2⟩ => ?_, fun hor => ?_⟩⟩
  · unfold postPlan
    rw [hi, if_neg (by decide), say, write_nothing h hm, hd]; rfl
  · unfold postPlan
    simp only [hi, if_true, hfe, h2, Option.isSome_none, Bool.false_or, Option.isNone_iff_eq_none, h1, if_false, say]
    rw [write_nothing h hm, hd]; rfl
  · unfold postPlan
    have : ((req.query sOverwrite).isSome || (entryAt (st.fields f) (keyOf (S f) (st.fields f) (env.init e))).isNone) = true := by
      rcases hor with h1 | h1
      · simp [h1]
      · cases hq : req.query sOverwrite with
        | none => exact absurd hq h1
        | some v => rfl
    simp only [hi, if_true, hfe, this]
    exact write_entry api hS h hm hd f env hc (env.init e) 201 rfl

/-- **C78.** PATCH of the entry under a key in the URL. No such entry: 404. An entry modified after the time in the request's header: 412. A body that is not a patch
for it, or a patch that changes the key: 400. Otherwise the patched entry is written in one transaction (200), and nothing else changes. -/
theorem patch_behaviour (api : Api K R C E) {S : F → Schema K R C E P} (hS : ∀ f, (S f).KeepsKeys) {kinds : F → Kind} {st : Storage F K R C E P} (h : st.Good S kinds)
    (hm : st.master = true) (hd : st.destructing = false) (f : F) (env : Env E) (hc : env.clock.Ok st) (req : Req) (hreq : req.method = .patch)
    {kt : KeyText} (hk : keyOfUrl (isDict (st.fields f)) req.args req.query = some kt) {ius : Option Time} (hi : unmodifiedSince api req = some ius) :
    (entryAt (st.fields f) (api.parseKey kt) = none → serve api S f st env req = some (st, { code := 404 })) ∧
    ∀ old, entryAt (st.fields f) (api.parseKey kt) = some old →
      (∀ t m, ius = some t → lastMod (st.fields f) (api.parseKey kt) = some m → t < m → serve api S f st env req = some (st, { code := 412 })) ∧
      (ius = none ∨ (∃ t m, ius = some t ∧ lastMod (st.fields f) (api.parseKey kt) = some m ∧ m ≤ t) →
        (api.patchJSON old req.body = none → serve api S f st env req = some (st, { code := 400 })) ∧
        ∀ e, api.patchJSON old req.body = some e →
          (keyOf (S f) (st.fields f) e ≠ api.parseKey kt → serve api S f st env req = some (st, { code := 400 })) ∧
          (keyOf (S f) (st.fields f) e = api.parseKey kt →
            ∃ st' u, serve api S f st env req = some (st', {
                code := 200, key := some (api.parseKey kt), lastModified := if api.flavor = .plain then none else some u }) ∧
              Committed st st' f env.clock.ts (fun x => if x = api.parseKey kt then some e else entryAt (st.fields f) x) ∧ st'.Good S kinds ∧
              lastMod (st'.fields f) (api.parseKey kt) = some u ∧ (u = env.ticks.t₁ ∨ u = env.ticks.t₂ ∨ u = env.ticks.t₃))) := by
  have hserve : serve api S f st env req = write S f st env (patchPlan api (S f) env ius (st.fields f) (api.parseKey kt) req.body) := by
    simp only [serve, hreq, hm, hi, hk, if_true, Option.map_some]
  rw [hserve]
  have hinv := h.inv f
  generalize api.parseKey kt = k
  have hfe := fetch_ok hinv k
  refine ⟨fun hn => ?_, fun old hold => ⟨fun t m h2 h3 h4 => ?_, fun hor => ?_⟩⟩
  · unfold patchPlan
    simp only [hfe, hn, say]
    rw [write_nothing h hm, hd]; rfl
  · have hst : stale ius (lastMod (st.fields f) k) = true := by simp [stale, h2, h3, h4]
    unfold patchPlan
    simp only [hfe, hold, hst, if_true, say]
    rw [write_nothing h hm, hd]; rfl
  · have hns : stale ius (lastMod (st.fields f) k) = false := by
      rcases hor with h1 | ⟨t, m, h1, h2, h3⟩
      · simp [h1, stale]
      · simp only [stale, h1, h2, decide_eq_false_iff_not]; exact Int.not_lt.2 h3
    refine ⟨fun hp => ?_, fun e hp => ⟨fun hne => ?_, fun heq => ?_⟩⟩
    · unfold patchPlan
      simp only [hfe, hold, hns, Bool.false_eq_true, if_false, hp, say]
      rw [write_nothing h hm, hd]; rfl
    · unfold patchPlan
      simp only [hfe, hold, hns, Bool.false_eq_true, if_false, hp, hne, say]
      rw [write_nothing h hm, hd]; rfl
    · unfold patchPlan
      simp only [hfe, hold, hns, Bool.false_eq_true, if_false, hp, heq, if_true]
      obtain ⟨st', u, content, w1, w2, w3, w4, w5, w6⟩ := write_entry api hS h hm hd f env hc e 200 heq
      refine ⟨st', u, w1, ⟨w2.others, fun x => ?_, w2.kind, w2.stream, w2.flags⟩, w4, w5, w6⟩
      rw [w2.content]
      by_cases hx : x = k
      · rw [if_pos hx, hx, ← heq]; exact w3.1
      · rw [if_neg hx]
        rw [← heq] at hx
        by_cases hcf : Conflict (st.fields f) (keyOf (S f) (st.fields f) e) x
        · rw [(w3.2 x hx).1 hcf]
          -- What conflicts with an entry that is there cannot be there.
          symm
          rw [heq] at hcf hx
          cases hfl : st.fields f with
          | dict d =>
            rw [hfl] at hcf
            cases k <;> cases x <;> exact absurd hcf (by simp [Conflict])
          | matrix m =>
            rw [hfl] at hcf hold hinv
            cases k with
            | one k => cases x <;> exact absurd hcf (by simp [Conflict])
            | cell r c =>
              cases x with
              | one x => rfl
              | cell r' c' =>
                rw [entryAt_matrix hinv] at hold ⊢
                obtain ⟨p, hp⟩ : ∃ p, find m.map (r, c) = some p := by
                  unfold Matrix.content at hold
                  cases hq : find m.map (r, c) with
                  | none => rw [hq] at hold; cases hold
                  | some p => exact ⟨p, rfl⟩
                have hfree := Matrix.Inv.free hinv hp
                rcases hcf with ⟨h1, h2⟩ | ⟨h1, h2⟩
                · subst h2
                  exact hfree.1 h1 c' (by intro hh; subst hh; exact hx rfl)
                · subst h2
                  exact hfree.2 h1 r' (by intro hh; subst hh; exact hx rfl)
        · exact (w3.2 x hx).2 hcf

/-- **C78.** DELETE of the entry under a key in the URL. An entry modified after the time in the request's header is kept (412). Otherwise it is erased in one transaction (200);
nothing else changes. If there is no such entry nothing happens, and the response is 200 as well. -/
theorem delete_behaviour (api : Api K R C E) {S : F → Schema K R C E P} (hS : ∀ f, (S f).KeepsKeys) {kinds : F → Kind} {st : Storage F K R C E P} (h : st.Good S kinds)
    (hm : st.master = true) (hd : st.destructing = false) (f : F) (env : Env E) (hc : env.clock.Ok st) (req : Req) (hreq : req.method = .delete)
    {kt : KeyText} (hk : keyOfUrl (isDict (st.fields f)) req.args req.query = some kt) {ius : Option Time} (hi : unmodifiedSince api req = some ius) :
    (entryAt (st.fields f) (api.parseKey kt) = none → serve api S f st env req = some (st, { code := 200 })) ∧
    ∀ old, entryAt (st.fields f) (api.parseKey kt) = some old →
      (∀ t m, ius = some t → lastMod (st.fields f) (api.parseKey kt) = some m → t < m → serve api S f st env req = some (st, { code := 412 })) ∧
      (ius = none ∨ (∃ t m, ius = some t ∧ lastMod (st.fields f) (api.parseKey kt) = some m ∧ m ≤ t) →
        ∃ st', serve api S f st env req = some (st', { code := 200, lastModified := if api.flavor = .plain then none else some env.ticks.t₁ }) ∧
          Committed st st' f env.clock.ts (fun x => if x = api.parseKey kt then none else entryAt (st.fields f) x) ∧ st'.Good S kinds ∧
          lastMod (st'.fields f) (api.parseKey kt) = some env.ticks.t₁) := by
  have hserve : serve api S f st env req = write S f st env (deletePlan api env ius (st.fields f) (api.parseKey kt)) := by
    simp only [serve, hreq, hm, hi, hk, if_true, Option.map_some]
  rw [hserve]
  have hinv := h.inv f
  generalize api.parseKey kt = k
  have hfe := fetch_ok hinv k
  obtain ⟨σ', log, o1, o2, o3, o4, o5, o6⟩ := erase_op hS h.inv f env.ticks k
  refine ⟨fun hn => ?_, fun old hold => ⟨fun t m h2 h3 h4 => ?_, fun hor => ?_⟩⟩
  · have hl := o3.2 hn
    have := o4 hl
    subst hl; subst this
    unfold deletePlan
    simp only [hfe, hn, Option.isSome_none, Bool.false_and, Bool.false_eq_true, if_false]
    rw [write_noop h hm hd f env o1]
  · have hst : stale ius (lastMod (st.fields f) k) = true := by simp [stale, h2, h3, h4]
    unfold deletePlan
    simp only [hfe, hold, hst, Option.isSome_some, Bool.and_true, if_true, say]
    rw [write_nothing h hm, hd]; rfl
  · have hns : stale ius (lastMod (st.fields f) k) = false := by
      rcases hor with h1 | ⟨t, m, h1, h2, h3⟩
      · simp [h1, stale]
      · simp only [stale, h1, h2, decide_eq_false_iff_not]; exact Int.not_lt.2 h3
    have hl : log ≠ [] := fun hl => by rw [o3.1 hl] at hold; cases hold
    have hlm := o6 (by rw [hold]; simp)
    unfold deletePlan
    simp only [hfe, hold, hns, Option.isSome_some, Bool.and_false, Bool.false_eq_true, if_false, if_true]
    obtain ⟨st', w1, w2, w3, w4, w5, w6⟩ := write_one h hm hd f env hc o1 o2.chain hl
      (fun fld' => ({ code := 200, lastModified := lmHeader api.flavor k fld' } : Resp K R C E))
    refine ⟨st', ?_, ⟨by rw [w3]; exact o2.others, by rw [w3]; exact o5, by rw [w3]; exact o2.kind, w6, by rw [w4, hm], by rw [w5, hd]⟩, w2, by rw [w3]; exact hlm⟩
    rw [w1]
    congr 2
    have e2 : lmHeader api.flavor k (σ' f) = if api.flavor = .plain then none else some env.ticks.t₁ := by
      cases hfl : api.flavor <;> simp [lmHeader, hlm]
    rw [e2]

end Current.Rest
