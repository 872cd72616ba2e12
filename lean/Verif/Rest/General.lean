import Verif.Rest.Get
/-!
What holds of every request (C78).
-/
namespace Current.Rest
open Current.Persist Current.Url Current.Strings Current.Storage

variable {F K R C E P : Type} [DecidableEq F] [DecidableEq K] [DecidableEq R] [DecidableEq C]

/-- What every request leaves behind. -/
structure Served (kinds : F → Kind) (S : F → Schema K R C E P) (st : Storage F K R C E P) (f : F) (ts : Time) (st' : Storage F K R C E P) (r : Resp K R C E) : Prop where
  good : st'.Good S kinds
  /-- The storage is as it was, or one transaction is committed, of one field. -/
  once : st' = st ∨ (∃ tx : Transaction F K R C E P, st'.stream = st.stream ++ [(ts, some tx)] ∧ tx.mutations ≠ []) ∧ ∀ g, g ≠ f → st'.fields g = st.fields g
  /-- Something is changed only if the response says so. -/
  honest : r.code ≠ 200 ∧ r.code ≠ 201 → st' = st
  flags : st'.master = st.master ∧ st'.destructing = st.destructing
  code : r.code ∈ [200, 201, 400, 403, 404, 405, 409, 412, 500]

theorem served_same {S : F → Schema K R C E P} {kinds : F → Kind} {st : Storage F K R C E P} (h : st.Good S kinds) (f : F) (ts : Time) {r : Resp K R C E}
    (hr : r.code ∈ [200, 201, 400, 403, 404, 405, 409, 412, 500]) : Served kinds S st f ts st r :=
  ⟨h, Or.inl rfl, fun _ => rfl, ⟨rfl, rfl⟩, hr⟩

theorem served_committed {S : F → Schema K R C E P} {kinds : F → Kind} {st st' : Storage F K R C E P} {f : F} {ts : Time} {content : Key K R C → Option E}
    (hg : st'.Good S kinds) (h : Committed st st' f ts content) {r : Resp K R C E} (hr : r.code = 200 ∨ r.code = 201) : Served kinds S st f ts st' r :=
  ⟨hg, Or.inr ⟨h.stream, h.others⟩, fun hh => absurd hr (by simp [hh.1, hh.2]), h.flags, by rcases hr with e | e <;> simp [e]⟩

/-- **C78.** While the storage is shutting down no request changes it, and none succeeds. -/
theorem serve_shutdown (api : Api K R C E) {S : F → Schema K R C E P} (hS : ∀ f, (S f).KeepsKeys) {kinds : F → Kind} {st : Storage F K R C E P} (h : st.Good S kinds)
    (hd : st.destructing = true) (f : F) (env : Env E) (req : Req) :
    ∃ r, serve api S f st env req = some (st, r) ∧ r.code ∈ [400, 405, 500] := by
  have stay : ∀ code, code ∈ [400, 405, 500] → ∃ r, some (st, ({ code := code } : Resp K R C E)) = some (st, r) ∧ r.code ∈ [400, 405, 500] :=
    fun code hc => ⟨_, rfl, hc⟩
  have wr : ∀ (hm : st.master = true) (plan : Option (Plan K R C E P)), plan ≠ none → ∃ r, write S f st env plan = some (st, r) ∧ r.code ∈ [400, 405, 500] := by
    intro hm plan hp
    cases plan with
    | none => exact absurd rfl hp
    | some p => exact ⟨_, write_shutdown h hS hm hd f env p.1 p.2, by simp⟩
  have hf := fun k => fetch_ok (h.inv f) k
  cases hreq : req.method with
  | get => exact ⟨_, (get_behaviour api h f env req hreq).1 hd, by simp⟩
  | other => simp only [serve, hreq]; exact stay 405 (by simp)
  | post =>
    simp only [serve, hreq]
    cases hm : st.master with
    | false => exact stay 405 (by simp)
    | true =>
      simp only [if_true]
      split
      · exact stay 400 (by simp)
      · cases api.parseJSON req.body with
        | none => exact stay 400 (by simp)
        | some e =>
          refine wr hm _ ?_
          unfold postPlan
          simp only [hf, say]
          split <;> (try split) <;> simp
  | put =>
    simp only [serve, hreq]
    cases hm : st.master with
    | false => exact stay 405 (by simp)
    | true =>
      simp only [if_true]
      split
      · exact stay 400 (by simp)
      · exact stay 400 (by simp)
      · cases api.parseJSON req.body with
        | none => exact stay 400 (by simp)
        | some e =>
          refine wr hm _ ?_
          unfold putPlan
          simp only [hf, say]
          split <;> (try split) <;> simp
  | patch =>
    simp only [serve, hreq]
    cases hm : st.master with
    | false => exact stay 405 (by simp)
    | true =>
      simp only [if_true]
      split
      · exact stay 400 (by simp)
      · exact stay 400 (by simp)
      · refine wr hm _ ?_
        unfold patchPlan
        simp only [hf, say]
        split
        · simp_all
        · simp
        · split
          · simp
          · split
            · simp
            · split <;> simp
  | delete =>
    simp only [serve, hreq]
    cases hm : st.master with
    | false => exact stay 405 (by simp)
    | true =>
      simp only [if_true]
      split
      · exact stay 400 (by simp)
      · exact stay 400 (by simp)
      · refine wr hm _ ?_
        unfold deletePlan
        simp only [hf, say]
        split <;> simp

/-- **C78.** A follower refuses everything but GET. -/
theorem serve_follower (api : Api K R C E) (S : F → Schema K R C E P) {st : Storage F K R C E P} (hm : st.master = false) (f : F) (env : Env E) (req : Req)
    (hreq : req.method ≠ .get) : serve api S f st env req = some (st, { code := 405 }) := by
  cases h : req.method <;> simp_all [serve]

/-- **C78.** Requests that make no sense are refused (400): a POST with a key in the URL, a PUT, PATCH or DELETE without one, or with a header that is not a time, a body
that is not an entry. -/
theorem serve_bad (api : Api K R C E) (S : F → Schema K R C E P) {st : Storage F K R C E P} (hm : st.master = true) (f : F) (env : Env E) (req : Req)
    (hbad : (req.method = .post ∧ (postHasKey api (isDict (st.fields f)) req = true ∨ api.parseJSON req.body = none)) ∨
      (req.method = .put ∧ api.parseJSON req.body = none) ∨
      ((req.method = .put ∨ req.method = .patch ∨ req.method = .delete) ∧
        (keyOfUrl (isDict (st.fields f)) req.args req.query = none ∨ unmodifiedSince api req = none))) :
    serve api S f st env req = some (st, { code := 400 }) := by
  rcases hbad with ⟨h1, h2⟩ | ⟨h1, h2⟩ | ⟨h1, h2⟩
  · simp only [serve, h1, hm, if_true]
    rcases h2 with h2 | h2
    · rw [if_pos h2]
    · split
      · rfl
      · rw [h2]
  · simp only [serve, h1, hm, if_true, h2]
    split <;> rfl
  · rcases h2 with h2 | h2 <;> rcases h1 with h1 | h1 | h1 <;> simp only [serve, h1, hm, if_true, h2, Option.map_none]
    all_goals (split <;> simp_all)

/-- **C78.** Every request is answered; the storage is as it was, or has one transaction of one field more; and if it changed, the response says that it did. -/
theorem serve_total (api : Api K R C E) {S : F → Schema K R C E P} (hS : ∀ f, (S f).KeepsKeys) {kinds : F → Kind} {st : Storage F K R C E P} (h : st.Good S kinds)
    (f : F) (env : Env E) (hc : env.clock.Ok st) (req : Req) :
    ∃ st' r, serve api S f st env req = some (st', r) ∧ Served kinds S st f env.clock.ts st' r ∧ (req.method = .get → st' = st) := by
  cases hd : st.destructing with
  | true =>
    obtain ⟨r, h1, h2⟩ := serve_shutdown api hS h hd f env req
    refine ⟨st, r, h1, served_same h f _ ?_, fun _ => rfl⟩
    simp only [List.mem_cons, List.not_mem_nil, or_false] at h2
    rcases h2 with e | e | e <;> simp [e]
  | false =>
  have stay : ∀ {r : Resp K R C E}, serve api S f st env req = some (st, r) → r.code ∈ [200, 201, 400, 403, 404, 405, 409, 412, 500] →
      ∃ st' r, serve api S f st env req = some (st', r) ∧ Served kinds S st f env.clock.ts st' r ∧ (req.method = .get → st' = st) :=
    fun hs hr => ⟨st, _, hs, served_same h f _ hr, fun _ => rfl⟩
  by_cases hget : req.method = .get
  · obtain ⟨h1, h2⟩ := (get_behaviour api h f env req hget).2 hd
    cases hk : keyOfUrl (isDict (st.fields f)) req.args req.query with
    | some kt =>
      obtain ⟨h3, h4⟩ := h1 kt hk
      cases he : entryAt (st.fields f) (api.parseKey kt) with
      | none => exact stay (h3 he) (by simp)
      | some e =>
        obtain ⟨t, _, h5, h6⟩ := h4 e he
        cases hfl : api.flavor with
        | plain => exact stay (h5 hfl) (by simp)
        | hypermedia =>
          cases hx : exportOf req.query with
          | none => exact stay ((h6 hfl).1 hx) (by simp)
          | some x => exact stay ((h6 hfl).2 x hx) (by simp)
    | none =>
      obtain ⟨l, _, h5, h6⟩ := h2 hk
      cases hfl : api.flavor with
      | plain => exact stay (h5 hfl) (by simp)
      | hypermedia =>
        cases hx : exportOf req.query with
        | none =>
          cases hp : collection api.fits (pageOf req.query).1 (pageOf req.query).2 l with
          | none => exact stay (((h6 hfl).1 hx).2 hp) (by simp)
          | some p => exact stay (((h6 hfl).1 hx).1 p hp) (by simp)
        | some x =>
          cases hm : st.master with
          | true => exact stay (((h6 hfl).2 x hx).1 hm) (by simp)
          | false => exact stay (((h6 hfl).2 x hx).2 hm) (by simp)
  · cases hm : st.master with
    | false => exact stay (serve_follower api S hm f env req hget) (by simp)
    | true =>
      have comm : ∀ {st' : Storage F K R C E P} {r : Resp K R C E} {content : Key K R C → Option E}, serve api S f st env req = some (st', r) → st'.Good S kinds →
          Committed st st' f env.clock.ts content → (r.code = 200 ∨ r.code = 201) →
          ∃ st' r, serve api S f st env req = some (st', r) ∧ Served kinds S st f env.clock.ts st' r ∧ (req.method = .get → st' = st) :=
        fun hs hg hcm hr => ⟨_, _, hs, served_committed hg hcm hr, fun hh => absurd hh hget⟩
      cases hreq : req.method with
      | get => exact absurd hreq hget
      | other => rw [← hreq]; exact stay (r := { code := 405 }) (by simp only [serve, hreq]) (by simp)
      | post =>
        rw [← hreq]
        cases hk : postHasKey api (isDict (st.fields f)) req with
        | true => exact stay (serve_bad api S hm f env req (Or.inl ⟨hreq, Or.inl hk⟩)) (by simp)
        | false =>
          cases he : api.parseJSON req.body with
          | none => exact stay (serve_bad api S hm f env req (Or.inl ⟨hreq, Or.inr he⟩)) (by simp)
          | some e =>
            obtain ⟨h1, h2⟩ := post_behaviour api hS h hm hd f env hc req hreq hk he
            cases hi : api.initializes with
            | false => exact stay (h1 hi) (by simp)
            | true =>
              obtain ⟨h3, h4⟩ := h2 hi
              by_cases hx : entryAt (st.fields f) (keyOf (S f) (st.fields f) (env.init e)) ≠ none ∧ req.query sOverwrite = none
              · exact stay (h3 hx) (by simp)
              · obtain ⟨st', u, content, a1, a2, _, a3, _⟩ := h4 (by
                  by_cases hy : entryAt (st.fields f) (keyOf (S f) (st.fields f) (env.init e)) = none
                  · exact Or.inl hy
                  · exact Or.inr fun hz => hx ⟨hy, hz⟩)
                exact comm a1 a3 a2 (Or.inr rfl)
      | put =>
        rw [← hreq]
        cases hk : keyOfUrl (isDict (st.fields f)) req.args req.query with
        | none => exact stay (serve_bad api S hm f env req (Or.inr (Or.inr ⟨Or.inl hreq, Or.inl hk⟩))) (by simp)
        | some kt =>
        cases hi : unmodifiedSince api req with
        | none => exact stay (serve_bad api S hm f env req (Or.inr (Or.inr ⟨Or.inl hreq, Or.inr hi⟩))) (by simp)
        | some ius =>
        cases he : api.parseJSON req.body with
        | none => exact stay (serve_bad api S hm f env req (Or.inr (Or.inl ⟨hreq, he⟩))) (by simp)
        | some e =>
          obtain ⟨h1, h2⟩ := put_behaviour api hS h hm hd f env hc req hreq hk hi he
          by_cases hkey : keyOf (S f) (st.fields f) e = api.parseKey kt
          · obtain ⟨h3, h4⟩ := h2 hkey
            by_cases hx : entryAt (st.fields f) (api.parseKey kt) = none ∨ ius = none ∨ ∃ t m, ius = some t ∧ lastMod (st.fields f) (api.parseKey kt) = some m ∧ m ≤ t
            · obtain ⟨st', u, content, a1, a2, _, a3, _⟩ := h4 hx
              exact comm a1 a3 a2 (by simp only; split <;> simp)
            · obtain ⟨h5, h6⟩ := not_or.1 hx
              obtain ⟨h7, h8⟩ := not_or.1 h6
              cases hold : entryAt (st.fields f) (api.parseKey kt) with
              | none => exact absurd hold h5
              | some old =>
                obtain ⟨m, hlm⟩ := lastMod_some (h.inv f) hold
                cases hius : ius with
                | none => exact absurd hius h7
                | some t =>
                  exact stay (h3 old t m hold hius hlm (Int.not_le.1 fun hle => h8 ⟨t, m, hius, hlm, hle⟩)) (by simp)
          · exact stay (h1 hkey) (by simp)
      | patch =>
        rw [← hreq]
        cases hk : keyOfUrl (isDict (st.fields f)) req.args req.query with
        | none => exact stay (serve_bad api S hm f env req (Or.inr (Or.inr ⟨Or.inr (Or.inl hreq), Or.inl hk⟩))) (by simp)
        | some kt =>
        cases hi : unmodifiedSince api req with
        | none => exact stay (serve_bad api S hm f env req (Or.inr (Or.inr ⟨Or.inr (Or.inl hreq), Or.inr hi⟩))) (by simp)
        | some ius =>
          obtain ⟨h1, h2⟩ := patch_behaviour api hS h hm hd f env hc req hreq hk hi
          cases hold : entryAt (st.fields f) (api.parseKey kt) with
          | none => exact stay (h1 hold) (by simp)
          | some old =>
            obtain ⟨h3, h4⟩ := h2 old hold
            obtain ⟨m, hlm⟩ := lastMod_some (h.inv f) hold
            by_cases hx : ius = none ∨ ∃ t m, ius = some t ∧ lastMod (st.fields f) (api.parseKey kt) = some m ∧ m ≤ t
            · obtain ⟨h5, h6⟩ := h4 hx
              cases hp : api.patchJSON old req.body with
              | none => exact stay (h5 hp) (by simp)
              | some e =>
                obtain ⟨h7, h8⟩ := h6 e hp
                by_cases hkey : keyOf (S f) (st.fields f) e = api.parseKey kt
                · obtain ⟨st', u, a1, a2, a3, _⟩ := h8 hkey
                  exact comm a1 a3 a2 (Or.inl rfl)
                · exact stay (h7 hkey) (by simp)
            · obtain ⟨h7, h8⟩ := not_or.1 hx
              cases hius : ius with
              | none => exact absurd hius h7
              | some t => exact stay (h3 t m hius hlm (Int.not_le.1 fun hle => h8 ⟨t, m, hius, hlm, hle⟩)) (by simp)
      | delete =>
        rw [← hreq]
        cases hk : keyOfUrl (isDict (st.fields f)) req.args req.query with
        | none => exact stay (serve_bad api S hm f env req (Or.inr (Or.inr ⟨Or.inr (Or.inr hreq), Or.inl hk⟩))) (by simp)
        | some kt =>
        cases hi : unmodifiedSince api req with
        | none => exact stay (serve_bad api S hm f env req (Or.inr (Or.inr ⟨Or.inr (Or.inr hreq), Or.inr hi⟩))) (by simp)
        | some ius =>
          obtain ⟨h1, h2⟩ := delete_behaviour api hS h hm hd f env hc req hreq hk hi
          cases hold : entryAt (st.fields f) (api.parseKey kt) with
          | none => exact stay (h1 hold) (by simp)
          | some old =>
            obtain ⟨h3, h4⟩ := h2 old hold
            obtain ⟨m, hlm⟩ := lastMod_some (h.inv f) hold
            by_cases hx : ius = none ∨ ∃ t m, ius = some t ∧ lastMod (st.fields f) (api.parseKey kt) = some m ∧ m ≤ t
            · obtain ⟨st', a1, a2, a3, _⟩ := h4 hx
              exact comm a1 a3 a2 (Or.inl rfl)
            · obtain ⟨h7, h8⟩ := not_or.1 hx
              cases hius : ius with
              | none => exact absurd hius h7
              | some t => exact stay (h3 t m hius hlm (Int.not_le.1 fun hle => h8 ⟨t, m, hius, hlm, hle⟩)) (by simp)

end Current.Rest
