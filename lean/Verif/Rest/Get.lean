import Verif.Rest.Props
/-!
GET (C78) and exports (C80).
-/
namespace Current.Rest
open Current.Persist Current.Url Current.Strings Current.Storage

variable {F K R C E P : Type} [DecidableEq F] [DecidableEq K] [DecidableEq R] [DecidableEq C]

/-! ### What is promised -/

/-- The list has every entry of the field, under its key, exactly once. -/
structure IsListing (fld : Field K R C E) (l : List (Key K R C × E)) : Prop where
  once : (l.map (·.1)).Nodup
  all : ∀ k e, (k, e) ∈ l ↔ entryAt fld k = some e

/-- The texts separated by commas. -/
def commas : List Str → Str
  | [] => []
  | [a] => a
  | a :: l => a ++ [','] ++ commas l

/-! ### Lemmas -/

theorem mapM_option {α β : Type} (g : α → Option β) (g' : α → β) : ∀ l : List α, (∀ a ∈ l, g a = some (g' a)) → l.mapM g = some (l.map g')
  | [], _ => rfl
  | a :: l, h => by
    rw [List.mapM_cons, h a (by simp), mapM_option g g' l (fun b hb => h b (by simp [hb]))]
    rfl

theorem records_spec {S : Schema K R C E P} {fld : Field K R C E} (h : fld.Inv S) : ∃ l, records fld = some l ∧ IsListing fld l := by
  cases fld with
  | dict d =>
    refine ⟨_, rfl, ?_, ?_⟩
    · have : (d.map.map fun p => ((.one p.1 : Key K R C), p.2)).map (·.1) = (d.map.map (·.1)).map Key.one := by simp
      rw [this]
      exact List.Pairwise.map _ (fun a b hab hc => hab (by injection hc)) h.wfMap
    · intro k e
      simp only [List.mem_map, Prod.mk.injEq, Prod.exists]
      constructor
      · rintro ⟨a, b, hm, rfl, rfl⟩
        exact (mem_iff_find h.wfMap _ _).1 hm
      · intro he
        cases k with
        | cell r c => cases he
        | one k => exact ⟨k, e, (mem_iff_find h.wfMap _ _).2 he, rfl, rfl⟩
  | matrix m =>
    have hc := Matrix.Inv.consistent h
    have hlive : ∀ p ∈ m.iterate, ∃ e, p.2 = some e := by
      intro p hp
      have := (hc.iterateAll p.1 p.2).1 hp
      rw [hc.get] at this
      cases hx : m.content p.1 with
      | none => rw [hx] at this; cases this
      | some e => rw [hx] at this; injection this with this; exact ⟨e, this.symm⟩
    cases hm : m.iterate with
    | nil =>
      refine ⟨[], by simp [records, hm], by simp, fun k e => ?_⟩
      simp only [List.not_mem_nil, false_iff]
      cases k with
      | one k => simp [entryAt, fetch]
      | cell r c =>
        rw [entryAt_matrix h]
        intro he
        have : ((r, c), some e) ∈ m.iterate := (hc.iterateAll _ _).2 (by rw [hc.get, he]; rfl)
        rw [hm] at this; cases this
    | cons p₀ _ =>
      obtain ⟨e₀, _⟩ := hlive p₀ (by rw [hm]; simp)
      rw [← hm] at *
      have hmap := mapM_option (fun p : (R × C) × Option E => p.2.map fun e => ((.cell p.1.1 p.1.2 : Key K R C), e))
        (fun p => ((.cell p.1.1 p.1.2 : Key K R C), p.2.getD e₀)) m.iterate
        (fun p hp => by obtain ⟨e, he⟩ := hlive p hp; simp [he])
      refine ⟨_, hmap, ?_, fun k e => ?_⟩
      · have : (m.iterate.map fun p => ((.cell p.1.1 p.1.2 : Key K R C), p.2.getD e₀)).map (·.1) = (m.iterate.map (·.1)).map (fun q => Key.cell q.1 q.2) := by
          simp
        rw [this]
        exact List.Pairwise.map _ (fun a b hab hq => hab (by injection hq with h1 h2; exact Prod.ext h1 h2)) hc.iterateOnce
      · simp only [List.mem_map, Prod.mk.injEq, Prod.exists]
        constructor
        · rintro ⟨r, c, oe, hp, rfl, rfl⟩
          obtain ⟨e, he⟩ := hlive _ hp
          have := (hc.iterateAll _ _).1 hp
          simp only at he
          rw [hc.get, he] at this
          rw [entryAt_matrix h, he, Option.getD_some]
          cases hx : m.content (r, c) with
          | none => rw [hx] at this; cases this
          | some e' => rw [hx] at this; injection this
        · intro he
          cases k with
          | one k => cases he
          | cell r c =>
            rw [entryAt_matrix h] at he
            exact ⟨r, c, some e, (hc.iterateAll _ _).2 (by rw [hc.get, he]; rfl), rfl, rfl⟩

theorem commas_flatten : ∀ l : List Str, l ≠ [] → (l.map (· ++ [','])).flatten = commas l ++ [',']
  | [], h => absurd rfl h
  | [a], _ => by simp [commas]
  | a :: b :: l, _ => by
    rw [List.map_cons, List.flatten_cons, commas_flatten (b :: l) (by simp)]
    simp [commas]

/-- The text of the entries, one on a line; or, with details, of a JSON array in one line. -/
def exported (api : Api K R C E) (detailed : Bool) (fld : Field K R C E) (l : List (Key K R C × E)) : Str :=
  if detailed then ['['] ++ commas (l.map fun p => api.jsonDetailed ((lastMod fld p.1).getD 0) p.1 p.2) ++ [']', '\n']
  else (l.map fun p => api.json p.2 ++ ['\n']).flatten

theorem exportText_eq (api : Api K R C E) (x : Export) {S : Schema K R C E P} {fld : Field K R C E} (h : fld.Inv S) {l : List (Key K R C × E)} (hl : IsListing fld l) :
    exportText api x fld l = some (exported api x.detailed fld (l.filter fun p => inShard api x p.1)) := by
  have hrec : ∀ p ∈ l.filter fun p => inShard api x p.1, exportRecord api x fld p =
      some (if x.detailed then api.jsonDetailed ((lastMod fld p.1).getD 0) p.1 p.2 ++ [','] else api.json p.2 ++ ['\n']) := by
    intro p hp
    obtain ⟨t, ht⟩ := lastMod_some h ((hl.all p.1 p.2).1 (List.mem_filter.1 hp).1)
    unfold exportRecord
    cases x.detailed <;> simp [ht]
  unfold exportText
  rw [mapM_option _ _ _ hrec]
  generalize l.filter (fun p => inShard api x p.1) = l'
  unfold exported
  cases x.detailed with
  | false => simp
  | true =>
    simp only [Option.map_some, if_true, Option.some.injEq]
    cases l' with
    | nil => simp [commas]
    | cons p l' =>
      have := commas_flatten ((p :: l').map fun p => api.jsonDetailed ((lastMod fld p.1).getD 0) p.1 p.2) (by simp)
      rw [List.map_map] at this
      rw [show (fun p : Key K R C × E => api.jsonDetailed ((lastMod fld p.1).getD 0) p.1 p.2 ++ [',']) =
        (fun s => s ++ [',']) ∘ fun p => api.jsonDetailed ((lastMod fld p.1).getD 0) p.1 p.2 from rfl, this]
      rw [if_pos (by simp), ← List.append_assoc, List.dropLast_concat]

/-! ### C78: GET -/

theorem read_ok {S : F → Schema K R C E P} {kinds : F → Kind} {st : Storage F K R C E P} (h : st.Good S kinds) (r : Resp K R C E) :
    read st (.ok r) = some (st, if st.destructing then { code := 500 } else r) := by
  have he := good_empty h
  unfold read Storage.readOnly
  simp only [he, Bool.true_eq_false, if_false]
  cases st.destructing <;> rfl

theorem read_throws {S : F → Schema K R C E P} {kinds : F → Kind} {st : Storage F K R C E P} (h : st.Good S kinds) :
    read st (.throws : GetRes K R C E) = some (st, { code := 500 }) := by
  have he := good_empty h
  unfold read Storage.readOnly
  simp only [he, Bool.true_eq_false, if_false]
  cases st.destructing <;> rfl

/-- **C78.** GET never changes the storage. With a key in the URL the response is 404 if there is no such entry, and the entry otherwise, with the time of its last
modification in the hypermedia API. Without a key it is all the entries (plain API), a page of them (hypermedia API), or an export (which a master refuses: 403).
Only what is too long for memory, or a storage that is shutting down, gives 500. -/
theorem get_behaviour (api : Api K R C E) {S : F → Schema K R C E P} {kinds : F → Kind} {st : Storage F K R C E P} (h : st.Good S kinds)
    (f : F) (env : Env E) (req : Req) (hreq : req.method = .get) :
    (st.destructing = true → serve api S f st env req = some (st, { code := 500 })) ∧
    (st.destructing = false →
      (∀ kt, keyOfUrl (isDict (st.fields f)) req.args req.query = some kt →
        (entryAt (st.fields f) (api.parseKey kt) = none → serve api S f st env req = some (st, { code := 404 })) ∧
        ∀ e, entryAt (st.fields f) (api.parseKey kt) = some e →
          ∃ t, lastMod (st.fields f) (api.parseKey kt) = some t ∧
            (api.flavor = .plain → serve api S f st env req = some (st, { code := 200, body := .entry e })) ∧
            (api.flavor = .hypermedia →
              (exportOf req.query = none → serve api S f st env req = some (st, { code := 200, body := .entry e, lastModified := some t })) ∧
              ∀ x, exportOf req.query = some x → serve api S f st env req =
                some (st, { code := 200, body := if x.detailed then .text (api.jsonDetailed t (api.parseKey kt) e) else .entry e }))) ∧
      (keyOfUrl (isDict (st.fields f)) req.args req.query = none →
        ∃ l, IsListing (st.fields f) l ∧
          (api.flavor = .plain → serve api S f st env req = some (st, { code := 200, body := .list l })) ∧
          (api.flavor = .hypermedia →
            (exportOf req.query = none →
              (∀ p, collection api.fits (pageOf req.query).1 (pageOf req.query).2 l = some p → serve api S f st env req = some (st, { code := 200, body := .page p })) ∧
              (collection api.fits (pageOf req.query).1 (pageOf req.query).2 l = none → serve api S f st env req = some (st, { code := 500 }))) ∧
            ∀ x, exportOf req.query = some x →
              (st.master = true → serve api S f st env req = some (st, { code := 403 })) ∧
              (st.master = false → serve api S f st env req =
                some (st, { code := 200, body := .text (exported api x.detailed (st.fields f) (l.filter fun p => inShard api x p.1)) }))))) := by
  have hinv := h.inv f
  have hserve : serve api S f st env req = read st (getBody api st.master (exportOf req.query) req.query (st.fields f)
      ((keyOfUrl (isDict (st.fields f)) req.args req.query).map api.parseKey)) := by
    simp only [serve, hreq]
  obtain ⟨l, hl, hlist⟩ := records_spec hinv
  refine ⟨fun hd => ?_, fun hd => ⟨fun kt hk => ?_, fun hk => ⟨l, hlist, ?_⟩⟩⟩
  · have key : ∀ b : GetRes K R C E, (∀ _ : b = .undefined, False) → read st b = some (st, { code := 500 }) := by
      intro b hb
      cases b with
      | ok r => rw [read_ok h, hd]; rfl
      | throws => exact read_throws h
      | undefined => exact (hb rfl).elim
    rw [hserve]
    refine key _ fun hb => ?_
    cases hk : keyOfUrl (isDict (st.fields f)) req.args req.query with
    | some kt =>
      rw [hk] at hb
      simp only [getBody, Option.map_some, fetch_ok hinv] at hb
      cases he : entryAt (st.fields f) (api.parseKey kt) with
      | none => simp [he] at hb
      | some e =>
        obtain ⟨t, ht⟩ := lastMod_some hinv he
        simp only [he, ht] at hb
        cases hfl : api.flavor <;> cases hx : exportOf req.query <;> simp only [hfl, hx] at hb <;> try cases hb
        split at hb <;> cases hb
    | none =>
      rw [hk] at hb
      simp only [getBody, Option.map_none, hl] at hb
      cases hfl : api.flavor <;> cases hx : exportOf req.query <;> simp only [hfl, hx] at hb <;> try cases hb
      · split at hb <;> cases hb
      · rw [exportText_eq api _ hinv hlist] at hb
        split at hb <;> cases hb
  · rw [hserve, hk]
    simp only [Option.map_some, getBody, fetch_ok hinv]
    refine ⟨fun hn => ?_, fun e he => ?_⟩
    · simp only [hn]; rw [read_ok h, hd]; rfl
    · obtain ⟨t, ht⟩ := lastMod_some hinv he
      refine ⟨t, ht, fun hfl => ?_, fun hfl => ⟨fun hx => ?_, fun x hx => ?_⟩⟩
      · simp only [he, hfl]; rw [read_ok h, hd]; rfl
      · simp only [he, hfl, hx, ht]; rw [read_ok h, hd]; rfl
      · simp only [he, hfl, hx, ht]
        cases x.detailed
        · simp only [Bool.false_eq_true, if_false]; rw [read_ok h, hd]; rfl
        · simp only [if_true]; rw [read_ok h, hd]; rfl
  · rw [hserve, hk]
    simp only [Option.map_none, getBody, hl]
    refine ⟨fun hfl => ?_, fun hfl => ⟨fun hx => ⟨fun p hp => ?_, fun hp => ?_⟩, fun x hx => ⟨fun hm => ?_, fun hm => ?_⟩⟩⟩
    · simp only [hfl]; rw [read_ok h, hd]; rfl
    · simp only [hfl, hx, hp]; rw [read_ok h, hd]; rfl
    · simp only [hfl, hx, hp]; rw [read_throws h]
    · simp only [hfl, hx, hm, if_true]; rw [read_ok h, hd]; rfl
    · simp only [hfl, hx, hm, Bool.false_eq_true, if_false, exportText_eq api x hinv hlist]; rw [read_ok h, hd]; rfl

/-! ### C80: exports -/

theorem filter_perm {α : Type} (l : List α) (g : α → Nat) : ∀ n, (∀ a ∈ l, g a < n) → ((List.range n).flatMap fun s => l.filter fun a => g a == s).Perm l := by
  induction l with
  | nil => intro n _; simp
  | cons a l ih =>
    intro n hn
    have h1 := ih n (fun b hb => hn b (by simp [hb]))
    have ha := hn a (by simp)
    have key : ∀ (m : Nat), ((List.range m).flatMap fun s => (a :: l).filter fun b => g b == s).Perm
        ((if g a < m then [a] else []) ++ (List.range m).flatMap fun s => l.filter fun b => g b == s) := by
      intro m
      induction m with
      | zero => simp
      | succ m ihm =>
        rw [List.range_succ, List.flatMap_append, List.flatMap_append]
        simp only [List.flatMap_cons, List.flatMap_nil, List.append_nil]
        by_cases hc : g a = m
        · rw [List.filter_cons_of_pos (by simpa using hc), if_pos (by omega)]
          rw [if_neg (by omega)] at ihm
          refine (ihm.append_right _).trans ?_
          simp only [List.nil_append, List.singleton_append]
          exact List.perm_middle
        · rw [List.filter_cons_of_neg (by simpa using hc)]
          have e : (if g a < m + 1 then [a] else []) = (if g a < m then [a] else []) := by
            by_cases h : g a < m
            · rw [if_pos h, if_pos (by omega)]
            · rw [if_neg h, if_neg (by omega)]
          rw [e, ← List.append_assoc]
          exact ihm.append_right _
    have := key n
    rw [if_pos ha] at this
    exact this.trans (by simpa using h1)

/-- The request for a shard of an export. -/
def IsExport (req : Req) (detailed : Bool) (nshards shard : Nat) : Prop := exportOf req.query = some ⟨detailed, nshards, shard⟩

/-- **C80.** A follower exports all entries to a client that asks for one shard, or does not say how many; with `n` shards, `n > 1`, the shards of the same state have every
entry exactly once between them: the parts are those of a listing of the field. In details an entry comes with the time of its last modification. -/
theorem export_shards (api : Api K R C E) (ha : api.flavor = .hypermedia) {S : F → Schema K R C E P} {kinds : F → Kind} {st : Storage F K R C E P} (h : st.Good S kinds)
    (hm : st.master = false) (hd : st.destructing = false) (f : F) (env : Env E) (detailed : Bool) :
    ∃ l, IsListing (st.fields f) l ∧
      (∀ req nshards shard, req.method = .get → keyOfUrl (isDict (st.fields f)) req.args req.query = none → nshards ≤ 1 → IsExport req detailed nshards shard →
        serve api S f st env req = some (st, { code := 200, body := .text (exported api detailed (st.fields f) l) })) ∧
      ∀ n, 1 < n → ∃ part : Nat → List (Key K R C × E), ((List.range n).flatMap part).Perm l ∧ (∀ s, (part s).Sublist l) ∧
        ∀ req s, req.method = .get → keyOfUrl (isDict (st.fields f)) req.args req.query = none → IsExport req detailed n s →
          serve api S f st env req = some (st, { code := 200, body := .text (exported api detailed (st.fields f) (part s)) }) := by
  obtain ⟨l, hl, hlist⟩ := records_spec (h.inv f)
  have main : ∀ req x, req.method = .get → keyOfUrl (isDict (st.fields f)) req.args req.query = none → exportOf req.query = some x →
      serve api S f st env req = some (st, { code := 200, body := .text (exported api x.detailed (st.fields f) (l.filter fun p => inShard api x p.1)) }) := by
    intro req x hreq hk hx
    have hserve : serve api S f st env req = read st (getBody api st.master (exportOf req.query) req.query (st.fields f)
        ((keyOfUrl (isDict (st.fields f)) req.args req.query).map api.parseKey)) := by
      simp only [serve, hreq]
    rw [hserve, hk]
    simp only [Option.map_none, getBody, hl, ha, hx, hm, Bool.false_eq_true, if_false, exportText_eq api x (h.inv f) hlist]
    rw [read_ok h, hd]; rfl
  refine ⟨l, hlist, fun req n s hreq hk hn hx => ?_, fun n hn => ⟨fun s => l.filter fun p => api.hash p.1 % n == s, ?_, fun s => List.filter_sublist, ?_⟩⟩
  · have := main req _ hreq hk hx
    rw [this]
    have : (l.filter fun p => inShard api ⟨detailed, n, s⟩ p.1) = l := by
      rw [List.filter_eq_self]
      intro p _
      simp [inShard, show ¬ 1 < n by omega]
    rw [this]
  · exact filter_perm l (fun p => api.hash p.1 % n) n (fun p _ => Nat.mod_lt _ (by omega))
  · intro req s hreq hk hx
    rw [main req _ hreq hk hx]
    have : (l.filter fun p => inShard api ⟨detailed, n, s⟩ p.1) = l.filter fun p => api.hash p.1 % n == s := by
      apply List.filter_congr
      intro p _
      simp only [inShard, hn, decide_true, Bool.true_and, bne, Bool.not_not]
    rw [this]

/-- **C80.** A master exports nothing. -/
theorem export_master (api : Api K R C E) (ha : api.flavor = .hypermedia) {S : F → Schema K R C E P} {kinds : F → Kind} {st : Storage F K R C E P} (h : st.Good S kinds)
    (hm : st.master = true) (hd : st.destructing = false) (f : F) (env : Env E) (req : Req) (hreq : req.method = .get)
    (hk : keyOfUrl (isDict (st.fields f)) req.args req.query = none) (hx : exportOf req.query ≠ none) : serve api S f st env req = some (st, { code := 403 }) := by
  cases he : exportOf req.query with
  | none => exact absurd he hx
  | some x =>
    obtain ⟨l, _, _, h2⟩ := ((get_behaviour api h f env req hreq).2 hd).2 hk
    exact ((h2 ha).2 x he).1 hm

/-- **C80.** The parameters of an export: `?export=detailed` for details, any other value for none; `nshards` and `shard` in decimal. -/
theorem export_request (q : Query) (v : Str) (n s : Nat) (hn : n < 2 ^ 32) (hs : s < 2 ^ 32) (hv : q sExport = some v) (hn' : q sNShards = some (dec n))
    (hs' : q sShard = some (dec s)) : exportOf q = some ⟨decide (v = sDetailed), n, s⟩ := by
  have key : ∀ k : Nat, k < 2 ^ 32 → (fromStringInt uint32 (dec k)).toNat = k := by
    intro k hk
    have := fromString_toString uint32 (k : Int) (by unfold IntTy.Fits uint32; simp; omega)
    have e : toStringInt (k : Int) = dec k := rfl
    rw [e] at this
    rw [this]; rfl
  simp only [exportOf, hv, hn', hs', Option.getD_some, key n hn, key s hs]

end Current.Rest
