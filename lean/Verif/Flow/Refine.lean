import Verif.Flow.Thms
set_option linter.unusedSimpArgs false
set_option linter.unusedVariables false

/-! # The flow tool: every history of requests is answered as by a file system. -/

namespace Current.Flow
open Current.Persist

/-- Fresh random keys: neither of the two is in use. -/
def Fresh (db : DB) (c : Call) : Prop := db.node c.kn = none ∧ db.blob c.kb = none

/-- All keys drawn during a history are fresh when they are drawn. -/
def FreshRun (db : DB) : List Call → Prop
  | [] => True
  | c :: cs => Fresh db c ∧ FreshRun (serve db c.kb c.kn c.req).1 cs

theorem entry_cases {db : DB} {fs : FS} (hi : Inv db) (hr : Refines db fs) {p : List Str} {k : Nat} (hat : At db p k) :
    (∃ n b body, db.node k = some ⟨n, .file b⟩ ∧ db.blob b = some body ∧ fs p = some (.file body)) ∨
    (∃ n ks names, db.node k = some ⟨n, .dir ks⟩ ∧ listing db ks = some names ∧ fs p = some (.dir names)) := by
  obtain ⟨n, hn⟩ := hat.exists hi
  have he := (hr.of_at hi hat).1
  obtain ⟨name, data⟩ := n
  cases data with
  | file b =>
    obtain ⟨body, hb⟩ := hi.blobs _ _ _ hn
    exact Or.inl ⟨name, b, body, hn, hb, by rw [he]; simp [entry, hn, hb]⟩
  | dir ks =>
    obtain ⟨l, hl⟩ := listing_total (fun k hk => (hi.kids _ _ _ hn k hk).2)
    exact Or.inr ⟨name, ks, l, hn, hl, by rw [he]; simp [entry, hn, hl]⟩

theorem get_refines {db : DB} {fs : FS} (hi : Inv db) (hr : Refines db fs) (p : List Str) (slash : Bool) :
    get db p slash = (fs.serve (.get p slash)).2 := by
  unfold get FS.serve
  rcases find_spec hi hr p with ⟨k, hf, hat, ht⟩ | ⟨hnone, e, hf, ht⟩
  · rw [hf]
    rcases entry_cases hi hr hat with ⟨n, b, body, h1, h2, h3⟩ | ⟨n, ks, names, h1, h2, h3⟩
    · simp only [h1, h2, h3]
    · simp only [h1, h2, h3]
  · rw [hf]
    simp only [hnone, ht, Option.getD_some]

theorem find_ok {db : DB} {fs : FS} (hi : Inv db) (hr : Refines db fs) {p : List Str} (h : fs p ≠ none) : ∃ k, find db p = .ok k ∧ At db p k := by
  rcases find_spec hi hr p with ⟨k, hf, hat, ht⟩ | ⟨hnone, e, hf, ht⟩
  · exact ⟨k, hf, hat⟩
  · exact absurd hnone h

theorem find_error {db : DB} {fs : FS} (hi : Inv db) (hr : Refines db fs) {p : List Str} (h : fs p = none) :
    ∃ e, find db p = .error e ∧ fs.trouble [] p = some e := by
  rcases find_spec hi hr p with ⟨k, hf, hat, ht⟩ | ⟨hnone, e, hf, ht⟩
  · exact absurd ⟨k, hat⟩ ((hr.none hi).1 h)
  · exact ⟨e, hf, ht⟩

theorem created_file {db : DB} {dk kb kn : Nat} {dn : Str} {ks : List Nat} (c body : Str) (hd : db.node dk = some ⟨dn, .dir ks⟩)
    (hn : db.node kn = none) (hb : db.blob kb = none) :
    Created db (((db.setBlob kb body).setNode kn ⟨c, .file kb⟩).setNode dk ⟨dn, .dir (ks ++ [kn])⟩) dk kn dn ks ⟨c, .file kb⟩ := by
  refine ⟨hd, hn, fun k => rfl, ?_, Or.inr ⟨kb, rfl, hb, by simp [DB.setNode, DB.setBlob]⟩⟩
  intro b hs
  have : b ≠ kb := by rintro rfl; rw [hb] at hs; cases hs
  simp [DB.setNode, DB.setBlob, this]

theorem created_dir {db : DB} {dk kn : Nat} {dn : Str} {ks : List Nat} (c : Str) (hd : db.node dk = some ⟨dn, .dir ks⟩) (hn : db.node kn = none) :
    Created db ((db.setNode kn ⟨c, .dir []⟩).setNode dk ⟨dn, .dir (ks ++ [kn])⟩) dk kn dn ks ⟨c, .dir []⟩ :=
  ⟨hd, hn, fun k => rfl, fun b _ => rfl, Or.inl rfl⟩

/-- One request: the response is the specified one, and the new storage represents the specified file system. -/
theorem serve_refines {db : DB} {fs : FS} (hi : Inv db) (hr : Refines db fs) (c : Call) (hfresh : Fresh db c) :
    (serve db c.kb c.kn c.req).2 = (fs.serve c.req).2 ∧ Inv (serve db c.kb c.kn c.req).1 ∧ Refines (serve db c.kb c.kn c.req).1 (fs.serve c.req).1 := by
  obtain ⟨req, kb, kn⟩ := c
  cases req with
  | other => exact ⟨rfl, hi, hr⟩
  | get path slash =>
    refine ⟨get_refines hi hr path slash, hi, ?_⟩
    have : (fs.serve (.get path slash)).1 = fs := by simp only [FS.serve]; split <;> rfl
    rw [this]; exact hr
  | put path slash b =>
    by_cases hp : path = []
    · simp only [serve, FS.serve, hp, if_true]; exact ⟨trivial, hi, hr⟩
    have hsplit : path.dropLast ++ [path.getLastD []] = path := by
      rcases List.eq_nil_or_concat path with h | ⟨l, x, rfl⟩
      · exact absurd h hp
      · simp
    cases b with
    | malformed => simp only [serve, FS.serve, hp, if_false]; exact ⟨trivial, hi, hr⟩
    | file body =>
      simp only [serve, FS.serve, hp, if_false, putFile]
      cases slash with
      | true => exact ⟨rfl, hi, hr⟩
      | false =>
        simp only [Bool.false_eq_true, if_false]
        cases hfs : fs path with
        | some e =>
          obtain ⟨k, hf, hat⟩ := find_ok hi hr (by rw [hfs]; simp)
          rw [hf]
          rcases entry_cases hi hr hat with ⟨n, b, body', h1, h2, h3⟩ | ⟨n, ks, names, h1, h2, h3⟩
          · rw [hfs] at h3; cases h3
            simp only [h1, h2]
            exact ⟨trivial, overwrite hi hr hat h1 body⟩
          · rw [hfs] at h3; cases h3
            simp only [h1]
            exact ⟨trivial, hi, hr⟩
        | none =>
          obtain ⟨e, hf, ht⟩ := find_error hi hr hfs
          rw [hf]
          cases hpar : fs path.dropLast with
          | none =>
            obtain ⟨e', hf', ht'⟩ := find_error hi hr hpar
            simp only [hf', ht', Option.getD_some]
            exact ⟨trivial, hi, hr⟩
          | some e' =>
            obtain ⟨dk, hf', hat⟩ := find_ok hi hr (by rw [hpar]; simp)
            rcases entry_cases hi hr hat with ⟨n, b, body', h1, h2, h3⟩ | ⟨n, ks, names, h1, h2, h3⟩
            · rw [hpar] at h3; cases h3
              simp only [hf', create, h1]
              exact ⟨trivial, hi, hr⟩
            · rw [hpar] at h3; cases h3
              simp only [hf', create, h1]
              have hc := created_file (path.getLastD []) body h1 hfresh.1 hfresh.2
              refine ⟨trivial, hc.refines hi hr hat (by rw [hsplit]; exact hfs) hpar ?_⟩
              have h2 := hc.at_kn
              simp only [entry, h2]
              simp [DB.setNode, DB.setBlob]
    | dir =>
      simp only [serve, FS.serve, hp, if_false, putDir]
      cases hfs : fs path with
      | some e =>
        obtain ⟨k, hf, hat⟩ := find_ok hi hr (by rw [hfs]; simp)
        rw [hf]
        rcases entry_cases hi hr hat with ⟨n, b, body', h1, h2, h3⟩ | ⟨n, ks, names, h1, h2, h3⟩
        · rw [hfs] at h3; cases h3
          simp only [h1]
          exact ⟨trivial, hi, hr⟩
        · rw [hfs] at h3; cases h3
          simp only [h1]
          exact ⟨trivial, hi, hr⟩
      | none =>
        obtain ⟨e, hf, ht⟩ := find_error hi hr hfs
        rw [hf]
        cases hpar : fs path.dropLast with
        | none =>
          obtain ⟨e', hf', ht'⟩ := find_error hi hr hpar
          simp only [hf', ht', Option.getD_some]
          exact ⟨trivial, hi, hr⟩
        | some e' =>
          obtain ⟨dk, hf', hat⟩ := find_ok hi hr (by rw [hpar]; simp)
          rcases entry_cases hi hr hat with ⟨n, b, body', h1, h2, h3⟩ | ⟨n, ks, names, h1, h2, h3⟩
          · rw [hpar] at h3; cases h3
            simp only [hf', create, h1]
            exact ⟨trivial, hi, hr⟩
          · rw [hpar] at h3; cases h3
            simp only [hf', create, h1]
            have hc := created_dir (path.getLastD []) h1 hfresh.1
            refine ⟨trivial, hc.refines hi hr hat (by rw [hsplit]; exact hfs) hpar ?_⟩
            have h2 := hc.at_kn
            simp only [entry, h2]
            rfl

theorem run_refines_from {db : DB} {fs : FS} (hi : Inv db) (hr : Refines db fs) (cs : List Call) (hf : FreshRun db cs) :
    (run db cs).2 = (fs.run (cs.map (·.req))).2 ∧ Inv (run db cs).1 ∧ Refines (run db cs).1 (fs.run (cs.map (·.req))).1 := by
  induction cs generalizing db fs with
  | nil => exact ⟨rfl, hi, hr⟩
  | cons c cs ih =>
    obtain ⟨h1, h2, h3⟩ := serve_refines hi hr c hf.1
    obtain ⟨h4, h5, h6⟩ := ih h2 h3 hf.2
    simp only [run, FS.run, List.map_cons]
    exact ⟨by rw [h1, h4], h5, h6⟩

/-- Every history of requests to a new service is answered as by a file system. -/
theorem flow_is_file_system (cs : List Call) (hf : FreshRun DB.init cs) : (run DB.init cs).2 = (FS.empty.run (cs.map (·.req))).2 :=
  (run_refines_from init_inv.1 init_inv.2 cs hf).1

/-! ### What the specification gives -/

/-- A path of the file system is a file or a directory in the listing of its parent. -/
structure FS.WF (fs : FS) : Prop where
  root : ∃ names, fs [] = some (.dir names)
  listed : ∀ p c, fs (p ++ [c]) ≠ none ↔ ∃ names, fs p = some (.dir names) ∧ c ∈ names
  nodup : ∀ p names, fs p = some (.dir names) → names.Nodup

theorem mem_listing {db : DB} {ks : List Nat} {l : List Str} (h : listing db ks = some l) {c : Str} : c ∈ l ↔ ∃ k ∈ ks, ∃ n, db.node k = some n ∧ n.name = c := by
  induction ks generalizing l with
  | nil => simp only [listing, Option.some.injEq] at h; subst h; simp
  | cons e es ih =>
    simp only [listing] at h
    cases hn : db.node e with
    | none => rw [hn] at h; cases h
    | some n =>
      rw [hn] at h
      cases hl : listing db es with
      | none => rw [hl] at h; cases h
      | some l' =>
        rw [hl] at h
        simp only [Option.map_some, Option.some.injEq] at h
        subst h
        simp only [List.mem_cons, ih hl]
        constructor
        · rintro (rfl | ⟨k, hk, m, hm, rfl⟩)
          · exact ⟨e, Or.inl rfl, n, hn, rfl⟩
          · exact ⟨k, Or.inr hk, m, hm, rfl⟩
        · rintro ⟨k, rfl | hk, m, hm, rfl⟩
          · rw [hn] at hm; cases hm; exact Or.inl rfl
          · exact Or.inr ⟨k, hk, m, hm, rfl⟩

theorem listing_nodup {db : DB} {ks : List Nat} {l : List Str} (h : listing db ks = some l) (hn : ks.Nodup)
    (hi : ∀ k ∈ ks, ∀ k' ∈ ks, ∀ n n', db.node k = some n → db.node k' = some n' → n.name = n'.name → k = k') : l.Nodup := by
  induction ks generalizing l with
  | nil => simp only [listing, Option.some.injEq] at h; subst h; exact List.nodup_nil
  | cons e es ih =>
    simp only [listing] at h
    cases hne : db.node e with
    | none => rw [hne] at h; cases h
    | some n =>
      rw [hne] at h
      cases hl : listing db es with
      | none => rw [hl] at h; cases h
      | some l' =>
        rw [hl] at h
        simp only [Option.map_some, Option.some.injEq] at h
        subst h
        rw [List.nodup_cons] at hn ⊢
        refine ⟨?_, ih hl hn.2 (fun k hk k' hk' => hi k (List.mem_cons_of_mem _ hk) k' (List.mem_cons_of_mem _ hk'))⟩
        intro hm
        obtain ⟨k, hk, m, hm, he⟩ := (mem_listing hl).1 hm
        have := hi e List.mem_cons_self k (List.mem_cons_of_mem _ hk) n m hne hm he.symm
        subst this
        exact hn.1 hk

theorem refines_wf {db : DB} {fs : FS} (hi : Inv db) (hr : Refines db fs) : fs.WF := by
  refine ⟨?_, ?_, ?_⟩
  · obtain ⟨dn, ks, h⟩ := hi.root
    rcases entry_cases hi hr At.root with ⟨n, b, body, h1, _⟩ | ⟨n, ks', names, h1, h2, h3⟩
    · rw [h] at h1; cases h1
    · exact ⟨names, h3⟩
  · intro p c
    constructor
    · intro h
      obtain ⟨k, _, hat⟩ := find_ok hi hr h
      obtain ⟨d, dn, ks, n, h1, h2, h3, h4, h5⟩ := hat.snoc
      rcases entry_cases hi hr h1 with ⟨_, _, _, h6, _⟩ | ⟨_, ks', names, h6, h7, h8⟩
      · rw [h2] at h6; cases h6
      · rw [h2] at h6; cases h6
        exact ⟨names, h8, (mem_listing h7).2 ⟨k, h3, n, h4, h5⟩⟩
    · rintro ⟨names, hp, hc⟩
      obtain ⟨d, _, hat⟩ := find_ok hi hr (p := p) (by rw [hp]; simp)
      rcases entry_cases hi hr hat with ⟨_, _, _, h6, _, h8⟩ | ⟨_, ks', names', h6, h7, h8⟩
      · rw [hp] at h8; cases h8
      · rw [hp] at h8; cases h8
        obtain ⟨k, hk, n, hn, rfl⟩ := (mem_listing h7).1 hc
        intro hnone
        exact (hr.none hi).1 hnone ⟨k, At.step hat h6 hk hn⟩
  · intro p names hp
    obtain ⟨d, _, hat⟩ := find_ok hi hr (p := p) (by rw [hp]; simp)
    rcases entry_cases hi hr hat with ⟨_, _, _, h6, _, h8⟩ | ⟨_, ks', names', h6, h7, h8⟩
    · rw [hp] at h8; cases h8
    · rw [hp] at h8; cases h8
      exact listing_nodup h7 (hi.nodup _ _ _ h6) (hi.names _ _ _ h6)

/-- After any history the file system is well formed: what is listed is there, and what is there is listed, once. -/
theorem flow_well_formed (cs : List Call) (hf : FreshRun DB.init cs) : (FS.empty.run (cs.map (·.req))).1.WF :=
  refines_wf (run_refines_from init_inv.1 init_inv.2 cs hf).2.1 (run_refines_from init_inv.1 init_inv.2 cs hf).2.2

/-- The service never reports a broken storage. -/
theorem flow_no_500 (cs : List Call) (hf : FreshRun DB.init cs) (e : Err) (he : Resp.err e ∈ (run DB.init cs).2) : e.code ≠ 500 := by
  have trouble_code : ∀ (fs : FS) (rest pre : List Str) (e : Err), fs.trouble pre rest = some e → e.code ≠ 500 := by
    intro fs rest
    induction rest with
    | nil => intro pre e h; cases h
    | cons c rest ih =>
      intro pre e h
      simp only [FS.trouble] at h
      split at h
      · cases h; simp [Err.code]
      · split at h
        · cases h
        · cases h; simp [Err.code]
      · exact ih _ _ h
  have key : ∀ (cs : List Call) (db : DB) (fs : FS), Inv db → Refines db fs → FreshRun db cs → Resp.err e ∈ (run db cs).2 → e.code ≠ 500 := by
    intro cs
    induction cs with
    | nil => intro db fs _ _ _ h; cases h
    | cons c cs ih =>
      intro db fs hi hr hf h
      obtain ⟨h1, h2, h3⟩ := serve_refines hi hr c hf.1
      simp only [run, List.mem_cons] at h
      rcases h with h | h
      · rw [h1] at h
        have hnone : ∀ p : List Str, fs p = none → ((fs.trouble [] p).getD .badRoot).code ≠ 500 := by
          intro p hp
          obtain ⟨e, _, ht⟩ := find_error hi hr hp
          rw [ht]
          exact trouble_code _ _ _ _ ht
        obtain ⟨req, kb, kn⟩ := c
        cases req with
        | other => simp only [FS.serve] at h; cases h; decide
        | get p slash =>
          simp only [FS.serve] at h
          split at h
          · simp only at h
            split at h
            · cases h; decide
            · cases h
          · cases h
          · rename_i hp; cases h; exact hnone _ hp
        | put p slash b =>
          simp only [FS.serve] at h
          split at h
          · cases h; decide
          · cases b with
            | malformed => cases h; decide
            | file body =>
              simp only at h
              split at h
              · cases h; decide
              · split at h
                · cases h
                · cases h; decide
                · cases h
                · cases h; decide
                · rename_i hp; cases h; exact hnone _ hp
            | dir =>
              simp only at h
              split at h
              · cases h
              · cases h; decide
              · cases h
              · cases h; decide
              · rename_i hp; cases h; exact hnone _ hp
      · exact ih _ _ h2 h3 hf.2 h
  exact key cs _ _ init_inv.1 init_inv.2 hf he

/-! ### A concrete history, and what happens without fresh keys -/

/-- `PUT /a` (a directory), `PUT /a/b` (a file), `GET /a`, `GET /a/b`, `GET /a/b/c`, `PUT /a/b` (again), `GET /a/b`. -/
def demo : List Call :=
  [⟨.put ["a".toList] true .dir, 1, 1⟩,
   ⟨.put ["a".toList, "b".toList] false (.file "one".toList), 2, 2⟩,
   ⟨.get ["a".toList] false, 3, 3⟩,
   ⟨.get ["a".toList, "b".toList] false, 3, 3⟩,
   ⟨.get ["a".toList, "b".toList, "c".toList] false, 3, 3⟩,
   ⟨.put ["a".toList, "b".toList] false (.file "two".toList), 3, 3⟩,
   ⟨.get ["a".toList, "b".toList] false, 3, 3⟩]

/-- The hypothesis of the theorems holds of the history. -/
theorem demo_fresh : FreshRun DB.init demo := by
  refine ⟨⟨rfl, rfl⟩, ⟨rfl, rfl⟩, ⟨rfl, rfl⟩, ⟨rfl, rfl⟩, ⟨rfl, rfl⟩, ⟨rfl, rfl⟩, ⟨rfl, rfl⟩, trivial⟩

/-- And the responses are as expected. -/
theorem demo_responses : (run DB.init demo).2 =
    [.dirCreated, .ok, .dir ["a".toList] ["b".toList], .file ["a".toList, "b".toList] "one".toList,
     .err (.fileAsDir "b".toList 1), .ok, .file ["a".toList, "b".toList] "two".toList] := rfl

/-- If the random key of a new file happens to be the key of an existing one then the existing one is lost: `GET /a` is `404` right after `PUT /b` succeeded. -/
theorem colliding_key_loses_a_file :
    (run DB.init [⟨.put ["a".toList] false (.file "one".toList), 1, 1⟩, ⟨.put ["b".toList] false (.file "two".toList), 2, 1⟩, ⟨.get ["a".toList] false, 3, 3⟩]).2 =
      [.ok, .ok, .err (.notFound "a".toList 0)] := rfl

/-- If the random key of the new blob happens to be the key of an existing one then two files share their contents. -/
theorem colliding_blob_shared :
    (run DB.init [⟨.put ["a".toList] false (.file "one".toList), 1, 1⟩, ⟨.put ["b".toList] false (.file "two".toList), 1, 2⟩, ⟨.get ["a".toList] false, 3, 3⟩]).2 =
      [.ok, .ok, .file ["a".toList] "two".toList] := rfl

end Current.Flow
