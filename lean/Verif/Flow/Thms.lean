import Verif.Flow.Props
set_option linter.unusedSimpArgs false
set_option linter.unusedVariables false

/-! # The flow tool: requests, and the refinement of a file system. -/

namespace Current.Flow
open Current.Persist

section Create
variable {db db' : DB} {fs : FS} {p : List Str} {dk kn : Nat} {dn : Str} {ks : List Nat} {new : Node}

/-- What creating a node in a directory does to the storage. -/
structure Created (db db' : DB) (dk kn : Nat) (dn : Str) (ks : List Nat) (new : Node) : Prop where
  dir : db.node dk = some ⟨dn, .dir ks⟩
  fresh : db.node kn = none
  node : ∀ k, db'.node k = if k = dk then some ⟨dn, .dir (ks ++ [kn])⟩ else if k = kn then some new else db.node k
  blob : ∀ b, (db.blob b).isSome → db'.blob b = db.blob b
  new : new.data = .dir [] ∨ ∃ b, new.data = .file b ∧ db.blob b = none ∧ (db'.blob b).isSome

theorem Created.ne (h : Created db db' dk kn dn ks new) : kn ≠ dk := by
  intro e; have := h.dir; rw [← e, h.fresh] at this; cases this

theorem Created.at_kn (h : Created db db' dk kn dn ks new) : db'.node kn = some new := by
  rw [h.node, if_neg h.ne, if_pos rfl]

theorem Created.old (h : Created db db' dk kn dn ks new) {k : Nat} {n : Node} (hk : db.node k = some n) :
    ∃ n', db'.node k = some n' ∧ n'.name = n.name ∧ (k ≠ dk → n' = n) := by
  by_cases he : k = dk
  · subst he
    rw [h.dir] at hk
    cases hk
    exact ⟨⟨dn, .dir (ks ++ [kn])⟩, by rw [h.node, if_pos rfl], rfl, fun e => absurd rfl e⟩
  · have : k ≠ kn := by rintro rfl; rw [h.fresh] at hk; cases hk
    exact ⟨n, by rw [h.node, if_neg he, if_neg this]; exact hk, rfl, fun _ => rfl⟩

theorem Created.dirs (h : Created db db' dk kn dn ks new) {d : Nat} {dn' : Str} {ks' : List Nat} (hd : db'.node d = some ⟨dn', .dir ks'⟩) :
    (d = dk ∧ dn' = dn ∧ ks' = ks ++ [kn]) ∨ (d = kn ∧ ks' = []) ∨ (d ≠ dk ∧ d ≠ kn ∧ db.node d = some ⟨dn', .dir ks'⟩) := by
  rw [h.node] at hd
  split at hd
  · rename_i e; cases hd; exact Or.inl ⟨e, rfl, rfl⟩
  · rename_i e
    split at hd
    · rename_i e'
      refine Or.inr (Or.inl ⟨e', ?_⟩)
      cases hd
      rcases h.new with h | ⟨b, h, _⟩
      · simpa using h
      · cases h
    · rename_i e'; exact Or.inr (Or.inr ⟨e, e', hd⟩)

theorem Created.files (h : Created db db' dk kn dn ks new) {k : Nat} {n : Str} {b : Nat} (hd : db'.node k = some ⟨n, .file b⟩) :
    (k = kn ∧ db.blob b = none ∧ (db'.blob b).isSome) ∨ (k ≠ kn ∧ db.node k = some ⟨n, .file b⟩) := by
  rw [h.node] at hd
  split at hd
  · cases hd
  · split at hd
    · rename_i e
      cases hd
      rcases h.new with h | ⟨b', h, h1, h2⟩
      · cases h
      · cases h; exact Or.inl ⟨e, h1, h2⟩
    · rename_i e'; exact Or.inr ⟨e', hd⟩

/-- The new name differs from the others, so the storage stays a tree. -/
theorem Created.inv (h : Created db db' dk kn dn ks new) (hi : Inv db) (hname : ∀ k ∈ ks, ∀ n, db.node k = some n → n.name ≠ new.name) : Inv db' := by
  have hroot : kn ≠ rootKey := by
    rintro rfl; obtain ⟨a, b, hr⟩ := hi.root; rw [h.fresh] at hr; cases hr
  have hkn : ∀ d dn ks, db.node d = some ⟨dn, .dir ks⟩ → kn ∉ ks := by
    intro d dn ks hd hk
    obtain ⟨n, hn⟩ := (hi.kids _ _ _ hd _ hk).2
    rw [h.fresh] at hn; cases hn
  have hold : ∀ {k n n'}, db.node k = some n → db'.node k = some n' → n'.name = n.name := by
    intro k n n' h1 h2
    obtain ⟨m, hm, hmn, _⟩ := h.old h1
    rw [hm] at h2; cases h2; exact hmn
  refine ⟨?_, ?_, ?_, ?_, ?_, ?_, ?_⟩
  · obtain ⟨a, b, hr⟩ := hi.root
    by_cases he : rootKey = dk
    · exact ⟨dn, ks ++ [kn], by rw [h.node, if_pos he]⟩
    · exact ⟨a, b, by rw [h.node, if_neg he, if_neg (Ne.symm hroot)]; exact hr⟩
  · intro d dn' ks' hd k hk
    have key : ∀ {d dn ks}, db.node d = some ⟨dn, .dir ks⟩ → k ∈ ks → k ≠ rootKey ∧ ∃ n, db'.node k = some n := by
      intro d dn ks hd hk
      obtain ⟨h1, n, hn⟩ := hi.kids _ _ _ hd _ hk
      obtain ⟨n', hn', _⟩ := h.old hn
      exact ⟨h1, n', hn'⟩
    rcases h.dirs hd with ⟨rfl, rfl, rfl⟩ | ⟨rfl, rfl⟩ | ⟨_, _, hd'⟩
    · rcases List.mem_append.1 hk with hk | hk
      · exact key h.dir hk
      · have : k = kn := by simpa using hk
        subst this
        exact ⟨hroot, _, h.at_kn⟩
    · cases hk
    · exact key hd' hk
  · intro d dn' ks' hd k hk k' hk' n n' hn hn' hnn
    have key : ∀ {d dn ks}, db.node d = some ⟨dn, .dir ks⟩ → k ∈ ks → k' ∈ ks → k = k' := by
      intro d dn ks hd hk hk'
      obtain ⟨_, m, hm⟩ := hi.kids _ _ _ hd _ hk
      obtain ⟨_, m', hm'⟩ := hi.kids _ _ _ hd _ hk'
      exact hi.names _ _ _ hd _ hk _ hk' _ _ hm hm' (by rw [← hold hm hn, ← hold hm' hn', hnn])
    rcases h.dirs hd with ⟨rfl, rfl, rfl⟩ | ⟨rfl, rfl⟩ | ⟨_, _, hd'⟩
    · rcases List.mem_append.1 hk with hk1 | hk1 <;> rcases List.mem_append.1 hk' with hk1' | hk1'
      · exact key h.dir hk1 hk1'
      · have : k' = kn := by simpa using hk1'
        subst this
        rw [h.at_kn] at hn'; cases hn'
        obtain ⟨_, m, hm⟩ := hi.kids _ _ _ h.dir _ hk1
        exact absurd (by rw [← hold hm hn, hnn]) (hname k hk1 m hm)
      · have : k = kn := by simpa using hk1
        subst this
        rw [h.at_kn] at hn; cases hn
        obtain ⟨_, m, hm⟩ := hi.kids _ _ _ h.dir _ hk1'
        exact absurd (by rw [← hold hm hn', hnn]) (hname k' hk1' m hm)
      · have e1 : k = kn := by simpa using hk1
        have e2 : k' = kn := by simpa using hk1'
        rw [e1, e2]
    · cases hk
    · exact key hd' hk hk'
  · intro d dn' ks' hd
    rcases h.dirs hd with ⟨rfl, rfl, rfl⟩ | ⟨rfl, rfl⟩ | ⟨_, _, hd'⟩
    · rw [List.nodup_append]
      refine ⟨hi.nodup _ _ _ h.dir, by simp, ?_⟩
      intro a ha b hb e
      have : b = kn := by simpa using hb
      subst this; subst e
      exact hkn _ _ _ h.dir ha
    · exact List.nodup_nil
    · exact hi.nodup _ _ _ hd'
  · intro d dn₁ ks₁ d' dn₂ ks₂ k hd hd' hk hk'
    rcases h.dirs hd with ⟨rfl, rfl, rfl⟩ | ⟨rfl, rfl⟩ | ⟨_, _, hd1⟩
    · rcases h.dirs hd' with ⟨rfl, rfl, rfl⟩ | ⟨rfl, rfl⟩ | ⟨_, _, hd2⟩
      · rfl
      · cases hk'
      · rcases List.mem_append.1 hk with hk | hk
        · exact hi.parent _ _ _ _ _ _ _ h.dir hd2 hk hk'
        · have : k = kn := by simpa using hk
          subst this
          exact absurd hk' (hkn _ _ _ hd2)
    · cases hk
    · rcases h.dirs hd' with ⟨rfl, rfl, rfl⟩ | ⟨rfl, rfl⟩ | ⟨_, _, hd2⟩
      · rcases List.mem_append.1 hk' with hk' | hk'
        · exact hi.parent _ _ _ _ _ _ _ hd1 h.dir hk hk'
        · have : k = kn := by simpa using hk'
          subst this
          exact absurd hk (hkn _ _ _ hd1)
      · cases hk'
      · exact hi.parent _ _ _ _ _ _ _ hd1 hd2 hk hk'
  · intro k n b hd
    rcases h.files hd with ⟨_, _, hb⟩ | ⟨_, hd⟩
    · exact Option.isSome_iff_exists.1 hb
    · obtain ⟨body, hb⟩ := hi.blobs _ _ _ hd
      exact ⟨body, by rw [h.blob b (by rw [hb]; rfl), hb]⟩
  · intro k n k' n' b hd hd'
    rcases h.files hd with ⟨rfl, hb, _⟩ | ⟨_, hd⟩
    · rcases h.files hd' with ⟨rfl, _, _⟩ | ⟨_, hd'⟩
      · rfl
      · obtain ⟨body, hb'⟩ := hi.blobs _ _ _ hd'
        rw [hb] at hb'; cases hb'
    · rcases h.files hd' with ⟨rfl, hb, _⟩ | ⟨_, hd'⟩
      · obtain ⟨body, hb'⟩ := hi.blobs _ _ _ hd
        rw [hb] at hb'; cases hb'
      · exact hi.owner _ _ _ _ _ hd hd'

/-- The paths of the new storage: the old ones, and the new one. -/
theorem Created.at (h : Created db db' dk kn dn ks new) (hi : Inv db) (hat : At db p dk) {q : List Str} {k : Nat} :
    At db' q k ↔ At db q k ∨ (q = p ++ [new.name] ∧ k = kn) := by
  have mono : ∀ {q k}, At db q k → At db' q k := by
    intro q k hq
    induction hq with
    | root => exact At.root
    | @step p' d dn' ks' k n h1 h2 h3 h4 ih =>
      obtain ⟨n', hn', hname, _⟩ := h.old h4
      rw [← hname]
      by_cases hd : d = dk
      · subst hd
        rw [h.dir] at h2
        cases h2
        exact At.step ih (by rw [h.node, if_pos rfl]) (List.mem_append_left _ h3) hn'
      · obtain ⟨m, hm, _, he⟩ := h.old h2
        rw [he hd] at hm
        exact At.step ih hm h3 hn'
  constructor
  · intro hq
    induction hq with
    | root => exact Or.inl At.root
    | @step p' d dn' ks' k n h1 h2 h3 h4 ih =>
      rcases h.dirs h2 with ⟨rfl, rfl, rfl⟩ | ⟨rfl, rfl⟩ | ⟨hne, hne', hd⟩
      · have hp : p' = p := by
          rcases ih with ih | ⟨_, ih⟩
          · exact ih.inj hi hat
          · exact absurd ih.symm h.ne
        subst hp
        rcases List.mem_append.1 h3 with hk | hk
        · obtain ⟨_, m, hm⟩ := hi.kids _ _ _ h.dir _ hk
          obtain ⟨m', hm', hname, _⟩ := h.old hm
          rw [hm'] at h4; cases h4
          rw [hname]
          exact Or.inl (At.step hat h.dir hk hm)
        · have : k = kn := by simpa using hk
          subst this
          rw [h.at_kn] at h4; cases h4
          exact Or.inr ⟨rfl, rfl⟩
      · cases h3
      · rcases ih with ih | ⟨_, ih⟩
        · obtain ⟨_, m, hm⟩ := hi.kids _ _ _ hd _ h3
          obtain ⟨m', hm', hname, _⟩ := h.old hm
          rw [hm'] at h4; cases h4
          rw [hname]
          exact Or.inl (At.step ih hd h3 hm)
        · exact absurd ih hne'
  · rintro (hq | ⟨rfl, rfl⟩)
    · exact mono hq
    · exact At.step (mono hat) (by rw [h.node, if_pos rfl]) (List.mem_append_right _ List.mem_cons_self) h.at_kn

theorem Created.list_same (h : Created db db' dk kn dn ks new) (hi : Inv db) {l : List Nat} (hl : ∀ k ∈ l, ∃ n, db.node k = some n) : listing db' l = listing db l := by
  apply listing_congr
  intro k hk
  obtain ⟨n, hn⟩ := hl k hk
  obtain ⟨n', hn', hname, _⟩ := h.old hn
  simp [hn, hn', hname]

theorem Created.refines (h : Created db db' dk kn dn ks new) (hi : Inv db) (hr : Refines db fs) (hat : At db p dk) (hname : fs (p ++ [new.name]) = none)
    {names : List Str} (hp : fs p = some (.dir names)) {e : Entry} (he : entry db' kn = some e) :
    Inv db' ∧ Refines db' (fs.add p names new.name e) := by
  have hnone := (hr.none hi).1 hname
  have hinv : Inv db' := by
    apply h.inv hi
    intro k hk n hn hc
    exact hnone ⟨k, hc ▸ At.step hat h.dir hk hn⟩
  refine ⟨hinv, ?_⟩
  have hentry : ∀ {q k}, At db q k → k ≠ dk → entry db' k = entry db k := by
    intro q k hq hne
    obtain ⟨n, hn⟩ := hq.exists hi
    obtain ⟨n', hn', _, heq⟩ := h.old hn
    rw [heq hne] at hn'
    unfold entry
    rw [hn, hn']
    obtain ⟨name, data⟩ := n
    cases data with
    | file b =>
      obtain ⟨body, hb⟩ := hi.blobs _ _ _ hn
      simp only
      rw [h.blob b (by rw [hb]; rfl)]
    | dir l => simp only; rw [h.list_same hi (fun k hk => (hi.kids _ _ _ hn k hk).2)]
  have hdk : entry db' dk = some (.dir (names ++ [new.name])) := by
    have h1 := (hr.of_at hi hat).1
    rw [hp] at h1
    have h2 : listing db ks = some names := by
      simp only [entry, h.dir] at h1
      cases hl : listing db ks with
      | none => rw [hl] at h1; cases h1
      | some l => rw [hl] at h1; simp at h1; rw [h1]
    have h3 : db'.node dk = some ⟨dn, .dir (ks ++ [kn])⟩ := by rw [h.node, if_pos rfl]
    simp only [entry, h3]
    rw [listing_snoc h.at_kn, h.list_same hi (fun k hk => (hi.kids _ _ _ h.dir k hk).2), h2]
    rfl
  intro q e'
  simp only [h.at hi hat, FS.add, FS.set]
  have hpn : p ++ [new.name] ≠ p := by intro e; have := congrArg List.length e; simp at this
  by_cases hq : q = p ++ [new.name]
  · subst hq
    simp only [if_true]
    constructor
    · intro hh; cases hh; exact ⟨kn, Or.inr ⟨trivial, rfl⟩, he⟩
    · rintro ⟨k, hk | ⟨_, rfl⟩, hke⟩
      · exact absurd ⟨k, hk⟩ hnone
      · rw [he] at hke; exact hke
  · simp only [hq, if_false, false_and, or_false]
    by_cases hqp : q = p
    · subst hqp
      simp only [if_true]
      constructor
      · intro hh; cases hh; exact ⟨dk, hat, hdk⟩
      · rintro ⟨k, hk, hke⟩
        have := hk.func hi hat
        subst this
        rw [hdk] at hke; exact hke
    · simp only [hqp, if_false]
      rw [hr q e']
      constructor
      · rintro ⟨k, hk, hke⟩
        exact ⟨k, hk, by rw [hentry hk (fun e => hqp (hk.inj hi (e ▸ hat))), hke]⟩
      · rintro ⟨k, hk, hke⟩
        exact ⟨k, hk, by rw [← hentry hk (fun e => hqp (hk.inj hi (e ▸ hat))), hke]⟩

end Create

/-- Overwriting the blob of a file changes this file only. -/
theorem overwrite {db : DB} {fs : FS} (hi : Inv db) (hr : Refines db fs) {p : List Str} {k : Nat} {n : Str} {b : Nat} (hat : At db p k)
    (hk : db.node k = some ⟨n, .file b⟩) (body : Str) : Inv (db.setBlob b body) ∧ Refines (db.setBlob b body) (fs.set p (.file body)) := by
  have hnode : ∀ k, (db.setBlob b body).node k = db.node k := fun _ => rfl
  have hat' : ∀ {q k}, At (db.setBlob b body) q k ↔ At db q k := by
    intro q k
    constructor
    · intro h
      induction h with
      | root => exact At.root
      | step h1 h2 h3 h4 ih => exact At.step ih h2 h3 h4
    · intro h
      induction h with
      | root => exact At.root
      | step h1 h2 h3 h4 ih => exact At.step ih h2 h3 h4
  refine ⟨⟨hi.root, hi.kids, hi.names, hi.nodup, hi.parent, ?_, hi.owner⟩, ?_⟩
  · intro k' n' b' h
    obtain ⟨bo, hb⟩ := hi.blobs k' n' b' h
    by_cases e : b' = b
    · exact ⟨body, by simp [DB.setBlob, e]⟩
    · exact ⟨bo, by simpa [DB.setBlob, e] using hb⟩
  · intro q e
    simp only [hat', FS.set]
    have hne : ∀ {q k'}, At db q k' → k' ≠ k → entry (db.setBlob b body) k' = entry db k' := by
      intro q k' hq hne
      obtain ⟨m, hm⟩ := hq.exists hi
      unfold entry
      rw [hnode, hm]
      obtain ⟨name, data⟩ := m
      cases data with
      | file b' =>
        have : b' ≠ b := by rintro rfl; exact hne (hi.owner _ _ _ _ _ hm hk)
        simp [DB.setBlob, this]
      | dir l =>
        simp only
        rw [listing_congr (db := db) (db' := db.setBlob b body) (fun _ _ => rfl)]
    have hke : entry (db.setBlob b body) k = some (.file body) := by simp [entry, hnode, hk, DB.setBlob]
    by_cases hq : q = p
    · subst hq
      simp only [if_true]
      constructor
      · intro hh; cases hh; exact ⟨k, hat, hke⟩
      · rintro ⟨k', hk', he⟩
        have := hk'.func hi hat
        subst this
        rw [hke] at he; exact he
    · simp only [hq, if_false]
      rw [hr q e]
      constructor
      · rintro ⟨k', hk', he⟩
        exact ⟨k', hk', by rw [hne hk' (fun e => hq (hk'.inj hi (e ▸ hat))), he]⟩
      · rintro ⟨k', hk', he⟩
        exact ⟨k', hk', by rw [← hne hk' (fun e => hq (hk'.inj hi (e ▸ hat))), he]⟩

end Current.Flow
