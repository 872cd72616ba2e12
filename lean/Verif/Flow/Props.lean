import Verif.Flow.Model
set_option linter.unusedSimpArgs false
set_option linter.unusedVariables false

/-! # The flow tool: the storage is a tree, and requests do to it what they do to the file system it represents. -/

namespace Current.Flow
open Current.Persist

/-- The node `k` is reached from the root by the names `p`. -/
inductive At (db : DB) : List Str → Nat → Prop
  | root : At db [] rootKey
  | step {p d dn ks k n} : At db p d → db.node d = some ⟨dn, .dir ks⟩ → k ∈ ks → db.node k = some n → At db (p ++ [n.name]) k

/-- The storage is a tree with distinct names in every directory, and with all blobs in place. -/
structure Inv (db : DB) : Prop where
  root : ∃ dn ks, db.node rootKey = some ⟨dn, .dir ks⟩
  kids : ∀ d dn ks, db.node d = some ⟨dn, .dir ks⟩ → ∀ k ∈ ks, k ≠ rootKey ∧ ∃ n, db.node k = some n
  names : ∀ d dn ks, db.node d = some ⟨dn, .dir ks⟩ → ∀ k ∈ ks, ∀ k' ∈ ks, ∀ n n', db.node k = some n → db.node k' = some n' → n.name = n'.name → k = k'
  nodup : ∀ d dn ks, db.node d = some ⟨dn, .dir ks⟩ → ks.Nodup
  parent : ∀ d dn ks d' dn' ks' k, db.node d = some ⟨dn, .dir ks⟩ → db.node d' = some ⟨dn', .dir ks'⟩ → k ∈ ks → k ∈ ks' → d = d'
  blobs : ∀ k n b, db.node k = some ⟨n, .file b⟩ → ∃ body, db.blob b = some body
  owner : ∀ k n k' n' b, db.node k = some ⟨n, .file b⟩ → db.node k' = some ⟨n', .file b⟩ → k = k'

/-- What a node holds. -/
def entry (db : DB) (k : Nat) : Option Entry :=
  match db.node k with
  | some ⟨_, .file b⟩ => (db.blob b).map .file
  | some ⟨_, .dir ks⟩ => (listing db ks).map .dir
  | none => none

/-- The storage represents the file system. -/
def Refines (db : DB) (fs : FS) : Prop := ∀ p e, fs p = some e ↔ ∃ k, At db p k ∧ entry db k = some e

theorem At.snoc {db : DB} {p : List Str} {c : Str} {k : Nat} (h : At db (p ++ [c]) k) :
    ∃ d dn ks n, At db p d ∧ db.node d = some ⟨dn, .dir ks⟩ ∧ k ∈ ks ∧ db.node k = some n ∧ n.name = c := by
  generalize hq : p ++ [c] = q at h
  cases h with
  | root => simp at hq
  | step h1 h2 h3 h4 =>
    have := List.append_inj' hq rfl
    obtain ⟨rfl, hc⟩ := this
    simp at hc
    exact ⟨_, _, _, _, h1, h2, h3, h4, hc.symm⟩

theorem At.nil {db : DB} {k : Nat} (h : At db [] k) : k = rootKey := by
  generalize hq : ([] : List Str) = q at h
  cases h with
  | root => rfl
  | step => simp at hq

theorem At.exists {db : DB} (hi : Inv db) {p : List Str} {k : Nat} (h : At db p k) : ∃ n, db.node k = some n := by
  cases h with
  | root => obtain ⟨dn, ks, h⟩ := hi.root; exact ⟨_, h⟩
  | step _ _ _ h4 => exact ⟨_, h4⟩

theorem At.func {db : DB} (hi : Inv db) {p : List Str} {k k' : Nat} (h : At db p k) (h' : At db p k') : k = k' := by
  induction h generalizing k' with
  | root => exact h'.nil.symm
  | step h1 h2 h3 h4 ih =>
    obtain ⟨d', dn', ks', n', h1', h2', h3', h4', hn⟩ := h'.snoc
    have := ih h1'
    subst this
    rw [h2] at h2'
    cases h2'
    exact hi.names _ _ _ h2 _ h3 _ h3' _ _ h4 h4' hn.symm

theorem At.inj {db : DB} (hi : Inv db) {p p' : List Str} {k : Nat} (h : At db p k) (h' : At db p' k) : p = p' := by
  induction h generalizing p' with
  | root =>
    cases h' with
    | root => rfl
    | step h1 h2 h3 h4 => exact absurd rfl (hi.kids _ _ _ h2 _ h3).1
  | step h1 h2 h3 h4 ih =>
    cases h' with
    | root => exact absurd rfl (hi.kids _ _ _ h2 _ h3).1
    | step h1' h2' h3' h4' =>
      have hd := hi.parent _ _ _ _ _ _ _ h2 h2' h3 h3'
      subst hd
      rw [h4] at h4'
      cases h4'
      rw [ih h1']

theorem At.prefix_dir {db : DB} {p : List Str} {c : Str} {r : List Str} {k : Nat} (h : At db (p ++ c :: r) k) :
    ∃ d dn ks, At db p d ∧ db.node d = some ⟨dn, .dir ks⟩ := by
  generalize hq : p ++ c :: r = q at h
  induction h generalizing r with
  | root => simp at hq
  | @step p' d dn ks k n h1 h2 h3 h4 ih =>
    rcases List.eq_nil_or_concat r with rfl | ⟨r', x, rfl⟩
    · have := (List.append_inj' hq rfl).1
      subst this
      exact ⟨_, _, _, h1, h2⟩
    · have : p ++ c :: r' = p' := by
        have h' : (p ++ c :: r') ++ [x] = p' ++ [n.name] := by simpa using hq
        exact (List.append_inj' h' rfl).1
      exact ih this

theorem At.take {db : DB} {p r : List Str} {k : Nat} (h : At db (p ++ r) k) : ∃ k', At db p k' := by
  cases r with
  | nil => exact ⟨k, by simpa using h⟩
  | cons c r => obtain ⟨d, dn, ks, h, _⟩ := h.prefix_dir; exact ⟨d, h⟩

theorem listing_total {db : DB} {ks : List Nat} (h : ∀ k ∈ ks, ∃ n, db.node k = some n) : ∃ l, listing db ks = some l := by
  induction ks with
  | nil => exact ⟨[], rfl⟩
  | cons e es ih =>
    obtain ⟨n, hn⟩ := h e List.mem_cons_self
    obtain ⟨l, hl⟩ := ih (fun k hk => h k (List.mem_cons_of_mem _ hk))
    exact ⟨n.name :: l, by simp [listing, hn, hl]⟩

theorem listing_congr {db db' : DB} {ks : List Nat} (h : ∀ k ∈ ks, (db'.node k).map (·.name) = (db.node k).map (·.name)) : listing db' ks = listing db ks := by
  induction ks with
  | nil => rfl
  | cons e es ih =>
    have he := h e List.mem_cons_self
    have ih := ih (fun k hk => h k (List.mem_cons_of_mem _ hk))
    simp only [listing]
    cases h1 : db.node e <;> cases h2 : db'.node e <;> rw [h1, h2] at he <;> simp at he
    simp [ih, he]

theorem listing_snoc {db : DB} {ks : List Nat} {k : Nat} {n : Node} (hn : db.node k = some n) :
    listing db (ks ++ [k]) = (listing db ks).map (· ++ [n.name]) := by
  induction ks with
  | nil => simp [listing, hn]
  | cons e es ih =>
    simp only [List.cons_append, listing, ih]
    cases db.node e with
    | none => rfl
    | some m => cases listing db es <;> simp

theorem entry_total {db : DB} (hi : Inv db) {k : Nat} {n : Node} (h : db.node k = some n) : ∃ e, entry db k = some e := by
  unfold entry
  rw [h]
  obtain ⟨name, data⟩ := n
  cases data with
  | dir ks =>
    obtain ⟨l, hl⟩ := listing_total (fun k hk => (hi.kids _ _ _ h k hk).2)
    exact ⟨_, by simp only [hl]; rfl⟩
  | file b =>
    obtain ⟨body, hb⟩ := hi.blobs _ _ _ h
    exact ⟨_, by simp only [hb]; rfl⟩

/-! ### Reading the file system off the storage -/

theorem Refines.of_at {db : DB} {fs : FS} (hr : Refines db fs) (hi : Inv db) {p : List Str} {k : Nat} (h : At db p k) : fs p = entry db k ∧ (entry db k).isSome := by
  obtain ⟨n, hn⟩ := h.exists hi
  obtain ⟨e, he⟩ := entry_total hi hn
  exact ⟨by rw [he]; exact (hr p e).2 ⟨k, h, he⟩, by rw [he]; rfl⟩

theorem Refines.none {db : DB} {fs : FS} (hr : Refines db fs) (hi : Inv db) {p : List Str} : fs p = none ↔ ¬ ∃ k, At db p k := by
  constructor
  · rintro h ⟨k, hk⟩
    have := hr.of_at hi hk
    rw [h] at this
    rw [← this.1] at this
    simp at this
  · intro h
    cases hp : fs p with
    | none => rfl
    | some e => obtain ⟨k, hk, _⟩ := (hr p e).1 hp; exact absurd ⟨k, hk⟩ h

theorem scan_spec {db : DB} {c : Str} {ks : List Nat} (h : ∀ k ∈ ks, ∃ n, db.node k = some n) :
    (scan db c ks = .none ∧ ∀ k ∈ ks, ∀ n, db.node k = some n → n.name ≠ c) ∨
    (∃ k n, scan db c ks = .found k n ∧ k ∈ ks ∧ db.node k = some n ∧ n.name = c) := by
  induction ks with
  | nil => exact Or.inl ⟨rfl, by simp⟩
  | cons e es ih =>
    obtain ⟨n, hn⟩ := h e List.mem_cons_self
    simp only [scan, hn]
    by_cases hc : n.name = c
    · exact Or.inr ⟨e, n, by simp [hc], List.mem_cons_self, hn, hc⟩
    · simp only [hc, if_false]
      rcases ih (fun k hk => h k (List.mem_cons_of_mem _ hk)) with ⟨h1, h2⟩ | ⟨k, m, h1, h2, h3, h4⟩
      · refine Or.inl ⟨h1, ?_⟩
        intro k hk m hm
        rcases List.mem_cons.1 hk with rfl | hk
        · rw [hn] at hm; cases hm; exact hc
        · exact h2 k hk m hm
      · exact Or.inr ⟨k, m, h1, List.mem_cons_of_mem _ h2, h3, h4⟩

/-- The result of a traversal, in terms of the file system. -/
def Agrees (db : DB) (fs : FS) (p : List Str) (t : Option Err) (r : Search) : Prop :=
  (∃ k, r = .ok k ∧ At db p k ∧ t = none) ∨ (fs p = none ∧ ∃ e, r = .error e ∧ t = some e)

theorem findLoop_spec {db : DB} {fs : FS} (hi : Inv db) (hr : Refines db fs) (rest : List Str) : ∀ (pre : List Str) (d : Nat) (dn : Str) (ks : List Nat),
    At db pre d → db.node d = some ⟨dn, .dir ks⟩ → rest ≠ [] →
    Agrees db fs (pre ++ rest) (fs.trouble pre rest) (findLoop db ks rest pre.length) := by
  induction rest with
  | nil => intro _ _ _ _ _ _ h; exact absurd rfl h
  | cons c rest ih =>
    intro pre d dn ks hat hd _
    have hks := fun k hk => (hi.kids _ _ _ hd k hk).2
    simp only [findLoop, FS.trouble]
    rcases scan_spec (c := c) hks with ⟨hs, hno⟩ | ⟨k, n, hs, hk, hn, hc⟩
    · have hnone : ¬ ∃ k, At db (pre ++ [c]) k := by
        rintro ⟨k, hk⟩
        obtain ⟨d', dn', ks', n', h1, h2, h3, h4, h5⟩ := hk.snoc
        have := h1.func hi hat
        subst this
        rw [hd] at h2
        cases h2
        exact hno k h3 n' h4 h5
      rw [hs, (hr.none hi).2 hnone]
      refine Or.inr ⟨(hr.none hi).2 ?_, _, rfl, rfl⟩
      rintro ⟨k, hk⟩
      have : pre ++ c :: rest = (pre ++ [c]) ++ rest := by simp
      rw [this] at hk
      exact hnone hk.take
    · have hat' : At db (pre ++ [c]) k := hc ▸ At.step hat hd hk hn
      have hfs := hr.of_at hi hat'
      rw [hs]
      simp only
      obtain ⟨name, data⟩ := n
      cases data with
      | file b =>
        have he : ∃ body, fs (pre ++ [c]) = some (.file body) := by
          rw [hfs.1]
          obtain ⟨body, hb⟩ := hi.blobs _ _ _ hn
          exact ⟨body, by simp only [entry, hn, hb]; rfl⟩
        obtain ⟨body, he⟩ := he
        rw [he]
        by_cases hrest : rest = []
        · subst hrest
          exact Or.inl ⟨k, by simp, hat', by simp⟩
        · simp only [hrest, if_false]
          refine Or.inr ⟨(hr.none hi).2 ?_, _, rfl, rfl⟩
          rintro ⟨k', hk'⟩
          have e : pre ++ c :: rest = (pre ++ [c]) ++ rest := by simp
          rw [e] at hk'
          cases rest with
          | nil => exact hrest rfl
          | cons c' r =>
            obtain ⟨d', dn', ks', h1, h2⟩ := hk'.prefix_dir
            have := h1.func hi hat'
            subst this
            rw [hn] at h2
            cases h2
      | dir ks' =>
        have he : ∃ l, fs (pre ++ [c]) = some (.dir l) := by
          rw [hfs.1]
          obtain ⟨l, hl⟩ := listing_total (fun k hk => (hi.kids _ _ _ hn k hk).2)
          exact ⟨l, by simp only [entry, hn, hl]; rfl⟩
        obtain ⟨l, he⟩ := he
        rw [he]
        by_cases hrest : rest = []
        · subst hrest
          exact Or.inl ⟨k, by simp, hat', by simp [FS.trouble]⟩
        · simp only [hrest, if_false]
          have := ih (pre ++ [c]) k name ks' hat' hn hrest
          simpa using this

theorem find_spec {db : DB} {fs : FS} (hi : Inv db) (hr : Refines db fs) (p : List Str) : Agrees db fs p (fs.trouble [] p) (find db p) := by
  obtain ⟨dn, ks, hroot⟩ := hi.root
  unfold find
  rw [hroot]
  by_cases hp : p = []
  · subst hp
    exact Or.inl ⟨rootKey, by simp, At.root, rfl⟩
  · simp only [hp, if_false]
    exact findLoop_spec hi hr p [] rootKey dn ks At.root hroot hp

/-! ### The initial storage -/

theorem init_inv : Inv DB.init ∧ Refines DB.init FS.empty := by
  have hn : ∀ k n, DB.init.node k = some n → k = rootKey ∧ n = ⟨[], .dir []⟩ := by
    intro k n h
    simp only [DB.init, DB.setNode] at h
    split at h
    · rename_i hk; cases h; exact ⟨hk, rfl⟩
    · cases h
  have hroot : DB.init.node rootKey = some ⟨[], .dir []⟩ := by simp [DB.init, DB.setNode]
  have hd : ∀ d dn ks, DB.init.node d = some ⟨dn, .dir ks⟩ → ks = [] := by
    intro d dn ks h
    have := (hn _ _ h).2
    cases this; rfl
  have hf : ∀ k n b, DB.init.node k ≠ some ⟨n, .file b⟩ := by
    intro k n b h
    have := (hn _ _ h).2
    cases this
  refine ⟨⟨⟨_, _, hroot⟩, ?_, ?_, ?_, ?_, fun k n b h => absurd h (hf k n b), fun k n _ _ b h => absurd h (hf k n b)⟩, ?_⟩
  · intro d dn ks h k hk; rw [hd _ _ _ h] at hk; cases hk
  · intro d dn ks h k hk; rw [hd _ _ _ h] at hk; cases hk
  · intro d dn ks h; rw [hd _ _ _ h]; exact List.nodup_nil
  · intro d dn ks d' dn' ks' k h _ hk; rw [hd _ _ _ h] at hk; cases hk
  · intro p e
    constructor
    · intro h
      unfold FS.empty at h
      split at h
      · rename_i hp; subst hp; cases h
        exact ⟨rootKey, At.root, by simp [entry, hroot, listing]⟩
      · cases h
    · rintro ⟨k, hk, he⟩
      cases hk with
      | root => simp only [entry, hroot, listing] at he; simpa [FS.empty] using he
      | step h1 h2 h3 h4 => rw [hd _ _ _ h2] at h3; cases h3

end Current.Flow
