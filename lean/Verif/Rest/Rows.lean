import Verif.Rest.Get
import Mathlib.Data.List.Forall2
import Mathlib.Data.List.Perm.Subperm
/-!
Rows and columns of matrices over REST (C113): `storage/api.h:314-352`, `storage/api_types.h:62-83, 458-536, 584-697`, `storage/rest/plain.h:120-153`, `storage/rest/structured.h:228-262`,
`storage/rest/hypermedia.h:53-76`.

The code is written once for rows and columns (`MatrixContainerProxy`): here `A` is the type of the half of the key in the URL, `B` of the other one.
-/
set_option linter.unusedSectionVars false
namespace Current.Rest
open Current.Persist Current.Url Current.Strings Current.Storage

variable {F K R C E P : Type} [DecidableEq F] [DecidableEq K] [DecidableEq R] [DecidableEq C]
variable {A B : Type} [DecidableEq A] [DecidableEq B]

/-! ### Model -/

/-- `RowOrCol`: of an iterable dimension, `field.Row(r)` (`many_to_many.h:202-209`: an empty map if there is none); of a single one, `GetEntryFromRow` in a `SingleElementInnerAccessor`,
`api_types.h:595-623, 653-659`: nothing or one entry. -/
def half : Index A B → A → List Ptr
  | .single m, a => (find m a).toList
  | .multi m, a => ((find m a).getD []).map (·.2)

/-- `RowsOrCols`, with the key and the records of each: `many_to_many.h:158-195`; `SingleElementOuterAccessor`, `api_types.h:625-650`, where each has one. -/
def halves : Index A B → List (A × List Ptr)
  | .single m => m.map fun p => (p.1, [p.2])
  | .multi m => m.map fun p => (p.1, p.2.map (·.2))

/-- The responses to a GET of a row or a column, or of all of them. -/
inductive HalfResp (A E : Type) where
  /-- The entries of a row, `plain.h:132-137`. -/
  | entries (l : List E)
  /-- The keys of the rows, with the numbers of their entries, `plain.h:141-151`. -/
  | counts (l : List (A × Nat))
  /-- A page of the entries of a row, `structured.h:242-249`. -/
  | entryPage (p : Page E)
  /-- A page of the rows, with their sizes and previews, `structured.h:257-262`. -/
  | rowPage (p : Page (A × Nat × List E))
  | notFound          -- 404
  | notAllowed        -- 405
  | serverError       -- 500
  deriving DecidableEq, Repr

/-- `RunForFullOrPartialKey` for a half of a key, `plain.h:120-153`, `structured.h:228-262`. `none`: a freed object was read. -/
def halfBody (flavor : Flavor) (fits : Nat → Bool) (obj : Ptr → Option E) (idx : Index A B) (page : Nat × Nat) : Option A → Option (HalfResp A E)
  | some a =>
    ((half idx a).mapM obj).map fun l =>
      if !l.isEmpty then
        match flavor with
        | .plain => .entries l
        | .hypermedia =>
          match collection fits page.1 page.2 l with
          | none => .serverError
          | some p => .entryPage p
      else .notFound
  | none =>
    match flavor with
    | .plain => some (.counts ((halves idx).map fun p => (p.1, p.2.length)))
    | .hypermedia =>
      ((halves idx).mapM fun (p : A × List Ptr) => (p.2.mapM obj).map fun l => (p.1, l)).map fun rows =>
        match collection fits page.1 page.2 (rows.map fun (p : A × List E) => (p.1, rowRecord p.2)) with
        | none => .serverError
        | some p => .rowPage p

/-- The handler, `GenerateRowOrColHandler`, `api.h:324-350`, for a master and a follower alike. `parse`: `FromString` to the type of the half of the key. The response is sent from a read-only transaction, which
in a shutdown does not run. -/
def serveHalf (flavor : Flavor) (fits : Nat → Bool) (parse : Str → A) (obj : Ptr → Option E) (idx : Index A B) (st : Storage F K R C E P) (req : Req) :
    Option (Storage F K R C E P × HalfResp A E) :=
  if req.method = .get then
    let key := match req.args with
      | [k] => some (parse k)
      | _ => (req.query sKey).map parse
    match halfBody flavor fits obj idx (pageOf req.query) key with
    | none => none
    | some r =>
      match st.readOnly (.returns r) with
      | none => none
      | some (st', .committed v) => some (st', v)
      | some (st', _) => some (st', .serverError)
  else some (st, .notAllowed)

/-- Under `/data/<field>.1`, `.row`, `.left`, `.l`, `.L`, `api.h:369-375`. -/
def serveRow (flavor : Flavor) (fits : Nat → Bool) (parse : Str → R) (m : Matrix R C E) (st : Storage F K R C E P) (req : Req) : Option (Storage F K R C E P × HalfResp R E) :=
  serveHalf flavor fits parse m.obj m.fwd st req

/-- Under `/data/<field>.2`, `.col`, `.right`, `.r`, `.R`, `api.h:376-382`. -/
def serveCol (flavor : Flavor) (fits : Nat → Bool) (parse : Str → C) (m : Matrix R C E) (st : Storage F K R C E P) (req : Req) : Option (Storage F K R C E P × HalfResp C E) :=
  serveHalf flavor fits parse m.obj m.tr st req

/-! ### What is promised -/

/-- The list has every entry of the row `a` exactly once, when `content a b` is the entry at `(a, b)`. -/
structure IsHalf (content : A → B → Option E) (other : E → B) (a : A) (l : List E) : Prop where
  once : (l.map other).Nodup
  all : ∀ e, e ∈ l ↔ ∃ b, content a b = some e

/-- The list has every row that is not empty exactly once, with its entries. -/
structure AreHalves (content : A → B → Option E) (other : E → B) (l : List (A × List E)) : Prop where
  once : (l.map (·.1)).Nodup
  which : ∀ a, a ∈ l.map (·.1) ↔ ∃ b e, content a b = some e
  rows : ∀ a r, (a, r) ∈ l → IsHalf content other a r

/-- The half of the key in the URL: the argument in the path, or `?key=`. -/
def HalfKey (req : Req) (k : Option Str) : Prop :=
  (∃ s, req.args = [s] ∧ k = some s) ∨ ((∀ s, req.args ≠ [s]) ∧ k = req.query sKey)

/-- The right response to a GET of a half. -/
inductive HalfServed (flavor : Flavor) (fits : Nat → Bool) (content : A → B → Option E) (other : E → B) (page : Nat × Nat) : Option A → HalfResp A E → Prop where
  | missing (a : A) : (∀ b, content a b = none) → HalfServed flavor fits content other page (some a) .notFound
  | entries (a : A) (l : List E) : flavor = .plain → l ≠ [] → IsHalf content other a l → HalfServed flavor fits content other page (some a) (.entries l)
  | page (a : A) (l : List E) (p : Page E) : flavor = .hypermedia → l ≠ [] → IsHalf content other a l → collection fits page.1 page.2 l = some p →
      HalfServed flavor fits content other page (some a) (.entryPage p)
  | pageFails (a : A) : flavor = .hypermedia → (∃ b e, content a b = some e) → fits page.2 = false → HalfServed flavor fits content other page (some a) .serverError
  | counts (l : List (A × List E)) : flavor = .plain → AreHalves content other l → HalfServed flavor fits content other page none (.counts (l.map fun p => (p.1, p.2.length)))
  | rowPage (l : List (A × List E)) (p : Page (A × Nat × List E)) : flavor = .hypermedia → AreHalves content other l →
      collection fits page.1 page.2 (l.map fun p => (p.1, p.2.length, p.2.take 3)) = some p → HalfServed flavor fits content other page none (.rowPage p)
  | rowPageFails : flavor = .hypermedia → fits page.2 = false → HalfServed flavor fits content other page none .serverError

/-! ### Proofs -/

theorem mapM_forall₂ {α β : Type} {Q : α → β → Prop} (f : α → Option β) : ∀ l : List α, (∀ a ∈ l, ∃ b, f a = some b ∧ Q a b) → ∃ l', l.mapM f = some l' ∧ List.Forall₂ Q l l'
  | [], _ => ⟨[], rfl, .nil⟩
  | a :: l, h => by
    obtain ⟨b, h1, h2⟩ := h a (by simp)
    obtain ⟨l', h3, h4⟩ := mapM_forall₂ f l (fun x hx => h x (by simp [hx]))
    exact ⟨b :: l', by rw [List.mapM_cons, h1, h3]; rfl, .cons h2 h4⟩

theorem forall₂_map_eq {α β γ : Type} (f : α → γ) (g : β → γ) {l : List α} {l' : List β} (h : List.Forall₂ (fun a b => f a = g b) l l') : l.map f = l'.map g := by
  induction h with
  | nil => rfl
  | cons h _ ih => simp [h, ih]

theorem forall₂_mem_left {α β : Type} {Q : α → β → Prop} {l : List α} {l' : List β} (h : List.Forall₂ Q l l') {a : α} (ha : a ∈ l) : ∃ b ∈ l', Q a b := by
  induction h with
  | nil => cases ha
  | cons h _ ih =>
    cases ha with
    | head => exact ⟨_, List.mem_cons_self, h⟩
    | tail _ ha => obtain ⟨b, h1, h2⟩ := ih ha; exact ⟨b, List.mem_cons_of_mem _ h1, h2⟩

theorem forall₂_mem_right {α β : Type} {Q : α → β → Prop} {l : List α} {l' : List β} (h : List.Forall₂ Q l l') {b : β} (hb : b ∈ l') : ∃ a ∈ l, Q a b := by
  induction h with
  | nil => cases hb
  | cons h _ ih =>
    cases hb with
    | head => exact ⟨_, List.mem_cons_self, h⟩
    | tail _ hb => obtain ⟨a, h1, h2⟩ := ih hb; exact ⟨a, List.mem_cons_of_mem _ h1, h2⟩

/-- What the index, the objects and the contents have to do with each other. -/
structure HalfInv (idx : Index A B) (g : A → B → Option Ptr) (obj : Ptr → Option E) (content : A → B → Option E) (other : E → B) : Prop where
  agrees : idx.Agrees g
  live : ∀ a b p, g a b = some p → ∃ e, obj p = some e ∧ content a b = some e
  owned : ∀ a b e, content a b = some e → ∃ p, g a b = some p ∧ obj p = some e
  key : ∀ a b e, content a b = some e → other e = b

theorem half_sub {idx : Index A B} {g : A → B → Option Ptr} {obj : Ptr → Option E} {content : A → B → Option E} {other : E → B} (h : HalfInv idx g obj content other) (a : A)
    (sub : AMap B Ptr) (hs : Wf sub) (hg : ∀ b, find sub b = g a b) :
    ∃ l, (sub.map (·.2)).mapM obj = some l ∧ IsHalf content other a l ∧ l.length = sub.length := by
  obtain ⟨l, h1, h2⟩ := mapM_forall₂ (Q := fun (p : B × Ptr) (e : E) => p.1 = other e ∧ obj p.2 = some e ∧ content a p.1 = some e) (fun p => obj p.2) sub (by
    intro p hp
    have := (mem_iff_find hs p.1 p.2).1 hp
    rw [hg] at this
    obtain ⟨e, h1, h2⟩ := h.live _ _ _ this
    exact ⟨e, h1, (h.key _ _ _ h2).symm, h1, h2⟩)
  refine ⟨l, by rw [List.mapM_map]; exact h1, ⟨?_, ?_⟩, h2.length_eq.symm⟩
  · rw [← forall₂_map_eq (fun p : B × Ptr => p.1) other (h2.imp fun _ _ hq => hq.1)]
    exact hs
  · intro e
    constructor
    · intro he
      obtain ⟨p, _, hq⟩ := forall₂_mem_right h2 he
      exact ⟨_, hq.2.2⟩
    · rintro ⟨b, hb⟩
      obtain ⟨p, hp, ho⟩ := h.owned _ _ _ hb
      have : (b, p) ∈ sub := (mem_iff_find hs _ _).2 (by rw [hg, hp])
      obtain ⟨e', h3, h4⟩ := forall₂_mem_left h2 this
      rw [ho] at h4
      obtain ⟨_, h5, _⟩ := h4
      injection h5 with h5
      rw [h5]; exact h3

theorem half_one {m : AMap A Ptr} {g : A → B → Option Ptr} {obj : Ptr → Option E} {content : A → B → Option E} {other : E → B} (h : HalfInv (.single m) g obj content other) (a : A)
    (p : Ptr) (hp : find m a = some p) : ∃ e, obj p = some e ∧ IsHalf content other a [e] := by
  obtain ⟨hw, ha⟩ := h.agrees
  obtain ⟨b, hb⟩ := (ha a p).1 hp
  obtain ⟨e, h1, h2⟩ := h.live _ _ _ hb
  refine ⟨e, h1, by simp, fun e' => ?_⟩
  simp only [List.mem_singleton]
  constructor
  · rintro rfl; exact ⟨b, h2⟩
  · rintro ⟨b', hb'⟩
    obtain ⟨p', h3, h4⟩ := h.owned _ _ _ hb'
    have := (ha a p').2 ⟨b', h3⟩
    rw [hp] at this
    injection this with this
    subst this
    rw [h1] at h4
    injection h4 with h4
    exact h4.symm

theorem half_spec {idx : Index A B} {g : A → B → Option Ptr} {obj : Ptr → Option E} {content : A → B → Option E} {other : E → B} (h : HalfInv idx g obj content other) (a : A) :
    ∃ l, (half idx a).mapM obj = some l ∧ IsHalf content other a l := by
  cases idx with
  | single m =>
    cases hf : find m a with
    | none =>
      refine ⟨[], by simp [half, hf], by simp, fun e => ?_⟩
      simp only [List.not_mem_nil, false_iff]
      rintro ⟨b, hb⟩
      obtain ⟨p, h1, h2⟩ := h.owned _ _ _ hb
      have := (h.agrees.2 a p).2 ⟨b, h1⟩
      rw [hf] at this; cases this
    | some p =>
      obtain ⟨e, h1, h2⟩ := half_one h a p hf
      exact ⟨[e], by simp [half, hf, h1], h2⟩
  | multi m =>
    obtain ⟨hw, hg, hs⟩ := h.agrees
    obtain ⟨l, h1, h2, _⟩ := half_sub h a ((find m a).getD []) (sub_wf hs a) (hg a)
    exact ⟨l, h1, h2⟩

theorem halves_spec {idx : Index A B} {g : A → B → Option Ptr} {obj : Ptr → Option E} {content : A → B → Option E} {other : E → B} (h : HalfInv idx g obj content other) :
    ∃ l, ((halves idx).mapM fun p => (p.2.mapM obj).map fun l => (p.1, l)) = some l ∧ AreHalves content other l ∧
      (halves idx).map (fun p => (p.1, p.2.length)) = l.map fun p => (p.1, p.2.length) := by
  cases idx with
  | single m =>
    obtain ⟨hw, ha⟩ := h.agrees
    obtain ⟨l, h1, h2⟩ := mapM_forall₂ (Q := fun (p : A × Ptr) (r : A × List E) => p.1 = r.1 ∧ r.2.length = 1 ∧ IsHalf content other p.1 r.2)
      (fun p => (([p.2] : List Ptr).mapM obj).map fun l => (p.1, l)) m (by
        intro p hp
        obtain ⟨e, h1, h2⟩ := half_one h p.1 p.2 ((mem_iff_find hw p.1 p.2).1 hp)
        exact ⟨(p.1, [e]), by simp [h1], rfl, rfl, h2⟩)
    have hk := forall₂_map_eq (fun p : A × Ptr => p.1) (fun r : A × List E => r.1) (h2.imp fun _ _ hq => hq.1)
    refine ⟨l, by simp only [halves, List.mapM_map]; exact h1, ⟨?_, ?_, ?_⟩, ?_⟩
    · rw [← hk]; exact hw
    · intro a
      rw [← hk]
      constructor
      · intro hm
        obtain ⟨p, hp, rfl⟩ := List.mem_map.1 hm
        obtain ⟨b, hb⟩ := (ha _ _).1 ((mem_iff_find hw p.1 p.2).1 hp)
        obtain ⟨e, _, he⟩ := h.live _ _ _ hb
        exact ⟨b, e, he⟩
      · rintro ⟨b, e, he⟩
        obtain ⟨p, h3, _⟩ := h.owned _ _ _ he
        exact List.mem_map.2 ⟨(a, p), (mem_iff_find hw _ _).2 ((ha a p).2 ⟨b, h3⟩), rfl⟩
    · intro a r hr
      obtain ⟨p, _, hq⟩ := forall₂_mem_right h2 hr
      have := hq.2.2
      rw [hq.1] at this; exact this
    · simp only [halves, List.map_map]
      exact forall₂_map_eq (fun p : A × Ptr => (p.1, 1)) (fun r : A × List E => (r.1, r.2.length)) (h2.imp fun _ _ hq => by rw [hq.1, hq.2.1])
  | multi m =>
    obtain ⟨hw, hg, hs⟩ := h.agrees
    obtain ⟨l, h1, h2⟩ := mapM_forall₂ (Q := fun (p : A × AMap B Ptr) (r : A × List E) => p.1 = r.1 ∧ r.2.length = p.2.length ∧ IsHalf content other p.1 r.2)
      (fun p => ((p.2.map (·.2)).mapM obj).map fun l => (p.1, l)) m (by
        intro p hp
        have hf := (mem_iff_find hw p.1 p.2).1 hp
        obtain ⟨l, h1, h2, h3⟩ := half_sub h p.1 p.2 (hs _ _ hf).2 (fun b => by rw [← hg, hf]; rfl)
        exact ⟨(p.1, l), by simp [h1], rfl, h3, h2⟩)
    have hk := forall₂_map_eq (fun p : A × AMap B Ptr => p.1) (fun r : A × List E => r.1) (h2.imp fun _ _ hq => hq.1)
    refine ⟨l, by simp only [halves, List.mapM_map]; exact h1, ⟨?_, ?_, ?_⟩, ?_⟩
    · rw [← hk]; exact hw
    · intro a
      rw [← hk]
      constructor
      · intro hm
        obtain ⟨p, hp, rfl⟩ := List.mem_map.1 hm
        have hf := (mem_iff_find hw p.1 p.2).1 hp
        obtain ⟨hne, hsub⟩ := hs _ _ hf
        obtain ⟨⟨b, q⟩, tl, hq⟩ := List.exists_cons_of_ne_nil hne
        have : g p.1 b = some q := by
          rw [← hg, hf, Option.getD_some]
          exact (mem_iff_find hsub _ _).1 (by rw [hq]; simp)
        obtain ⟨e, _, he⟩ := h.live _ _ _ this
        exact ⟨b, e, he⟩
      · rintro ⟨b, e, he⟩
        obtain ⟨p, h3, _⟩ := h.owned _ _ _ he
        rw [← hg] at h3
        cases hf : find m a with
        | none => rw [hf] at h3; simp [find] at h3
        | some s => exact List.mem_map.2 ⟨(a, s), (mem_iff_find hw _ _).2 hf, rfl⟩
    · intro a r hr
      obtain ⟨p, _, hq⟩ := forall₂_mem_right h2 hr
      have := hq.2.2
      rw [hq.1] at this; exact this
    · simp only [halves, List.map_map]
      exact forall₂_map_eq (fun p : A × AMap B Ptr => (p.1, (p.2.map (·.2)).length)) (fun r : A × List E => (r.1, r.2.length))
        (h2.imp fun _ _ hq => by rw [hq.1, hq.2.1]; simp)

theorem fits_of_collection {α : Type} {fits : Nat → Bool} {i n : Nat} {l : List α} (h : collection fits i n l = none) : fits n = false := by
  unfold collection at h
  by_cases hf : fits n = true
  · simp [hf] at h
  · simpa using hf

theorem rowRecord_eq {α : Type} (l : List α) : rowRecord l = (l.length, l.take 3) := by
  unfold rowRecord
  match l with
  | [] => rfl
  | [_] => rfl
  | [_, _] => rfl
  | _ :: _ :: _ :: l => simp [previewLoop]

theorem halfBody_spec (flavor : Flavor) (fits : Nat → Bool) {idx : Index A B} {g : A → B → Option Ptr} {obj : Ptr → Option E} {content : A → B → Option E} {other : E → B}
    (h : HalfInv idx g obj content other) (page : Nat × Nat) (k : Option A) :
    ∃ r, halfBody flavor fits obj idx page k = some r ∧ HalfServed flavor fits content other page k r := by
  cases k with
  | some a =>
    obtain ⟨l, h1, h2⟩ := half_spec h a
    simp only [halfBody, h1, Option.map_some]
    by_cases hl : l = []
    · subst hl
      refine ⟨_, rfl, ?_⟩
      apply HalfServed.missing
      intro b
      by_contra hb
      obtain ⟨e, he⟩ := Option.ne_none_iff_exists'.1 hb
      have := (h2.all e).2 ⟨b, he⟩
      cases this
    · have hl' : (!l.isEmpty) = true := by simpa using hl
      simp only [hl', if_true]
      cases flavor with
      | plain => exact ⟨_, rfl, .entries a l rfl hl h2⟩
      | hypermedia =>
        cases hc : collection fits page.1 page.2 l with
        | some p => exact ⟨.entryPage p, by simp only [hc], .page a l p rfl hl h2 hc⟩
        | none =>
          obtain ⟨e, he⟩ := List.exists_mem_of_ne_nil l hl
          obtain ⟨b, hb⟩ := (h2.all e).1 he
          exact ⟨.serverError, by simp only [hc], .pageFails a rfl ⟨b, e, hb⟩ (fits_of_collection hc)⟩
  | none =>
    obtain ⟨l, h1, h2, h3⟩ := halves_spec h
    cases flavor with
    | plain =>
      refine ⟨_, rfl, ?_⟩
      rw [h3]
      exact .counts l rfl h2
    | hypermedia =>
      simp only [halfBody, h1, Option.map_some, rowRecord_eq]
      cases hc : collection fits page.1 page.2 (l.map fun p => (p.1, p.2.length, p.2.take 3)) with
      | some p => exact ⟨.rowPage p, rfl, .rowPage l p rfl h2 hc⟩
      | none => exact ⟨.serverError, rfl, .rowPageFails rfl (fits_of_collection hc)⟩

theorem serveHalf_spec (flavor : Flavor) (fits : Nat → Bool) (parse : Str → A) {idx : Index A B} {g : A → B → Option Ptr} {obj : Ptr → Option E} {content : A → B → Option E}
    {other : E → B} (h : HalfInv idx g obj content other) (st : Storage F K R C E P) (hj : st.journal.isEmpty = true) (req : Req) :
    (req.method ≠ .get → serveHalf flavor fits parse obj idx st req = some (st, .notAllowed)) ∧
    (req.method = .get → st.destructing = true → serveHalf flavor fits parse obj idx st req = some (st, .serverError)) ∧
    (req.method = .get → st.destructing = false → ∃ k r, HalfKey req k ∧ serveHalf flavor fits parse obj idx st req = some (st, r) ∧
      HalfServed flavor fits content other (pageOf req.query) (k.map parse) r) := by
  have hkey : ∃ k, HalfKey req k ∧ (match req.args with | [k] => some (parse k) | _ => (req.query sKey).map parse) = k.map parse := by
    by_cases ha : ∃ s, req.args = [s]
    · obtain ⟨s, hs⟩ := ha
      exact ⟨some s, .inl ⟨s, hs, rfl⟩, by rw [hs]; rfl⟩
    · refine ⟨req.query sKey, .inr ⟨fun s hs => ha ⟨s, hs⟩, rfl⟩, ?_⟩
      split
      · rename_i s hs; exact absurd ⟨s, hs⟩ ha
      · rfl
  obtain ⟨k, hk, he⟩ := hkey
  obtain ⟨r, h1, h2⟩ := halfBody_spec flavor fits h (pageOf req.query) (k.map parse)
  refine ⟨fun hm => by simp [serveHalf, hm], fun hm hd => ?_, fun hm hd => ⟨k, r, hk, ?_, h2⟩⟩
  · simp only [serveHalf, hm, if_true, he, h1]
    simp [Storage.readOnly, hj, hd]
  · simp only [serveHalf, hm, if_true, he, h1]
    simp [Storage.readOnly, hj, hd]

theorem row_inv {S : Schema K R C E P} {m : Matrix R C E} (h : m.Inv S) : HalfInv m.fwd (fun r c => find m.map (r, c)) m.obj (fun r c => m.content (r, c)) S.col where
  agrees := h.fwd
  live a b p hp := by
    obtain ⟨e, h1, _⟩ := h.live _ _ hp
    exact ⟨e, h1, by simp only [Matrix.content]; rw [hp]; exact h1⟩
  owned a b e he := (h.content_iff _ _).1 he
  key a b e he := congrArg Prod.snd (h.content_key he)

theorem col_inv {S : Schema K R C E P} {m : Matrix R C E} (h : m.Inv S) : HalfInv m.tr (fun c r => find m.map (r, c)) m.obj (fun c r => m.content (r, c)) S.row where
  agrees := h.tr
  live a b p hp := by
    obtain ⟨e, h1, _⟩ := h.live _ _ hp
    exact ⟨e, h1, by simp only [Matrix.content]; rw [hp]; exact h1⟩
  owned a b e he := (h.content_iff _ _).1 he
  key a b e he := congrArg Prod.fst (h.content_key he)

/-- **C113.** After any history, for a matrix of any kind: a GET of a row gets exactly its entries (a page of them in hypermedia), or a 404 if there are none; a GET of no row in particular gets every row that is
not empty once, with the number of its entries (and up to three of them); other methods get a 405. Nothing is changed. -/
theorem rows_served (flavor : Flavor) (fits : Nat → Bool) (parse : Str → R) {S : F → Schema K R C E P} {kinds : F → Kind} {st : Storage F K R C E P} (h : st.Good S kinds)
    {f : F} {m : Matrix R C E} (hf : st.fields f = .matrix m) (req : Req) :
    (req.method ≠ .get → serveRow flavor fits parse m st req = some (st, .notAllowed)) ∧
    (req.method = .get → st.destructing = true → serveRow flavor fits parse m st req = some (st, .serverError)) ∧
    (req.method = .get → st.destructing = false → ∃ k r, HalfKey req k ∧ serveRow flavor fits parse m st req = some (st, r) ∧
      HalfServed flavor fits (fun r c => m.content (r, c)) (S f).col (pageOf req.query) (k.map parse) r) := by
  have hi := h.inv f
  rw [hf] at hi
  exact serveHalf_spec flavor fits parse (row_inv hi) st (good_empty h) req

/-- **C113**, columns. -/
theorem cols_served (flavor : Flavor) (fits : Nat → Bool) (parse : Str → C) {S : F → Schema K R C E P} {kinds : F → Kind} {st : Storage F K R C E P} (h : st.Good S kinds)
    {f : F} {m : Matrix R C E} (hf : st.fields f = .matrix m) (req : Req) :
    (req.method ≠ .get → serveCol flavor fits parse m st req = some (st, .notAllowed)) ∧
    (req.method = .get → st.destructing = true → serveCol flavor fits parse m st req = some (st, .serverError)) ∧
    (req.method = .get → st.destructing = false → ∃ k r, HalfKey req k ∧ serveCol flavor fits parse m st req = some (st, r) ∧
      HalfServed flavor fits (fun c r => m.content (r, c)) (S f).row (pageOf req.query) (k.map parse) r) := by
  have hi := h.inv f
  rw [hf] at hi
  exact serveHalf_spec flavor fits parse (col_inv hi) st (good_empty h) req

/-- The pages of a row: the entries from the `i`-th on, at most `n` of them, of a list of all of its entries; and the size of the row. -/
theorem row_page (fits : Nat → Bool) (hs : Sane fits) (parse : Str → R) {S : F → Schema K R C E P} {kinds : F → Kind} {st : Storage F K R C E P} (h : st.Good S kinds)
    {f : F} {m : Matrix R C E} (hf : st.fields f = .matrix m) (req : Req) (hm : req.method = .get) (hd : st.destructing = false) (hlen : m.size < 2 ^ 63)
    {p : Page E} (hr : serveRow .hypermedia fits parse m st req = some (st, .entryPage p)) :
    ∃ k l, HalfKey req (some k) ∧ IsHalf (fun r c => m.content (r, c)) (S f).col (parse k) l ∧ p.total = l.length ∧
      p.data = (l.drop (pageOf req.query).1).take (pageOf req.query).2 := by
  have hi := h.inv f
  rw [hf] at hi
  obtain ⟨k, r, h1, h2, h3⟩ := (rows_served .hypermedia fits parse h hf req).2.2 hm hd
  rw [hr] at h2
  simp only [Option.some.injEq, Prod.mk.injEq, true_and] at h2
  subst h2
  cases k with
  | none => cases h3
  | some k =>
    simp only [Option.map_some] at h3
    cases h3 with
    | page a l p _ _ hl hc =>
      refine ⟨k, l, h1, hl, ?_⟩
      have hsize : l.length ≤ m.size := by
        -- Each entry of the row is at its own key in the map.
        have hsub : (l.map fun e => (parse k, (S f).col e)) ⊆ m.map.map (·.1) := by
          intro x hx
          obtain ⟨e, he, rfl⟩ := List.mem_map.1 hx
          obtain ⟨c, hc⟩ := (hl.all e).1 he
          have hcol : (S f).col e = c := congrArg Prod.snd (Matrix.Inv.content_key hi hc)
          rw [hcol]
          by_contra hn
          have := (Matrix.Inv.content_none hi (parse k, c)).2 (find_none_iff.2 hn)
          have hc' : m.content (parse k, c) = some e := hc
          rw [hc'] at this; cases this
        have hnd : (l.map fun e => (parse k, (S f).col e)).Nodup := by
          have : (l.map fun e => (parse k, (S f).col e)) = (l.map (S f).col).map fun c => (parse k, c) := by simp
          rw [this]
          exact List.Pairwise.map _ (fun a b hab hq => hab (congrArg Prod.snd hq)) hl.once
        have := (List.subperm_of_subset hnd hsub).length_le
        simpa [Matrix.size] using this
      obtain ⟨q1, _, _, q2, _⟩ := page_content hs _ _ l (by omega) hc
      exact ⟨q2, q1⟩

/-! ### A concrete case -/

/-- A many-to-many matrix with the cells (1, 1), (1, 2), (2, 1) and, as the result of a history, a storage with it. -/
def demoRowsHistory : List (Call Bool Nat Nat Nat (Nat × Nat × Nat) Nat Nat) :=
  [.readWrite ⟨1, 9, 10⟩ [.op true (.matrix (.add 2 3 4 (1, 1, 10))), .op true (.matrix (.add 3 4 5 (1, 2, 20))), .op true (.matrix (.add 4 5 6 (2, 1, 30)))] (.returns 0)]

def demoRowsKinds : Bool → Kind := fun b => if b then .matrix .manyToMany else .dictionary

def demoMatrix : Field Nat Nat Nat (Nat × Nat × Nat) → Matrix Nat Nat (Nat × Nat × Nat)
  | .matrix m => m
  | .dict _ => .manyToMany

theorem demo_rows :
    (((Storage.fresh demoRowsKinds : DemoStorage).calls demoSchema demoRowsKinds demoRowsHistory).map fun st =>
      [{ method := .get, args := [['x']] }, { method := .get, args := [['x', 'x', 'x']] }, { method := .get }, { method := .get, query := fun k => if k = sKey then some ['x', 'x'] else none },
       { method := .post, args := [['x']] }].map fun req => (serveRow .plain (fun _ => true) List.length (demoMatrix (st.fields true)) st req).map (·.2)) =
      some [some (.entries [(1, 1, 10), (1, 2, 20)]), some .notFound, some (.counts [(1, 2), (2, 1)]), some (.entries [(2, 1, 30)]), some .notAllowed] ∧
    (((Storage.fresh demoRowsKinds : DemoStorage).calls demoSchema demoRowsKinds demoRowsHistory).map fun st =>
      (serveCol .hypermedia (fun _ => true) List.length (demoMatrix (st.fields true)) st { method := .get }).map (·.2)) =
      some (some (.rowPage { url := (0, 10), i := 0, n := 2, total := 2, data := [(1, 2, [(1, 1, 10), (2, 1, 30)]), (2, 1, [(1, 2, 20)])] })) := by
  refine ⟨by decide +kernel, by decide +kernel⟩

end Current.Rest
