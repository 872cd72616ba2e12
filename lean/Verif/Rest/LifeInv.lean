import Verif.Rest.LifeSpec
/-!
Lemmas for C114: what holds of the port and the objects between any two calls.
-/
set_option linter.unusedSectionVars false
namespace Current.RestLife
open Current.Persist Current.Routes

/-! ### The constructor -/

theorem registerTop_regs {t : Table Hd} {o : Obj} {path : Str} {h : Hd} {t' : Table Hd} {o' : Obj} {e : Option Fail}
    (hr : registerTop t o path h = (t', o', e)) :
    Regs t o.scope [(path, maskNone, h)] t' o'.scope e ∧ o' = { o with scope := o'.scope } ∧
      (∀ x ∈ o.scope, x ∈ o'.scope) ∧ ∀ x ∈ o'.scope, x ∈ o.scope ∨ x = (path, maskNone) := by
  unfold registerTop at hr
  cases hg : register t path h maskNone .throwOnAttempt with
  | error e1 =>
    rw [hg] at hr
    simp only [Prod.mk.injEq] at hr
    obtain ⟨rfl, rfl, rfl⟩ := hr
    exact ⟨.fail hg, rfl, fun _ h => h, fun _ h => .inl h⟩
  | ok q =>
    obtain ⟨t1, s1⟩ := q
    rw [hg] at hr
    simp only [Prod.mk.injEq] at hr
    obtain ⟨rfl, rfl, rfl⟩ := hr
    have hs := register_scope _ _ _ (by decide) _ _ _ hg
    simp only [reduceCtorEq, if_false] at hs
    subst hs
    refine ⟨.ok hg (.nil _ _), rfl, fun x hx => by simp [hx], ?_⟩
    intro x hx
    simpa using hx

/-- What the constructor has done when it ends or throws. -/
structure Built (structured : Bool) (pre : Str) (fields : List (Str × Kind)) (id : Nat) (t : Table Hd) (t1 : Table Hd) (o1 : Obj)
    (e : Option Fail) : Prop where
  regs : Regs t [] (entries structured pre fields id) t1 o1.scope e
  samePre : o1.pre = pre
  handlers : o1.handlers = handlersOf fields
  up : o1.up = true
  records : ∀ x ∈ o1.scope, x ∈ o1.routes ∨ x ∈ (topEntries structured pre id).map fun y => (y.1, y.2.1)
  owned : e = none → ∀ x ∈ o1.routes, x ∈ o1.scope
  masks : ∀ x ∈ o1.routes, x.2 ≠ 0 ∧ x.2 < 65536

theorem construct_built (structured : Bool) (pre : Str) (fields : List (Str × Kind)) (id : Nat) (t : Table Hd)
    (hp : ¬ (pre ≠ [] ∧ pre.getLast? = some '/')) :
    ∃ t1 o1 e, Built structured pre fields id t t1 o1 e ∧ construct structured pre fields id t = unwind (t1, o1, e) := by
  have hslash : pre ≠ ['/'] := by
    rintro rfl
    exact hp ⟨by simp, rfl⟩
  unfold construct
  dsimp only
  rw [if_neg hp]
  cases hr : registerRoutes id t { pre := pre, handlers := handlersOf fields, routes := [], scope := [], up := true } (handlersOf fields) with
  | mk t1 r1 =>
    obtain ⟨o1, e1⟩ := r1
    obtain ⟨hregs, hrec, _⟩ := registerRoutes_regs id (handlersOf fields) (fun x hx => handlers_mask hx) _ _ _ _ _ hr
    have e_pre := hrec.pre
    have e_hd := hrec.handlers
    have e_up := hrec.up
    have e_rec := hrec.records
    have e_own := hrec.owned
    have e_masks := hrec.masks (by simp)
    simp only [List.not_mem_nil, false_or] at e_rec e_own
    cases e1 with
    | some f =>
      refine ⟨t1, o1, some f, ⟨regs_append_fail _ hregs (by simp), e_pre, e_hd, e_up, fun x hx => .inl (e_rec x hx), by simp, e_masks⟩, rfl⟩
    | none =>
      have e_own := e_own rfl
      dsimp only
      cases ht : registerTopLevel structured id t1 o1 with
      | mk t2 r2 =>
        obtain ⟨o2, e2⟩ := r2
        refine ⟨t2, o2, e2, ?_, rfl⟩
        unfold registerTopLevel at ht
        cases structured with
        | false =>
          simp only [Bool.false_eq_true, if_false, Prod.mk.injEq] at ht
          obtain ⟨rfl, rfl, rfl⟩ := ht
          exact ⟨regs_append hregs rfl (.nil _ _), e_pre, e_hd, e_up, fun x hx => .inl (e_rec x hx), fun _ => e_own, e_masks⟩
        | true =>
          simp only [if_true] at ht
          rw [e_pre] at ht
          have htop : topEntries true pre id = [(if pre = [] then ['/'] else pre, maskNone, .top id), (pre ++ kStatus, maskNone, .status id)] := rfl
          have hstatus : (if (if pre = [] then ['/'] else pre) = ['/'] then kStatus else (if pre = [] then ['/'] else pre) ++ kStatus) = pre ++ kStatus := by
            by_cases h : pre = []
            · simp [h]
            · simp [h, hslash]
          rw [hstatus] at ht
          cases h1 : registerTop t1 o1 (if pre = [] then ['/'] else pre) (.top id) with
          | mk t3 r3 =>
            obtain ⟨o3, e3⟩ := r3
            rw [h1] at ht
            obtain ⟨g1, g2, g3, g4⟩ := registerTop_regs h1
            have f3 : o3.pre = o1.pre ∧ o3.handlers = o1.handlers ∧ o3.up = o1.up ∧ o3.routes = o1.routes := by
              rw [g2]; exact ⟨rfl, rfl, rfl, rfl⟩
            cases e3 with
            | some f =>
              simp only [Prod.mk.injEq] at ht
              obtain ⟨rfl, rfl, rfl⟩ := ht
              refine ⟨regs_append hregs rfl ?_, f3.1.trans e_pre, f3.2.1.trans e_hd, f3.2.2.1.trans e_up, ?_, by simp, ?_⟩
              · rw [htop]
                exact regs_append_fail [(pre ++ kStatus, maskNone, Hd.status id)] g1 (by simp)
              · intro x hx
                rcases g4 x hx with h | rfl
                · exact .inl (f3.2.2.2 ▸ e_rec x h)
                · exact .inr (by rw [htop]; simp)
              · rw [f3.2.2.2]; exact e_masks
            | none =>
              obtain ⟨k1, k2, k3, k4⟩ := registerTop_regs ht
              have f4 : o2.pre = o3.pre ∧ o2.handlers = o3.handlers ∧ o2.up = o3.up ∧ o2.routes = o3.routes := by
                rw [k2]; exact ⟨rfl, rfl, rfl, rfl⟩
              refine ⟨regs_append hregs rfl ?_, f4.1.trans (f3.1.trans e_pre), f4.2.1.trans (f3.2.1.trans e_hd),
                f4.2.2.1.trans (f3.2.2.1.trans e_up), ?_, ?_, ?_⟩
              · rw [htop]
                exact regs_append g1 rfl k1
              · intro x hx
                rw [f4.2.2.2, f3.2.2.2]
                rcases k4 x hx with h | rfl
                · rcases g4 x h with h | rfl
                  · exact .inl (e_rec x h)
                  · exact .inr (by rw [htop]; simp)
                · exact .inr (by rw [htop]; simp)
              · intro _ x hx
                rw [f4.2.2.2, f3.2.2.2] at hx
                exact k3 x (g3 x (e_own x hx))
              · rw [f4.2.2.2, f3.2.2.2]; exact e_masks

/-! ### Switching to 503s -/

theorem silent_tied {t : Table Hd} {ss : List Scope} (ht : Tied ⟨t, ss⟩) {p : Str} {m : Nat} (h0 : m ≠ 0) (hm : m < 65536) {t1 : Table Hd}
    {s1 : Scope} (hr : register t p .unavailable m .silentlyUpdate = .ok (t1, s1)) : s1 = [] ∧ Tied ⟨t1, ss⟩ := by
  have hs := register_scope _ _ _ h0 _ _ _ hr
  simp only [if_true] at hs
  subst hs
  refine ⟨rfl, ?_⟩
  obtain ⟨w', hw, htw⟩ := tied_step ht (.register p .unavailable m .silentlyUpdate) hm
  simp only [Routes.World.step, hr] at hw
  injection hw with hw
  subst hw
  exact htw.perm (by simp)

structure Switched (t : Table Hd) (ss : List Scope) (l : List (Str × Nat)) (t' : Table Hd) (e : Option Fail) : Prop where
  tied : Tied ⟨t', ss⟩
  views : ∀ p n, t'.view p n = t.view p n ∨ (∃ x ∈ l, Routes.Covers x.1 x.2 p n) ∧ t'.view p n = some .unavailable
  all : e = none → ∀ x ∈ l, ∀ p n, Routes.Covers x.1 x.2 p n → t'.view p n = some .unavailable
  ok : (∀ x ∈ l, ValidPath x.1 ∧ ∀ p n, Routes.Covers x.1 x.2 p n → (t.view p n).isSome) → e = none

theorem switchLoop_spec {t : Table Hd} {ss : List Scope} (ht : Tied ⟨t, ss⟩) (l : List (Str × Nat)) (hm : ∀ x ∈ l, x.2 ≠ 0 ∧ x.2 < 65536)
    {t' : Table Hd} {e : Option Fail} (h : switchLoop t l = (t', e)) : Switched t ss l t' e := by
  induction l generalizing t with
  | nil =>
    simp only [switchLoop, Prod.mk.injEq] at h
    obtain ⟨rfl, rfl⟩ := h
    exact ⟨ht, fun _ _ => .inl rfl, by simp, fun _ => rfl⟩
  | cons x l ih =>
    obtain ⟨path, mask⟩ := x
    have hm1 := hm (path, mask) (by simp)
    simp only [switchLoop] at h
    cases hr : register t path .unavailable mask .silentlyUpdate with
    | error e1 =>
      rw [hr] at h
      simp only [Prod.mk.injEq] at h
      obtain ⟨rfl, rfl⟩ := h
      refine ⟨ht, fun _ _ => .inl rfl, by simp, ?_⟩
      intro hall
      have h1 := hall (path, mask) (by simp)
      obtain ⟨r, hr2⟩ := (register_ok t path .unavailable hm1.1 .silentlyUpdate).2 ⟨h1.1, fun n hc => by simp [h1.2 path n hc]⟩
      rw [hr2] at hr
      cases hr
    | ok q =>
      obtain ⟨t1, s1⟩ := q
      rw [hr] at h
      obtain ⟨rfl, ht1⟩ := silent_tied ht hm1.1 hm1.2 hr
      have hv := register_view _ _ _ _ _ _ _ hr
      have hrel : release t1 [] = some t1 := rfl
      simp only [hrel] at h
      have d := ih ht1 (fun x hx => hm x (by simp [hx])) h
      refine ⟨d.tied, ?_, ?_, ?_⟩
      · intro p n
        rcases d.views p n with h | ⟨⟨x, hx, hc⟩, h⟩
        · rw [h, hv]
          split
          · rename_i hc; exact .inr ⟨⟨_, List.mem_cons_self .., hc⟩, rfl⟩
          · exact .inl rfl
        · exact .inr ⟨⟨x, by simp [hx], hc⟩, h⟩
      · intro he x hx p n hc
        rcases List.mem_cons.1 hx with rfl | hx
        · rcases d.views p n with h | ⟨_, h⟩
          · rw [h, hv]; exact if_pos hc
          · exact h
        · exact d.all he x hx p n hc
      · intro hall
        refine d.ok ?_
        intro x hx
        refine ⟨(hall x (by simp [hx])).1, ?_⟩
        intro p n hc
        rw [hv]
        split
        · rfl
        · exact (hall x (by simp [hx])).2 p n hc

/-! ### The invariant -/

/-- The object a handler refers to. -/
def Hd.owner : Hd → Option Nat
  | .own id _ => some id
  | .top id => some id
  | .status id => some id
  | _ => none

structure ObjOk (t : Table Hd) (id : Nat) (o : Obj) : Prop where
  valid : ∀ x ∈ o.scope, ValidPath x.1
  handlers : ∀ x ∈ o.handlers, x.2.mask ≠ 0 ∧ x.2.mask < 65536
  routes : ∀ x ∈ o.routes, x.2 ≠ 0 ∧ x.2 < 65536
  tops : ∀ x ∈ o.scope, x ∈ o.routes ∨ ∀ p n, Routes.Covers x.1 x.2 p n →
    t.view p n = some (.top id) ∨ t.view p n = some (.status id) ∨ t.view p n = some .unavailable

def scopesOf (objs : List (Nat × Obj)) : List Scope := objs.map fun e => e.2.scope

structure Inv (w : World) : Prop where
  tied : Tied ⟨w.table, w.users ++ scopesOf w.objs⟩
  keys : (w.objs.map Prod.fst).Nodup
  fresh : ∀ e ∈ w.objs, e.1 < w.next
  refs : ∀ p n h id, w.table.view p n = some h → h.owner = some id → ∃ o, assocFind w.objs id = some o ∧ InScope o.scope p n
  objs : ∀ id o, assocFind w.objs id = some o → ObjOk w.table id o

theorem inv_init : Inv World.init :=
  ⟨⟨good_empty, by simp [World.init, scopesOf], by simp [World.init, scopesOf, Table.view, assocFind, InScope]⟩, by simp [World.init], by simp [World.init],
    by simp [World.init, Table.view, assocFind], by simp [World.init, assocFind]⟩

/-! Association lists as multisets. -/

theorem assoc_perm {objs : List (Nat × Obj)} (hn : (objs.map Prod.fst).Nodup) {id : Nat} {o : Obj} (h : assocFind objs id = some o) :
    objs.Perm ((id, o) :: assocErase objs id) := by
  induction objs with
  | nil => simp [assocFind] at h
  | cons e objs ih =>
    rw [List.map_cons, List.nodup_cons] at hn
    by_cases he : e.1 = id
    · have : e = (id, o) := by
        unfold assocFind at h
        rw [List.find?_cons] at h
        simp only [he, decide_true, Option.map_some, Option.some.injEq] at h
        rw [← h, ← he]
      subst this
      have herase : assocErase ((id, o) :: objs) id = objs := by
        unfold assocErase
        rw [List.filter_cons_of_neg (by simp), List.filter_eq_self]
        intro x hx
        have : x.1 ≠ id := fun h' => hn.1 (List.mem_map.2 ⟨x, hx, h'⟩)
        simpa using this
      rw [herase]
    · have h' : assocFind objs id = some o := by
        unfold assocFind at h ⊢
        rw [List.find?_cons] at h
        simpa [he] using h
      have := ih hn.2 h'
      have herase : assocErase (e :: objs) id = e :: assocErase objs id := by
        unfold assocErase
        rw [List.filter_cons_of_pos (by simpa using he)]
      rw [herase]
      exact (List.Perm.cons e this).trans (List.Perm.swap _ _ _)

theorem assocSet_erase (objs : List (Nat × Obj)) (id : Nat) (o : Obj) : assocErase (assocSet objs id o) id = assocErase objs id := by
  unfold assocSet assocErase
  split
  · induction objs with
    | nil => rfl
    | cons e objs ih =>
      rename_i hs
      have key : ∀ l : List (Nat × Obj), (l.map fun e => if e.1 = id then (id, o) else e).filter (fun e => decide (e.1 ≠ id)) = l.filter fun e => decide (e.1 ≠ id) := by
        intro l
        induction l with
        | nil => rfl
        | cons x l ihl =>
          by_cases hx : x.1 = id
          · simp only [List.map_cons, hx, if_true]
            rw [List.filter_cons_of_neg (by simp), List.filter_cons_of_neg (by simpa using hx)]
            exact ihl
          · simp only [List.map_cons, hx, if_false]
            rw [List.filter_cons_of_pos (by simpa using hx), List.filter_cons_of_pos (by simpa using hx), ihl]
      exact key _
  · simp

theorem assocSet_perm {objs : List (Nat × Obj)} (hn : (objs.map Prod.fst).Nodup) (id : Nat) (o : Obj) :
    (assocSet objs id o).Perm ((id, o) :: assocErase objs id) := by
  have := assoc_perm (assocSet_nodup id o hn) (id := id) (o := o) (by rw [assocFind_set]; simp)
  rwa [assocSet_erase] at this

theorem perm_split {users : List Scope} {objs rest : List (Nat × Obj)} {id : Nat} {o : Obj} (hp : objs.Perm ((id, o) :: rest)) :
    (users ++ scopesOf objs).flatten.Perm [o.scope, (users ++ scopesOf rest).flatten].flatten := by
  have h1 : (scopesOf objs).Perm (o.scope :: scopesOf rest) := by
    unfold scopesOf
    exact (hp.map _)
  have h2 : (users ++ scopesOf objs).Perm (o.scope :: (users ++ scopesOf rest)) :=
    (h1.append_left users).trans List.perm_middle
  have := h2.flatten
  simpa using this

/-- The frame of an object. -/
def frame (w : World) (id : Nat) : Scope := (w.users ++ scopesOf (assocErase w.objs id)).flatten

theorem tied_focus {w : World} (hi : Inv w) {id : Nat} {o : Obj} (h : assocFind w.objs id = some o) :
    Tied ⟨w.table, [o.scope, frame w id]⟩ :=
  hi.tied.perm (perm_split (assoc_perm hi.keys h))

theorem tied_unfocus {t : Table Hd} {w : World} (hi : Inv w) {id : Nat} {o : Obj} (h : Tied ⟨t, [o.scope, frame w id]⟩) :
    Tied ⟨t, w.users ++ scopesOf (assocSet w.objs id o)⟩ :=
  h.perm (perm_split (assocSet_perm hi.keys id o)).symm

theorem fresh_erase {w : World} (hi : Inv w) : assocErase w.objs w.next = w.objs := by
  unfold assocErase
  rw [List.filter_eq_self]
  intro e he
  have := hi.fresh e he
  simp only [ne_eq, decide_eq_true_eq]
  omega

theorem fresh_find {w : World} (hi : Inv w) : assocFind w.objs w.next = none := by
  rw [assocFind_none_iff]
  intro h
  obtain ⟨e, he, h⟩ := List.mem_map.1 h
  have := hi.fresh e he
  omega

theorem tied_new {w : World} (hi : Inv w) : Tied ⟨w.table, [[], frame w w.next]⟩ := by
  refine hi.tied.perm ?_
  unfold frame
  rw [fresh_erase hi]
  simp

/-- Two scopes of a focused world have no route in common. -/
theorem focus_apart {t : Table Hd} {s F : Scope} (h : Tied ⟨t, [s, F]⟩) {p : Str} {n : Nat} (h1 : InScope s p n) (h2 : InScope F p n) : False := by
  obtain ⟨e, he, hc⟩ := h1
  obtain ⟨e', he', hc'⟩ := h2
  have := h.apart
  simp only [List.flatten_cons, List.flatten_nil, List.append_nil, List.pairwise_append] at this
  exact this.2.2 e he e' he' p n hc hc'

theorem inScope_frame {w : World} {id id' : Nat} {o : Obj} (hne : id' ≠ id) (ho : assocFind w.objs id' = some o) {p : Str} {n : Nat}
    (h : InScope o.scope p n) : InScope (frame w id) p n := by
  obtain ⟨e, he, hc⟩ := h
  refine ⟨e, ?_, hc⟩
  unfold frame scopesOf
  refine List.mem_flatten.2 ⟨o.scope, List.mem_append_right _ (List.mem_map.2 ⟨(id', o), ?_, rfl⟩), he⟩
  unfold assocErase
  exact List.mem_filter.2 ⟨assocFind_mem ho, by simpa using hne⟩

/-- Releasing one of two scopes. -/
theorem release_focus {t : Table Hd} {s F : Scope} (h : Tied ⟨t, [s, F]⟩) :
    ∃ t', release t s = some t' ∧ Tied ⟨t', [F]⟩ ∧ (∀ p n, InScope s p n → t'.view p n = none) ∧
      ∀ p n, ¬ InScope s p n → t'.view p n = t.view p n := by
  have hap := h.apart
  simp only [List.flatten_cons, List.flatten_nil, List.append_nil, List.pairwise_append] at hap
  have hex := h.exact_
  simp only [List.flatten_cons, List.flatten_nil, List.append_nil] at hex
  obtain ⟨t', r1, r2, r3, r4⟩ := release_spec h.good s hap.1 (by
    rintro p n ⟨e, he, hc⟩
    exact (hex p n).2 ⟨e, by simp [he], hc⟩)
  refine ⟨t', r1, ⟨r2, by simpa using hap.2.1, ?_⟩, r3, r4⟩
  intro p n
  simp only [List.flatten_cons, List.flatten_nil, List.append_nil]
  by_cases hc : InScope s p n
  · simp only [r3 p n hc, Option.isSome_none, Bool.false_eq_true, false_iff]
    exact fun h2 => focus_apart h hc h2
  · rw [r4 p n hc, hex p n]
    constructor
    · rintro ⟨e, he, h2⟩
      rcases List.mem_append.1 he with he | he
      · exact absurd ⟨e, he, h2⟩ hc
      · exact ⟨e, he, h2⟩
    · rintro ⟨e, he, h2⟩
      exact ⟨e, by simp only [List.mem_append]; exact Or.inr he, h2⟩

end Current.RestLife
