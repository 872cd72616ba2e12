import Verif.Rest.LifeInv
/-!
Lemmas for C114: each call keeps the invariant, and what it does to the table.
-/
set_option linter.unusedSectionVars false
namespace Current.RestLife
open Current.Persist Current.Routes

theorem ObjOk.mono {t t' : Table Hd} {id : Nat} {o : Obj} (h : ObjOk t id o)
    (hv : ∀ p n, InScope o.scope p n → t'.view p n = t.view p n ∨ t'.view p n = some .unavailable) : ObjOk t' id o := by
  refine ⟨h.valid, h.handlers, h.routes, ?_⟩
  intro x hx
  rcases h.tops x hx with h1 | h1
  · exact .inl h1
  · refine .inr fun p n hc => ?_
    rcases hv p n ⟨x, hx, hc⟩ with h2 | h2
    · rw [h2]; exact h1 p n hc
    · exact .inr (.inr h2)

theorem view_of_scope {w : World} (hi : Inv w) {id : Nat} {o : Obj} (ho : assocFind w.objs id = some o) {p : Str} {n : Nat}
    (h : InScope o.scope p n) : (w.table.view p n).isSome := by
  have := (tied_focus hi ho).exact_ p n
  refine this.2 ?_
  obtain ⟨e, he, hc⟩ := h
  exact ⟨e, by simp [he], hc⟩

theorem inScope_mono {s s' : Scope} (h : ∀ x ∈ s, x ∈ s') {p : Str} {n : Nat} (hs : InScope s p n) : InScope s' p n := by
  obtain ⟨e, he, hc⟩ := hs
  exact ⟨e, h e he, hc⟩

/-! ### Construction -/

/-- A constructor that throws leaves the routes there were. -/
theorem construct_fail {w : World} (hi : Inv w) {structured : Bool} {pre : Str} {fields : List (Str × Kind)} {t1 : Table Hd} {o1 : Obj}
    {f : Fail} (b : Built structured pre fields w.next w.table t1 o1 (some f)) :
    ∃ t2, release t1 o1.scope = some t2 ∧ Tied ⟨t2, w.users ++ scopesOf w.objs⟩ ∧ ∀ p n, t2.view p n = w.table.view p n := by
  obtain ⟨done, d⟩ := regs_spec b.regs (tied_new hi) entries_mask
  obtain ⟨t2, r1, r2, r3, r4⟩ := release_focus d.tied
  refine ⟨t2, r1, ?_, ?_⟩
  · refine r2.perm ?_
    unfold frame
    rw [fresh_erase hi]
    simp
  · intro p n
    have hsc := d.scope
    rw [List.nil_append] at hsc
    by_cases hc : InScope o1.scope p n
    · rw [r3 p n hc]
      rw [hsc] at hc
      obtain ⟨e, he, hc⟩ := hc
      obtain ⟨x, hx, rfl⟩ := List.mem_map.1 he
      exact (d.free x hx p n hc).symm
    · rw [r4 p n hc]
      refine d.miss p n fun x hx hx2 => hc ?_
      rw [hsc]
      exact ⟨_, List.mem_map_of_mem hx, hx2⟩

theorem step_construct_slash (w : World) (structured : Bool) (pre : Str) (fields : List (Str × Kind))
    (hp : pre ≠ [] ∧ pre.getLast? = some '/') :
    w.step (.construct structured pre fields) = some ({ w with next := w.next + 1 }, some .slash) := by
  simp only [World.step, construct]
  rw [if_pos hp]
  rfl

theorem inv_same {w w' : World} (hi : Inv w) (hu : w'.users = w.users) (ho : w'.objs = w.objs) (hn : w.next ≤ w'.next)
    (ht : Tied ⟨w'.table, w.users ++ scopesOf w.objs⟩) (hv : ∀ p n, w'.table.view p n = w.table.view p n) : Inv w' := by
  refine ⟨by rw [hu, ho]; exact ht, by rw [ho]; exact hi.keys, ?_, ?_, ?_⟩
  · intro e he
    rw [ho] at he
    exact lt_of_lt_of_le (hi.fresh e he) hn
  · intro p n h id hvw hown
    rw [hv] at hvw
    rw [ho]
    exact hi.refs p n h id hvw hown
  · intro id o h
    rw [ho] at h
    exact (hi.objs id o h).mono fun p n _ => .inl (hv p n)

/-- What a constructor call does. -/
structure Constructed (w : World) (structured : Bool) (pre : Str) (fields : List (Str × Kind)) (w' : World) (e : Option Fail) : Prop where
  inv : Inv w'
  next : w'.next = w.next + 1
  users : w'.users = w.users
  failed : e ≠ none → w'.objs = w.objs ∧ ∀ p n, w'.table.view p n = w.table.view p n
  made : e = none → ∃ o, w'.objs = assocSet w.objs w.next o ∧ o.pre = pre ∧ o.handlers = handlersOf fields ∧ o.up = true ∧
    (∀ x ∈ o.routes, x ∈ o.scope) ∧ o.scope = (entries structured pre fields w.next).map (fun x => (x.1, x.2.1)) ∧
    RegsSpec w.table [] (frame w w.next) (entries structured pre fields w.next) w'.table o.scope none (entries structured pre fields w.next)

theorem step_construct {w : World} (hi : Inv w) (structured : Bool) (pre : Str) (fields : List (Str × Kind)) :
    ∃ w' e, w.step (.construct structured pre fields) = some (w', e) ∧ Constructed w structured pre fields w' e := by
  by_cases hp : pre ≠ [] ∧ pre.getLast? = some '/'
  · refine ⟨_, _, step_construct_slash w structured pre fields hp, ?_⟩
    exact ⟨inv_same hi rfl rfl (Nat.le_succ _) hi.tied fun _ _ => rfl, rfl, rfl, fun _ => ⟨rfl, fun _ _ => rfl⟩, by simp⟩
  · obtain ⟨t1, o1, e, b, hc⟩ := construct_built structured pre fields w.next w.table hp
    cases e with
    | some f =>
      obtain ⟨t2, r1, r2, r3⟩ := construct_fail hi b
      refine ⟨{ w with table := t2, next := w.next + 1 }, some f, ?_, ?_⟩
      · simp only [World.step, hc, unwind, r1]
        rfl
      · exact ⟨inv_same hi rfl rfl (Nat.le_succ _) r2 r3, rfl, rfl, fun _ => ⟨rfl, r3⟩, by simp⟩
    | none =>
      obtain ⟨done, d⟩ := regs_spec b.regs (tied_new hi) entries_mask
      obtain rfl := d.all rfl
      refine ⟨{ w with table := t1, objs := assocSet w.objs w.next o1, next := w.next + 1 }, none, ?_, ?_⟩
      · simp only [World.step, hc, unwind]
        rfl
      · have hsc := d.scope
        rw [List.nil_append] at hsc
        have hold : ∀ p n, (w.table.view p n).isSome → t1.view p n = w.table.view p n := by
          intro p n hs
          refine d.miss p n fun x hx hc => ?_
          rw [d.free x hx p n hc] at hs
          cases hs
        refine ⟨⟨tied_unfocus hi d.tied, assocSet_nodup _ _ hi.keys, ?_, ?_, ?_⟩, rfl, rfl, by simp, fun _ => ⟨o1, rfl, b.samePre, b.handlers, b.up, b.owned rfl, hsc, d⟩⟩
        · intro e he
          have := (assocSet_perm hi.keys w.next o1).mem_iff.1 he
          rcases List.mem_cons.1 this with rfl | h
          · exact Nat.lt_succ_self _
          · rw [fresh_erase hi] at h
            exact Nat.lt_succ_of_lt (hi.fresh e h)
        · intro p n h id hvw hown
          rw [assocFind_set]
          by_cases hcov : ∃ x ∈ entries structured pre fields w.next, x.Covers p n
          · obtain ⟨x, hx, hc⟩ := hcov
            have hh := d.hit x hx p n hc
            rw [hvw] at hh
            obtain rfl := Option.some.inj hh
            have hid : id = w.next := by
              rcases List.mem_append.1 hx with hx | hx
              · obtain ⟨y, hy, rfl⟩ := List.mem_map.1 hx
                simp only [entryOf, Hd.owner, Option.some.injEq] at hown
                exact hown.symm
              · unfold topEntries at hx
                split at hx
                · simp only [List.mem_cons, List.not_mem_nil, or_false] at hx
                  rcases hx with rfl | rfl <;> simp only [Hd.owner, Option.some.injEq] at hown <;> exact hown.symm
                · cases hx
            refine ⟨o1, by rw [if_pos hid], ?_⟩
            rw [hsc]
            exact ⟨_, List.mem_map_of_mem hx, hc⟩
          · rw [d.miss p n fun x hx hc => hcov ⟨x, hx, hc⟩] at hvw
            obtain ⟨o, ho, hs⟩ := hi.refs p n h id hvw hown
            refine ⟨o, ?_, hs⟩
            rw [if_neg ?_]
            · exact ho
            · rintro rfl
              rw [fresh_find hi] at ho
              cases ho
        · intro id o ho
          rw [assocFind_set] at ho
          split at ho
          · rename_i hid
            obtain rfl := Option.some.inj ho
            subst hid
            refine ⟨?_, ?_, b.masks, ?_⟩
            · intro x hx
              rw [hsc] at hx
              obtain ⟨y, hy, rfl⟩ := List.mem_map.1 hx
              exact d.valid y hy
            · rw [b.handlers]
              exact fun x hx => handlers_mask hx
            · intro x hx
              rcases b.records x hx with h | h
              · exact .inl h
              · refine .inr fun p n hc => ?_
                obtain ⟨y, hy, rfl⟩ := List.mem_map.1 h
                have hh := d.hit y (List.mem_append_right _ hy) p n hc
                unfold topEntries at hy
                split at hy
                · simp only [List.mem_cons, List.not_mem_nil, or_false] at hy
                  rcases hy with rfl | rfl
                  · exact .inl hh
                  · exact .inr (.inl hh)
                · cases hy
          · exact (hi.objs id o ho).mono fun p n hs => .inl (hold p n (view_of_scope hi ho hs))

/-! ### Aliases -/

/-- The routes an alias tries. -/
def aliasEntries (id : Nat) (o : Obj) (target name : Str) : List Entry :=
  (o.handlers.filter fun e => e.1 = target).map fun e => entryOf id o.pre (name, e.2)

structure Aliased (w : World) (id : Nat) (o : Obj) (target name : Str) (w' : World) (e : Option Fail) : Prop where
  inv : Inv w'
  next : w'.next = w.next
  users : w'.users = w.users
  unknown : e = some .undefined ↔ aliasEntries id o target name = []
  same : e = some .undefined → w' = { w with objs := w'.objs } ∧ ∀ i, assocFind w'.objs i = assocFind w.objs i
  some_ : e ≠ some .undefined → ∃ o' done, w'.objs = assocSet w.objs id o' ∧ Recorded o o' e ∧ (∀ x ∈ o.scope, x ∈ o'.scope) ∧
    RegsSpec w.table o.scope (frame w id) (aliasEntries id o target name) w'.table o'.scope e done

theorem step_alias {w : World} (hi : Inv w) {id : Nat} {o : Obj} (ho : assocFind w.objs id = some o) (target name : Str) :
    ∃ w' e, w.step (.registerAlias id target name) = some (w', e) ∧ Aliased w id o target name w' e ∧
      (e ≠ some .undefined → Regs w.table o.scope (aliasEntries id o target name) w'.table ((assocFind w'.objs id).getD o).scope e) := by
  have hok := hi.objs id o ho
  by_cases hr : (o.handlers.filter fun e => e.1 = target) = []
  · refine ⟨{ w with objs := assocSet w.objs id o }, some .undefined, ?_, ?_, by simp⟩
    · simp only [World.step, ho, registerAlias]
      rw [if_pos hr]
    · have hf : ∀ i, assocFind (assocSet w.objs id o) i = assocFind w.objs i := by
        intro i
        rw [assocFind_set]
        split
        · rename_i h; rw [h, ho]
        · rfl
      refine ⟨⟨tied_unfocus hi (tied_focus hi ho), assocSet_nodup _ _ hi.keys, ?_, ?_, ?_⟩, rfl, rfl, by simp [aliasEntries, hr], fun _ => ⟨rfl, hf⟩, by simp⟩
      · intro e he
        have := (assocSet_perm hi.keys id o).mem_iff.1 he
        have := (assoc_perm hi.keys ho).mem_iff.2 this
        exact hi.fresh e this
      · intro p n h i hvw hown
        rw [hf]
        exact hi.refs p n h i hvw hown
      · intro i o2 h2
        rw [hf] at h2
        exact hi.objs i o2 h2
  · have hne : aliasEntries id o target name ≠ [] := by
      unfold aliasEntries
      simpa using hr
    cases hra : registerRoutes id w.table o ((o.handlers.filter fun e => e.1 = target).map fun e => (name, e.2)) with
    | mk t1 r1 =>
      obtain ⟨o1, e⟩ := r1
      have hms : ∀ x ∈ (o.handlers.filter fun e => e.1 = target).map fun e => (name, e.2), x.2.mask ≠ 0 ∧ x.2.mask < 65536 := by
        intro x hx
        obtain ⟨y, hy, rfl⟩ := List.mem_map.1 hx
        exact hok.handlers y (List.mem_filter.1 hy).1
      obtain ⟨hregs, hrec, hmono⟩ := registerRoutes_regs id _ hms _ _ _ _ _ hra
      rw [List.map_map] at hregs
      have hregs : Regs w.table o.scope (aliasEntries id o target name) t1 o1.scope e := hregs
      obtain ⟨done, d⟩ := regs_spec hregs (tied_focus hi ho) (by
        intro x hx
        obtain ⟨y, hy, rfl⟩ := List.mem_map.1 hx
        exact hok.handlers y (List.mem_filter.1 hy).1)
      have hund : e ≠ some .undefined := by
        intro he
        subst he
        have : ∀ {t s l t' s' e}, Regs t s l t' s' e → e ≠ some .undefined := by
          intro t s l t' s' e h
          induction h with
          | nil => simp
          | fail => simp
          | ok _ _ ih => exact ih
        exact this hregs rfl
      have hold : ∀ p n, (w.table.view p n).isSome → t1.view p n = w.table.view p n := by
        intro p n hs
        refine d.miss p n fun x hx hc => ?_
        rw [d.free x hx p n hc] at hs
        cases hs
      refine ⟨{ w with table := t1, objs := assocSet w.objs id o1 }, e, ?_, ?_, ?_⟩
      · simp only [World.step, ho, registerAlias]
        rw [if_neg hr, hra]
      · refine ⟨⟨tied_unfocus hi d.tied, assocSet_nodup _ _ hi.keys, ?_, ?_, ?_⟩, rfl, rfl, by simp [hund, hne], fun h => absurd h hund, fun _ => ⟨o1, done, rfl, hrec, hmono, d⟩⟩
        · intro e he
          have := (assocSet_perm hi.keys id o1).mem_iff.1 he
          rcases List.mem_cons.1 this with rfl | h
          · exact hi.fresh (id, o) (assocFind_mem ho)
          · exact hi.fresh e (List.mem_filter.1 h).1
        · intro p n h i hvw hown
          rw [assocFind_set]
          by_cases hcov : ∃ x ∈ done, x.Covers p n
          · obtain ⟨x, hx, hc⟩ := hcov
            have hh := d.hit x hx p n hc
            rw [hvw] at hh
            obtain rfl := Option.some.inj hh
            have hx2 := d.sub.subset hx
            obtain ⟨y, hy, rfl⟩ := List.mem_map.1 hx2
            simp only [entryOf, Hd.owner, Option.some.injEq] at hown
            refine ⟨o1, by rw [if_pos hown.symm], ?_⟩
            rw [d.scope]
            exact ⟨_, List.mem_append_right _ (List.mem_map_of_mem hx), hc⟩
          · rw [d.miss p n fun x hx hc => hcov ⟨x, hx, hc⟩] at hvw
            obtain ⟨o2, ho2, hs⟩ := hi.refs p n h i hvw hown
            split
            · rename_i hid
              subst hid
              rw [ho] at ho2
              obtain rfl := Option.some.inj ho2
              exact ⟨o1, rfl, inScope_mono hmono hs⟩
            · exact ⟨o2, ho2, hs⟩
        · intro i o2 ho2
          rw [assocFind_set] at ho2
          split at ho2
          · rename_i hid
            obtain rfl := Option.some.inj ho2
            subst hid
            refine ⟨?_, ?_, hrec.masks hok.routes, ?_⟩
            · intro x hx
              rw [d.scope] at hx
              rcases List.mem_append.1 hx with hx | hx
              · exact hok.valid x hx
              · obtain ⟨y, hy, rfl⟩ := List.mem_map.1 hx
                exact d.valid y hy
            · rw [hrec.handlers]; exact hok.handlers
            · intro x hx
              rcases hrec.records x hx with h | h
              · rcases hok.tops x h with h | h2
                · exact .inl (hrec.keeps x h)
                · refine .inr fun p n hc => ?_
                  rw [hold p n (view_of_scope hi ho ⟨x, h, hc⟩)]
                  exact h2 p n hc
              · exact .inl h
          · exact (hi.objs i o2 ho2).mono fun p n hs => .inl (hold p n (view_of_scope hi ho2 hs))
      · intro _
        rw [assocFind_set]
        simpa using hregs

/-! ### Switch, destroy -/

structure SwitchedTo (w : World) (id : Nat) (o : Obj) (w' : World) (e : Option Fail) : Prop where
  inv : Inv w'
  next : w'.next = w.next
  users : w'.users = w.users
  objs : w'.objs = assocSet w.objs id { o with up := false }
  loop : Switched w.table (w.users ++ scopesOf w.objs) o.routes w'.table e

theorem step_switch {w : World} (hi : Inv w) {id : Nat} {o : Obj} (ho : assocFind w.objs id = some o) :
    ∃ w' e, w.step (.switch id) = some (w', e) ∧ SwitchedTo w id o w' e := by
  have hok := hi.objs id o ho
  cases hs : switchLoop w.table o.routes with
  | mk t1 e =>
    have d := switchLoop_spec hi.tied o.routes hok.routes hs
    refine ⟨{ w with table := t1, objs := assocSet w.objs id { o with up := false } }, e, ?_, ?_⟩
    · simp only [World.step, ho, switch, hs]
    · have d2 : Tied ⟨t1, [o.scope, frame w id]⟩ := d.tied.perm (perm_split (assoc_perm hi.keys ho))
      have hv : ∀ p n, t1.view p n = w.table.view p n ∨ t1.view p n = some .unavailable := by
        intro p n
        rcases d.views p n with h | h
        · exact .inl h
        · exact .inr h.2
      refine ⟨⟨tied_unfocus hi (o := { o with up := false }) d2, assocSet_nodup _ _ hi.keys, ?_, ?_, ?_⟩, rfl, rfl, rfl, d⟩
      · intro e he
        have := (assocSet_perm hi.keys id _).mem_iff.1 he
        rcases List.mem_cons.1 this with rfl | h
        · exact hi.fresh (id, o) (assocFind_mem ho)
        · exact hi.fresh e (List.mem_filter.1 h).1
      · intro p n h i hvw hown
        rcases hv p n with h1 | h1
        · rw [h1] at hvw
          obtain ⟨o2, ho2, hsc⟩ := hi.refs p n h i hvw hown
          rw [assocFind_set]
          split
          · rename_i hid
            subst hid
            rw [ho] at ho2
            obtain rfl := Option.some.inj ho2
            exact ⟨_, rfl, hsc⟩
          · exact ⟨o2, ho2, hsc⟩
        · rw [h1] at hvw
          obtain rfl := Option.some.inj hvw
          cases hown
      · intro i o2 ho2
        rw [assocFind_set] at ho2
        split at ho2
        · rename_i hid
          obtain rfl := Option.some.inj ho2
          subst hid
          have := hok.mono fun p n _ => hv p n
          exact ⟨this.valid, this.handlers, this.routes, this.tops⟩
        · exact (hi.objs i o2 ho2).mono fun p n _ => hv p n

structure Destroyed (w : World) (id : Nat) (o : Obj) (w' : World) : Prop where
  inv : Inv w'
  next : w'.next = w.next
  users : w'.users = w.users
  objs : w'.objs = assocErase w.objs id
  gone : ∀ p n, InScope o.scope p n → w'.table.view p n = none
  others : ∀ p n, ¬ InScope o.scope p n → w'.table.view p n = w.table.view p n

theorem step_destroy {w : World} (hi : Inv w) {id : Nat} {o : Obj} (ho : assocFind w.objs id = some o) :
    ∃ w', w.step (.destroy id) = some (w', none) ∧ Destroyed w id o w' := by
  have hf := tied_focus hi ho
  obtain ⟨t1, r1, r2, r3, r4⟩ := release_focus hf
  refine ⟨{ w with table := t1, objs := assocErase w.objs id }, ?_, ?_⟩
  · simp only [World.step, ho, r1, Option.map_some]
  · refine ⟨⟨r2.perm (by unfold frame; simp), assocErase_nodup _ hi.keys, ?_, ?_, ?_⟩, rfl, rfl, rfl, r3, r4⟩
    · intro e he
      exact hi.fresh e (List.mem_filter.1 he).1
    · intro p n h i hvw hown
      by_cases hc : InScope o.scope p n
      · rw [r3 p n hc] at hvw; cases hvw
      · rw [r4 p n hc] at hvw
        obtain ⟨o2, ho2, hsc⟩ := hi.refs p n h i hvw hown
        rw [assocFind_erase]
        split
        · rename_i hid
          subst hid
          rw [ho] at ho2
          obtain rfl := Option.some.inj ho2
          exact absurd hsc hc
        · exact ⟨o2, ho2, hsc⟩
    · intro i o2 ho2
      rw [assocFind_erase] at ho2
      split at ho2
      · cases ho2
      · rename_i hne
        refine (hi.objs i o2 ho2).mono fun p n hs => .inl (r4 p n fun hc => ?_)
        exact focus_apart hf hc (inScope_frame hne ho2 hs)

/-! ### The rest of the program -/

theorem step_userRegister {w : World} (hi : Inv w) (path : Str) (k mask : Nat) (hm : mask < 65536) :
    ∃ w' e, w.step (.userRegister path k mask) = some (w', e) ∧ Inv w' ∧ w'.next = w.next ∧ w'.objs = w.objs ∧
      ∀ p n, (w.table.view p n).isSome → w'.table.view p n = w.table.view p n := by
  simp only [World.step]
  cases hr : register w.table path (.user k) mask .throwOnAttempt with
  | error e => exact ⟨w, _, rfl, hi, rfl, rfl, fun _ _ _ => rfl⟩
  | ok q =>
    obtain ⟨t1, s1⟩ := q
    have hv := register_view _ _ _ _ _ _ _ hr
    have hfree : ∀ p n, Routes.Covers path mask p n → w.table.view p n = none := by
      rintro p n ⟨rfl, h1, h2⟩
      have h0 : mask ≠ 0 := by
        rintro rfl
        simp at h2
      have := ((register_ok w.table p (.user k) h0 .throwOnAttempt).1 ⟨_, hr⟩).2 n ⟨rfl, h1, h2⟩
      simpa using this
    have hold : ∀ p n, (w.table.view p n).isSome → t1.view p n = w.table.view p n := by
      intro p n hs
      rw [hv, if_neg]
      intro hc
      rw [hfree p n hc] at hs
      cases hs
    refine ⟨_, _, rfl, ⟨?_, hi.keys, hi.fresh, ?_, ?_⟩, rfl, rfl, hold⟩
    · obtain ⟨w', hw, htw⟩ := tied_step hi.tied (.register path (.user k) mask .throwOnAttempt) hm
      simp only [Routes.World.step, hr] at hw
      injection hw with hw
      subst hw
      refine htw.perm (List.Perm.flatten ?_)
      rw [List.append_assoc, List.append_assoc]
      exact List.perm_append_comm.append_left _
    · intro p n h id hvw hown
      dsimp only at hvw
      rw [hv] at hvw
      split at hvw
      · obtain rfl := Option.some.inj hvw
        cases hown
      · exact hi.refs p n h id hvw hown
    · intro id o ho
      exact (hi.objs id o ho).mono fun p n hs => .inl (hold p n (view_of_scope hi ho hs))

theorem step_userRelease {w : World} (hi : Inv w) (i : Nat) :
    ∃ w', w.step (.userRelease i) = some (w', none) ∧ Inv w' ∧ w'.next = w.next ∧ w'.objs = w.objs ∧
      ∀ p n id o, assocFind w.objs id = some o → InScope o.scope p n → w'.table.view p n = w.table.view p n := by
  simp only [World.step]
  cases hu : w.users[i]? with
  | none => exact ⟨w, rfl, hi, rfl, rfl, fun _ _ _ _ _ _ => rfl⟩
  | some s =>
    have hf : Tied ⟨w.table, [s, (w.users.eraseIdx i ++ scopesOf w.objs).flatten]⟩ := by
      refine hi.tied.perm ?_
      rw [List.flatten_append]
      have := (eraseIdx_flatten_perm hu).append_right (scopesOf w.objs).flatten
      simpa using this
    obtain ⟨t1, r1, r2, r3, r4⟩ := release_focus hf
    have hother : ∀ p n id o, assocFind w.objs id = some o → InScope o.scope p n → ¬ InScope s p n := by
      intro p n id o ho hs hc
      refine focus_apart hf hc ?_
      obtain ⟨e, he, hcc⟩ := hs
      refine ⟨e, List.mem_flatten.2 ⟨o.scope, List.mem_append_right _ ?_, he⟩, hcc⟩
      exact List.mem_map.2 ⟨(id, o), assocFind_mem ho, rfl⟩
    refine ⟨{ w with table := t1, users := w.users.eraseIdx i }, by simp [r1], ⟨r2.perm (by simp), hi.keys, hi.fresh, ?_, ?_⟩, rfl, rfl, ?_⟩
    · intro p n h id hvw hown
      by_cases hc : InScope s p n
      · rw [r3 p n hc] at hvw; cases hvw
      · rw [r4 p n hc] at hvw
        exact hi.refs p n h id hvw hown
    · intro id o ho
      exact (hi.objs id o ho).mono fun p n hs => .inl (r4 p n (hother p n id o ho hs))
    · intro p n id o ho hs
      exact r4 p n (hother p n id o ho hs)

end Current.RestLife
