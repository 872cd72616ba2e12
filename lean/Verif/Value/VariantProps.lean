import Verif.Value.Variant
set_option linter.unusedSimpArgs false
/-! # `Variant<...>`: what holds of every program -/
namespace Current.Variant

variable {V : Type}

/-! ## The pieces -/

theorem dispatch_eq (T : Types) (l : List Ty) (t : Ty) : dispatch T l t = if t ∈ l then .ok t else .error .unlisted := by
  unfold dispatch
  cases h : l.find? (fun u => u == t) with
  | none =>
    have : t ∉ l := fun hc => by
      have := List.find?_eq_none.1 h t hc
      simp at this
    rw [if_neg this]
  | some u =>
    have h1 := List.mem_of_find?_eq_some h
    have h2 := List.find?_some h
    simp only [beq_iff_eq] at h2
    subst h2
    rw [if_pos h1]
    simp [T.casts_self]

theorem free_vars (s : St V) (x : Option Addr) : (s.free x).vars = s.vars := by cases x <;> rfl

theorem free_heap (s : St V) (x : Option Addr) (p : Addr) : (s.free x).heap p = if x = some p then none else s.heap p := by
  cases x with
  | none => simp [St.free]
  | some a =>
    simp only [St.free, St.setHeap, Option.some.injEq]
    by_cases h : p = a
    · simp [h]
    · rw [if_neg h, if_neg (fun h' => h h'.symm)]

structure Inv (s : St V) : Prop where
  /-- what is owned is there -/
  owned : ∀ d x a, s.vars d = some x → x.own = some a → s.heap a ≠ none
  /-- one owner -/
  one : ∀ d e x y a, s.vars d = some x → s.vars e = some y → x.own = some a → y.own = some a → d = e
  /-- no leak -/
  leak : ∀ a, s.heap a ≠ none → ∃ d x, s.vars d = some x ∧ x.own = some a

theorem inv_init : Inv (St.init V) := by constructor <;> simp [St.init]

theorem inv_clear {s : St V} (hi : Inv s) {d : Nat} {p : Option Addr} {y : Option Var}
    (hd : ∀ x, s.vars d = some x → p = x.own) (hn : s.vars d = none → p = none) (hy : ∀ z, y = some z → z.own = none) :
    Inv ((s.free p).setVar d y) := by
  obtain ⟨h1, h2, h3⟩ := hi
  cases hx : s.vars d with
  | none => rw [hn hx]; constructor <;> simp only [St.free, St.setVar] <;> grind
  | some x =>
    rw [hd x hx]
    cases hoo : x.own with
    | none => constructor <;> simp only [St.free, St.setVar] <;> grind
    | some a => constructor <;> simp only [St.free, St.setVar, St.setHeap] <;> grind

theorem inv_put {s : St V} (hi : Inv s) {d : Nat} {p : Option Addr} {a : Addr} {v : Obj V} {k : Kind}
    (hd : ∀ x, s.vars d = some x → p = x.own) (hn : s.vars d = none → p = none) (ha : s.heap a = none) :
    Inv (((s.setHeap a (some v)).free p).setVar d (some ⟨k, some a⟩)) := by
  obtain ⟨h1, h2, h3⟩ := hi
  constructor
  case leak =>
    intro a' h'
    simp only [St.setVar, free_heap, St.setHeap, free_vars] at h' ⊢
    by_cases haa : a' = a
    · exact ⟨d, ⟨k, some a⟩, by simp, by simp [haa]⟩
    · rw [if_neg haa] at h'
      split at h'
      · exact absurd rfl h'
      · rename_i hp
        obtain ⟨e, y, hy1, hy2⟩ := h3 a' h'
        by_cases hed : e = d
        · subst hed
          rw [hd y hy1, hy2] at hp
          exact absurd rfl hp
        · exact ⟨e, y, by simp [hed, hy1], hy2⟩
  all_goals simp only [St.setVar, free_heap, St.setHeap, free_vars]; clear h3; cases hx : s.vars d <;> grind

theorem inv_take {s : St V} (hi : Inv s) {d e : Nat} {x r : Var} {k k' : Kind} (hde : d ≠ e) (hd : s.vars d = some x)
    (he : s.vars e = some r) :
    Inv (((s.free x.own).setVar e (some ⟨k', none⟩)).setVar d (some ⟨k, r.own⟩)) := by
  obtain ⟨h1, h2, h3⟩ := hi
  constructor
  case leak =>
    intro a' h'
    simp only [St.setVar, free_heap, free_vars] at h' ⊢
    split at h'
    · exact absurd rfl h'
    · rename_i hp
      obtain ⟨f, y, hy1, hy2⟩ := h3 a' h'
      by_cases hfe : f = e
      · subst hfe
        rw [he] at hy1
        injection hy1 with hy1
        subst hy1
        exact ⟨d, ⟨k, r.own⟩, by simp, hy2⟩
      · by_cases hfd : f = d
        · subst hfd
          rw [hd] at hy1
          injection hy1 with hy1
          subst hy1
          exact absurd hy2 hp
        · exact ⟨f, y, by simp [hfd, hfe, hy1], hy2⟩
  all_goals simp only [St.setVar, free_heap, free_vars]; clear h3; grind

theorem inv_new {s : St V} (hi : Inv s) {d : Nat} {k : Kind} (hd : s.vars d = none) : Inv (s.setVar d (some ⟨k, none⟩)) :=
  inv_clear hi (d := d) (p := none) (by grind) (by grind) (by grind)

theorem inv_takeNew {s : St V} (hi : Inv s) {d e : Nat} {r : Var} {k k' : Kind} (hd : s.vars d = none) (he : s.vars e = some r) :
    Inv ((s.setVar e (some ⟨k', none⟩)).setVar d (some ⟨k, r.own⟩)) := by
  have hne : d ≠ e := fun h => by subst h; rw [hd] at he; cases he
  have hne' : ¬e = d := fun h => hne h.symm
  have := inv_take (inv_new hi (k := k) hd) (d := d) (e := e) (x := ⟨k, none⟩) (r := r) (k := k) (k' := k') hne (by simp [St.setVar])
    (by simp [St.setVar, hne', he])
  have heq : (((s.setVar d (some ⟨k, none⟩)).free none).setVar e (some ⟨k', none⟩)).setVar d (some ⟨k, r.own⟩) =
      (s.setVar e (some ⟨k', none⟩)).setVar d (some ⟨k, r.own⟩) := by
    simp only [St.free, St.setVar]
    congr 1
    funext i
    by_cases h1 : i = d <;> simp [h1]
  rw [← heq]
  exact this

theorem inv_heap {s : St V} (hi : Inv s) {a : Addr} {v : Obj V} (ha : s.heap a ≠ none) : Inv (s.setHeap a (some v)) := by
  obtain ⟨h1, h2, h3⟩ := hi
  constructor <;> simp only [St.setHeap] <;> grind

theorem obj_eq {s : St V} (hi : Inv s) {d : Nat} {x : Var} (hd : s.vars d = some x) :
    (x.own = none ∧ s.obj x = none) ∨ ∃ a o, x.own = some a ∧ s.heap a = some o ∧ s.obj x = some o := by
  cases ho : x.own with
  | none => exact .inl ⟨rfl, by simp [St.obj, ho]⟩
  | some a =>
    obtain ⟨o, h⟩ := Option.ne_none_iff_exists'.1 (hi.owned d x a hd ho)
    exact .inr ⟨a, o, rfl, h, by simp [St.obj, ho, h]⟩

/-- what `CopyFrom` does -/
inductive CopyRel (T : Types) (s : St V) (k : Kind) (old : Option Addr) (r : Var) (a : Addr) : Except Err (St V × Option Addr) → Prop
  | empty : r.own = none → CopyRel T s k old r a (.ok (s.free old, none))
  | unlisted {b o} : r.own = some b → s.heap b = some o → o.ty ∉ T.list r.kind → CopyRel T s k old r a (.error .unlisted)
  | incompatible {b o} : r.own = some b → s.heap b = some o → o.ty ∈ T.list r.kind → o.ty ∉ T.list k →
      CopyRel T s k old r a (.error .incompatible)
  | clone {b o} : r.own = some b → s.heap b = some o → o.ty ∈ T.list r.kind → o.ty ∈ T.list k → s.heap a = none →
      CopyRel T s k old r a (.ok ((s.setHeap a (some o)).free old, some a))

theorem copyFrom_rel {T : Types} {s : St V} (hi : Inv s) {k : Kind} {old : Option Addr} {r : Var} {a : Addr} {e : Nat}
    (he : s.vars e = some r) {x : Except Err (St V × Option Addr)} (h : copyFrom T s k old r a = some x) :
    CopyRel T s k old r a x := by
  unfold copyFrom at h
  rcases obj_eq hi he with ⟨h1, h2⟩ | ⟨b, o, h1, h2, h3⟩
  · rw [h1] at h
    injection h with h
    subst h
    exact .empty h1
  · rw [h1, h3] at h
    simp only [call, dispatch_eq] at h
    by_cases hl : o.ty ∈ T.list r.kind
    · rw [if_pos hl] at h
      simp only at h
      by_cases hk : o.ty ∈ T.list k
      · rw [if_pos (by simpa using hk)] at h
        split at h
        · cases h
        · rename_i ha
          injection h with h
          subst h
          exact .clone h1 h2 hl hk (by simpa using ha)
      · rw [if_neg (by simpa using hk)] at h
        injection h with h
        subst h
        exact .incompatible h1 h2 hl hk
    · rw [if_neg hl] at h
      injection h with h
      subst h
      exact .unlisted h1 h2 hl

/-- what `MoveFrom` does -/
inductive MoveRel (T : Types) (s : St V) (k : Kind) (r : Var) : Except Err (Option Addr × Option Addr) → Prop
  | unlisted {b o} : r.own = some b → s.heap b = some o → o.ty ∉ T.list r.kind → MoveRel T s k r (.error .unlisted)
  | incompatible {b o} : r.own = some b → s.heap b = some o → o.ty ∈ T.list r.kind → o.ty ∉ T.list k →
      MoveRel T s k r (.error .incompatible)
  | moved : (∀ b o, r.own = some b → s.heap b = some o → o.ty ∈ T.list r.kind ∧ o.ty ∈ T.list k) →
      MoveRel T s k r (.ok (r.own, none))

theorem moveFrom_rel {T : Types} {s : St V} (hi : Inv s) {k : Kind} {r : Var} {e : Nat} (he : s.vars e = some r) :
    MoveRel T s k r (moveFrom T s k r) := by
  unfold moveFrom
  rcases obj_eq hi he with ⟨h1, h2⟩ | ⟨b, o, h1, h2, h3⟩
  · rw [h1]
    have := MoveRel.moved (T := T) (s := s) (k := k) (r := r) (by rw [h1]; intro b o h; cases h)
    rw [h1] at this
    exact this
  · rw [h1, h3]
    simp only [call, dispatch_eq]
    by_cases hl : o.ty ∈ T.list r.kind
    · rw [if_pos hl]
      simp only
      by_cases hk : o.ty ∈ T.list k
      · rw [if_pos (by simpa using hk)]
        have := MoveRel.moved (T := T) (s := s) (k := k) (r := r) (by
          rw [h1]; intro b' o' hb ho
          injection hb with hb; subst hb
          rw [h2] at ho; injection ho with ho; subst ho
          exact ⟨hl, hk⟩)
        rw [h1] at this
        exact this
      · rw [if_neg (by simpa using hk)]
        exact .incompatible h1 h2 hl hk
    · rw [if_neg hl]
      exact .unlisted h1 h2 hl

/-! ## What the user sees of it -/

theorem seen_at (s : St V) (d : Nat) : s.seen d =
    match s.vars d with
    | none => none
    | some x =>
      match x.own with
      | none => some ⟨x.kind, none⟩
      | some a => some ⟨x.kind, s.heap a⟩ := by
  unfold St.seen St.obj
  cases s.vars d with
  | none => rfl
  | some x => cases hx : x.own <;> simp [hx]

theorem seen_of {s : St V} {d : Nat} {x : Var} (h : s.vars d = some x) : s.seen d = some ⟨x.kind, s.obj x⟩ := by
  simp [St.seen, h]

theorem seen_none {s : St V} {d : Nat} (h : s.vars d = none) : s.seen d = none := by simp [St.seen, h]

theorem seen_clear {s : St V} (hi : Inv s) {d : Nat} {p : Option Addr} {y : Option Var}
    (hd : ∀ x, s.vars d = some x → p = x.own) (hn : s.vars d = none → p = none) (hy : ∀ z, y = some z → z.own = none) :
    ((s.free p).setVar d y).seen = s.seen.set d (y.map fun z => ⟨z.kind, none⟩) := by
  obtain ⟨h1, h2, h3⟩ := hi
  funext i
  simp only [Spec.set, seen_at, St.setVar, free_heap, free_vars]
  clear h3
  by_cases hid : i = d
  · simp only [hid, if_true]
    cases y with
    | none => rfl
    | some z => simp [hy z rfl]
  · simp only [if_neg hid]
    cases hx : s.vars d <;> (repeat' split) <;> grind -ext -funext

theorem seen_put {s : St V} (hi : Inv s) {d : Nat} {p : Option Addr} {a : Addr} {v : Obj V} {k : Kind}
    (hd : ∀ x, s.vars d = some x → p = x.own) (hn : s.vars d = none → p = none) (ha : s.heap a = none) :
    (((s.setHeap a (some v)).free p).setVar d (some ⟨k, some a⟩)).seen = s.seen.set d (some ⟨k, some v⟩) := by
  obtain ⟨h1, h2, h3⟩ := hi
  funext i
  simp only [Spec.set, seen_at, St.setVar, free_heap, free_vars, St.setHeap]
  clear h3
  cases hx : s.vars d <;> (repeat' split) <;> grind -ext -funext

theorem seen_take {s : St V} (hi : Inv s) {d e : Nat} {x r : Var} {k k' : Kind} (hde : d ≠ e) (hd : s.vars d = some x)
    (he : s.vars e = some r) :
    (((s.free x.own).setVar e (some ⟨k', none⟩)).setVar d (some ⟨k, r.own⟩)).seen =
      (s.seen.set e (some ⟨k', none⟩)).set d (some ⟨k, s.obj r⟩) := by
  have hr : s.obj r = match r.own with | none => none | some a => s.heap a := by
    unfold St.obj; cases r.own <;> rfl
  obtain ⟨h1, h2, h3⟩ := hi
  funext i
  simp only [Spec.set, seen_at, St.setVar, free_heap, free_vars, hr]
  clear h3
  (repeat' split) <;> grind -ext -funext

theorem seen_takeNew {s : St V} (hi : Inv s) {d e : Nat} {r : Var} {k k' : Kind} :
    ((s.setVar e (some ⟨k', none⟩)).setVar d (some ⟨k, r.own⟩)).seen =
      (s.seen.set e (some ⟨k', none⟩)).set d (some ⟨k, s.obj r⟩) := by
  have hr : s.obj r = match r.own with | none => none | some a => s.heap a := by
    unfold St.obj; cases r.own <;> rfl
  obtain ⟨h1, h2, h3⟩ := hi
  funext i
  simp only [Spec.set, seen_at, St.setVar, hr]
  clear h3
  (repeat' split) <;> grind -ext -funext

theorem seen_heap {s : St V} (hi : Inv s) {d : Nat} {x : Var} {a : Addr} {v : Obj V} (hd : s.vars d = some x) (hx : x.own = some a) :
    (s.setHeap a (some v)).seen = s.seen.set d (some ⟨x.kind, some v⟩) := by
  obtain ⟨h1, h2, h3⟩ := hi
  funext i
  simp only [Spec.set, seen_at, St.setHeap]
  clear h3
  (repeat' split) <;> grind -ext -funext

theorem step_sound {T : Types} {s s' : St V} {o : Op V} {e : Option Err} (hi : Inv s) (h : step T s o = some (s', e)) :
    Inv s' ∧ (s'.seen, e) = spec T s.seen o := by
  cases o with
  | new d k =>
    simp only [step] at h
    split at h
    · cases h
    · rename_i hd
      injection h with h
      simp only [Prod.mk.injEq] at h; obtain ⟨rfl, rfl⟩ := h
      have hn : s.vars d = none := by simpa using hd
      exact ⟨inv_new hi hn, by
        have := seen_clear hi (d := d) (p := none) (y := some ⟨k, none⟩) (by grind) (by grind) (by grind)
        simpa [spec, St.free] using this⟩
  | newValue d k t v a =>
    simp only [step] at h
    split at h
    · cases h
    · rename_i hd
      injection h with h
      simp only [Prod.mk.injEq] at h; obtain ⟨rfl, rfl⟩ := h
      have hn : s.vars d = none ∧ s.heap a = none := by simp at hd; exact ⟨hd.1, hd.2.2⟩
      exact ⟨inv_put hi (d := d) (p := none) (by grind) (by grind) hn.2, by
        have := seen_put hi (d := d) (p := none) (a := a) (v := ⟨t, v⟩) (k := k) (by grind) (by grind) hn.2
        simpa [spec, St.free] using this⟩
  | newCopy d k src a =>
    simp only [step] at h
    split at h
    · cases h
    · rename_i hd
      have hn : s.vars d = none := by simpa using hd
      split at h
      · cases h
      · rename_i r hr
        split at h
        · cases h
        · rename_i er hc
          injection h with h
          simp only [Prod.mk.injEq] at h; obtain ⟨rfl, rfl⟩ := h
          refine ⟨hi, ?_⟩
          cases copyFrom_rel hi hr hc with
          | unlisted h1 h2 h3 => simp [spec, seen_of hr, refused, St.obj, h1, h2, h3]
          | incompatible h1 h2 h3 h4 => simp [spec, seen_of hr, refused, St.obj, h1, h2, h3, h4]
        · rename_i s1 p hc
          injection h with h
          simp only [Prod.mk.injEq] at h; obtain ⟨rfl, rfl⟩ := h
          cases copyFrom_rel hi hr hc with
          | empty h1 =>
            refine ⟨inv_clear hi (by grind) (by grind) (by grind), ?_⟩
            rw [seen_clear hi (by grind) (by grind) (by grind)]
            simp [spec, seen_of hr, refused, St.obj, h1]
          | clone h1 h2 h3 h4 h5 =>
            refine ⟨inv_put hi (by grind) (by grind) h5, ?_⟩
            rw [seen_put hi (by grind) (by grind) h5]
            simp [spec, seen_of hr, refused, St.obj, h1, h2, h3, h4]
  | newMove d src =>
    simp only [step] at h
    split at h
    · cases h
    · rename_i hd
      have hn : s.vars d = none := by simpa using hd
      split at h
      · cases h
      · rename_i r hr
        injection h with h
        simp only [Prod.mk.injEq] at h; obtain ⟨rfl, rfl⟩ := h
        refine ⟨inv_takeNew hi (k := r.kind) (k' := r.kind) hn hr, ?_⟩
        have := seen_takeNew hi (d := d) (e := src) (r := r) (k := r.kind) (k' := r.kind)
        simp only [spec, seen_of hr]
        rw [← this]
  | newMoveOther d k src =>
    simp only [step] at h
    split at h
    · cases h
    · rename_i hd
      have hn : s.vars d = none := by simpa using hd
      split at h
      · cases h
      · rename_i r hr
        split at h
        · cases h
        · have hm := moveFrom_rel (T := T) (k := k) hi hr
          split at h
          · rename_i er hc
            injection h with h
            simp only [Prod.mk.injEq] at h; obtain ⟨rfl, rfl⟩ := h
            refine ⟨hi, ?_⟩
            rw [hc] at hm
            cases hm with
            | unlisted h1 h2 h3 => simp [spec, seen_of hr, refused, St.obj, h1, h2, h3]
            | incompatible h1 h2 h3 h4 => simp [spec, seen_of hr, refused, St.obj, h1, h2, h3, h4]
          · rename_i p q hc
            injection h with h
            simp only [Prod.mk.injEq] at h; obtain ⟨rfl, rfl⟩ := h
            rw [hc] at hm
            cases hm with
            | moved h1 =>
              refine ⟨inv_takeNew hi (k := k) (k' := r.kind) hn hr, ?_⟩
              have := seen_takeNew hi (d := d) (e := src) (r := r) (k := k) (k' := r.kind)
              have href : refused T k ⟨r.kind, s.obj r⟩ = none := by
                rcases obj_eq hi hr with ⟨h2, h3⟩ | ⟨b, o, h2, h3, h4⟩
                · simp [refused, h3]
                · have := h1 b o h2 h3
                  simp [refused, h4, this]
              simp only [spec, seen_of hr, href]
              rw [← this]
  | null d =>
    simp only [step] at h
    split at h
    · cases h
    · rename_i x hx
      injection h with h
      simp only [Prod.mk.injEq] at h; obtain ⟨rfl, rfl⟩ := h
      refine ⟨inv_clear hi (by grind) (by grind) (by grind), ?_⟩
      rw [seen_clear hi (by grind) (by grind) (by grind)]
      simp [spec, seen_of hx]
  | copy d src a =>
    simp only [step] at h
    split at h
    · rename_i x r hx hr
      split at h
      · rename_i hk
        split at h
        · cases h
        · rename_i er hc
          injection h with h
          simp only [Prod.mk.injEq] at h; obtain ⟨rfl, rfl⟩ := h
          refine ⟨hi, ?_⟩
          cases copyFrom_rel hi hr hc with
          | unlisted h1 h2 h3 => simp [spec, seen_of hr, seen_of hx, refused, St.obj, h1, h2, h3]
          | incompatible h1 h2 h3 h4 => simp [spec, seen_of hr, seen_of hx, refused, St.obj, h1, h2, h3, h4]
        · rename_i s1 p hc
          injection h with h
          simp only [Prod.mk.injEq] at h; obtain ⟨rfl, rfl⟩ := h
          cases copyFrom_rel hi hr hc with
          | empty h1 =>
            refine ⟨inv_clear hi (by grind) (by grind) (by grind), ?_⟩
            rw [seen_clear hi (by grind) (by grind) (by grind)]
            simp [spec, seen_of hr, seen_of hx, refused, St.obj, h1]
          | clone h1 h2 h3 h4 h5 =>
            refine ⟨inv_put hi (by grind) (by grind) h5, ?_⟩
            rw [seen_put hi (by grind) (by grind) h5]
            simp [spec, seen_of hr, seen_of hx, refused, St.obj, h1, h2, h3, h4]
      · split at h
        · cases h
        · split at h
          · cases h
          · rename_i er hc
            injection h with h
            simp only [Prod.mk.injEq] at h; obtain ⟨rfl, rfl⟩ := h
            refine ⟨hi, ?_⟩
            cases copyFrom_rel hi hr hc with
            | unlisted h1 h2 h3 => simp [spec, seen_of hr, seen_of hx, refused, St.obj, h1, h2, h3]
            | incompatible h1 h2 h3 h4 => simp [spec, seen_of hr, seen_of hx, refused, St.obj, h1, h2, h3, h4]
          · rename_i s1 p hc
            injection h with h
            simp only [Prod.mk.injEq] at h; obtain ⟨rfl, rfl⟩ := h
            cases copyFrom_rel hi hr hc with
            | empty h1 =>
              have : s.free none = s := rfl
              rw [this]
              refine ⟨inv_clear hi (by grind) (by grind) (by grind), ?_⟩
              rw [seen_clear hi (by grind) (by grind) (by grind)]
              simp [spec, seen_of hr, seen_of hx, refused, St.obj, h1]
            | clone h1 h2 h3 h4 h5 =>
              rename_i b ob
              have : ((s.setHeap a (some ob)).free none) = s.setHeap a (some ob) := rfl
              rw [this]
              refine ⟨inv_put hi (by grind) (by grind) h5, ?_⟩
              rw [seen_put hi (by grind) (by grind) h5]
              simp [spec, seen_of hr, seen_of hx, refused, St.obj, h1, h2, h3, h4]
    · cases h
  | move d src =>
    simp only [step] at h
    split at h
    · rename_i x r hx hr
      split at h
      · rename_i hk
        split at h
        · rename_i hd
          injection h with h
          simp only [Prod.mk.injEq] at h; obtain ⟨rfl, rfl⟩ := h
          exact ⟨hi, by simp [spec, seen_of hx, seen_of hr, hd]⟩
        · rename_i hd
          injection h with h
          simp only [Prod.mk.injEq] at h; obtain ⟨rfl, rfl⟩ := h
          refine ⟨inv_take hi hd hx hr, ?_⟩
          rw [seen_take hi hd hx hr]
          simp [spec, seen_of hx, seen_of hr, hd, hk]
      · rename_i hk
        have hd : d ≠ src := fun hc => by subst hc; rw [hx] at hr; injection hr with hr; subst hr; exact hk rfl
        have hk' : ¬x.kind = r.kind := fun hc => hk hc.symm
        split at h
        · cases h
        · have hm := moveFrom_rel (T := T) (k := x.kind) hi hr
          split at h
          · rename_i er hc
            injection h with h
            simp only [Prod.mk.injEq] at h; obtain ⟨rfl, rfl⟩ := h
            refine ⟨hi, ?_⟩
            rw [hc] at hm
            cases hm with
            | unlisted h1 h2 h3 => simp [spec, seen_of hr, seen_of hx, hd, hk', refused, St.obj, h1, h2, h3]
            | incompatible h1 h2 h3 h4 => simp [spec, seen_of hr, seen_of hx, hd, hk', refused, St.obj, h1, h2, h3, h4]
          · rename_i p q hc
            injection h with h
            simp only [Prod.mk.injEq] at h; obtain ⟨rfl, rfl⟩ := h
            rw [hc] at hm
            cases hm with
            | moved h1 =>
              refine ⟨inv_take hi hd hx hr, ?_⟩
              rw [seen_take hi hd hx hr]
              have href : refused T x.kind ⟨r.kind, s.obj r⟩ = none := by
                rcases obj_eq hi hr with ⟨h2, h3⟩ | ⟨b, o, h2, h3, h4⟩
                · simp [refused, h3]
                · have := h1 b o h2 h3
                  simp [refused, h4, this]
              simp [spec, seen_of hx, seen_of hr, hd, hk', href]
    · cases h
  | value d t v a =>
    simp only [step] at h
    split at h
    · cases h
    · rename_i x hx
      split at h
      · cases h
      · rename_i hc
        have ha : s.heap a = none := by simp at hc; exact hc.2
        injection h with h
        simp only [Prod.mk.injEq] at h; obtain ⟨rfl, rfl⟩ := h
        refine ⟨inv_put hi (by grind) (by grind) ha, ?_⟩
        rw [seen_put hi (by grind) (by grind) ha]
        simp [spec, seen_of hx]
  | construct d t v a =>
    simp only [step] at h
    split at h
    · cases h
    · rename_i x hx
      split at h
      · cases h
      · rename_i hc
        have ha : s.heap a = none := by simp at hc; exact hc.2
        injection h with h
        simp only [Prod.mk.injEq] at h; obtain ⟨rfl, rfl⟩ := h
        refine ⟨inv_put hi (by grind) (by grind) ha, ?_⟩
        rw [seen_put hi (by grind) (by grind) ha]
        simp [spec, seen_of hx]
  | unchecked d t v a =>
    simp only [step] at h
    split at h
    · cases h
    · rename_i x hx
      split at h
      · cases h
      · rename_i hc
        have ha : s.heap a = none := by simpa using hc
        injection h with h
        simp only [Prod.mk.injEq] at h; obtain ⟨rfl, rfl⟩ := h
        refine ⟨inv_put hi (by grind) (by grind) ha, ?_⟩
        rw [seen_put hi (by grind) (by grind) ha]
        simp [spec, seen_of hx]
  | visit d f =>
    simp only [step] at h
    split at h
    · cases h
    · rename_i x hx
      rcases obj_eq hi hx with ⟨h1, h2⟩ | ⟨b, o, h1, h2, h3⟩
      · simp only [h2, call] at h
        injection h with h
        simp only [Prod.mk.injEq] at h; obtain ⟨rfl, rfl⟩ := h
        exact ⟨hi, by simp [spec, seen_of hx, h2]⟩
      · simp only [h3, h1, call, dispatch_eq] at h
        by_cases hl : o.ty ∈ T.list x.kind
        · simp only [if_pos hl] at h
          injection h with h
          simp only [Prod.mk.injEq] at h; obtain ⟨rfl, rfl⟩ := h
          refine ⟨inv_heap hi (by rw [h2]; simp), ?_⟩
          rw [seen_heap hi hx h1]
          simp [spec, seen_of hx, h3, hl]
        · simp only [if_neg hl] at h
          injection h with h
          simp only [Prod.mk.injEq] at h; obtain ⟨rfl, rfl⟩ := h
          exact ⟨hi, by simp [spec, seen_of hx, h3, hl]⟩
  | write d y f =>
    simp only [step] at h
    split at h
    · cases h
    · rename_i x hx
      rcases obj_eq hi hx with ⟨h1, h2⟩ | ⟨b, o, h1, h2, h3⟩
      · simp only [h2, h1] at h
        injection h with h
        simp only [Prod.mk.injEq] at h; obtain ⟨rfl, rfl⟩ := h
        exact ⟨hi, by simp [spec, seen_of hx, h2]⟩
      · simp only [h3, h1] at h
        by_cases hl : T.casts o.ty y = true
        · simp only [if_pos hl] at h
          injection h with h
          simp only [Prod.mk.injEq] at h; obtain ⟨rfl, rfl⟩ := h
          refine ⟨inv_heap hi (by rw [h2]; simp), ?_⟩
          rw [seen_heap hi hx h1]
          simp [spec, seen_of hx, h3, hl]
        · simp only [if_neg hl] at h
          injection h with h
          simp only [Prod.mk.injEq] at h; obtain ⟨rfl, rfl⟩ := h
          exact ⟨hi, by simp [spec, seen_of hx, h3, hl]⟩
  | destroy d =>
    simp only [step] at h
    split at h
    · cases h
    · rename_i x hx
      injection h with h
      simp only [Prod.mk.injEq] at h; obtain ⟨rfl, rfl⟩ := h
      refine ⟨inv_clear hi (by grind) (by grind) (by grind), ?_⟩
      rw [seen_clear hi (by grind) (by grind) (by grind)]
      simp [spec]

/-! ## Theorems -/

/-- the specification of a program -/
def specRun (T : Types) : Spec V → List (Op V) → Spec V × List Err
  | m, [] => (m, [])
  | m, o :: os => ((specRun T (spec T m o).1 os).1, (spec T m o).2.toList ++ (specRun T (spec T m o).1 os).2)

theorem run_sound {T : Types} {os : List (Op V)} {s s' : St V} {es : List Err} (hi : Inv s) (h : run T s os = some (s', es)) :
    Inv s' ∧ (s'.seen, es) = specRun T s.seen os := by
  induction os generalizing s es with
  | nil =>
    simp only [run, Option.some.injEq, Prod.mk.injEq] at h
    obtain ⟨rfl, rfl⟩ := h
    exact ⟨hi, rfl⟩
  | cons o os ih =>
    simp only [run] at h
    split at h
    · cases h
    · rename_i s1 e h1
      split at h
      · cases h
      · rename_i s2 es2 h2
        simp only [Option.some.injEq, Prod.mk.injEq] at h
        obtain ⟨rfl, rfl⟩ := h
        obtain ⟨h3, h4⟩ := step_sound hi h1
        obtain ⟨h5, h6⟩ := ih h3 h2
        refine ⟨h5, ?_⟩
        simp only [specRun, ← h4, ← h6]

/-- **C111.** A `Variant` is a value: after any program each variable has what it would have if the variables held the values
themselves, and the same exceptions have been thrown: a copy is independent, a moved-from variant is empty, and an operation that throws
changes nothing. -/
theorem variant_is_a_value {T : Types} {os : List (Op V)} {s : St V} {es : List Err} (h : run T (St.init V) os = some (s, es)) :
    (s.seen, es) = specRun T (fun _ => none) os := by
  have := (run_sound inv_init h).2
  rw [this]
  congr 1

/-- **C111.** Memory: every object has exactly one variable that owns it, and what a variable owns is there. -/
theorem variant_owns {T : Types} {os : List (Op V)} {s : St V} {es : List Err} (h : run T (St.init V) os = some (s, es)) (a : Addr) :
    (s.heap a ≠ none ↔ ∃ d x, s.vars d = some x ∧ x.own = some a) ∧
    (∀ d e x y, s.vars d = some x → s.vars e = some y → x.own = some a → y.own = some a → d = e) := by
  obtain ⟨h1, h2, h3⟩ := (run_sound inv_init h).1
  exact ⟨⟨h3 a, fun ⟨d, x, hd, hx⟩ => h1 d x a hd hx⟩, fun d e x y p q u v => h2 d e x y a p q u v⟩

theorem spec_throws {T : Types} {m : Spec V} {o : Op V} {e : Err} (h : (spec T m o).2 = some e) : (spec T m o).1 = m := by
  cases o <;> simp only [spec] at h ⊢ <;> (repeat' split) <;> simp_all

/-- **C111.** An operation that throws changes nothing: neither the target nor the source. -/
theorem variant_throw_changes_nothing {T : Types} {os : List (Op V)} {s s' : St V} {es : List Err} {o : Op V} {e : Err}
    (h : run T (St.init V) os = some (s, es)) (h' : step T s o = some (s', some e)) : s'.seen = s.seen := by
  obtain ⟨_, h2⟩ := step_sound (run_sound inv_init h).1 h'
  have h3 := congrArg Prod.fst h2
  have h4 := congrArg Prod.snd h2
  simp only at h3 h4
  rw [h3]
  exact spec_throws h4.symm

/-- what every variable has is in its list -/
def Listed (T : Types) (m : Spec V) : Prop := ∀ d k o, m d = some ⟨k, some o⟩ → o.ty ∈ T.list k

theorem refused_none {T : Types} {k : Kind} {c : Cell V} (h : refused T k c = none) {o : Obj V} (ho : c.has = some o) :
    o.ty ∈ T.list k := by
  unfold refused at h
  rw [ho] at h
  simp only at h
  split at h
  · cases h
  · split at h
    · cases h
    · rename_i hh; exact Decidable.not_not.1 hh

theorem listed_step {T : Types} {s s' : St V} {o : Op V} {e : Option Err} (hi : Inv s) (hl : Listed T s.seen) (hc : Checked o)
    (h : step T s o = some (s', e)) : Listed T s'.seen := by
  have h2 := congrArg Prod.fst (step_sound hi h).2
  simp only at h2
  have hlf : ∀ d c o, s.seen d = some c → c.has = some o → o.ty ∈ T.list c.kind := by
    rintro d ⟨k, h⟩ o h1 h2
    simp only at h2
    subst h2
    exact hl d k o h1
  rw [h2]
  intro d k o' ho
  have hr := @refused_none V T
  cases o with
  | unchecked => exact hc.elim
  | newValue d' k' t v a =>
    simp only [step] at h
    split at h
    · cases h
    · rename_i hh
      simp only [not_or, Decidable.not_not] at hh
      have := hh.2.1
      simp only [spec, Spec.set] at ho
      grind
  | value d' t v a =>
    simp only [step] at h
    split at h
    · cases h
    · rename_i x hx
      split at h
      · cases h
      · rename_i hh
        have hs := seen_of hx
        simp only [spec, Spec.set, hs] at ho
        grind
  | construct d' t v a =>
    simp only [step] at h
    split at h
    · cases h
    · rename_i x hx
      split at h
      · cases h
      · rename_i hh
        have hs := seen_of hx
        simp only [spec, Spec.set, hs] at ho
        grind
  | null d' =>
    simp only [spec, Spec.set] at ho
    cases hd : s.seen d' <;> rw [hd] at ho <;> grind
  | _ =>
    simp only [spec] at ho
    (repeat' split at ho) <;> simp only [Spec.set] at ho <;> grind

/-- **C111.** A variant has nothing or an object of a type of its list, unless the user bypassed the test. -/
theorem variant_listed {T : Types} {os : List (Op V)} {s : St V} {es : List Err} (hc : ∀ o ∈ os, Checked o)
    (h : run T (St.init V) os = some (s, es)) {d : Nat} {k : Kind} {o : Obj V} (hd : s.seen d = some ⟨k, some o⟩) :
    o.ty ∈ T.list k := by
  have key : ∀ (os : List (Op V)) (s s' : St V) (es : List Err), Inv s → Listed T s.seen → (∀ o ∈ os, Checked o) →
      run T s os = some (s', es) → Listed T s'.seen := by
    intro os
    induction os with
    | nil =>
      intro s s' es _ hl _ h
      simp only [run, Option.some.injEq, Prod.mk.injEq] at h
      obtain ⟨rfl, _⟩ := h
      exact hl
    | cons o os ih =>
      intro s s' es hi hl hc h
      simp only [run] at h
      split at h
      · cases h
      · rename_i s1 e h1
        split at h
        · cases h
        · rename_i s2 es2 h2
          simp only [Option.some.injEq, Prod.mk.injEq] at h
          obtain ⟨rfl, _⟩ := h
          exact ih s1 _ es2 (step_sound hi h1).1 (listed_step hi hl (hc o (List.mem_cons_self ..)) h1)
            (fun x hx => hc x (List.mem_cons_of_mem _ hx)) h2
  exact key os _ _ _ inv_init (by intro d k o h; cases h) hc h d k o hd

/-- **C111.** `Call` on a variant of such a program throws exactly if the variant is empty, and otherwise calls the visitor with the
object as what it is, never as a base of it, and the visitor's change stays. -/
theorem variant_call {T : Types} {os : List (Op V)} {s : St V} {es : List Err} (hc : ∀ o ∈ os, Checked o)
    (h : run T (St.init V) os = some (s, es)) {d : Nat} {k : Kind} {o : Option (Obj V)} (hd : s.seen d = some ⟨k, o⟩)
    (f : Ty → V → V) {s' : St V} {e : Option Err} (h' : step T s (.visit d f) = some (s', e)) :
    (o = none ∧ e = some .uninitialized ∧ s'.seen = s.seen) ∨
    (∃ ob, o = some ob ∧ e = none ∧ s'.seen d = some ⟨k, some ⟨ob.ty, f ob.ty ob.val⟩⟩ ∧ ∀ i, i ≠ d → s'.seen i = s.seen i) := by
  have h2 := (step_sound (run_sound inv_init h).1 h').2
  have h3 := congrArg Prod.fst h2
  have h4 := congrArg Prod.snd h2
  simp only [spec, hd] at h3 h4
  cases o with
  | none => exact .inl ⟨rfl, h4, h3⟩
  | some ob =>
    have := variant_listed hc h hd
    simp only [if_pos this] at h3 h4
    refine .inr ⟨ob, rfl, h4, ?_, ?_⟩
    · rw [h3]; simp [Spec.set]
    · intro i hi; rw [h3]; simp [Spec.set, hi]

/-- **C111.** `Exists<X>` is true of exactly one listed type, if no listed type is a base of another one. -/
theorem variant_exists_one {T : Types} {os : List (Op V)} {s : St V} {es : List Err} (hc : ∀ o ∈ os, Checked o)
    (h : run T (St.init V) os = some (s, es)) {d : Nat} {k : Kind} {o : Obj V} (hd : s.seen d = some ⟨k, some o⟩)
    (hb : ∀ t ∈ T.list k, ∀ u ∈ T.list k, T.casts t u = true → t = u) (x : Ty) (hx : x ∈ T.list k) :
    s.isA T d x = true ↔ x = o.ty := by
  have hl := variant_listed hc h hd
  have : (s.vars d).bind s.obj = some o := by
    unfold St.seen at hd
    cases hv : s.vars d with
    | none => rw [hv] at hd; cases hd
    | some y =>
      rw [hv] at hd
      simp only [Option.map_some, Option.some.injEq, Cell.mk.injEq] at hd
      exact hd.2
  unfold St.isA
  rw [this]
  exact ⟨fun hcst => (hb _ hl _ hx hcst).symm, fun h => by subst h; exact T.casts_self _⟩

/-- **C111.** A conversion keeps the object: what went into another variant that lists its type comes back. -/
theorem variant_convert_back {T : Types} {os : List (Op V)} {s s1 s2 : St V} {es : List Err} {e1 e2 : Option Err}
    (h : run T (St.init V) os = some (s, es)) {d e d' : Nat} {k k' : Kind} {o : Obj V} {a b : Addr}
    (hm : s.seen d = some ⟨k, some o⟩) (hk : o.ty ∈ T.list k) (hk' : o.ty ∈ T.list k')
    (h1 : step T s (.newCopy e k' d a) = some (s1, e1)) (h2 : step T s1 (.newCopy d' k e b) = some (s2, e2)) :
    e1 = none ∧ e2 = none ∧ s2.seen d' = some ⟨k, some o⟩ := by
  obtain ⟨i1, j1⟩ := step_sound (run_sound inv_init h).1 h1
  obtain ⟨i2, j2⟩ := step_sound i1 h2
  simp only [spec, hm, refused, hk, hk', not_true, if_false, Prod.mk.injEq] at j1
  obtain ⟨j1, rfl⟩ := j1
  have : s1.seen e = some ⟨k', some o⟩ := by rw [j1]; simp [Spec.set]
  simp only [spec, this, refused, hk, hk', not_true, if_false, Prod.mk.injEq] at j2
  obtain ⟨j2, rfl⟩ := j2
  exact ⟨rfl, rfl, by rw [j2]; simp [Spec.set]⟩

/-! ## Cases -/

/-- `Variant<A, B>`, `Variant<B, C>`, `Variant<Variant<A, B>, C>`; `A` is 10, `B` is 11 and derives from 5, `C` is 12 -/
def demoTypes : Types where
  list := fun k => match k with
    | 0 => [10, 11]
    | 1 => [11, 12]
    | 2 => [20, 12]
    | _ => []
  self := fun k => 20 + k
  casts := fun t u => t == u || (t == 11 && u == 5)
  casts_self := by intro t; simp

/-- values, copies, conversions that succeed and that throw, a visitor, moves -/
def demoVariant : List (Op Nat) :=
  [.newValue 0 0 11 7 100, .newCopy 1 0 0 101, .write 1 11 (· + 1), .newCopy 2 1 1 102, .value 0 10 3 103, .copy 2 0 104,
   .visit 2 (fun t v => t * 1000 + v), .move 0 2, .visit 2 (fun _ v => v), .write 0 5 (· + 1), .write 0 12 (· + 1), .newMove 3 1, .move 3 3,
   .null 3, .construct 3 10 4 105, .move 2 3, .destroy 3]

set_option synthInstance.maxSize 8192 in
set_option synthInstance.maxHeartbeats 400000 in
theorem demoVariant_runs :
    (∀ o ∈ demoVariant, Checked o) ∧
    (run demoTypes (St.init Nat) demoVariant).map
      (fun r => ((List.range 4).map (fun d => (r.1.seen d).map fun c => (c.kind, c.has.map fun o => (o.ty, o.val))), r.2,
        (List.range 106).filter fun a => (r.1.heap a).isSome)) =
      some ([some (0, some (11, 11009)), some (0, none), some (1, none), none],
        [.incompatible, .uninitialized, .noValue, .incompatible], [102]) := by
  refine ⟨?_, by decide +kernel⟩
  intro o ho
  simp only [demoVariant, List.mem_cons, List.not_mem_nil, or_false] at ho
  rcases ho with h | h | h | h | h | h | h | h | h | h | h | h | h | h | h | h | h <;> subst h <;> trivial

/-- `Exists<X>` and `Value<X>` of a base that is in no list succeed, as `variant.h:245-249` says. -/
theorem variant_exists_base :
    (run demoTypes (St.init Nat) [.newValue 0 0 11 7 100]).map (fun r => (r.1.isA demoTypes 0 5, r.1.isA demoTypes 0 11, r.1.isA demoTypes 0 10)) =
      some (true, true, false) := by decide +kernel

/-- Bypassing the test makes a variant that cannot be visited or copied, and copies of it throw. -/
theorem variant_unchecked :
    (run demoTypes (St.init Nat) [.new 0 0, .unchecked 0 12 7 100, .visit 0 (fun _ v => v), .newCopy 1 0 0 101, .newMove 2 0]).map
      (fun r => ((r.1.seen 2).map fun c => c.has.map fun o => (o.ty, o.val), r.2)) =
      some (some (some (12, 7)), [.unlisted, .unlisted]) := by decide +kernel

/-- A `const Variant<A, B>` in the constructor of `Variant<Variant<A, B>, C>` is not nested: the constructor from
`const VariantImpl<RHS...>&` (`variant.h:151-154`) is not disabled for listed variants, unlike the moving one, and is more specialized
than `X&&`; it throws, although the type is listed, while `newValue` (what a non-`const` argument selects) nests. -/
theorem const_nested_variant_throws :
    (run demoTypes (St.init Nat) [.newValue 0 0 11 7 100, .newCopy 1 2 0 101, .newValue 2 2 20 7 102]).map
      (fun r => ((r.1.seen 1).isSome, (r.1.seen 2).map fun c => c.has.map fun o => (o.ty, o.val), r.2)) =
      some (false, some (some (20, 7)), [.incompatible]) := by decide +kernel

end Current.Variant
