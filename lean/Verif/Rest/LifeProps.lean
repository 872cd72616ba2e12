import Verif.Rest.LifeStep
/-!
C114: the HTTP routes of a `RESTfulStorage`, over all histories of a port.
-/
set_option linter.unusedSectionVars false
namespace Current.RestLife
open Current.Persist Current.Routes

/-! ### Specification -/

/-- The arguments of a constructor call. -/
structure Ctor where
  structured : Bool
  pre : Str
  fields : List (Str × Kind)

/-- The constructor calls of a history: the object number `i` is made by the `i`-th, if that does not throw. -/
def ctors : List Op → List Ctor
  | [] => []
  | .construct structured pre fields :: rest => ⟨structured, pre, fields⟩ :: ctors rest
  | _ :: rest => ctors rest

/-- The route of `p` with `n` arguments was registered for the object number `id`, which exists. -/
def World.Owns (w : World) (id : Nat) (p : Str) (n : Nat) : Prop :=
  ∃ o, assocFind w.objs id = some o ∧ ∃ e ∈ o.scope, Routes.Covers e.1 e.2 p n

def World.Alive (w : World) (id : Nat) : Prop := (assocFind w.objs id).isSome

/-- Every `RegisterAlias` of the history either succeeded or had an unknown target. -/
def AliasesFine (ops : List Op) (outs : List (Option Fail)) : Prop :=
  ∀ x ∈ ops.zip outs, ∀ id target name, x.1 = .registerAlias id target name → x.2 = none ∨ x.2 = some .undefined

/-- What a client gets from a handler of the table of `Documented` when the storage is up. -/
def answerOf : Hd → Ans
  | .own id e => .live id e
  | .top id => .topUp id
  | .status id => .statusUp id
  | .unavailable => .down
  | .user k => .user k

/-! ### Histories -/

structure Hist (cs : List Ctor) (w : World) : Prop where
  inv : Inv w
  len : cs.length = w.next
  made : ∀ id o, assocFind w.objs id = some o → ∃ c, cs[id]? = some c ∧ o.pre = c.pre ∧ o.handlers = handlersOf c.fields

def ctorOf : Op → List Ctor
  | .construct structured pre fields => [⟨structured, pre, fields⟩]
  | _ => []

theorem ctors_cons (op : Op) (ops : List Op) : ctors (op :: ops) = ctorOf op ++ ctors ops := by cases op <;> rfl

theorem step_hist {cs : List Ctor} {w : World} (hh : Hist cs w) (op : Op) (hf : op.Fits) :
    ∃ w' e, w.step op = some (w', e) ∧ Hist (cs ++ ctorOf op) w' := by
  have hi := hh.inv
  cases op with
  | construct structured pre fields =>
    obtain ⟨w', e, hs, c⟩ := step_construct hi structured pre fields
    refine ⟨w', e, hs, c.inv, by simp [ctorOf, c.next, hh.len], ?_⟩
    intro id o ho
    have old : assocFind w.objs id = some o → ∃ c, (cs ++ ctorOf (.construct structured pre fields))[id]? = some c ∧ o.pre = c.pre ∧ o.handlers = handlersOf c.fields := by
      intro h
      obtain ⟨c, h1, h2⟩ := hh.made id o h
      refine ⟨c, ?_, h2⟩
      rw [List.getElem?_append_left]
      · exact h1
      · exact (List.getElem?_eq_some_iff.1 h1).1
    cases he : e with
    | some f =>
      rw [(c.failed (by simp [he])).1] at ho
      exact old ho
    | none =>
      obtain ⟨o1, m1, m2, m3, _⟩ := c.made he
      rw [m1, assocFind_set] at ho
      split at ho
      · rename_i hid
        obtain rfl := Option.some.inj ho
        refine ⟨⟨structured, pre, fields⟩, ?_, m2, m3⟩
        rw [hid, ← hh.len]
        simp [ctorOf]
      · exact old ho
  | registerAlias id target name =>
    cases ho : assocFind w.objs id with
    | none => exact ⟨w, none, by simp [World.step, ho], by simpa [ctorOf] using hh⟩
    | some o =>
      obtain ⟨w', e, hs, a, _⟩ := step_alias hi ho target name
      refine ⟨w', e, hs, a.inv, by simp [ctorOf, a.next, hh.len], ?_⟩
      simp only [ctorOf, List.append_nil]
      intro i o2 ho2
      by_cases he : e = some .undefined
      · rw [(a.same he).2] at ho2
        exact hh.made i o2 ho2
      · obtain ⟨o1, done, m1, m2, _⟩ := a.some_ he
        rw [m1, assocFind_set] at ho2
        split at ho2
        · rename_i hid
          obtain rfl := Option.some.inj ho2
          subst hid
          rw [m2.pre, m2.handlers]
          exact hh.made i o ho
        · exact hh.made i o2 ho2
  | switch id =>
    cases ho : assocFind w.objs id with
    | none => exact ⟨w, none, by simp [World.step, ho], by simpa [ctorOf] using hh⟩
    | some o =>
      obtain ⟨w', e, hs, a⟩ := step_switch hi ho
      refine ⟨w', e, hs, a.inv, by simp [ctorOf, a.next, hh.len], ?_⟩
      simp only [ctorOf, List.append_nil]
      intro i o2 ho2
      rw [a.objs, assocFind_set] at ho2
      split at ho2
      · rename_i hid
        obtain rfl := Option.some.inj ho2
        subst hid
        exact hh.made i o ho
      · exact hh.made i o2 ho2
  | destroy id =>
    cases ho : assocFind w.objs id with
    | none => exact ⟨w, none, by simp [World.step, ho], by simpa [ctorOf] using hh⟩
    | some o =>
      obtain ⟨w', hs, a⟩ := step_destroy hi ho
      refine ⟨w', _, hs, a.inv, by simp [ctorOf, a.next, hh.len], ?_⟩
      simp only [ctorOf, List.append_nil]
      intro i o2 ho2
      rw [a.objs, assocFind_erase] at ho2
      split at ho2
      · cases ho2
      · exact hh.made i o2 ho2
  | userRegister path k mask =>
    obtain ⟨w', e, hs, a, b, c, _⟩ := step_userRegister hi path k mask hf
    refine ⟨w', e, hs, a, by simp [ctorOf, b, hh.len], ?_⟩
    rw [c]
    simpa [ctorOf] using hh.made
  | userRelease i =>
    obtain ⟨w', hs, a, b, c, _⟩ := step_userRelease hi i
    refine ⟨w', _, hs, a, by simp [ctorOf, b, hh.len], ?_⟩
    rw [c]
    simpa [ctorOf] using hh.made

theorem run_hist {cs : List Ctor} {w : World} (hh : Hist cs w) (ops : List Op) (hf : ∀ op ∈ ops, op.Fits) :
    ∃ w' outs, w.run ops = some (w', outs) ∧ Hist (cs ++ ctors ops) w' := by
  induction ops generalizing w cs with
  | nil => exact ⟨w, [], rfl, by simpa [ctors] using hh⟩
  | cons op ops ih =>
    obtain ⟨w1, e, h1, h2⟩ := step_hist hh op (hf op (by simp))
    obtain ⟨w2, outs, h3, h4⟩ := ih h2 fun o ho => hf o (by simp [ho])
    refine ⟨w2, e :: outs, by simp [World.run, h1, h3], ?_⟩
    rw [ctors_cons, ← List.append_assoc]
    exact h4

theorem reached_hist {ops : List Op} (hf : ∀ op ∈ ops, op.Fits) {w : World} {outs : List (Option Fail)}
    (hr : World.run .init ops = some (w, outs)) : Hist (ctors ops) w := by
  obtain ⟨w', outs', h1, h2⟩ := run_hist (cs := []) (w := .init) ⟨inv_init, rfl, by simp [World.init, assocFind]⟩ ops hf
  rw [hr] at h1
  obtain ⟨rfl, rfl⟩ := Prod.mk.inj (Option.some.inj h1)
  simpa using h2

/-! Every route an object has recorded is its own, if no alias has failed. -/

def Clean (w : World) : Prop := ∀ id o, assocFind w.objs id = some o → ∀ x ∈ o.routes, x ∈ o.scope

theorem step_clean {w : World} (hi : Inv w) (hc : Clean w) (op : Op) (hf : op.Fits) {w' : World} {e : Option Fail} (hs : w.step op = some (w', e))
    (ha : ∀ id target name, op = .registerAlias id target name → e = none ∨ e = some .undefined) : Clean w' := by
  cases op with
  | construct structured pre fields =>
    obtain ⟨w2, e2, hs2, c⟩ := step_construct hi structured pre fields
    rw [hs] at hs2
    obtain ⟨rfl, rfl⟩ := Prod.mk.inj (Option.some.inj hs2)
    intro id o ho
    cases he : e with
    | some f =>
      rw [(c.failed (by simp [he])).1] at ho
      exact hc id o ho
    | none =>
      obtain ⟨o1, m1, m2, m3, m4, m5, _⟩ := c.made he
      rw [m1, assocFind_set] at ho
      split at ho
      · obtain rfl := Option.some.inj ho
        exact m5
      · exact hc id o ho
  | registerAlias id target name =>
    cases ho : assocFind w.objs id with
    | none =>
      simp only [World.step, ho, Option.some.injEq, Prod.mk.injEq] at hs
      rw [← hs.1]; exact hc
    | some o =>
      obtain ⟨w2, e2, hs2, a, _⟩ := step_alias hi ho target name
      rw [hs] at hs2
      obtain ⟨rfl, rfl⟩ := Prod.mk.inj (Option.some.inj hs2)
      intro i o2 ho2
      by_cases he : e = some .undefined
      · rw [(a.same he).2] at ho2
        exact hc i o2 ho2
      · obtain ⟨o1, done, m1, m2, m3, _⟩ := a.some_ he
        have he : e = none := (ha id target name rfl).resolve_right he
        rw [m1, assocFind_set] at ho2
        split at ho2
        · obtain rfl := Option.some.inj ho2
          intro x hx
          rcases m2.owned he x hx with h | h
          · exact m3 x (hc id o ho x h)
          · exact h
        · exact hc i o2 ho2
  | switch id =>
    cases ho : assocFind w.objs id with
    | none =>
      simp only [World.step, ho, Option.some.injEq, Prod.mk.injEq] at hs
      rw [← hs.1]; exact hc
    | some o =>
      obtain ⟨w2, e2, hs2, a⟩ := step_switch hi ho
      rw [hs] at hs2
      obtain ⟨rfl, rfl⟩ := Prod.mk.inj (Option.some.inj hs2)
      intro i o2 ho2
      rw [a.objs, assocFind_set] at ho2
      split at ho2
      · obtain rfl := Option.some.inj ho2
        exact hc id o ho
      · exact hc i o2 ho2
  | destroy id =>
    cases ho : assocFind w.objs id with
    | none =>
      simp only [World.step, ho, Option.some.injEq, Prod.mk.injEq] at hs
      rw [← hs.1]; exact hc
    | some o =>
      obtain ⟨w2, hs2, a⟩ := step_destroy hi ho
      rw [hs] at hs2
      obtain ⟨rfl, rfl⟩ := Prod.mk.inj (Option.some.inj hs2)
      intro i o2 ho2
      rw [a.objs, assocFind_erase] at ho2
      split at ho2
      · cases ho2
      · exact hc i o2 ho2
  | userRegister path k mask =>
    obtain ⟨w2, e2, hs2, a, b, c, _⟩ := step_userRegister hi path k mask hf
    rw [hs] at hs2
    obtain ⟨rfl, rfl⟩ := Prod.mk.inj (Option.some.inj hs2)
    unfold Clean
    rw [c]
    exact hc
  | userRelease i =>
    obtain ⟨w2, hs2, a, b, c, _⟩ := step_userRelease hi i
    rw [hs] at hs2
    obtain ⟨rfl, rfl⟩ := Prod.mk.inj (Option.some.inj hs2)
    unfold Clean
    rw [c]
    exact hc

theorem run_clean {cs : List Ctor} {w : World} (hh : Hist cs w) (hc : Clean w) (ops : List Op) (hf : ∀ op ∈ ops, op.Fits) {w' : World}
    {outs : List (Option Fail)} (hr : w.run ops = some (w', outs)) (ha : AliasesFine ops outs) : Clean w' := by
  induction ops generalizing w cs outs with
  | nil =>
    simp only [World.run, Option.some.injEq, Prod.mk.injEq] at hr
    rw [← hr.1]; exact hc
  | cons op ops ih =>
    obtain ⟨w1, e, h1, h2⟩ := step_hist hh op (hf op (by simp))
    simp only [World.run, h1, Option.bind_some, Option.map_eq_some_iff] at hr
    obtain ⟨⟨w2, outs2⟩, h3, h4⟩ := hr
    simp only [Prod.mk.injEq] at h4
    obtain ⟨rfl, rfl⟩ := h4
    refine ih h2 (step_clean hh.inv hc op (hf op (by simp)) h1 ?_) (fun o ho => hf o (by simp [ho])) h3 ?_
    · intro id target name he
      exact ha (op, e) (by simp) id target name he
    · intro x hx
      exact ha x (by simp [hx])

theorem reached_clean {ops : List Op} (hf : ∀ op ∈ ops, op.Fits) {w : World} {outs : List (Option Fail)}
    (hr : World.run .init ops = some (w, outs)) (ha : AliasesFine ops outs) : Clean w :=
  run_clean (cs := []) ⟨inv_init, rfl, by simp [World.init, assocFind]⟩ (by simp [Clean, World.init, assocFind]) ops hf hr ha

/-! ### Answers -/

theorem answer_congr {w w' : World} {p : Str} {n : Nat} (hv : w'.table.view p n = w.table.view p n)
    (hu : ∀ h id, w.table.view p n = some h → h.owner = some id →
      (assocFind w'.objs id).map Obj.up = (assocFind w.objs id).map Obj.up) : w'.answer p n = w.answer p n := by
  unfold World.answer
  rw [hv]
  cases hw : w.table.view p n with
  | none => rfl
  | some h =>
    have hu := fun id => hu h id hw
    cases h with
    | own id e =>
      have := congrArg Option.isSome (hu id rfl)
      simp only [Option.isSome_map] at this
      simp only [this]
    | top id =>
      have := hu id rfl
      cases h1 : assocFind w'.objs id <;> cases h2 : assocFind w.objs id <;> simp_all
    | status id =>
      have := hu id rfl
      cases h1 : assocFind w'.objs id <;> cases h2 : assocFind w.objs id <;> simp_all
    | unavailable => rfl
    | user k => rfl

theorem answer_notFound {w : World} (_ : Inv w) (p : Str) (n : Nat) : w.answer p n = .notFound ↔ w.table.view p n = none := by
  unfold World.answer
  cases h : w.table.view p n with
  | none => simp
  | some x =>
    simp only [reduceCtorEq, iff_false]
    cases x with
    | own id e => simp only; split <;> simp
    | top id => simp only; split <;> (try split) <;> simp
    | status id => simp only; split <;> (try split) <;> simp
    | unavailable => simp
    | user k => simp

theorem answer_hd {w : World} {p : Str} {n : Nat} {h : Hd} (hv : w.table.view p n = some h)
    (hu : ∀ id, h.owner = some id → ∃ o, assocFind w.objs id = some o ∧ o.up = true) : w.answer p n = answerOf h := by
  unfold World.answer
  rw [hv]
  cases h with
  | own id e => obtain ⟨o, h1, h2⟩ := hu id rfl; simp [h1, answerOf]
  | top id => obtain ⟨o, h1, h2⟩ := hu id rfl; simp [h1, h2, answerOf]
  | status id => obtain ⟨o, h1, h2⟩ := hu id rfl; simp [h1, h2, answerOf]
  | unavailable => rfl
  | user k => rfl

/-! ### The theorems -/

/-- C114: whatever a program does with its storages and with routes of its own, no destructor terminates it, no route leads to an
object that is gone, and the routes served are those of the objects and the registrations alive. -/
theorem routes_of_the_living (ops : List Op) (hf : ∀ op ∈ ops, op.Fits) :
    ∃ w outs, World.run .init ops = some (w, outs) ∧ (∀ p n, w.answer p n ≠ .dangling) ∧
      ∀ p n, w.answer p n ≠ .notFound ↔ (∃ id, w.Owns id p n) ∨ ∃ s ∈ w.users, ∃ e ∈ s, Routes.Covers e.1 e.2 p n := by
  obtain ⟨w, outs, h1, h2⟩ := run_hist (cs := []) (w := .init) ⟨inv_init, rfl, by simp [World.init, assocFind]⟩ ops hf
  have hi := h2.inv
  refine ⟨w, outs, h1, ?_, ?_⟩
  · intro p n
    unfold World.answer
    cases hv : w.table.view p n with
    | none => simp
    | some h =>
      have hr := fun id => hi.refs p n h id hv
      cases h with
      | own id e => obtain ⟨o, h, _⟩ := hr id rfl; simp [h]
      | top id => obtain ⟨o, h, _⟩ := hr id rfl; simp only [h]; split <;> simp
      | status id => obtain ⟨o, h, _⟩ := hr id rfl; simp only [h]; split <;> simp
      | unavailable => simp
      | user k => simp
  · intro p n
    rw [Ne, answer_notFound hi, ← Ne, ← Option.isSome_iff_ne_none, hi.tied.exact_ p n]
    unfold InScope World.Owns
    constructor
    · rintro ⟨e, he, hc⟩
      obtain ⟨s, hs, he⟩ := List.mem_flatten.1 he
      rcases List.mem_append.1 hs with hs | hs
      · exact .inr ⟨s, hs, e, he, hc⟩
      · obtain ⟨⟨id, o⟩, ho, rfl⟩ := List.mem_map.1 hs
        exact .inl ⟨id, o, assocFind_of_mem hi.keys ho, e, he, hc⟩
    · rintro (⟨id, o, ho, e, he, hc⟩ | ⟨s, hs, e, he, hc⟩)
      · refine ⟨e, List.mem_flatten.2 ⟨o.scope, List.mem_append_right _ (List.mem_map.2 ⟨(id, o), assocFind_mem ho, rfl⟩), he⟩, hc⟩
      · exact ⟨e, List.mem_flatten.2 ⟨s, List.mem_append_left _ hs, he⟩, hc⟩

/-- C114: a constructor either makes an object that serves exactly the documented routes, whatever else there is on the port, or
throws and leaves the port as it was. With valid names it throws exactly if one of these routes is taken. -/
theorem constructor_all_or_nothing {ops : List Op} (hf : ∀ op ∈ ops, op.Fits) {w : World} {outs : List (Option Fail)}
    (hr : World.run .init ops = some (w, outs)) (structured : Bool) (pre : Str) (fields : List (Str × Kind)) :
    ∃ w' e, w.step (.construct structured pre fields) = some (w', e) ∧
      (e = none → (∀ p n, w'.Owns (ctors ops).length p n ↔ ∃ h, Documented structured pre fields (ctors ops).length p n h) ∧
        (∀ p n h, Documented structured pre fields (ctors ops).length p n h → w'.answer p n = answerOf h) ∧
        ∀ p n, (¬ ∃ h, Documented structured pre fields (ctors ops).length p n h) → w'.answer p n = w.answer p n) ∧
      (e ≠ none → ¬ w'.Alive (ctors ops).length ∧ ∀ p n, w'.answer p n = w.answer p n) ∧
      (Config pre fields →
        (e = none ↔ ∀ p n h, Documented structured pre fields (ctors ops).length p n h → w.answer p n = .notFound)) := by
  have hh := reached_hist hf hr
  have hi := hh.inv
  rw [hh.len]
  obtain ⟨w', e, hs, c⟩ := step_construct hi structured pre fields
  refine ⟨w', e, hs, ?_, ?_, ?_⟩
  · intro he
    obtain ⟨o, m1, m2, m3, m4, m5, m6, d⟩ := c.made he
    have hfind : assocFind w'.objs w.next = some o := by rw [m1, assocFind_set]; simp
    refine ⟨?_, ?_, ?_⟩
    · intro p n
      unfold World.Owns
      constructor
      · rintro ⟨o2, ho2, x, hx, hc⟩
        rw [hfind] at ho2
        obtain rfl := Option.some.inj ho2
        rw [m6] at hx
        obtain ⟨y, hy, rfl⟩ := List.mem_map.1 hx
        exact ⟨_, (covers_documented ..).1 ⟨y, hy, hc, rfl⟩⟩
      · rintro ⟨h, hd⟩
        obtain ⟨y, hy, hc, _⟩ := (covers_documented ..).2 hd
        refine ⟨o, hfind, (y.1, y.2.1), ?_, hc⟩
        rw [m6]
        exact List.mem_map_of_mem (f := fun y : Entry => (y.1, y.2.1)) hy
    · intro p n h hd
      obtain ⟨y, hy, hc, rfl⟩ := (covers_documented ..).2 hd
      refine answer_hd (d.hit y hy p n hc) ?_
      intro id hid
      obtain ⟨o2, ho2, hsc⟩ := c.inv.refs p n _ id (d.hit y hy p n hc) hid
      have : id = w.next := by
        rcases List.mem_append.1 hy with hx | hx
        · obtain ⟨z, hz, rfl⟩ := List.mem_map.1 hx
          simp only [entryOf, Hd.owner, Option.some.injEq] at hid
          exact hid.symm
        · unfold topEntries at hx
          split at hx
          · simp only [List.mem_cons, List.not_mem_nil, or_false] at hx
            rcases hx with rfl | rfl <;> simp only [Hd.owner, Option.some.injEq] at hid <;> exact hid.symm
          · cases hx
      subst this
      exact ⟨o, hfind, m4⟩
    · intro p n hn
      have hv := d.miss p n fun x hx hc => hn ⟨_, (covers_documented ..).1 ⟨x, hx, hc, rfl⟩⟩
      refine answer_congr hv ?_
      intro h id hw hown
      obtain ⟨o2, ho2, _⟩ := hi.refs p n h id hw hown
      have : id ≠ w.next := by
        rintro rfl
        rw [fresh_find hi] at ho2
        cases ho2
      rw [m1, assocFind_set, if_neg this]
  · intro he
    obtain ⟨f1, f2⟩ := c.failed he
    refine ⟨?_, ?_⟩
    · unfold World.Alive
      rw [f1, fresh_find hi]
      simp
    · intro p n
      exact answer_congr (f2 p n) fun h id _ _ => by rw [f1]
  · intro cfg
    constructor
    · intro he p n h hd
      obtain ⟨o, m1, m2, m3, m4, m5, m6, d⟩ := c.made he
      obtain ⟨y, hy, hc, rfl⟩ := (covers_documented ..).2 hd
      rw [answer_notFound hi]
      exact d.free y hy p n hc
    · intro hfree
      have hp : ¬ (pre ≠ [] ∧ pre.getLast? = some '/') := by
        rintro ⟨h1, h2⟩
        rcases cfg.pre with h | h
        · exact h1 h
        · rcases h.1.2.1 with h3 | h3
          · exact h.2 h3
          · exact h3 h2
      obtain ⟨t1, o1, e1, b, hc⟩ := construct_built structured pre fields w.next w.table hp
      have hnd := entries_paths_nodup structured cfg w.next
      have he1 : e1 = none := by
        refine regs_ok b.regs entries_mask (entries_valid structured cfg w.next) ?_ ?_
        · refine (List.pairwise_map.1 hnd).imp ?_
          rintro x y hne p n ⟨h1, _⟩ ⟨h2, _⟩
          exact hne (h1.symm.trans h2)
        · intro x hx p n hc
          have := hfree p n x.2.2 ((covers_documented ..).1 ⟨x, hx, hc, rfl⟩)
          rwa [answer_notFound hi] at this
      subst he1
      simp only [World.step, hc, unwind, Option.map_some, Option.some.injEq, Prod.mk.injEq] at hs
      exact hs.2.symm

theorem aliasEntries_iff {cs : List Ctor} {w : World} (hh : Hist cs w) {id : Nat} {c : Ctor} (hc : cs[id]? = some c) {o : Obj}
    (ho : assocFind w.objs id = some o) (target name p : Str) (n : Nat) (e : Ep) :
    (∃ x ∈ aliasEntries id o target name, x.Covers p n ∧ x.2.2 = .own id e) ↔ Endpoint c.pre c.fields target name p n e := by
  obtain ⟨c2, h1, h2, h3⟩ := hh.made id o ho
  rw [hc] at h1
  obtain rfl := Option.some.inj h1
  rw [endpoint_iff]
  unfold aliasEntries
  rw [h2, h3]
  constructor
  · rintro ⟨x, hx, hcov, he⟩
    obtain ⟨y, hy, rfl⟩ := List.mem_map.1 hx
    obtain ⟨hy1, hy2⟩ := List.mem_filter.1 hy
    refine ⟨y, hy1, by simpa using hy2, hcov, ?_⟩
    simpa [entryOf] using he
  · rintro ⟨y, hy, ht, hcov, he⟩
    refine ⟨entryOf id c.pre (name, y.2), List.mem_map.2 ⟨y, List.mem_filter.2 ⟨hy, by simpa using ht⟩, rfl⟩, hcov, ?_⟩
    simp [entryOf, he]

theorem aliasEntry_own {id : Nat} {o : Obj} {target name : Str} {x : Entry} (hx : x ∈ aliasEntries id o target name) : ∃ e, x.2.2 = .own id e := by
  obtain ⟨y, hy, rfl⟩ := List.mem_map.1 hx
  exact ⟨y.2.ep, rfl⟩

/-- C114: an alias that is accepted serves the endpoints of its target under its name, and changes nothing else; one of an unknown
target changes nothing; one that throws because of a route taken has registered some of these endpoints. -/
theorem alias_serves_target {ops : List Op} (hf : ∀ op ∈ ops, op.Fits) {w : World} {outs : List (Option Fail)}
    (hr : World.run .init ops = some (w, outs)) {id : Nat} {c : Ctor} (hid : (ctors ops)[id]? = some c) (ha : w.Alive id) (target name : Str) :
    ∃ w' e, w.step (.registerAlias id target name) = some (w', e) ∧
      (e = some .undefined ↔ target ≠ [] ∧ ∀ k, (target, k) ∉ c.fields) ∧
      (e = some .undefined → ∀ p n, w'.answer p n = w.answer p n) ∧
      (e = none → (∀ p n ep, Endpoint c.pre c.fields target name p n ep → w'.answer p n = .live id ep ∧ w.answer p n = .notFound) ∧
        (∀ p n, (∀ ep, ¬ Endpoint c.pre c.fields target name p n ep) → w'.answer p n = w.answer p n) ∧
        ∀ p n, w'.Owns id p n ↔ w.Owns id p n ∨ ∃ ep, Endpoint c.pre c.fields target name p n ep) ∧
      (∀ p n, w'.answer p n = w.answer p n ∨ w'.Owns id p n ∧ ∃ ep, Endpoint c.pre c.fields target name p n ep ∧ w'.answer p n = .live id ep) := by
  have hh := reached_hist hf hr
  have hi := hh.inv
  obtain ⟨o, ho⟩ := Option.isSome_iff_exists.1 ha
  obtain ⟨w', e, hs, a, _⟩ := step_alias hi ho target name
  have hiff := fun p n ep => aliasEntries_iff hh hid ho target name p n ep
  have hupsame : ∀ i, (assocFind w'.objs i).map Obj.up = (assocFind w.objs i).map Obj.up := by
    intro i
    by_cases he : e = some .undefined
    · rw [(a.same he).2]
    · obtain ⟨o1, done, m1, m2, m3, d⟩ := a.some_ he
      rw [m1, assocFind_set]
      split
      · rename_i h
        rw [h, ho]
        simp [m2.up]
      · rfl
  have hunch : e = some .undefined → ∀ p n, w'.answer p n = w.answer p n := by
    intro he p n
    refine answer_congr ?_ fun _ i _ _ => hupsame i
    rw [(a.same he).1]
  refine ⟨w', e, hs, ?_, hunch, ?_, ?_⟩
  · rw [a.unknown]
    obtain ⟨c2, h1, h2, h3⟩ := hh.made id o ho
    rw [hid] at h1
    obtain rfl := Option.some.inj h1
    unfold aliasEntries
    rw [List.map_eq_nil_iff, List.filter_eq_nil_iff, h3]
    constructor
    · intro hall
      constructor
      · rintro rfl
        exact hall queryRoute ((mem_handlersOf _ _).2 (.inr (.inl rfl))) (by simp [queryRoute])
      · intro k hk
        refine hall (target, ⟨kData, [], maskAny, .data target⟩) ((mem_handlersOf _ _).2 (.inr (.inr ⟨k, hk, ?_⟩))) (by simp)
        simp [fieldRoutes]
    · rintro ⟨h0, hk⟩ x hx he
      simp only [decide_eq_true_eq] at he
      rcases (mem_handlersOf _ _).1 hx with rfl | rfl | ⟨k, hk2, _⟩
      · exact h0 he.symm
      · exact h0 he.symm
      · rw [he] at hk2
        exact hk k hk2
  · intro he
    obtain ⟨o1, done, m1, m2, m3, d⟩ := a.some_ (by simp [he])
    obtain rfl := d.all he
    have hfind : assocFind w'.objs id = some o1 := by rw [m1, assocFind_set]; simp
    refine ⟨?_, ?_, ?_⟩
    · intro p n ep hep
      obtain ⟨x, hx, hc, hx2⟩ := (hiff p n ep).2 hep
      have hv := d.hit x hx p n hc
      rw [hx2] at hv
      refine ⟨?_, (answer_notFound hi p n).2 (d.free x hx p n hc)⟩
      unfold World.answer
      rw [hv]
      simp [hfind]
    · intro p n hn
      refine answer_congr (d.miss p n ?_) fun _ i _ _ => hupsame i
      intro x hx hc
      obtain ⟨ep, hep⟩ := aliasEntry_own hx
      exact hn ep ((hiff p n ep).1 ⟨x, hx, hc, hep⟩)
    · intro p n
      unfold World.Owns
      constructor
      · rintro ⟨o2, ho2, y, hy, hc⟩
        rw [hfind] at ho2
        obtain rfl := Option.some.inj ho2
        rw [d.scope] at hy
        rcases List.mem_append.1 hy with hy | hy
        · exact .inl ⟨o, ho, y, hy, hc⟩
        · obtain ⟨x, hx, rfl⟩ := List.mem_map.1 hy
          obtain ⟨ep, hep⟩ := aliasEntry_own hx
          exact .inr ⟨ep, (hiff p n ep).1 ⟨x, hx, hc, hep⟩⟩
      · rintro (⟨o2, ho2, y, hy, hc⟩ | ⟨ep, hep⟩)
        · rw [ho] at ho2
          obtain rfl := Option.some.inj ho2
          exact ⟨o1, hfind, y, m3 y hy, hc⟩
        · obtain ⟨x, hx, hc, hx2⟩ := (hiff p n ep).2 hep
          refine ⟨o1, hfind, (x.1, x.2.1), ?_, hc⟩
          rw [d.scope]
          exact List.mem_append_right _ (List.mem_map_of_mem (f := fun y : Entry => (y.1, y.2.1)) hx)
  · intro p n
    by_cases he : e = some .undefined
    · exact .inl (hunch he p n)
    · obtain ⟨o1, done, m1, m2, m3, d⟩ := a.some_ he
      have hfind : assocFind w'.objs id = some o1 := by rw [m1, assocFind_set]; simp
      by_cases hcov : ∃ x ∈ done, x.Covers p n
      · obtain ⟨x, hx, hc⟩ := hcov
        obtain ⟨ep, hep⟩ := aliasEntry_own (d.sub.subset hx)
        have hv := d.hit x hx p n hc
        rw [hep] at hv
        refine .inr ⟨⟨o1, hfind, (x.1, x.2.1), ?_, hc⟩, ep, (hiff p n ep).1 ⟨x, d.sub.subset hx, hc, hep⟩, ?_⟩
        · rw [d.scope]
          exact List.mem_append_right _ (List.mem_map_of_mem (f := fun y : Entry => (y.1, y.2.1)) hx)
        · unfold World.answer
          rw [hv]
          simp [hfind]
      · refine .inl (answer_congr (d.miss p n fun x hx hc => hcov ⟨x, hx, hc⟩) fun _ i _ _ => hupsame i)

theorem owner_unique {w : World} (hi : Inv w) {i j : Nat} {oi oj : Obj} (h1 : assocFind w.objs i = some oi) (h2 : assocFind w.objs j = some oj)
    {p : Str} {n : Nat} (hs1 : InScope oi.scope p n) (hs2 : InScope oj.scope p n) : i = j := by
  by_contra hne
  exact focus_apart (tied_focus hi h2) hs2 (inScope_frame hne h1 hs1)

/-- C114: in a history in which no `RegisterAlias` ran into a route taken, `SwitchHTTPEndpointsTo503s` does not throw; it makes all the
routes of its object answer 503, and changes no other answer.

Missing: this for all histories; it is false, see `failed_alias_takes_a_foreign_route_down`. -/
theorem switch_turns_off_partial {ops : List Op} (hf : ∀ op ∈ ops, op.Fits) {w : World} {outs : List (Option Fail)}
    (hr : World.run .init ops = some (w, outs)) (hal : AliasesFine ops outs) {id : Nat} (ha : w.Alive id) :
    ∃ w', w.step (.switch id) = some (w', none) ∧ w'.Alive id ∧ (∀ p n, w'.Owns id p n ↔ w.Owns id p n) ∧
      ∀ p n, (w.Owns id p n → w'.answer p n = .down) ∧ (¬ w.Owns id p n → w'.answer p n = w.answer p n) := by
  have hh := reached_hist hf hr
  have hi := hh.inv
  have hcl := reached_clean hf hr hal
  obtain ⟨o, ho⟩ := Option.isSome_iff_exists.1 ha
  have hok := hi.objs id o ho
  obtain ⟨w', e, hs, a⟩ := step_switch hi ho
  have he : e = none := by
    refine a.loop.ok ?_
    intro x hx
    have hx2 := hcl id o ho x hx
    exact ⟨hok.valid x hx2, fun p n hc => view_of_scope hi ho ⟨x, hx2, hc⟩⟩
  subst he
  have hfind : assocFind w'.objs id = some { o with up := false } := by rw [a.objs, assocFind_set]; simp
  refine ⟨w', hs, by simp [World.Alive, hfind], ?_, ?_⟩
  · intro p n
    unfold World.Owns
    rw [hfind, ho]
    simp
  · intro p n
    constructor
    · rintro ⟨o2, ho2, x, hx, hc⟩
      rw [ho] at ho2
      obtain rfl := Option.some.inj ho2
      rcases hok.tops x hx with h | h
      · have hv := a.loop.all rfl x h p n hc
        unfold World.answer
        rw [hv]
      · rcases a.loop.views p n with h2 | ⟨_, h2⟩
        · unfold World.answer
          rcases h p n hc with h3 | h3 | h3 <;> rw [h2, h3] <;> simp [hfind]
        · unfold World.answer
          rw [h2]
    · intro hn
      have hv : w'.table.view p n = w.table.view p n := by
        rcases a.loop.views p n with h2 | ⟨⟨x, hx, hc⟩, _⟩
        · exact h2
        · exact absurd ⟨o, ho, x, hcl id o ho x hx, hc⟩ hn
      refine answer_congr hv ?_
      intro h i hw hown
      obtain ⟨o2, ho2, hsc⟩ := hi.refs p n h i hw hown
      have hne : i ≠ id := by
        rintro rfl
        exact hn ⟨o2, ho2, hsc⟩
      rw [a.objs, assocFind_set, if_neg hne]

/-- C114: in any history, the destructor does not terminate the program; it removes the routes of its object, and changes no other
answer. -/
theorem destructor_unregisters {ops : List Op} (hf : ∀ op ∈ ops, op.Fits) {w : World} {outs : List (Option Fail)}
    (hr : World.run .init ops = some (w, outs)) {id : Nat} (ha : w.Alive id) :
    ∃ w', w.step (.destroy id) = some (w', none) ∧ ¬ w'.Alive id ∧
      ∀ p n, (w.Owns id p n → w'.answer p n = .notFound) ∧ (¬ w.Owns id p n → w'.answer p n = w.answer p n) := by
  have hi := (reached_hist hf hr).inv
  obtain ⟨o, ho⟩ := Option.isSome_iff_exists.1 ha
  obtain ⟨w', hs, a⟩ := step_destroy hi ho
  refine ⟨w', hs, ?_, ?_⟩
  · unfold World.Alive
    rw [a.objs, assocFind_erase]
    simp
  · intro p n
    constructor
    · rintro ⟨o2, ho2, hsc⟩
      rw [ho] at ho2
      obtain rfl := Option.some.inj ho2
      exact (answer_notFound a.inv p n).2 (a.gone p n hsc)
    · intro hn
      have hns : ¬ InScope o.scope p n := fun h => hn ⟨o, ho, h⟩
      refine answer_congr (a.others p n hns) ?_
      intro h i hw hown
      obtain ⟨o2, ho2, hsc⟩ := hi.refs p n h i hw hown
      have hne : i ≠ id := by
        rintro rfl
        exact hn ⟨o2, ho2, hsc⟩
      rw [a.objs, assocFind_erase, if_neg hne]

/-- The object an operation is called on. -/
def Op.on : Op → Option Nat
  | .registerAlias id _ _ => some id
  | .switch id => some id
  | .destroy id => some id
  | _ => none

/-- C114: in a history in which no `RegisterAlias` ran into a route taken, the routes of a storage and what they answer change only by
calls to that storage.

Missing: this for all histories; it is false, see `failed_alias_takes_a_foreign_route_down`. -/
theorem storages_are_isolated_partial {ops : List Op} (hf : ∀ op ∈ ops, op.Fits) {w : World} {outs : List (Option Fail)}
    (hr : World.run .init ops = some (w, outs)) (hal : AliasesFine ops outs) {id : Nat} (ha : w.Alive id) (op : Op) (hop : op.Fits)
    (hne : op.on ≠ some id) :
    ∃ w' e, w.step op = some (w', e) ∧ w'.Alive id ∧ ∀ p n, (w'.Owns id p n ↔ w.Owns id p n) ∧
      (w.Owns id p n → w'.answer p n = w.answer p n) := by
  have hi := (reached_hist hf hr).inv
  have hcl := reached_clean hf hr hal
  obtain ⟨o, ho⟩ := Option.isSome_iff_exists.1 ha
  -- it is enough that the object and the views of its routes stay
  have key : ∀ w' e, w.step op = some (w', e) → assocFind w'.objs id = some o →
      (∀ p n, InScope o.scope p n → w'.table.view p n = w.table.view p n) →
      ∃ w' e, w.step op = some (w', e) ∧ w'.Alive id ∧ ∀ p n, (w'.Owns id p n ↔ w.Owns id p n) ∧
        (w.Owns id p n → w'.answer p n = w.answer p n) := by
    intro w' e hs h1 h2
    refine ⟨w', e, hs, by simp [World.Alive, h1], ?_⟩
    intro p n
    refine ⟨by unfold World.Owns; rw [h1, ho], ?_⟩
    rintro ⟨o2, ho2, hsc⟩
    rw [ho] at ho2
    obtain rfl := Option.some.inj ho2
    refine answer_congr (h2 p n hsc) ?_
    intro h i hw hown
    obtain ⟨o3, ho3, hsc3⟩ := hi.refs p n h i hw hown
    obtain rfl := owner_unique hi ho3 ho hsc3 hsc
    rw [h1, ho]
  cases op with
  | construct structured pre fields =>
    obtain ⟨w', e, hs, c⟩ := step_construct hi structured pre fields
    cases he : e with
    | some f =>
      obtain ⟨f1, f2⟩ := c.failed (by simp [he])
      exact key w' e hs (by rw [f1]; exact ho) fun p n _ => f2 p n
    | none =>
      obtain ⟨o1, m1, m2, m3, m4, m5, m6, d⟩ := c.made he
      refine key w' e hs ?_ ?_
      · rw [m1, assocFind_set, if_neg]
        · exact ho
        · rintro rfl
          rw [fresh_find hi] at ho
          cases ho
      · intro p n hsc
        refine d.miss p n fun x hx hc => ?_
        have := view_of_scope hi ho hsc
        rw [d.free x hx p n hc] at this
        cases this
  | registerAlias i target name =>
    have hii : id ≠ i := fun h => hne (by rw [h]; rfl)
    cases hoi : assocFind w.objs i with
    | none => exact key w none (by simp [World.step, hoi]) ho fun _ _ _ => rfl
    | some oi =>
      obtain ⟨w', e, hs, a, _⟩ := step_alias hi hoi target name
      by_cases he : e = some .undefined
      · refine key w' e hs (by rw [(a.same he).2]; exact ho) fun p n _ => ?_
        rw [(a.same he).1]
      · obtain ⟨o1, done, m1, m2, m3, d⟩ := a.some_ he
        refine key w' e hs (by rw [m1, assocFind_set, if_neg hii]; exact ho) fun p n hsc => ?_
        refine d.miss p n fun x hx hc => ?_
        have := view_of_scope hi ho hsc
        rw [d.free x hx p n hc] at this
        cases this
  | switch i =>
    have hii : id ≠ i := fun h => hne (by rw [h]; rfl)
    cases hoi : assocFind w.objs i with
    | none => exact key w none (by simp [World.step, hoi]) ho fun _ _ _ => rfl
    | some oi =>
      obtain ⟨w', e, hs, a⟩ := step_switch hi hoi
      refine key w' e hs (by rw [a.objs, assocFind_set, if_neg hii]; exact ho) fun p n hsc => ?_
      rcases a.loop.views p n with h | ⟨⟨x, hx, hc⟩, _⟩
      · exact h
      · exact absurd (owner_unique hi ho hoi hsc ⟨x, hcl i oi hoi x hx, hc⟩) hii
  | destroy i =>
    have hii : id ≠ i := fun h => hne (by rw [h]; rfl)
    cases hoi : assocFind w.objs i with
    | none => exact key w none (by simp [World.step, hoi]) ho fun _ _ _ => rfl
    | some oi =>
      obtain ⟨w', hs, a⟩ := step_destroy hi hoi
      refine key w' none hs (by rw [a.objs, assocFind_erase, if_neg hii]; exact ho) fun p n hsc => ?_
      refine a.others p n fun hc => ?_
      exact absurd (owner_unique hi ho hoi hsc hc) hii
  | userRegister path k mask =>
    obtain ⟨w', e, hs, _, _, c, d⟩ := step_userRegister hi path k mask hop
    exact key w' e hs (by rw [c]; exact ho) fun p n hsc => d p n (view_of_scope hi ho hsc)
  | userRelease i =>
    obtain ⟨w', hs, _, _, c, d⟩ := step_userRelease hi i
    exact key w' none hs (by rw [c]; exact ho) fun p n hsc => d p n id o ho hsc

/-! ### Examples and findings -/

def users : Str := ['u', 's', 'e', 'r', 's']
def demoFields : List (Str × Kind) := [(users, .dictionary), (['m'], .matrix)]

/-- The hypotheses of the theorems are met. -/
theorem demo_config : Config ['/', 'a', 'p', 'i'] demoFields := by
  refine ⟨.inr ⟨⟨by decide, by decide, by decide⟩, by decide⟩, by decide, by decide⟩

/-- A storage, a path of the program's own, an alias, an alias of an unknown field, the switch. -/
def demoOps : List Op :=
  [.construct true ['/', 'a', 'p', 'i'] demoFields, .userRegister ['/', 'a', 'p', 'i', '/', 'x'] 7 1,
   .registerAlias 0 users ['p'], .registerAlias 0 ['?'] ['q']]

example : ∀ op ∈ demoOps, op.Fits := by simp [demoOps, Op.Fits]

def demoPaths : List (Str × Nat) :=
  [("/api".toList, 0), ("/api/status".toList, 0), ("/api/data/users".toList, 1), ("/api/data/users.key".toList, 1),
   ("/api/data/p.K".toList, 15), ("/api/schema/p.ts".toList, 0), ("/api/data/m.row".toList, 1), ("/api/cqs/query".toList, 1),
   ("/api/x".toList, 0), ("/api/data/q".toList, 0)]

def asks (ops : List Op) : Option (List Ans × List (Option Fail)) :=
  (World.run .init ops).map fun r => (demoPaths.map fun x => r.1.answer x.1 x.2, r.2)

theorem demo_run : asks demoOps = some
    ([.topUp 0, .statusUp 0, .live 0 (.data users), .live 0 (.data users), .live 0 (.data users), .live 0 (.schema users ".ts".toList),
      .live 0 (.row ['m']), .live 0 .query, .user 7, .notFound], [none, none, none, some .undefined]) := by decide +kernel

theorem demo_switch : asks (demoOps ++ [.switch 0]) = some
    ([.down, .down, .down, .down, .down, .down, .down, .down, .user 7, .notFound], [none, none, none, some .undefined, none]) := by
  decide +kernel

theorem demo_destroy : asks (demoOps ++ [.switch 0, .destroy 0]) = some
    ([.notFound, .notFound, .notFound, .notFound, .notFound, .notFound, .notFound, .notFound, .user 7, .notFound],
      [none, none, none, some .undefined, none, none]) := by decide +kernel

/-- A second storage under the same prefix throws, and the first is as it was. -/
theorem demo_second : asks (demoOps ++ [.construct true ['/', 'a', 'p', 'i'] demoFields]) = (asks demoOps).map fun r =>
    (r.1, r.2 ++ [some (.route .exists_)]) := by decide +kernel

/-- A finding: an alias whose path is taken throws, but the path stays recorded; the switch to 503s then takes down the route of
someone else, here the route of the program's own. -/
theorem failed_alias_takes_a_foreign_route_down :
    (World.run .init ([.userRegister "/data/p".toList 7 1, .construct false [] demoFields, .registerAlias 0 users ['p']])).map
      (fun r => (r.1.answer "/data/p".toList 0, r.2)) = some (.user 7, [none, none, some (.route .exists_)]) ∧
    (World.run .init ([.userRegister "/data/p".toList 7 65535, .construct false [] demoFields, .registerAlias 0 users ['p'], .switch 0])).map
      (fun r => (r.1.answer "/data/p".toList 0, r.2)) = some (.down, [none, none, some (.route .exists_), none]) := by
  constructor <;> decide +kernel

/-- A finding: if the foreign route serves fewer numbers of arguments, or is gone by then, the switch itself throws; later aliases stay
up. -/
theorem failed_alias_breaks_the_switch :
    (World.run .init ([.userRegister "/data/p".toList 7 1, .construct false [] demoFields, .registerAlias 0 users ['p'], .userRelease 0,
      .registerAlias 0 users ['q'], .switch 0])).map
      (fun r => (r.1.answer "/data/q".toList 0, r.2)) =
    some (.live 0 (.data users), [none, none, some (.route .exists_), none, none, some (.route .missing)]) := by decide +kernel

/-- A finding: an alias registered after the switch is served, although the storage is said to be down. -/
theorem alias_after_switch_is_live :
    (World.run .init (demoOps ++ [.switch 0, .registerAlias 0 users ['q']])).map
      (fun r => (r.1.answer "/api/data/q".toList 0, r.1.answer "/api/status".toList 0)) = some (.live 0 (.data users), .down) := by
  decide +kernel

/-- The empty target is the commands and queries, which have no name. -/
theorem empty_target_is_cqs :
    (World.run .init (demoOps ++ [.registerAlias 0 [] ['z']])).map
      (fun r => (r.1.answer "/api/cqs/query/z".toList 0, r.1.answer "/api/cqs/command/z".toList 1)) = some (.live 0 .query, .live 0 .command) := by
  decide +kernel

end Current.RestLife
