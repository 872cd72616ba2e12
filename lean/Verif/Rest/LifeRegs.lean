import Verif.Rest.Life
/-!
Lemmas for C114: what registering a list of routes one after the other does.
-/
set_option linter.unusedSectionVars false
namespace Current.RestLife
open Current.Persist Current.Routes

/-- A route to register: path, mask, handler. -/
abbrev Entry := Str × Nat × Hd

def Entry.Covers (e : Entry) (p : Str) (n : Nat) : Prop := Routes.Covers e.1 e.2.1 p n

def Entry.MaskOk (e : Entry) : Prop := e.2.1 ≠ 0 ∧ e.2.1 < 65536

/-- Registering a list, up to the first exception. -/
inductive Regs : Table Hd → Scope → List Entry → Table Hd → Scope → Option Fail → Prop
  | nil (t s) : Regs t s [] t s none
  | ok {t s p m h t1 s1 l t' s' e} : register t p h m .throwOnAttempt = .ok (t1, s1) → Regs t1 (s ++ s1) l t' s' e →
      Regs t s ((p, m, h) :: l) t' s' e
  | fail {t s p m h l e} : register t p h m .throwOnAttempt = .error e → Regs t s ((p, m, h) :: l) t s (some (.route e))

theorem register_frame {t : Table Hd} {s F : Scope} (ht : Tied ⟨t, [s, F]⟩) {p : Str} {m : Nat} {h : Hd} (h0 : m ≠ 0) (hm : m < 65536)
    {t1 : Table Hd} {s1 : Scope} (hr : register t p h m .throwOnAttempt = .ok (t1, s1)) :
    s1 = [(p, m)] ∧ ValidPath p ∧ (∀ n, Routes.Covers p m p n → t.view p n = none) ∧ Tied ⟨t1, [s ++ s1, F]⟩ ∧
      ∀ q n, t1.view q n = if Routes.Covers p m q n then some h else t.view q n := by
  have hs := register_scope _ _ _ h0 _ _ _ hr
  have hok := (register_ok t p h h0 .throwOnAttempt).1 ⟨_, hr⟩
  refine ⟨by simpa using hs, hok.1, ?_, ?_, register_view _ _ _ _ _ _ _ hr⟩
  · intro n hc
    have := hok.2 n hc
    simpa using this
  · obtain ⟨w', hw, htw⟩ := tied_step ht (.register p h m .throwOnAttempt) hm
    simp only [Routes.World.step, hr] at hw
    injection hw with hw
    subst hw
    refine htw.perm ?_
    simp only [List.cons_append, List.nil_append, List.flatten_cons, List.flatten_nil, List.append_nil]
    rw [List.append_assoc]
    exact List.Perm.append_left _ List.perm_append_comm

/-- What the list registered did to the table. -/
structure RegsSpec (t : Table Hd) (s F : Scope) (l : List Entry) (t' : Table Hd) (s' : Scope) (e : Option Fail) (done : List Entry) : Prop where
  tied : Tied ⟨t', [s', F]⟩
  sub : done <+: l
  all : e = none → done = l
  one : e ≠ none → ∃ x, done ++ [x] <+: l
  scope : s' = s ++ done.map fun x => (x.1, x.2.1)
  valid : ∀ x ∈ done, ValidPath x.1
  free : ∀ x ∈ done, ∀ p n, x.Covers p n → t.view p n = none
  apart : done.Pairwise fun x y => ∀ p n, x.Covers p n → ¬ y.Covers p n
  hit : ∀ x ∈ done, ∀ p n, x.Covers p n → t'.view p n = some x.2.2
  miss : ∀ p n, (∀ x ∈ done, ¬ x.Covers p n) → t'.view p n = t.view p n

theorem regs_spec {t : Table Hd} {s F : Scope} {l : List Entry} {t' : Table Hd} {s' : Scope} {e : Option Fail} (hr : Regs t s l t' s' e)
    (ht : Tied ⟨t, [s, F]⟩) (hm : ∀ x ∈ l, x.MaskOk) : ∃ done, RegsSpec t s F l t' s' e done := by
  induction hr with
  | nil t s =>
    exact ⟨[], ⟨ht, List.prefix_rfl, fun _ => rfl, by simp, by simp, by simp, by simp, by simp, by simp, by simp⟩⟩
  | @fail t s p m h l e hf =>
    exact ⟨[], ⟨ht, by simp, by simp, fun _ => ⟨(p, m, h), by simp⟩, by simp, by simp, by simp, by simp, by simp, by simp⟩⟩
  | @ok t s p m h t1 s1 l t' s' e hreg hrest ih =>
    have hm1 := hm (p, m, h) (by simp)
    obtain ⟨rfl, hv, hfree, ht1, hview⟩ := register_frame ht hm1.1 hm1.2 hreg
    obtain ⟨done, d⟩ := ih ht1 fun x hx => hm x (by simp [hx])
    have hfr : ∀ q n, Routes.Covers p m q n → t.view q n = none := by
      rintro q n ⟨rfl, hc⟩
      exact hfree n ⟨rfl, hc⟩
    have hap : ∀ x ∈ done, ∀ q n, Routes.Covers p m q n → ¬ x.Covers q n := by
      intro x hx q n h1 h2
      have := d.free x hx q n h2
      rw [hview, if_pos h1] at this
      cases this
    refine ⟨(p, m, h) :: done, ⟨d.tied, ?_, ?_, ?_, ?_, ?_, ?_, ?_, ?_, ?_⟩⟩
    · exact List.prefix_cons_inj _ |>.2 d.sub
    · intro he; rw [d.all he]
    · intro he
      obtain ⟨x, hx⟩ := d.one he
      exact ⟨x, List.prefix_cons_inj _ |>.2 hx⟩
    · rw [d.scope]; simp
    · intro x hx
      rcases List.mem_cons.1 hx with rfl | hx
      · exact hv
      · exact d.valid x hx
    · intro x hx q n hc
      rcases List.mem_cons.1 hx with rfl | hx
      · exact hfr q n hc
      · have := d.free x hx q n hc
        rw [hview] at this
        split at this
        · cases this
        · exact this
    · rw [List.pairwise_cons]
      exact ⟨fun x hx q n h1 => hap x hx q n h1, d.apart⟩
    · intro x hx q n hc
      rcases List.mem_cons.1 hx with rfl | hx
      · rw [d.miss q n (fun y hy => hap y hy q n hc), hview]; exact if_pos hc
      · exact d.hit x hx q n hc
    · intro q n hn
      rw [d.miss q n (fun y hy => hn y (by simp [hy])), hview]
      exact if_neg (hn (p, m, h) (by simp))

/-- A list is registered completely if its paths are valid, its routes are apart and free. -/
theorem regs_ok {t : Table Hd} {s : Scope} {l : List Entry} {t' : Table Hd} {s' : Scope} {e : Option Fail} (hr : Regs t s l t' s' e)
    (hm : ∀ x ∈ l, x.MaskOk) (hv : ∀ x ∈ l, ValidPath x.1) (ha : l.Pairwise fun x y => ∀ p n, x.Covers p n → ¬ y.Covers p n)
    (hf : ∀ x ∈ l, ∀ p n, x.Covers p n → t.view p n = none) : e = none := by
  induction hr with
  | nil t s => rfl
  | @fail t s p m h l e hreg =>
    have hm1 := hm (p, m, h) (by simp)
    obtain ⟨r, hr⟩ := (register_ok t p h hm1.1 .throwOnAttempt).2 ⟨hv _ (List.mem_cons_self ..), by
      intro n hc
      rw [hf (p, m, h) (by simp) p n hc]
      simp⟩
    rw [hr] at hreg
    cases hreg
  | @ok t s p m h t1 s1 l t' s' e hreg hrest ih =>
    rw [List.pairwise_cons] at ha
    refine ih (fun x hx => hm x (by simp [hx])) (fun x hx => hv x (by simp [hx])) ha.2 ?_
    intro x hx q n hc
    rw [register_view _ _ _ _ _ _ _ hreg, if_neg (show ¬ Routes.Covers p m q n from fun h1 => ha.1 x hx q n h1 hc)]
    exact hf x (by simp [hx]) q n hc

theorem regs_append {t : Table Hd} {s : Scope} {l1 l2 : List Entry} {t1 t' : Table Hd} {s1 s' : Scope} {e1 e : Option Fail}
    (h1 : Regs t s l1 t1 s1 e1) (hn : e1 = none) (h2 : Regs t1 s1 l2 t' s' e) : Regs t s (l1 ++ l2) t' s' e := by
  induction h1 with
  | nil t s => exact h2
  | fail hr => cases hn
  | ok hr hrest ih => exact .ok hr (ih hn h2)

theorem regs_append_fail {t : Table Hd} {s : Scope} {l1 : List Entry} (l2 : List Entry) {t1 : Table Hd} {s1 : Scope} {e : Option Fail}
    (h1 : Regs t s l1 t1 s1 e) (hn : e ≠ none) : Regs t s (l1 ++ l2) t1 s1 e := by
  induction h1 with
  | nil t s => exact absurd rfl hn
  | fail hr => exact .fail hr
  | ok hr hrest ih => exact .ok hr (ih hn)

/-! ### The procedures register lists -/

def entryOf (id : Nat) (pre : Str) (x : Str × Route) : Entry := (pathOf pre x.1 x.2, x.2.mask, .own id x.2.ep)

/-- What the object records. -/
structure Recorded (o o' : Obj) (e : Option Fail) : Prop where
  pre : o'.pre = o.pre
  handlers : o'.handlers = o.handlers
  up : o'.up = o.up
  keeps : ∀ x ∈ o.routes, x ∈ o'.routes
  records : ∀ x ∈ o'.scope, x ∈ o.scope ∨ x ∈ o'.routes
  owned : e = none → ∀ x ∈ o'.routes, x ∈ o.routes ∨ x ∈ o'.scope
  masks : (∀ x ∈ o.routes, x.2 ≠ 0 ∧ x.2 < 65536) → ∀ x ∈ o'.routes, x.2 ≠ 0 ∧ x.2 < 65536

theorem registerRoutes_regs (id : Nat) (l : List (Str × Route)) (hm : ∀ x ∈ l, x.2.mask ≠ 0 ∧ x.2.mask < 65536) (t : Table Hd) (o : Obj) (t' : Table Hd)
    (o' : Obj) (e : Option Fail) (h : registerRoutes id t o l = (t', o', e)) :
    Regs t o.scope (l.map (entryOf id o.pre)) t' o'.scope e ∧ Recorded o o' e ∧ ∀ x ∈ o.scope, x ∈ o'.scope := by
  induction l generalizing t o with
  | nil =>
    simp only [registerRoutes, Prod.mk.injEq] at h
    obtain ⟨rfl, rfl, rfl⟩ := h
    exact ⟨.nil _ _, ⟨rfl, rfl, rfl, fun _ h => h, fun _ h => Or.inl h, fun _ _ h => Or.inl h, fun h => h⟩, fun _ h => h⟩
  | cons x l ih =>
    obtain ⟨name, r⟩ := x
    simp only [registerRoutes, registerRoute] at h
    cases hr : register t (pathOf o.pre name r) (.own id r.ep) r.mask .throwOnAttempt with
    | error e1 =>
      rw [hr] at h
      simp only [Prod.mk.injEq] at h
      obtain ⟨rfl, rfl, rfl⟩ := h
      refine ⟨.fail hr, ⟨rfl, rfl, rfl, ?_, fun _ h => Or.inl h, by simp, ?_⟩, fun _ h => h⟩
      · intro x hx
        simp [hx]
      · intro h x hx
        simp only [List.mem_append, List.mem_singleton] at hx
        rcases hx with hx | rfl
        · exact h x hx
        · exact hm (name, r) (by simp)
    | ok q =>
      obtain ⟨t1, s1⟩ := q
      rw [hr] at h
      simp only at h
      have hs := register_scope _ _ _ (hm (name, r) (by simp)).1 _ _ _ hr
      simp only [reduceCtorEq, if_false] at hs
      subst hs
      obtain ⟨h1, h2, h3⟩ := ih (fun x hx => hm x (by simp [hx])) _ _ h
      have hk := h2.keeps
      have hrec := h2.records
      have how := h2.owned
      refine ⟨.ok hr h1, ⟨h2.pre, h2.handlers, h2.up, ?_, ?_, ?_, ?_⟩, ?_⟩
      · intro x hx
        exact hk x (by simp [hx])
      · intro x hx
        rcases hrec x hx with h | h
        · simp only [List.mem_append, List.mem_singleton] at h
          rcases h with h | rfl
          · exact Or.inl h
          · exact Or.inr (hk _ (by simp))
        · exact Or.inr h
      · intro he x hx
        rcases how he x hx with h | h
        · simp only [List.mem_append, List.mem_singleton] at h
          rcases h with h | rfl
          · exact Or.inl h
          · exact Or.inr (h3 _ (by simp))
        · exact Or.inr h
      · intro h
        refine h2.masks ?_
        intro x hx
        simp only [List.mem_append, List.mem_singleton] at hx
        rcases hx with hx | rfl
        · exact h x hx
        · exact hm (name, r) (by simp)
      · intro x hx
        exact h3 x (by simp [hx])

end Current.RestLife
