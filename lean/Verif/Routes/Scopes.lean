import Verif.Routes.Table
/-!
Scopes: a program that registers routes and lets the scopes it was given go away, in any order, merged in any way (C59).
-/
namespace Current.Routes
open Current.Persist Current.Url

variable {H : Type}

/-- What a program does with the server: `Register`, `scope1 += std::move(scope2)`, and the end of a scope. Scopes are named by
their position among those alive; a position past the end is a call that is not made. -/
inductive Op (H : Type) where
  | register (path : Str) (h : H) (mask : Nat) (policy : Policy)
  | merge (i j : Nat)
  | release (i : Nat)

/-- The server and the scopes alive. -/
structure World (H : Type) where
  table : Table H
  scopes : List Scope

/-- One call; an exception of `Register` is caught by the caller. `none`: the program terminates.
`operator+=`, `accumulative_scoped_deleter.h:69-76`: the entries of the right hand side go behind those of the left. -/
def World.step (w : World H) : Op H → Option (World H)
  | .register path h mask policy =>
    match register w.table path h mask policy with
    | .ok (t, s) => some ⟨t, w.scopes ++ [s]⟩
    | .error _ => some w
  | .merge i j =>
    match w.scopes[i]? with
    | none => some w
    | some a =>
      match (w.scopes.eraseIdx i)[j]? with
      | none => some w
      | some b => some ⟨w.table, (w.scopes.eraseIdx i).eraseIdx j ++ [a ++ b]⟩
  | .release i =>
    match w.scopes[i]? with
    | none => some w
    | some s => (release w.table s).map fun t => ⟨t, w.scopes.eraseIdx i⟩

def World.run (w : World H) : List (Op H) → Option (World H)
  | [] => some w
  | o :: rest => (w.step o).bind fun w' => w'.run rest

/-- `CountMask` is `uint16_t`. -/
def Op.Fits : Op H → Prop
  | .register _ _ mask _ => mask < 65536
  | _ => True

/-- A scope stands for a route. -/
def InScope (s : Scope) (p : Str) (n : Nat) : Prop := ∃ e ∈ s, Covers e.1 e.2 p n

def Apart (a b : Str × Nat) : Prop := ∀ p n, Covers a.1 a.2 p n → ¬ Covers b.1 b.2 p n

theorem Apart.symm {a b : Str × Nat} (h : Apart a b) : Apart b a := fun p n hb ha => h p n ha hb

theorem releaseLoop_spec {t : Table H} (g : Good t) (s : Scope) (hd : s.Pairwise Apart) (hp : ∀ p n, InScope s p n → (t.view p n).isSome) :
    ∃ t', releaseLoop t s = some t' ∧ Good t' ∧ (∀ p n, InScope s p n → t'.view p n = none) ∧
      ∀ p n, ¬ InScope s p n → t'.view p n = t.view p n := by
  induction s generalizing t with
  | nil => exact ⟨t, rfl, g, by simp [InScope], by simp⟩
  | cons e s ih =>
    obtain ⟨path, mask⟩ := e
    rw [List.pairwise_cons] at hd
    have hok : (unregister t path mask).2 = none := by
      rw [unregister_ok g]
      intro n hn
      exact hp path n ⟨(path, mask), by simp, hn⟩
    have hv := unregister_view g path mask hok
    have g' := unregister_good g path mask
    obtain ⟨t', h1, h2, h3, h4⟩ := ih g' hd.2 (by
      rintro p n ⟨e, he, hc⟩
      rw [hv, if_neg (fun h => hd.1 e he p n h hc)]
      exact hp p n ⟨e, by simp [he], hc⟩)
    refine ⟨t', ?_, h2, ?_, ?_⟩
    · unfold releaseLoop
      cases hu : unregister t path mask with
      | mk t1 o =>
        rw [hu] at hok h1
        simp only at hok
        subst hok
        exact h1
    · rintro p n ⟨e, he, hc⟩
      by_cases hs : InScope s p n
      · exact h3 p n hs
      · rw [h4 p n hs, hv]
        rcases List.mem_cons.1 he with rfl | he
        · rw [if_pos hc]
        · exact absurd ⟨e, he, hc⟩ hs
    · intro p n hn
      rw [h4 p n (fun ⟨e, he, hc⟩ => hn ⟨e, by simp [he], hc⟩), hv, if_neg (fun h => hn ⟨(path, mask), by simp, h⟩)]

/-- The end of a scope removes its routes and nothing else. -/
theorem release_spec {t : Table H} (g : Good t) (s : Scope) (hd : s.Pairwise Apart) (hp : ∀ p n, InScope s p n → (t.view p n).isSome) :
    ∃ t', release t s = some t' ∧ Good t' ∧ (∀ p n, InScope s p n → t'.view p n = none) ∧
      ∀ p n, ¬ InScope s p n → t'.view p n = t.view p n := by
  have hr : ∀ p n, InScope s.reverse p n ↔ InScope s p n := by intro p n; simp [InScope]
  have := releaseLoop_spec g s.reverse (by
    rw [List.pairwise_reverse]
    exact hd.imp fun h => h.symm) (by simpa only [hr] using hp)
  simp only [hr] at this
  exact this

/-- Routes and live scopes fit together. -/
structure Tied (w : World H) : Prop where
  good : Good w.table
  apart : w.scopes.flatten.Pairwise Apart
  exact_ : ∀ p n, (w.table.view p n).isSome ↔ InScope w.scopes.flatten p n

theorem Tied.perm {w : World H} {l : List Scope} (h : Tied w) (hp : List.Perm w.scopes.flatten l.flatten) : Tied ⟨w.table, l⟩ := by
  refine ⟨h.good, ?_, ?_⟩
  · exact (hp.pairwise_iff (fun h => h.symm)).1 h.apart
  · intro p n
    rw [h.exact_ p n]
    unfold InScope
    simp only [hp.mem_iff]

theorem eraseIdx_flatten_perm {l : List Scope} {i : Nat} {a : Scope} (h : l[i]? = some a) : List.Perm l.flatten (a ++ (l.eraseIdx i).flatten) := by
  induction l generalizing i with
  | nil => simp at h
  | cons x l ih =>
    cases i with
    | zero => simp at h; subst h; simp
    | succ i =>
      simp only [List.getElem?_cons_succ] at h
      simp only [List.eraseIdx_cons_succ, List.flatten_cons]
      refine (List.Perm.append_left x (ih h)).trans ?_
      rw [← List.append_assoc, ← List.append_assoc]
      exact List.Perm.append_right _ List.perm_append_comm

theorem tied_step {w : World H} (ht : Tied w) (o : Op H) (hf : o.Fits) : ∃ w', w.step o = some w' ∧ Tied w' := by
  cases o with
  | register path h mask policy =>
    cases hr : register w.table path h mask policy with
    | error e => exact ⟨w, by simp [World.step, hr], ht⟩
    | ok r =>
      obtain ⟨t, s⟩ := r
      refine ⟨⟨t, w.scopes ++ [s]⟩, by simp [World.step, hr], ?_⟩
      have hv := register_view _ _ _ _ _ _ _ hr
      by_cases h0 : mask = 0
      · subst h0
        have : t = w.table ∧ s = [] := by
          unfold register at hr
          simp at hr
          exact ⟨hr.1.symm, hr.2⟩
        obtain ⟨rfl, rfl⟩ := this
        exact ht.perm (by simp)
      · have hs := register_scope _ _ _ h0 _ _ _ hr
        have hok := (register_ok w.table path h h0 policy).1 ⟨_, hr⟩
        have gg := register_good ht.good _ _ hf _ _ _ hr
        cases policy with
        | silentlyUpdate =>
          simp only [if_true] at hs
          subst hs
          refine ⟨gg, by simpa using ht.apart, ?_⟩
          intro p n
          simp only [List.flatten_append, List.flatten_cons, List.flatten_nil, List.append_nil]
          rw [hv, ← ht.exact_ p n]
          split
          · rename_i hc
            have := hok.2 n (by obtain ⟨rfl, h⟩ := hc; exact ⟨rfl, h⟩)
            obtain ⟨rfl, _⟩ := hc
            simpa using this
          · rfl
        | throwOnAttempt =>
          simp only [reduceCtorEq, if_false] at hs
          subst hs
          refine ⟨gg, ?_, ?_⟩
          · simp only [List.flatten_append, List.flatten_cons, List.flatten_nil, List.append_nil]
            rw [List.pairwise_append]
            refine ⟨ht.apart, by simp, ?_⟩
            intro e he b hb
            simp only [List.mem_singleton] at hb
            subst hb
            intro p n h1 h2
            have h3 := (ht.exact_ p n).2 ⟨e, he, h1⟩
            obtain ⟨rfl, h2⟩ := h2
            have := hok.2 n ⟨rfl, h2⟩
            simp [h3] at this
          · intro p n
            simp only [List.flatten_append, List.flatten_cons, List.flatten_nil, List.append_nil]
            rw [hv]
            have hin : InScope (w.scopes.flatten ++ [(path, mask)]) p n ↔ InScope w.scopes.flatten p n ∨ Covers path mask p n := by
              simp only [InScope, List.mem_append, List.mem_singleton]
              constructor
              · rintro ⟨e, he | rfl, hc⟩
                · exact Or.inl ⟨e, he, hc⟩
                · exact Or.inr hc
              · rintro (⟨e, he, hc⟩ | hc)
                · exact ⟨e, Or.inl he, hc⟩
                · exact ⟨_, Or.inr rfl, hc⟩
            rw [hin, ← ht.exact_ p n]
            split
            · rename_i hc; simp [hc]
            · rename_i hc; simp [hc]
  | merge i j =>
    cases h1 : w.scopes[i]? with
    | none => exact ⟨w, by simp [World.step, h1], ht⟩
    | some a =>
      cases h2 : (w.scopes.eraseIdx i)[j]? with
      | none => exact ⟨w, by simp [World.step, h1, h2], ht⟩
      | some b =>
        refine ⟨⟨w.table, (w.scopes.eraseIdx i).eraseIdx j ++ [a ++ b]⟩, by simp [World.step, h1, h2], ?_⟩
        apply ht.perm
        have p1 := eraseIdx_flatten_perm h1
        have p2 := eraseIdx_flatten_perm h2
        refine p1.trans ((p2.append_left a).trans ?_)
        simp only [List.flatten_append, List.flatten_cons, List.flatten_nil, List.append_nil]
        rw [← List.append_assoc]
        exact List.perm_append_comm
  | release i =>
    cases h1 : w.scopes[i]? with
    | none => exact ⟨w, by simp [World.step, h1], ht⟩
    | some a =>
      have p1 := eraseIdx_flatten_perm h1
      have ht' : Tied ⟨w.table, [a, (w.scopes.eraseIdx i).flatten]⟩ := ht.perm (by simpa using p1)
      have hap := ht'.apart
      simp only [List.flatten_cons, List.flatten_nil, List.append_nil] at hap
      rw [List.pairwise_append] at hap
      obtain ⟨t', r1, r2, r3, r4⟩ := release_spec ht.good a hap.1 (by
        rintro p n ⟨e, he, hc⟩
        exact (ht'.exact_ p n).2 ⟨e, by simp [he], hc⟩)
      refine ⟨⟨t', w.scopes.eraseIdx i⟩, by simp [World.step, h1, r1], r2, hap.2.1, ?_⟩
      intro p n
      have hx := ht'.exact_ p n
      by_cases hc : InScope a p n
      · simp only [r3 p n hc, Option.isSome_none, Bool.false_eq_true, false_iff]
        rintro ⟨e, he, h2⟩
        obtain ⟨e', he', h1'⟩ := hc
        exact hap.2.2 e' he' e he p n h1' h2
      · simp only
        rw [r4 p n hc, hx]
        simp only [List.flatten_cons, List.flatten_nil, List.append_nil]
        constructor
        · rintro ⟨e, he, h2⟩
          rcases List.mem_append.1 he with he | he
          · exact absurd ⟨e, he, h2⟩ hc
          · exact ⟨e, he, h2⟩
        · rintro ⟨e, he, h2⟩
          exact ⟨e, by simp only [List.mem_append]; exact Or.inr he, h2⟩

theorem tied_run {w : World H} (ht : Tied w) (ops : List (Op H)) (hf : ∀ o ∈ ops, o.Fits) : ∃ w', w.run ops = some w' ∧ Tied w' := by
  induction ops generalizing w with
  | nil => exact ⟨w, rfl, ht⟩
  | cons o ops ih =>
    obtain ⟨w', h1, h2⟩ := tied_step ht o (hf o (by simp))
    obtain ⟨w'', h3, h4⟩ := ih h2 fun o ho => hf o (by simp [ho])
    exact ⟨w'', by simp [World.run, h1, h3], h4⟩

/-- C59: a program that leaves unregistering to its scopes, in any order, merging and updating at will, never terminates in a
destructor, and at each point the server serves exactly the routes of the scopes alive. -/
theorem scopes_own_routes (ops : List (Op H)) (hf : ∀ o ∈ ops, o.Fits) :
    ∃ w : World H, World.run ⟨[], []⟩ ops = some w ∧
      (∀ p n, (w.table.view p n).isSome ↔ ∃ s ∈ w.scopes, ∃ e ∈ s, Covers e.1 e.2 p n) ∧
      ∃ paths : List Str, paths.Nodup ∧ (∀ p, p ∈ paths ↔ ∃ n, (w.table.view p n).isSome) ∧ w.table.count = paths.length := by
  obtain ⟨w, h1, h2⟩ := tied_run (w := ⟨[], []⟩) ⟨good_empty, by simp, by simp [Table.view, assocFind, InScope]⟩ ops hf
  refine ⟨w, h1, ?_, count_is h2.good⟩
  intro p n
  rw [h2.exact_ p n]
  constructor
  · rintro ⟨e, he, hc⟩
    obtain ⟨s, hs, he⟩ := List.mem_flatten.1 he
    exact ⟨s, hs, e, he, hc⟩
  · rintro ⟨s, hs, e, he, hc⟩
    exact ⟨e, List.mem_flatten.2 ⟨s, hs, he⟩, hc⟩

/-- C59: registering and letting the scope end gives back the table there was. -/
theorem register_release {t : Table H} (g : Good t) (path : Str) (h : H) {mask : Nat} (hm : mask < 65536) (t' : Table H) (s : Scope)
    (hr : register t path h mask .throwOnAttempt = .ok (t', s)) :
    ∃ t'', release t' s = some t'' ∧ ∀ p n, t''.view p n = t.view p n := by
  by_cases h0 : mask = 0
  · subst h0
    have : t = t' ∧ s = [] := by
      unfold register at hr
      simp at hr
      exact ⟨hr.1, hr.2⟩
    obtain ⟨rfl, rfl⟩ := this
    exact ⟨t, rfl, fun _ _ => rfl⟩
  · have hs := register_scope _ _ _ h0 _ _ _ hr
    simp only [reduceCtorEq, if_false] at hs
    subst hs
    have hv := register_view _ _ _ _ _ _ _ hr
    have hok := (register_ok t path h h0 .throwOnAttempt).1 ⟨_, hr⟩
    have hin : ∀ p n, InScope [(path, mask)] p n ↔ Covers path mask p n := by simp [InScope]
    obtain ⟨t'', h1, _, h3, h4⟩ := release_spec (register_good g _ _ hm _ _ _ hr) [(path, mask)] (by simp) (by
      intro p n hc
      rw [hin] at hc
      rw [hv, if_pos hc]; rfl)
    refine ⟨t'', h1, ?_⟩
    intro p n
    by_cases hc : Covers path mask p n
    · rw [h3 p n ((hin p n).2 hc)]
      obtain ⟨rfl, hc⟩ := hc
      have := hok.2 n ⟨rfl, hc⟩
      simp at this
      exact this.symm
    · rw [h4 p n (fun h => hc ((hin p n).1 h)), hv, if_neg hc]

/-- A finding: a route unregistered by hand makes the destructor of its scope throw, which terminates the program. -/
theorem unregister_then_release_terminates {t : Table H} (g : Good t) (path : Str) {mask : Nat} (h0 : mask ≠ 0) (hm : mask < 65536)
    (hok : (unregister t path mask).2 = none) : release (unregister t path mask).1 [(path, mask)] = none := by
  have g' := unregister_good g path mask
  have hv := unregister_view g path mask hok
  have hn : (unregister (unregister t path mask).1 path mask).2 ≠ none := by
    intro hc
    rw [unregister_ok g'] at hc
    obtain ⟨i, hi⟩ := List.exists_mem_of_ne_nil _ (counts_ne_nil h0 hm)
    have hcov : Covers path mask path i := ⟨rfl, (mem_counts _ _).1 hi⟩
    have := hc i hcov
    rw [hv, if_pos hcov] at this
    cases this
  unfold release
  simp only [List.reverse_cons, List.reverse_nil, List.nil_append, releaseLoop]
  split
  · rename_i h; rw [h] at hn; exact absurd rfl hn
  · rfl

end Current.Routes
