import Verif.EventStore.Props
set_option linter.unusedSimpArgs false
set_option linter.unusedVariables false

/-! # The event store: theorems on all histories, with restarts and crashes. -/

namespace Current.EventStore
open Current.Persist

variable {Key Ev X : Type} [DecidableEq Key]

/-- After any history, `GET` answers with an event exactly if a transaction of the log has put it, and no two events of the log have one key. -/
theorem get_is_log (cfg : Cfg Key Ev X) (os : List (Op Key Ev)) :
    let s := (run cfg (fresh cfg) os).1
    ((stored s.log).map cfg.key).Nodup ∧
    ∀ k, ((step cfg s (.get k)).2 = some .notFound ∧ ∀ e ∈ stored s.log, cfg.key e ≠ k) ∨
         (∃ e ∈ stored s.log, cfg.key e = k ∧ (step cfg s (.get k)).2 = some (.event e)) := by
  intro s
  have h : Inv cfg s := (inv_fresh cfg).run os
  refine ⟨h.keys, fun k => ?_⟩
  cases hk : s.db k with
  | none =>
    refine Or.inl ⟨by simp only [step, hk], ?_⟩
    intro e he hek
    have := (h.get k e).2 ⟨he, hek⟩
    rw [hk] at this; cases this
  | some e =>
    have := (h.get k e).1 hk
    exact Or.inr ⟨e, this.1, this.2, by simp only [step, hk]⟩

/-- An event which is in the dictionary stays there, whatever happens. -/
theorem db_kept {cfg : Cfg Key Ev X} {s : St Key Ev X} (h : Inv cfg s) {k : Key} {e : Ev} (he : s.db k = some e) (os : List (Op Key Ev)) :
    (run cfg s os).1.db k = some e := by
  have hmem := (h.get k e).1 he
  have key : ∀ os (s' : St Key Ev X), Inv cfg s' → e ∈ stored s'.log → (run cfg s' os).1.db k = some e := by
    intro os
    induction os with
    | nil => intro s' h' hm; exact (h'.get k e).2 ⟨hm, hmem.2⟩
    | cons o os ih =>
      intro s' h' hm
      refine ih _ (h'.step o) ?_
      cases o with
      | get k => exact hm
      | follow => simp only [step, follow]; repeat' split
                  all_goals exact hm
      | restart => exact hm
      | post e' t1 t2 c =>
        simp only [step, post, start]
        repeat' split
        all_goals first
          | exact hm
          | (simp only [stored_append]; exact List.mem_append_left _ hm)
          | (simp only [stored_append]; exact List.mem_append_left _ (List.mem_append_left _ hm))
  exact key os s h hmem.1

/-- What was acknowledged with `201 Created` is there for good: after any further history, with restarts and crashes, `GET` returns it, and `POST` of an event with the same key publishes nothing and answers "already published" or "conflict". -/
theorem created_is_kept (cfg : Cfg Key Ev X) (os os' : List (Op Key Ev)) (e : Ev) (t1 t2 : Nat) (c : Option Crash)
    (hc : (step cfg (run cfg (fresh cfg) os).1 (.post e t1 t2 c)).2 = some .created) :
    let s := (run cfg (step cfg (run cfg (fresh cfg) os).1 (.post e t1 t2 c)).1 os').1
    (step cfg s (.get (cfg.key e))).2 = some (.event e) ∧
    ∀ e' u1 u2, cfg.key e' = cfg.key e →
      step cfg s (.post e' u1 u2 none) = (s, some (if cfg.json e = cfg.json e' then .already else .conflict)) := by
  intro s
  have h0 : Inv cfg (run cfg (fresh cfg) os).1 := (inv_fresh cfg).run os
  have h1 := h0.step (.post e t1 t2 c)
  have hdb : (step cfg (run cfg (fresh cfg) os).1 (.post e t1 t2 c)).1.db (cfg.key e) = some e := by
    revert hc
    simp only [step, post]
    repeat' split
    all_goals simp [put]
  have h2 := db_kept h1 hdb os'
  have h2 : s.db (cfg.key e) = some e := h2
  refine ⟨by simp only [step, h2], ?_⟩
  intro e' u1 u2 hk
  simp only [step, post, hk, h2]

/-- No key is created twice. -/
theorem created_once (cfg : Cfg Key Ev X) (os os' : List (Op Key Ev)) (e e' : Ev) (t1 t2 u1 u2 : Nat) (c c' : Option Crash)
    (hc : (step cfg (run cfg (fresh cfg) os).1 (.post e t1 t2 c)).2 = some .created) (hk : cfg.key e' = cfg.key e) :
    (step cfg (run cfg (step cfg (run cfg (fresh cfg) os).1 (.post e t1 t2 c)).1 os').1 (.post e' u1 u2 c')).2 ≠ some .created := by
  have h2 := (created_is_kept cfg os os' e t1 t2 c hc).1
  generalize (run cfg (step cfg (run cfg (fresh cfg) os).1 (.post e t1 t2 c)).1 os').1 = s at h2 ⊢
  have hdb : s.db (cfg.key e') = some e := by
    rw [hk]
    simp only [step] at h2
    split at h2
    · rename_i h; rw [h]; simpa using h2
    · simp at h2
  simp only [step, post, hdb]
  repeat' split
  all_goals simp

/-- An event is announced right before it is stored. -/
theorem stored_was_announced (cfg : Cfg Key Ev X) (os : List (Op Key Ev)) (pre post : List (Entry Ev X × Nat)) (e : Ev) (t : Nat)
    (h : (run cfg (fresh cfg) os).1.log = pre ++ (.tx e, t) :: post) : ∃ pre' t', t' < t ∧ pre = pre' ++ [(.extra (cfg.announce e), t')] :=
  ((inv_fresh cfg).run os).before pre post e t h

/-- `/subscribe` shows a prefix of the announcements of the log, in order and with their timestamps; the follower never fails. -/
theorem subscribe_is_prefix (cfg : Cfg Key Ev X) (os : List (Op Key Ev)) :
    let s := (run cfg (fresh cfg) os).1
    s.ro <+: announced s.log ∧ s.broken = false := by
  intro s
  have h : Inv cfg s := (inv_fresh cfg).run os
  refine ⟨?_, h.ok⟩
  rw [h.ro]
  conv => rhs; rw [← List.take_append_drop s.pos s.log]
  rw [announced_append]
  exact List.prefix_append _ _

/-- And all of them after at most as many steps of the follower as there are entries. -/
theorem subscribe_catches_up (cfg : Cfg Key Ev X) (os : List (Op Key Ev)) (n : Nat) (hn : (run cfg (fresh cfg) os).1.log.length ≤ n) :
    (run cfg (run cfg (fresh cfg) os).1 (List.replicate n .follow)).1.ro = announced (run cfg (fresh cfg) os).1.log := by
  have h : Inv cfg (run cfg (fresh cfg) os).1 := (inv_fresh cfg).run os
  generalize (run cfg (fresh cfg) os).1 = s at h hn
  have key : ∀ n (s : St Key Ev X), Inv cfg s → s.log.length ≤ n + s.pos → (run cfg s (List.replicate n .follow)).1.ro = announced s.log := by
    intro n
    induction n with
    | zero =>
      intro s h hle
      show s.ro = _
      rw [h.ro, List.take_of_length_le (by omega)]
    | succ n ih =>
      intro s h hle
      have hf : Inv cfg (follow s) := h.follow
      have hlog : (follow s).log = s.log := by unfold follow; repeat' split
                                               all_goals rfl
      show (run cfg (follow s) (List.replicate n .follow)).1.ro = _
      by_cases hp : s.pos < s.log.length
      · have hpos : (follow s).pos = s.pos + 1 := by
          have hb := hf.ok
          revert hb
          unfold follow
          rw [List.getElem?_eq_getElem hp]
          repeat' split
          all_goals simp_all
        rw [ih _ hf (by rw [hlog, hpos]; omega), hlog]
      · have hsame : follow s = s := by
          unfold follow
          rw [List.getElem?_eq_none (by omega)]
        rw [hsame]
        exact ih s h (by omega)
  exact key n s h (by omega)

/-- A history in which no process dies between an announcement and its transaction. -/
def NoOrphan (cfg : Cfg Key Ev X) (s : St Key Ev X) : List (Op Key Ev) → Prop
  | [] => True
  | o :: os => (match o with | .post _ t1 t2 c => (match c with | some .between => False | _ => True) ∧ t1 < t2 | _ => True) ∧ NoOrphan cfg (step cfg s o).1 os

theorem announced_exactly_from {cfg : Cfg Key Ev X} {s : St Key Ev X} (h : Inv cfg s) (hs : (announced s.log).map (·.1) = (stored s.log).map cfg.announce)
    (os : List (Op Key Ev)) (ho : NoOrphan cfg s os) :
    (announced (run cfg s os).1.log).map (·.1) = (stored (run cfg s os).1.log).map cfg.announce := by
  induction os generalizing s with
  | nil => exact hs
  | cons o os ih =>
    refine ih (h.step o) ?_ ho.2
    have ho := ho.1
    cases o with
    | get k => exact hs
    | follow => simp only [step, follow]; repeat' split
                all_goals exact hs
    | restart => exact hs
    | post e t1 t2 c =>
      simp only at ho
      simp only [step, post, start]
      split
      · exact hs
      · split
        · exact hs
        · split
          · rename_i ht1
            split
            · exact ho.1.elim
            · have hnew : (announced (s.log ++ [(Entry.extra (cfg.announce e), t1)] ++ [(Entry.tx e, t2)])).map (·.1) =
                  (stored (s.log ++ [(Entry.extra (cfg.announce e), t1)] ++ [(Entry.tx e, t2)])).map cfg.announce := by
                simp only [announced_append, stored_append, List.map_append, hs]
                simp [announced, stored]
              split
              · split
                · exact hnew
                · exact hnew
              · rename_i ht2
                exfalso
                apply ht2
                rw [tsOk_iff (h.sorted.snoc ht1)]
                intro p hp
                rcases List.mem_append.1 hp with hp | hp
                · have := (tsOk_iff h.sorted t1).1 ht1 p hp
                  omega
                · simp at hp; subst hp; exact ho.2
          · exact hs

/-- If no process dies between an announcement and its transaction, then the announcements are exactly those of the stored events, each once, in order. -/
theorem announced_exactly_partial (cfg : Cfg Key Ev X) (os : List (Op Key Ev)) (ho : NoOrphan cfg (fresh cfg) os) :
    let s := (run cfg (fresh cfg) os).1
    (announced s.log).map (·.1) = (stored s.log).map cfg.announce :=
  announced_exactly_from (inv_fresh cfg) rfl os ho

/-- In general the announcements of the stored events are among all announcements, in order. -/
theorem announced_at_least (cfg : Cfg Key Ev X) (os : List (Op Key Ev)) :
    let s := (run cfg (fresh cfg) os).1
    ((stored s.log).map cfg.announce).Sublist ((announced s.log).map (·.1)) := by
  intro s
  have h : Inv cfg s := (inv_fresh cfg).run os
  have key : ∀ (l : List (Entry Ev X × Nat)), (∀ pre post e t, l = pre ++ (.tx e, t) :: post → ∃ pre' t', t' < t ∧ pre = pre' ++ [(.extra (cfg.announce e), t')]) →
      ((stored l).map cfg.announce).Sublist ((announced l).map (·.1)) := by
    intro l
    generalize hn : l.length = n
    induction n using Nat.strongRecOn generalizing l with
    | _ n ih =>
      intro hb
      rcases List.eq_nil_or_concat l with rfl | ⟨l', x, rfl⟩
      · exact List.Sublist.refl _
      · obtain ⟨x, t⟩ := x
        cases x with
        | extra x =>
          have hlen : l'.length < n := by simp at hn; omega
          have := ih l'.length hlen l' rfl (fun pre post e t' hl => by
            exact hb pre (post ++ [(.extra x, t)]) e t' (by rw [hl]; simp))
          simp only [List.concat_eq_append, announced_append, stored_append, List.map_append]
          simpa [stored] using this.trans (List.sublist_append_left _ _)
        | tx e =>
          obtain ⟨pre', t', _, hpre⟩ := hb l' [] e t (by simp)
          subst hpre
          have hlen : pre'.length < n := by simp at hn; omega
          have := ih pre'.length hlen pre' rfl (fun pre post e' t'' hl => by
            exact hb pre (post ++ [(.extra (cfg.announce e), t'), (.tx e, t)]) e' t'' (by rw [hl]; simp))
          simp only [List.concat_eq_append, announced_append, stored_append, List.map_append]
          simpa [stored, announced] using this.append_right [cfg.announce e]
  exact key s.log h.before

/-! ### A concrete history, and what a crash does -/

/-- Events are pairs of a key and a value; announcements are the same. -/
def demoCfg : Cfg Nat (Nat × Nat) (Nat × Nat) := ⟨(·.1), fun e => List.replicate e.1 'k' ++ List.replicate e.2 'v', id⟩

/-- `POST`, `GET`, a conflict, a restart, `GET`. -/
theorem demo_responses : (run demoCfg (fresh demoCfg)
    [.post (7, 1) 10 11 none, .get 7, .post (7, 2) 20 21 none, .post (7, 1) 30 31 none, .restart, .get 7, .get 8, .follow]).2 =
    [some .created, some (.event (7, 1)), some .conflict, some .already, none, some (.event (7, 1)), some .notFound, none] := rfl

theorem demo_no_orphan : NoOrphan demoCfg (fresh demoCfg) [.post (7, 1) 10 11 none, .get 7, .restart] := by simp [NoOrphan]

/-- The process dies between the announcement and the transaction: subscribers have been told of an event which is not there, and the key can then be created with different contents, and is announced again. -/
theorem crash_announces_twice :
    let os : List (Op Nat (Nat × Nat)) := [.post (7, 1) 10 11 (some .between), .get 7, .post (7, 2) 20 21 none, .get 7]
    (run demoCfg (fresh demoCfg) os).2 = [none, some .notFound, some .created, some (.event (7, 2))] ∧
    announced (run demoCfg (fresh demoCfg) os).1.log = [((7, 1), 10), ((7, 2), 20)] := by
  constructor <;> rfl

end Current.EventStore
