import Verif.Rest.Cqs
/-!
C112: queries read, commands write atomically, and only what was registered runs.
-/
set_option linter.unusedSectionVars false
namespace Current.Cqs
open Current.Persist Current.Url Current.Storage Current.Rest

variable {F K R C E P T V : Type} [DecidableEq F] [DecidableEq K] [DecidableEq R] [DecidableEq C]

/-! ### Specification -/

/-- The query of a name: the first one the history registers. -/
def queryOf (h : List (Event F K R C E P T V)) (name : Str) : Option (QueryImpl F K R C E T V) :=
  h.findSome? fun e => match e with
    | .addQuery n q => if n = name then some q else none
    | _ => none

/-- The command of a name: the first one the history registers. -/
def commandOf (h : List (Event F K R C E P T V)) (name : Str) : Option (CommandImpl F K R C E P T V) :=
  h.findSome? fun e => match e with
    | .addCommand n q => if n = name then some q else none
    | _ => none

/-- How a request becomes a query or a command: from the body if there is one, else from the parameters of the URL; types with no fields need neither. -/
inductive Decodes (s : Shape T) (mode : Mode) (req : Req) : Except (Reply V) T → Prop where
  | blank : s.fields = 0 → Decodes s mode req (.ok s.blank)
  | json (t : T) : s.fields ≠ 0 → req.body ≠ [] → s.json req.body = some t → Decodes s mode req (.ok t)
  | url (t : T) : s.fields ≠ 0 → req.body = [] → s.url mode req.query = some t → Decodes s mode req (.ok t)
  | badJson : s.fields ≠ 0 → req.body ≠ [] → s.json req.body = none → Decodes s mode req (.error .badJson)
  | badUrl : s.fields ≠ 0 → req.body = [] → s.url mode req.query = none → Decodes s mode req (.error .badUrl)

/-- What the client gets of the user's code: its response, also if it is the value of a rollback; a 500 if there is none. -/
def answer : Storage.Outcome V → Reply V
  | .returns v => .user v
  | .rollbackWith v => .user v
  | .rollback => .serverError
  | .throws => .serverError

/-- The right reply to a query, if `look` tells which query has a name. -/
structure QueryReply (look : Str → Option (QueryImpl F K R C E T V)) (st : Storage F K R C E P) (req : Req) (r : Reply V) : Prop where
  unnamed : req.args = [] → r = .notSpecified
  method : req.args ≠ [] → req.method ≠ .get → r = .methodNotAllowed
  unknown : ∀ n l, req.args = n :: l → req.method = .get → look n = none → r = .notFound
  bad : ∀ n l q e, req.args = n :: l → req.method = .get → look n = some q → Decodes q.shape .forgiving req (.error e) → r = e
  closing : ∀ n l q t, req.args = n :: l → req.method = .get → look n = some q → Decodes (V := V) q.shape .forgiving req (.ok t) → st.destructing = true → r = .serverError
  runs : ∀ n l q t, req.args = n :: l → req.method = .get → look n = some q → Decodes (V := V) q.shape .forgiving req (.ok t) → st.destructing = false →
    r = answer (q.run st.fields t req)

/-- The methods of commands. -/
def Writes (m : Method) : Prop := m = .post ∨ m = .put ∨ m = .patch

/-- The command the request is for gets to run, as `x`. -/
def Runs (look : Str → Option (CommandImpl F K R C E P T V)) (st : Storage F K R C E P) (req : Req) (name : Str) (q : CommandImpl F K R C E P T V) (x : T) : Prop :=
  st.master = true ∧ Writes req.method ∧ (∃ l, req.args = name :: l) ∧ look name = some q ∧ Decodes (V := V) q.shape .strict req (.ok x) ∧ st.destructing = false

/-- The right reply to a command which does not run. -/
structure Refusal (look : Str → Option (CommandImpl F K R C E P T V)) (st : Storage F K R C E P) (req : Req) (r : Reply V) : Prop where
  follower : st.master = false → r = .needsMaster
  method : st.master = true → ¬ Writes req.method → r = .methodNotAllowed
  unnamed : st.master = true → Writes req.method → req.args = [] → r = .notSpecified
  unknown : ∀ n l, st.master = true → Writes req.method → req.args = n :: l → look n = none → r = .notFound
  bad : ∀ n l q e, st.master = true → Writes req.method → req.args = n :: l → look n = some q → Decodes q.shape .strict req (.error e) → r = e
  closing : ∀ n l q t, st.master = true → Writes req.method → req.args = n :: l → look n = some q → Decodes (V := V) q.shape .strict req (.ok t) → st.destructing = true →
    r = .serverError

/-! ### Proofs -/

theorem parse_decodes (s : Shape T) (mode : Mode) (req : Req) (r : Except (Reply V) T) : Decodes s mode req r ↔ parse s mode req = r := by
  unfold parse
  constructor
  · intro h
    cases h with
    | blank h => simp [h]
    | json t h1 h2 h3 => simp [h2, h3, Nat.pos_of_ne_zero h1]
    | url t h1 h2 h3 => simp [h2, h3, Nat.pos_of_ne_zero h1]
    | badJson h1 h2 h3 => simp [h2, h3, Nat.pos_of_ne_zero h1]
    | badUrl h1 h2 h3 => simp [h2, h3, Nat.pos_of_ne_zero h1]
  · intro h
    by_cases h1 : s.fields = 0
    · simp [h1] at h; subst h; exact .blank h1
    · by_cases h2 : req.body = []
      · cases h3 : s.url mode req.query with
        | none => simp [h2, h3, Nat.pos_of_ne_zero h1] at h; subst h; exact .badUrl h1 h2 h3
        | some t => simp [h2, h3, Nat.pos_of_ne_zero h1] at h; subst h; exact .url t h1 h2 h3
      · cases h3 : s.json req.body with
        | none => simp [h2, h3, Nat.pos_of_ne_zero h1] at h; subst h; exact .badJson h1 h2 h3
        | some t => simp [h2, h3, Nat.pos_of_ne_zero h1] at h; subst h; exact .json t h1 h2 h3

theorem parse_error {s : Shape T} {mode : Mode} {req : Req} {e : Reply V} (h : parse s mode req = .error e) : e = .badJson ∨ e = .badUrl := by
  have := (parse_decodes s mode req _).mpr h
  cases this <;> simp

theorem find_addQuery (c : Table F K R C E P T V) (n : Str) (q : QueryImpl F K R C E T V) (m : Str) :
    find ((c.addQuery n q).getD c).queries m = (find c.queries m).or (if n = m then some q else none) ∧ ((c.addQuery n q).getD c).commands = c.commands := by
  unfold Table.addQuery
  split
  · rename_i h
    refine ⟨?_, rfl⟩
    simp only [Option.getD_none]
    by_cases hm : n = m
    · subst hm; cases hf : find c.queries n <;> simp_all
    · simp [hm]
  · rename_i h
    refine ⟨?_, rfl⟩
    simp only [Option.getD_some, find_put, upd]
    by_cases hm : n = m
    · subst hm; simp at h; simp [h]
    · simp [hm, Ne.symm hm]

theorem find_addCommand (c : Table F K R C E P T V) (n : Str) (q : CommandImpl F K R C E P T V) (m : Str) :
    find ((c.addCommand n q).getD c).commands m = (find c.commands m).or (if n = m then some q else none) ∧ ((c.addCommand n q).getD c).queries = c.queries := by
  unfold Table.addCommand
  split
  · rename_i h
    refine ⟨?_, rfl⟩
    simp only [Option.getD_none]
    by_cases hm : n = m
    · subst hm; cases hf : find c.commands n <;> simp_all
    · simp [hm]
  · rename_i h
    refine ⟨?_, rfl⟩
    simp only [Option.getD_some, find_put, upd]
    by_cases hm : n = m
    · subst hm; simp at h; simp [h]
    · simp [hm, Ne.symm hm]

theorem steps_table (S : F → Schema K R C E P) (kinds : F → Kind) (h : List (Event F K R C E P T V)) (s s' : Table F K R C E P T V × Storage F K R C E P)
    (hs : steps S kinds s h = some s') (m : Str) :
    find s'.1.queries m = (find s.1.queries m).or (queryOf h m) ∧ find s'.1.commands m = (find s.1.commands m).or (commandOf h m) := by
  induction h generalizing s with
  | nil => simp only [steps, Option.some.injEq] at hs; subst hs; simp [queryOf, commandOf]
  | cons e es ih =>
    simp only [steps] at hs
    split at hs
    · cases hs
    · rename_i s₁ h₁
      obtain ⟨a, b⟩ := ih s₁ hs
      rw [a, b]
      cases e with
      | addQuery n q =>
        simp only [step, Option.some.injEq] at h₁; subst h₁
        obtain ⟨x, y⟩ := find_addQuery s.1 n q m
        simp only [x, y, queryOf, commandOf, List.findSome?_cons]
        refine ⟨?_, trivial⟩
        by_cases hm : n = m <;> simp [hm]
      | addCommand n q =>
        simp only [step, Option.some.injEq] at h₁; subst h₁
        obtain ⟨x, y⟩ := find_addCommand s.1 n q m
        simp only [x, y, queryOf, commandOf, List.findSome?_cons]
        refine ⟨trivial, ?_⟩
        by_cases hm : n = m <;> simp [hm]
      | query sent req =>
        simp only [step, Option.map_eq_some_iff] at h₁; obtain ⟨r, _, rfl⟩ := h₁
        simp [queryOf, commandOf]
      | command t sent req =>
        simp only [step, Option.map_eq_some_iff] at h₁; obtain ⟨r, _, rfl⟩ := h₁
        simp [queryOf, commandOf]
      | call x =>
        simp only [step, Option.map_eq_some_iff] at h₁; obtain ⟨r, _, rfl⟩ := h₁
        simp [queryOf, commandOf]

/-- A read-only transaction changes nothing, and its second step is called with the value of the first or of its rollback. -/
theorem readTwoStep_spec (st : Storage F K R C E P) (hj : st.journal.isEmpty = true) (out : Storage.Outcome V) (sent : Bool) :
    ∃ res calls, readTwoStep st out (send sent) = some (st, res, calls) ∧ replyOf calls = if st.destructing then .serverError else answer out := by
  unfold readTwoStep send
  simp only [hj, Bool.true_eq_false]
  cases st.destructing <;> cases out <;> cases sent <;> exact ⟨_, _, rfl, rfl⟩

theorem twoStep_command (S : F → Schema K R C E P) (st : Storage F K R C E P) (t : Clock) (acts : List (Act F K R C E P)) (out : Storage.Outcome V) (sent : Bool)
    (hd : st.destructing = false) {st' : Storage F K R C E P} {res : Storage.Result Unit} {calls : List V}
    (h : st.twoStep S t acts out (send sent) = some (st', res, calls)) (hm : st.master = true) : replyOf calls = answer out := by
  unfold Storage.twoStep at h
  simp only [hm, hd, Bool.true_eq_false, Bool.false_eq_true, if_false] at h
  by_cases hj : st.journal.isEmpty = false
  · simp [hj] at h
  · simp only [hj, if_false] at h
    cases hr : st.run S t acts with
    | none => simp [hr] at h
    | some st₁ =>
      simp only [hr] at h
      cases out with
      | returns v =>
        cases hp : (st₁.after t).persist t.ts with
        | none => simp [hp] at h
        | some st₂ => cases sent <;> (simp [hp, send] at h; simp [← h.2.2, replyOf, answer])
      | rollbackWith v => cases sent <;> (simp [send] at h; simp [← h.2.2, replyOf, answer])
      | rollback => simp at h; simp [h.2.2, replyOf, answer]
      | throws => simp at h; simp [h.2.2, replyOf, answer]

theorem calls_append (S : F → Schema K R C E P) (kinds : F → Kind) (a b : List (Call F K R C E P V)) (st st' : Storage F K R C E P) (h : st.calls S kinds a = some st') :
    st.calls S kinds (a ++ b) = st'.calls S kinds b := by
  induction a generalizing st with
  | nil => simp only [Storage.calls, Option.some.injEq] at h; subst h; rfl
  | cons x xs ih =>
    simp only [List.cons_append, Storage.calls] at h ⊢
    split at h
    · cases h
    · rename_i s₁ h₁; exact ih s₁ h

theorem query_keeps (c : Table F K R C E P T V) (st : Storage F K R C E P) (sent : Bool) (req : Req) {r : Storage F K R C E P × Reply V}
    (h : serveQuery c st sent req = some r) : r.1 = st := by
  unfold serveQuery at h
  split at h
  · cases h; rfl
  · split at h
    · cases h; rfl
    · split at h
      · cases h; rfl
      · split at h
        · cases h; rfl
        · split at h
          · cases h
          · rename_i h₁
            cases h
            unfold readTwoStep at h₁
            simp only at h₁
            grind

/-- The storage has had a history of calls: those of the program, and a transaction for each command that ran. -/
theorem storage_history (S : F → Schema K R C E P) (kinds : F → Kind) (h : List (Event F K R C E P T V)) (s s' : Table F K R C E P T V × Storage F K R C E P)
    (hs : steps S kinds s h = some s') : ∃ calls : List (Call F K R C E P V), s.2.calls S kinds calls = some s'.2 := by
  induction h generalizing s with
  | nil => simp only [steps, Option.some.injEq] at hs; subst hs; exact ⟨[], rfl⟩
  | cons e es ih =>
    simp only [steps] at hs
    split at hs
    · cases hs
    · rename_i s₁ h₁
      obtain ⟨l, hl⟩ := ih s₁ hs
      suffices ∃ a : List (Call F K R C E P V), s.2.calls S kinds a = some s₁.2 by
        obtain ⟨a, ha⟩ := this
        exact ⟨a ++ l, by rw [calls_append S kinds a l _ _ ha, hl]⟩
      cases e with
      | addQuery n q => simp only [step, Option.some.injEq] at h₁; subst h₁; exact ⟨[], rfl⟩
      | addCommand n q => simp only [step, Option.some.injEq] at h₁; subst h₁; exact ⟨[], rfl⟩
      | query sent req =>
        simp only [step, Option.map_eq_some_iff] at h₁; obtain ⟨r, h2, rfl⟩ := h₁
        have := query_keeps _ _ _ _ h2
        exact ⟨[], by simp [Storage.calls, this]⟩
      | command t sent req =>
        simp only [step, Option.map_eq_some_iff] at h₁; obtain ⟨r, h2, rfl⟩ := h₁
        unfold serveCommand at h2
        split at h2
        · cases h2; exact ⟨[], rfl⟩
        · split at h2
          · cases h2; exact ⟨[], rfl⟩
          · split at h2
            · cases h2; exact ⟨[], rfl⟩
            · split at h2
              · cases h2; exact ⟨[], rfl⟩
              · rename_i q _
                split at h2
                · cases h2; exact ⟨[], rfl⟩
                · split at h2
                  · cases h2
                  · rename_i name _ _ _ _ _ x _ _ st' res calls h3
                    cases h2
                    exact ⟨[.twoStep t (.setMeta metaField (String.ofList name) :: (q.run s.2.fields x req).1) (q.run s.2.fields x req).2 (send sent)],
                      by simp only [Storage.calls, Storage.call, h3, Option.map_some]⟩
      | call x =>
        simp only [step, Option.map_eq_some_iff] at h₁; obtain ⟨r, h2, rfl⟩ := h₁
        exact ⟨[x], by simp [Storage.calls, h2]⟩

/-! ### C112 -/

/-- Registering: the first registration of a name stands, whatever is registered later under it, and queries and commands have names of their own. A registration throws exactly if the name is taken. -/
theorem first_registration_stands (S : F → Schema K R C E P) (kinds : F → Kind) (h : List (Event F K R C E P T V)) {c : Table F K R C E P T V} {st : Storage F K R C E P}
    (hs : steps S kinds ({}, Storage.fresh kinds) h = some (c, st)) (name : Str) :
    find c.queries name = queryOf h name ∧ find c.commands name = commandOf h name ∧
    (∀ q, c.addQuery name q = none ↔ (queryOf h name).isSome) ∧ (∀ q, c.addCommand name q = none ↔ (commandOf h name).isSome) := by
  obtain ⟨a, b⟩ := steps_table S kinds h _ _ hs name
  simp only [find, Option.none_or] at a b
  refine ⟨a, b, fun q => ?_, fun q => ?_⟩
  · unfold Table.addQuery; rw [a]; split <;> simp_all
  · unfold Table.addCommand; rw [b]; split <;> simp_all

/-- A query on a storage between transactions. -/
theorem serveQuery_spec (c : Table F K R C E P T V) (st : Storage F K R C E P) (hj : st.journal.isEmpty = true) (sent : Bool) (req : Req) :
    ∃ r, serveQuery c st sent req = some (st, r) ∧ QueryReply (find c.queries) st req r := by
  unfold serveQuery
  cases ha : req.args with
  | nil =>
    refine ⟨_, rfl, ⟨fun _ => rfl, ?_, ?_, ?_, ?_, ?_⟩⟩ <;> intros <;> simp_all
  | cons n l =>
    simp only
    by_cases hm : req.method = .get
    · simp only [hm, ne_eq, not_true_eq_false, if_false]
      cases hn : find c.queries n with
      | none =>
        refine ⟨_, rfl, ⟨?_, ?_, ?_, ?_, ?_, ?_⟩⟩ <;> intros <;> simp_all
      | some q =>
        simp only
        cases hp : parse (V := V) q.shape .forgiving req with
        | error e =>
          refine ⟨_, rfl, ⟨?_, ?_, ?_, ?_, ?_, ?_⟩⟩ <;> intros <;> simp_all [parse_decodes]
        | ok t =>
          obtain ⟨res, calls, h1, h2⟩ := readTwoStep_spec st hj (q.run st.fields t req) sent
          simp only [h1]
          refine ⟨_, rfl, ⟨?_, ?_, ?_, ?_, ?_, ?_⟩⟩ <;> intros <;> simp_all [parse_decodes]
    · simp only [ne_eq, hm, not_false_eq_true, if_true]
      refine ⟨_, rfl, ⟨?_, ?_, ?_, ?_, ?_, ?_⟩⟩ <;> intros <;> simp_all

/-- Queries: after any history, a query gets the right reply, and changes nothing. -/
theorem queries_only_read {S : F → Schema K R C E P} (hS : ∀ f, (S f).KeepsKeys) (kinds : F → Kind) (h : List (Event F K R C E P T V)) {c : Table F K R C E P T V}
    {st : Storage F K R C E P} (hs : steps S kinds ({}, Storage.fresh kinds) h = some (c, st)) (sent : Bool) (req : Req) :
    ∃ r, serveQuery c st sent req = some (st, r) ∧ QueryReply (queryOf h) st req r := by
  obtain ⟨cs, hc⟩ := storage_history S kinds h _ _ hs
  have hj := good_empty (good_calls hS cs (good_fresh S kinds) hc)
  have hq : find c.queries = queryOf h := funext fun n => (first_registration_stands S kinds h hs n).1
  rw [← hq]
  exact serveQuery_spec c st hj sent req

theorem follower_journal (S : F → Schema K R C E P) (all : List (StreamEntry F K R C E P)) (l : List FollowerStep) (fo fo' : Storage F K R C E P)
    (h : Storage.followerSteps S all fo l = some fo') : fo'.journal = fo.journal ∧ fo'.master = fo.master := by
  induction l generalizing fo with
  | nil => simp only [Storage.followerSteps, Option.some.injEq] at h; subst h; exact ⟨rfl, rfl⟩
  | cons x xs ih =>
    simp only [Storage.followerSteps] at h
    split at h
    · cases h
    · rename_i s₁ h₁
      obtain ⟨a, b⟩ := ih s₁ h
      rw [a, b]
      cases x with
      | receive n => simp only [Storage.followerStep, Option.some.injEq] at h₁; subst h₁; split <;> exact ⟨rfl, rfl⟩
      | apply =>
        simp only [Storage.followerStep, Storage.follow] at h₁
        (repeat' split at h₁) <;> first | cases h₁; exact ⟨rfl, rfl⟩ | contradiction

/-- On a follower, whatever it has received and applied so far, queries work on what it has, and commands are refused; nothing changes. -/
theorem cqs_on_followers (S : F → Schema K R C E P) (kinds : F → Kind) (all : List (StreamEntry F K R C E P)) (head : Time) (l : List FollowerStep) {fo : Storage F K R C E P}
    (hf : Storage.followerSteps S all (Storage.createFollowing kinds [] head) l = some fo) (c : Table F K R C E P T V) (t : Clock) (sent : Bool) (req : Req) :
    (∃ r, serveQuery c fo sent req = some (fo, r) ∧ QueryReply (find c.queries) fo req r) ∧ serveCommand S c fo t sent req = some (fo, .needsMaster) := by
  obtain ⟨a, b⟩ := follower_journal S all l _ _ hf
  refine ⟨serveQuery_spec c fo (by rw [a]; rfl) sent req, ?_⟩
  unfold serveCommand
  rw [if_pos (by rw [b]; rfl)]

/-- Commands that do not run — of another method, unnamed, unknown, badly parsed, or in a shutdown — are refused with the right reply, and change nothing. -/
theorem refused_commands {S : F → Schema K R C E P} (hS : ∀ f, (S f).KeepsKeys) (kinds : F → Kind) (h : List (Event F K R C E P T V)) {c : Table F K R C E P T V}
    {st : Storage F K R C E P} (hs : steps S kinds ({}, Storage.fresh kinds) h = some (c, st)) (t : Clock) (sent : Bool) (req : Req)
    (hr : ¬ ∃ name q x, Runs (commandOf h) st req name q x) :
    ∃ r, serveCommand S c st t sent req = some (st, r) ∧ Refusal (commandOf h) st req r := by
  obtain ⟨cs, hc⟩ := storage_history S kinds h _ _ hs
  have hj := good_empty (good_calls hS cs (good_fresh S kinds) hc)
  have hq := fun n => (first_registration_stands S kinds h hs n).2.1
  unfold serveCommand
  cases hm : st.master with
  | false =>
    refine ⟨_, rfl, ⟨fun _ => rfl, ?_, ?_, ?_, ?_, ?_⟩⟩ <;> intros <;> simp_all
  | true =>
    simp only [Bool.true_eq_false, if_false]
    by_cases hw : Writes req.method
    · have hw' : ¬ (req.method ≠ .post ∧ req.method ≠ .put ∧ req.method ≠ .patch) := by
        rcases hw with h | h | h <;> simp [h]
      rw [if_neg hw']
      cases ha : req.args with
      | nil =>
        refine ⟨_, rfl, ⟨?_, ?_, ?_, ?_, ?_, ?_⟩⟩ <;> intros <;> simp_all
      | cons n l =>
        simp only [hq n]
        cases hn : commandOf h n with
        | none =>
          refine ⟨_, rfl, ⟨?_, ?_, ?_, ?_, ?_, ?_⟩⟩ <;> intros <;> simp_all
        | some q =>
          simp only
          cases hp : parse (V := V) q.shape .strict req with
          | error e =>
            refine ⟨_, rfl, ⟨?_, ?_, ?_, ?_, ?_, ?_⟩⟩ <;> intros <;> simp_all [parse_decodes]
          | ok x =>
            have hd : st.destructing = true := by
              by_contra hd
              exact hr ⟨n, q, x, hm, hw, ⟨l, ha⟩, hn, (parse_decodes _ _ _ _).mpr hp, by simpa using hd⟩
            have : st.twoStep S t (.setMeta metaField (String.ofList n) :: (q.run st.fields x req).1) (q.run st.fields x req).2 (send sent) = some (st, .shutdown, []) := by
              simp [Storage.twoStep, hm, hd, hj]
            simp only [this]
            refine ⟨_, rfl, ⟨?_, ?_, ?_, ?_, ?_, ?_⟩⟩ <;> intros <;> simp_all [parse_decodes, replyOf]
    · have hw' : req.method ≠ .post ∧ req.method ≠ .put ∧ req.method ≠ .patch := by
        unfold Writes at hw; exact ⟨fun h => hw (.inl h), fun h => hw (.inr (.inl h)), fun h => hw (.inr (.inr h))⟩
      rw [if_pos hw']
      refine ⟨_, rfl, ⟨?_, ?_, ?_, ?_, ?_, ?_⟩⟩ <;> intros <;> simp_all

/-- The transaction of a command. -/
theorem runs_command {S : F → Schema K R C E P} (kinds : F → Kind) (h : List (Event F K R C E P T V)) {c : Table F K R C E P T V}
    {st : Storage F K R C E P} (hs : steps S kinds ({}, Storage.fresh kinds) h = some (c, st)) (t : Clock) (sent : Bool) (req : Req)
    {name : Str} {q : CommandImpl F K R C E P T V} {x : T} (hr : Runs (commandOf h) st req name q x) :
    serveCommand S c st t sent req =
      (st.twoStep S t (.setMeta metaField (String.ofList name) :: (q.run st.fields x req).1) (q.run st.fields x req).2 (send sent)).map fun r => (r.1, replyOf r.2.2) := by
  obtain ⟨h1, h2, ⟨l, h3⟩, h4, h5, h6⟩ := hr
  have hq := (first_registration_stands S kinds h hs name).2.1
  unfold serveCommand
  have hw' : ¬ (req.method ≠ .post ∧ req.method ≠ .put ∧ req.method ≠ .patch) := by
    rcases h2 with h | h | h <;> simp [h]
  rw [if_neg (by simp [h1]), if_neg hw', h3]
  simp only [hq, h4, (parse_decodes _ _ _ _).mp h5]
  cases st.twoStep S t (.setMeta metaField (String.ofList name) :: (q.run st.fields x req).1) (q.run st.fields x req).2 (send sent) <;> rfl

/-- A command that rolls back or throws leaves the storage and the stream as they were; the client gets the value of the rollback if it has one, else a 500. -/
theorem failed_commands {S : F → Schema K R C E P} (hS : ∀ f, (S f).KeepsKeys) (kinds : F → Kind) (h : List (Event F K R C E P T V)) {c : Table F K R C E P T V}
    {st : Storage F K R C E P} (hs : steps S kinds ({}, Storage.fresh kinds) h = some (c, st)) (t : Clock) (sent : Bool) (req : Req)
    {name : Str} {q : CommandImpl F K R C E P T V} {x : T} (hr : Runs (commandOf h) st req name q x) (ho : ∀ v, (q.run st.fields x req).2 ≠ .returns v) :
    ∃ st', serveCommand S c st t sent req = some (st', answer (q.run st.fields x req).2) ∧ st'.SameFields st ∧ st'.stream = st.stream ∧ st'.journal = {} := by
  obtain ⟨cs, hc⟩ := storage_history S kinds h _ _ hs
  obtain ⟨st', res, calls, h1, h2, h3, h4, h5⟩ := (two_step_partial hS kinds cs hc hr.1 hr.2.2.2.2.2 t
    (.setMeta metaField (String.ofList name) :: (q.run st.fields x req).1) (q.run st.fields x req).2 (send sent)).2 ho
  refine ⟨st', ?_, h3, h4, ?_⟩
  · rw [runs_command kinds h hs t sent req hr, h1]
    simp only [Option.map_some]
    rw [twoStep_command S st t _ _ sent hr.2.2.2.2.2 h1 hr.1]
  · have := good_calls hS (cs ++ [.twoStep t (.setMeta metaField (String.ofList name) :: (q.run st.fields x req).1) (q.run st.fields x req).2 (send sent)]) (good_fresh S kinds) (st' := st')
      (by rw [calls_append S kinds cs _ _ _ hc]; simp [Storage.calls, Storage.call, h1])
    exact this.journal

/-- A command that returns: the client gets its response, the fields are what it made of them, and the stream has one more entry with all its mutations, marked with the name of the command unless the
command itself wrote something else there — or no entry at all, if there were no mutations. This is done whether or not the response reaches the client. The process ends if there are mutations and the clock
went wrong, and in no other case. -/
theorem committed_commands {S : F → Schema K R C E P} (hS : ∀ f, (S f).KeepsKeys) (kinds : F → Kind) (h : List (Event F K R C E P T V)) {c : Table F K R C E P T V}
    {st : Storage F K R C E P} (hs : steps S kinds ({}, Storage.fresh kinds) h = some (c, st)) (t : Clock) (sent : Bool) (req : Req)
    {name : Str} {q : CommandImpl F K R C E P T V} {x : T} (hr : Runs (commandOf h) st req name q x) {v : V} (ho : (q.run st.fields x req).2 = .returns v) :
    ∃ σ' muts, runOps S st.fields (q.run st.fields x req).1 = some (σ', muts) ∧
      (muts = [] ∨ t.Ok st → ∃ st', serveCommand S c st t sent req = some (st', .user v) ∧ st'.fields = σ' ∧ st'.journal = {} ∧
        ((muts = [] ∧ st'.stream = st.stream) ∨
          (muts ≠ [] ∧ ∃ tx, st'.stream = st.stream ++ [(t.ts, some tx)] ∧ tx.mutations = muts ∧
            ∀ k, find tx.info.fields k = metaSpec (fun k => if k = "X-Current-CQS-Command" then some (String.ofList name) else none) (q.run st.fields x req).1 k))) ∧
      (¬ (muts = [] ∨ t.Ok st) → serveCommand S c st t sent req = none) := by
  obtain ⟨cs, hc⟩ := storage_history S kinds h _ _ hs
  obtain ⟨σ', muts, h1, h2, h3⟩ := transaction_commits hS kinds cs hc hr.1 hr.2.2.2.2.2 t (.setMeta metaField (String.ofList name) :: (q.run st.fields x req).1) v
  have hj := good_empty (good_calls hS cs (good_fresh S kinds) hc)
  -- The two-step transaction and the one returning a value do the same to the storage.
  have key : st.twoStep S t (.setMeta metaField (String.ofList name) :: (q.run st.fields x req).1) (.returns v) (send sent) =
      (st.readWrite S t (.setMeta metaField (String.ofList name) :: (q.run st.fields x req).1) (.returns v)).bind fun r =>
        some (if sent then (r.1, .committed (), [v]) else (r.1.rollback, .exception, [v])) := by
    unfold Storage.twoStep Storage.readWrite
    simp only [hr.1, hr.2.2.2.2.2, hj, Bool.true_eq_false, Bool.false_eq_true, if_false]
    cases st.run S t (.setMeta metaField (String.ofList name) :: (q.run st.fields x req).1) with
    | none => rfl
    | some st₁ =>
      simp only
      cases (st₁.after t).persist t.ts with
      | none => rfl
      | some st₂ => cases sent <;> simp [send]
  refine ⟨σ', muts, by simpa [runOps] using h1, fun hok => ?_, fun hok => ?_⟩
  · obtain ⟨st', a1, a2, a3, a4⟩ := h2 hok
    have hroll : st'.rollback = st' := by
      unfold Storage.rollback
      rw [a3]
      cases st'
      simp only at a3
      subst a3
      rfl
    refine ⟨st', ?_, a2, a3, ?_⟩
    · rw [runs_command kinds h hs t sent req hr, ho, key, a1]
      cases sent <;> simp [replyOf, hroll]
    · rcases a4 with a4 | ⟨b1, tx, b2, b3, b4, b5, b6⟩
      · exact .inl a4
      · exact .inr ⟨b1, tx, b2, b3, fun k => by rw [b6 k]; rfl⟩
  · rw [runs_command kinds h hs t sent req hr, ho, key, h3 hok]
    rfl

/-! ### A concrete case: a query which tells whether a key is in the dictionary, a command which adds a cell and refuses a known key -/

/-- 0: not found; 1: found; 2: added; 7: was there already. -/
abbrev DemoV := Nat
abbrev DemoT := Nat

/-- One field: the JSON is its value in unary, and there are no URL parameters it could be read from in the strict mode. -/
def demoShape : Shape DemoT := { blank := 0, fields := 1, json := fun b => if b.all (· = 'x') then some b.length else none,
                                 url := fun m q => match q ['n'], m with | some v, _ => some v.length | none, .forgiving => some 0 | none, .strict => none }

def demoQuery : QueryImpl Bool Nat Nat Nat (Nat × Nat × Nat) DemoT DemoV where
  shape := demoShape
  run σ t _ := match σ false with
    | .dict d => .returns (if (find d.map t).isSome then 1 else 0)
    | _ => .throws

def demoCommand : CommandImpl Bool Nat Nat Nat (Nat × Nat × Nat) Nat DemoT DemoV where
  shape := demoShape
  run σ t _ := match σ false with
    | .dict d => ([.op false (.dict (.add 2 (t, t, 10)))], if (find d.map t).isSome then .rollbackWith 7 else .returns 2)
    | _ => ([], .throws)

def demoNames : Str × Str := (['h', 'a', 's'], ['a', 'd', 'd'])

abbrev DemoEvent := Event Bool Nat Nat Nat (Nat × Nat × Nat) Nat DemoT DemoV

/-- The second registration throws. -/
def demoEvents : List DemoEvent :=
  [.addQuery demoNames.1 demoQuery, .addCommand demoNames.2 demoCommand, .addQuery demoNames.1 { demoQuery with run := fun _ _ _ => .throws },
   .command ⟨1, 3, 4⟩ true { method := .post, args := [demoNames.2], body := ['x', 'x'] }]

/-- After a command: the entry is there, and its name is in the stream; a second one with the same key rolls back; queries see it, also badly written ones are told apart; commands by GET and unknown names
are refused. -/
theorem demo_cqs :
    ((steps demoSchema demoKinds ({}, Storage.fresh demoKinds) demoEvents).map fun s =>
      (s.2.stream.map fun e => (e.1, e.2.map fun tx => (tx.mutations.length, find tx.info.fields "X-Current-CQS-Command")))) =
        some [(4, some (1, some "add"))] ∧
    ((steps demoSchema demoKinds ({}, Storage.fresh demoKinds) demoEvents).bind fun s =>
      (serveCommand demoSchema s.1 s.2 ⟨5, 7, 8⟩ true { method := .put, args := [demoNames.2], body := ['x', 'x'] }).map fun r => (r.1.stream.length, r.2)) = some (1, .user 7) ∧
    ((steps demoSchema demoKinds ({}, Storage.fresh demoKinds) demoEvents).map fun s =>
      [{ method := .get, args := [demoNames.1], body := ['x', 'x'] }, { method := .get, args := [demoNames.1] }, { method := .get, args := [demoNames.1], body := ['y'] },
       { method := .post, args := [demoNames.1] }, { method := .get, args := [demoNames.2] }, { method := .get }].map fun req => (serveQuery s.1 s.2 true req).map (·.2)) =
        some [some (.user 1), some (.user 0), some .badJson, some .methodNotAllowed, some .notFound, some .notSpecified] ∧
    ((steps demoSchema demoKinds ({}, Storage.fresh demoKinds) demoEvents).map fun s =>
      [{ method := .get, args := [demoNames.2] }, { method := .post, args := [demoNames.2] }, { method := .patch, args := [demoNames.1] }, { method := .post }].map
        fun req => (serveCommand demoSchema s.1 s.2 ⟨5, 7, 8⟩ true req).map (·.2)) =
        some [some .methodNotAllowed, some .badUrl, some .notFound, some .notSpecified] := by
  refine ⟨by decide +kernel, by decide +kernel, by decide +kernel, by decide +kernel⟩

/-- The hypotheses of `committed_commands` and `failed_commands` are met. -/
theorem demo_cqs_runs : ∃ c st, steps demoSchema demoKinds ({}, Storage.fresh demoKinds) demoEvents = some (c, st) ∧
    Runs (commandOf demoEvents) st { method := .post, args := [demoNames.2], body := ['x'] } demoNames.2 demoCommand 1 ∧
    Runs (commandOf demoEvents) st { method := .post, args := [demoNames.2], body := ['x', 'x'] } demoNames.2 demoCommand 2 := by
  refine ⟨_, _, rfl, ⟨rfl, .inl rfl, ⟨[], rfl⟩, rfl, ?_, rfl⟩, ⟨rfl, .inl rfl, ⟨[], rfl⟩, rfl, ?_, rfl⟩⟩
  · exact .json _ (by decide) (by decide) rfl
  · exact .json _ (by decide) (by decide) rfl

end Current.Cqs
