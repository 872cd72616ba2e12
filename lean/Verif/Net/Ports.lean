import Mathlib.Data.List.Perm.Basic
import Mathlib.Data.List.Range

/-!
# `ReserveLocalPort`

`ReserveLocalPortImpl`, `bricks/net/tcp/impl/posix.h:300-357`: the search for a free local port.  Each thread has one object of
this class (`ThreadLocalSingleton`), so that an object sees a sequence of calls.  Whether a port can be bound is up to the
system and may change between attempts; the shuffle is any permutation.
-/
namespace Current.Net.Ports

/-- `kPickFreePortMin`, `posix.h:277` -/
def portMin : Nat := 25000
/-- `kPickFreePortMax`, `posix.h:278` -/
def portMax : Nat := 29000

/-- the fields of `ReserveLocalPortImpl`, `posix.h:304-305` -/
structure Impl where
  order : List Nat
  index : Nat
  deriving DecidableEq

/-- the constructor, `posix.h:308-313` -/
def Impl.new : Impl := { order := List.range' portMin (portMax + 1 - portMin), index := 0 }

/-- what `BindAndListen` does -/
inductive Bind
  | ok
  | busy      -- `SocketBindException`, `SocketListenException`, `SocketConnectException`
  | throws    -- any other exception
  deriving DecidableEq

/-- the surroundings of a call: by the number of the attempt, the shuffle and what becomes of binding a port -/
structure Env where
  shuffle : Nat → List Nat → List Nat
  perm : ∀ t l, (shuffle t l).Perm l
  bind : Nat → Nat → Bind

inductive Out
  | port (p : Nat)
  | throws
  | exit          -- "FATAL ERROR: Failed to pick an available local port."
  | outOfFuel     -- does not happen, see `terminates`
  deriving DecidableEq

structure Res where
  out : Out
  impl : Impl
  /-- the ports tried, in order -/
  tried : List Nat
  deriving DecidableEq

/-- the lambda for `candidate_port`, `posix.h:324-339`: the port, `index_`, `hint`, `keep_searching` -/
def candidate (save : Nat) (st : Impl) (hint : Nat) : Nat × Nat × Nat × Bool :=
  if hint ≠ 0 then (hint, st.index, 0, true)
  else
    let index := if st.index + 1 = st.order.length then 0 else st.index + 1
    (st.order.getD st.index 0, index, 0, !decide (index = save))

/-- `posix.h:321-323` -/
def shuffled (env : Env) (t : Nat) (st : Impl) : Impl :=
  if st.index = 0 then { st with order := env.shuffle t st.order } else st

/-- the loop of `DoIt`, `posix.h:320-355`; the fuel is there for Lean, see `terminates` -/
def loop (env : Env) (save : Nat) : Nat → Impl → Nat → Bool → List Nat → Res
  | 0, st, _, _, tried => ⟨.outOfFuel, st, tried⟩
  | fuel + 1, st, hint, keep, tried =>
    if keep = false then ⟨.exit, st, tried⟩
    else
      let st := shuffled env tried.length st
      let c := candidate save st hint
      let st := { st with index := c.2.1 }
      match env.bind tried.length c.1 with
      | .ok => ⟨.port c.1, st, tried ++ [c.1]⟩
      | .throws => ⟨.throws, st, tried ++ [c.1]⟩
      | .busy => loop env save fuel st c.2.2.1 c.2.2.2 (tried ++ [c.1])

/-- `DoIt`, `posix.h:315-356`; `hint = 0` is no hint -/
def doIt (env : Env) (st : Impl) (hint : Nat) : Res :=
  loop env st.index (st.order.length + 2) st hint true []

/-- the object of a thread after any calls -/
inductive Reach : Impl → Prop
  | new : Reach .new
  | call {st : Impl} (env : Env) (hint : Nat) : Reach st → Reach (doIt env st hint).impl

/-! ## Specification -/

/-- the ports the search is about -/
def InRange (p : Nat) : Prop := 25000 ≤ p ∧ p ≤ 29000

/-- what the outcome says about the attempts: all but the last one failed -/
def Told (env : Env) (r : Res) : Prop :=
  (∀ (i p : Nat), r.tried[i]? = some p → i + 1 < r.tried.length → env.bind i p = .busy) ∧
  (∀ p, r.out = .port p → ∃ pre, r.tried = pre ++ [p] ∧ env.bind pre.length p = .ok) ∧
  (r.out = .throws → ∃ pre p, r.tried = pre ++ [p] ∧ env.bind pre.length p = .throws) ∧
  (r.out = .exit → ∀ (i p : Nat), r.tried[i]? = some p → env.bind i p = .busy)

/-! ## Proofs -/

structure Good (st : Impl) : Prop where
  perm : st.order.Perm (List.range' 25000 4001)
  index : st.index < 4001

theorem good_new : Good .new := ⟨List.Perm.refl _, by decide⟩

theorem Good.length {st : Impl} (h : Good st) : st.order.length = 4001 := by
  simpa using h.perm.length_eq

theorem Good.inRange {st : Impl} (h : Good st) {p : Nat} (hp : p ∈ st.order) : InRange p := by
  have := h.perm.mem_iff.1 hp
  rw [List.mem_range'_1] at this
  unfold InRange; omega

/-- the attempts so far failed -/
def Failed (env : Env) (tried : List Nat) : Prop :=
  ∀ (i p : Nat), tried[i]? = some p → env.bind i p = .busy

theorem failed_concat {env : Env} {tried : List Nat} {p : Nat} (h : Failed env tried) (hp : env.bind tried.length p = .busy) :
    Failed env (tried ++ [p]) := by
  intro i q hq
  rw [List.getElem?_append] at hq
  split at hq
  · exact h i q hq
  · rename_i hi
    have : i - tried.length = 0 := by
      by_cases h0 : i - tried.length = 0
      · exact h0
      · rw [List.getElem?_eq_none (by simp; omega)] at hq
        cases hq
    rw [this] at hq
    have he : i = tried.length := by omega
    simp at hq
    rw [he, ← hq]
    exact hp

theorem told_last {env : Env} {tried : List Nat} {p : Nat} {o : Out} {st : Impl} (h : Failed env tried)
    (ho : (o = .port p ∧ env.bind tried.length p = .ok) ∨ (o = .throws ∧ env.bind tried.length p = .throws)) :
    Told env ⟨o, st, tried ++ [p]⟩ := by
  refine ⟨?_, ?_, ?_, ?_⟩
  · intro i q hq hi
    simp at hi
    rw [List.getElem?_append_left hi] at hq
    exact h i q hq
  · intro q hq
    rcases ho with ⟨h1, h2⟩ | ⟨h1, h2⟩
    · dsimp only at hq
      rw [h1] at hq
      injection hq with hq
      subst hq
      exact ⟨tried, rfl, h2⟩
    · dsimp only at hq
      rw [h1] at hq
      cases hq
  · intro hq
    rcases ho with ⟨h1, h2⟩ | ⟨h1, h2⟩
    · dsimp only at hq
      rw [h1] at hq
      cases hq
    · exact ⟨tried, p, rfl, h2⟩
  · intro hq
    dsimp only at hq
    rcases ho with ⟨h1, _⟩ | ⟨h1, _⟩ <;> rw [h1] at hq <;> cases hq

/-- what is proved of the loop when no hint is left -/
structure Loop (env : Env) (r : Res) (tried : List Nat) (bound : Nat) : Prop where
  fuel : r.out ≠ .outOfFuel
  told : Told env r
  good : Good r.impl
  range : ∃ more, r.tried = tried ++ more ∧ (∀ p ∈ more, InRange p) ∧ more.length ≤ bound

theorem exit_told {env : Env} {tried : List Nat} {st : Impl} (h : Failed env tried) : Told env ⟨.exit, st, tried⟩ :=
  ⟨fun i p hp _ => h i p hp, (fun p hp => by cases hp), (fun hp => by cases hp), fun _ => h⟩

theorem shuffled_good {env : Env} {t : Nat} {st : Impl} (h : Good st) : Good (shuffled env t st) := by
  unfold shuffled
  split
  · exact ⟨(env.perm _ _).trans h.perm, h.index⟩
  · exact h

theorem shuffled_index {env : Env} {t : Nat} {st : Impl} : (shuffled env t st).index = st.index := by
  unfold shuffled; split <;> rfl

/-- one iteration without a hint -/
theorem loop_step (env : Env) (save fuel : Nat) (st : Impl) (tried : List Nat) (hg : Good st) :
    ∃ p ∈ (shuffled env tried.length st).order, (shuffled env tried.length st).order[st.index]? = some p ∧
      loop env save (fuel + 1) st 0 true tried =
        (let i := if st.index + 1 = 4001 then 0 else st.index + 1
         match env.bind tried.length p with
          | .ok => ⟨.port p, { shuffled env tried.length st with index := i }, tried ++ [p]⟩
          | .throws => ⟨.throws, { shuffled env tried.length st with index := i }, tried ++ [p]⟩
          | .busy => loop env save fuel { shuffled env tried.length st with index := i } 0 (!decide (i = save)) (tried ++ [p])) := by
  have hs := shuffled_good (env := env) (t := tried.length) hg
  have hl := hs.length
  have hi : st.index < (shuffled env tried.length st).order.length := by rw [hl]; exact hg.index
  refine ⟨(shuffled env tried.length st).order[st.index], List.getElem_mem _, List.getElem?_eq_getElem hi, ?_⟩
  have hgd : (shuffled env tried.length st).order.getD st.index 0 = (shuffled env tried.length st).order[st.index] := by
    rw [List.getD_eq_getElem?_getD, List.getElem?_eq_getElem hi]; rfl
  simp only [loop, candidate, ne_eq, not_true, if_false, shuffled_index, hl, hgd, Bool.true_eq_false]

theorem loop_prefix (env : Env) (save : Nat) : ∀ (fuel : Nat) (st : Impl) (hint : Nat) (keep : Bool) (tried : List Nat),
    tried <+: (loop env save fuel st hint keep tried).tried := by
  intro fuel
  induction fuel with
  | zero => intro st hint keep tried; exact List.prefix_rfl
  | succ fuel ih =>
    intro st hint keep tried
    rw [loop]
    split
    · exact List.prefix_rfl
    · dsimp only
      split
      · exact List.prefix_append _ _
      · exact List.prefix_append _ _
      · exact (List.prefix_append _ _).trans (ih _ _ _ _)

theorem loop_main (env : Env) (save : Nat) (hsave : save < 4001) : ∀ (fuel j : Nat) (st : Impl) (tried : List Nat), Good st →
    st.index = (save + j) % 4001 → j < 4001 → 4001 - j < fuel → Failed env tried →
    Loop env (loop env save fuel st 0 true tried) tried (4001 - j) := by
  intro fuel
  induction fuel with
  | zero => intro j st tried _ _ _ h; omega
  | succ fuel ih =>
    intro j st tried hg hi hj hf hfail
    obtain ⟨p, hp, _, he⟩ := loop_step env save fuel st tried hg
    have hs := shuffled_good (env := env) (t := tried.length) hg
    have hpr := hs.inRange hp
    have hidx := hg.index
    have hgood : Good { shuffled env tried.length st with index := if st.index + 1 = 4001 then 0 else st.index + 1 } := by
      refine ⟨hs.perm, ?_⟩
      dsimp only
      split <;> omega
    rw [he]
    dsimp only
    cases hb : env.bind tried.length p with
    | ok =>
      exact ⟨by simp, told_last hfail (.inl ⟨rfl, hb⟩), hgood, ⟨[p], rfl, by simpa using hpr, by simp; omega⟩⟩
    | throws =>
      exact ⟨by simp, told_last hfail (.inr ⟨rfl, hb⟩), hgood, ⟨[p], rfl, by simpa using hpr, by simp; omega⟩⟩
    | busy =>
      dsimp only
      have hfail' := failed_concat hfail hb
      by_cases hk : (if st.index + 1 = 4001 then 0 else st.index + 1) = save
      · cases fuel with
        | zero => omega
        | succ fuel =>
          rw [hk]
          simp only [decide_true, Bool.not_true, loop, if_true]
          rw [hk] at hgood
          exact ⟨by simp, exit_told hfail', hgood, ⟨[p], rfl, by simpa using hpr, by simp; omega⟩⟩
      · simp only [hk, decide_false, Bool.not_false]
        have hj' : j + 1 < 4001 := by
          by_cases hjj : j + 1 = 4001
          · exfalso
            apply hk
            split <;> omega
          · omega
        have := ih (j + 1) _ (tried ++ [p]) hgood (by dsimp only; split <;> omega) hj' (by omega) hfail'
        obtain ⟨h1, h2, h3, more, h4, h5, h6⟩ := this
        refine ⟨h1, h2, h3, p :: more, by rw [h4]; simp, ?_, by simp; omega⟩
        intro q hq
        rcases List.mem_cons.1 hq with h | h
        · rw [h]; exact hpr
        · exact h5 q h

/-- all of the order is tried when the search starts at its beginning -/
theorem loop_all (env : Env) : ∀ (fuel j : Nat) (st : Impl) (tried : List Nat), Good st → st.index = j → 0 < j →
    4001 - j < fuel → (loop env 0 fuel st 0 true tried).out = .exit →
    ∀ p ∈ st.order.drop j, p ∈ (loop env 0 fuel st 0 true tried).tried := by
  intro fuel
  induction fuel with
  | zero => intro j st tried _ _ _ h; omega
  | succ fuel ih =>
    intro j st tried hg hi hj hf
    obtain ⟨p, hp, hat, he⟩ := loop_step env 0 fuel st tried hg
    have hs := shuffled_good (env := env) (t := tried.length) hg
    have hsh : shuffled env tried.length st = st := by unfold shuffled; rw [if_neg (by omega)]
    rw [hsh] at hp hat he hs
    rw [he]
    have hidx := hg.index
    have hlt : j < st.order.length := by rw [hg.length]; omega
    have hdrop : st.order.drop j = p :: st.order.drop (j + 1) := by
      rw [List.drop_eq_getElem_cons hlt]
      congr 1
      rw [hi, List.getElem?_eq_getElem hlt] at hat
      injection hat
    dsimp only
    have hgood : Good { st with index := if st.index + 1 = 4001 then 0 else st.index + 1 } := by
      refine ⟨hg.perm, ?_⟩
      dsimp only
      split <;> omega
    cases hb : env.bind tried.length p with
    | ok => intro h; cases h
    | throws => intro h; cases h
    | busy =>
      dsimp only
      by_cases hk : st.index + 1 = 4001
      · cases fuel with
        | zero => omega
        | succ fuel =>
          simp only [hk, if_true, decide_true, Bool.not_true, loop]
          intro _ q hq
          rw [hdrop, List.drop_eq_nil_of_le (by rw [hg.length]; omega)] at hq
          simp at hq
          simp [hq]
      · simp only [hk, if_false]
        have h0 : ¬(st.index + 1 = 0) := by omega
        simp only [h0, decide_false, Bool.not_false]
        intro hx q hq
        rw [if_neg hk] at hgood
        rw [hdrop] at hq
        rcases List.mem_cons.1 hq with h | h
        · exact (loop_prefix env 0 fuel _ _ _ _).subset (by simp [h])
        · exact ih (j + 1) _ _ hgood (by dsimp only; omega) (by omega) (by omega) hx q h

/-- from the beginning of the order -/
theorem loop_all_zero (env : Env) {fuel : Nat} {st : Impl} {tried : List Nat} (hg : Good st) (h0 : st.index = 0)
    (hf : 4001 < fuel) (hx : (loop env 0 fuel st 0 true tried).out = .exit) {p : Nat} (hp : InRange p) :
    p ∈ (loop env 0 fuel st 0 true tried).tried := by
  cases fuel with
  | zero => omega
  | succ fuel =>
    obtain ⟨q, hq, hat, he⟩ := loop_step env 0 fuel st tried hg
    have hs := shuffled_good (env := env) (t := tried.length) hg
    have hmem : p ∈ (shuffled env tried.length st).order := by
      rw [hs.perm.mem_iff, List.mem_range'_1]
      unfold InRange at hp; omega
    generalize shuffled env tried.length st = st' at *
    have hdrop : st'.order = q :: st'.order.drop 1 := by
      rw [h0] at hat
      cases ho : st'.order with
      | nil => rw [ho] at hat; cases hat
      | cons a l => rw [ho] at hat; injection hat with hat; simp [hat]
    rw [he] at hx ⊢
    rw [h0] at hx ⊢
    dsimp only at hx ⊢
    rw [if_neg (by omega)] at hx ⊢
    cases hb : env.bind tried.length q with
    | ok => rw [hb] at hx; cases hx
    | throws => rw [hb] at hx; cases hx
    | busy =>
      rw [hb] at hx
      dsimp only at hx ⊢
      have hn : (!decide (0 + 1 = 0)) = true := by decide
      rw [hn] at hx ⊢
      rw [hdrop] at hmem
      rcases List.mem_cons.1 hmem with h | h
      · exact (loop_prefix env 0 fuel _ _ _ _).subset (by simp [h])
      · exact loop_all env fuel 1 { st' with index := 0 + 1 } _ ⟨hs.perm, by dsimp only; omega⟩ rfl (by omega) (by omega) hx p h

/-- the iteration with the hint -/
theorem loop_hint (env : Env) (save fuel hint : Nat) (st : Impl) (hh : hint ≠ 0) :
    loop env save (fuel + 1) st hint true [] =
      match env.bind 0 hint with
        | .ok => ⟨.port hint, shuffled env 0 st, [hint]⟩
        | .throws => ⟨.throws, shuffled env 0 st, [hint]⟩
        | .busy => loop env save fuel (shuffled env 0 st) 0 true [hint] := by
  have hs : ({ shuffled env 0 st with index := st.index } : Impl) = shuffled env 0 st := by
    rw [← shuffled_index (env := env) (t := 0) (st := st)]
  simp only [loop, candidate, ne_eq, hh, not_false_eq_true, if_true, Bool.true_eq_false, if_false, shuffled_index,
    List.length_nil, List.nil_append, hs]

/-- what is proved of a call -/
structure Call (env : Env) (hint : Nat) (r : Res) : Prop where
  fuel : r.out ≠ .outOfFuel
  told : Told env r
  good : Good r.impl
  range : ∃ more, r.tried = (if hint = 0 then [] else [hint]) ++ more ∧ (∀ p ∈ more, InRange p) ∧ more.length ≤ 4001

theorem call (env : Env) {st : Impl} (hg : Good st) (hint : Nat) : Call env hint (doIt env st hint) := by
  unfold doIt
  rw [hg.length]
  have hidx := hg.index
  by_cases hh : hint = 0
  · subst hh
    have := loop_main env st.index hg.index (4001 + 2) 0 st [] hg (by omega) (by omega) (by omega)
      (by intro i p h; simp at h)
    obtain ⟨h1, h2, h3, more, h4, h5, h6⟩ := this
    exact ⟨h1, h2, h3, more, by simpa using h4, h5, by omega⟩
  · rw [loop_hint env _ _ _ _ hh]
    have hs := shuffled_good (env := env) (t := 0) hg
    cases hb : env.bind 0 hint with
    | ok =>
      refine ⟨by simp, ?_, hs, [], by simp [hh], by simp, by simp⟩
      exact told_last (tried := []) (by intro i p h; simp at h) (.inl ⟨rfl, hb⟩)
    | throws =>
      refine ⟨by simp, ?_, hs, [], by simp [hh], by simp, by simp⟩
      exact told_last (tried := []) (by intro i p h; simp at h) (.inr ⟨rfl, hb⟩)
    | busy =>
      have hf : Failed env [hint] := by
        have := failed_concat (env := env) (tried := []) (p := hint) (by intro i p h; simp at h) hb
        simpa using this
      have := loop_main env st.index hg.index (4001 + 1) 0 (shuffled env 0 st) [hint] hs
        (by rw [shuffled_index]; omega) (by omega) (by omega) hf
      obtain ⟨h1, h2, h3, more, h4, h5, h6⟩ := this
      exact ⟨h1, h2, h3, more, by simpa [hh] using h4, h5, by omega⟩

theorem reach_good {st : Impl} (h : Reach st) : Good st := by
  induction h with
  | new => exact good_new
  | call env hint _ ih => exact (call env ih hint).good

/-! ## Theorems -/

/-- A call ends, after no more than 4002 attempts to bind: the hint, if there is one, and then ports of the range. -/
theorem terminates {st : Impl} (h : Reach st) (env : Env) (hint : Nat) :
    (doIt env st hint).out ≠ .outOfFuel ∧
    ∃ more, (doIt env st hint).tried = (if hint = 0 then [] else [hint]) ++ more ∧ (∀ p ∈ more, InRange p) ∧
      more.length ≤ 4001 :=
  ⟨(call env (reach_good h) hint).fuel, (call env (reach_good h) hint).range⟩

/-- The port returned is the one that was bound by the last attempt; the attempts before it failed.  An exception is that of the
last attempt.  The process is ended only if all attempts failed. -/
theorem outcome {st : Impl} (h : Reach st) (env : Env) (hint : Nat) : Told env (doIt env st hint) :=
  (call env (reach_good h) hint).told

/-- The hint is used if it can be bound. -/
theorem hint_first (st : Impl) (env : Env) {hint : Nat} (hh : hint ≠ 0) (hb : env.bind 0 hint = .ok) :
    (doIt env st hint).out = .port hint := by
  unfold doIt
  rw [loop_hint env _ _ _ _ hh, hb]

/-- The port returned is the hint or one of the range. -/
theorem port_in_range {st : Impl} (h : Reach st) {env : Env} {hint p : Nat} (ho : (doIt env st hint).out = .port p) :
    p = hint ∨ InRange p := by
  have hc := call env (reach_good h) hint
  obtain ⟨pre, h1, _⟩ := hc.told.2.1 p ho
  obtain ⟨more, h2, h3, _⟩ := hc.range
  have hp : p ∈ (if hint = 0 then [] else [hint]) ++ more := by rw [← h2, h1]; simp
  rcases List.mem_append.1 hp with h | h
  · split at h
    · cases h
    · left; simpa using h
  · exact .inr (h3 p h)

/-- The process is ended only if every port of the range has been tried in this call - provided that the search starts at the
beginning of the order, as it does in the first call of a thread.  Missing for the full claim: the other calls, of which it is
false (`gives_up_too_early`). -/
theorem gives_up_partial {st : Impl} (h : Reach st) (h0 : st.index = 0) {env : Env} {hint : Nat}
    (ho : (doIt env st hint).out = .exit) {p : Nat} (hp : InRange p) : p ∈ (doIt env st hint).tried := by
  have hg := reach_good h
  unfold doIt at ho ⊢
  rw [hg.length, h0] at ho ⊢
  by_cases hh : hint = 0
  · subst hh
    exact loop_all_zero env hg h0 (by omega) ho hp
  · rw [loop_hint env _ _ _ _ hh] at ho ⊢
    cases hb : env.bind 0 hint with
    | ok => rw [hb] at ho; cases ho
    | throws => rw [hb] at ho; cases ho
    | busy =>
      rw [hb] at ho
      exact loop_all_zero env (shuffled_good hg) (by rw [shuffled_index]; exact h0) (by omega) ho hp

/-- So the first call of a thread finds a port if some port of the range stays free. -/
theorem first_call_succeeds (env : Env) {hint p : Nat} (hp : InRange p) (hfree : ∀ t, env.bind t p = .ok)
    (hnt : ∀ t q, env.bind t q ≠ .throws) : ∃ q, (doIt env .new hint).out = .port q := by
  have hc := call env good_new hint
  cases ho : (doIt env .new hint).out with
  | port q => exact ⟨q, rfl⟩
  | throws =>
    obtain ⟨pre, q, _, h⟩ := hc.told.2.2.1 ho
    exact absurd h (hnt _ _)
  | exit =>
    have hm := gives_up_partial .new rfl ho hp
    obtain ⟨i, hi⟩ := List.mem_iff_getElem?.1 hm
    have := hc.told.2.2.2 ho i p hi
    rw [hfree] at this
    cases this
  | outOfFuel => exact absurd ho hc.fuel

/-! ## Witnesses -/

/-- surroundings without a shuffle, in which all is free -/
def allFree : Env := { shuffle := fun _ l => l, perm := fun _ _ => List.Perm.refl _, bind := fun _ _ => .ok }

/-- surroundings with a shuffle, in which only the first port of the range is free -/
def oneFree : Env :=
  { shuffle := fun _ l => l.reverse, perm := fun _ l => l.reverse_perm
    bind := fun _ p => if p = 25000 then .ok else .busy }

/-- two calls, the second one with a hint -/
theorem demo_ports :
    (doIt allFree .new 0).out = .port 25000 ∧ (doIt oneFree (doIt allFree .new 0).impl 25000).out = .port 25000 ∧
    (doIt allFree .new 8080).out = .port 8080 := by
  decide +kernel

theorem busy_to_end (env : Env) (m : Nat) : ∀ (k : Nat) (st : Impl) (tried : List Nat), Good st → st.index + k = 4001 →
    0 < st.index → 0 < k → (∀ t, ∀ p ∈ st.order.drop st.index, env.bind t p = .busy) →
    ∃ tried', loop env 1 (m + k) st 0 true tried = loop env 1 m { st with index := 0 } 0 true tried' := by
  intro k
  induction k with
  | zero => intro st tried _ _ _ h; omega
  | succ k ih =>
    intro st tried hg hk h0 _ hb
    obtain ⟨p, hp, hat, he⟩ := loop_step env 1 (m + k) st tried hg
    have hsh : shuffled env tried.length st = st := by unfold shuffled; rw [if_neg (by omega)]
    rw [hsh] at hp hat he
    have hlt : st.index < st.order.length := by rw [hg.length]; omega
    have hdrop : st.order.drop st.index = p :: st.order.drop (st.index + 1) := by
      rw [List.drop_eq_getElem_cons hlt]
      congr 1
      rw [List.getElem?_eq_getElem hlt] at hat
      injection hat
    rw [← Nat.add_assoc, he]
    dsimp only
    rw [hb _ p (by rw [hdrop]; simp)]
    dsimp only
    by_cases hz : st.index + 1 = 4001
    · rw [if_pos hz]
      have : k = 0 := by omega
      subst this
      exact ⟨_, rfl⟩
    · rw [if_neg hz]
      have hn : (!decide (st.index + 1 = 1)) = true := by simp; omega
      rw [hn]
      exact ih { st with index := st.index + 1 } _ ⟨hg.perm, by dsimp only; omega⟩ (by dsimp only; omega) (by dsimp only; omega)
        (by omega) (fun t q hq => hb t q (by rw [hdrop]; exact List.mem_cons_of_mem _ hq))

/-- The thread has reserved port 25000 and given it back; all other ports are taken.  The next call ends the process, though 25000
is free from beginning to end: when the search gets to the end of the order it shuffles it, and the port is now where the
search does not go. -/
theorem gives_up_too_early :
    (doIt allFree .new 0).out = .port 25000 ∧ (doIt oneFree (doIt allFree .new 0).impl 0).out = .exit ∧
    ∀ t, oneFree.bind t 25000 = .ok := by
  refine ⟨by decide +kernel, ?_, fun t => rfl⟩
  have hst : (doIt allFree .new 0).impl = { order := List.range' 25000 4001, index := 1 } := by decide +kernel
  rw [hst]
  have hg : Good { order := List.range' 25000 4001, index := 1 } := ⟨List.Perm.refl _, by dsimp only; omega⟩
  unfold doIt
  rw [hg.length]
  obtain ⟨tried', h⟩ := busy_to_end oneFree 3 4000 { order := List.range' 25000 4001, index := 1 } [] hg rfl (by dsimp only; omega)
    (by omega) (by
      intro t p hp
      dsimp only [List.drop_range'] at hp
      have hd : (List.range' 25000 4001).drop 1 = List.range' 25001 4000 := by rw [List.drop_range']
      rw [hd, List.mem_range'_1] at hp
      unfold oneFree
      dsimp only
      rw [if_neg (by omega)])
  rw [show 4001 + 2 = 3 + 4000 from rfl, h]
  have hg0 : Good { order := List.range' 25000 4001, index := 0 } := ⟨List.Perm.refl _, by dsimp only; omega⟩
  obtain ⟨p, hp, hat, he⟩ := loop_step oneFree 1 2 { order := List.range' 25000 4001, index := 0 } tried' hg0
  have hp29 : p = 29000 := by
    have hs : (shuffled oneFree tried'.length { order := List.range' 25000 4001, index := 0 }).order[0]? = some 29000 := by
      unfold shuffled oneFree
      rw [if_pos rfl]
      dsimp only
      rw [List.getElem?_reverse (by rw [List.length_range']; omega), List.length_range', List.getElem?_range' (by omega)]
    exact (Option.some.inj (hs.symm.trans hat)).symm
  rw [he, hp29]
  rfl

end Current.Net.Ports
