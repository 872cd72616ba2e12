import Mathlib.Data.List.Nodup
/-!
C162: `ThreadLocalSingleton<T>()` and `Singleton<T>()` (`bricks/util/singleton.h`), with constructors that use other singletons themselves (as
`mt19937_64_wrapper` of `random.h` uses `SeedImpl`).

Types and threads are numbers; `deps t` are the singletons the constructor of `t` asks for, in order. A constructor that comes back to its own type does not
end (`singleton.h:103-109`) or is undefined behaviour (`static`), so that types can be numbered such that they only ask for smaller ones.
Addresses are numbers that are given out once: nothing is freed as long as its thread runs.
-/
namespace Current.Util.Singleton

/-- `instances` of `ThreadLocalSingletonsFactory` (`singleton.h:98-99`) of every thread, or the `thread_local` objects (`singleton.h:46-50`); the objects
constructed so far, as thread and type, in order: the number of an object is its address. A placeholder that is still null is `none`. -/
structure State where
  inst : Nat → Nat → Option Nat
  made : List (Nat × Nat)

variable (deps : Nat → List Nat)

/-- `DoGetInstance<T>()` by thread `u` (`singleton.h:101-109`): `fuel` is above the type. -/
def get (u : Nat) : Nat → Nat → State → Option Nat × State
  | 0, _, s => (none, s)
  | fuel + 1, t, s =>
    match s.inst u t with
    | some i => (some i, s)
    | none =>
      let s := (deps t).foldl (fun s d => (get u fuel d s).2) s
      (some s.made.length, { inst := fun v r => if v = u ∧ r = t then some s.made.length else s.inst v r, made := s.made ++ [(u, t)] })

/-- Calls of `ThreadLocalSingleton<T>()`, by thread and type, and the objects they return. -/
def run (s : State) : List (Nat × Nat) → List (Option Nat)
  | [] => []
  | (u, t) :: cs => (get deps u (t + 1) t s).1 :: run (get deps u (t + 1) t s).2 cs

/-- What has been constructed after the calls. -/
def final (s : State) : List (Nat × Nat) → State
  | [] => s
  | (u, t) :: cs => final (get deps u (t + 1) t s).2 cs

def start : State := { inst := fun _ _ => none, made := [] }

/-- Each instance is the object at its address, of its thread and type. -/
def Ok (s : State) : Prop := ∀ u t i, s.inst u t = some i ↔ s.made[i]? = some (u, t)

/-- Nothing that is there goes away. -/
def Le (s s' : State) : Prop := (∀ u t i, s.inst u t = some i → s'.inst u t = some i) ∧ s.made <+: s'.made

theorem Le.refl (s : State) : Le s s := ⟨fun _ _ _ h => h, List.prefix_refl _⟩
theorem Le.trans {a b c : State} (h : Le a b) (h' : Le b c) : Le a c := ⟨fun u t i e => h'.1 u t i (h.1 u t i e), h.2.trans h'.2⟩

/-- Types below `n` of thread `u` only are touched. -/
def Only (u n : Nat) (s s' : State) : Prop := ∀ v t, v ≠ u ∨ n ≤ t → s'.inst v t = s.inst v t

theorem get_spec (hd : ∀ t d, d ∈ deps t → d < t) (u : Nat) : ∀ fuel t s, t < fuel → Ok s →
    Ok (get deps u fuel t s).2 ∧ Le s (get deps u fuel t s).2 ∧ Only u (t + 1) s (get deps u fuel t s).2 ∧
    ∃ i, (get deps u fuel t s).1 = some i ∧ (get deps u fuel t s).2.inst u t = some i := by
  intro fuel
  induction fuel with
  | zero => intro t s h; omega
  | succ fuel ih =>
    intro t s ht ok
    have fold : ∀ (ds : List Nat) (s : State), (∀ d ∈ ds, d < t) → Ok s →
        Ok (ds.foldl (fun s d => (get deps u fuel d s).2) s) ∧ Le s (ds.foldl (fun s d => (get deps u fuel d s).2) s) ∧
        Only u t s (ds.foldl (fun s d => (get deps u fuel d s).2) s) := by
      intro ds
      induction ds with
      | nil => intro s _ ok; exact ⟨ok, Le.refl s, fun _ _ _ => rfl⟩
      | cons d ds ihd =>
        intro s hl ok
        have hdt := hl d (by simp)
        obtain ⟨a1, a2, a3, -⟩ := ih d s (by omega) ok
        obtain ⟨b1, b2, b3⟩ := ihd _ (fun x hx => hl x (by simp [hx])) a1
        refine ⟨b1, a2.trans b2, fun v r h => ?_⟩
        rw [List.foldl_cons, b3 v r h]
        exact a3 v r (by rcases h with h | h; exact .inl h; exact .inr (by omega))
    unfold get
    cases hi : s.inst u t with
    | some i => exact ⟨ok, Le.refl s, fun _ _ _ => rfl, i, rfl, hi⟩
    | none =>
      obtain ⟨c1, c2, c3⟩ := fold (deps t) s (hd t) ok
      simp only
      generalize (deps t).foldl (fun s d => (get deps u fuel d s).2) s = s' at *
      have hn : s'.inst u t = none := by rw [c3 u t (.inr (Nat.le_refl t)), hi]
      refine ⟨?_, ⟨?_, c2.2.trans (List.prefix_append _ _)⟩, ?_, s'.made.length, rfl, by simp⟩
      · intro v r i
        simp only
        rcases Nat.lt_trichotomy i s'.made.length with hl | hl | hl
        · rw [List.getElem?_append_left hl]
          split
          · rename_i h
            obtain ⟨rfl, rfl⟩ := h
            refine ⟨fun h => by simp at h; omega, fun h => ?_⟩
            have := (c1 v r i).2 h
            rw [hn] at this; cases this
          · exact c1 v r i
        · subst hl
          rw [List.getElem?_append_right (Nat.le_refl _)]
          split
          · rename_i h
            obtain ⟨rfl, rfl⟩ := h
            simp
          · rename_i h
            refine ⟨fun e => ?_, fun e => ?_⟩
            · have := (c1 v r _).1 e
              rw [List.getElem?_eq_none (Nat.le_refl _)] at this; cases this
            · simp at e
              exact absurd ⟨e.1.symm, e.2.symm⟩ h
        · rw [List.getElem?_eq_none (by simp; omega)]
          split
          · refine ⟨fun h => by simp at h; omega, fun h => by cases h⟩
          · refine ⟨fun e => ?_, fun h => by cases h⟩
            have := (c1 v r i).1 e
            rw [List.getElem?_eq_none (by omega)] at this; cases this
      · intro v r i h
        simp only
        have := c2.1 v r i h
        split
        · rename_i h'
          obtain ⟨rfl, rfl⟩ := h'
          rw [hn] at this; cases this
        · exact this
      · intro v r h
        simp only
        rw [if_neg (by omega), c3 v r (by omega)]

theorem ok_start : Ok start := by intro u t i; simp [start]

theorem run_spec (hd : ∀ t d, d ∈ deps t → d < t) (cs : List (Nat × Nat)) : ∀ s, Ok s → Ok (final deps s cs) ∧ Le s (final deps s cs) ∧
    (run deps s cs).length = cs.length ∧ ∀ (k u t : Nat), cs[k]? = some (u, t) → ∃ i, (run deps s cs)[k]? = some (some i) ∧ (final deps s cs).inst u t = some i := by
  induction cs with
  | nil => intro s ok; exact ⟨ok, Le.refl s, rfl, fun k u t h => by simp at h⟩
  | cons c cs ih =>
    intro s ok
    obtain ⟨u, t⟩ := c
    obtain ⟨a1, a2, -, i, e1, e2⟩ := get_spec deps hd u (t + 1) t s (Nat.lt_succ_self t) ok
    obtain ⟨b1, b2, b3, b4⟩ := ih _ a1
    refine ⟨b1, a2.trans b2, by simp [run, b3], fun k v r h => ?_⟩
    cases k with
    | zero =>
      simp only [List.getElem?_cons_zero, Option.some.injEq, Prod.mk.injEq] at h
      obtain ⟨rfl, rfl⟩ := h
      exact ⟨i, by simp [run, e1], b2.1 _ _ _ e2⟩
    | succ k =>
      simp only [List.getElem?_cons_succ] at h
      obtain ⟨j, j1, j2⟩ := b4 k v r h
      exact ⟨j, by simpa [run] using j1, j2⟩

/-- **C162.** Two calls return the same object exactly if they are of the same thread and the same type; and every call returns one. -/
theorem same_iff (hd : ∀ t d, d ∈ deps t → d < t) (cs : List (Nat × Nat)) (k l : Nat) (c d : Nat × Nat) (hk : cs[k]? = some c) (hl : cs[l]? = some d) :
    ∃ i j, (run deps start cs)[k]? = some (some i) ∧ (run deps start cs)[l]? = some (some j) ∧ (i = j ↔ c = d) := by
  obtain ⟨ok, -, -, h⟩ := run_spec deps hd cs start ok_start
  obtain ⟨i, i1, i2⟩ := h k c.1 c.2 hk
  obtain ⟨j, j1, j2⟩ := h l d.1 d.2 hl
  refine ⟨i, j, i1, j1, fun e => ?_, fun e => ?_⟩
  · subst e
    have h1 := (ok _ _ _).1 i2
    have h2 := (ok _ _ _).1 j2
    rw [h1] at h2
    exact Option.some.inj h2
  · subst e
    rw [i2] at j2
    exact Option.some.inj j2

/-- **C162.** No type is constructed twice in a thread. -/
theorem made_once (hd : ∀ t d, d ∈ deps t → d < t) (cs : List (Nat × Nat)) : (final deps start cs).made.Nodup := by
  obtain ⟨ok, -, -, -⟩ := run_spec deps hd cs start ok_start
  rw [List.nodup_iff_getElem?_ne_getElem?]
  intro i j hij hj e
  obtain ⟨x, hx⟩ : ∃ x, (final deps start cs).made[i]? = some x := ⟨_, List.getElem?_eq_getElem (by omega)⟩
  have h1 := (ok x.1 x.2 i).2 hx
  have h2 := (ok x.1 x.2 j).2 (by rw [← e]; exact hx)
  rw [h1] at h2
  have := Option.some.inj h2
  omega

/-- **C162.** What one thread does changes nothing of the singletons of another. -/
theorem threads_apart (hd : ∀ t d, d ∈ deps t → d < t) (s : State) (ok : Ok s) (u v t r : Nat) (h : v ≠ u) : (get deps u (t + 1) t s).2.inst v r = s.inst v r :=
  (get_spec deps hd u (t + 1) t s (Nat.lt_succ_self t) ok).2.2.1 v r (.inl h)

/-- **C162.** A constructor finds the singletons it asks for, and they are there before it ends: with a singleton, those its constructor asked for exist. -/
theorem deps_made (hd : ∀ t d, d ∈ deps t → d < t) (u : Nat) : ∀ fuel t s, t < fuel → Ok s → (∀ r, s.inst u r ≠ none → ∀ d ∈ deps r, s.inst u d ≠ none) →
    ∀ r, (get deps u fuel t s).2.inst u r ≠ none → ∀ d ∈ deps r, (get deps u fuel t s).2.inst u d ≠ none := by
  intro fuel
  induction fuel with
  | zero => intro t s h; omega
  | succ fuel ih =>
    intro t s ht ok hs
    have fold : ∀ (ds : List Nat) (s : State), (∀ d ∈ ds, d < t) → Ok s → (∀ r, s.inst u r ≠ none → ∀ d ∈ deps r, s.inst u d ≠ none) →
        (∀ r, (ds.foldl (fun s d => (get deps u fuel d s).2) s).inst u r ≠ none → ∀ d ∈ deps r, (ds.foldl (fun s d => (get deps u fuel d s).2) s).inst u d ≠ none) ∧
        Le s (ds.foldl (fun s d => (get deps u fuel d s).2) s) ∧
        ∀ d ∈ ds, (ds.foldl (fun s d => (get deps u fuel d s).2) s).inst u d ≠ none := by
      intro ds
      induction ds with
      | nil => intro s _ _ hs; exact ⟨hs, Le.refl s, by simp⟩
      | cons d ds ihd =>
        intro s hl ok hs
        have hdt := hl d (by simp)
        obtain ⟨a1, a2, -, i, -, a4⟩ := get_spec deps hd u fuel d s (by omega) ok
        obtain ⟨b1, b2, b3⟩ := ihd _ (fun x hx => hl x (by simp [hx])) a1 (ih d s (by omega) ok hs)
        refine ⟨b1, a2.trans b2, fun x hx => ?_⟩
        rcases List.mem_cons.1 hx with rfl | hx
        · rw [List.foldl_cons, b2.1 _ _ _ a4]; simp
        · exact b3 x hx
    unfold get
    cases hi : s.inst u t with
    | some i => exact hs
    | none =>
      obtain ⟨c1, c2, c3⟩ := fold (deps t) s (hd t) ok hs
      simp only
      generalize (deps t).foldl (fun s d => (get deps u fuel d s).2) s = s' at *
      intro r hr d hdr
      by_cases hdt : d = t
      · subst hdt; simp
      · rw [if_neg (by omega)]
        by_cases hrt : r = t
        · subst hrt; exact c3 d hdr
        · rw [if_neg (by omega)] at hr
          exact c1 r hr d hdr

/-- `Singleton<T>()` (`singleton.h:38-42`) is the same with one thread for all: all calls for a type return the same object. -/
theorem singleton_same (hd : ∀ t d, d ∈ deps t → d < t) (ts : List Nat) (k l t r : Nat) (hk : ts[k]? = some t) (hl : ts[l]? = some r) :
    ∃ i j, (run deps start (ts.map (0, ·)))[k]? = some (some i) ∧ (run deps start (ts.map (0, ·)))[l]? = some (some j) ∧ (i = j ↔ t = r) := by
  obtain ⟨i, j, h1, h2, h3⟩ := same_iff deps hd (ts.map (0, ·)) k l (0, t) (0, r) (by simp [hk]) (by simp [hl])
  exact ⟨i, j, h1, h2, by rw [h3]; simp⟩

/-- Type 1 (the generator) asks for type 0 (the seed): two threads, each with its own. -/
def exDeps : Nat → List Nat
  | 1 => [0, 0]
  | _ => []

example : run exDeps start [(7, 1), (8, 0), (7, 0), (8, 1), (7, 1)] = [some 1, some 2, some 0, some 3, some 1] := by decide
example : ∀ t d, d ∈ exDeps t → d < t := by
  intro t d h
  unfold exDeps at h
  split at h <;> simp at h
  omega

end Current.Util.Singleton
