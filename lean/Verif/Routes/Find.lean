import Verif.Routes.Table
/-!
`FindHandler`: the longest base path wins, with exactly the remaining components as arguments (C60).
-/
namespace Current.Routes
open Current.Persist Current.Url

variable {H : Type}

/-! ### The specification -/

/-- The non-empty parts of a text between slashes. -/
def pieces : Str → List Str
  | [] => []
  | c :: s => if c = '/' then pieces s else
    (c :: s.takeWhile (· ≠ '/')) :: pieces (s.dropWhile (· ≠ '/'))
termination_by s => s.length
decreasing_by
  · simp
  · have := (List.dropWhile_sublist (fun c : Char => decide (c ≠ '/')) (l := s)).length_le
    simp only [List.length_cons]
    omega

/-- `base` is a possible base path of the request path, `rest` what follows it: the base is `/`, or it ends where a component
of the path ends. -/
structure Splits (path base rest : Str) : Prop where
  whole : path = base ++ rest
  slash : base.head? = some '/'
  boundary : base = ['/'] ∨ (base.getLast? ≠ some '/' ∧ (rest = [] ∨ rest.head? = some '/'))

/-! ### Lists -/

theorem pieces_slash (s : Str) : pieces ('/' :: s) = pieces s := by rw [pieces]; simp

theorem pieces_slashes (n : Nat) (s : Str) : pieces (List.replicate n '/' ++ s) = pieces s := by
  induction n with
  | zero => simp
  | succ n ih => rw [List.replicate_succ, List.cons_append, pieces_slash, ih]

theorem takeWhile_all {p : Char → Bool} {b s : Str} (h : ∀ c ∈ b, p c = true) (hs : s = [] ∨ ∃ c, s.head? = some c ∧ p c = false) :
    (b ++ s).takeWhile p = b ∧ (b ++ s).dropWhile p = s := by
  induction b with
  | nil =>
    rcases hs with rfl | ⟨c, hc, hp⟩
    · simp
    · cases s with
      | nil => simp at hc
      | cons x s => simp at hc; subst hc; simp [hp]
  | cons x b ih =>
    have := ih fun c hc => h c (by simp [hc])
    have hx := h x (by simp)
    simp [List.takeWhile_cons, List.dropWhile_cons, hx, this]

theorem pieces_component {b s : Str} (hb : b ≠ []) (hn : '/' ∉ b) (hs : s = [] ∨ s.head? = some '/') :
    pieces (b ++ s) = b :: pieces s := by
  cases b with
  | nil => exact absurd rfl hb
  | cons c b =>
    have hc : c ≠ '/' := fun h => hn (by simp [h])
    have := takeWhile_all (p := fun c : Char => decide (c ≠ '/')) (b := b) (s := s)
      (fun c h => by
        simp only [ne_eq, decide_not, Bool.not_eq_true', decide_eq_false_iff_not]
        rintro rfl
        exact hn (by simp [h])) (by
        rcases hs with h | h
        · exact Or.inl h
        · exact Or.inr ⟨'/', h, by simp⟩)
    rw [List.cons_append, pieces, if_neg hc, this.1, this.2]

theorem strip_spec (s : Str) (h : s.head? = some '/') :
    ∃ n, s = strip s ++ List.replicate n '/' ∧ (strip s).head? = some '/' ∧ (strip s = ['/'] ∨ (strip s).getLast? ≠ some '/') := by
  fun_induction strip s with
  | case1 s hc ih =>
    have hne : s ≠ [] := by rintro rfl; simp at hc
    have hd : s.dropLast.head? = some '/' := by
      cases s with
      | nil => simp at hc
      | cons a s =>
        cases s with
        | nil => simp at hc
        | cons b s => simpa using h
    obtain ⟨n, h1, h2, h3⟩ := ih hd
    refine ⟨n + 1, ?_, h2, h3⟩
    have hs : s = s.dropLast ++ ['/'] := by
      have := List.dropLast_append_getLast hne
      have h4 : s.getLast hne = '/' := by
        have := hc.2
        rw [List.getLast?_eq_some_getLast hne] at this
        exact Option.some.inj this
      rw [h4] at this
      exact this.symm
    rw [List.replicate_succ', ← List.append_assoc, ← h1]
    exact hs
  | case2 s hc =>
    refine ⟨0, by simp, h, ?_⟩
    by_cases hl : 1 < s.length
    · exact Or.inr fun hg => hc ⟨hl, hg⟩
    · left
      cases s with
      | nil => simp at h
      | cons a s =>
        simp at h
        subst h
        cases s with
        | nil => rfl
        | cons b s => simp at hl

theorem afterLastSlash_eq (a b : Str) (hb : '/' ∉ b) : afterLastSlash (a ++ '/' :: b) = a.length + 1 := by
  unfold afterLastSlash
  have : (a ++ '/' :: b).reverse.findIdx? (· = '/') = some b.length := by
    rw [List.reverse_append, List.reverse_cons, List.append_assoc, List.findIdx?_append]
    have : b.reverse.findIdx? (fun c => decide (c = '/')) = none := by
      rw [List.findIdx?_eq_none_iff]
      intro x hx
      simp only [decide_eq_false_iff_not]
      rintro rfl
      exact hb (by simpa using hx)
    rw [this]
    simp [List.findIdx?_cons]
  rw [this]
  simp only [List.length_append, List.length_cons]
  omega

/-- A path that does not end with a slash is cut at its last slash. -/
theorem last_slash (s : Str) (h : s.head? = some '/') (hl : s.getLast? ≠ some '/') : ∃ a b, s = a ++ '/' :: b ∧ '/' ∉ b ∧ b ≠ [] := by
  have : ∀ s : Str, '/' ∈ s → ∃ a b, s = a ++ '/' :: b ∧ '/' ∉ b := by
    intro s
    induction s with
    | nil => simp
    | cons c s ih =>
      intro hm
      by_cases hs : '/' ∈ s
      · obtain ⟨a, b, h1, h2⟩ := ih hs
        exact ⟨c :: a, b, by rw [h1]; rfl, h2⟩
      · rcases List.mem_cons.1 hm with rfl | hm
        · exact ⟨[], s, rfl, hs⟩
        · exact absurd hm hs
  obtain ⟨a, b, h1, h2⟩ := this s (by cases s with | nil => simp at h | cons c s => simp at h; simp [h])
  refine ⟨a, b, h1, h2, ?_⟩
  rintro rfl
  rw [h1] at hl
  simp at hl

theorem prefix_of_le {p a b x y : Str} (h1 : p = a ++ x) (h2 : p = b ++ y) (h : a.length ≤ b.length) : ∃ m, b = a ++ m ∧ x = m ++ y := by
  have ha : a <+: p := ⟨x, h1.symm⟩
  have hb : b <+: p := ⟨y, h2.symm⟩
  obtain ⟨m, hm⟩ := List.prefix_of_prefix_length_le ha hb h
  refine ⟨m, hm.symm, ?_⟩
  rw [← hm] at h2
  rw [h1, List.append_assoc] at h2
  exact List.append_cancel_left h2

/-- Between what is left of the path after its trailing slashes were cut and the cut there is no base path. -/
theorem no_base_in_slashes {path r base rest tail : Str} {n : Nat} (hs : Splits path base rest)
    (hp : path = r ++ (List.replicate n '/' ++ tail)) (hr : r.head? = some '/') (h1 : r.length < base.length) (h2 : base.length ≤ r.length + n) : False := by
  obtain ⟨m, hm, ht⟩ := prefix_of_le hp hs.whole (by omega)
  have hml : m.length ≤ n := by
    have := congrArg List.length hm
    simp at this
    omega
  have hm1 : m ≠ [] := by rintro rfl; simp at hm; rw [hm] at h1; omega
  have hrep : m = List.replicate m.length '/' := by
    have : m = (List.replicate n '/' ++ tail).take m.length := by rw [ht]; simp
    rw [List.take_append_of_le_length (by simpa using hml), List.take_replicate, Nat.min_eq_left hml] at this
    exact this
  have hlast : base.getLast? = some '/' := by
    rw [hm, hrep, List.getLast?_append]
    cases hlm : m.length with
    | zero => exact absurd (List.length_eq_zero_iff.1 hlm) hm1
    | succ k => rw [List.replicate_succ']; simp
  rcases hs.boundary with hb | hb
  · rw [hb] at h1
    have : r ≠ [] := by rintro rfl; simp at hr
    have := List.length_pos_of_ne_nil this
    have h1' : r.length < 1 := h1
    omega
  · exact hb.1 hlast

/-! ### The loop -/

/-- What `FindHandler` is to return for a path that begins with a slash. -/
def Found (t : Table H) (path : Str) (h : H) (a : PathArgs) : Prop :=
  ∃ rest, Splits path a.base rest ∧ a.iter = (pieces rest).map decodeURI ∧ t.view a.base (pieces rest).length = some h ∧
    ∀ base' rest', Splits path base' rest' → a.base.length < base'.length → t.view base' (pieces rest').length = none

theorem findLoop_spec (t : Table H) (path : Str) (fuel : Nat) (a : PathArgs) (tail : Str) (hfuel : a.base.length ≤ fuel)
    (hp : path = a.base ++ tail) (hh : a.base.head? = some '/') (htail : tail = [] ∨ a.base.getLast? = some '/')
    (hargs : a.iter = (pieces tail).map decodeURI)
    (hno : ∀ base' rest', Splits path base' rest' → a.base.length < base'.length → t.view base' (pieces rest').length = none) :
    match findLoop t fuel a with
    | (some h, a') => Found t path h a'
    | (none, _) => ∀ base' rest', Splits path base' rest' → t.view base' (pieces rest').length = none := by
  induction fuel generalizing a tail with
  | zero =>
    have : a.base ≠ [] := by intro h; rw [h] at hh; simp at hh
    have := List.length_pos_of_ne_nil this
    omega
  | succ fuel ih =>
    obtain ⟨n, hs, hr, hl⟩ := strip_spec a.base hh
    unfold findLoop
    simp only
    generalize hrg : strip a.base = r at hs hr hl
    have hp' : path = r ++ (List.replicate n '/' ++ tail) := by rw [hp, hs, List.append_assoc]
    have hpc : pieces (List.replicate n '/' ++ tail) = pieces tail := pieces_slashes n tail
    have hrest : r = ['/'] ∨ ((List.replicate n '/' ++ tail) = [] ∨ (List.replicate n '/' ++ tail).head? = some '/') := by
      cases n with
      | succ n => right; right; simp [List.replicate_succ]
      | zero =>
        rcases htail with h | h
        · right; left; simp [h]
        · rcases hl with h' | h'
          · exact Or.inl h'
          · simp at hs
            rw [hs] at h
            exact absurd h h'
    have hsplit : Splits path r (List.replicate n '/' ++ tail) := by
      refine ⟨hp', hr, ?_⟩
      rcases hl with h | h
      · exact Or.inl h
      · rcases hrest with h' | h'
        · exact Or.inl h'
        · exact Or.inr ⟨h, h'⟩
    have hsize : (PathArgs.mk r a.args).size = (pieces tail).length := by
      have := congrArg List.length hargs
      simpa [PathArgs.iter, PathArgs.size] using this
    have hlen : a.base.length = r.length + n := by rw [hs]; simp
    have hno' : ∀ base' rest', Splits path base' rest' → r.length < base'.length → t.view base' (pieces rest').length = none := by
      intro base' rest' hsp hlt
      by_cases hle : base'.length ≤ r.length + n
      · exact (no_base_in_slashes hsp hp' hr hlt hle).elim
      · exact hno base' rest' hsp (by omega)
    have hview : ((assocFind t r).bind fun inner => assocFind inner (PathArgs.mk r a.args).size) = t.view r (pieces tail).length := by
      rw [hsize]; rfl
    rw [hview]
    have heq : ∀ base' rest', Splits path base' rest' → base'.length = r.length → t.view base' (pieces rest').length = t.view r (pieces tail).length := by
      intro base' rest' hsp hle
      obtain ⟨m, hm, ht⟩ := prefix_of_le hp' hsp.whole (by omega)
      have : m = [] := by
        have := congrArg List.length hm
        simp at this
        exact List.length_eq_zero_iff.1 (by omega)
      subst this
      simp at hm ht
      rw [hm, ← ht, hpc]
    cases hv : t.view r (pieces tail).length with
    | some h =>
      refine ⟨List.replicate n '/' ++ tail, hsplit, ?_, ?_, hno'⟩
      · simp only [PathArgs.iter] at hargs ⊢
        rw [hpc, hargs]
      · simp only
        rw [hpc, hv]
    | none =>
      by_cases hroot : r = ['/']
      · simp only [hroot, if_true]
        intro base' rest' hsp
        by_cases hle : r.length < base'.length
        · exact hno' _ _ hsp hle
        · have : base' ≠ [] := by intro h; have := hsp.slash; rw [h] at this; simp at this
          have := List.length_pos_of_ne_nil this
          rw [heq base' rest' hsp (by rw [hroot] at hle ⊢; simp at hle ⊢; omega), hv]
      · simp only [hroot, if_false]
        have hrl : r.getLast? ≠ some '/' := hl.resolve_left hroot
        obtain ⟨x, b, hxb, hnb, hbne⟩ := last_slash r hr hrl
        have hk : afterLastSlash r = x.length + 1 := by rw [hxb]; exact afterLastSlash_eq x b hnb
        have hdrop : r.drop (x.length + 1) = b := by rw [hxb]; simp
        have htake : r.take (x.length + 1) = x ++ ['/'] := by
          rw [hxb, show x ++ '/' :: b = (x ++ ['/']) ++ b by simp]
          rw [List.take_append_of_le_length (by simp), List.take_of_length_le (by simp)]
        rw [hk]
        simp only [PathArgs.add, hdrop, htake]
        have hrest' : (List.replicate n '/' ++ tail) = [] ∨ (List.replicate n '/' ++ tail).head? = some '/' := hrest.resolve_left hroot
        have hpieces : pieces (b ++ (List.replicate n '/' ++ tail)) = b :: pieces tail := by
          rw [pieces_component hbne hnb hrest', hpc]
        apply ih { base := x ++ ['/'], args := a.args ++ [decodeURI b] } (b ++ (List.replicate n '/' ++ tail))
        · have : r.length = x.length + 1 + b.length := by rw [hxb]; simp; omega
          have hb := List.length_pos_of_ne_nil hbne
          simp
          omega
        · rw [hp', hxb]; simp
        · cases x with
          | nil => rfl
          | cons c x => rw [hxb] at hr; simpa using hr
        · right; simp
        · simp only [PathArgs.iter] at hargs ⊢
          rw [hpieces, List.reverse_append, hargs]
          rfl
        · intro base' rest' hsp hlt
          simp only [List.length_append, List.length_cons, List.length_nil] at hlt
          rcases Nat.lt_trichotomy base'.length r.length with h | h | h
          · exfalso
            -- a base that ends inside of the last component
            obtain ⟨m, hm, ht⟩ := prefix_of_le hsp.whole hp' (by omega)
            have hbase : base' = (x ++ ['/']) ++ b.take (base'.length - (x.length + 1)) := by
              have : base' = r.take base'.length := by rw [hm]; simp
              have h3 : r.take base'.length = (x ++ ['/']) ++ b.take (base'.length - (x.length + 1)) := by
                rw [hxb, show x ++ '/' :: b = (x ++ ['/']) ++ b by simp, List.take_append, List.take_of_length_le (by simp; omega)]
                simp
              exact this.trans h3
            have hmne : m ≠ [] := by rintro rfl; simp at hm; rw [hm] at h; omega
            have hmb : m = b.drop (base'.length - (x.length + 1)) := by
              have : r = base' ++ m := hm
              have h2 : m = r.drop base'.length := by rw [this]; simp
              rw [h2, hxb, show x ++ '/' :: b = (x ++ ['/']) ++ b by simp, List.drop_append]
              rw [List.drop_of_length_le (by simp; omega)]
              simp
            have hbs := hsp.boundary
            rcases hbs with h1 | ⟨_, h1⟩
            · rw [h1] at hlt
              simp at hlt
            · rw [ht] at h1
              cases m with
              | nil => exact hmne rfl
              | cons c m =>
                rcases h1 with h1 | h1
                · simp at h1
                · simp at h1
                  subst h1
                  exact hnb (List.mem_of_mem_drop (hmb ▸ List.mem_cons_self))
          · rw [heq _ _ hsp h, hv]
          · exact hno' _ _ hsp h

theorem found_of_find {t : Table H} {path : Str} (hp : path.head? = some '/') :
    match findHandler t path with
    | some (h, a) => Found t path h a
    | none => ∀ base rest, Splits path base rest → t.view base (pieces rest).length = none := by
  have hne : path ≠ [] := by rintro rfl; simp at hp
  unfold findHandler
  rw [if_neg hne, if_neg (by simp [hp])]
  have := findLoop_spec t path path.length { base := path } [] (by simp) (by simp) hp (Or.inl rfl) (by rw [pieces]; rfl) (by
    intro base' rest' hs hlt
    have := congrArg List.length hs.whole
    simp at this hlt
    omega)
  cases hf : findLoop t path.length { base := path } with
  | mk o a =>
    rw [hf] at this
    cases o with
    | none => exact this
    | some h => exact this

/-- C60: no handler is found exactly if no way to read the path as a base path and arguments is registered. -/
theorem find_none {t : Table H} {path : Str} (hp : path.head? = some '/') :
    findHandler t path = none ↔ ∀ base rest, Splits path base rest → t.view base (pieces rest).length = none := by
  have := found_of_find (t := t) hp
  cases hf : findHandler t path with
  | none => rw [hf] at this; simp only [true_iff]; exact this
  | some r =>
    obtain ⟨h, a⟩ := r
    rw [hf] at this
    obtain ⟨rest, h1, _, h3, _⟩ := this
    simp only [reduceCtorEq, false_iff]
    intro hc
    rw [hc _ _ h1] at h3
    cases h3

/-- C60: a handler is found exactly if it is registered for the longest base path that, with the number of components after it,
is registered; it is given that base path and the decoded components after it, in their order. -/
theorem find_some {t : Table H} {path : Str} (hp : path.head? = some '/') (h : H) (base : Str) (args : List Str) :
    (∃ a, findHandler t path = some (h, a) ∧ a.base = base ∧ a.iter = args) ↔
      ∃ rest, Splits path base rest ∧ args = (pieces rest).map decodeURI ∧ t.view base args.length = some h ∧
        ∀ base' rest', Splits path base' rest' → base.length < base'.length → t.view base' (pieces rest').length = none := by
  have hfound := found_of_find (t := t) hp
  constructor
  · rintro ⟨a, hf, rfl, rfl⟩
    rw [hf] at hfound
    obtain ⟨rest, h1, h2, h3, h4⟩ := hfound
    exact ⟨rest, h1, h2, by rw [h2, List.length_map]; exact h3, h4⟩
  · rintro ⟨rest, h1, h2, h3, h4⟩
    rw [h2, List.length_map] at h3
    cases hf : findHandler t path with
    | none =>
      rw [hf] at hfound
      rw [hfound _ _ h1] at h3
      cases h3
    | some r =>
      obtain ⟨h', a⟩ := r
      rw [hf] at hfound
      obtain ⟨rest', g1, g2, g3, g4⟩ := hfound
      have hlen : a.base.length = base.length := by
        rcases Nat.lt_trichotomy a.base.length base.length with hl | hl | hl
        · rw [g4 _ _ h1 hl] at h3; cases h3
        · exact hl
        · rw [h4 _ _ g1 hl] at g3; cases g3
      obtain ⟨m, hm, hx⟩ := prefix_of_le g1.whole h1.whole (by omega)
      have : m = [] := by
        have := congrArg List.length hm
        simp at this
        exact List.length_eq_zero_iff.1 (by omega)
      subst this
      simp at hm hx
      subst hx
      rw [← hm, h3] at g3
      obtain rfl := Option.some.inj g3
      exact ⟨a, rfl, hm.symm, by rw [g2, h2]⟩

/-- C60: the path the handler sees is the base path. -/
theorem request_path {t : Table H} {path : Str} {h : H} {a : PathArgs} (hf : findHandler t path = some (h, a)) : requestPath path a = a.base := by
  have hp : path.head? = some '/' := by
    unfold findHandler at hf
    split at hf
    · cases hf
    split at hf
    · cases hf
    · rename_i h; simpa using h
  have := found_of_find (t := t) hp
  rw [hf] at this
  obtain ⟨rest, h1, _⟩ := this
  unfold requestPath
  have hw := h1.whole
  rw [hw]
  simp

/-- C60: `url_path_args[i]` is the i-th argument, and beyond the end it throws. -/
theorem args_get (a : PathArgs) (i : Nat) : a.get i = a.iter[i]? := by
  unfold PathArgs.get PathArgs.iter
  split
  · rename_i h
    rw [List.getElem?_reverse h]
  · rename_i h
    rw [List.getElem?_eq_none]
    simp
    omega

end Current.Routes
