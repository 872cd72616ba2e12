import Verif.Flags.Model
/-! Command line flags: proofs (C86). -/
namespace Current.Flags
open Current.Persist (Str isSpace)
open Current.Strings (IntTy extract)

/-! ### Values -/

theorem readBool_iff (s : Str) (b : Bool) : readBool s = some b ↔ Means .bool s (.bool b) := by
  simp only [Means, noWords, yesWords, List.mem_cons, List.not_mem_nil, or_false, Val.bool.injEq]
  unfold readBool
  by_cases h1 : s = ['0'] ∨ s = ['f', 'a', 'l', 's', 'e'] ∨ s = ['F', 'a', 'l', 's', 'e'] ∨ s = ['n', 'o'] ∨ s = ['N', 'o']
  · rw [if_pos h1]
    rcases h1 with rfl | rfl | rfl | rfl | rfl <;> cases b <;> simp
  · rw [if_neg h1]
    by_cases h2 : s = ['1'] ∨ s = ['t', 'r', 'u', 'e'] ∨ s = ['T', 'r', 'u', 'e'] ∨ s = ['y', 'e', 's'] ∨ s = ['Y', 'e', 's']
    · rw [if_pos h2]
      cases b <;> simp [h1, h2]
    · rw [if_neg h2]
      simp [h1, h2]

theorem readBool_none (s : Str) : readBool s = none ↔ s ∉ noWords ∧ s ∉ yesWords := by
  cases h : readBool s with
  | none =>
    refine ⟨fun _ => ⟨fun hn => ?_, fun hn => ?_⟩, fun _ => rfl⟩
    · rw [(readBool_iff s false).2 (.inl ⟨hn, rfl⟩)] at h
      exact nomatch h
    · rw [(readBool_iff s true).2 (.inr ⟨hn, rfl⟩)] at h
      exact nomatch h
  | some b =>
    have := (readBool_iff s b).1 h
    simp only [Means] at this
    constructor
    · exact fun h => nomatch h
    · rintro ⟨h1, h2⟩
      rcases this with h | h
      · exact absurd h.1 h1
      · exact absurd h.1 h2

theorem readValue_iff (ty : FlagTy) (s : Str) (v : Val) : readValue ty s = some v ↔ Means ty s v := by
  cases ty with
  | string =>
    simp only [readValue, Means, Option.some.injEq]
    exact eq_comm
  | bool =>
    simp only [readValue, Option.map_eq_some_iff]
    constructor
    · rintro ⟨b, hb, rfl⟩
      exact (readBool_iff s b).1 hb
    · intro h
      have h' := h
      simp only [Means] at h'
      rcases h' with ⟨_, rfl⟩ | ⟨_, rfl⟩
      · exact ⟨false, (readBool_iff s false).2 h, rfl⟩
      · exact ⟨true, (readBool_iff s true).2 h, rfl⟩
  | int t =>
    simp only [readValue, Means]
    cases extract t s <;> simp [eq_comm]
  | byte t =>
    simp only [readValue, Means]
    constructor
    · cases h : s.dropWhile isSpace with
      | nil => exact fun h => nomatch h
      | cons c r =>
        intro hv
        simp only [Option.some.injEq] at hv
        refine ⟨s.takeWhile isSpace, c, r, ?_, fun d hd => ?_, ?_, hv.symm⟩
        · rw [← h, List.takeWhile_append_dropWhile]
        · exact (List.all_eq_true.1 List.all_takeWhile) d hd
        · have : (s.dropWhile isSpace).head (by simp [h]) = c := by simp [h]
          have h2 := List.head_dropWhile_not (l := s) isSpace (by simp [h])
          rw [this] at h2
          simpa using h2
    · rintro ⟨w, c, r, rfl, hw, hc, rfl⟩
      rw [Current.Strings.dropWhile_space hw (by simpa using hc)]

theorem means_unique (ty : FlagTy) (s : Str) (v w : Val) (h : Means ty s v) (h' : Means ty s w) : v = w := by
  have a := (readValue_iff ty s v).2 h
  have b := (readValue_iff ty s w).2 h'
  rw [a] at b
  exact Option.some.inj b

/-! ### One argument -/

theorem dashes_id (n : Nat) (s : Str) (h : s.head? ≠ some '-') : dashes n s = some s := by
  cases s with
  | nil => rfl
  | cons c r =>
    rw [dashes]
    intro r' e
    exact h (by cases e; rfl)

theorem dashes_written (two : Bool) (s : Str) (h : s.head? ≠ some '-') : dashes 0 (written two s) = some s := by
  cases two with
  | false => simp only [written, Bool.false_eq_true, if_false, dashes, Nat.zero_add]; rw [if_neg (by decide), dashes_id _ _ h]
  | true =>
    simp only [written, if_true, dashes, Nat.zero_add]
    rw [if_neg (by decide), if_neg (by decide), dashes_id _ _ h]

theorem dashes_inv (r flag : Str) (h : dashes 0 ('-' :: r) = some flag) :
    ∃ two, '-' :: r = written two flag ∧ flag.head? ≠ some '-' := by
  rw [dashes, if_neg (by decide)] at h
  by_cases h1 : r.head? = some '-'
  · obtain ⟨r', rfl⟩ : ∃ r', r = '-' :: r' := by
      cases r with
      | nil => exact nomatch h1
      | cons c r' =>
        simp only [List.head?_cons, Option.some.injEq] at h1
        exact ⟨r', by rw [h1]⟩
    rw [dashes, if_neg (by decide)] at h
    by_cases h2 : r'.head? = some '-'
    · obtain ⟨r'', rfl⟩ : ∃ r'', r' = '-' :: r'' := by
        cases r' with
        | nil => exact nomatch h2
        | cons c r'' =>
          simp only [List.head?_cons, Option.some.injEq] at h2
          exact ⟨r'', by rw [h2]⟩
      rw [dashes, if_pos (by decide)] at h
      exact nomatch h
    · rw [dashes_id _ _ h2] at h
      cases h
      exact ⟨true, rfl, h2⟩
  · rw [dashes_id _ _ h1] at h
    cases h
    exact ⟨false, rfl, h1⟩

theorem splitEq_some (n v : Str) (h : '=' ∉ n) : splitEq (n ++ '=' :: v) = (n, some v) := by
  induction n with
  | nil => rfl
  | cons c n ih =>
    simp only [List.mem_cons, not_or] at h
    rw [List.cons_append, splitEq, ih h.2]
    intro e
    exact h.1 e.symm

theorem splitEq_none (n : Str) (h : '=' ∉ n) : splitEq n = (n, none) := by
  induction n with
  | nil => rfl
  | cons c n ih =>
    simp only [List.mem_cons, not_or] at h
    rw [splitEq, ih h.2]
    intro e
    exact h.1 e.symm

theorem splitEq_spec (f : Str) : '=' ∉ (splitEq f).1 ∧
    ((∃ v, (splitEq f).2 = some v ∧ f = (splitEq f).1 ++ '=' :: v) ∨ ((splitEq f).2 = none ∧ f = (splitEq f).1)) := by
  by_cases h : '=' ∈ f
  · obtain ⟨n, v, rfl, hn⟩ := List.eq_append_cons_of_mem h
    rw [splitEq_some n v hn]
    exact ⟨hn, .inl ⟨v, rfl, rfl⟩⟩
  · rw [splitEq_none f h]
    exact ⟨h, .inr ⟨rfl, rfl⟩⟩

/-! ### Steps -/

theorem parse_pos (reg : Registry) (a : Str) (rest : List Str) (st : St) (h : a.head? ≠ some '-') :
    parse reg (a :: rest) st = parse reg rest { st with pos := st.pos ++ [a] } := by
  rw [parse.eq_def]
  cases a with
  | nil => rfl
  | cons c r =>
    have hc : c ≠ '-' := fun e => h (by rw [e]; rfl)
    simp only
    split
    · next heq => cases heq; exact absurd rfl hc
    · rfl

theorem written_head (two : Bool) (s : Str) : ∃ r, written two s = '-' :: r := by
  cases two
  · exact ⟨_, rfl⟩
  · exact ⟨_, rfl⟩

/-- The step for a flag. -/
theorem parse_flag (reg : Registry) (two : Bool) (flag : Str) (rest : List Str) (st : St) (h : flag.head? ≠ some '-') :
    parse reg (written two flag :: rest) st =
      if (splitEq flag).1 = help then .help
      else
        match reg (splitEq flag).1 with
        | none => .exit
        | some ty =>
          match (splitEq flag).2 with
          | some v =>
            match readValue ty v with
            | none => .exit
            | some x => parse reg rest { st with vals := put st.vals (splitEq flag).1 x }
          | none =>
            if ty = .bool ∧ (rest.head?.bind readBool) = none then
              match readValue ty ['1'] with
              | none => .exit
              | some x => parse reg rest { st with vals := put st.vals (splitEq flag).1 x }
            else
              match rest with
              | [] => .exit
              | v :: rest' =>
                match readValue ty v with
                | none => .exit
                | some x => parse reg rest' { st with vals := put st.vals (splitEq flag).1 x } := by
  obtain ⟨r, hr⟩ := written_head two flag
  have hd := dashes_written two flag h
  rw [parse.eq_def]
  rw [hr] at hd ⊢
  simp only [hd]
  rfl

theorem head_eq (n v : Str) (h : n.head? ≠ some '-') : (n ++ '=' :: v).head? ≠ some '-' := by
  cases n with
  | nil => simp
  | cons c n => simpa using h

theorem parse_eq (reg : Registry) (hn : Names reg) (two : Bool) (n v : Str) (rest : List Str) (st : St) (ty : FlagTy) (x : Val)
    (h0 : n ≠ help) (h1 : reg n = some ty) (h2 : Means ty v x) :
    parse reg (written two (n ++ '=' :: v) :: rest) st = parse reg rest { st with vals := put st.vals n x } := by
  obtain ⟨h3, h4⟩ := hn n (by rw [h1]; exact Option.some_ne_none _)
  rw [parse_flag reg two _ rest st (head_eq n v h4), splitEq_some n v h3]
  simp only [if_neg h0, h1, (readValue_iff ty v x).2 h2]

theorem parse_sep (reg : Registry) (hn : Names reg) (two : Bool) (n v : Str) (rest : List Str) (st : St) (ty : FlagTy) (x : Val)
    (h0 : n ≠ help) (h1 : reg n = some ty) (h2 : Means ty v x) :
    parse reg (written two n :: v :: rest) st = parse reg rest { st with vals := put st.vals n x } := by
  obtain ⟨h3, h4⟩ := hn n (by rw [h1]; exact Option.some_ne_none _)
  have hr := (readValue_iff ty v x).2 h2
  rw [parse_flag reg two _ _ st h4, splitEq_none n h3]
  simp only [if_neg h0, h1]
  rw [if_neg]
  · simp only [hr]
  · rintro ⟨rfl, hb⟩
    simp only [List.head?_cons, Option.bind_some] at hb
    simp only [readValue, hb] at hr
    exact nomatch hr

theorem parse_on (reg : Registry) (hn : Names reg) (two : Bool) (n : Str) (rest : List Str) (st : St)
    (h0 : n ≠ help) (h1 : reg n = some .bool) (h2 : ∀ w, rest.head? = some w → w ∉ noWords ∧ w ∉ yesWords) :
    parse reg (written two n :: rest) st = parse reg rest { st with vals := put st.vals n (.bool true) } := by
  obtain ⟨h3, h4⟩ := hn n (by rw [h1]; exact Option.some_ne_none _)
  rw [parse_flag reg two _ _ st h4, splitEq_none n h3]
  simp only [if_neg h0, h1]
  rw [if_pos]
  · have hr := (readValue_iff .bool ['1'] (.bool true)).2 (.inr ⟨by decide, rfl⟩)
    simp only [hr]
  · refine ⟨trivial, ?_⟩
    cases rest with
    | nil => rfl
    | cons w r => exact (readBool_none w).2 (h2 w rfl)

/-! ### The command line -/

/-- What a command line comes to: the arguments which are not flags in order, and every flag set to what was last said about it. -/
def Result (reg : Registry) (items : List Item) (st st' : St) : Prop :=
  st'.pos = st.pos ++ positional items ∧
    ∀ n, match lastText n items with
      | none => st'.vals n = st.vals n
      | some t => ∃ ty, reg n = some ty ∧ Means ty t (st'.vals n)

theorem result_unique {reg : Registry} {items : List Item} {st a b : St} (ha : Result reg items st a) (hb : Result reg items st b) :
    a = b := by
  cases a with
  | mk av ap =>
    cases b with
    | mk bv bp =>
      have hp : ap = bp := ha.1.trans hb.1.symm
      have hv : av = bv := by
        funext n
        have h1 := ha.2 n
        have h2 := hb.2 n
        cases hl : lastText n items with
        | none =>
          rw [hl] at h1 h2
          exact h1.trans h2.symm
        | some t =>
          rw [hl] at h1 h2
          obtain ⟨ty, h3, h4⟩ := h1
          obtain ⟨ty', h5, h6⟩ := h2
          rw [h3] at h5
          cases h5
          exact means_unique ty t _ _ h4 h6
      rw [hp, hv]

theorem lastText_skip (n : Str) (i : Item) (l : List Item) (h : ∀ nv, i.sets = some nv → nv.1 ≠ n) :
    lastText n (i :: l) = lastText n l := by
  simp only [lastText, List.filterMap_cons]
  cases hs : i.sets with
  | none => rfl
  | some nv =>
    simp only [List.reverse_cons, List.find?_append, List.find?_cons, List.find?_nil]
    rw [decide_eq_false (h nv hs)]
    simp

theorem lastText_hit (n t : Str) (i : Item) (l : List Item) (h : i.sets = some (n, t)) :
    lastText n (i :: l) = some ((lastText n l).getD t) := by
  simp only [lastText, List.filterMap_cons, h, List.reverse_cons, List.find?_append, List.find?_cons, List.find?_nil, decide_true]
  cases List.find? (fun nv => decide (nv.1 = n)) (List.filterMap Item.sets l).reverse <;> rfl

theorem result_set {reg : Registry} {i : Item} {l : List Item} {st st' : St} {n t : Str} {ty : FlagTy} {x : Val}
    (hi : i.sets = some (n, t)) (hp : positional (i :: l) = positional l) (hr : reg n = some ty) (hm : Means ty t x)
    (h : Result reg l { st with vals := put st.vals n x } st') : Result reg (i :: l) st st' := by
  refine ⟨by rw [hp]; exact h.1, fun m => ?_⟩
  have h2 := h.2 m
  by_cases hmn : m = n
  · subst hmn
    rw [lastText_hit m t i l hi]
    cases hl : lastText m l with
    | none =>
      rw [hl] at h2
      simp only [put, if_true] at h2
      exact ⟨ty, hr, by rw [h2]; exact hm⟩
    | some t' =>
      rw [hl] at h2
      exact h2
  · rw [lastText_skip m i l (fun nv hnv => by rw [hi] at hnv; cases hnv; exact fun e => hmn e.symm)]
    cases hl : lastText m l with
    | none =>
      rw [hl] at h2
      simp only [put, if_neg hmn] at h2
      exact h2
    | some t' =>
      rw [hl] at h2
      exact h2

/-- Reading what was written, followed by other arguments: `more` is a condition on what follows. -/
theorem parse_items (reg : Registry) (hn : Names reg) (more : List Str)
    (hw : ∀ w, more.head? = some w → w ∉ noWords ∧ w ∉ yesWords) : ∀ (items : List Item) (st : St), Ok reg items →
    ∃ st', Result reg items st st' ∧ parse reg (commandLine items ++ more) st = parse reg more st' := by
  intro items
  induction items with
  | nil => exact fun st _ => ⟨st, ⟨by simp [positional], fun n => rfl⟩, rfl⟩
  | cons i l ih =>
    intro st ho
    cases i with
    | pos s =>
      obtain ⟨h1, h2⟩ := ho
      obtain ⟨st', hr, he⟩ := ih { st with pos := st.pos ++ [s] } h2
      refine ⟨st', ⟨?_, fun n => ?_⟩, ?_⟩
      · rw [hr.1]
        simp [positional]
      · rw [lastText_skip n (.pos s) l (fun nv h => nomatch h)]
        exact hr.2 n
      · rw [← he]
        exact parse_pos reg s _ st h1
    | eq two n v =>
      obtain ⟨h1, ⟨ty, x, h2, h3⟩, h4⟩ := ho
      obtain ⟨st', hr, he⟩ := ih { st with vals := put st.vals n x } h4
      refine ⟨st', result_set rfl rfl h2 h3 hr, ?_⟩
      rw [← he]
      exact parse_eq reg hn two n v _ st ty x h1 h2 h3
    | sep two n v =>
      obtain ⟨h1, ⟨ty, x, h2, h3⟩, h4⟩ := ho
      obtain ⟨st', hr, he⟩ := ih { st with vals := put st.vals n x } h4
      refine ⟨st', result_set rfl rfl h2 h3 hr, ?_⟩
      rw [← he]
      exact parse_sep reg hn two n v _ st ty x h1 h2 h3
    | on two n =>
      obtain ⟨h1, h2, h3, h4⟩ := ho
      obtain ⟨st', hr, he⟩ := ih { st with vals := put st.vals n (.bool true) } h4
      refine ⟨st', result_set (t := ['t', 'r', 'u', 'e']) rfl rfl h2 (.inr ⟨by decide, rfl⟩) hr, ?_⟩
      rw [← he]
      refine parse_on reg hn two n _ st h1 h2 fun w h => ?_
      change (commandLine l ++ more).head? = some w at h
      cases hc : commandLine l with
      | nil =>
        rw [hc] at h
        exact hw w h
      | cons a b =>
        rw [hc] at h
        exact h3 w (by rw [hc]; exact h)

/-- What `parse` returns other than `exit` comes from items. -/
theorem parse_inv (reg : Registry) (hn : Names reg) : ∀ (k : Nat) (args : List Str) (st : St), args.length ≤ k →
    (∀ st', parse reg args st = .ok st' → ∃ items, Ok reg items ∧ commandLine items = args) ∧
    (parse reg args st = .help → ∃ items two s rest, Ok reg items ∧ args = commandLine items ++ written two s :: rest ∧
      (s = help ∨ ∃ v, s = help ++ '=' :: v)) := by
  intro k
  induction k with
  | zero =>
    intro args st h
    cases args with
    | nil =>
      rw [parse.eq_def]
      exact ⟨fun _ _ => ⟨[], trivial, rfl⟩, fun h => nomatch h⟩
    | cons a r => simp at h
  | succ k ih =>
    intro args st h
    cases args with
    | nil =>
      rw [parse.eq_def]
      exact ⟨fun _ _ => ⟨[], trivial, rfl⟩, fun h => nomatch h⟩
    | cons a rest =>
      have hrest : rest.length ≤ k := by simpa using h
      by_cases ha : a.head? = some '-'
      · obtain ⟨r, rfl⟩ : ∃ r, a = '-' :: r := by
          cases a with
          | nil => exact nomatch ha
          | cons c r =>
            simp only [List.head?_cons, Option.some.injEq] at ha
            exact ⟨r, by rw [ha]⟩
        cases hd : dashes 0 ('-' :: r) with
        | none =>
          have : parse reg (('-' :: r) :: rest) st = .exit := by
            rw [parse.eq_def]
            simp only [hd]
          rw [this]
          exact ⟨fun _ h => (nomatch h), fun h => nomatch h⟩
        | some flag =>
          obtain ⟨two, hw, hf⟩ := dashes_inv r flag hd
          rw [hw, parse_flag reg two flag rest st hf]
          obtain ⟨hne, hs⟩ := splitEq_spec flag
          by_cases hh : (splitEq flag).1 = help
          · rw [if_pos hh]
            refine ⟨fun _ h => (nomatch h), fun _ => ⟨[], two, flag, rest, trivial, rfl, ?_⟩⟩
            rcases hs with ⟨v, _, e⟩ | ⟨_, e⟩
            · rw [hh] at e
              exact .inr ⟨v, e⟩
            · rw [hh] at e
              exact .inl e
          · rw [if_neg hh]
            cases hr : reg (splitEq flag).1 with
            | none => exact ⟨fun _ h => (nomatch h), fun h => nomatch h⟩
            | some ty =>
              simp only
              rcases hs with ⟨v, e1, e2⟩ | ⟨e1, e2⟩
              · rw [e1]
                simp only
                cases hx : readValue ty v with
                | none => exact ⟨fun _ h => (nomatch h), fun h => nomatch h⟩
                | some x =>
                  obtain ⟨i1, i2⟩ := ih rest { st with vals := put st.vals (splitEq flag).1 x } hrest
                  have hok : ∀ l, Ok reg l → Ok reg (.eq two (splitEq flag).1 v :: l) := fun l hl =>
                    ⟨hh, ⟨ty, x, hr, (readValue_iff ty v x).1 hx⟩, hl⟩
                  have hcl : ∀ l, commandLine (.eq two (splitEq flag).1 v :: l) = written two flag :: commandLine l := fun l => by
                    show [written two ((splitEq flag).1 ++ '=' :: v)] ++ commandLine l = _
                    rw [← e2]
                    rfl
                  refine ⟨fun st' h' => ?_, fun h' => ?_⟩
                  · obtain ⟨l, hl, hc⟩ := i1 st' h'
                    exact ⟨_, hok l hl, by rw [hcl, hc]⟩
                  · obtain ⟨l, two', s, rest', hl, hc, hs'⟩ := i2 h'
                    exact ⟨_, two', s, rest', hok l hl, by rw [hcl, hc, List.cons_append], hs'⟩
              · rw [e1]
                simp only
                by_cases hb : ty = .bool ∧ (rest.head?.bind readBool) = none
                · rw [if_pos hb]
                  cases hx : readValue ty ['1'] with
                  | none => exact ⟨fun _ h => (nomatch h), fun h => nomatch h⟩
                  | some x =>
                    obtain ⟨i1, i2⟩ := ih rest { st with vals := put st.vals (splitEq flag).1 x } hrest
                    have hok : ∀ l suffix, rest = commandLine l ++ suffix → Ok reg l → Ok reg (.on two (splitEq flag).1 :: l) := fun l suffix hc hl =>
                      ⟨hh, by rw [hr, hb.1], fun w hwd => by
                        have : rest.head? = some w := by
                          rw [hc]
                          cases hcc : commandLine l with
                          | nil => rw [hcc] at hwd; exact nomatch hwd
                          | cons y z => rw [hcc] at hwd; exact hwd
                        have hb2 := hb.2
                        rw [this] at hb2
                        exact (readBool_none w).1 hb2, hl⟩
                    have hcl : ∀ l, commandLine (.on two (splitEq flag).1 :: l) = written two flag :: commandLine l := fun l => by
                      show [written two (splitEq flag).1] ++ commandLine l = _
                      rw [← e2]
                      rfl
                    refine ⟨fun st' h' => ?_, fun h' => ?_⟩
                    · obtain ⟨l, hl, hc⟩ := i1 st' h'
                      exact ⟨_, hok l [] (by rw [hc, List.append_nil]) hl, by rw [hcl, hc]⟩
                    · obtain ⟨l, two', s, rest', hl, hc, hs'⟩ := i2 h'
                      exact ⟨_, two', s, rest', hok l _ hc hl, by rw [hcl, hc, List.cons_append], hs'⟩
                · rw [if_neg hb]
                  cases rest with
                  | nil => exact ⟨fun _ h => (nomatch h), fun h => nomatch h⟩
                  | cons v rest' =>
                    simp only
                    cases hx : readValue ty v with
                    | none => exact ⟨fun _ h => (nomatch h), fun h => nomatch h⟩
                    | some x =>
                      have hrest' : rest'.length ≤ k := by simp at hrest; omega
                      obtain ⟨i1, i2⟩ := ih rest' { st with vals := put st.vals (splitEq flag).1 x } hrest'
                      have hok : ∀ l, Ok reg l → Ok reg (.sep two (splitEq flag).1 v :: l) := fun l hl =>
                        ⟨hh, ⟨ty, x, hr, (readValue_iff ty v x).1 hx⟩, hl⟩
                      have hcl : ∀ l, commandLine (.sep two (splitEq flag).1 v :: l) = written two flag :: v :: commandLine l := fun l => by
                        show [written two (splitEq flag).1, v] ++ commandLine l = _
                        rw [← e2]
                        rfl
                      refine ⟨fun st' h' => ?_, fun h' => ?_⟩
                      · obtain ⟨l, hl, hc⟩ := i1 st' h'
                        exact ⟨_, hok l hl, by rw [hcl, hc]⟩
                      · obtain ⟨l, two', s, rest'', hl, hc, hs'⟩ := i2 h'
                        exact ⟨_, two', s, rest'', hok l hl, by rw [hcl, hc, List.cons_append, List.cons_append], hs'⟩
      · rw [parse_pos reg a rest st ha]
        obtain ⟨i1, i2⟩ := ih rest { st with pos := st.pos ++ [a] } hrest
        refine ⟨fun st' h' => ?_, fun h' => ?_⟩
        · obtain ⟨l, hl, hc⟩ := i1 st' h'
          exact ⟨.pos a :: l, ⟨ha, hl⟩, by rw [← hc]; rfl⟩
        · obtain ⟨l, two', s, rest', hl, hc, hs'⟩ := i2 h'
          exact ⟨.pos a :: l, two', s, rest', ⟨ha, hl⟩, by rw [hc]; rfl, hs'⟩

/-- **Command lines**: the program goes on exactly if its arguments are flags with values and other arguments, as the user would
write them; then every flag has the value last given to it, or its default value, and the other arguments are left in
order. -/
theorem parse_iff (reg : Registry) (hn : Names reg) (args : List Str) (st st' : St) :
    parse reg args st = .ok st' ↔ ∃ items, Ok reg items ∧ commandLine items = args ∧ Result reg items st st' := by
  have key : ∀ items, Ok reg items → commandLine items = args → ∃ s, Result reg items st s ∧ parse reg args st = .ok s := by
    intro items ho hc
    obtain ⟨s, hr, he⟩ := parse_items reg hn [] (fun w h => nomatch h) items st ho
    rw [List.append_nil, hc, parse.eq_def reg []] at he
    exact ⟨s, hr, he⟩
  constructor
  · intro h
    obtain ⟨items, ho, hc⟩ := (parse_inv reg hn _ args st (Nat.le_refl _)).1 st' h
    obtain ⟨s, hr, he⟩ := key items ho hc
    rw [h] at he
    cases he
    exact ⟨items, ho, hc, hr⟩
  · rintro ⟨items, ho, hc, hr⟩
    obtain ⟨s, hr', he⟩ := key items ho hc
    rw [he, result_unique hr hr']

/-- **Help**: asked for exactly by `-help` or `--help`, where a flag can be. -/
theorem help_iff (reg : Registry) (hn : Names reg) (args : List Str) (st : St) :
    parse reg args st = .help ↔ ∃ items two s rest, Ok reg items ∧ args = commandLine items ++ written two s :: rest ∧
      (s = help ∨ ∃ v, s = help ++ '=' :: v) := by
  constructor
  · exact (parse_inv reg hn _ args st (Nat.le_refl _)).2
  · rintro ⟨items, two, s, rest, ho, rfl, hs⟩
    have hhd : s.head? ≠ some '-' := by
      rcases hs with rfl | ⟨v, rfl⟩
      · decide
      · simp [help]
    have hsp : (splitEq s).1 = help := by
      rcases hs with rfl | ⟨v, rfl⟩
      · rw [splitEq_none _ (by decide)]
      · rw [splitEq_some _ _ (by decide)]
    obtain ⟨st', _, he⟩ := parse_items reg hn (written two s :: rest) (fun w h => by
      simp only [List.head?_cons, Option.some.injEq] at h
      subst h
      have e : ∀ l : List Str, (∀ w ∈ l, w.head? ≠ some '-') → written two s ∉ l := fun l hl hm => hl _ hm (by cases two <;> rfl)
      exact ⟨e _ (by decide), e _ (by decide)⟩) items st ho
    rw [he, parse_flag reg two s rest st' hhd, if_pos hsp]

theorem written_inj (two two' : Bool) (s s' : Str) (h : s.head? ≠ some '-') (h' : s'.head? ≠ some '-')
    (e : written two s = written two' s') : two = two' ∧ s = s' := by
  cases two <;> cases two' <;> simp only [written, Bool.false_eq_true, if_false, if_true, List.cons.injEq, true_and] at e
  · exact ⟨rfl, e⟩
  · rw [e] at h
    exact absurd rfl h
  · rw [← e] at h'
    exact absurd rfl h'
  · exact ⟨rfl, e⟩

/-- The name of a flag in an item which can be read. -/
theorem names_of_ok (reg : Registry) (hn : Names reg) (n : Str) (ty : FlagTy) (h : reg n = some ty) : '=' ∉ n ∧ n.head? ≠ some '-' :=
  hn n (by rw [h]; exact Option.some_ne_none _)

/-- **No command line has two readings**. -/
theorem reading_unique (reg : Registry) (hn : Names reg) : ∀ (l l' : List Item), Ok reg l → Ok reg l' →
    commandLine l = commandLine l' → l = l' := by
  -- what the first argument of an item tells
  have first : ∀ (i : Item) (l : List Item), Ok reg (i :: l) → ∃ a r, i.args ++ commandLine l = a :: r ∧
      (match i with
        | .pos s => a = s ∧ a.head? ≠ some '-'
        | .eq two n v => a = written two (n ++ '=' :: v) ∧ '=' ∉ n ∧ (n ++ '=' :: v).head? ≠ some '-'
        | .sep two n _ => a = written two n ∧ '=' ∉ n ∧ n.head? ≠ some '-'
        | .on two n => a = written two n ∧ '=' ∉ n ∧ n.head? ≠ some '-') := by
    intro i l h
    cases i with
    | pos s => exact ⟨s, _, rfl, rfl, h.1⟩
    | eq two n v =>
      obtain ⟨_, ⟨ty, x, h2, _⟩, _⟩ := h
      obtain ⟨a, b⟩ := names_of_ok reg hn n ty h2
      exact ⟨_, _, rfl, rfl, a, head_eq n v b⟩
    | sep two n v =>
      obtain ⟨_, ⟨ty, x, h2, _⟩, _⟩ := h
      exact ⟨_, _, rfl, rfl, names_of_ok reg hn n ty h2⟩
    | on two n =>
      obtain ⟨_, h2, _⟩ := h
      exact ⟨_, _, rfl, rfl, names_of_ok reg hn n _ h2⟩
  have hw : ∀ two s, (written two s).head? = some '-' := fun two s => by cases two <;> rfl
  intro l
  induction l with
  | nil =>
    intro l' _ ho' e
    cases l' with
    | nil => rfl
    | cons i' l' =>
      obtain ⟨a, r, h, _⟩ := first i' l' ho'
      have : commandLine (i' :: l') = a :: r := h
      rw [this] at e
      exact nomatch e
  | cons i l ih =>
    intro l' ho ho' e
    cases l' with
    | nil =>
      obtain ⟨a, r, h, _⟩ := first i l ho
      have : commandLine (i :: l) = a :: r := h
      rw [this] at e
      exact nomatch e
    | cons i' l' =>
      obtain ⟨a, r, h, h1⟩ := first i l ho
      obtain ⟨a', r', h', h1'⟩ := first i' l' ho'
      have e1 : i.args ++ commandLine l = i'.args ++ commandLine l' := e
      have ea : a = a' := by
        rw [h, h'] at e1
        exact (List.cons.inj e1).1
      subst ea
      cases i with
      | pos s =>
        cases i' with
        | pos s' =>
          obtain ⟨rfl, _⟩ := h1
          obtain ⟨rfl, _⟩ := h1'
          rw [ih l' ho.2 ho'.2 (by simpa [Item.args] using e1)]
        | eq two n v => exact absurd (by rw [h1'.1]; exact hw _ _) h1.2
        | sep two n v => exact absurd (by rw [h1'.1]; exact hw _ _) h1.2
        | on two n => exact absurd (by rw [h1'.1]; exact hw _ _) h1.2
      | eq two n v =>
        obtain ⟨ha, hne, hd⟩ := h1
        cases i' with
        | pos s' => exact absurd (by rw [ha]; exact hw _ _) h1'.2
        | eq two' n' v' =>
          obtain ⟨ha', hne', hd'⟩ := h1'
          obtain ⟨rfl, e2⟩ := written_inj _ _ _ _ hd hd' (ha.symm.trans ha')
          have e3 : splitEq (n ++ '=' :: v) = splitEq (n' ++ '=' :: v') := by rw [e2]
          rw [splitEq_some n v hne, splitEq_some n' v' hne'] at e3
          cases e3
          rw [ih l' ho.2.2 ho'.2.2 (by simpa [Item.args] using e1)]
        | sep two' n' v' =>
          obtain ⟨ha', hne', hd'⟩ := h1'
          obtain ⟨_, e2⟩ := written_inj _ _ _ _ hd hd' (ha.symm.trans ha')
          exact absurd (by rw [← e2]; simp) hne'
        | on two' n' =>
          obtain ⟨ha', hne', hd'⟩ := h1'
          obtain ⟨_, e2⟩ := written_inj _ _ _ _ hd hd' (ha.symm.trans ha')
          exact absurd (by rw [← e2]; simp) hne'
      | sep two n v =>
        obtain ⟨ha, hne, hd⟩ := h1
        cases i' with
        | pos s' => exact absurd (by rw [ha]; exact hw _ _) h1'.2
        | eq two' n' v' =>
          obtain ⟨ha', hne', hd'⟩ := h1'
          obtain ⟨_, e2⟩ := written_inj _ _ _ _ hd hd' (ha.symm.trans ha')
          exact absurd (by rw [e2]; simp) hne
        | sep two' n' v' =>
          obtain ⟨ha', hne', hd'⟩ := h1'
          obtain ⟨rfl, rfl⟩ := written_inj _ _ _ _ hd hd' (ha.symm.trans ha')
          have e2 : v = v' ∧ commandLine l = commandLine l' := by simpa [Item.args] using e1
          rw [e2.1, ih l' ho.2.2 ho'.2.2 e2.2]
        | on two' n' =>
          obtain ⟨ha', hne', hd'⟩ := h1'
          obtain ⟨rfl, rfl⟩ := written_inj _ _ _ _ hd hd' (ha.symm.trans ha')
          have e2 : v :: commandLine l = commandLine l' := by simpa [Item.args] using e1
          obtain ⟨_, ⟨ty, x, h3, h4⟩, _⟩ := ho
          obtain ⟨_, h5, h6, _⟩ := ho'
          rw [h3] at h5
          cases h5
          have := h6 v (by rw [← e2]; rfl)
          simp only [Means] at h4
          rcases h4 with h4 | h4
          · exact absurd h4.1 this.1
          · exact absurd h4.1 this.2
      | on two n =>
        obtain ⟨ha, hne, hd⟩ := h1
        cases i' with
        | pos s' => exact absurd (by rw [ha]; exact hw _ _) h1'.2
        | eq two' n' v' =>
          obtain ⟨ha', hne', hd'⟩ := h1'
          obtain ⟨_, e2⟩ := written_inj _ _ _ _ hd hd' (ha.symm.trans ha')
          exact absurd (by rw [e2]; simp) hne
        | sep two' n' v' =>
          obtain ⟨ha', hne', hd'⟩ := h1'
          obtain ⟨rfl, rfl⟩ := written_inj _ _ _ _ hd hd' (ha.symm.trans ha')
          have e2 : commandLine l = v' :: commandLine l' := by simpa [Item.args] using e1
          obtain ⟨_, ⟨ty, x, h3, h4⟩, _⟩ := ho'
          obtain ⟨_, h5, h6, _⟩ := ho
          rw [h3] at h5
          cases h5
          have := h6 v' (by rw [e2]; rfl)
          simp only [Means] at h4
          rcases h4 with h4 | h4
          · exact absurd h4.1 this.1
          · exact absurd h4.1 this.2
        | on two' n' =>
          obtain ⟨ha', hne', hd'⟩ := h1'
          obtain ⟨rfl, rfl⟩ := written_inj _ _ _ _ hd hd' (ha.symm.trans ha')
          have e2 : commandLine l = commandLine l' := by simpa [Item.args] using e1
          rw [ih l' ho.2.2.2 ho'.2.2.2 e2]

/-! ### Numbers -/

/-- A number a flag of more than a byte can hold, as `ToString` writes it, is its value. -/
theorem number_flag (t : IntTy) (x : Int) (h : t.Fits x) : Means (.int t) (Current.Strings.toStringInt x) (.int x) := by
  have := Current.Strings.extract_dec (t := t) (w := []) (rest := []) h (by simp) (by simp)
  simp only [List.nil_append, List.append_nil] at this
  exact ⟨x, this, rfl⟩

/-- A flag of an integer type always has a value of the type. -/
theorem int_flag_fits (t : IntTy) (ht : 1 ≤ t.bits) (s : Str) (x : Int) (h : Means (.int t) s (.int x)) : t.Fits x := by
  obtain ⟨y, h1, h2⟩ := h
  cases h2
  have := Current.Strings.fromString_fits t ht s
  rwa [Current.Strings.fromStringInt, h1] at this

/-- A flag of type `int8_t` or `uint8_t` is set to the *character code* of the first digit: `--x=5` is 53. -/
theorem byte_flag_wrong : Means (.byte Current.Strings.int8) ['5'] (.int 53) ∧ Means (.byte Current.Strings.uint8) ['5'] (.int 53) :=
  ⟨⟨[], '5', [], rfl, by simp, by decide, by decide⟩, ⟨[], '5', [], rfl, by simp, by decide, by decide⟩⟩

/-- What follows a number is ignored, and `-1` is a large number if the flag is unsigned. -/
theorem number_flag_lenient : Means (.int Current.Strings.int32) ['1', '2', 'm', 's'] (.int 12) ∧
    Means (.int Current.Strings.uint16) ['-', '1'] (.int 65535) :=
  ⟨⟨12, by decide +kernel, rfl⟩, ⟨65535, by decide +kernel, rfl⟩⟩

/-! ### Examples -/

def exReg : Registry := fun n =>
  if n = ['p'] then some (.int Current.Strings.uint16) else if n = ['v'] then some .bool else if n = ['s'] then some .string else none

theorem exReg_names : Names exReg := by
  intro n h
  unfold exReg at h
  by_cases h1 : n = ['p']
  · subst h1; decide
  · rw [if_neg h1] at h
    by_cases h2 : n = ['v']
    · subst h2; decide
    · rw [if_neg h2] at h
      by_cases h3 : n = ['s']
      · subst h3; decide
      · rw [if_neg h3] at h
        exact absurd rfl h

/-- `-v a --p=80 -s -x --v no -p 81`. -/
def exItems : List Item :=
  [.on false ['v'], .pos ['a'], .eq true ['p'] ['8', '0'], .sep false ['s'] ['-', 'x'], .sep true ['v'] ['n', 'o'], .sep false ['p'] ['8', '1']]

theorem example_ok : Ok exReg exItems := by
  refine ⟨by decide, rfl, ?_, by decide, by decide, ⟨_, .int 80, rfl, ⟨80, by decide +kernel, rfl⟩⟩, by decide, ⟨_, .str ['-', 'x'], rfl, rfl⟩, by decide,
    ⟨_, .bool false, rfl, .inl ⟨by decide, rfl⟩⟩, by decide, ⟨_, .int 81, rfl, ⟨81, by decide +kernel, rfl⟩⟩, trivial⟩
  intro w hw
  have : w = ['a'] := (Option.some.inj hw).symm
  subst this
  decide

theorem example_line : commandLine exItems = [['-', 'v'], ['a'], ['-', '-', 'p', '=', '8', '0'], ['-', 's'], ['-', 'x'],
    ['-', '-', 'v'], ['n', 'o'], ['-', 'p'], ['8', '1']] ∧ lastText ['p'] exItems = some ['8', '1'] ∧
    positional exItems = [['a']] := by decide

/-- A boolean flag takes the next argument if it is a word for a boolean, even if it was meant as an argument: `-v yes`. -/
theorem takes_next : Ok exReg [.sep false ['v'] ['y', 'e', 's']] ∧ ¬ Ok exReg [.on false ['v'], .pos ['y', 'e', 's']] := by
  constructor
  · exact ⟨by decide, ⟨_, .bool true, rfl, .inr ⟨by decide, rfl⟩⟩, trivial⟩
  · rintro ⟨_, _, h, _⟩
    exact absurd (h _ rfl).2 (by decide)

end Current.Flags
