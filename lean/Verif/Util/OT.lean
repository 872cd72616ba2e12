import Verif.Persist.Model
/-!
`utils/operational_transformation/ot.h` (C44).

The JSON parser (`rapidjson`) and the UTF-8 conversion are not modelled: the input is the parsed document, and strings are
lists of characters (`wchar_t` of 32 bits). A text that is not JSON is refused with an exception (`ot.h:61-63`).
-/
namespace Current.OT
open Current.Persist

/-! ### Model -/

/-- A parsed JSON value. -/
inductive J where
  | str (s : Str)
  | int (v : Int)          -- a number without a fraction
  | real                   -- any other number
  | obj (members : List (Str × J))
  | arr (elements : List J)
  | other                  -- `true`, `false`, `null`

/-- How a call ends. -/
inductive Res (α : Type) where
  | ok (a : α)
  | throws      -- `OTParseException`
  | asserts     -- `RAPIDJSON_ASSERT` fails
  | undefined   -- an iterator outside of the container
  deriving DecidableEq, Repr

/-- One element of the array `o`, `ot.h:95-112`. `caret` is an `int`; its overflow is not modelled (it takes a document of
two billion characters). -/
def element (e : J) (rope : Str) (caret : Nat) : Res (Str × Nat) :=
  match e with
  | .str s => if caret ≤ rope.length then .ok (rope.take caret ++ s ++ rope.drop caret, caret + s.length) else .undefined
  | .int v =>
    if v < -2147483648 ∨ 2147483647 < v then .asserts
    else if 0 < v then .ok (rope, caret + v.toNat)
    else if caret + (-v).toNat ≤ rope.length then .ok (rope.take caret ++ rope.drop (caret + (-v).toNat), caret)
    else .undefined
  | .real => .asserts
  | _ => .throws

/-- The loop over `o`, `ot.h:94-113`. -/
def elements : List J → Str → Nat → Res Str
  | [], rope, _ => .ok rope
  | e :: rest, rope, caret =>
    match element e rope caret with
    | .ok (rope', caret') => elements rest rope' caret'
    | .throws => .throws
    | .asserts => .asserts
    | .undefined => .undefined

/-- `inner.HasMember(name)` and `inner[name]`: the first member with the name. -/
def member (name : Str) (l : List (Str × J)) : Option J := (l.find? fun m => m.1 = name).map (·.2)

/-- The checks on the value of a member of the document, `ot.h:72-92`: the timestamp and the array. -/
def fieldsOf (inner : J) : Option (Nat × List J) :=
  match inner with
  | .obj l =>
    match member ['t'] l, member ['o'] l with
    | some (.int t), some (.arr a) => if 0 ≤ t ∧ t < 2 ^ 64 then some (t.toNat, a) else none
    | _, _ => none
  | _ => none

/-- A processor: `ProcessSnapshot` (which may change it) and `GenerateOutput`. -/
structure Processor (σ ω : Type) where
  process : σ → Nat → Str → Bool × σ
  generate : σ → Str → Bool → ω

/-- The loop over the members, `ot.h:71-119`. The timestamp is multiplied as a `uint64_t`. -/
def members {σ ω : Type} (p : Processor σ ω) : List (Str × J) → σ → Str → Res ω
  | [], st, rope => .ok (p.generate st rope false)
  | m :: rest, st, rope =>
    match fieldsOf m.2 with
    | none => .throws
    | some (t, a) =>
      match elements a rope 0 with
      | .ok rope' =>
        let (go, st') := p.process st (t * 1000 % 2 ^ 64) rope'
        if go then members p rest st' rope' else .ok (p.generate st' rope' true)
      | .throws => .throws
      | .asserts => .asserts
      | .undefined => .undefined

/-- `OT(json, processor)`, `ot.h:57-122`, on the parsed document. -/
def run {σ ω : Type} (p : Processor σ ω) (st : σ) (document : J) : Res ω :=
  match document with
  | .obj l => members p l st []
  | _ => .throws

/-- `PassthroughProcessor`, `ot.h:125-134`. -/
def passthrough : Processor Unit Str := ⟨fun st _ _ => (true, st), fun _ rope _ => rope⟩

/-! ### Specification -/

/-- `Edit o d d'`: the script `o`, read from left to right along the document `d`, makes `d'` of it. Texts are inserted;
a positive number keeps as many characters of the document; zero or a negative number erases as many. What is left of the
document after the script stays. -/
inductive Edit : List J → Str → Str → Prop
  | done (d : Str) : Edit [] d d
  | insert (s : Str) {o : List J} {d d' : Str} : Edit o d d' → Edit (.str s :: o) d (s ++ d')
  | keep (x : Str) (v : Int) {o : List J} {d d' : Str} : 0 < v → v ≤ 2147483647 → (x.length : Int) = v → Edit o d d' →
      Edit (.int v :: o) (x ++ d) (x ++ d')
  | erase (x : Str) (v : Int) {o : List J} {d d' : Str} : v ≤ 0 → -2147483648 ≤ v → (x.length : Int) = -v → Edit o d d' →
      Edit (.int v :: o) (x ++ d) d'

/-- The members that the processor gets to see, with their scripts applied one after the other: the snapshots. -/
inductive Snapshots : List (Str × J) → Str → List (Nat × Str) → Prop
  | nil (d : Str) : Snapshots [] d []
  | cons {name : Str} {v : J} {rest : List (Str × J)} {d d' : Str} {t : Nat} {o : List J} {l : List (Nat × Str)} :
      fieldsOf v = some (t, o) → Edit o d d' → Snapshots rest d' l → Snapshots ((name, v) :: rest) d ((t * 1000 % 2 ^ 64, d') :: l)

/-- What a processor makes of a list of snapshots. -/
def feed {σ ω : Type} (p : Processor σ ω) : List (Nat × Str) → σ → Str → ω
  | [], st, last => p.generate st last false
  | (t, d) :: rest, st, _ =>
    if (p.process st t d).1 then feed p rest (p.process st t d).2 d else p.generate (p.process st t d).2 d true

/-! ### Lemmas -/

/-- An edit, with what is on the left of the caret. -/
theorem elements_of_edit {o : List J} {d d' : Str} (h : Edit o d d') : ∀ (l : Str), elements o (l ++ d) l.length = .ok (l ++ d') := by
  induction h with
  | done d => intro l; rfl
  | insert s _ ih =>
    intro l
    rename_i o d d' _
    have : element (.str s) (l ++ d) l.length = .ok ((l ++ s) ++ d, (l ++ s).length) := by
      simp [element]
    simp only [elements, this, ih]
    simp
  | keep x v h1 h2 h3 _ ih =>
    intro l
    rename_i o d d' _
    have : element (.int v) (l ++ (x ++ d)) l.length = .ok ((l ++ x) ++ d, (l ++ x).length) := by
      have hv : v.toNat = x.length := by omega
      rw [element, if_neg (by omega), if_pos h1, hv]
      simp
    simp only [elements, this, ih]
    simp
  | erase x v h1 h2 h3 _ ih =>
    intro l
    rename_i o d d' _
    have : element (.int v) (l ++ (x ++ d)) l.length = .ok (l ++ d, l.length) := by
      have hv : (-v).toNat = x.length := by omega
      rw [element, if_neg (by omega), if_neg (by omega), hv, if_pos (by simp only [List.length_append]; omega)]
      have e : l ++ (x ++ d) = (l ++ x) ++ d := by simp
      have e2 : l.length + x.length = (l ++ x).length := by simp
      rw [List.take_left, e2, e, List.drop_left]
    simp only [elements, this, ih]

def keeps (e : J) : Prop := ∃ v : Int, 0 < v ∧ v ≤ 2147483647 ∧ e = .int v

theorem edit_of_elements (o : List J) : ∀ (l d r : Str), elements o (l ++ d) l.length = .ok r →
    ∃ o' tail d', o = o' ++ tail ∧ (∀ e ∈ tail, keeps e) ∧ Edit o' d d' ∧ r = l ++ d' := by
  -- past the end only `keep` is possible
  have past : ∀ (o : List J) (rope r : Str) (caret : Nat), rope.length < caret → elements o rope caret = .ok r → (∀ e ∈ o, keeps e) ∧ r = rope := by
    intro o
    induction o with
    | nil => intro rope r caret _ h; simp only [elements, Res.ok.injEq] at h; exact ⟨by simp, h.symm⟩
    | cons e o ih =>
      intro rope r caret hc h
      cases e with
      | str s => rw [elements, element, if_neg (by omega)] at h; cases h
      | int v =>
        rw [elements, element] at h
        by_cases h1 : v < -2147483648 ∨ 2147483647 < v
        · rw [if_pos h1] at h; cases h
        · rw [if_neg h1] at h
          by_cases h2 : 0 < v
          · rw [if_pos h2] at h
            obtain ⟨h3, h4⟩ := ih rope r (caret + v.toNat) (by omega) h
            refine ⟨?_, h4⟩
            intro x hx
            rcases List.mem_cons.mp hx with rfl | hx
            · exact ⟨v, h2, by omega, rfl⟩
            · exact h3 x hx
          · rw [if_neg h2, if_neg (by omega)] at h; cases h
      | real => rw [elements, element] at h; cases h
      | obj l => simp [elements, element] at h
      | arr l => simp [elements, element] at h
      | other => simp [elements, element] at h
  induction o with
  | nil =>
    intro l d r h
    simp only [elements, Res.ok.injEq] at h
    exact ⟨[], [], d, rfl, by simp, .done d, h.symm⟩
  | cons e o ih =>
    intro l d r h
    cases e with
    | str s =>
      have he : element (.str s) (l ++ d) l.length = .ok ((l ++ s) ++ d, (l ++ s).length) := by simp [element]
      simp only [elements, he] at h
      obtain ⟨o', tail, d', h1, h2, h3, h4⟩ := ih (l ++ s) d r h
      exact ⟨.str s :: o', tail, s ++ d', by simp [h1], h2, .insert s h3, by simp [h4]⟩
    | int v =>
      have h0 := h
      rw [elements, element] at h
      by_cases h1 : v < -2147483648 ∨ 2147483647 < v
      · rw [if_pos h1] at h; cases h
      · rw [if_neg h1] at h
        by_cases h2 : 0 < v
        · rw [if_pos h2] at h
          by_cases h3 : v.toNat ≤ d.length
          · have e1 : l ++ d = (l ++ d.take v.toNat) ++ d.drop v.toNat := by rw [List.append_assoc, List.take_append_drop]
            have e2 : l.length + v.toNat = (l ++ d.take v.toNat).length := by
              rw [List.length_append, List.length_take, Nat.min_eq_left h3]
            simp only at h
            rw [e1, e2] at h
            obtain ⟨o', tail, d', g1, g2, g3, g4⟩ := ih _ _ r h
            refine ⟨.int v :: o', tail, d.take v.toNat ++ d', by simp [g1], g2, ?_, by simp [g4]⟩
            have : Edit (.int v :: o') (d.take v.toNat ++ d.drop v.toNat) (d.take v.toNat ++ d') :=
              .keep _ v h2 (by omega) (by rw [List.length_take, Nat.min_eq_left h3]; omega) g3
            rwa [List.take_append_drop] at this
          · obtain ⟨g1, g2⟩ := past o (l ++ d) r (l.length + v.toNat) (by simp only [List.length_append]; omega) h
            refine ⟨[], .int v :: o, d, rfl, ?_, .done d, g2⟩
            intro x hx
            rcases List.mem_cons.mp hx with rfl | hx
            · exact ⟨v, h2, by omega, rfl⟩
            · exact g1 x hx
        · rw [if_neg h2] at h
          by_cases h3 : l.length + (-v).toNat ≤ (l ++ d).length
          · rw [if_pos h3] at h
            have h3' : (-v).toNat ≤ d.length := by simp only [List.length_append] at h3; omega
            have e1 : l ++ d = (l ++ d.take (-v).toNat) ++ d.drop (-v).toNat := by rw [List.append_assoc, List.take_append_drop]
            have e2 : l.length + (-v).toNat = (l ++ d.take (-v).toNat).length := by
              rw [List.length_append, List.length_take, Nat.min_eq_left h3']
            have e3 : (l ++ d).drop (l.length + (-v).toNat) = d.drop (-v).toNat := by
              rw [e2, e1, List.drop_left]
            simp only [List.take_left, e3] at h
            obtain ⟨o', tail, d', g1, g2, g3, g4⟩ := ih l _ r h
            refine ⟨.int v :: o', tail, d', by simp [g1], g2, ?_, g4⟩
            have : Edit (.int v :: o') (d.take (-v).toNat ++ d.drop (-v).toNat) d' :=
              .erase _ v (by omega) (by omega) (by rw [List.length_take, Nat.min_eq_left h3']; omega) g3
            rwa [List.take_append_drop] at this
          · rw [if_neg h3] at h; cases h
    | real => rw [elements, element] at h; cases h
    | obj l => simp [elements, element] at h
    | arr l => simp [elements, element] at h
    | other => simp [elements, element] at h

/-! ### Properties -/

/-- C44. A script that fits the document does what it says. -/
theorem script_applies {o : List J} {d d' : Str} (h : Edit o d d') : elements o d 0 = .ok d' := by
  simpa using elements_of_edit h []

/-- C44. A script that is accepted fits the document, except that it may end by keeping characters that are not there. -/
theorem accepted_script_fits (o : List J) (d d' : Str) (h : elements o d 0 = .ok d') :
    ∃ o' tail, o = o' ++ tail ∧ (∀ e ∈ tail, ∃ v : Int, 0 < v ∧ v ≤ 2147483647 ∧ e = .int v) ∧ Edit o' d d' := by
  obtain ⟨o', tail, r, h1, h2, h3, h4⟩ := edit_of_elements o [] d d' (by simpa using h)
  simp only [List.nil_append] at h4
  subst h4
  exact ⟨o', tail, h1, h2, h3⟩

/-- A script makes only one thing of a document. -/
theorem edit_deterministic {o : List J} {d a b : Str} (h1 : Edit o d a) (h2 : Edit o d b) : a = b := by
  have := script_applies h1
  rw [script_applies h2] at this
  injection this with h; exact h.symm

/-- The length of the result. -/
theorem edit_length {o : List J} {d d' : Str} (h : Edit o d d') :
    (d'.length : Int) = d.length + (o.map fun e => match e with | .str s => (s.length : Int) | .int v => (if 0 < v then 0 else v) | _ => 0).sum := by
  induction h with
  | done d => simp
  | insert s _ ih => simp only [List.map_cons, List.sum_cons, List.length_append]; omega
  | keep x v h1 h2 h3 _ ih => simp only [List.map_cons, List.sum_cons, List.length_append, if_pos h1]; omega
  | erase x v h1 h2 h3 _ ih => simp only [List.map_cons, List.sum_cons, List.length_append, if_neg (show ¬ 0 < v by omega)]; omega

/-- What is kept is kept in order: the characters of the result that the script does not insert are a subsequence of the
document; those of the document that it does not erase are a subsequence of the result. -/
theorem edit_keeps_order {o : List J} {d d' : Str} (h : Edit o d d') :
    ∃ kept : Str, kept.Sublist d ∧ kept.Sublist d' ∧
      (d.length : Int) = kept.length + (o.map fun e => match e with | .int v => (if 0 < v then 0 else -v) | _ => 0).sum ∧
      (d'.length : Int) = kept.length + (o.map fun e => match e with | .str s => (s.length : Int) | _ => 0).sum := by
  induction h with
  | done d => exact ⟨d, List.Sublist.refl _, List.Sublist.refl _, by simp, by simp⟩
  | insert s _ ih =>
    obtain ⟨k, h1, h2, h3, h4⟩ := ih
    refine ⟨k, h1, h2.trans (List.sublist_append_right _ _), ?_, ?_⟩
    · simp only [List.map_cons, List.sum_cons]; omega
    · simp only [List.map_cons, List.sum_cons, List.length_append]; omega
  | keep x v g1 g2 g3 _ ih =>
    obtain ⟨k, h1, h2, h3, h4⟩ := ih
    refine ⟨x ++ k, List.Sublist.append (List.Sublist.refl _) h1, List.Sublist.append (List.Sublist.refl _) h2, ?_, ?_⟩
    · simp only [List.map_cons, List.sum_cons, List.length_append, if_pos g1]; omega
    · simp only [List.map_cons, List.sum_cons, List.length_append]; omega
  | erase x v g1 g2 g3 _ ih =>
    obtain ⟨k, h1, h2, h3, h4⟩ := ih
    refine ⟨k, h1.trans (List.sublist_append_right _ _), h2, ?_, ?_⟩
    · simp only [List.map_cons, List.sum_cons, List.length_append, if_neg (show ¬ 0 < v by omega)]; omega
    · simp only [List.map_cons, List.sum_cons]; omega

theorem members_feed {σ ω : Type} (p : Processor σ ω) {ms : List (Str × J)} {d : Str} {snaps : List (Nat × Str)} (h : Snapshots ms d snaps) :
    ∀ (st : σ), members p ms st d = .ok (feed p snaps st d) := by
  induction h with
  | nil d => intro st; rfl
  | cons hf he _ ih =>
    intro st
    simp only [members, hf, script_applies he, feed]
    split
    · exact ih _
    · rfl

/-- C44. The whole: the processor gets the snapshots in the order of the document, until it asks to stop, and the output is
generated from the last one it saw. -/
theorem ot_feeds_processor {σ ω : Type} (p : Processor σ ω) (st : σ) (ms : List (Str × J)) (snaps : List (Nat × Str))
    (h : Snapshots ms [] snaps) : run p st (.obj ms) = .ok (feed p snaps st []) := members_feed p h st

/-- C44. `OT(json)` is the last snapshot. -/
theorem ot_is_last_snapshot (ms : List (Str × J)) (snaps : List (Nat × Str)) (h : Snapshots ms [] snaps) :
    run passthrough () (.obj ms) = .ok ((snaps.map (·.2)).getLastD []) := by
  rw [ot_feeds_processor passthrough () ms snaps h]
  congr 1
  generalize ([] : Str) = d
  clear h
  induction snaps generalizing d with
  | nil => rfl
  | cons s l ih =>
    obtain ⟨t, x⟩ := s
    have : feed passthrough ((t, x) :: l) () d = feed passthrough l () x := by simp [feed, passthrough]
    rw [this, ih]
    cases l with
    | nil => simp
    | cons a l =>
      simp only [List.map_cons]
      rw [List.getLastD_eq_getLast?, List.getLastD_eq_getLast?]
      rw [List.getLast?_cons_cons]
      cases hl : (a.2 :: l.map fun x => x.2).getLast? with
      | none => simp at hl
      | some y => rfl

/-- What is refused with an exception: a document that is not an object, or a member that is not an object with an
unsigned number `t` and an array `o`. -/
theorem refused {σ ω : Type} (p : Processor σ ω) (st : σ) (name : Str) (v : J) (rest : List (Str × J)) (d : Str)
    (h : fieldsOf v = none) : members p ((name, v) :: rest) st d = .throws := by
  simp only [members, h]

/-- A finding: erasing past the end of the document is not noticed (undefined behaviour), nor is inserting there. -/
theorem erase_past_end (d : Str) (v : Int) (h1 : v < 0) (h2 : -2147483648 ≤ v) (h3 : (d.length : Int) < -v) (o : List J) :
    elements (.int v :: o) d 0 = .undefined := by
  rw [elements, element, if_neg (by omega), if_neg (by omega), if_neg (by omega)]

theorem insert_past_end (d s : Str) (v : Int) (h1 : (d.length : Int) < v) (h2 : v ≤ 2147483647) (o : List J) :
    elements (.int v :: .str s :: o) d 0 = .undefined := by
  have e : element (.int v) d 0 = .ok (d, 0 + v.toNat) := by rw [element, if_neg (by omega), if_pos (by omega)]
  simp only [elements, e]
  rw [element, if_neg (by omega)]

/-- A finding: the members are applied in the order of the text of the document, whatever their timestamps. -/
theorem order_is_textual :
    run passthrough () (.obj [(['a'], .obj [(['t'], .int 2), (['o'], .arr [.str ['x', 'y']])]),
      (['b'], .obj [(['t'], .int 1), (['o'], .arr [.int 1, .int (-1), .str ['z']])])]) = .ok ['x', 'z'] := by
  rfl

/-- A script that does everything. -/
example : Edit [.int 1, .str ['u', 'v'], .int (-2), .int 1] ['a', 'b', 'c', 'd', 'e'] ['a', 'u', 'v', 'd', 'e'] :=
  .keep ['a'] 1 (by decide) (by decide) rfl
    (.insert ['u', 'v'] (.erase ['b', 'c'] (-2) (by decide) (by decide) rfl (.keep ['d'] 1 (by decide) (by decide) rfl (.done ['e']))))

/-- A document with two snapshots. -/
example : Snapshots [(['a'], .obj [(['t'], .int 2), (['o'], .arr [.str ['x', 'y']])]),
      (['b'], .obj [(['t'], .int 1), (['o'], .arr [.int 1, .int (-1), .str ['z']])])] [] [(2000, ['x', 'y']), (1000, ['x', 'z'])] := by
  refine .cons (t := 2) (o := [.str ['x', 'y']]) rfl (.insert ['x', 'y'] (.done [])) ?_
  exact .cons (t := 1) (o := [.int 1, .int (-1), .str ['z']]) rfl
    (.keep ['x'] 1 (by decide) (by decide) rfl (.erase ['y'] (-1) (by decide) (by decide) rfl (.insert ['z'] (.done [])))) (.nil _)

end Current.OT
