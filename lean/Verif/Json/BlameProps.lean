import Verif.Json.Blame
/-! C151: what the exception of a failed parse says is true. -/
set_option linter.unusedSimpArgs false
set_option linter.unusedVariables false
namespace Current.Json
open Current.Persist (Str dec readNat)

def Fine {α : Type} (r : Except Err α) : Prop := ∃ x, r = .ok x

theorem fine_ok {α : Type} (x : α) : Fine (.ok x) ↔ True := ⟨fun _ => trivial, fun _ => ⟨x, rfl⟩⟩
theorem fine_error {α : Type} (x : Err) : Fine (.error x : Except Err α) ↔ False := ⟨fun ⟨_, h⟩ => (nomatch h), False.elim⟩

theorem fine_bind {α β : Type} (r : Except Err α) (k : α → Except Err β) (P : Prop) (hk : ∀ x, Fine (k x) ↔ P) :
    Fine (match r with | .error e => .error e | .ok x => k x) ↔ Fine r ∧ P := by
  cases r with
  | error e => simp [fine_error]
  | ok x => simp [hk, fine_ok]

theorem andThen_none (a b : Option Fault) : andThen a b = none ↔ a = none ∧ b = none := by
  cases a <;> simp [andThen]

theorem under_none (s : Seg) (a : Option Fault) : under s a = none ↔ a = none := by cases a <;> simp [under]

theorem fine_need {α β : Type} (w : Wanted) (patch : Bool) (p : Option J) (is : J → Option β) (d : α)
    (k : β → Except Err α) (k' : β → Option Fault) (h : ∀ b, Fine (k b) ↔ k' b = none) :
    Fine (onValue patch p is d k) ↔ need w patch p is k' = none := by
  cases p with
  | none => cases patch <;> simp [onValue, need, fine_ok, fine_error]
  | some j =>
    simp only [onValue, need]
    cases is j with
    | none => simp [fine_error]
    | some b => exact h b

theorem fine_each {α : Type} (dflt : α) (f : J → α → Except Err α) (g : J → Option Fault) (h : ∀ j d, Fine (f j d) ↔ g j = none) :
    ∀ (js : List J) (ds : List α) (i : Nat), Fine (desEach dflt f js ds) ↔ blameEach g i js = none
  | [], ds, i => by simp [desEach, blameEach, fine_ok]
  | j :: js, [], i => by
    simp only [desEach, blameEach, andThen_none, under_none, ← h j dflt, ← fine_each dflt f g h js [] (i + 1)]
    exact fine_bind _ _ _ fun x => by cases desEach dflt f js [] <;> simp [fine_ok, fine_error]
  | j :: js, d :: ds, i => by
    simp only [desEach, blameEach, andThen_none, under_none, ← h j d, ← fine_each dflt f g h js ds (i + 1)]
    exact fine_bind _ _ _ fun x => by cases desEach dflt f js ds <;> simp [fine_ok, fine_error]

theorem fine_fin {α : Type} (f : J → α → Except Err α) (g : J → Option Fault) (h : ∀ j d, Fine (f j d) ↔ g j = none) :
    ∀ (n : Nat) (js : List J) (d : Fin n → α) (i : Nat), Fine (desFin f n js d) ↔ blameFin g i n js = none
  | 0, js, d, i => by simp [desFin, blameFin, fine_ok]
  | n + 1, [], d, i => by simp [desFin, blameFin, fine_error]
  | n + 1, j :: js, d, i => by
    simp only [desFin, blameFin, andThen_none, under_none, ← h j (d 0), ← fine_fin f g h n js (fun i => d i.succ) (i + 1)]
    exact fine_bind _ _ _ fun x => by cases desFin f n js (fun i => d i.succ) <;> simp [fine_ok, fine_error]

theorem fine_set {α : Type} (lt : α → α → Bool) (f : J → Except Err α) (g : J → Option Fault) (h : ∀ j, Fine (f j) ↔ g j = none) :
    ∀ (js : List J) (acc : List α) (i : Nat), Fine (desSet lt f js acc) ↔ blameEach g i js = none
  | [], acc, i => by simp [desSet, blameEach, fine_ok]
  | j :: js, acc, i => by
    simp only [desSet, blameEach, andThen_none, under_none, ← h j]
    exact fine_bind _ _ _ fun x => fine_set lt f g h js _ (i + 1)

theorem fine_smap {α : Type} (lt : Str → Str → Bool) (moved : α → α) (f : J → α → Except Err α) (g : J → Option Fault)
    (h : ∀ j d, Fine (f j d) ↔ g j = none) :
    ∀ (ms : List (Str × J)) (v : α) (acc : List (Str × α)), Fine (desSMap lt moved f ms v acc) ↔ blameSMap g ms = none
  | [], v, acc => by simp [desSMap, blameSMap, fine_ok]
  | (k, j) :: ms, v, acc => by
    simp only [desSMap, blameSMap, andThen_none, ← h j v]
    exact fine_bind _ _ _ fun x => fine_smap lt moved f g h ms _ _

theorem fine_map {α β : Type} (lt : α → α → Bool) (fk : J → Except Err α) (fv : J → Except Err β) (gk gv : J → Option Fault)
    (hk : ∀ j, Fine (fk j) ↔ gk j = none) (hv : ∀ j, Fine (fv j) ↔ gv j = none) (whole : List J) :
    ∀ (js : List J) (acc : List (α × β)), Fine (desMap lt fk fv js acc) ↔ blameMap whole gk gv js = none
  | [], acc => by simp [desMap, blameMap, fine_ok]
  | .arr [jk, jv] :: js, acc => by
    simp only [desMap, blameMap, andThen_none, ← hk jk, ← hv jv]
    exact fine_bind _ _ _ fun x => fine_bind _ _ _ fun y => fine_map lt fk fv gk gv hk hv whole js _
  | .null :: js, acc => by simp [desMap, blameMap, fine_error]
  | .bool _ :: js, acc => by simp [desMap, blameMap, fine_error]
  | .int _ :: js, acc => by simp [desMap, blameMap, fine_error]
  | .dbl _ :: js, acc => by simp [desMap, blameMap, fine_error]
  | .str _ :: js, acc => by simp [desMap, blameMap, fine_error]
  | .obj _ :: js, acc => by simp [desMap, blameMap, fine_error]
  | .arr [] :: js, acc => by simp [desMap, blameMap, fine_error]
  | .arr [_] :: js, acc => by simp [desMap, blameMap, fine_error]
  | .arr (_ :: _ :: _ :: _) :: js, acc => by simp [desMap, blameMap, fine_error]

theorem keys_agree (ms : List (Str × J)) : ∀ acc : Option Str,
    (∀ r, soleKey ms acc = .ok r ↔ blameKeys ms acc = .ok r) ∧ ((∃ x, soleKey ms acc = .error x) ↔ ∃ w, blameKeys ms acc = .error w) := by
  induction ms with
  | nil => intro acc; simp [soleKey, blameKeys]
  | cons a m ih =>
    intro acc
    obtain ⟨k, j⟩ := a
    simp only [soleKey, blameKeys]
    split
    · exact ih acc
    · cases acc with
      | none => exact ih (some k)
      | some _ => simp

theorem isNumber_asDouble (e : Env) (j : J) : (asDouble e j).isNone = (isNumber j).isNone := by
  cases j <;> rfl

theorem fine_number {α : Type} (e : Env) (w : Wanted) (patch : Bool) (p : Option J) (d : α) (k : Dbl → α) :
    Fine (onValue patch p (asDouble e) d fun x => .ok (k x)) ↔ need w patch p isNumber (fun _ => none) = none := by
  cases p with
  | none => cases patch <;> simp [onValue, need, fine_ok, fine_error]
  | some j => cases j <;> simp [onValue, need, asDouble, isNumber, fine_ok, fine_error]

theorem fine_enum {α : Type} (w w' : Wanted) (patch : Bool) (p : Option J) (d : α) {β : Type} (is : J → Option β) (k : β → α)
    (h : ∀ j, isNumber j = none → is j = none) :
    Fine (onValue patch p is d fun x => .ok (k x)) ↔
      need w patch p isNumber (fun _ => need w' patch p is fun _ => none) = none := by
  cases p with
  | none => cases patch <;> simp [onValue, need, fine_ok, fine_error]
  | some j =>
    simp only [onValue, need]
    cases hn : isNumber j with
    | none => simp [h j hn, fine_error]
    | some _ => cases is j <;> simp [fine_ok, fine_error]

theorem tuple_length (e : Env) (m : Mode) : ∀ (r : Row) (js : List J) (d : r.prod), Fine (desTuple e m r js d) → js.length = r.length
  | .nil, [], d, _ => rfl
  | .nil, _ :: _, d, h => by simp [desTuple, fine_error] at h
  | .cons _ _ _ _, [], d, h => by simp [desTuple, fine_error] at h
  | .cons l i t r, j :: js, d, h => by
    simp only [desTuple] at h
    have ih := tuple_length e m r js d.2
    cases h1 : des e m t (some j) d.1 with
    | error er => simp [h1, fine_error] at h
    | ok x =>
      cases h2 : desTuple e m r js d.2 with
      | error er => simp [h1, h2, fine_error] at h
      | ok y => simp [Row.length, ih ⟨y, h2⟩]

mutual
theorem fine_blame (e : Env) (m : Mode) (t : Ty) (p : Option J) (d : t.den) : Fine (des e m t p d) ↔ blame m t p = none := by
  match t, d with
  | .bool, d => simp only [des, blame]; exact fine_need _ _ _ _ _ _ _ fun _ => ⟨fun _ => rfl, fun _ => ⟨_, rfl⟩⟩
  | .uint w, d => simp only [des, blame]; exact fine_need _ _ _ _ _ _ _ fun _ => ⟨fun _ => rfl, fun _ => ⟨_, rfl⟩⟩
  | .int w, d => simp only [des, blame]; exact fine_need _ _ _ _ _ _ _ fun _ => ⟨fun _ => rfl, fun _ => ⟨_, rfl⟩⟩
  | .enumU w, d =>
    simp only [des, blame]
    exact fine_enum _ _ _ _ _ _ _ fun j h => by cases j <;> simp_all [isNumber, asUint64]
  | .enumI w, d =>
    simp only [des, blame]
    exact fine_enum _ _ _ _ _ _ _ fun j h => by cases j <;> simp_all [isNumber, asInt64]
  | .chrono, d => simp only [des, blame]; exact fine_need _ _ _ _ _ _ _ fun _ => ⟨fun _ => rfl, fun _ => ⟨_, rfl⟩⟩
  | .flt, d => simp only [des, blame]; exact fine_number _ _ _ _ _ _
  | .dbl, d => simp only [des, blame]; exact fine_number _ _ _ _ _ (fun x => x)
  | .str, d => simp only [des, blame]; exact fine_need _ _ _ _ _ _ _ fun _ => ⟨fun _ => rfl, fun _ => ⟨_, rfl⟩⟩
  | .tid, d => simp only [des, blame]; exact fine_need _ _ _ _ _ _ _ fun _ => ⟨fun _ => rfl, fun _ => ⟨_, rfl⟩⟩
  | .vec t, d =>
    simp only [des, blame]
    exact fine_need _ _ _ _ _ _ _ fun js => fine_each _ _ _ (fun j d => fine_blame e m t (some j) d) js d 0
  | .arr n t, d =>
    simp only [des, blame]
    exact fine_need _ _ _ _ _ _ _ fun js => fine_fin _ _ (fun j d => fine_blame e m t (some j) d) n js d 0
  | .pair a b, d =>
    have key : ∀ ja jb, Fine (match des e m a (some ja) d.1 with
        | .error er => (.error er : Except Err (a.den × b.den))
        | .ok x => match des e m b (some jb) d.2 with
          | .error er => .error er
          | .ok y => .ok (x, y)) ↔ andThen (blame m a (some ja)) (blame m b (some jb)) = none := by
      intro ja jb
      have h1 := fine_blame e m a (some ja) d.1
      have h2 := fine_blame e m b (some jb) d.2
      simp only [andThen_none, ← h1, ← h2]
      cases des e m a (some ja) d.1 <;> cases des e m b (some jb) d.2 <;> simp [fine_ok, fine_error]
    simp only [des, blame]
    split
    · cases h : fSharpItems p with
      | none => simp [fine_error]
      | some jj => exact key jj.1 jj.2
    · exact fine_need _ _ _ _ _ _ _ fun jj => key jj.1 jj.2
  | .tup r, d =>
    simp only [des, blame]
    refine fine_need _ _ _ _ _ _ _ fun js => ?_
    split
    · rename_i hl; exact fine_tuple e m r js d 0 hl
    · rename_i hl
      constructor
      · intro h; exact absurd (tuple_length e m r js d h) hl
      · intro h; simp at h
  | .set t, d =>
    simp only [des, blame]
    exact fine_need _ _ _ _ _ _ _ fun js => fine_set _ _ _ (fun j => fine_blame e m t (some j) _) js [] 0
  | .smap v, d =>
    simp only [des, blame]
    exact fine_need _ _ _ _ _ _ _ fun ms => fine_smap _ _ _ _ (fun j d => fine_blame e m v (some j) d) ms _ []
  | .map k v, d =>
    simp only [des, blame]
    exact fine_need _ _ _ _ _ _ _ fun js =>
      fine_map _ _ _ _ _ (fun j => fine_blame e m k (some j) _) (fun j => fine_blame e m v (some j) _) js js []
  | .opt t, d =>
    have key : ∀ j, Fine (match des e m t (some j) (e.dflt t) with
        | .error er => (.error er : Except Err (Option t.den))
        | .ok x => .ok (some x)) ↔ blame m t (some j) = none := by
      intro j
      rw [← fine_blame e m t (some j) (e.dflt t)]
      cases des e m t (some j) (e.dflt t) <;> simp [fine_ok, fine_error]
    simp only [des, blame]
    cases p with
    | none =>
      refine ⟨fun _ => rfl, fun _ => ?_⟩
      by_cases hf : m.fmt = .fSharp ∧ m.patch = false
      · rw [if_pos hf]; exact ⟨_, rfl⟩
      · rw [if_neg hf]
        by_cases hp : m.patch = true
        · simp only [hp, if_true]; exact ⟨_, rfl⟩
        · simp only [hp]; exact ⟨_, rfl⟩
    | some j =>
      by_cases hf : m.fmt = .fSharp ∧ m.patch = false
      · rw [if_pos hf]
        by_cases hn : j.isNull = true
        · simp only [hn, if_true]; exact ⟨fun _ => trivial, fun _ => ⟨_, rfl⟩⟩
        · simp only [hn, if_pos hf]
          cases h : fSharpOption j with
          | none => exact ⟨fun ⟨_, h⟩ => (nomatch h), fun h => (nomatch h)⟩
          | some o =>
            cases o with
            | none => exact ⟨fun _ => rfl, fun _ => ⟨_, rfl⟩⟩
            | some jv => exact key jv
      · rw [if_neg hf]
        by_cases hn : j.isNull = true
        · simp only [hn, if_true]; exact ⟨fun _ => trivial, fun _ => ⟨_, rfl⟩⟩
        · simp only [hn, if_neg hf]
          exact key j
  | .struct n s o, d =>
    simp only [des, blame]
    refine fine_need _ _ _ _ _ _ _ fun ms => ?_
    have h1 := fine_fields e m s ms d.1
    have h2 := fine_fields e m o ms d.2
    simp only [andThen_none, ← h1, ← h2]
    cases desFields e m s ms d.1 <;> cases desFields e m o ms d.2 <;> simp [fine_ok, fine_error] <;> exact ⟨_, rfl⟩
  | .variant cs, d =>
    have key : ∀ key ms (w : Wanted) (j : J) , Fine (match desCase e m cs key ms with
          | none => (.error .schema : Except Err (Option cs.sum))
          | some (.error er) => .error er
          | some (.ok none) => .ok d
          | some (.ok (some y)) => .ok (some y)) ↔
        (match blameCase m cs key ms with
          | none => some (.schema ⟨w, [], some j⟩)
          | some r => r) = none := by
      intro key ms w j
      have h := fine_case e m cs key ms
      cases h1 : desCase e m cs key ms with
      | none => simp [h.1.1 h1, fine_error]
      | some x =>
        obtain ⟨b, hb⟩ := Option.isSome_iff_exists.1 (by
          cases hb : blameCase m cs key ms with
          | none => simp [h.1.2 hb] at h1
          | some _ => rfl : (blameCase m cs key ms).isSome = true)
        have := h.2 x b h1 hb
        simp only [hb, ← this]
        rcases x with _ | _ | _ <;> simp [fine_ok, fine_error] <;> exact ⟨_, rfl⟩
    simp only [des, blame]
    cases p with
    | none => cases m.fmt.useNulls <;> simp [fine_ok, fine_error]
    | some j =>
      by_cases hn : j.isNull = true
      · cases m.fmt.useNulls <;> simp [fine_ok, fine_error, hn]
      · simp only [hn]
        cases ho : asObject j with
        | none => simp [fine_error]
        | some ms =>
          have simpleCase : Fine (match soleKey ms none with
              | .error er => (.error er : Except Err (Option cs.sum))
              | .ok none => .error .schema
              | .ok (some k) => match desCase e m cs (.name k) ms with
                | none => .error .schema
                | some (.error er) => .error er
                | some (.ok none) => .ok d
                | some (.ok (some y)) => .ok (some y)) ↔
              (match blameKeys ms none with
              | .error w => some (.schema ⟨w, [], some j⟩)
              | .ok none => some (.schema ⟨.someCase, [], some j⟩)
              | .ok (some k) => match blameCase m cs (.name k) ms with
                | none => some (.schema ⟨.case k, [], some j⟩)
                | some r => r) = none := by
            have ka := keys_agree ms none
            cases h1 : soleKey ms none with
            | error er =>
              obtain ⟨w, hw⟩ := ka.2.1 ⟨er, h1⟩
              simp [hw, fine_error]
            | ok r =>
              rw [(ka.1 r).1 h1]
              cases r with
              | none => simp [fine_error]
              | some k => exact key _ _ _ _
          cases hm : m.fmt with
          | current =>
            dsimp only
            cases h1 : find [] ms with
            | none => simp [fine_error]
            | some jt =>
              dsimp only
              cases h2 : asTypeID jt with
              | none => simp [fine_error]
              | some n => exact key _ _ _ _
          | fSharp =>
            dsimp only
            cases h1 : find kCase ms with
            | none => simp [fine_error]
            | some jt =>
              dsimp only
              cases h2 : asString jt with
              | none => simp [fine_error]
              | some n => exact key _ _ _ _
          | minimalistic => exact simpleCase
          | javaScript => exact simpleCase
theorem fine_fields (e : Env) (m : Mode) (r : Row) (ms : List (Str × J)) (d : r.prod) :
    Fine (desFields e m r ms d) ↔ blameFields m r ms = none := by
  match r, d with
  | .nil, d => simp [desFields, blameFields, fine_ok]
  | .cons l i t r, d =>
    have h1 := fine_blame e m t (find l ms) d.1
    have h2 := fine_fields e m r ms d.2
    simp only [desFields, blameFields, andThen_none, under_none, ← h1, ← h2]
    cases des e m t (find l ms) d.1 <;> cases desFields e m r ms d.2 <;> simp [fine_ok, fine_error] <;> exact ⟨_, rfl⟩
theorem fine_tuple (e : Env) (m : Mode) (r : Row) (js : List J) (d : r.prod) (i : Nat) (hl : js.length = r.length) :
    Fine (desTuple e m r js d) ↔ blameTuple m r i js = none := by
  match r, js, d with
  | .nil, [], d => simp [desTuple, blameTuple, fine_ok]
  | .nil, _ :: _, d => simp [Row.length] at hl
  | .cons _ _ _ _, [], d => simp [Row.length] at hl
  | .cons l _ t r, j :: js, d =>
    have h1 := fine_blame e m t (some j) d.1
    have h2 := fine_tuple e m r js d.2 (i + 1) (by simpa [Row.length] using hl)
    simp only [desTuple, blameTuple, andThen_none, under_none, ← h1, ← h2]
    cases des e m t (some j) d.1 <;> cases desTuple e m r js d.2 <;> simp [fine_ok, fine_error] <;> exact ⟨_, rfl⟩
theorem fine_case (e : Env) (m : Mode) (r : Row) (key : Key) (ms : List (Str × J)) :
    (desCase e m r key ms = none ↔ blameCase m r key ms = none) ∧
    ∀ x b, desCase e m r key ms = some x → blameCase m r key ms = some b → (Fine x ↔ b = none) := by
  match r with
  | .nil => simp [desCase, blameCase]
  | .cons l i t r =>
    have ih := fine_case e m r key ms
    have it : ∀ j, Fine (des e m t (some j) (e.dflt t)) ↔ blame m t (some j) = none := fun j => fine_blame e m t (some j) _
    cases h1 : desCase e m r key ms with
    | some x =>
      have hb : blameCase m r key ms ≠ none := fun h => by simp [ih.1.2 h] at h1
      obtain ⟨b, hb⟩ := Option.ne_none_iff_exists'.1 hb
      have hx := ih.2 x b h1 hb
      rcases x with er | _ | z
      · simpa [desCase, blameCase, h1, hb, fine_error] using hx
      · simpa [desCase, blameCase, h1, hb, fine_ok] using hx
      · simpa [desCase, blameCase, h1, hb, fine_ok] using hx
    | none =>
      have hb := ih.1.1 h1
      simp only [desCase, blameCase, h1, hb]
      have one : ∀ (s : Option Fault → Option Fault), (∀ a, s a = none ↔ a = none) → ∀ j,
          ((match des e m t (some j) (e.dflt t) with
            | .error er => some (.error er)
            | .ok y => some (.ok (some (.inl y)))) = (none : Option (Except Err (Option (t.den ⊕ r.sum)))) ↔
            some (s (blame m t (some j))) = none) ∧
          ∀ x b, (match des e m t (some j) (e.dflt t) with
            | .error er => some (.error er)
            | .ok y => some (.ok (some (.inl y)))) = (some x : Option (Except Err (Option (t.den ⊕ r.sum)))) →
            some (s (blame m t (some j))) = some b → (Fine x ↔ b = none) := by
        intro s hs j
        have := it j
        cases hd : des e m t (some j) (e.dflt t) with
        | error er =>
          simp only [hd, fine_error, false_iff] at this
          refine ⟨by simp, fun x b hx hb => ?_⟩
          simp only [Option.some.injEq] at hx hb
          subst hx hb
          simpa [fine_error, hs] using this
        | ok y =>
          simp only [hd, fine_ok, true_iff] at this
          refine ⟨by simp, fun x b hx hb => ?_⟩
          simp only [Option.some.injEq] at hx hb
          subst hx hb
          simpa [fine_ok, hs] using this
      split
      · cases m.fmt with
        | current =>
          dsimp only
          cases find l ms with
          | none => cases m.patch <;> simp [fine_ok, fine_error]
          | some j => exact one _ (under_none _) j
        | fSharp =>
          dsimp only
          generalize find kFields ms = o
          rcases o with _ | j
          · cases t.isEmptyStruct <;> simp [fine_ok, fine_error]
          · cases j with
            | arr l =>
              rcases l with _ | ⟨j, _ | ⟨j', l⟩⟩
              · simp [fine_error]
              · exact one (fun a => under (.field kFields) (under (.item 0) a)) (fun a => by simp only [under_none]) j
              · simp [fine_error]
            | null => simp [fine_error]
            | bool _ => simp [fine_error]
            | int _ => simp [fine_error]
            | dbl _ => simp [fine_error]
            | str _ => simp [fine_error]
            | obj _ => simp [fine_error]
        | minimalistic =>
          dsimp only
          cases find l ms with
          | none => simp [fine_error]
          | some j => exact one _ (under_none _) j
        | javaScript =>
          dsimp only
          cases find l ms with
          | none => simp [fine_error]
          | some j => exact one _ (under_none _) j
      · simp
end


/-! ### Where it is -/

/-- The value of the first member of that name (an independent reading of `find`). -/
def memberOf (n : Str) (ms : List (Str × J)) : Option J := (ms.find? (fun kv => kv.1 = n)).map (·.2)

/-- One step down from a value: `none`: there is no such step from here; `some none`: the step is possible but nothing is there (a
member which is missing). -/
def step : Seg → J → Option (Option J)
  | .field n, .obj ms => some (memberOf n ms)
  | .key n, .obj ms => some (memberOf n ms)
  | .item i, .arr l => l[i]?.map some
  | .member i, .obj ms => ms[i]?.map fun kv => some kv.2
  | _, _ => none

/-- Following the path from `p` leads to `a` (`none`: to a missing member). -/
def Leads : Option J → List Seg → Option J → Prop
  | p, [], a => a = p
  | p, s :: q, a => ∃ j c, p = some j ∧ step s j = some c ∧ Leads c q a

mutual
/-- Types with no map or pair in them (nor an `Optional` in the F# format): for those, the path in the message misses a step. -/
def Ty.stepwise (fs : Bool) : Ty → Bool
  | .vec t => t.stepwise fs
  | .arr _ t => t.stepwise fs
  | .pair _ _ => false
  | .tup r => r.stepwise fs
  | .set t => t.stepwise fs
  | .smap _ => false
  | .map _ _ => false
  | .opt t => !fs && t.stepwise fs
  | .struct _ s o => s.stepwise fs && o.stepwise fs
  | .variant cs => cs.stepwise fs
  | _ => true
def Row.stepwise (fs : Bool) : Row → Bool
  | .nil => true
  | .cons _ _ t r => t.stepwise fs && r.stepwise fs
end

/-- There is a true path to what the message shows, and the path in the message is that with, possibly, some steps left out. -/
def Located (p : Option J) (exact : Bool) (b : Blame) : Prop :=
  ∃ q, Leads p q b.actual ∧ b.path.Sublist q ∧ (exact = true → b.path = q)

def FaultAt (p : Option J) (exact : Bool) (f : Option Fault) : Prop := ∀ b, f = some (.schema b) → Located p exact b

theorem located_here (p : Option J) (ex : Bool) (w : Wanted) : FaultAt p ex (some (.schema ⟨w, [], p⟩)) := by
  intro b h
  cases h
  exact ⟨[], rfl, List.Sublist.slnil, fun _ => rfl⟩

theorem faultAt_none (p : Option J) (ex : Bool) : FaultAt p ex none := fun _ h => nomatch h
theorem faultAt_assertion (p : Option J) (ex : Bool) : FaultAt p ex (some .assertion) := fun _ h => nomatch h
theorem faultAt_uninit (p : Option J) (ex : Bool) : FaultAt p ex (some .uninit) := fun _ h => nomatch h

theorem faultAt_andThen {p : Option J} {ex : Bool} {a b : Option Fault} (ha : FaultAt p ex a) (hb : FaultAt p ex b) :
    FaultAt p ex (andThen a b) := by
  cases a with
  | none => exact hb
  | some f => exact ha

theorem faultAt_under {j : J} {ex : Bool} {s : Seg} {c : Option J} {a : Option Fault} (hs : step s j = some c)
    (h : FaultAt c ex a) : FaultAt (some j) ex (under s a) := by
  intro b hb
  cases a with
  | none => simp [under] at hb
  | some f =>
    cases f with
    | uninit => simp [under, Fault.at] at hb
    | assertion => simp [under, Fault.at] at hb
    | schema b' =>
      simp only [under, Fault.at, Option.some.injEq, Fault.schema.injEq] at hb
      subst hb
      obtain ⟨q, h1, h2, h3⟩ := h b' rfl
      exact ⟨s :: q, ⟨j, c, rfl, hs, h1⟩, h2.cons_cons s, fun he => by rw [h3 he]⟩

/-- A step not recorded in the path. -/
theorem faultAt_skip {j : J} {ex : Bool} {s : Seg} {c : Option J} {a : Option Fault} (hs : step s j = some c)
    (h : FaultAt c ex a) : FaultAt (some j) false a := by
  intro b hb
  obtain ⟨q, h1, h2, _⟩ := h b hb
  exact ⟨s :: q, ⟨j, c, rfl, hs, h1⟩, h2.cons s, fun he => nomatch he⟩

theorem faultAt_weaken {p : Option J} {a : Option Fault} {x y : Bool} (h : FaultAt p x a) (hxy : y = true → x = true) :
    FaultAt p y a := fun b hb =>
  let ⟨q, h1, h2, h3⟩ := h b hb
  ⟨q, h1, h2, fun e => h3 (hxy e)⟩

theorem faultAt_need {β : Type} {w : Wanted} {patch : Bool} {p : Option J} {is : J → Option β} {k : β → Option Fault} {ex : Bool}
    (h : ∀ j b, p = some j → is j = some b → FaultAt p ex (k b)) : FaultAt p ex (need w patch p is k) := by
  cases p with
  | none =>
    cases patch
    · exact located_here none ex w
    · exact faultAt_none none ex
  | some j =>
    simp only [need]
    cases hj : is j with
    | none => exact located_here (some j) ex w
    | some b => exact h j b rfl hj

theorem asArray_some {j : J} {l : List J} (h : asArray j = some l) : j = .arr l := by
  cases j <;> simp_all [asArray]

theorem asObject_some {j : J} {l : List (Str × J)} (h : asObject j = some l) : j = .obj l := by
  cases j <;> simp_all [asObject]

theorem memberOf_find (n : Str) (ms : List (Str × J)) : memberOf n ms = find n ms := by
  induction ms with
  | nil => rfl
  | cons a ms ih =>
    obtain ⟨k, j⟩ := a
    by_cases h : k = n
    · simp [memberOf, find, h]
    · have : memberOf n ((k, j) :: ms) = memberOf n ms := by simp [memberOf, h]
      rw [this, ih]
      simp [find, h]

theorem faultAt_each {ex : Bool} {whole : List J} (f : J → Option Fault) (h : ∀ j, FaultAt (some j) ex (f j)) :
    ∀ (js : List J) (i : Nat), (∀ n, whole[i + n]? = js[n]?) → FaultAt (some (.arr whole)) ex (blameEach f i js)
  | [], _, _ => faultAt_none _ _
  | j :: js, i, hw => by
    refine faultAt_andThen (faultAt_under (c := some j) ?_ (h j)) (faultAt_each f h js (i + 1) fun n => ?_)
    · have := hw 0
      simp only [step]
      simp at this
      simp [this]
    · have := hw (n + 1)
      rw [show i + 1 + n = i + (n + 1) by omega, this]
      rfl

theorem faultAt_fin {ex : Bool} {whole : List J} (f : J → Option Fault) (h : ∀ j, FaultAt (some j) ex (f j)) :
    ∀ (m : Nat) (js : List J) (i : Nat), (∀ n, whole[i + n]? = js[n]?) → FaultAt (some (.arr whole)) ex (blameFin f i m js)
  | 0, _, _, _ => faultAt_none _ _
  | _ + 1, [], _, _ => faultAt_assertion _ _
  | m + 1, j :: js, i, hw => by
    refine faultAt_andThen (faultAt_under (c := some j) ?_ (h j)) (faultAt_fin f h m js (i + 1) fun n => ?_)
    · have := hw 0
      simp only [step]
      simp at this
      simp [this]
    · have := hw (n + 1)
      rw [show i + 1 + n = i + (n + 1) by omega, this]
      rfl

theorem faultAt_smap {whole : List (Str × J)} {ex : Bool} (f : J → Option Fault) (h : ∀ j, FaultAt (some j) ex (f j)) :
    ∀ (ms : List (Str × J)) (i : Nat), (∀ n, whole[i + n]? = ms[n]?) → FaultAt (some (.obj whole)) false (blameSMap f ms)
  | [], _, _ => faultAt_none _ _
  | (k, j) :: ms, i, hw => by
    refine faultAt_andThen (faultAt_skip (s := .member i) (c := some j) ?_ (h j)) (faultAt_smap f h ms (i + 1) fun n => ?_)
    · have := hw 0
      simp only [step]
      simp at this
      simp [this]
    · have := hw (n + 1)
      rw [show i + 1 + n = i + (n + 1) by omega, this]
      rfl

theorem faultAt_map {whole : List J} {ex ex' : Bool} (fk fv : J → Option Fault) (hk : ∀ j, FaultAt (some j) ex (fk j))
    (hv : ∀ j, FaultAt (some j) ex' (fv j)) :
    ∀ (js : List J) (i : Nat), (∀ n, whole[i + n]? = js[n]?) → FaultAt (some (.arr whole)) false (blameMap whole fk fv js)
  | [], _, _ => faultAt_none _ _
  | .null :: js, i, hw => located_here _ _ _
  | .bool _ :: js, i, hw => located_here _ _ _
  | .int _ :: js, i, hw => located_here _ _ _
  | .dbl _ :: js, i, hw => located_here _ _ _
  | .str _ :: js, i, hw => located_here _ _ _
  | .obj _ :: js, i, hw => located_here _ _ _
  | .arr [] :: js, i, hw => located_here _ _ _
  | .arr [_] :: js, i, hw => located_here _ _ _
  | .arr (_ :: _ :: _ :: _) :: js, i, hw => located_here _ _ _
  | .arr [jk, jv] :: js, i, hw => by
    have h0 : step (.item i) (.arr whole) = some (some (.arr [jk, jv])) := by
      have := hw 0
      simp only [step]
      simp at this
      simp [this]
    refine faultAt_andThen (faultAt_skip (s := .item i) h0 (faultAt_skip (s := .item 0) (c := some jk) rfl (hk jk)))
      (faultAt_andThen (faultAt_skip (s := .item i) h0 (faultAt_skip (s := .item 1) (c := some jv) rfl (hv jv)))
        (faultAt_map fk fv hk hv js (i + 1) fun n => ?_))
    have := hw (n + 1)
    rw [show i + 1 + n = i + (n + 1) by omega, this]
    rfl

mutual
theorem blame_located (m : Mode) (t : Ty) (p : Option J) : FaultAt p (t.stepwise (m.fmt = .fSharp)) (blame m t p) := by
  match t with
  | .bool => simp only [blame]; exact faultAt_need fun _ _ _ _ => faultAt_none _ _
  | .uint w => simp only [blame]; exact faultAt_need fun _ _ _ _ => faultAt_none _ _
  | .int w => simp only [blame]; exact faultAt_need fun _ _ _ _ => faultAt_none _ _
  | .enumU w => simp only [blame]; exact faultAt_need fun _ _ _ _ => faultAt_need fun _ _ _ _ => faultAt_none _ _
  | .enumI w => simp only [blame]; exact faultAt_need fun _ _ _ _ => faultAt_need fun _ _ _ _ => faultAt_none _ _
  | .chrono => simp only [blame]; exact faultAt_need fun _ _ _ _ => faultAt_none _ _
  | .flt => simp only [blame]; exact faultAt_need fun _ _ _ _ => faultAt_none _ _
  | .dbl => simp only [blame]; exact faultAt_need fun _ _ _ _ => faultAt_none _ _
  | .str => simp only [blame]; exact faultAt_need fun _ _ _ _ => faultAt_none _ _
  | .tid => simp only [blame]; exact faultAt_need fun _ _ _ _ => faultAt_none _ _
  | .vec t =>
    simp only [blame, Ty.stepwise]
    refine faultAt_need fun j js hp hj => ?_
    rw [hp, asArray_some hj]
    exact faultAt_each _ (fun j => blame_located m t (some j)) js 0 (fun n => by simp)
  | .arr n t =>
    simp only [blame, Ty.stepwise]
    refine faultAt_need fun j js hp hj => ?_
    rw [hp, asArray_some hj]
    exact faultAt_fin _ (fun j => blame_located m t (some j)) n js 0 (fun n => by simp)
  | .pair a b =>
    simp only [blame, Ty.stepwise]
    split
    · cases p with
      | none => exact located_here _ _ _
      | some j =>
        cases j with
        | obj ms =>
          simp only [fSharpItems]
          cases h1 : find kItem1 ms with
          | none => exact located_here _ _ _
          | some ja =>
            cases h2 : find kItem2 ms with
            | none => exact located_here _ _ _
            | some jb =>
              exact faultAt_andThen
                (faultAt_skip (s := .field kItem1) (c := some ja) (by simp [step, memberOf_find, h1]) (blame_located m a (some ja)))
                (faultAt_skip (s := .field kItem2) (c := some jb) (by simp [step, memberOf_find, h2]) (blame_located m b (some jb)))
        | null => exact located_here _ _ _
        | bool _ => exact located_here _ _ _
        | int _ => exact located_here _ _ _
        | dbl _ => exact located_here _ _ _
        | str _ => exact located_here _ _ _
        | arr _ => exact located_here _ _ _
    · refine faultAt_need fun j jj hp hj => ?_
      have : j = .arr [jj.1, jj.2] := by
        unfold asTwo at hj
        split at hj
        · injection hj with hj; subst hj; rfl
        · cases hj
      rw [hp, this]
      exact faultAt_andThen
        (faultAt_skip (s := .item 0) (c := some jj.1) rfl (blame_located m a (some jj.1)))
        (faultAt_skip (s := .item 1) (c := some jj.2) rfl (blame_located m b (some jj.2)))
  | .tup r =>
    simp only [blame, Ty.stepwise]
    refine faultAt_need fun j js hp hj => ?_
    split
    · rw [hp, asArray_some hj]
      exact blame_located_tuple m r js js 0 (fun n => by simp)
    · exact located_here _ _ _
  | .set t =>
    simp only [blame, Ty.stepwise]
    refine faultAt_need fun j js hp hj => ?_
    rw [hp, asArray_some hj]
    exact faultAt_each _ (fun j => blame_located m t (some j)) js 0 (fun n => by simp)
  | .smap v =>
    simp only [blame, Ty.stepwise]
    refine faultAt_need fun j ms hp hj => ?_
    rw [hp, asObject_some hj]
    exact faultAt_smap _ (fun j => blame_located m v (some j)) ms 0 (fun n => by simp)
  | .map k v =>
    simp only [blame, Ty.stepwise]
    refine faultAt_need fun j js hp hj => ?_
    rw [hp, asArray_some hj]
    exact faultAt_map _ _ (fun j => blame_located m k (some j)) (fun j => blame_located m v (some j)) js 0 (fun n => by simp)
  | .opt t =>
    have ih := fun j => blame_located m t (some j)
    simp only [blame, Ty.stepwise]
    cases p with
    | none => exact faultAt_none _ _
    | some j =>
      dsimp only
      split
      · exact faultAt_none _ _
      · split
        · rename_i hf
          cases ho : fSharpOption j with
          | none => exact located_here _ _ _
          | some o =>
            cases o with
            | none => exact faultAt_none _ _
            | some jv =>
              have : ∃ ms, j = .obj ms ∧ find kFields ms = some (.arr [jv]) := by
                cases j with
                | obj ms =>
                  refine ⟨ms, rfl, ?_⟩
                  simp only [fSharpOption] at ho
                  (repeat' split at ho) <;> simp_all
                | _ => simp [fSharpOption] at ho
              obtain ⟨ms, rfl, hms⟩ := this
              refine faultAt_weaken (faultAt_skip (s := .field kFields) (c := some (.arr [jv]))
                (by simp [step, memberOf_find, hms]) (faultAt_skip (s := .item 0) (c := some jv) rfl (ih jv))) ?_
              simp [hf.1]
        · exact faultAt_weaken (ih j) (fun h => by simp at h; exact h.2)
  | .struct n s o =>
    simp only [blame, Ty.stepwise]
    refine faultAt_need fun j ms hp hj => ?_
    rw [hp, asObject_some hj]
    exact faultAt_andThen (faultAt_weaken (blame_located_fields m s ms) (fun h => by simp at h; exact h.1))
      (faultAt_weaken (blame_located_fields m o ms) (fun h => by simp at h; exact h.2))
  | .variant cs =>
    have ih := fun ms key x => blame_located_case m cs ms key x
    simp only [blame, Ty.stepwise]
    cases p with
    | none => dsimp only; split <;> first | exact faultAt_uninit _ _ | exact faultAt_none _ _
    | some j =>
      dsimp only
      split
      · split <;> first | exact faultAt_uninit _ _ | exact faultAt_none _ _
      · cases ho : asObject j with
        | none => exact located_here _ _ _
        | some ms =>
          have hj := asObject_some ho
          subst hj
          have fin : ∀ (key : Key) (w : Wanted), FaultAt (some (.obj ms)) (cs.stepwise (m.fmt = .fSharp))
              (match blameCase m cs key ms with
                | none => some (.schema ⟨w, [], some (.obj ms)⟩)
                | some r => r) := by
            intro key w
            cases hc : blameCase m cs key ms with
            | none => exact located_here _ _ _
            | some r => exact ih ms key r hc
          have simpleCase : FaultAt (some (.obj ms)) (cs.stepwise (m.fmt = .fSharp)) (match blameKeys ms none with
              | .error w => some (.schema ⟨w, [], some (.obj ms)⟩)
              | .ok none => some (.schema ⟨.someCase, [], some (.obj ms)⟩)
              | .ok (some k) => match blameCase m cs (.name k) ms with
                | none => some (.schema ⟨.case k, [], some (.obj ms)⟩)
                | some r => r) := by
            cases blameKeys ms none with
            | error w => exact located_here _ _ _
            | ok r =>
              cases r with
              | none => exact located_here _ _ _
              | some k => exact fin _ _
          cases hm : m.fmt with
          | current =>
            dsimp only
            rw [hm] at fin
            cases h1 : find [] ms with
            | none => exact located_here _ _ _
            | some jt =>
              dsimp only
              cases h2 : asTypeID jt with
              | none =>
                exact faultAt_under (a := some (.schema ⟨.tid, [], some jt⟩)) (c := some jt)
                  (by simp [step, memberOf_find, h1]) (located_here _ _ _)
              | some n => exact fin _ _
          | fSharp =>
            dsimp only
            rw [hm] at fin
            cases h1 : find kCase ms with
            | none => exact located_here _ _ _
            | some jt =>
              dsimp only
              cases h2 : asString jt with
              | none =>
                exact faultAt_under (a := some (.schema ⟨.str, [], some jt⟩)) (c := some jt)
                  (by simp [step, memberOf_find, h1]) (located_here _ _ _)
              | some n => exact fin _ _
          | minimalistic => rw [hm] at simpleCase; exact simpleCase
          | javaScript => rw [hm] at simpleCase; exact simpleCase
theorem blame_located_fields (m : Mode) (r : Row) (ms : List (Str × J)) :
    FaultAt (some (.obj ms)) (r.stepwise (m.fmt = .fSharp)) (blameFields m r ms) := by
  match r with
  | .nil => simp only [blameFields]; exact faultAt_none _ _
  | .cons l i t r =>
    simp only [blameFields, Row.stepwise]
    exact faultAt_andThen
      (faultAt_weaken (faultAt_under (c := find l ms) (by simp [step, memberOf_find]) (blame_located m t (find l ms)))
        (fun h => by simp at h; exact h.1))
      (faultAt_weaken (blame_located_fields m r ms) (fun h => by simp at h; exact h.2))
theorem blame_located_tuple (m : Mode) (r : Row) (whole js : List J) (i : Nat) (hw : ∀ n, whole[i + n]? = js[n]?) :
    FaultAt (some (.arr whole)) (r.stepwise (m.fmt = .fSharp)) (blameTuple m r i js) := by
  match r, js with
  | .nil, _ => simp only [blameTuple]; exact faultAt_none _ _
  | .cons _ _ _ _, [] => simp only [blameTuple]; exact faultAt_none _ _
  | .cons l _ t r, j :: js =>
    simp only [blameTuple, Row.stepwise]
    refine faultAt_andThen
      (faultAt_weaken (faultAt_under (c := some j) ?_ (blame_located m t (some j))) (fun h => by simp at h; exact h.1))
      (faultAt_weaken (blame_located_tuple m r whole js (i + 1) fun n => ?_) (fun h => by simp at h; exact h.2))
    · have := hw 0
      simp only [step]
      simp at this
      simp [this]
    · have := hw (n + 1)
      rw [show i + 1 + n = i + (n + 1) by omega, this]
      rfl
theorem blame_located_case (m : Mode) (r : Row) (ms : List (Str × J)) (key : Key) (x : Option Fault)
    (h : blameCase m r key ms = some x) : FaultAt (some (.obj ms)) (r.stepwise (m.fmt = .fSharp)) x := by
  match r with
  | .nil => simp [blameCase] at h
  | .cons l i t r =>
    have it := fun j => blame_located m t (some j)
    simp only [blameCase] at h
    simp only [Row.stepwise]
    cases hc : blameCase m r key ms with
    | some y =>
      simp only [hc, Option.some.injEq] at h
      subst h
      exact faultAt_weaken (blame_located_case m r ms key y hc) (fun h => by simp at h; exact h.2)
    | none =>
      have w1 : (t.stepwise (m.fmt = .fSharp) && r.stepwise (m.fmt = .fSharp)) = true → t.stepwise (m.fmt = .fSharp) = true :=
        fun h => by simp at h; exact h.1
      have named : ∀ j, find l ms = some j → FaultAt (some (.obj ms)) (t.stepwise (m.fmt = .fSharp) && r.stepwise (m.fmt = .fSharp))
          (under (.key l) (blame m t (some j))) := fun j hj =>
        faultAt_weaken (faultAt_under (c := some j) (by simp [step, memberOf_find, hj]) (it j)) w1
      simp only [hc] at h
      split at h
      · cases hm : m.fmt with
        | current =>
          rw [hm] at named
          simp only [hm] at h
          cases hf : find l ms with
          | none =>
            simp only [hf, Option.some.injEq] at h
            subst h
            split
            · exact faultAt_none _ _
            · exact located_here _ _ _
          | some j =>
            simp only [hf, Option.some.injEq] at h
            subst h
            exact named j hf
        | fSharp =>
          rw [hm] at w1 it
          simp only [hm] at h
          split at h
          · rename_i j hj
            injection h with h
            subst h
            exact faultAt_weaken (faultAt_under (c := some (.arr [j])) (by simp [step, memberOf_find, hj])
              (faultAt_under (c := some j) rfl (it j))) w1
          · injection h with h
            subst h
            exact located_here _ _ _
          · injection h with h
            subst h
            split
            · exact faultAt_none _ _
            · exact located_here _ _ _
        | minimalistic =>
          rw [hm] at named
          simp only [hm] at h
          cases hf : find l ms with
          | none =>
            simp only [hf, Option.some.injEq] at h
            subst h
            exact faultAt_assertion _ _
          | some j =>
            simp only [hf, Option.some.injEq] at h
            subst h
            exact named j hf
        | javaScript =>
          rw [hm] at named
          simp only [hm] at h
          cases hf : find l ms with
          | none =>
            simp only [hf, Option.some.injEq] at h
            subst h
            exact faultAt_assertion _ _
          | some j =>
            simp only [hf, Option.some.injEq] at h
            subst h
            exact named j hf
      · cases h
end

/-! ### What was expected -/

/-- What the words say about a value. Nothing is claimed of the words not listed. -/
def Says : Wanted → J → Prop
  | .bool, j => ∃ b, j = .bool b
  | .uint, j | .enumUnsigned, j => ∃ i, j = .int i ∧ 0 ≤ i ∧ i < 2 ^ 64
  | .int, j | .enumSigned, j | .chrono, j => ∃ i, j = .int i ∧ -2 ^ 63 ≤ i ∧ i < 2 ^ 63
  | .number, j | .flt, j | .dbl, j => (∃ i, j = .int i) ∨ ∃ d, j = .dbl d
  | .str, j => ∃ s, j = .str s
  | .tid, j => ∃ s, j = .str ('T' :: s)
  | .array, j | .set, j | .map, j => ∃ l, j = .arr l
  | .pair, j => ∃ a b, j = .arr [a, b]
  | .object, j | .variantObject, j | .smap, j => ∃ m, j = .obj m
  | _, _ => False

def FaultTrue (f : Option Fault) : Prop :=
  ∀ b, f = some (.schema b) → b.wanted ≠ .enumSigned → b.wanted ≠ .enumUnsigned → ∀ v, b.actual = some v → ¬ Says b.wanted v

theorem faultTrue_none : FaultTrue none := fun _ h => nomatch h

theorem faultTrue_one {w : Wanted} {p : Option J} {q : List Seg} (h : w ≠ .enumSigned → w ≠ .enumUnsigned → ∀ v, p = some v → ¬ Says w v) :
    FaultTrue (some (.schema ⟨w, q, p⟩)) := by
  intro b hb h1 h2 v hv
  cases hb
  exact h h1 h2 v hv

theorem faultTrue_andThen {a b : Option Fault} (ha : FaultTrue a) (hb : FaultTrue b) : FaultTrue (andThen a b) := by
  cases a with
  | none => exact hb
  | some f => exact ha

theorem faultTrue_under {s : Seg} {a : Option Fault} (h : FaultTrue a) : FaultTrue (under s a) := by
  cases a with
  | none => exact h
  | some f =>
    cases f with
    | uninit => exact fun _ h => nomatch h
    | assertion => exact fun _ h => nomatch h
    | schema b => exact faultTrue_one (h b rfl)

theorem faultTrue_need {β : Type} {w : Wanted} {patch : Bool} {p : Option J} {is : J → Option β} {k : β → Option Fault}
    (hw : w ≠ .enumSigned → w ≠ .enumUnsigned → ∀ j, is j = none → ¬ Says w j) (h : ∀ b, FaultTrue (k b)) :
    FaultTrue (need w patch p is k) := by
  cases p with
  | none =>
    cases patch
    · exact faultTrue_one fun _ _ v hv => nomatch hv
    · exact faultTrue_none
  | some j =>
    simp only [need]
    cases hj : is j with
    | none =>
      refine faultTrue_one fun h1 h2 v hv => ?_
      cases hv
      exact hw h1 h2 j hj
    | some b => exact h b

theorem faultTrue_each (f : J → Option Fault) (h : ∀ j, FaultTrue (f j)) : ∀ (js : List J) (i : Nat), FaultTrue (blameEach f i js)
  | [], _ => faultTrue_none
  | j :: js, i => faultTrue_andThen (faultTrue_under (h j)) (faultTrue_each f h js (i + 1))

theorem faultTrue_fin (f : J → Option Fault) (h : ∀ j, FaultTrue (f j)) :
    ∀ (n : Nat) (js : List J) (i : Nat), FaultTrue (blameFin f i n js)
  | 0, _, _ => faultTrue_none
  | _ + 1, [], _ => fun _ h => nomatch h
  | n + 1, j :: js, i => faultTrue_andThen (faultTrue_under (h j)) (faultTrue_fin f h n js (i + 1))

theorem faultTrue_smap (f : J → Option Fault) (h : ∀ j, FaultTrue (f j)) : ∀ ms : List (Str × J), FaultTrue (blameSMap f ms)
  | [] => faultTrue_none
  | (_, j) :: ms => faultTrue_andThen (h j) (faultTrue_smap f h ms)

theorem faultTrue_silent {w : Wanted} {p : Option J} {q : List Seg} (h : ∀ j, ¬ Says w j) : FaultTrue (some (.schema ⟨w, q, p⟩)) :=
  faultTrue_one fun _ _ v _ => h v

theorem faultTrue_map (whole : List J) (fk fv : J → Option Fault) (hk : ∀ j, FaultTrue (fk j)) (hv : ∀ j, FaultTrue (fv j)) :
    ∀ js : List J, FaultTrue (blameMap whole fk fv js)
  | [] => faultTrue_none
  | .null :: js => faultTrue_silent fun _ h => h
  | .bool _ :: js => faultTrue_silent fun _ h => h
  | .int _ :: js => faultTrue_silent fun _ h => h
  | .dbl _ :: js => faultTrue_silent fun _ h => h
  | .str _ :: js => faultTrue_silent fun _ h => h
  | .obj _ :: js => faultTrue_silent fun _ h => h
  | .arr [] :: js => faultTrue_silent fun _ h => h
  | .arr [_] :: js => faultTrue_silent fun _ h => h
  | .arr (_ :: _ :: _ :: _) :: js => faultTrue_silent fun _ h => h
  | .arr [jk, jv] :: js => faultTrue_andThen (hk jk) (faultTrue_andThen (hv jv) (faultTrue_map whole fk fv hk hv js))

theorem noOther_only : ∀ (ms : List (Str × J)) (acc : Option Str) (w : Wanted), blameKeys ms acc = .error w → ∀ j, ¬ Says w j
  | [], acc, w, h => by simp [blameKeys] at h
  | (k, _) :: m, acc, w, h => by
    simp only [blameKeys] at h
    split at h
    · exact noOther_only m acc w h
    · cases acc with
      | none => exact noOther_only m (some k) w h
      | some k' => injection h with h; subst h; exact fun _ h => h

theorem says_number {j : J} (h : isNumber j = none) : ¬ ((∃ i, j = .int i) ∨ ∃ d, j = .dbl d) := by
  rintro (⟨_, rfl⟩ | ⟨_, rfl⟩) <;> simp [isNumber] at h

theorem says_uint {j : J} (h : asUint64 j = none) : ¬ ∃ i, j = .int i ∧ 0 ≤ i ∧ i < 2 ^ 64 := by
  rintro ⟨i, rfl, h1, h2⟩
  simp [asUint64] at h
  have := h h1
  omega

theorem says_int {j : J} (h : asInt64 j = none) : ¬ ∃ i, j = .int i ∧ -2 ^ 63 ≤ i ∧ i < 2 ^ 63 := by
  rintro ⟨i, rfl, h1, h2⟩
  simp [asInt64] at h
  have := h (by omega)
  omega

theorem says_tid {j : J} (h : asTypeID j = none) : ¬ ∃ s, j = .str ('T' :: s) := by
  rintro ⟨s, rfl⟩
  simp [asTypeID] at h

theorem says_arr {j : J} (h : asArray j = none) : ¬ ∃ l, j = .arr l := by
  rintro ⟨s, rfl⟩
  simp [asArray] at h

theorem says_obj {j : J} (h : asObject j = none) : ¬ ∃ l, j = .obj l := by
  rintro ⟨s, rfl⟩
  simp [asObject] at h

mutual
theorem blame_true (m : Mode) (t : Ty) (p : Option J) : FaultTrue (blame m t p) := by
  match t with
  | .bool =>
    simp only [blame]
    exact faultTrue_need (fun _ _ j h => by rintro ⟨b, rfl⟩; simp [asBool] at h) fun _ => faultTrue_none
  | .uint w => simp only [blame]; exact faultTrue_need (fun _ _ j h => says_uint h) fun _ => faultTrue_none
  | .int w => simp only [blame]; exact faultTrue_need (fun _ _ j h => says_int h) fun _ => faultTrue_none
  | .enumU w =>
    simp only [blame]
    exact faultTrue_need (fun _ _ j h => says_number h) fun _ => faultTrue_need (fun h _ _ _ => absurd rfl h) fun _ => faultTrue_none
  | .enumI w =>
    simp only [blame]
    exact faultTrue_need (fun _ _ j h => says_number h) fun _ => faultTrue_need (fun _ h _ _ => absurd rfl h) fun _ => faultTrue_none
  | .chrono => simp only [blame]; exact faultTrue_need (fun _ _ j h => says_int h) fun _ => faultTrue_none
  | .flt => simp only [blame]; exact faultTrue_need (fun _ _ j h => says_number h) fun _ => faultTrue_none
  | .dbl => simp only [blame]; exact faultTrue_need (fun _ _ j h => says_number h) fun _ => faultTrue_none
  | .str =>
    simp only [blame]
    exact faultTrue_need (fun _ _ j h => by rintro ⟨b, rfl⟩; simp [asString] at h) fun _ => faultTrue_none
  | .tid => simp only [blame]; exact faultTrue_need (fun _ _ j h => says_tid h) fun _ => faultTrue_none
  | .vec t =>
    simp only [blame]
    exact faultTrue_need (fun _ _ j h => says_arr h) fun js => faultTrue_each _ (fun j => blame_true m t (some j)) js 0
  | .arr n t =>
    simp only [blame]
    exact faultTrue_need (fun _ _ j h => says_arr h) fun js => faultTrue_fin _ (fun j => blame_true m t (some j)) n js 0
  | .pair a b =>
    simp only [blame]
    split
    · cases fSharpItems p with
      | none => exact faultTrue_silent fun _ h => h
      | some jj => exact faultTrue_andThen (blame_true m a _) (blame_true m b _)
    · exact faultTrue_need (fun _ _ j h => by rintro ⟨x, y, rfl⟩; simp [asTwo] at h) fun jj =>
        faultTrue_andThen (blame_true m a _) (blame_true m b _)
  | .tup r =>
    simp only [blame]
    refine faultTrue_need (fun _ _ j h => says_arr h) fun js => ?_
    split
    · exact blame_true_tuple m r 0 js
    · exact faultTrue_silent fun _ h => h
  | .set t =>
    simp only [blame]
    exact faultTrue_need (fun _ _ j h => says_arr h) fun js => faultTrue_each _ (fun j => blame_true m t (some j)) js 0
  | .smap v =>
    simp only [blame]
    exact faultTrue_need (fun _ _ j h => says_obj h) fun ms => faultTrue_smap _ (fun j => blame_true m v (some j)) ms
  | .map k v =>
    simp only [blame]
    exact faultTrue_need (fun _ _ j h => says_arr h) fun js =>
      faultTrue_map _ _ _ (fun j => blame_true m k (some j)) (fun j => blame_true m v (some j)) js
  | .opt t =>
    have ih := fun j => blame_true m t (some j)
    simp only [blame]
    cases p with
    | none => exact faultTrue_none
    | some j =>
      dsimp only
      split
      · exact faultTrue_none
      · split
        · rcases fSharpOption j with _ | _ | jv
          · exact faultTrue_silent fun _ h => h
          · exact faultTrue_none
          · exact ih jv
        · exact ih j
  | .struct n s o =>
    simp only [blame]
    exact faultTrue_need (fun _ _ j h => says_obj h) fun ms => faultTrue_andThen (blame_true_fields m s ms) (blame_true_fields m o ms)
  | .variant cs =>
    have ih := fun ms key x => blame_true_case m cs ms key x
    have fin : ∀ (ms : List (Str × J)) (j : J) (key : Key) (w : Wanted), (∀ j, ¬ Says w j) →
        FaultTrue (match blameCase m cs key ms with
          | none => some (.schema ⟨w, [], some j⟩)
          | some r => r) := by
      intro ms j key w hw
      cases hc : blameCase m cs key ms with
      | none => exact faultTrue_silent hw
      | some r => exact ih ms key r hc
    have simpleCase : ∀ (ms : List (Str × J)) (j : J), FaultTrue (match blameKeys ms none with
        | .error w => some (.schema ⟨w, [], some j⟩)
        | .ok none => some (.schema ⟨.someCase, [], some j⟩)
        | .ok (some k) => match blameCase m cs (.name k) ms with
          | none => some (.schema ⟨.case k, [], some j⟩)
          | some r => r) := by
      intro ms j
      cases hk : blameKeys ms none with
      | error w => exact faultTrue_silent (noOther_only ms none w hk)
      | ok r =>
        cases r with
        | none => exact faultTrue_silent fun _ h => h
        | some k => exact fin _ _ _ _ fun _ h => h
    simp only [blame]
    cases p with
    | none => dsimp only; split <;> exact fun _ h => nomatch h
    | some j =>
      dsimp only
      split
      · split <;> exact fun _ h => nomatch h
      · cases ho : asObject j with
        | none =>
          refine faultTrue_one fun _ _ v hv => ?_
          cases hv
          exact says_obj ho
        | some ms =>
          cases hm : m.fmt with
          | current =>
            dsimp only
            cases h1 : find [] ms with
            | none => exact faultTrue_silent fun _ h => h
            | some jt =>
              dsimp only
              cases h2 : asTypeID jt with
              | none =>
                refine faultTrue_one fun _ _ v hv => ?_
                cases hv
                exact says_tid h2
              | some n => exact fin _ _ _ _ fun _ h => h
          | fSharp =>
            dsimp only
            cases h1 : find kCase ms with
            | none => exact faultTrue_silent fun _ h => h
            | some jt =>
              dsimp only
              cases h2 : asString jt with
              | none =>
                refine faultTrue_one fun _ _ v hv => ?_
                cases hv
                rintro ⟨s, rfl⟩
                simp [asString] at h2
              | some n => exact fin _ _ _ _ fun _ h => h
          | minimalistic => exact simpleCase ms j
          | javaScript => exact simpleCase ms j
theorem blame_true_fields (m : Mode) (r : Row) (ms : List (Str × J)) : FaultTrue (blameFields m r ms) := by
  match r with
  | .nil => simp only [blameFields]; exact faultTrue_none
  | .cons l i t r =>
    simp only [blameFields]
    exact faultTrue_andThen (faultTrue_under (blame_true m t _)) (blame_true_fields m r ms)
theorem blame_true_tuple (m : Mode) (r : Row) (i : Nat) (js : List J) : FaultTrue (blameTuple m r i js) := by
  match r, js with
  | .nil, _ => simp only [blameTuple]; exact faultTrue_none
  | .cons _ _ _ _, [] => simp only [blameTuple]; exact faultTrue_none
  | .cons l _ t r, j :: js =>
    simp only [blameTuple]
    exact faultTrue_andThen (faultTrue_under (blame_true m t _)) (blame_true_tuple m r (i + 1) js)
theorem blame_true_case (m : Mode) (r : Row) (ms : List (Str × J)) (key : Key) (x : Option Fault)
    (h : blameCase m r key ms = some x) : FaultTrue x := by
  match r with
  | .nil => simp [blameCase] at h
  | .cons l i t r =>
    have it := fun j => blame_true m t (some j)
    simp only [blameCase] at h
    cases hc : blameCase m r key ms with
    | some y =>
      simp only [hc, Option.some.injEq] at h
      subst h
      exact blame_true_case m r ms key y hc
    | none =>
      simp only [hc] at h
      split at h
      · cases hm : m.fmt with
        | current =>
          simp only [hm] at h
          split at h <;> (injection h with h; subst h)
          · split
            · exact faultTrue_none
            · exact faultTrue_silent fun _ h => h
          · exact faultTrue_under (it _)
        | fSharp =>
          simp only [hm] at h
          split at h <;> (injection h with h; subst h)
          · exact faultTrue_under (faultTrue_under (it _))
          · exact faultTrue_silent fun _ h => h
          · split
            · exact faultTrue_none
            · exact faultTrue_silent fun _ h => h
        | minimalistic =>
          simp only [hm] at h
          split at h <;> (injection h with h; subst h)
          · exact fun _ h => nomatch h
          · exact faultTrue_under (it _)
        | javaScript =>
          simp only [hm] at h
          split at h <;> (injection h with h; subst h)
          · exact fun _ h => nomatch h
          · exact faultTrue_under (it _)
      · cases h
end

/-! ### The path as text -/

/-- Names of fields are identifiers; names of types have no quotation mark in them. -/
def Seg.plain : Seg → Prop
  | .field n => n ≠ [] ∧ '.' ∉ n ∧ '[' ∉ n
  | .item _ => True
  | .key n => '"' ∉ n
  | .member _ => False

theorem cut_same {P : Char → Prop} : ∀ {a b x y : Str}, (∀ c ∈ a, ¬ P c) → (∀ c ∈ b, ¬ P c) → (∀ c, x.head? = some c → P c) →
    (∀ c, y.head? = some c → P c) → a ++ x = b ++ y → a = b ∧ x = y
  | [], [], _, _, _, _, _, _, h => ⟨rfl, h⟩
  | [], c :: b, x, y, _, hb, hx, _, h => by
    simp only [List.nil_append, List.cons_append] at h
    exact absurd (hx c (by simp [h])) (hb c (by simp))
  | c :: a, [], x, y, ha, _, _, hy, h => by
    simp only [List.nil_append, List.cons_append] at h
    exact absurd (hy c (by simp [← h])) (ha c (by simp))
  | c :: a, d :: b, x, y, ha, hb, hx, hy, h => by
    simp only [List.cons_append, List.cons.injEq] at h
    obtain ⟨rfl, h⟩ := h
    obtain ⟨rfl, r⟩ := cut_same (fun c hc => ha c (by simp [hc])) (fun c hc => hb c (by simp [hc])) hx hy h
    exact ⟨rfl, r⟩

def flat (q : List Seg) : Str := (q.map Seg.text).flatten

theorem flat_cons (s : Seg) (q : List Seg) : flat (s :: q) = s.text ++ flat q := rfl

theorem flat_head (q : List Seg) (hq : ∀ s ∈ q, s.plain) (c : Char) (h : (flat q).head? = some c) : c = '.' ∨ c = '[' := by
  cases q with
  | nil => simp [flat] at h
  | cons s q =>
    rw [flat_cons] at h
    have := hq s (by simp)
    cases s with
    | field n => simp [Seg.text] at h; exact .inl h.symm
    | item i => simp [Seg.text] at h; exact .inr h.symm
    | key n => simp [Seg.text] at h; exact .inr h.symm
    | member i => exact this.elim

theorem dec_inj' {a b : Nat} (h : dec a = dec b) : a = b := by
  have h1 := Persist.readNat_dec a [] (by simp)
  have h2 := Persist.readNat_dec b [] (by simp)
  rw [h] at h1
  rw [h1] at h2
  injection h2 with h2
  exact (Prod.mk.inj h2).1

theorem flat_inj : ∀ (q r : List Seg), (∀ s ∈ q, s.plain) → (∀ s ∈ r, s.plain) → flat q = flat r → q = r
  | [], [], _, _, _ => rfl
  | [], s :: r, _, hr, h => by
    have := hr s (by simp)
    cases s <;> simp [flat, Seg.text, Seg.plain] at h this
  | s :: q, [], hq, _, h => by
    have := hq s (by simp)
    cases s <;> simp [flat, Seg.text, Seg.plain] at h this
  | s :: q, t :: r, hq, hr, h => by
    have ih := flat_inj q r (fun s h => hq s (by simp [h])) (fun s h => hr s (by simp [h]))
    have hs := hq s (by simp)
    have ht := hr t (by simp)
    have hq' : ∀ c, (flat q).head? = some c → c = '.' ∨ c = '[' := fun c => flat_head q (fun s h => hq s (by simp [h])) c
    have hr' : ∀ c, (flat r).head? = some c → c = '.' ∨ c = '[' := fun c => flat_head r (fun s h => hr s (by simp [h])) c
    have digit : ∀ i, ∀ c ∈ dec i, ¬ c = ']' := fun i c hc e => by
      have := Persist.dec_isDigit hc
      subst e
      exact absurd this (by decide)
    have notQuote : ∀ i (x y : Str), dec i ++ x ≠ '"' :: y := fun i x y e => by
      cases hd : dec i with
      | nil => exact Persist.dec_ne_nil i hd
      | cons c l =>
        rw [hd] at e
        simp only [List.cons_append, List.cons.injEq] at e
        have := Persist.dec_isDigit (n := i) (c := c) (by rw [hd]; simp)
        rw [e.1] at this
        exact absurd this (by decide)
    rw [flat_cons, flat_cons] at h
    cases s with
    | member i => exact hs.elim
    | field n =>
      cases t with
      | member i => exact ht.elim
      | field n' =>
        simp only [Seg.text, List.cons_append, List.cons.injEq, true_and] at h
        obtain ⟨rfl, h4⟩ := cut_same (P := fun c => c = '.' ∨ c = '[')
          (fun c hc e => e.elim (fun e => hs.2.1 (e ▸ hc)) (fun e => hs.2.2 (e ▸ hc)))
          (fun c hc e => e.elim (fun e => ht.2.1 (e ▸ hc)) (fun e => ht.2.2 (e ▸ hc))) hq' hr' h
        rw [ih h4]
      | item i => simp [Seg.text] at h
      | key n' => simp [Seg.text] at h
    | item i =>
      cases t with
      | member i => exact ht.elim
      | field n' => simp [Seg.text] at h
      | item i' =>
        simp only [Seg.text, List.cons_append, List.cons.injEq, true_and, List.append_assoc, List.nil_append] at h
        obtain ⟨hd, h⟩ := cut_same (P := fun c => c = ']') (digit i) (digit i') (by simp) (by simp) h
        simp only [List.cons.injEq, true_and] at h
        rw [ih h, dec_inj' hd]
      | key n' =>
        simp only [Seg.text, List.cons_append, List.cons.injEq, true_and, List.append_assoc, List.nil_append] at h
        exact absurd h (notQuote i _ _)
    | key n =>
      cases t with
      | member i => exact ht.elim
      | field n' => simp [Seg.text] at h
      | item i' =>
        simp only [Seg.text, List.cons_append, List.cons.injEq, true_and, List.append_assoc, List.nil_append] at h
        exact absurd h.symm (notQuote i' _ _)
      | key n' =>
        simp only [Seg.text, List.cons_append, List.cons.injEq, true_and, List.append_assoc, List.nil_append] at h
        obtain ⟨rfl, h4⟩ := cut_same (P := fun c => c = '"') (fun c hc e => hs (e ▸ hc)) (fun c hc e => ht (e ▸ hc))
          (by simp) (by simp) h
        simp only [List.cons.injEq, true_and] at h4
        rw [ih h4]

theorem pathText_flat (q : List Seg) (hq : ∀ s ∈ q, s.plain) :
    (pathText q = flat q ∧ (flat q = [] ∨ ∃ x, flat q = '[' :: x)) ∨
    (flat q = '.' :: pathText q ∧ ∃ c x, pathText q = c :: x ∧ c ≠ '[') := by
  cases q with
  | nil => exact .inl ⟨rfl, .inl rfl⟩
  | cons s q =>
    have hs := hq s (by simp)
    cases s with
    | member i => exact hs.elim
    | item i => exact .inl ⟨rfl, .inr ⟨_, rfl⟩⟩
    | key n => exact .inl ⟨rfl, .inr ⟨_, rfl⟩⟩
    | field n =>
      refine .inr ⟨rfl, ?_⟩
      obtain ⟨h1, _, h3⟩ := hs
      cases n with
      | nil => exact absurd rfl h1
      | cons c n => exact ⟨c, n ++ flat q, rfl, fun e => h3 (by simp [e])⟩

/-! ### C151 -/

/-- **The parse throws exactly if there is something to say.** -/
theorem error_iff_blame (e : Env) (m : Mode) (t : Ty) (p : Option J) (d : t.den) :
    (∃ er, des e m t p d = .error er) ↔ ∃ f, blame m t p = some f := by
  have := fine_blame e m t p d
  cases h : des e m t p d with
  | ok x =>
    rw [h] at this
    rw [this.1 ⟨x, rfl⟩]
    exact ⟨fun ⟨_, h⟩ => (nomatch h), fun ⟨_, h⟩ => (nomatch h)⟩
  | error er =>
    rw [h] at this
    refine ⟨fun _ => ?_, fun _ => ⟨er, rfl⟩⟩
    cases hb : blame m t p with
    | none => obtain ⟨_, h⟩ := this.2 hb; cases h
    | some f => exact ⟨f, rfl⟩

/-- **Following the path in the message from the root of the JSON leads to the value the message shows** (or to the missing member), for
types with no map or pair in them (and no `Optional`, in the F# format). -/
theorem path_leads_there_partial (m : Mode) (t : Ty) (j : J) (b : Blame) (h : blame m t (some j) = some (.schema b))
    (ht : t.stepwise (m.fmt = .fSharp) = true) : Leads (some j) b.path b.actual := by
  obtain ⟨q, h1, _, h3⟩ := blame_located m t (some j) b h
  rw [h3 ht]
  exact h1

/-- For any type, the value shown is in the JSON, and the path in the message is its path with, possibly, some steps left out. -/
theorem path_leaves_out_steps (m : Mode) (t : Ty) (j : J) (b : Blame) (h : blame m t (some j) = some (.schema b)) :
    ∃ q, Leads (some j) q b.actual ∧ b.path.Sublist q := by
  obtain ⟨q, h1, h2, _⟩ := blame_located m t (some j) b h
  exact ⟨q, h1, h2⟩

/-- **The value shown is not what the message says was expected**, but for the two messages about enums. -/
theorem value_is_not_as_expected_partial (m : Mode) (t : Ty) (p : Option J) (b : Blame) (h : blame m t p = some (.schema b))
    (h1 : b.wanted ≠ .enumSigned) (h2 : b.wanted ≠ .enumUnsigned) (v : J) (hv : b.actual = some v) : ¬ Says b.wanted v :=
  blame_true m t p b h h1 h2 v hv

/-- **The path can be read back from its text.** -/
theorem path_text_unambiguous (q r : List Seg) (hq : ∀ s ∈ q, s.plain) (hr : ∀ s ∈ r, s.plain) (h : pathText q = pathText r) : q = r := by
  apply flat_inj q r hq hr
  rcases pathText_flat q hq with ⟨h1, h2⟩ | ⟨h1, c, x, h2, h3⟩ <;> rcases pathText_flat r hr with ⟨g1, g2⟩ | ⟨g1, d, y, g2, g3⟩
  · rw [← h1, h, g1]
  · exfalso
    rw [← h1, h, g2] at h2
    rcases h2 with h2 | ⟨x, h2⟩
    · cases h2
    · injection h2 with h2 _; exact g3 h2
  · exfalso
    rw [← g1, ← h, h2] at g2
    rcases g2 with g2 | ⟨y, g2⟩
    · cases g2
    · injection g2 with g2 _; exact h3 g2
  · rw [h1, g1, h]

/-! ### Where the code falls short -/

/-- A vector of structs, the third of which lacks a field: `Expected string for `v[1].s`, got: missing field.` -/
example : ∃ b, blame ⟨.current, false⟩ (.struct [] .nil (.cons ['v'] 0 (.vec (.struct [] .nil (.cons ['s'] 0 .str .nil))) .nil))
      (some (.obj [(['v'], .arr [.obj [(['s'], .str [])], .obj [(['t'], .null)]])])) = some (.schema b) ∧
    b.text (fun _ => []) = "Expected string for `v[1].s`, got: missing field.".toList ∧
    Ty.stepwise false (.struct [] .nil (.cons ['v'] 0 (.vec (.struct [] .nil (.cons ['s'] 0 .str .nil))) .nil)) = true :=
  ⟨_, rfl, by decide, by decide⟩

/-- A value in a `Variant`: the path has the case in it. -/
example : ∃ b, blame ⟨.minimalistic, false⟩ (.struct [] .nil (.cons ['v'] 0 (.variant (.cons ['A'] 7 (.struct ['A'] .nil (.cons ['x'] 0 (.uint 8) .nil)) .nil)) .nil))
      (some (.obj [(['v'], .obj [(['A'], .obj [(['x'], .str [])])])])) = some (.schema b) ∧
    b.text (fun _ => ['"', '"']) = "Expected unsigned integer for `v[\"A\"].x`, got: \"\"".toList :=
  ⟨_, rfl, by decide⟩

/-- **The key is left out of the path under a map**: for `{"m":{"a":{"x":1},"b":{"x":"s"}}}` the message has `m.x`, and there is
nothing at `m.x`. -/
theorem key_left_out : ∃ (t : Ty) (j : J) (b : Blame), blame ⟨.current, false⟩ t (some j) = some (.schema b) ∧
    pathText b.path = ['m', '.', 'x'] ∧ ¬ ∃ a, Leads (some j) b.path (some a) := by
  refine ⟨.struct [] .nil (.cons ['m'] 0 (.smap (.struct [] .nil (.cons ['x'] 0 (.uint 8) .nil))) .nil),
    .obj [(['m'], .obj [(['a'], .obj [(['x'], .int 1)]), (['b'], .obj [(['x'], .str ['s'])])])], _, rfl, rfl, ?_⟩
  rintro ⟨a, j1, c1, h1, h2, j2, c2, h3, h4, h5⟩
  cases h1
  simp only [step, memberOf] at h2
  cases h2
  cases h3
  simp only [step, memberOf] at h4
  cases h4
  cases h5

/-- And can be the path of another value, one that is fine: for a map with the keys `x` and `y`. -/
theorem wrong_value_pointed_at : ∃ (t : Ty) (j : J) (b : Blame) (v : J), blame ⟨.current, false⟩ t (some j) = some (.schema b) ∧
    Leads (some j) b.path (some v) ∧ b.actual = some (.str ['s']) ∧
    v = .obj [(['x'], .int 1)] := by
  refine ⟨.struct [] .nil (.cons ['m'] 0 (.smap (.struct [] .nil (.cons ['x'] 0 (.uint 8) .nil))) .nil),
    .obj [(['m'], .obj [(['x'], .obj [(['x'], .int 1)]), (['y'], .obj [(['x'], .str ['s'])])])], _, _, rfl, ?_, rfl, rfl⟩
  exact ⟨_, _, rfl, rfl, _, _, rfl, rfl, rfl⟩

/-- **The messages of the two kinds of enums are swapped**: −1 for an enum over an unsigned type is refused with "Expected enum as signed
integer, got: -1". -/
theorem enum_messages_swapped (w : Nat) : ∃ b, blame ⟨.current, false⟩ (.enumU w) (some (.int (-1))) = some (.schema b) ∧
    b.wanted.text = "enum as signed integer".toList ∧ ∃ v, b.actual = some v ∧ Says b.wanted v :=
  ⟨_, rfl, rfl, _, rfl, -1, rfl, by decide, by decide⟩

end Current.Json
