import Verif.Persist.Codec

/-!
# Names of types (`typesystem/typename.h`)

`CurrentTypeName<T, NF>()` gives the name of a type in one of three formats: as in C++
(`FullCPP`), as an identifier for other languages (`AsIdentifier`), and `Z`, which is the key of a
case of a `Variant` in JSON (`typesystem/serialization/json/variant.h`) and a part of the type id.

A type is a head applied to types: each specialization of `CurrentTypeNameImpl` is a head. The
specialization for `std::array` has in addition the size.

Simplifications: namespaces are not in names, so that what is declared is known by its name alone
(an environment says what each name is: with two types of one name in two namespaces the names of
types are the same). `void` and `CurrentSuper` are not modelled.
-/

set_option linter.unusedSimpArgs false
set_option linter.unusedVariables false

namespace Current.TypeName

open Current.Persist (Str dec)

/-! ## The program -/

/-- The names of what is built in, in C++ and as an identifier: the primitive types
(primitive_types.dsl.h, typename.h 156-166) and the templates (typename.h 168-297, 338-351). -/
def table : List (Str × Str) :=
  [("bool", "Bool"), ("uint8_t", "UInt8"), ("uint16_t", "UInt16"), ("uint32_t", "UInt32"), ("uint64_t", "UInt64"),
   ("int8_t", "Int8"), ("int16_t", "Int16"), ("int32_t", "Int32"), ("int64_t", "Int64"), ("char", "Char"),
   ("std::string", "String"), ("float", "Float"), ("double", "Double"),
   ("std::chrono::microseconds", "Microseconds"), ("std::chrono::milliseconds", "Milliseconds"),
   ("std::array", "Array"), ("std::vector", "Vector"), ("std::set", "Set"), ("std::unordered_set", "UnorderedSet"),
   ("std::pair", "Pair"), ("std::map", "Map"), ("std::unordered_map", "UnorderedMap"), ("Optional", "Optional"),
   ("Variant", "Variant"), ("std::tuple", "Tuple")].map (fun p => (p.1.toList, p.2.toList))

/-- What may be declared: `CURRENT_STRUCT(Foo)`, `CURRENT_STRUCT_T(Foo)`, `CURRENT_ENUM(Foo, …)`,
`CURRENT_VARIANT(Foo, …)`. -/
inductive Kind
  | struct
  | template
  | enum
  | variant
deriving DecidableEq

/-- The head of a type. -/
inductive Head
  | builtin (i : Fin 25)
  | declared (k : Kind) (name : Str)
deriving DecidableEq

/-- A type; the number is the size of an array. -/
inductive Ty
  | app (h : Head) (args : List Ty) (n : Nat)

/-- `std::array`. -/
def array : Fin 25 := 15
/-- `Variant`. -/
def variant : Fin 25 := 23

/-- The text of a head in C++. The exported name of a template is `Foo_Z`, from which the last two
characters are removed (typename.h 299-308). -/
def headText : Head → Str
  | .builtin i => (table[i.val]?.map Prod.fst).getD []
  | .declared _ s => s

/-- The text of a head as an identifier. -/
def headIdent : Head → Str
  | .builtin i => (table[i.val]?.map Prod.snd).getD []
  | .declared _ s => s

mutual
/-- `NameFormat::FullCPP`. -/
def cpp : Ty → Str
  | .app h args n => headText h ++ (if args.isEmpty then [] else
      "<".toList ++ cppJoin args ++ (if h = .builtin array then ", ".toList ++ dec n else []) ++ ">".toList)
/-- `JoinTypeNames` with `", "` (typename.h 376-390). -/
def cppJoin : List Ty → Str
  | [] => []
  | [t] => cpp t
  | t :: r => cpp t ++ ", ".toList ++ cppJoin r
end

mutual
/-- `NameFormat::AsIdentifier`. -/
def ident : Ty → Str
  | .app h args n => headIdent h ++ (if args.isEmpty then [] else
      (match h with
        | .declared _ _ => "_T_".toList
        | _ => "_".toList) ++ identJoin args ++ (if h = .builtin array then "_".toList ++ dec n else []))
/-- `JoinTypeNames` with `'_'`. -/
def identJoin : List Ty → Str
  | [] => []
  | [t] => ident t
  | t :: r => ident t ++ "_".toList ++ identJoin r
end

mutual
/-- `NameFormat::Z`. -/
def zname : Ty → Str
  | .app (.declared .template s) _ _ => s ++ "_Z".toList
  | .app h args n =>
    if h = .builtin variant then "Variant_B_".toList ++ zJoinU args ++ "_E".toList
    else headText h ++ (if args.isEmpty then [] else
      "<".toList ++ zJoin args ++ (if h = .builtin array then ", ".toList ++ dec n else []) ++ ">".toList)
/-- Joined with `", "`. -/
def zJoin : List Ty → Str
  | [] => []
  | [t] => zname t
  | t :: r => zname t ++ ", ".toList ++ zJoin r
/-- Joined with `'_'` (typename.h 119-123). -/
def zJoinU : List Ty → Str
  | [] => []
  | [t] => zname t
  | t :: r => zname t ++ "_".toList ++ zJoinU r
end

/-- The reader of a `Variant` by name: the cases are registered by their names one after another, a
later replaces an earlier (variant.h 221-246). The case which is read for a name. -/
def caseFor (cases : List Ty) (name : Str) : Option Nat :=
  (cases.reverse.findIdx? (fun t => zname t == name)).map (fun i => cases.length - 1 - i)

/-! ## The specification -/

/-- A character of an identifier. -/
def wordChar (c : Char) : Bool := c.isAlpha || c.isDigit || c == '_'

/-- An identifier. -/
def Identifier (s : Str) : Prop := (∃ c cs, s = c :: cs ∧ c.isDigit = false) ∧ ∀ c ∈ s, wordChar c = true

/-- How many types a head takes. -/
def arityOk (h : Head) (n : Nat) : Bool :=
  match h with
  | .builtin i =>
    if i.val < 15 then n == 0
    else if i.val = 15 ∨ i.val = 16 ∨ i.val = 17 ∨ i.val = 18 ∨ i.val = 22 then n == 1
    else if i.val = 19 ∨ i.val = 20 ∨ i.val = 21 then n == 2
    else 1 ≤ n
  | .declared .template _ => n == 1
  | .declared _ _ => n == 0

/-- Heads are what the environment says, and declared names are identifiers which are not built in. -/
def HeadOk (env : Str → Option Kind) : Head → Prop
  | .builtin _ => True
  | .declared k s => env s = some k ∧ Identifier s ∧ s ∉ table.map Prod.fst

mutual
/-- A type which can be written in the environment. -/
def TyOk (env : Str → Option Kind) : Ty → Prop
  | .app h args n => HeadOk env h ∧ arityOk h args.length = true ∧ (h ≠ .builtin array → n = 0) ∧ TysOk env args
/-- Types which can be written in the environment. -/
def TysOk (env : Str → Option Kind) : List Ty → Prop
  | [] => True
  | t :: r => TyOk env t ∧ TysOk env r
end

/-! ## Names in C++ -/

/-- A character which ends a name. -/
def stop (c : Char) : Bool := c == '<' || c == '>' || c == ','

theorem table_ok : ∀ i : Fin 25, (∀ c ∈ headText (.builtin i), stop c = false) ∧ headText (.builtin i) ≠ [] := by
  decide

theorem table_inj : ∀ i j : Fin 25, headText (.builtin i) = headText (.builtin j) → i = j := by
  decide

theorem table_mem : ∀ i : Fin 25, headText (.builtin i) ∈ table.map Prod.fst := by
  decide

theorem head_noStop {env : Str → Option Kind} {h : Head} (ho : HeadOk env h) : ∀ c ∈ headText h, stop c = false := by
  cases h with
  | builtin i => exact (table_ok i).1
  | declared k s =>
    intro c hc
    have hw := ho.2.1.2 c hc
    have h1 : c ≠ '<' := by intro e; subst e; revert hw; decide
    have h2 : c ≠ '>' := by intro e; subst e; revert hw; decide
    have h3 : c ≠ ',' := by intro e; subst e; revert hw; decide
    simp [stop, h1, h2, h3]

theorem head_inj {env : Str → Option Kind} {h h' : Head} (ho : HeadOk env h) (ho' : HeadOk env h')
    (e : headText h = headText h') : h = h' := by
  cases h with
  | builtin i =>
    cases h' with
    | builtin j => rw [table_inj i j e]
    | declared k s =>
      have := table_mem i
      rw [e] at this
      exact absurd this ho'.2.2
  | declared k s =>
    cases h' with
    | builtin j =>
      have := table_mem j
      rw [← e] at this
      exact absurd this ho.2.2
    | declared k' s' =>
      have e : s = s' := e
      subst e
      have : some k = some k' := ho.1.symm.trans ho'.1
      rw [Option.some.inj this]

/-- What may come after a name. -/
def Ends (r : Str) : Prop := ∀ c, r.head? = some c → stop c = true

theorem span_eq {a b x y : Str} (ha : ∀ c ∈ a, stop c = false) (hb : ∀ c ∈ b, stop c = false)
    (hx : Ends x) (hy : Ends y) (e : a ++ x = b ++ y) : a = b ∧ x = y := by
  induction a generalizing b with
  | nil =>
    cases b with
    | nil => exact ⟨rfl, by simpa using e⟩
    | cons c cs =>
      simp only [List.nil_append, List.cons_append] at e
      have h1 := hx c (by rw [e]; rfl)
      rw [hb c (by simp)] at h1
      cases h1
  | cons c cs ih =>
    cases b with
    | nil =>
      simp only [List.nil_append, List.cons_append] at e
      have h1 := hy c (by rw [← e]; rfl)
      rw [ha c (by simp)] at h1
      cases h1
    | cons d ds =>
      simp only [List.cons_append, List.cons.injEq] at e
      obtain ⟨e1, e2⟩ := ih (b := ds) (fun c hc => ha c (by simp [hc])) (fun c hc => hb c (by simp [hc])) e.2
      exact ⟨by rw [e.1, e1], e2⟩

theorem dec_noStop (n : Nat) : ∀ c ∈ dec n, stop c = false := by
  intro c hc
  have := Current.Persist.dec_isDigit hc
  have h1 : c ≠ '<' := by intro e; subst e; revert this; decide
  have h2 : c ≠ '>' := by intro e; subst e; revert this; decide
  have h3 : c ≠ ',' := by intro e; subst e; revert this; decide
  simp [stop, h1, h2, h3]

theorem dec_inj {n m : Nat} (h : dec n = dec m) : n = m := by
  have h1 := Current.Persist.readNat_dec n [] (by simp)
  have h2 := Current.Persist.readNat_dec m [] (by simp)
  rw [h, h2] at h1
  simpa using h1.symm

theorem ends_gt (r : Str) : Ends ('>' :: r) := by intro c hc; simp at hc; subst hc; rfl
theorem ends_comma (r : Str) : Ends (',' :: r) := by intro c hc; simp at hc; subst hc; rfl
theorem ends_lt (r : Str) : Ends ('<' :: r) := by intro c hc; simp at hc; subst hc; rfl

theorem ends_gtS (r : Str) : Ends (">".toList ++ r) := ends_gt r
theorem ends_commaS (r : Str) : Ends (", ".toList ++ r) := ends_comma (' ' :: r)
theorem nlt_gtS (r : Str) : ∀ c, (">".toList ++ r).head? = some c → c ≠ '<' := by
  intro c hc; have : c = '>' := by simpa using hc.symm
  subst this; decide
theorem nlt_commaS (r : Str) : ∀ c, (", ".toList ++ r).head? = some c → c ≠ '<' := by
  intro c hc; have : c = ',' := by simpa using hc.symm
  subst this; decide

mutual
theorem cpp_split (env : Str → Option Kind) : ∀ (t t' : Ty) (r r' : Str), TyOk env t → TyOk env t' →
    Ends r → Ends r' → (∀ c, r.head? = some c → c ≠ '<') → (∀ c, r'.head? = some c → c ≠ '<') →
    cpp t ++ r = cpp t' ++ r' → t = t' ∧ r = r'
  | .app h args n, .app h' args' n', r, r', ok, ok', hr, hr', hn, hn', e => by
    simp only [TyOk] at ok ok'
    simp only [cpp, List.append_assoc] at e
    cases args with
    | nil =>
      cases args' with
      | nil =>
        simp only [List.isEmpty_nil, if_true, List.nil_append] at e
        obtain ⟨e1, e2⟩ := span_eq (head_noStop ok.1) (head_noStop ok'.1) hr hr' e
        have eh := head_inj ok.1 ok'.1 e1
        subst eh
        have hna : h ≠ .builtin array := by
          intro eh; subst eh
          have := ok.2.1
          revert this; decide
        rw [ok.2.2.1 hna, ok'.2.2.1 hna]
        exact ⟨rfl, e2⟩
      | cons t' ts' =>
        simp only [List.isEmpty_nil, if_true, List.nil_append, List.isEmpty_cons, Bool.false_eq_true, if_false,
          List.append_assoc] at e
        have hl : ∀ x : Str, Ends ("<".toList ++ x) := fun x => ends_lt x
        obtain ⟨e1, e2⟩ := span_eq (head_noStop ok.1) (head_noStop ok'.1) hr (hl _) e
        exact absurd rfl (hn '<' (by rw [e2]; rfl))
    | cons t ts =>
      cases args' with
      | nil =>
        simp only [List.isEmpty_nil, if_true, List.nil_append, List.isEmpty_cons, Bool.false_eq_true, if_false,
          List.append_assoc] at e
        have hl : ∀ x : Str, Ends ("<".toList ++ x) := fun x => ends_lt x
        obtain ⟨e1, e2⟩ := span_eq (head_noStop ok.1) (head_noStop ok'.1) (hl _) hr' e
        exact absurd rfl (hn' '<' (by rw [← e2]; rfl))
      | cons t' ts' =>
        simp only [List.isEmpty_cons, Bool.false_eq_true, if_false, List.append_assoc] at e
        have hl : ∀ x : Str, Ends ("<".toList ++ x) := fun x => ends_lt x
        obtain ⟨e1, e2⟩ := span_eq (head_noStop ok.1) (head_noStop ok'.1) (hl _) (hl _) e
        have eh := head_inj ok.1 ok'.1 e1
        subst eh
        have e3 := List.append_cancel_left e2
        by_cases ha : h = .builtin array
        · subst ha
          have hts : ts = [] := by
            have := ok.2.1
            have e : arityOk (.builtin array) (t :: ts).length = ((t :: ts).length == 1) := rfl
            rw [e] at this
            simpa using this
          have hts' : ts' = [] := by
            have := ok'.2.1
            have e : arityOk (.builtin array) (t' :: ts').length = ((t' :: ts').length == 1) := rfl
            rw [e] at this
            simpa using this
          subst hts; subst hts'
          simp only [if_true, cppJoin, List.append_assoc] at e3
          obtain ⟨et, er⟩ := cpp_split env t t' _ _ ok.2.2.2.1 ok'.2.2.2.1 (ends_commaS _) (ends_commaS _)
            (nlt_commaS _)
            (nlt_commaS _) e3
          have er := List.append_cancel_left er
          obtain ⟨en, eg⟩ := span_eq (dec_noStop n) (dec_noStop n') (ends_gtS r) (ends_gtS r') er
          rw [et, dec_inj en]
          exact ⟨rfl, List.append_cancel_left eg⟩
        · simp only [if_neg ha, List.nil_append] at e3
          obtain ⟨ea, er⟩ := cppJoin_split env t ts t' ts' r r' ok.2.2.2 ok'.2.2.2 e3
          rw [ea, ok.2.2.1 ha, ok'.2.2.1 ha, er]
          exact ⟨rfl, rfl⟩
termination_by t => sizeOf t
theorem cppJoin_split (env : Str → Option Kind) : ∀ (t : Ty) (ts : List Ty) (t' : Ty) (ts' : List Ty) (r r' : Str),
    TysOk env (t :: ts) → TysOk env (t' :: ts') →
    cppJoin (t :: ts) ++ (">".toList ++ r) = cppJoin (t' :: ts') ++ (">".toList ++ r') →
    t :: ts = t' :: ts' ∧ r = r'
  | t, [], t', [], r, r', ok, ok', e => by
    simp only [cppJoin] at e
    obtain ⟨et, er⟩ := cpp_split env t t' _ _ ok.1 ok'.1 (ends_gtS r) (ends_gtS r')
      (nlt_gtS _)
      (nlt_gtS _) e
    exact ⟨by rw [et], List.append_cancel_left er⟩
  | t, [], t', u' :: ts', r, r', ok, ok', e => by
    simp only [cppJoin, List.append_assoc] at e
    obtain ⟨et, er⟩ := cpp_split env t t' _ _ ok.1 ok'.1 (ends_gtS r) (ends_commaS _)
      (nlt_gtS _)
      (nlt_commaS _) e
    simp at er
  | t, u :: ts, t', [], r, r', ok, ok', e => by
    simp only [cppJoin, List.append_assoc] at e
    obtain ⟨et, er⟩ := cpp_split env t t' _ _ ok.1 ok'.1 (ends_commaS _) (ends_gtS r')
      (nlt_commaS _)
      (nlt_gtS _) e
    simp at er
  | t, u :: ts, t', u' :: ts', r, r', ok, ok', e => by
    simp only [cppJoin, List.append_assoc] at e
    obtain ⟨et, er⟩ := cpp_split env t t' _ _ ok.1 ok'.1 (ends_commaS _) (ends_commaS _)
      (nlt_commaS _)
      (nlt_commaS _) e
    have er := List.append_cancel_left er
    obtain ⟨ea, eb⟩ := cppJoin_split env u ts u' ts' r r' ok.2 ok'.2 er
    exact ⟨by rw [et, ea], eb⟩
termination_by t ts => sizeOf t + sizeOf ts
end

/-- **Different types have different names in C++**, however they are nested, if different
declarations have different names. -/
theorem cpp_names_are_different (env : Str → Option Kind) (t t' : Ty) (ok : TyOk env t) (ok' : TyOk env t')
    (h : cpp t = cpp t') : t = t' := by
  refine (cpp_split env t t' [] [] ok ok' ?_ ?_ ?_ ?_ (by simpa using h)).1 <;> intro c hc <;> simp at hc

/-! ## Names as identifiers -/

theorem ident_head {env : Str → Option Kind} {h : Head} (ho : HeadOk env h) : Identifier (headIdent h) := by
  cases h with
  | builtin i =>
    have : ∀ i : Fin 25, (match headIdent (.builtin i) with
        | [] => false
        | c :: _ => !c.isDigit) = true ∧ ∀ c ∈ headIdent (.builtin i), wordChar c = true := by decide
    have h1 := (this i).1
    refine ⟨?_, (this i).2⟩
    cases hh : headIdent (.builtin i) with
    | nil => rw [hh] at h1; cases h1
    | cons c cs =>
      rw [hh] at h1
      exact ⟨c, cs, rfl, by simpa using h1⟩
  | declared k s => exact ho.2.1

mutual
theorem ident_chars (env : Str → Option Kind) : ∀ t, TyOk env t → ∀ c ∈ ident t, wordChar c = true
  | .app h args n, ok, c, hc => by
    simp only [TyOk] at ok
    simp only [ident, List.mem_append] at hc
    rcases hc with hc | hc
    · exact (ident_head ok.1).2 c hc
    · split at hc
      · cases hc
      · simp only [List.mem_append] at hc
        rcases hc with (hc | hc) | hc
        · split at hc
          · revert c; decide
          · revert c; decide
        · exact identJoin_chars env args ok.2.2.2 c hc
        · split at hc
          · rcases List.mem_append.mp hc with hc | hc
            · have : c = '_' := by simpa using hc
              subst this; decide
            · have := Current.Persist.dec_isDigit hc
              simp [wordChar, this]
          · cases hc
theorem identJoin_chars (env : Str → Option Kind) : ∀ ts, TysOk env ts → ∀ c ∈ identJoin ts, wordChar c = true
  | [], _, c, hc => by cases hc
  | [t], ok, c, hc => ident_chars env t ok.1 c hc
  | t :: u :: r, ok, c, hc => by
    simp only [identJoin, List.mem_append] at hc
    rcases hc with (hc | hc) | hc
    · exact ident_chars env t ok.1 c hc
    · revert c; decide
    · exact identJoin_chars env (u :: r) ok.2 c hc
end

/-- **The name of a type as an identifier is an identifier.** -/
theorem ident_is_an_identifier (env : Str → Option Kind) (t : Ty) (ok : TyOk env t) : Identifier (ident t) := by
  refine ⟨?_, ident_chars env t ok⟩
  cases t with
  | app h args n =>
    simp only [TyOk] at ok
    obtain ⟨c, cs, e, hd⟩ := (ident_head ok.1).1
    exact ⟨c, _, by simp only [ident, e, List.cons_append]; rfl, hd⟩

/-- **But identifiers of different types may be the same**: a variant of a variant of two and a third
type, and a variant of a variant of three. -/
theorem identifiers_collide (a b c : Ty) :
    ident (.app (.builtin variant) [.app (.builtin variant) [a, b] 0, c] 0) =
    ident (.app (.builtin variant) [.app (.builtin variant) [a, b, c] 0] 0) := by
  have hv : ¬ ((23 : Fin 25) = array) := by decide
  simp [ident, identJoin, variant, hv]

/-- A declared structure may have the identifier of a built-in template. -/
theorem identifier_of_a_struct : ident (.app (.declared .struct "Vector_Bool".toList) [] 0) =
    ident (.app (.builtin 16) [.app (.builtin 0) [] 0] 0) := by
  decide +kernel

/-! ## Names which are keys of variants -/

/-- **All instances of a template have one name** in this format. -/
theorem instances_have_one_name (s : Str) (a b : Ty) :
    zname (.app (.declared .template s) [a] 0) = zname (.app (.declared .template s) [b] 0) := by
  simp [zname]

/-- **A value of a `Variant` is read, by the name which was written, as the case which it was — if and
only if no later case has the same name.** -/
theorem case_is_read_iff (cases : List Ty) (i : Nat) (t : Ty) (hi : cases[i]? = some t) :
    caseFor cases (zname t) = some i ↔ ∀ j u, i < j → cases[j]? = some u → zname u ≠ zname t := by
  have hlt : i < cases.length := by
    rcases Nat.lt_or_ge i cases.length with h | h
    · exact h
    · rw [List.getElem?_eq_none h] at hi; cases hi
  have hi' : cases[i] = t := by rw [List.getElem?_eq_getElem hlt] at hi; exact Option.some.inj hi
  constructor
  · intro h j u hij hj e
    have hjl : j < cases.length := by
      rcases Nat.lt_or_ge j cases.length with h | h
      · exact h
      · rw [List.getElem?_eq_none h] at hj; cases hj
    have hj' : cases[j] = u := by rw [List.getElem?_eq_getElem hjl] at hj; exact Option.some.inj hj
    simp only [caseFor, Option.map_eq_some_iff] at h
    obtain ⟨k, hk, e2⟩ := h
    rw [List.findIdx?_eq_some_iff_getElem] at hk
    obtain ⟨hk1, hk2, hk3⟩ := hk
    simp only [List.length_reverse] at hk1
    have := hk3 (cases.length - 1 - j) (by omega)
    rw [List.getElem_reverse] at this
    have e3 : cases.length - 1 - (cases.length - 1 - j) = j := by omega
    simp only [e3, hj', e] at this
    simp at this
  · intro h
    simp only [caseFor, Option.map_eq_some_iff]
    refine ⟨cases.length - 1 - i, ?_, by omega⟩
    rw [List.findIdx?_eq_some_iff_getElem]
    refine ⟨by simp; omega, ?_, ?_⟩
    · rw [List.getElem_reverse]
      have e3 : cases.length - 1 - (cases.length - 1 - i) = i := by omega
      simp only [e3, hi']
      simp
    · intro k hk
      rw [List.getElem_reverse]
      have := h (cases.length - 1 - k) cases[cases.length - 1 - k] (by omega)
        (List.getElem?_eq_getElem (by omega))
      simpa using this

/-- `Variant<Foo<bool>, Foo<std::string>>`: a value of the first case is read as one of the second. -/
theorem instance_is_mistaken (s : Str) (a b : Ty) :
    caseFor [.app (.declared .template s) [a] 0, .app (.declared .template s) [b] 0]
      (zname (.app (.declared .template s) [a] 0)) = some 1 := by
  simp [caseFor, zname, List.findIdx?_cons]

/-! ## Examples -/

/-- An environment with a structure `Foo`, a template `Tmp` and an enumeration `E`. -/
def env : Str → Option Kind := fun s =>
  if s = "Foo".toList then some .struct else if s = "Tmp".toList then some .template
  else if s = "E".toList then some .enum else none

/-- `std::map<E, Tmp<std::array<Foo, 12>>>` -/
def sample : Ty :=
  .app (.builtin 20) [.app (.declared .enum "E".toList) [] 0,
    .app (.declared .template "Tmp".toList) [.app (.builtin array) [.app (.declared .struct "Foo".toList) [] 0] 12] 0] 0

theorem sample_ok : TyOk env sample := by
  have h1 : HeadOk env (.declared .enum "E".toList) :=
    ⟨by decide, ⟨⟨'E', [], by decide, by decide⟩, by decide⟩, by decide⟩
  have h2 : HeadOk env (.declared .template "Tmp".toList) :=
    ⟨by decide, ⟨⟨'T', ['m', 'p'], by decide, by decide⟩, by decide⟩, by decide⟩
  have h3 : HeadOk env (.declared .struct "Foo".toList) :=
    ⟨by decide, ⟨⟨'F', ['o', 'o'], by decide, by decide⟩, by decide⟩, by decide⟩
  exact ⟨trivial, by decide, fun _ => rfl, ⟨h1, by decide, fun _ => rfl, trivial⟩,
    ⟨h2, by decide, fun _ => rfl, ⟨trivial, by decide, fun h => absurd rfl h,
      ⟨h3, by decide, fun _ => rfl, trivial⟩, trivial⟩, trivial⟩, trivial⟩

theorem sample_names : cpp sample = "std::map<E, Tmp<std::array<Foo, 12>>>".toList ∧
    ident sample = "Map_E_Tmp_T_Array_Foo_12".toList ∧ zname sample = "std::map<E, Tmp_Z>".toList := by
  refine ⟨?_, ?_, ?_⟩ <;> decide +kernel

end Current.TypeName
