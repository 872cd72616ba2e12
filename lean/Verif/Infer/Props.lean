import Verif.Infer.Table
/-! Consequences, cases meeting the hypotheses, and what the hypotheses are there for. -/
namespace Current.Infer
open Current.Persist (Str dec)
open Current.Json (J Ty Fmt find des parseDoc)

/-! ### What is ignored -/

/-- Nothing is (`DoNotTrackPath`). -/
theorem blind_all : Blind (fun _ => true) := fun _ _ _ => rfl

/-- `TrackPath` with a list of paths none of which goes through an array (`TrackPathIgnoreList`, `infer.h:56-64`). -/
theorem blind_ignoreList (l : List Str) (h : ∀ x ∈ l, '[' ∉ x) : Blind (fun p => decide (p ∉ l)) := by
  intro p i q
  have key : ∀ i, element p i ++ q ∉ l := by
    intro i hi
    refine h _ hi ?_
    simp [element]
  simp only [key i, key 0]

/-! ### Documents without empty arrays -/

mutual
def NoEmptyArrays : J → Prop
  | .arr l => l ≠ [] ∧ NoEmptyElements l
  | .obj m => NoEmptyMembers m
  | _ => True
def NoEmptyElements : List J → Prop
  | [] => True
  | v :: l => NoEmptyArrays v ∧ NoEmptyElements l
def NoEmptyMembers : List (Str × J) → Prop
  | [] => True
  | (_, v) :: m => NoEmptyArrays v ∧ NoEmptyMembers m
end

theorem noEmptyElements_mem : ∀ (l : List J), NoEmptyElements l → ∀ v ∈ l, NoEmptyArrays v
  | [], _, _, h => by simp at h
  | w :: l, hd, v, h => by
    simp only [NoEmptyElements] at hd
    rcases List.mem_cons.1 h with h | h
    · rw [h]
      exact hd.1
    · exact noEmptyElements_mem l hd.2 v h

theorem noEmptyMembers_find : ∀ (m : List (Str × J)), NoEmptyMembers m → ∀ k v, find k m = some v → NoEmptyArrays v
  | [], _, _, _, h => nomatch h
  | (k', w) :: m, hd, k, v, h => by
    simp only [NoEmptyMembers] at hd
    simp only [find] at h
    split at h
    · simp only [Option.some.injEq] at h
      rw [← h]
      exact hd.1
    · exact noEmptyMembers_find m hd.2 k v h

theorem noEmptyArrays_at (q : List Seg) : ∀ vs : List J, (∀ v ∈ vs, NoEmptyArrays v) → ∀ v ∈ rawAt q vs, NoEmptyArrays v := by
  induction q with
  | nil => exact fun vs h => h
  | cons g q ih =>
    intro vs h
    refine ih _ fun v hv => ?_
    cases g with
    | field k =>
      obtain ⟨w, hw, hf⟩ := List.mem_filterMap.1 hv
      cases w with
      | obj m =>
        have := h _ hw
        simp only [NoEmptyArrays] at this
        exact noEmptyMembers_find m this k v hf
      | _ => exact nomatch hf
    | element =>
      obtain ⟨w, hw, hf⟩ := List.mem_flatMap.1 hv
      cases w with
      | arr l =>
        have := h _ hw
        simp only [NoEmptyArrays] at this
        exact noEmptyElements_mem l this.2 v hf
      | _ => exact nomatch hf

theorem emptyArraysAgree_of_none (vs : List J) (h : ∀ v ∈ vs, NoEmptyArrays v) : EmptyArraysAgree vs := by
  intro q hq
  have := noEmptyArrays_at q vs h _ hq
  simp only [NoEmptyArrays] at this
  exact absurd rfl this.1

/-- **From documents to documents**: without empty arrays and underscores, with an element other than null wherever there are
arrays, whatever inference accepts gives a header which compiles, and whose type parses all the documents. -/
theorem inference_sound (keep : Str → Bool) (hb : Blind keep) (js : List J) (s : S) (top : Str) (e : Current.Json.Env) (f : Fmt)
    (hf : f ≠ .fSharp) (hd : ∀ j ∈ js, DistinctKeys j) (he : ∀ j ∈ js, NoEmptyArrays j) (hu : NoUnderscores js)
    (hk : ElementsKnown js) (hn : ∃ j ∈ js, j ≠ .null) (h : inferFile keep js = .ok (some s)) :
    ∃ T, compile top s = some T ∧ ∀ j ∈ js, ∀ d, ∃ x, parseDoc e f T j d = .ok x := by
  obtain ⟨T, hT⟩ := header_compiles keep hb js s top hd h hu hk hn
  exact ⟨T, hT, inferred_type_parses keep hb js s top T e f hf hd (emptyArraysAgree_of_none js he) h hT⟩

/-! ### Examples -/

def all : Str → Bool := fun _ => true
def kA : Str := ['a']
def kB : Str := ['b']
def kX : Str := ['x']
def kAB : Str := ['a', '_', 'b']
def kTop : Str := ['S']

/-- `{"a":1,"b":["x"]}`, `{"a":-2,"b":["y",null]}`, `{"b":["x"]}`. -/
def exFile : List J :=
  [.obj [(kA, .int 1), (kB, .arr [.str kX])], .obj [(kA, .int (-2)), (kB, .arr [.str ['y'], .null])],
   .obj [(kB, .arr [.str kX])]]

/-- `struct S_Object { Optional<int64_t> a; std::vector<Optional<std::string>> b; }`, `using S = S_Object;`. -/
theorem example_inferred : ∃ s, inferFile all exFile = .ok (some s) ∧
    compile kTop s = some (.struct (kTop ++ kObject) .nil
      (.cons kA 0 (.opt (.int 64)) (.cons kB 0 (.vec (.opt .str)) .nil))) := ⟨_, rfl, rfl⟩

theorem example_distinct : ∀ j ∈ exFile, DistinctKeys j := by
  simp [exFile, DistinctKeys, DistinctMembers, DistinctElements, kA, kB]

theorem example_noEmpty : ∀ j ∈ exFile, NoEmptyArrays j := by
  simp [exFile, NoEmptyArrays, NoEmptyMembers, NoEmptyElements]

/-- The hypotheses of `inferred_type_parses` are met by a file with empty arrays too: `{"b":["x"]}`, `{"b":[]}`. -/
def exEmpty : List J := [.obj [(kB, .arr [.str kX])], .obj [(kB, .arr [])]]

theorem raw_nil (q : List Seg) : rawAt q [] = [] := by
  induction q with
  | nil => rfl
  | cons g q ih =>
    cases g with
    | field k => exact ih
    | element => exact ih

theorem example_emptyArraysAgree : EmptyArraysAgree exEmpty := by
  intro q hq
  cases q with
  | nil => simp [exEmpty, rawAt] at hq
  | cons g q =>
    cases g with
    | element =>
      have : rawAt (.element :: q) exEmpty = rawAt q [] := rfl
      rw [this, raw_nil] at hq
      simp at hq
    | field k =>
      by_cases hk : kB = k
      · have e : rawAt (.field k :: q) exEmpty = rawAt q [.arr [.str kX], .arr []] := by
          simp [rawAt, rawStep, exEmpty, find, hk]
        rw [e] at hq ⊢
        cases q with
        | nil => simp [rawAt]
        | cons g q =>
          cases g with
          | field k' =>
            have : rawAt (.field k' :: q) [.arr [.str kX], .arr []] = rawAt q [] := rfl
            rw [this, raw_nil] at hq
            simp at hq
          | element =>
            have e : rawAt (.element :: q) [.arr [.str kX], .arr []] = rawAt q [.str kX] := rfl
            rw [e] at hq
            cases q with
            | nil => simp [rawAt] at hq
            | cons g q =>
              have : rawAt (g :: q) [.str kX] = rawAt q [] := by
                cases g <;> rfl
              rw [this, raw_nil] at hq
              simp at hq
      · have e : rawAt (.field k :: q) exEmpty = rawAt q [] := by
          simp [rawAt, rawStep, exEmpty, find, hk]
        rw [e, raw_nil] at hq
        simp at hq

theorem example_empty_inferred : ∃ s, inferFile all exEmpty = .ok (some s) ∧
    compile kTop s = some (.struct (kTop ++ kObject) .nil (.cons kB 0 (.opt (.vec .str)) .nil)) := ⟨_, rfl, rfl⟩

/-! ### What goes wrong -/

/-- An empty array where there are other things as well is taken for a missing field, and the type inferred does not parse it:
`{"a":1}`, `{"a":[]}`. -/
theorem empty_array_not_parsed : ∃ s T, inferFile all [.obj [(kA, .int 1)], .obj [(kA, .arr [])]] = .ok (some s) ∧
    compile kTop s = some T ∧ ∀ e d, parseDoc e .current T (.obj [(kA, .arr [])]) d = .error .schema := by
  refine ⟨_, _, rfl, rfl, fun e d => ?_⟩
  simp only [parseDoc, des]
  rfl

/-- Nulls only in an array: `std::vector<>`. The exception meant for it (`InferSchemaArrayOfNullsOrEmptyArraysIsNotAllowed`) is not
thrown. -/
theorem nulls_only_do_not_compile : ∃ s, inferFile all [.obj [(kA, .arr [.null])]] = .ok (some s) ∧ compile kTop s = none :=
  ⟨_, rfl, rfl⟩

/-- Two structs of one name: `{"a":{"b":{}},"a_b":{}}`. -/
theorem names_collide : ∃ s, inferFile all [.obj [(kA, .obj [(kB, .obj [])]), (kAB, .obj [])]] = .ok (some s) ∧
    compile kTop s = none := ⟨_, rfl, rfl⟩

/-- Two fields of one name: `{"a":1,"a":2}`. -/
theorem duplicate_keys_do_not_compile : ∃ s, inferFile all [.obj [(kA, .int 1), (kA, .int 2)]] = .ok (some s) ∧
    compile kTop s = none := ⟨_, rfl, rfl⟩

/-- Reserved words are taken for identifiers: `int`. -/
theorem keyword_accepted : isValidIdentifier ['i', 'n', 't'] = true := rfl

/-- Ignoring a field of one element of an array only: `[{"a":"x"},{"a":1}]` without `[0].a`. -/
theorem ignored_by_index_not_parsed :
    ∃ s T, inferFile (fun p => decide (p ≠ ['[', '0', ']', '.', 'a'])) [.arr [.obj [(kA, .str kX)], .obj [(kA, .int 1)]]] = .ok (some s) ∧
      compile kTop s = some T ∧
      ∀ e d, parseDoc e .current T (.arr [.obj [(kA, .str kX)], .obj [(kA, .int 1)]]) d = .error .schema := by
  refine ⟨_, _, rfl, rfl, fun e d => ?_⟩
  simp only [parseDoc, des]
  cases d <;> rfl

/-- The number of unset values depends on the order: a field first seen in the third line has been missing once, a field not seen
after the first has been missing twice. -/
theorem unset_depends_on_order :
    (∃ s, inferFile all [.obj [], .obj [], .obj [(kA, .int 1)]] = .ok (some s) ∧
      schemaAt [.field kA] s = some (.int 1 true false 1 1)) ∧
    (∃ s, inferFile all [.obj [(kA, .int 1)], .obj [], .obj []] = .ok (some s) ∧
      schemaAt [.field kA] s = some (.int 1 true false 1 2)) := ⟨⟨_, rfl, rfl⟩, ⟨_, rfl, rfl⟩⟩

/-- Nothing is inferred from no lines: the `Variant` returned holds nothing. -/
theorem empty_file : inferFile all [] = .ok none := rfl

end Current.Infer
