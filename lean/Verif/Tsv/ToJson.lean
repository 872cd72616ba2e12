import Verif.Strings.Split
import Verif.Persist.Codec

set_option linter.unusedSimpArgs false
set_option linter.unusedVariables false

/-! # `tsv2json` (`utils/json_schema/tsv2json.cc`) -/

namespace Current.TsvToJson
open Current.Persist Current.Strings

/-! ### Names of columns -/

def letter (d : Nat) : Char := Char.ofNat (65 + d)

/-- `ExcelColName`, `tsv2json.cc:41-47`. -/
def excel (i : Nat) : Str :=
  if h : i < 26 then [letter i] else excel (i / 26 - 1) ++ [letter (i % 26)]
termination_by i
decreasing_by omega

/-- The number of a column by its name as spreadsheets have it: `A` is 1, `Z` is 26, `AA` is 27. -/
def colNumber (s : Str) : Nat := s.foldl (fun a c => a * 26 + (c.toNat - 64)) 0

theorem letter_toNat (d : Nat) (h : d < 26) : (letter d).toNat = 65 + d := by
  unfold letter
  have : (65 + d).isValidChar := Or.inl (by omega)
  simp [Char.ofNat, this, Char.toNat, Char.ofNatAux]
  omega

/-- C138 (a): the column with index `i` has the name which spreadsheets have for number `i + 1`, of letters only; and each name of letters is that of a column. -/
theorem excel_right (i : Nat) : colNumber (excel i) = i + 1 ∧ excel i ≠ [] ∧ ∀ c ∈ excel i, 'A' ≤ c ∧ c ≤ 'Z' := by
  have hl : ∀ d, d < 26 → 'A' ≤ letter d ∧ letter d ≤ 'Z' := by decide
  induction i using Nat.strongRecOn with
  | _ i ih =>
    unfold excel
    by_cases h : i < 26
    · rw [dif_pos h]
      refine ⟨?_, by simp, by intro c hc; simp at hc; subst hc; exact hl i h⟩
      simp [colNumber, letter_toNat i h]; omega
    · rw [dif_neg h]
      obtain ⟨h1, h2, h3⟩ := ih (i / 26 - 1) (by omega)
      have hm : i % 26 < 26 := Nat.mod_lt _ (by omega)
      refine ⟨?_, by simp, ?_⟩
      · unfold colNumber at h1 ⊢
        rw [List.foldl_append, h1]
        simp [letter_toNat _ hm]
        omega
      · intro c hc
        rw [List.mem_append] at hc
        rcases hc with hc | hc
        · exact h3 c hc
        · simp at hc; subst hc; exact hl _ hm

theorem excel_injective (i j : Nat) (h : excel i = excel j) : i = j := by
  have := congrArg colNumber h
  rw [(excel_right i).1, (excel_right j).1] at this
  omega

example : (excel 0, excel 25, excel 26, excel 701, excel 702) = ("A".toList, "Z".toList, "AA".toList, "ZZ".toList, "AAA".toList) := by
  simp [excel, letter]

/-! ### Identifiers -/

def alpha (c : Char) : Bool := c.isAlpha
def alnum (c : Char) : Bool := c.isAlphanum

def hexDigit (d : Nat) : Char := if d < 10 then Char.ofNat (48 + d) else Char.ofNat (55 + d)

/-- One character in an identifier: `%02X` for what is not a letter or a digit. Characters are bytes; `std::isalnum` of a negative `char` is undefined and taken to be false. -/
def encode (c : Char) : Str := if alnum c then [c] else 'x' :: [hexDigit (c.toNat / 16 % 16), hexDigit (c.toNat % 16)]

/-- `MakeValidIdentifier`, `tsv2json.cc:49-63`. -/
def identifier (s : Str) : Str :=
  if s = [] then ['_']
  else
    let r := (s.map encode).flatten
    match r with
    | c :: _ => if alpha c then r else '_' :: r
    | [] => r

theorem hexDigit_alnum (d : Nat) (h : d < 16) : alnum (hexDigit d) = true := by
  have : ∀ d, d < 16 → alnum (hexDigit d) = true := by decide
  exact this d h

theorem encode_alnum (c : Char) : encode c ≠ [] ∧ ∀ x ∈ encode c, alnum x = true := by
  unfold encode
  split
  · rename_i h; exact ⟨by simp, by intro x hx; simp at hx; subst hx; exact h⟩
  · refine ⟨by simp, ?_⟩
    intro x hx
    simp only [List.mem_cons, List.not_mem_nil, or_false] at hx
    rcases hx with rfl | rfl | rfl
    · decide
    · exact hexDigit_alnum _ (Nat.mod_lt _ (by omega))
    · exact hexDigit_alnum _ (Nat.mod_lt _ (by omega))

/-- C138 (b): what comes out is an identifier: a letter or an underscore, then letters and digits. -/
theorem identifier_valid (s : Str) : ∃ c rest, identifier s = c :: rest ∧ (alpha c = true ∨ c = '_') ∧ ∀ x ∈ rest, alnum x = true := by
  unfold identifier
  split
  · exact ⟨'_', [], rfl, Or.inr rfl, by simp⟩
  · rename_i hs
    have hall : ∀ x ∈ (s.map encode).flatten, alnum x = true := by
      intro x hx
      simp only [List.mem_flatten, List.mem_map] at hx
      obtain ⟨l, ⟨c, _, rfl⟩, hx⟩ := hx
      exact (encode_alnum c).2 x hx
    simp only
    cases hr : (s.map encode).flatten with
    | nil =>
      exfalso
      cases s with
      | nil => exact hs rfl
      | cons c s =>
        simp at hr
        exact (encode_alnum c).1 hr.1
    | cons c r =>
      rw [hr] at hall
      simp only
      split
      · rename_i ha; exact ⟨c, r, rfl, Or.inl ha, fun x hx => hall x (by simp [hx])⟩
      · exact ⟨'_', c :: r, rfl, Or.inr rfl, hall⟩

/-- A text which is an identifier of letters and digits is kept. -/
theorem identifier_keeps (c : Char) (s : Str) (hc : alpha c = true) (h : ∀ x ∈ c :: s, alnum x = true) : identifier (c :: s) = c :: s := by
  have : ∀ l : Str, (∀ x ∈ l, alnum x = true) → (l.map encode).flatten = l := by
    intro l
    induction l with
    | nil => intro _; rfl
    | cons x l ih =>
      intro hl
      simp only [List.map_cons, List.flatten_cons, ih (fun y hy => hl y (by simp [hy]))]
      simp [encode, hl x (by simp)]
  unfold identifier
  rw [if_neg (by simp), this _ h]
  simp [hc]

/-- Different texts may have one identifier. -/
theorem identifier_collides : identifier " ".toList = identifier "x20".toList := by decide

/-- The names of the header, `tsv2json.cc:86-95`: with the number if it is not the first. -/
def headerGo (seen : List Str) : List Str → List Str
  | [] => []
  | f :: fs =>
    let key := identifier f
    let n := seen.count key + 1
    (if n > 1 then key ++ dec n else key) :: headerGo (key :: seen) fs

def headerNames (fields : List Str) : List Str := headerGo [] fields

theorem headerGo_get (fs : List Str) : ∀ seen (j : Nat) (f : Str), fs[j]? = some f →
    (headerGo seen fs)[j]? = some (let n := (((fs.take (j + 1)).map identifier).count (identifier f) + seen.count (identifier f)); if n > 1 then identifier f ++ dec n else identifier f) := by
  induction fs with
  | nil => intro seen j f h; simp at h
  | cons g fs ih =>
    intro seen j f h
    cases j with
    | zero =>
      simp at h; subst h
      simp [headerGo, Nat.add_comm]
      rfl
    | succ j =>
      simp only [List.getElem?_cons_succ] at h
      simp only [headerGo, List.getElem?_cons_succ, ih _ j f h]
      have : List.count (identifier f) (List.map identifier (List.take (j + 1) fs)) + List.count (identifier f) (identifier g :: seen) =
          List.count (identifier f) (List.map identifier (List.take (j + 1 + 1) (g :: fs))) + List.count (identifier f) seen := by
        simp only [List.take_succ_cons, List.map_cons, List.count_cons]
        omega
      rw [this]

/-- C138 (c): the name of a column is its identifier, with the number of the columns which have it so far if there are others. -/
theorem headerNames_get (fs : List Str) (j : Nat) (f : Str) (h : fs[j]? = some f) : (headerNames fs)[j]? = some (
    let n := ((fs.take (j + 1)).map identifier).count (identifier f)
    if n > 1 then identifier f ++ dec n else identifier f) := by
  have := headerGo_get fs [] j f h
  simpa [headerNames] using this

/-- Names may be the same. -/
theorem header_collides : headerNames ["X".toList, "X".toList, "X2".toList] = ["X".toList, "X2".toList, "X2".toList] := by decide

/-- A text which does not end with a digit, followed by a number: both can be told. -/
theorem split_number (a b : Str) (x y : Str) (ha : ∀ c, a.getLast? = some c → c.isDigit = false) (hb : ∀ c, b.getLast? = some c → c.isDigit = false)
    (hx : ∀ c ∈ x, c.isDigit = true) (hy : ∀ c ∈ y, c.isDigit = true) (h : a ++ x = b ++ y) : a = b ∧ x = y := by
  have key : ∀ (a b x y : Str), (∀ c, a.getLast? = some c → c.isDigit = false) → (∀ c ∈ y, c.isDigit = true) → a ++ x = b ++ y → y.length ≤ x.length := by
    intro a b x y ha hy h
    apply Nat.le_of_not_lt
    intro hlt
    have hlen := congrArg List.length h
    simp only [List.length_append] at hlen
    cases hl : a.getLast? with
    | none => rw [List.getLast?_eq_none_iff] at hl; subst hl; simp at hlen; omega
    | some c =>
      have hd := ha c hl
      rw [List.getLast?_eq_getElem?] at hl
      have hne : 0 < a.length := by
        apply Nat.pos_of_ne_zero; intro h0
        rw [List.length_eq_zero_iff] at h0; subst h0; simp at hl
      have e1 : (a ++ x)[a.length - 1]? = some c := by rw [List.getElem?_append_left (by omega)]; exact hl
      rw [h, List.getElem?_append_right (by omega)] at e1
      have := hy c (List.mem_of_getElem? e1)
      rw [hd] at this; cases this
  have h1 := key a b x y ha hy h
  have h2 := key b a y x hb hx h.symm
  exact List.append_inj' h (by omega)

theorem dec_injective (m n : Nat) (h : dec m = dec n) : m = n := by
  have h1 := readNat_dec m [] (by simp)
  have h2 := readNat_dec n [] (by simp)
  rw [h, h2] at h1
  simpa using h1.symm

/-- C138 (d): the names are different if no identifier ends with a digit. -/
theorem headerNames_distinct_partial (fs : List Str) (hd : ∀ f ∈ fs, ∀ c, (identifier f).getLast? = some c → c.isDigit = false) (i j : Nat) (x : Str) (hi : (headerNames fs)[i]? = some x) (hj : (headerNames fs)[j]? = some x) : i = j := by
  have hlen : ∀ seen fs, (headerGo seen fs).length = fs.length := by
    intro seen fs
    induction fs generalizing seen with
    | nil => rfl
    | cons f fs ih => simp [headerGo, ih]
  have hget : ∀ (i : Nat) (x : Str), (headerNames fs)[i]? = some x → ∃ f, fs[i]? = some f := by
    intro i x h
    have := (List.getElem?_eq_some_iff.1 h).1
    rw [headerNames, hlen] at this
    exact ⟨fs[i], by simp [this]⟩
  obtain ⟨f, hf⟩ := hget i x hi
  obtain ⟨g, hg⟩ := hget j x hj
  rw [headerNames_get fs i f hf] at hi
  rw [headerNames_get fs j g hg] at hj
  have hfd := hd f (List.mem_of_getElem? hf)
  have hgd := hd g (List.mem_of_getElem? hg)
  -- the text before the number, and the number
  have hcount : ∀ (i : Nat) (f : Str), fs[i]? = some f → 1 ≤ ((fs.take (i + 1)).map identifier).count (identifier f) := by
    intro i f h
    apply List.one_le_count_iff.2
    apply List.mem_map_of_mem
    rw [List.mem_iff_getElem?]
    exact ⟨i, by rw [List.getElem?_take, if_pos (by omega)]; exact h⟩
  have hci := hcount i f hf
  have hcj := hcount j g hg
  have hsplit : ∀ (k : Str) (n : Nat), (if n > 1 then k ++ dec n else k) = k ++ (if n > 1 then dec n else []) := by
    intro k n; split <;> simp
  simp only [Option.some.injEq] at hi hj
  rw [hsplit] at hi hj
  have hdig : ∀ (n : Nat) (c : Char), c ∈ (if n > 1 then dec n else []) → c.isDigit = true := by
    intro n c hc
    split at hc
    · exact dec_isDigit hc
    · simp at hc
  obtain ⟨e1, e2⟩ := split_number _ _ _ _ hfd hgd (hdig _) (hdig _) (hi.trans hj.symm)
  have e3 : ((fs.take (i + 1)).map identifier).count (identifier f) = ((fs.take (j + 1)).map identifier).count (identifier g) := by
    generalize ((fs.take (i + 1)).map identifier).count (identifier f) = m at *
    generalize ((fs.take (j + 1)).map identifier).count (identifier g) = n at *
    by_cases hm : m > 1
    · by_cases hn : n > 1
      · rw [if_pos hm, if_pos hn] at e2; exact dec_injective _ _ e2
      · rw [if_pos hm, if_neg hn] at e2; exact absurd e2 (dec_ne_nil _)
    · by_cases hn : n > 1
      · rw [if_neg hm, if_pos hn] at e2; exact absurd e2.symm (dec_ne_nil _)
      · omega
  rw [← e1] at e3
  -- the number goes up
  have hmono : ∀ (i j : Nat) (g : Str), i < j → fs[j]? = some g → identifier g = identifier f → ((fs.take (i + 1)).map identifier).count (identifier f) < ((fs.take (j + 1)).map identifier).count (identifier f) := by
    intro i j g hij hg he
    have h1 : fs.take (j + 1) = fs.take j ++ [g] := by rw [List.take_add_one, hg]; rfl
    rw [h1, List.map_append, List.count_append]
    have h2 : ((fs.take (i + 1)).map identifier).count (identifier f) ≤ ((fs.take j).map identifier).count (identifier f) := by
      apply List.Sublist.count_le
      apply List.Sublist.map
      have : fs.take (i + 1) = (fs.take j).take (i + 1) := by rw [List.take_take, Nat.min_eq_left (by omega)]
      rw [this]
      exact List.take_sublist _ _
    have h3 : ([g].map identifier).count (identifier f) = 1 := by simp [he]
    omega
  rcases Nat.lt_trichotomy i j with h | h | h
  · have := hmono i j g h hg e1.symm; omega
  · exact h
  · have := hmono j i f h hf rfl; omega

/-! ### The program -/

structure Flags where
  header : Bool
  separator : Str
  requireDense : Bool
  na : List Str

/-- A value of the result. Numbers are those of `ParseJSON`, which is any function. -/
inductive Cell (D : Type) | null | str (s : Str) | int (i : Int) | dbl (d : D)

/-- How the parts of the program end: with a value, with the exception of `ParseJSON`, or with an index out of range. -/
inductive R (α : Type) | ok (a : α) | exn | undefined

structure Parse (D : Type) where
  int : Str → Option Int
  dbl : Str → Option D

/-- The rows, `tsv2json.cc:81-101`: empty lines are skipped. -/
def rowsOf (fl : Flags) (lines : List Str) : List (List Str) := (lines.filter (· ≠ [])).map (fun l => (split (matchString fl.separator) true l).1)

/-- The names from the header and the other rows. -/
def table (fl : Flags) (lines : List Str) : List Str × List (List Str) :=
  match fl.header, rowsOf fl lines with
  | true, h :: rows => (headerNames h, rows)
  | _, rows => ([], rows)

/-- `tsv2json.cc:105-114`: the number of columns; `none`: it exits since a row has another number. -/
def columns (requireDense : Bool) : Nat → List (List Str) → Option Nat
  | n, [] => some n
  | n, r :: rows => if n ≠ 0 ∧ n ≠ r.length ∧ requireDense then none else columns requireDense (max n r.length) rows

/-- The numbers of a column, `tsv2json.cc:130-145` and `149-167`: `output[i][j]` comes before `output[i].size() > j`. The values which are not there are not pushed. -/
def numbers {α : Type} (na : List Str) (parse : Str → Option α) (j : Nat) : List (List Str) → R (List α)
  | [] => .ok []
  | r :: rows =>
    match r[j]? with
    | none => .undefined
    | some v =>
      if v ∈ na then numbers na parse j rows
      else
        match parse v with
        | none => .exn
        | some x =>
          match numbers na parse j rows with
          | .ok xs => .ok (x :: xs)
          | .exn => .exn
          | .undefined => .undefined

inductive Column (D : Type) | str | int (xs : List Int) | dbl (xs : List D)

def column {D : Type} (p : Parse D) (na : List Str) (rows : List (List Str)) (j : Nat) : Option (Column D) :=
  match numbers na p.int j rows with
  | .undefined => none
  | .ok xs => some (.int xs)
  | .exn =>
    match numbers na p.dbl j rows with
    | .undefined => none
    | .ok xs => some (.dbl xs)
    | .exn => some .str

/-- A value of row `i`, `tsv2json.cc:180-200`. -/
def cell {D : Type} (na : List Str) (c : Column D) (i : Nat) (v : Str) : Option (Cell D) :=
  if v ∈ na then some .null
  else
    match c with
    | .str => some (.str v)
    | .int xs => xs[i]?.map .int
    | .dbl xs => xs[i]?.map .dbl

/-- The value at a place. All columns are gone over before any output is made. -/
def at_ {D : Type} (p : Parse D) (na : List Str) (rows : List (List Str)) (i j : Nat) (v : Str) : Option (Cell D) :=
  match column p na rows j with
  | none => none
  | some c => cell na c i v

/-- The values, by name. -/
def convertRow {D : Type} (p : Parse D) (na : List Str) (names : List Str) (rows : List (List Str)) (i : Nat) : Nat → List Str → Option (List (Str × Cell D))
  | _, [] => some []
  | j, v :: vs =>
    match names[j]?, at_ p na rows i j v, convertRow p na names rows i (j + 1) vs with
    | some n, some x, some xs => some ((n, x) :: xs)
    | _, _, _ => none

def convertRows {D : Type} (p : Parse D) (na : List Str) (names : List Str) (all : List (List Str)) : Nat → List (List Str) → Option (List (List (Str × Cell D)))
  | _, [] => some []
  | i, r :: rows =>
    match convertRow p na names all i 0 r, convertRows p na names all (i + 1) rows with
    | some x, some xs => some (x :: xs)
    | _, _ => none

inductive Outcome (D : Type) | exit | undefined | printed (rows : List (List (Str × Cell D)))

/-- `main`, `tsv2json.cc:65-204`. -/
def main_ {D : Type} (p : Parse D) (fl : Flags) (lines : List Str) : Outcome D :=
  let (names, rows) := table fl lines
  match columns fl.requireDense names.length rows with
  | none => .exit
  | some n =>
    let names := names ++ (List.range' names.length (n - names.length)).map excel
    if (List.range n).all (fun j => (column p fl.na rows j).isSome) then
      match convertRows p fl.na names rows 0 rows with
      | some out => .printed out
      | none => .undefined
    else .undefined

/-! ### What it should do -/

/-- Of a column all values which are there are numbers. -/
def AllParse {α : Type} (na : List Str) (parse : Str → Option α) (rows : List (List Str)) (j : Nat) : Prop :=
  ∀ r ∈ rows, ∀ v, r[j]? = some v → v ∉ na → (parse v).isSome

/-- The value of the result for a value of the input. -/
def Right {D : Type} (p : Parse D) (na : List Str) (rows : List (List Str)) (j : Nat) (v : Str) (x : Cell D) : Prop :=
  (v ∈ na → x = .null) ∧
  (v ∉ na → AllParse na p.int rows j → (p.int v).map .int = some x) ∧
  (v ∉ na → ¬ AllParse na p.int rows j → AllParse na p.dbl rows j → (p.dbl v).map .dbl = some x) ∧
  (v ∉ na → ¬ AllParse na p.int rows j → ¬ AllParse na p.dbl rows j → x = .str v)

/-- No value of the column is missing. -/
def Full (na : List Str) (rows : List (List Str)) (j : Nat) : Prop := ∀ r ∈ rows, ∀ v, r[j]? = some v → v ∉ na

/-- The values of a column. -/
def colValues (rows : List (List Str)) (j : Nat) : List Str := rows.filterMap (fun r => r[j]?)

theorem numbers_ok {α : Type} (na : List Str) (parse : Str → Option α) (j : Nat) (rows : List (List Str)) (hj : ∀ r ∈ rows, j < r.length) :
    (AllParse na parse rows j → numbers na parse j rows = .ok (((colValues rows j).filter (fun v => decide (v ∉ na))).filterMap parse)) ∧
    (¬ AllParse na parse rows j → numbers na parse j rows = .exn) := by
  induction rows with
  | nil => exact ⟨fun _ => rfl, fun h => absurd (by intro r hr; simp at hr) h⟩
  | cons r rows ih =>
    obtain ⟨ih1, ih2⟩ := ih (fun x hx => hj x (by simp [hx]))
    have hl := hj r (by simp)
    obtain ⟨v, hv⟩ : ∃ v, r[j]? = some v := ⟨r[j], by simp [hl]⟩
    have hcons : AllParse na parse (r :: rows) j ↔ (v ∉ na → (parse v).isSome) ∧ AllParse na parse rows j := by
      unfold AllParse
      constructor
      · intro h; exact ⟨h r (by simp) v hv, fun x hx => h x (by simp [hx])⟩
      · rintro ⟨h1, h2⟩ x hx w hw hn
        rw [List.mem_cons] at hx
        rcases hx with rfl | hx
        · rw [hv] at hw; cases hw; exact h1 hn
        · exact h2 x hx w hw hn
    have hcol : colValues (r :: rows) j = v :: colValues rows j := by simp [colValues, hv]
    simp only [numbers, hv, hcol]
    by_cases hna : v ∈ na
    · rw [if_pos hna]
      have : AllParse na parse (r :: rows) j ↔ AllParse na parse rows j := by rw [hcons]; simp [hna]
      rw [this]
      simp only [List.filter_cons, hna, not_true_eq_false, decide_false, Bool.false_eq_true, if_false]
      exact ⟨ih1, ih2⟩
    · rw [if_neg hna]
      simp only [List.filter_cons, hna, not_false_eq_true, decide_true, if_true]
      cases hp : parse v with
      | none =>
        simp only
        refine ⟨fun h => ?_, fun _ => trivial⟩
        have := (hcons.1 h).1 hna
        rw [hp] at this; cases this
      | some x =>
        simp only [List.filterMap_cons, hp]
        have : AllParse na parse (r :: rows) j ↔ AllParse na parse rows j := by rw [hcons]; simp [hp]
        rw [this]
        refine ⟨fun h => by rw [ih1 h], fun h => by rw [ih2 h]⟩

/-- What a number is in the place of a value: the one at its row among the values which are there. -/
theorem column_number {D : Type} (p : Parse D) (na : List Str) (rows : List (List Str)) (j : Nat) (hj : ∀ r ∈ rows, j < r.length) :
    (AllParse na p.int rows j → column p na rows j = some (.int (((colValues rows j).filter (fun v => decide (v ∉ na))).filterMap p.int))) ∧
    (¬ AllParse na p.int rows j → AllParse na p.dbl rows j → column p na rows j = some (.dbl (((colValues rows j).filter (fun v => decide (v ∉ na))).filterMap p.dbl))) ∧
    (¬ AllParse na p.int rows j → ¬ AllParse na p.dbl rows j → column p na rows j = some .str) := by
  obtain ⟨i1, i2⟩ := numbers_ok na p.int j rows hj
  obtain ⟨d1, d2⟩ := numbers_ok na p.dbl j rows hj
  refine ⟨fun h => ?_, fun h h' => ?_, fun h h' => ?_⟩
  · simp only [column, i1 h]
  · simp only [column, i2 h, d1 h']
  · simp only [column, i2 h, d2 h']

theorem colValues_get (rows : List (List Str)) (j : Nat) (hj : ∀ r ∈ rows, j < r.length) (i : Nat) (r : List Str) (hr : rows[i]? = some r) : (colValues rows j)[i]? = r[j]? := by
  induction rows generalizing i with
  | nil => simp at hr
  | cons q rows ih =>
    have hl := hj q (by simp)
    have e : colValues (q :: rows) j = q[j] :: colValues rows j := by simp [colValues, hl]
    rw [e]
    cases i with
    | zero => simp at hr; subst hr; simp [hl]
    | succ i => simp only [List.getElem?_cons_succ] at hr ⊢; exact ih (fun x hx => hj x (by simp [hx])) i hr

theorem filterMap_get {α : Type} (f : Str → Option α) (l : List Str) (h : ∀ v ∈ l, (f v).isSome) (i : Nat) : (l.filterMap f)[i]? = l[i]?.bind f := by
  induction l generalizing i with
  | nil => simp
  | cons v l ih =>
    obtain ⟨x, hx⟩ := Option.isSome_iff_exists.1 (h v (by simp))
    simp only [List.filterMap_cons, hx]
    cases i with
    | zero => simp [hx]
    | succ i => simp only [List.getElem?_cons_succ]; exact ih (fun w hw => h w (by simp [hw])) i

/-- C138 (e): with no value missing in a column of numbers each value is what it should be. Missing: columns of numbers with missing values, see `missing_value_is_undefined`. -/
theorem values_right_partial {D : Type} (p : Parse D) (na : List Str) (rows : List (List Str)) (j : Nat) (hj : ∀ r ∈ rows, j < r.length)
    (hfull : AllParse na p.int rows j ∨ AllParse na p.dbl rows j → Full na rows j) (i : Nat) (r : List Str) (v : Str) (hr : rows[i]? = some r) (hv : r[j]? = some v) :
    ∃ x, at_ p na rows i j v = some x ∧ Right p na rows j v x := by
  obtain ⟨c1, c2, c3⟩ := column_number p na rows j hj
  have hmem : r ∈ rows := List.mem_of_getElem? hr
  have hcol := colValues_get rows j hj i r hr
  have hall : Full na rows j → (colValues rows j).filter (fun v => decide (v ∉ na)) = colValues rows j := by
    intro hf
    rw [List.filter_eq_self]
    intro w hw
    simp only [colValues, List.mem_filterMap] at hw
    obtain ⟨q, hq, hw⟩ := hw
    simp [hf q hq w hw]
  have hnum : ∀ {α : Type} (parse : Str → Option α), AllParse na parse rows j → Full na rows j → (((colValues rows j).filter (fun v => decide (v ∉ na))).filterMap parse)[i]? = parse v := by
    intro α parse ha hf
    rw [hall hf, filterMap_get, hcol, hv]
    · rfl
    · intro w hw
      simp only [colValues, List.mem_filterMap] at hw
      obtain ⟨q, hq, hw⟩ := hw
      exact ha q hq w hw (hf q hq w hw)
  by_cases hi : AllParse na p.int rows j
  · have hf := hfull (Or.inl hi)
    have hvn := hf r hmem v hv
    obtain ⟨x, hx⟩ := Option.isSome_iff_exists.1 (hi r hmem v hv hvn)
    refine ⟨.int x, ?_, ?_⟩
    · simp only [at_, c1 hi, cell]
      rw [if_neg hvn, hnum _ hi hf, hx]; rfl
    · exact ⟨fun h => absurd h hvn, fun _ _ => by rw [hx]; rfl, fun _ h => absurd hi h, fun _ h => absurd hi h⟩
  · by_cases hd : AllParse na p.dbl rows j
    · have hf := hfull (Or.inr hd)
      have hvn := hf r hmem v hv
      obtain ⟨x, hx⟩ := Option.isSome_iff_exists.1 (hd r hmem v hv hvn)
      refine ⟨.dbl x, ?_, ?_⟩
      · simp only [at_, c2 hi hd, cell]
        rw [if_neg hvn, hnum _ hd hf, hx]; rfl
      · exact ⟨fun h => absurd h hvn, fun _ h => absurd h hi, fun _ _ _ => by rw [hx]; rfl, fun _ _ h => absurd hd h⟩
    · by_cases hvn : v ∈ na
      · refine ⟨.null, ?_, fun _ => rfl, fun h => absurd hvn h, fun h => absurd hvn h, fun h => absurd hvn h⟩
        simp only [at_, c3 hi hd, cell]; rw [if_pos hvn]
      · refine ⟨.str v, ?_, fun h => absurd h hvn, fun _ h => absurd h hi, fun _ _ h => absurd h hd, fun _ _ _ => rfl⟩
        simp only [at_, c3 hi hd, cell]; rw [if_neg hvn]

theorem convertRow_some {D : Type} (p : Parse D) (na names : List Str) (rows : List (List Str)) (i : Nat) (vs : List Str) : ∀ j0 out, convertRow p na names rows i j0 vs = some out →
    out.length = vs.length ∧ ∀ (k : Nat) (v : Str), vs[k]? = some v → ∃ n x, names[j0 + k]? = some n ∧ at_ p na rows i (j0 + k) v = some x ∧ out[k]? = some (n, x) := by
  induction vs with
  | nil => intro j0 out h; simp [convertRow] at h; subst h; simp
  | cons v vs ih =>
    intro j0 out h
    simp only [convertRow] at h
    split at h
    · rename_i n x xs h1 h2 h3
      cases h
      obtain ⟨e1, e2⟩ := ih _ _ h3
      refine ⟨by simp [e1], ?_⟩
      intro k w hk
      cases k with
      | zero => simp at hk; subst hk; exact ⟨n, x, h1, h2, rfl⟩
      | succ k =>
        simp only [List.getElem?_cons_succ] at hk ⊢
        have := e2 k w hk
        rw [show j0 + 1 + k = j0 + (k + 1) by omega] at this
        exact this
    · cases h

theorem convertRow_total {D : Type} (p : Parse D) (na names : List Str) (rows : List (List Str)) (i : Nat) (vs : List Str) : ∀ j0, (∀ (k : Nat) (v : Str), vs[k]? = some v → (names[j0 + k]?).isSome ∧ (at_ p na rows i (j0 + k) v).isSome) →
    ∃ out, convertRow p na names rows i j0 vs = some out := by
  induction vs with
  | nil => intro j0 _; exact ⟨[], rfl⟩
  | cons v vs ih =>
    intro j0 h
    obtain ⟨out, ho⟩ := ih (j0 + 1) (by
      intro k w hk
      have := h (k + 1) w (by simpa using hk)
      rw [show j0 + (k + 1) = j0 + 1 + k by omega] at this
      exact this)
    obtain ⟨h1, h2⟩ := h 0 v rfl
    obtain ⟨n, hn⟩ := Option.isSome_iff_exists.1 h1
    obtain ⟨x, hx⟩ := Option.isSome_iff_exists.1 h2
    simp only [Nat.add_zero] at hn hx
    exact ⟨(n, x) :: out, by simp only [convertRow, hn, hx, ho]⟩

theorem convertRows_some {D : Type} (p : Parse D) (na names : List Str) (all : List (List Str)) (rows : List (List Str)) : ∀ i0 out, convertRows p na names all i0 rows = some out →
    out.length = rows.length ∧ ∀ (k : Nat) (r : List Str), rows[k]? = some r → ∃ o, out[k]? = some o ∧ convertRow p na names all (i0 + k) 0 r = some o := by
  induction rows with
  | nil => intro i0 out h; simp [convertRows] at h; subst h; simp
  | cons r rows ih =>
    intro i0 out h
    simp only [convertRows] at h
    split at h
    · rename_i x xs h1 h2
      cases h
      obtain ⟨e1, e2⟩ := ih _ _ h2
      refine ⟨by simp [e1], ?_⟩
      intro k q hk
      cases k with
      | zero => simp at hk; subst hk; exact ⟨x, rfl, h1⟩
      | succ k =>
        simp only [List.getElem?_cons_succ] at hk ⊢
        have := e2 k q hk
        rw [show i0 + 1 + k = i0 + (k + 1) by omega] at this
        exact this
    · cases h

theorem convertRows_total {D : Type} (p : Parse D) (na names : List Str) (all : List (List Str)) (rows : List (List Str)) : ∀ i0, (∀ (k : Nat) (r : List Str), rows[k]? = some r → ∃ o, convertRow p na names all (i0 + k) 0 r = some o) → ∃ out, convertRows p na names all i0 rows = some out := by
  induction rows with
  | nil => intro i0 _; exact ⟨[], rfl⟩
  | cons r rows ih =>
    intro i0 h
    obtain ⟨out, ho⟩ := ih (i0 + 1) (by
      intro k q hk
      have := h (k + 1) q (by simpa using hk)
      rw [show i0 + (k + 1) = i0 + 1 + k by omega] at this
      exact this)
    obtain ⟨x, hx⟩ := h 0 r rfl
    exact ⟨x :: out, by simp only [convertRows, ho]; rw [show convertRow p na names all i0 0 r = some x from hx]⟩

/-- The names of all columns: those of the header, then those of spreadsheets. -/
def allNames (names : List Str) (n : Nat) : List Str := names ++ (List.range' names.length (n - names.length)).map excel

theorem columns_ge (b : Bool) (rows : List (List Str)) : ∀ m n, columns b m rows = some n → m ≤ n := by
  induction rows with
  | nil => intro m n h; simp [columns] at h; omega
  | cons r rows ih =>
    intro m n h
    simp only [columns] at h
    split at h
    · cases h
    · have := ih _ _ h; omega

/-- C138 (f): for a table with the same number of values in each row and no value missing in a column of numbers, the result has a row for each row and a value for each value, with the name of its column, and it is what it should be. -/
theorem main_right_partial {D : Type} (p : Parse D) (fl : Flags) (lines : List Str) (names : List Str) (rows : List (List Str)) (n : Nat) (ht : table fl lines = (names, rows)) (hc : columns fl.requireDense names.length rows = some n)
    (hn : ∀ r ∈ rows, r.length = n) (hfull : ∀ j < n, AllParse fl.na p.int rows j ∨ AllParse fl.na p.dbl rows j → Full fl.na rows j) :
    ∃ out, main_ p fl lines = .printed out ∧ out.length = rows.length ∧
      ∀ (i j : Nat) (r : List Str) (v : Str), rows[i]? = some r → r[j]? = some v → ∃ o name x, out[i]? = some o ∧ o.length = n ∧ o[j]? = some (name, x) ∧ (allNames names n)[j]? = some name ∧ Right p fl.na rows j v x := by
  have hge := columns_ge _ _ _ _ hc
  have hlen : (allNames names n).length = n := by simp [allNames]; omega
  have hcols : (List.range n).all (fun j => (column p fl.na rows j).isSome) = true := by
    rw [List.all_eq_true]
    intro j hj
    rw [List.mem_range] at hj
    obtain ⟨c1, c2, c3⟩ := column_number p fl.na rows j (fun r hr => by rw [hn r hr]; exact hj)
    by_cases h1 : AllParse fl.na p.int rows j
    · rw [c1 h1]; rfl
    · by_cases h2 : AllParse fl.na p.dbl rows j
      · rw [c2 h1 h2]; rfl
      · rw [c3 h1 h2]; rfl
  have hval : ∀ (i j : Nat) (r : List Str) (v : Str), rows[i]? = some r → r[j]? = some v → j < n ∧ ∃ x, at_ p fl.na rows i j v = some x ∧ Right p fl.na rows j v x := by
    intro i j r v hr hv
    have hm := List.mem_of_getElem? hr
    have hj : j < n := by
      have := (List.getElem?_eq_some_iff.1 hv).1
      rw [hn r hm] at this; exact this
    exact ⟨hj, values_right_partial p fl.na rows j (fun q hq => by rw [hn q hq]; exact hj) (hfull j hj) i r v hr hv⟩
  obtain ⟨out, hout⟩ := convertRows_total p fl.na (allNames names n) rows rows 0 (by
    intro i r hr
    rw [Nat.zero_add]
    apply convertRow_total
    intro j v hv
    rw [Nat.zero_add]
    obtain ⟨hj, x, hx, _⟩ := hval i j r v hr hv
    exact ⟨by simp [hlen, hj], by rw [hx]; rfl⟩)
  obtain ⟨e1, e2⟩ := convertRows_some p fl.na (allNames names n) rows rows 0 out hout
  refine ⟨out, ?_, e1, ?_⟩
  · unfold main_
    simp only [ht, hc, hcols, if_true]
    have : convertRows p fl.na (names ++ (List.range' names.length (n - names.length)).map excel) rows 0 rows = some out := hout
    rw [this]
  · intro i j r v hr hv
    obtain ⟨o, ho, hrow⟩ := e2 i r hr
    rw [Nat.zero_add] at hrow
    obtain ⟨e3, e4⟩ := convertRow_some p fl.na (allNames names n) rows i r 0 o hrow
    obtain ⟨name, x, h1, h2, h3⟩ := e4 j v hv
    rw [Nat.zero_add] at h1 h2
    obtain ⟨hj, x', hx', hright⟩ := hval i j r v hr hv
    rw [hx'] at h2; cases h2
    exact ⟨o, name, x, ho, by rw [e3]; exact hn r (List.mem_of_getElem? hr), h3, h1, hright⟩

theorem filter_short (P : Str → Bool) (l : List Str) : (∃ (i : Nat) (v : Str), l[i]? = some v ∧ P v = true) → ∃ (L : Nat) (v : Str), l[L]? = some v ∧ P v = true ∧ (l.filter P).length ≤ L + 1 := by
  induction l with
  | nil => rintro ⟨i, v, h, _⟩; simp at h
  | cons a l ih =>
    rintro ⟨i, v, hi, hp⟩
    by_cases hex : ∃ (i : Nat) (v : Str), l[i]? = some v ∧ P v = true
    · obtain ⟨L, w, h1, h2, h3⟩ := ih hex
      refine ⟨L + 1, w, by simpa using h1, h2, ?_⟩
      have : ((a :: l).filter P).length ≤ (l.filter P).length + 1 := by rw [List.filter_cons]; split <;> simp
      omega
    · have hnil : l.filter P = [] := by
        rw [List.filter_eq_nil_iff]
        intro x hx hpx
        obtain ⟨k, hk⟩ := List.mem_iff_getElem?.1 hx
        exact hex ⟨k, x, hk, hpx⟩
      cases i with
      | zero =>
        simp at hi; subst hi
        exact ⟨0, a, rfl, hp, by simp [List.filter_cons, hp, hnil]⟩
      | succ i => exact absurd ⟨i, v, by simpa using hi, hp⟩ hex

theorem filter_shorter (P : Str → Bool) (l : List Str) : ∀ (k i : Nat) (u v : Str), k < i → l[k]? = some u → P u = false → l[i]? = some v → P v = true → ∃ (L : Nat) (w : Str), l[L]? = some w ∧ P w = true ∧ (l.filter P).length ≤ L := by
  induction l with
  | nil => intro k i u v _ h; simp at h
  | cons a l ih =>
    intro k i u v hki hk hu hi hv
    obtain ⟨i, rfl⟩ : ∃ m, i = m + 1 := ⟨i - 1, by omega⟩
    simp only [List.getElem?_cons_succ] at hi
    cases k with
    | zero =>
      simp at hk; subst hk
      obtain ⟨L, w, h1, h2, h3⟩ := filter_short P l ⟨i, v, hi, hv⟩
      exact ⟨L + 1, w, by simpa using h1, h2, by simpa [List.filter_cons, hu] using h3⟩
    | succ k =>
      simp only [List.getElem?_cons_succ] at hk
      obtain ⟨L, w, h1, h2, h3⟩ := ih k i u v (by omega) hk hu hi hv
      refine ⟨L + 1, w, by simpa using h1, h2, ?_⟩
      have : ((a :: l).filter P).length ≤ (l.filter P).length + 1 := by rw [List.filter_cons]; split <;> simp
      omega

theorem colValues_length (rows : List (List Str)) (j : Nat) (hj : ∀ r ∈ rows, j < r.length) : (colValues rows j).length = rows.length := by
  induction rows with
  | nil => rfl
  | cons a rows ih =>
    have hl := hj a (by simp)
    have e : colValues (a :: rows) j = a[j] :: colValues rows j := by simp [colValues, hl]
    rw [e, List.length_cons, ih (fun x hx => hj x (by simp [hx])), List.length_cons]

/-- C138 (g): in every table with the same number of values in each row, a missing value above a number in a column of integers makes the program read past the end of a vector. -/
theorem missing_value_is_undefined {D : Type} (p : Parse D) (fl : Flags) (lines : List Str) (names : List Str) (rows : List (List Str)) (n : Nat) (ht : table fl lines = (names, rows)) (hc : columns fl.requireDense names.length rows = some n)
    (hn : ∀ r ∈ rows, r.length = n) (j : Nat) (hj : j < n) (hint : AllParse fl.na p.int rows j) (k i : Nat) (r q : List Str) (u v : Str) (hki : k < i)
    (hr : rows[k]? = some r) (hu : r[j]? = some u) (hmiss : u ∈ fl.na) (hq : rows[i]? = some q) (hv : q[j]? = some v) (hthere : v ∉ fl.na) : main_ p fl lines = .undefined := by
  have hj' : ∀ r ∈ rows, j < r.length := fun r hr => by rw [hn r hr]; exact hj
  have hu' := (colValues_get rows j hj' k r hr).trans hu
  have hv' := (colValues_get rows j hj' i q hq).trans hv
  obtain ⟨L, w, h1, h2, h3⟩ := filter_shorter (fun v => decide (v ∉ fl.na)) (colValues rows j) k i u v hki hu' (by simp [hmiss]) hv' (by simp [hthere])
  have hlenc := colValues_length rows j hj'
  have hL : L < rows.length := by rw [← hlenc]; exact (List.getElem?_eq_some_iff.1 h1).1
  have hrow : rows[L]? = some rows[L] := by simp [hL]
  have hw : (rows[L])[j]? = some w := by rw [← colValues_get rows j hj' L _ hrow]; exact h1
  have hna : w ∉ fl.na := by simpa using h2
  have hnone : at_ p fl.na rows L j w = none := by
    simp only [at_, (column_number p fl.na rows j hj').1 hint, cell]
    rw [if_neg hna, List.getElem?_eq_none, Option.map_none]
    exact Nat.le_trans (List.length_filterMap_le _ _) h3
  unfold main_
  simp only [ht, hc]
  split
  · cases hcr : convertRows p fl.na (names ++ (List.range' names.length (n - names.length)).map excel) rows 0 rows with
    | none => rfl
    | some out =>
      exfalso
      obtain ⟨_, e2⟩ := convertRows_some _ _ _ _ _ _ _ hcr
      obtain ⟨o, _, ho⟩ := e2 L _ hrow
      rw [Nat.zero_add] at ho
      obtain ⟨_, e4⟩ := convertRow_some _ _ _ _ _ _ _ _ ho
      obtain ⟨_, x, _, hx, _⟩ := e4 j w hw
      rw [Nat.zero_add, hnone] at hx
      cases hx
  · rfl

/-- Numbers of one digit. -/
def demoParse : Parse Unit := ⟨fun s => match s with | [c] => if c.isDigit then some (c.toNat - 48) else none | _ => none, fun _ => none⟩
def demoFlags : Flags := ⟨true, "\t".toList, true, ["NA".toList, []]⟩

example : main_ demoParse demoFlags ["a\tb".toList, [], "1\tx".toList, "2\tNA".toList] =
    .printed [[("a".toList, .int 1), ("b".toList, .str "x".toList)], [("a".toList, .int 2), ("b".toList, .null)]] := by rfl

/-- A missing value first: the next number is taken for that of the row, and the last is not there. -/
theorem numbers_shift : at_ demoParse demoFlags.na [["NA".toList], ["1".toList], ["2".toList]] 1 0 "1".toList = some (.int 2) ∧ at_ demoParse demoFlags.na [["NA".toList], ["1".toList], ["2".toList]] 2 0 "2".toList = none := ⟨rfl, rfl⟩
example : main_ demoParse demoFlags ["a".toList, "NA".toList, "1".toList] = .undefined := by rfl

/-- Missing values below all the numbers are well. -/
example : main_ demoParse demoFlags ["a".toList, "1".toList, "NA".toList] = .printed [[("a".toList, .int 1)], [("a".toList, .null)]] := by rfl

/-- C138 (h): rows of different lengths, as the flag allows: a row is read past its end. -/
theorem sparse_is_undefined : main_ demoParse { demoFlags with header := false, requireDense := false } ["1\t2".toList, "3".toList] = .undefined := by rfl
theorem dense_exits : main_ demoParse { demoFlags with header := false } ["1\t2".toList, "3".toList] = .exit := by rfl

end Current.TsvToJson
