import Verif.Strings.Split
import Verif.Strings.Convert
import Verif.Persist.FileLemmas
/-! `CSV<T>::ReadFile` (`utils/csv/csv.h`): C87. -/
namespace Current.Csv
open Current.Persist (Str getLines)
open Current.Strings (split matchChar join)

/-! ### Model -/

inductive Err where
  | empty     -- `CSVFileFormatException`: the file is empty
  | noHeader  -- `CSVFileFormatException`: no header
  | columns   -- `CSVFileFormatException`: column number mismatch
deriving DecidableEq, Repr

structure Table (T : Type) where
  header : List Str
  data : List (List T)
deriving DecidableEq

/-- `if (!line.empty() && line.back() == '\r') line.resize(line.size() - 1u)` (`csv.h:62-64`, `:70-72`). -/
def chop (line : Str) : Str := if line.getLast? = some '\r' then line.dropLast else line

/-- `current::strings::Split(line, ',')`, which skips empty fields. -/
def cells (line : Str) : List Str := (split (matchChar ',') false line).1

/-- The loop of `csv.h:69-81`. `conv` is `current::FromString<T>`. -/
def readRows {T : Type} (conv : Str → T) (width : Nat) : List Str → Except Err (List (List T))
  | [] => .ok []
  | line :: rest =>
    if (cells (chop line)).length ≠ width then .error .columns
    else
      match readRows conv width rest with
      | .error e => .error e
      | .ok rows => .ok ((cells (chop line)).map conv :: rows)

/-- `CSV<T>::ReadFile` (`csv.h:53-83`) of a file which could be opened. -/
def readFile {T : Type} (conv : Str → T) (contents : Str) : Except Err (Table T) :=
  match getLines contents with
  | [] => .error .empty
  | line :: rest =>
    if cells (chop line) = [] then .error .noHeader
    else
      match readRows conv (cells (chop line)).length rest with
      | .error e => .error e
      | .ok rows => .ok ⟨cells (chop line), rows⟩

/-! ### Specification -/

/-- A cell: not empty, and without commas, line feeds and carriage returns. -/
def Cell (s : Str) : Prop := s ≠ [] ∧ ',' ∉ s ∧ '\n' ∉ s ∧ '\r' ∉ s

instance (s : Str) : Decidable (Cell s) := by unfold Cell; infer_instance

/-- A line of a file: cells separated by commas. -/
def lineText : List Str → Str
  | [] => []
  | [c] => c
  | c :: d :: r => c ++ ',' :: lineText (d :: r)

/-- Lines, each ended with `\n` or `\r\n`. -/
def fileText : List (List Str × Bool) → Str
  | [] => []
  | (row, cr) :: rest => lineText row ++ (if cr then ['\r', '\n'] else ['\n']) ++ fileText rest

/-! ### Proofs -/

theorem lineText_join (l : List Str) : lineText l = join l [','] := by
  rw [Current.Strings.join_is_joined]
  induction l with
  | nil => rfl
  | cons c r ih =>
    cases r with
    | nil => rfl
    | cons d r => simp only [lineText, Current.Strings.joined, ih]; simp

theorem lineText_clean (a : Char) (ha : a ≠ ',') : ∀ (l : List Str), (∀ c ∈ l, a ∉ c) → a ∉ lineText l
  | [], _ => by simp [lineText]
  | [c], h => h c (by simp)
  | c :: d :: r, h => by
    simp only [lineText, List.mem_append, List.mem_cons, not_or]
    exact ⟨h c (by simp), ha, lineText_clean a ha (d :: r) fun x hx => h x (List.mem_cons_of_mem _ hx)⟩

theorem chop_clean (s : Str) (h : '\r' ∉ s) : chop s = s := by
  unfold chop
  rw [if_neg]
  intro e
  exact h (List.mem_of_getLast? e)

theorem chop_cr (s : Str) : chop (s ++ ['\r']) = s := by
  unfold chop
  rw [if_pos (by simp)]
  simp

/-- The cells of a line. -/
theorem cells_line (row : List Str) (h : ∀ c ∈ row, Cell c) (cr : Bool) :
    cells (chop (lineText row ++ if cr then ['\r'] else [])) = row := by
  have : chop (lineText row ++ if cr then ['\r'] else []) = lineText row := by
    cases cr with
    | true => exact chop_cr _
    | false => simpa using chop_clean _ (lineText_clean '\r' (by decide) row fun c hc => (h c hc).2.2.2)
  rw [this, lineText_join]
  exact Current.Strings.split_join_skip ',' row fun x hx => ⟨(h x hx).2.1, (h x hx).1⟩

/-- The lines of a file as `getline` gives them. -/
theorem getLines_file : ∀ (rows : List (List Str × Bool)) (last : Str), (∀ r ∈ rows, ∀ c ∈ r.1, Cell c) → '\n' ∉ last →
    getLines (fileText rows ++ last) =
      rows.map (fun r => lineText r.1 ++ if r.2 then ['\r'] else []) ++ if last = [] then [] else [last]
  | [], last, _, hl => by
    simp only [fileText, List.nil_append, List.map_nil]
    by_cases h : last = []
    · subst h; rfl
    · rw [if_neg h]
      exact Current.Persist.getLines_last last hl h
  | (row, cr) :: rest, last, h, hl => by
    have ih := getLines_file rest last (fun r hr => h r (List.mem_cons_of_mem _ hr)) hl
    have hn : '\n' ∉ lineText row := lineText_clean '\n' (by decide) row fun c hc => (h (row, cr) (by simp) c hc).2.2.1
    have e : fileText ((row, cr) :: rest) ++ last = (lineText row ++ if cr then ['\r'] else []) ++ '\n' :: (fileText rest ++ last) := by
      cases cr <;> simp [fileText]
    rw [e, Current.Persist.getLines_line, ih]
    · rfl
    · cases cr <;> simp [hn]

theorem readRows_map {T : Type} (conv : Str → T) (w : Nat) : ∀ (ls : List Str) (rows : List (List Str)),
    ls.map (fun l => cells (chop l)) = rows → (∀ r ∈ rows, r.length = w) → readRows conv w ls = .ok (rows.map (·.map conv))
  | [], rows, h, _ => by
    subst h
    rfl
  | l :: ls, rows, h, hw => by
    subst h
    have h1 := hw (cells (chop l)) (by simp)
    simp only [readRows]
    rw [if_neg (by simpa using h1), readRows_map conv w ls _ rfl fun r hr => hw r (by simp only [List.map_cons]; exact List.mem_cons_of_mem _ hr)]
    rfl

/-- **Reading a table**: a file whose lines, the first one being the header, have the same number of cells and none empty is read cell by cell,
whichever way its lines end and whether or not the last one has an end. -/
theorem csv_read {T : Type} (conv : Str → T) (header : List Str) (cr : Bool) (rows : List (List Str × Bool)) (last : List Str)
    (hh : header ≠ []) (h1 : ∀ c ∈ header, Cell c) (h2 : ∀ r ∈ rows, r.1.length = header.length ∧ ∀ c ∈ r.1, Cell c)
    (h3 : last = [] ∨ (last.length = header.length ∧ ∀ c ∈ last, Cell c)) :
    readFile conv (fileText ((header, cr) :: rows) ++ lineText last) =
      .ok ⟨header, (rows.map (·.1) ++ if last = [] then [] else [last]).map (·.map conv)⟩ := by
  have hl : ∀ c ∈ last, Cell c := by
    rcases h3 with rfl | h
    · simp
    · exact h.2
  have hn : '\n' ∉ lineText last := lineText_clean '\n' (by decide) last fun c hc => (hl c hc).2.2.1
  have hlast : lineText last = [] ↔ last = [] := by
    constructor
    · intro e
      have := cells_line last hl false
      rw [e] at this
      rw [← this]
      rfl
    · rintro rfl
      rfl
  have hg := getLines_file ((header, cr) :: rows) (lineText last) (fun r hr c hc => by
    rcases List.mem_cons.1 hr with rfl | hr
    · exact h1 c hc
    · exact (h2 r hr).2 c hc) hn
  simp only [readFile]
  rw [hg]
  simp only [List.map_cons, List.cons_append, cells_line header h1 cr]
  rw [if_neg hh, readRows_map conv header.length _ (rows.map (·.1) ++ if last = [] then [] else [last])]
  · simp only [List.map_append, List.map_map, if_congr hlast rfl rfl]
    congr 1
    · refine List.map_congr_left fun r hr => ?_
      exact cells_line r.1 (h2 r hr).2 r.2
    · by_cases h : last = []
      · simp [h]
      · rw [if_neg h, if_neg h]
        have := cells_line last hl false
        simp only [Bool.false_eq_true, if_false, List.append_nil] at this
        simp [this]
  · intro r hr
    rw [List.mem_append] at hr
    rcases hr with hr | hr
    · obtain ⟨x, hx, rfl⟩ := List.mem_map.1 hr
      exact (h2 x hx).1
    · by_cases h : last = []
      · simp [h] at hr
      · rw [if_neg h, List.mem_singleton] at hr
        subst hr
        exact (h3.resolve_left h).1

/-- What a line of the file has, empty cells left out: one after another, the pieces between the commas, a carriage return at its end apart. -/
theorem cells_spec (line : Str) : cells line = (Current.Strings.fields (matchChar ',') line).filter (· ≠ []) := by
  have := (Current.Strings.split_is_fields (matchChar ',') false line).1
  simpa [cells] using this

/-- **Any file**: what is read has a row per line after the first, all as wide as the header. -/
theorem csv_shape {T : Type} (conv : Str → T) (s : Str) (t : Table T) (h : readFile conv s = .ok t) :
    t.header ≠ [] ∧ t.data.length + 1 = (getLines s).length ∧ ∀ r ∈ t.data, r.length = t.header.length := by
  have key : ∀ (w : Nat) (ls : List Str) (rows : List (List T)), readRows conv w ls = .ok rows →
      rows.length = ls.length ∧ ∀ r ∈ rows, r.length = w := by
    intro w ls
    induction ls with
    | nil =>
      intro rows h
      cases h
      simp
    | cons l ls ih =>
      intro rows h
      simp only [readRows] at h
      by_cases hw : (cells (chop l)).length = w
      · rw [if_neg (by simpa using hw)] at h
        cases hr : readRows conv w ls with
        | error e => rw [hr] at h; exact nomatch h
        | ok rs =>
          rw [hr] at h
          cases h
          obtain ⟨a, b⟩ := ih rs hr
          refine ⟨by simp [a], fun r hr' => ?_⟩
          rcases List.mem_cons.1 hr' with rfl | hr'
          · simpa using hw
          · exact b r hr'
      · rw [if_pos hw] at h
        exact nomatch h
  simp only [readFile] at h
  cases hg : getLines s with
  | nil => rw [hg] at h; exact nomatch h
  | cons l ls =>
    rw [hg] at h
    simp only at h
    by_cases hc : cells (chop l) = []
    · rw [if_pos hc] at h
      exact nomatch h
    · rw [if_neg hc] at h
      cases hr : readRows conv (cells (chop l)).length ls with
      | error e => rw [hr] at h; exact nomatch h
      | ok rs =>
        rw [hr] at h
        cases h
        obtain ⟨a, b⟩ := key _ _ _ hr
        exact ⟨hc, by simp [a], b⟩

/-! ### Examples -/

/-- `a,b` / `1,2` / `3,4`, the first line ended with `\r\n`, the last one not ended. -/
theorem example_read : readFile id ['a', ',', 'b', '\r', '\n', '1', ',', '2', '\n', '3', ',', '4'] =
    .ok ⟨[['a'], ['b']], [[['1'], ['2']], [['3'], ['4']]]⟩ :=
  csv_read id [['a'], ['b']] true [([['1'], ['2']], false)] [['3'], ['4']] (by simp) (by decide) (by decide) (by decide)

/-- Empty cells are left out, so that the cells after them move to the left: `a,b` / `1,,2` is read as if it were
`a,b` / `1,2`. -/
theorem empty_cell_shifts : readFile id ['a', ',', 'b', '\n', '1', ',', ',', '2', '\n'] = .ok ⟨[['a'], ['b']], [[['1'], ['2']]]⟩ := by
  decide +kernel

/-- A line with the right number of cells, one of them empty, is refused: `a,b` / `1,`. So is an empty line. -/
theorem empty_cell_refused : readFile id ['a', ',', 'b', '\n', '1', ',', '\n'] = .error .columns ∧
    readFile id ['a', ',', 'b', '\n', '\n'] = .error .columns := by decide +kernel

/-- There is no quoting: `a,b` / `"1,2"` has two cells in its second line. -/
theorem no_quoting : readFile id ['a', ',', 'b', '\n', '"', '1', ',', '2', '"'] = .ok ⟨[['a'], ['b']], [[['"', '1'], ['2', '"']]]⟩ := by
  decide +kernel

/-- What is not a number is zero. -/
theorem not_a_number : readFile (Current.Strings.fromStringInt Current.Strings.int32) ['a', '\n', 'x', '\n'] = .ok ⟨[['a']], [[0]]⟩ := by
  decide +kernel

end Current.Csv
