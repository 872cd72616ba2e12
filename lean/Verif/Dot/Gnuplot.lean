import Verif.Persist.Codec

/-!
# Scripts for gnuplot (`bricks/graph/gnuplot.h`)

A `GNUPlot` object collects parameters and plots, and on conversion to `std::string` writes a
script: `set`/`unset` commands, one `plot` command with an inline data source per plot, and then
the data of each plot, each ended by a line. The specification is an independent reader of such
scripts — which settings are made, how many inline sources the `plot` command names, and which
lines belong to which source — with the rules of gnuplot: a line which begins with `e` ends the
data of a source.

Simplifications: numbers are already formatted; running `gnuplot` is not modelled; the map of
parameters is an association list.
-/

set_option linter.unusedSimpArgs false
set_option linter.unusedVariables false

namespace Current.Gnuplot

open Current.Persist (Str dec)

/-! ## The program -/

/-- The loop of `Escape` (gnuplot.h 44-51). -/
def escapeBody : Str → Str
  | [] => []
  | c :: cs => (if c = '"' then ['\\'] else []) ++ c :: escapeBody cs

/-- `Escape` (gnuplot.h 44-53). -/
def escape (s : Str) : Str := ['"'] ++ escapeBody s ++ ['"']

/-- The setters of `GNUPlot` (gnuplot.h 149-210); the ranges are already formatted. -/
inductive Call
  | title (s : Str)
  | noTitle
  | xLabel (s : Str)
  | yLabel (s : Str)
  | grid (s : Str)
  | noKey
  | keyTitle (s : Str)
  | noTics
  | noBorder
  | xRange (s : Str)
  | yRange (s : Str)

/-- `parameters_[k] = v`. -/
def put (k v : Str) : List (Str × Str) → List (Str × Str)
  | [] => [(k, v)]
  | p :: r => if p.1 = k then (k, v) :: r else p :: put k v r

/-- The bodies of the setters (gnuplot.h 155-210). -/
def apply (m : List (Str × Str)) : Call → List (Str × Str)
  | .title s => put "title".toList (escape s) m
  | .noTitle => put "title".toList [] m
  | .xLabel s => put "xlabel".toList (escape s) m
  | .yLabel s => put "ylabel".toList (escape s) m
  | .grid s => put "grid".toList s m
  | .noKey => put "key".toList [] m
  | .keyTitle s => put "key".toList ("title ".toList ++ escape s) m
  | .noTics => put "tics".toList [] m
  | .noBorder => put "border".toList [] m
  | .xRange s => put "xrange".toList s m
  | .yRange s => put "yrange".toList s m

/-- The setters of `WithMeta` (gnuplot.h 97-124). -/
inductive Meta
  | name (s : Str)
  | color (s : Str)
  | lineWidth (s : Str)
  | asPoints
  | asLabels
  | extra (s : Str)

/-- `type_` and `proto_meta_` after the setters (gnuplot.h 97-130). -/
def metaStep (p : Str × Str) : Meta → Str × Str
  | .name s => (p.1, p.2 ++ (" t ".toList ++ escape s))
  | .color s => (p.1, p.2 ++ (" lc ".toList ++ s))
  | .lineWidth s => ("lines".toList, p.2 ++ (" lw ".toList ++ s ++ " ".toList))
  | .asPoints => ("points".toList, p.2)
  | .asLabels => ("labels".toList, p.2)
  | .extra s => (p.1, p.2 ++ (" ".toList ++ s))

/-- `ComposeMeta` (gnuplot.h 127). -/
def composeMeta (l : List Meta) : Str :=
  let p := l.foldl metaStep ("lines".toList, [])
  "with ".toList ++ p.1 ++ p.2

/-- A plot: a function, which emits lines of fields (gnuplot.h 55-68), and its metadata. -/
structure Plot where
  points : List (List Str)
  «meta» : Str := " t 'Graph' with lines lw 5".toList

/-- A line of fields separated by blanks (gnuplot.h 60, 65). -/
def row : List Str → Str
  | [] => []
  | [x] => x
  | x :: r => x ++ " ".toList ++ row r

/-- The object (gnuplot.h 139-145). -/
structure Script where
  format : Str := "png".toList
  x : Nat := 800
  y : Nat := 800
  calls : List Call
  plots : List Plot

/-- The commands for the parameters (gnuplot.h 239-245). -/
def showParam (p : Str × Str) : Str :=
  if p.2.isEmpty then "unset ".toList ++ p.1 ++ "\n".toList
  else "set ".toList ++ p.1 ++ " ".toList ++ p.2 ++ "\n".toList

/-- The `plot` command without its end of line (gnuplot.h 246-249). -/
def showPlots : Nat → List Plot → Str
  | _, [] => []
  | i, p :: r => (if i = 0 then "plot ".toList else ", ".toList) ++ "'-'".toList ++ (" ".toList ++ p.meta) ++
      showPlots (i + 1) r

/-- The data of the plots (gnuplot.h 251-254). -/
def showData : List Plot → Str
  | [] => []
  | p :: r => p.points.flatMap (fun q => row q ++ "\n".toList) ++ "end\n".toList ++ showData r

/-- The script (gnuplot.h 236-255), which is the result for the output format `gnuplot`. -/
def script (s : Script) : Str :=
  "set term ".toList ++ s.format ++ " size ".toList ++ dec s.x ++ ",".toList ++ dec s.y ++ "\n".toList ++
    (s.calls.foldl apply []).flatMap showParam ++ showPlots 0 s.plots ++ "\n".toList ++ showData s.plots

/-! ## The specification: a reader of scripts -/

/-- The lines of a text, each ended by a newline. -/
def linesGo : Str → Str → List Str
  | acc, [] => if acc.isEmpty then [] else [acc]
  | acc, c :: cs => if c = '\n' then acc :: linesGo [] cs else linesGo (acc ++ [c]) cs

/-- The lines of a text. -/
def lines (s : Str) : List Str := linesGo [] s

/-- What is left of a line after a prefix. -/
def after : Str → Str → Option Str
  | [], s => some s
  | p :: ps, c :: cs => if p = c then after ps cs else none
  | _ :: _, [] => none

/-- The states of the reader of a `plot` command. -/
inductive Q
  | out
  | single (acc : Str)
  | double
  | esc
deriving DecidableEq

/-- How many single-quoted strings `'-'` (an inline source) a command has. -/
def sources : Q → Str → Option Nat
  | .out, [] => some 0
  | _, [] => none
  | .out, c :: cs =>
    if c = '\'' then sources (.single []) cs else if c = '"' then sources .double cs else sources .out cs
  | .single acc, c :: cs =>
    if c = '\'' then (sources .out cs).map (· + if acc = ['-'] then 1 else 0) else sources (.single (acc ++ [c])) cs
  | .double, c :: cs =>
    if c = '"' then sources .out cs else if c = '\\' then sources .esc cs else sources .double cs
  | .esc, _ :: cs => sources .double cs

/-- The lines of each of `n` inline sources. -/
def inline : Nat → List Str → List Str → Option (List (List Str))
  | 0, _, [] => some []
  | 0, _, _ :: _ => none
  | _ + 1, _, [] => none
  | n + 1, acc, l :: ls =>
    if l.head? = some 'e' then (inline n [] ls).map (acc :: ·) else inline (n + 1) (acc ++ [l]) ls

/-- A double-quoted string: its contents, a backslash before a quote taken away; other escapes are
`special`. -/
def dq (special : Char → Str) : Str → Option Str
  | [] => none
  | ['"'] => some []
  | '"' :: _ :: _ => none
  | '\\' :: '"' :: r => (dq special r).map ('"' :: ·)
  | '\\' :: c :: r => (dq special r).map (special c ++ ·)
  | c :: r => (dq special r).map (c :: ·)

/-- The settings a script makes, as lines: `none` is `unset`. Reads up to the `plot` command, which
is given with the lines after it. -/
def settings : List Str → Option (List (Str × Option Str) × Str × List Str)
  | [] => none
  | l :: ls =>
    match after "plot ".toList l with
    | some cmd => some ([], cmd, ls)
    | none =>
      match after "unset ".toList l with
      | some k => (settings ls).map (fun p => ((k, none) :: p.1, p.2))
      | none =>
        match after "set ".toList l with
        | none => none
        | some r => (settings ls).map (fun p => ((r.takeWhile (· ≠ ' '), some ((r.dropWhile (· ≠ ' ')).drop 1)) :: p.1, p.2))

/-- What a setter asks for. -/
def wants : Call → Str × Option Str
  | .title s => ("title".toList, some (escape s))
  | .noTitle => ("title".toList, none)
  | .xLabel s => ("xlabel".toList, some (escape s))
  | .yLabel s => ("ylabel".toList, some (escape s))
  | .grid s => ("grid".toList, some s)
  | .noKey => ("key".toList, none)
  | .keyTitle s => ("key".toList, some ("title ".toList ++ escape s))
  | .noTics => ("tics".toList, none)
  | .noBorder => ("border".toList, none)
  | .xRange s => ("xrange".toList, some s)
  | .yRange s => ("yrange".toList, some s)

/-- The last call of each name decides. -/
def decided (calls : List Call) (k : Str) : Option (Option Str) :=
  (calls.reverse.find? (fun c => (wants c).1 == k)).map (fun c => (wants c).2)

/-- The metadata closes the quotes it opens and names no inline source. -/
def Closed (m : Str) : Prop := ∀ rest, sources .out (m ++ rest) = sources .out rest

/-- The script is one which can be read: no newlines within a line; no line of data begins with
`e`; a grid or a range is not empty; metadata is closed. -/
structure Ok (s : Script) : Prop where
  format : '\n' ∉ s.format
  calls : ∀ c ∈ s.calls, ∀ v, (wants c).2 = some v → v ≠ [] ∧ '\n' ∉ v
  plots : s.plots ≠ []
  metas : ∀ p ∈ s.plots, Closed p.meta ∧ '\n' ∉ p.meta
  points : ∀ p ∈ s.plots, ∀ q ∈ p.points, '\n' ∉ row q ∧ (row q).head? ≠ some 'e'

/-! ## Lines -/

theorem linesGo_line (l acc rest : Str) (h : '\n' ∉ l) :
    linesGo acc (l ++ '\n' :: rest) = (acc ++ l) :: linesGo [] rest := by
  induction l generalizing acc with
  | nil => simp [linesGo]
  | cons c cs ih =>
    simp only [List.mem_cons, not_or] at h
    simp only [List.cons_append, linesGo, if_neg (Ne.symm h.1)]
    rw [ih _ h.2]; simp

theorem lines_line (l rest : Str) (h : '\n' ∉ l) : lines (l ++ '\n' :: rest) = l :: lines rest := by
  simp [lines, linesGo_line l [] rest h]

theorem after_append (p s : Str) : after p (p ++ s) = some s := by
  induction p with
  | nil => rfl
  | cons c cs ih => simp [after, ih]

/-! ## Settings -/

/-- The names of the parameters. -/
def names : List Str := ["title", "xlabel", "ylabel", "grid", "key", "tics", "border", "xrange", "yrange"].map String.toList

theorem wants_name (c : Call) : (wants c).1 ∈ names := by
  cases c <;> simp [wants, names]

theorem names_plain : ∀ k ∈ names, (' ' ∉ k) ∧ '\n' ∉ k := by
  decide

/-- The value which a setter stores. -/
def stored (c : Call) : Str := ((wants c).2).getD []

theorem apply_put (m : List (Str × Str)) (c : Call) : apply m c = put (wants c).1 (stored c) m := by
  cases c <;> rfl

theorem put_keys {k v : Str} {m : List (Str × Str)} {p : Str × Str} (h : p ∈ put k v m) :
    p = (k, v) ∨ p ∈ m := by
  induction m with
  | nil => simpa [put] using h
  | cons q r ih =>
    simp only [put] at h
    split at h
    · simp only [List.mem_cons] at h ⊢; rcases h with h | h
      · exact Or.inl h
      · exact Or.inr (Or.inr h)
    · simp only [List.mem_cons] at h ⊢; rcases h with h | h
      · exact Or.inr (Or.inl h)
      · rcases ih h with h | h
        · exact Or.inl h
        · exact Or.inr (Or.inr h)

theorem put_lookup (k v : Str) (m : List (Str × Str)) (j : Str) :
    (put k v m).lookup j = if j = k then some v else m.lookup j := by
  induction m with
  | nil =>
    simp only [put, List.lookup]
    by_cases h : j = k
    · simp [h]
    · have : (j == k) = false := by simpa using h
      simp [h, this]
  | cons q r ih =>
    obtain ⟨a, b⟩ := q
    simp only [put]
    by_cases ha : a = k
    · subst ha
      simp only [if_true]
      by_cases h : j = a
      · simp [List.lookup, h]
      · have : (j == a) = false := by simpa using h
        simp [List.lookup, h, this]
    · simp only [if_neg ha, List.lookup, ih]
      by_cases h : j = k
      · subst h
        have : (j == a) = false := by simpa using Ne.symm ha
        simp [this]
      · simp [h]

theorem foldl_lookup (calls : List Call) (j : Str) :
    (calls.foldl apply []).lookup j = (calls.reverse.find? (fun c => (wants c).1 == j)).map stored := by
  have gen : ∀ (l : List Call) (m : List (Str × Str)), (l.foldl apply m).lookup j =
      match l.reverse.find? (fun c => (wants c).1 == j) with
      | some c => some (stored c)
      | none => m.lookup j := by
    intro l
    induction l with
    | nil => intro m; rfl
    | cons c r ih =>
      intro m
      simp only [List.foldl_cons, ih, List.reverse_cons, List.find?_append, apply_put, put_lookup]
      cases r.reverse.find? (fun c => (wants c).1 == j) with
      | some d => rfl
      | none =>
        by_cases h : (wants c).1 = j
        · subst h; simp
        · have h' : ¬ (j = (wants c).1) := fun e => h e.symm
          have h2 : ((wants c).1 == j) = false := by simpa using h
          simp [h', List.find?, h2]
  rw [gen]
  cases calls.reverse.find? (fun c => (wants c).1 == j) <;> rfl

theorem foldl_mem (calls : List Call) (p : Str × Str) (h : p ∈ calls.foldl apply []) :
    ∃ c ∈ calls, p = ((wants c).1, stored c) := by
  have gen : ∀ (l : List Call) (m : List (Str × Str)), p ∈ l.foldl apply m →
      (∃ c ∈ l, p = ((wants c).1, stored c)) ∨ p ∈ m := by
    intro l
    induction l with
    | nil => intro m h; exact Or.inr h
    | cons c r ih =>
      intro m h
      rcases ih _ h with ⟨d, hd, e⟩ | h
      · exact Or.inl ⟨d, by simp [hd], e⟩
      · rw [apply_put] at h
        rcases put_keys h with h | h
        · exact Or.inl ⟨c, by simp, h⟩
        · exact Or.inr h
  rcases gen calls [] h with h | h
  · exact h
  · cases h

/-- What a command says. -/
def said (p : Str × Str) : Str × Option Str := (p.1, if p.2 = [] then none else some p.2)

theorem settings_params (ps : List (Str × Str)) (rest : Str)
    (hk : ∀ p ∈ ps, p.1 ∈ names ∧ '\n' ∉ p.2) :
    settings (lines (ps.flatMap showParam ++ rest)) =
      (settings (lines rest)).map (fun q => (ps.map said ++ q.1, q.2)) := by
  induction ps with
  | nil => simp
  | cons p r ih =>
    have hp := hk p (by simp)
    have hn := names_plain p.1 hp.1
    have ih := ih (fun q hq => hk q (by simp [hq]))
    simp only [List.flatMap_cons, List.append_assoc]
    by_cases he : p.2 = []
    · have e : showParam p ++ (r.flatMap showParam ++ rest) =
          ("unset ".toList ++ p.1) ++ '\n' :: (r.flatMap showParam ++ rest) := by
        simp [showParam, he]
      have hnl : '\n' ∉ "unset ".toList ++ p.1 := by
        simp [hn.2]
      rw [e, lines_line _ _ hnl]
      have c1 : after "plot ".toList ("unset ".toList ++ p.1) = none := by simp [after]
      simp only [settings, c1, after_append, ih, Option.map_map]
      congr 1
      funext q
      simp [said, he]
    · have e : showParam p ++ (r.flatMap showParam ++ rest) =
          ("set ".toList ++ (p.1 ++ ' ' :: p.2)) ++ '\n' :: (r.flatMap showParam ++ rest) := by
        simp [showParam, he]
      have hnl : '\n' ∉ "set ".toList ++ (p.1 ++ ' ' :: p.2) := by
        simp [hn.2, hp.2]
      rw [e, lines_line _ _ hnl]
      have c1 : after "plot ".toList ("set ".toList ++ (p.1 ++ ' ' :: p.2)) = none := by simp [after]
      have c2 : after "unset ".toList ("set ".toList ++ (p.1 ++ ' ' :: p.2)) = none := by simp [after]
      have ht : (p.1 ++ ' ' :: p.2).takeWhile (· ≠ ' ') = p.1 := by
        rw [List.takeWhile_append_of_pos (by
          intro c hc
          have : c ≠ ' ' := fun e => hn.1 (e ▸ hc)
          simpa using this)]
        simp
      have hd : (p.1 ++ ' ' :: p.2).dropWhile (· ≠ ' ') = ' ' :: p.2 := by
        rw [List.dropWhile_append_of_pos (by
          intro c hc
          have : c ≠ ' ' := fun e => hn.1 (e ▸ hc)
          simpa using this)]
        simp
      simp only [settings, c1, c2, after_append, ih, Option.map_map, ht, hd]
      congr 1
      funext q
      simp [said, he]

/-! ## Plots -/

theorem sources_dash (rest : Str) : sources .out ("'-'".toList ++ rest) = (sources .out rest).map (· + 1) := by
  simp [sources]

theorem sources_plots (l : List Plot) (i : Nat) (h : ∀ p ∈ l, Closed p.meta) :
    sources .out (showPlots (i + 1) l) = some l.length := by
  induction l generalizing i with
  | nil => simp [showPlots, sources]
  | cons p r ih =>
    have hp := h p (by simp)
    have ih := ih (i + 1) (fun q hq => h q (by simp [hq]))
    have e : showPlots (i + 1) (p :: r) = ',' :: ' ' :: ("'-'".toList ++ (' ' :: (p.meta ++ showPlots (i + 1 + 1) r))) := by
      simp [showPlots]
    rw [e]
    have s1 : ∀ t, sources .out (',' :: ' ' :: t) = sources .out t := by intro t; simp [sources]
    have s2 : ∀ t, sources .out (' ' :: t) = sources .out t := by intro t; simp [sources]
    rw [s1, sources_dash, s2, hp, ih]
    simp

theorem plots_noNewline (l : List Plot) (i : Nat) (h : ∀ p ∈ l, '\n' ∉ p.meta) : '\n' ∉ showPlots i l := by
  induction l generalizing i with
  | nil => simp [showPlots]
  | cons p r ih =>
    have := ih (i + 1) (fun q hq => h q (by simp [hq]))
    have := h p (by simp)
    simp only [showPlots]
    split <;> simp_all

theorem inline_points (q : List (List Str)) (n : Nat) (acc : List Str) (rest : Str)
    (h : ∀ p ∈ q, '\n' ∉ row p ∧ (row p).head? ≠ some 'e') :
    inline (n + 1) acc (lines (q.flatMap (fun p => row p ++ "\n".toList) ++ ("end\n".toList ++ rest))) =
      (inline n [] (lines rest)).map ((acc ++ q.map row) :: ·) := by
  induction q generalizing acc with
  | nil =>
    have e : ([] : List (List Str)).flatMap (fun p => row p ++ "\n".toList) ++ ("end\n".toList ++ rest) =
      "end".toList ++ '\n' :: rest := by simp
    rw [e, lines_line _ _ (by decide)]
    simp [inline]
  | cons p r ih =>
    have hp := h p (by simp)
    have e : (p :: r).flatMap (fun p => row p ++ "\n".toList) ++ ("end\n".toList ++ rest) =
      row p ++ '\n' :: (r.flatMap (fun p => row p ++ "\n".toList) ++ ("end\n".toList ++ rest)) := by simp
    rw [e, lines_line _ _ hp.1]
    simp only [inline, if_neg hp.2]
    rw [ih _ (fun q hq => h q (by simp [hq]))]
    simp

theorem inline_data (l : List Plot)
    (h : ∀ p ∈ l, ∀ q ∈ p.points, '\n' ∉ row q ∧ (row q).head? ≠ some 'e') :
    inline l.length [] (lines (showData l)) = some (l.map (fun p => p.points.map row)) := by
  induction l with
  | nil => rfl
  | cons p r ih =>
    have e : showData (p :: r) = p.points.flatMap (fun q => row q ++ "\n".toList) ++ ("end\n".toList ++ showData r) := by
      simp [showData]
    rw [e, List.length_cons, inline_points _ _ _ _ (h p (by simp)), ih (fun q hq => h q (by simp [hq]))]
    simp

/-! ## The theorems -/

theorem frame {A S T f z x c y n P pl D : Str} (hA : A = S ++ (T ++ [' '])) (hn : n = ['\n']) :
    A ++ f ++ z ++ x ++ c ++ y ++ n ++ P ++ pl ++ n ++ D =
      (S ++ (T ++ ' ' :: (f ++ z ++ x ++ c ++ y))) ++ '\n' :: (P ++ (pl ++ '\n' :: D)) := by
  subst hA; subst hn; simp

/-- **A script is read as it was asked for**: after the line with the terminal come the settings of
exactly the parameters which were set, each as its last setter said; then one inline source per
plot; and the lines of the `i`-th source are exactly the points of the `i`-th plot. -/
theorem script_is_read (s : Script) (ok : Ok s) :
    ∃ sets cmd data, settings (lines (script s)) =
        some (("term".toList, some (s.format ++ " size ".toList ++ dec s.x ++ ",".toList ++ dec s.y)) :: sets, cmd, data) ∧
      (∀ k, sets.lookup k = decided s.calls k) ∧
      sources .out cmd = some s.plots.length ∧
      inline s.plots.length [] data = some (s.plots.map (fun p => p.points.map row)) := by
  have hmem : ∀ p ∈ s.calls.foldl apply [], p.1 ∈ names ∧ '\n' ∉ p.2 := by
    intro p hp
    obtain ⟨c, hc, rfl⟩ := foldl_mem s.calls p hp
    refine ⟨wants_name c, ?_⟩
    simp only [stored]
    cases hw : (wants c).2 with
    | none => simp
    | some v => exact (ok.calls c hc v hw).2
  have hdig : ∀ n, '\n' ∉ dec n := by
    intro n hn
    have := Current.Persist.dec_isDigit hn
    revert this; decide
  have hterm : '\n' ∉ "set ".toList ++ ("term".toList ++ ' ' :: (s.format ++ " size ".toList ++ dec s.x ++ ",".toList ++ dec s.y)) := by
    have h1 := ok.format
    have h2 := hdig s.x
    have h3 := hdig s.y
    simp [h1, h2, h3]
  cases hpl : s.plots with
  | nil => exact absurd hpl ok.plots
  | cons p r =>
    obtain ⟨cmd, hcd⟩ : ∃ c, c = "'-'".toList ++ (' ' :: (p.meta ++ showPlots 1 r)) := ⟨_, rfl⟩
    have hcmd : showPlots 0 (p :: r) = "plot ".toList ++ cmd := by rw [hcd]; simp [showPlots]
    have e : script s = ("set ".toList ++ ("term".toList ++ ' ' :: (s.format ++ " size ".toList ++ dec s.x ++ ",".toList ++ dec s.y))) ++
        '\n' :: ((s.calls.foldl apply []).flatMap showParam ++ (("plot ".toList ++ cmd) ++ '\n' :: showData s.plots)) := by
      have h0 : showPlots 0 s.plots = "plot ".toList ++ cmd := by rw [hpl]; exact hcmd
      rw [← h0]
      exact frame (A := "set term ".toList) (S := "set ".toList) (T := "term".toList) (f := s.format)
        (n := "\n".toList) (by decide) (by decide)
    have hnp : '\n' ∉ "plot ".toList ++ cmd := by
      rw [← hcmd, ← hpl]
      exact plots_noNewline _ _ (fun q hq => (ok.metas q hq).2)
    refine ⟨(s.calls.foldl apply []).map said, cmd, lines (showData s.plots), ?_, ?_, ?_, ?_⟩
    · rw [e, lines_line _ _ hterm]
      have c1 : ∀ t, after "plot ".toList ("set ".toList ++ t) = none := by intro t; simp [after]
      have c2 : ∀ t, after "unset ".toList ("set ".toList ++ t) = none := by intro t; simp [after]
      have ht : ∀ t, ("term".toList ++ ' ' :: t).takeWhile (· ≠ ' ') = "term".toList := by
        intro t; simp
      have hd : ∀ t, ("term".toList ++ ' ' :: t).dropWhile (· ≠ ' ') = ' ' :: t := by
        intro t; simp
      simp only [settings, c1, c2, after_append, ht, hd]
      rw [settings_params _ _ hmem, lines_line _ _ hnp]
      simp only [settings, after_append, Option.map_some, List.append_nil, List.drop_succ_cons, List.drop_zero]
    · intro k
      have hl : ∀ m : List (Str × Str), (m.map said).lookup k = (m.lookup k).map (fun v => if v = [] then none else some v) := by
        intro m
        induction m with
        | nil => rfl
        | cons q t ih =>
          simp only [List.map_cons, said, List.lookup]
          cases hq : (k == q.1) with
          | true => simp
          | false => simpa using ih
      rw [hl, foldl_lookup, decided, Option.map_map]
      cases hf : s.calls.reverse.find? (fun c => (wants c).1 == k) with
      | none => rfl
      | some c =>
        have hc : c ∈ s.calls := by simpa using List.mem_of_find?_eq_some hf
        simp only [Option.map_some, Function.comp]
        congr 1
        have hz := ok.calls c hc
        have gen : ∀ w : Option Str, (∀ v, w = some v → v ≠ [] ∧ '\n' ∉ v) →
            (if w.getD [] = [] then none else some (w.getD [])) = w := by
          intro w hz
          cases w with
          | none => simp
          | some v => simp [(hz v rfl).1]
        exact gen _ hz
    · have s2 : ∀ t, sources .out (' ' :: t) = sources .out t := by intro t; simp [sources]
      rw [hcd, sources_dash, s2, (ok.metas p (by simp [hpl])).1,
        sources_plots r 0 (fun q hq => (ok.metas q (by simp [hpl, hq])).1)]
      simp
    · rw [← hpl]
      exact inline_data s.plots ok.points

/-- **A title without backslashes is read as it was given.** -/
theorem title_is_read (special : Char → Str) (s : Str) (h : '\\' ∉ s) :
    (escape s).head? = some '"' ∧ dq special ((escape s).drop 1) = some s := by
  refine ⟨rfl, ?_⟩
  have e : (escape s).drop 1 = escapeBody s ++ ['"'] := by simp [escape]
  rw [e]
  induction s with
  | nil => rfl
  | cons c cs ih =>
    simp only [List.mem_cons, not_or] at h
    have ih := ih h.2 (by simp [escape])
    by_cases hc : c = '"'
    · subst hc
      simp only [escapeBody, if_true, List.cons_append, List.nil_append, dq, ih, Option.map_some]
    · simp only [escapeBody, if_neg hc, List.cons_append, List.nil_append]
      rw [dq]
      · rw [ih]; rfl
      all_goals (intros; simp_all)

/-- **A title which ends with a backslash has no end**: the closing quote is taken for a part of it. -/
theorem backslash_at_the_end (special : Char → Str) (s : Str) (h : '\\' ∉ s) :
    dq special ((escape (s ++ ['\\'])).drop 1) = none := by
  have e : (escape (s ++ ['\\'])).drop 1 = escapeBody (s ++ ['\\']) ++ ['"'] := by simp [escape]
  rw [e]
  clear e
  induction s with
  | nil => rfl
  | cons c cs ih =>
    simp only [List.mem_cons, not_or] at h
    have ih := ih h.2
    by_cases hc : c = '"'
    · subst hc
      simp only [escapeBody, if_true, List.cons_append, List.nil_append, dq, ih, Option.map_none]
    · simp only [escapeBody, if_neg hc, List.cons_append, List.nil_append]
      rw [dq]
      · rw [ih]; rfl
      all_goals (intros; simp_all)

theorem closed_append {a b : Str} (ha : Closed a) (hb : Closed b) : Closed (a ++ b) := by
  intro r; rw [List.append_assoc, ha, hb]

theorem closed_plain {a : Str} (h : '\'' ∉ a ∧ '"' ∉ a) : Closed a := by
  intro r
  induction a with
  | nil => rfl
  | cons c cs ih =>
    simp only [List.mem_cons, not_or] at h
    simp only [List.cons_append, sources, if_neg (Ne.symm h.1.1), if_neg (Ne.symm h.2.1)]
    exact ih ⟨h.1.2, h.2.2⟩

theorem closed_escape {a : Str} (h : '\\' ∉ a) : Closed (escape a) := by
  intro r
  have e : escape a ++ r = '"' :: (escapeBody a ++ '"' :: r) := by simp [escape]
  rw [e]
  have q : sources .out ('"' :: (escapeBody a ++ '"' :: r)) = sources .double (escapeBody a ++ '"' :: r) := by
    simp [sources]
  rw [q]
  clear q e
  induction a with
  | nil => simp [escapeBody, sources]
  | cons c cs ih =>
    simp only [List.mem_cons, not_or] at h
    have ih := ih h.2
    by_cases hc : c = '"'
    · subst hc
      simpa [escapeBody, sources] using ih
    · simpa [escapeBody, sources, hc, Ne.symm h.1] using ih

/-- A piece of metadata which is harmless: no quotes but around the name, no backslashes in it. -/
def Tame : Meta → Prop
  | .name s => '\\' ∉ s
  | .color s => '\'' ∉ s ∧ '"' ∉ s
  | .lineWidth s => '\'' ∉ s ∧ '"' ∉ s
  | .extra s => '\'' ∉ s ∧ '"' ∉ s
  | _ => True

/-- **Metadata made by the setters names no inline source**, even if the name of the plot is `'-'`. -/
theorem metadata_is_closed (l : List Meta) (h : ∀ m ∈ l, Tame m) : Closed (composeMeta l) := by
  have gen : ∀ (l : List Meta) (p : Str × Str), (∀ m ∈ l, Tame m) → Closed p.1 → Closed p.2 →
      Closed (l.foldl metaStep p).1 ∧ Closed (l.foldl metaStep p).2 := by
    intro l
    induction l with
    | nil => intro p _ h1 h2; exact ⟨h1, h2⟩
    | cons m r ih =>
      intro p ht h1 h2
      have hm := ht m (by simp)
      refine ih _ (fun x hx => ht x (by simp [hx])) ?_ ?_
      · have e1 : Closed "lines".toList := closed_plain (by decide)
        have e2 : Closed "points".toList := closed_plain (by decide)
        have e3 : Closed "labels".toList := closed_plain (by decide)
        cases m <;> first | exact h1 | exact e1 | exact e2 | exact e3
      · cases m with
        | name s => exact closed_append h2 (closed_append (closed_plain (by decide)) (closed_escape hm))
        | color s => exact closed_append h2 (closed_append (closed_plain (by decide)) (closed_plain hm))
        | lineWidth s =>
          exact closed_append h2 (closed_append (closed_append (closed_plain (by decide)) (closed_plain hm))
            (closed_plain (by decide)))
        | asPoints => exact h2
        | asLabels => exact h2
        | extra s => exact closed_append h2 (closed_append (closed_plain (by decide)) (closed_plain hm))
  have := gen l ("lines".toList, []) h (closed_plain (by decide)) (closed_plain (by simp))
  exact closed_append (closed_append (closed_plain (by decide)) this.1) this.2

/-- **The style of a plot is what the last of the calls which set a style said — and setting the
width of a line is one of them.** -/
theorem width_makes_lines (l : List Meta) (w : Str) :
    ∃ t, composeMeta (l ++ [.lineWidth w]) = "with lines".toList ++ t := by
  refine ⟨(l.foldl metaStep ("lines".toList, [])).2 ++ (" lw ".toList ++ w ++ " ".toList), ?_⟩
  simp only [composeMeta, List.foldl_append, List.foldl_cons, List.foldl_nil, metaStep]
  rfl

/-! ## Examples -/

/-- A script with two plots. -/
def sample : Script :=
  { format := "gnuplot".toList
    calls := [.title "a".toList, .noKey, .title "say \"b\"".toList]
    plots := [{ points := [["1".toList, "2".toList], ["3".toList, "4".toList]] },
              { points := [["5".toList, "6".toList, "x".toList]], «meta» := composeMeta [.asLabels, .name "'-'".toList] }] }

theorem closed_graph : Closed " t 'Graph' with lines lw 5".toList := by
  intro r; simp [sources]

theorem sample_ok : Ok sample where
  format := by decide
  calls := by
    intro c hc v hv
    simp only [sample, List.mem_cons, List.not_mem_nil, or_false] at hc
    rcases hc with rfl | rfl | rfl
    · obtain rfl := (Option.some.inj hv).symm; decide
    · exact absurd hv (by simp [wants])
    · obtain rfl := (Option.some.inj hv).symm; decide
  plots := by simp [sample]
  metas := by
    intro p hp
    simp only [sample, List.mem_cons, List.not_mem_nil, or_false] at hp
    rcases hp with rfl | rfl
    · exact ⟨closed_graph, by decide⟩
    · refine ⟨metadata_is_closed _ ?_, by decide⟩
      intro m hm
      simp only [List.mem_cons, List.not_mem_nil, or_false] at hm
      rcases hm with rfl | rfl
      · trivial
      · show '\\' ∉ "'-'".toList; decide
  points := by decide

/-- Its text. -/
theorem sample_script : script sample = ("set term gnuplot size 800,800\nset title \"say \\\"b\\\"\"\nunset key\n" ++
    "plot '-'  t 'Graph' with lines lw 5, '-' with labels t \"'-'\"\n1 2\n3 4\nend\n5 6 x\nend\n").toList := by
  decide +kernel

/-- A point whose first field begins with `e` ends the data of its plot, and the next plot gets the
rest. -/
theorem data_cut_short :
    inline 1 [] (lines (showData [{ points := [["east".toList, "1".toList], ["2".toList, "3".toList]] }])) = none := by
  decide +kernel

/-- `AsPoints` and then `LineWidth` makes lines. -/
theorem points_then_width : composeMeta [.asPoints, .lineWidth "3".toList] = "with lines lw 3 ".toList := by
  decide +kernel

end Current.Gnuplot
