import Verif.Persist.Codec

/-!
# Named captures in regular expressions (`bricks/strings/regex.h`)

`NamedRegexCapturer` takes a regular expression with groups `(?<name>…)`, which `std::regex` does
not support, finds the number of every group, removes the names, and then gives the text of a
group by its name. The expression is rewritten by another regular expression, which looks at
characters and not at the structure of the expression.

The specification is structural: an expression is a list of tokens (escapes, character classes,
groups of each kind); its capture groups are numbered in the order in which they are opened, as
`std::regex` does. The matching itself is `std::regex`: the texts of the groups of a match are any
list of texts, one for the whole match and one for each capture group.
-/

set_option linter.unusedSimpArgs false
set_option linter.unusedVariables false

namespace Current.NamedRegex

open Current.Persist (Str)

/-! ## The program -/

/-- `\w` (regex.h 75). -/
def word (c : Char) : Bool := c.isAlpha || c.isDigit || c == '_'

/-- `(\?<(\w+)>)?` (regex.h 75): the name, if there is one, and the rest. -/
def takeName : Str → Option (Str × Str)
  | '?' :: '<' :: r =>
    match r.takeWhile word, r.dropWhile word with
    | n :: ns, '>' :: rest => some (n :: ns, rest)
    | _, _ => none
  | _ => none

/-- `(?!\?:)(?!\?=)` (regex.h 75). -/
def excluded : Str → Bool
  | '?' :: ':' :: _ => true
  | '?' :: '=' :: _ => true
  | _ => false

/-- The constructor of `Data` (regex.h 70-88): the loop over the matches of `re_capture_groups`,
with the character before each, and the replacement of the matches. The result is the transformed
expression and the names of the groups. A match is an opening parenthesis and possibly a name,
neither of which has a match inside, so that one pass over the text makes both. The number is a
bound on the length of the text. -/
def scan : Nat → Option Char → Str → Str × List Str
  | 0, _, _ => ([], [])
  | _, _, [] => ([], [])
  | n + 1, prev, '(' :: r =>
    if excluded r then
      let p := scan n (some '(') r
      ('(' :: p.1, p.2)
    else
      match takeName r with
      | some (name, rest) =>
        let p := scan n (some '>') rest
        ('(' :: p.1, if prev = some '\\' then p.2 else name :: p.2)
      | none =>
        let p := scan n (some '(') r
        ('(' :: p.1, if prev = some '\\' then p.2 else [] :: p.2)
  | n + 1, _, c :: r =>
    let p := scan n (some c) r
    (c :: p.1, p.2)

/-- `transformed_re_body` and `group_names` of an expression. -/
def data (s : Str) : Str × List Str := scan (s.length + 1) none s

/-- `group_indexes[name]` (regex.h 79-82): the number of the last group of this name; groups without
a name are not in it. -/
def indexOf (names : List Str) (name : Str) : Option Nat :=
  if name = [] then none
  else match (names.reverse.findIdx? (· == name)) with
    | none => none
    | some i => some (names.length - i)

/-- `operator[]` (regex.h 153-162, 219-228): `groups` is the whole match and then the groups, or
nothing if there is no match. -/
def at_ (names : List Str) (groups : List Str) (name : Str) : Str :=
  match indexOf names name with
  | none => []
  | some i => (groups[i]?).getD []

/-- `Has` (regex.h 142-151, 208-217). -/
def has (names : List Str) (groups : List Str) (name : Str) : Bool :=
  match indexOf names name with
  | none => false
  | some i => match groups[i]? with
    | none => false
    | some t => !t.isEmpty

/-! ## The specification: expressions -/

/-- The tokens of an expression. -/
inductive Tok
  /-- A character which is itself, or a quantifier, an anchor, an alternative. -/
  | ch (c : Char)
  /-- A backslash and a character. -/
  | esc (c : Char)
  /-- A character class, without the brackets. -/
  | cls (s : Str)
  /-- The opening of a capture group. -/
  | cap (name : Option Str)
  /-- `(?:` -/
  | group
  /-- `(?=` -/
  | look
  /-- `(?!` -/
  | neg
  | close
deriving DecidableEq

/-- A token as it is written, with the names. -/
def write : Tok → Str
  | .ch c => [c]
  | .esc c => ['\\', c]
  | .cls s => '[' :: (s ++ [']'])
  | .cap none => ['(']
  | .cap (some n) => '(' :: '?' :: '<' :: (n ++ ['>'])
  | .group => ['(', '?', ':']
  | .look => ['(', '?', '=']
  | .neg => ['(', '?', '!']
  | .close => [')']

/-- An expression as it is written. -/
def writeAll (l : List Tok) : Str := l.flatMap write

/-- The expression without the names. -/
def unnamed (l : List Tok) : List Tok := l.map (fun t => match t with
  | .cap _ => .cap none
  | t => t)

/-- The names of the capture groups, in their order; empty for those without. -/
def captures (l : List Tok) : List Str := l.filterMap (fun t => match t with
  | .cap n => some (n.getD [])
  | _ => none)

/-- Tokens are what they are called. -/
def WellFormed : List Tok → Prop
  | [] => True
  | .ch c :: r => c ≠ '(' ∧ c ≠ ')' ∧ c ≠ '\\' ∧ c ≠ '[' ∧ WellFormed r
  | .cls s :: r => ']' ∉ s ∧ WellFormed r
  | .cap none :: r => (writeAll r).head? ≠ some '?' ∧ WellFormed r
  | .cap (some n) :: r => n ≠ [] ∧ (∀ c ∈ n, word c = true) ∧ WellFormed r
  | _ :: r => WellFormed r

/-- What the program assumes: no parentheses in classes; no capture group right after an escaped
backslash; no negative look-ahead; an escaped parenthesis is not before something like a name. -/
def Assumed : List Tok → Prop
  | [] => True
  | .cls s :: r => '(' ∉ s ∧ Assumed r
  | .neg :: _ => False
  | .esc c :: r => (c = '\\' → ∀ n, r.head? ≠ some (.cap n)) ∧
      (c = '(' → takeName (writeAll r) = none) ∧ Assumed r
  | _ :: r => Assumed r

/-! ## The pass over the text -/

theorem scan_other (n : Nat) (prev : Option Char) (c : Char) (r : Str) (h : c ≠ '(') :
    scan (n + 1) prev (c :: r) = (c :: (scan n (some c) r).1, (scan n (some c) r).2) := by
  rw [scan]
  intro e; exact absurd e h

theorem takeWhile_word (n : Str) (rest : Str) (h : ∀ c ∈ n, word c = true) :
    (n ++ '>' :: rest).takeWhile word = n ∧ (n ++ '>' :: rest).dropWhile word = '>' :: rest := by
  have hw : word '>' = false := by decide
  induction n with
  | nil => simp [hw]
  | cons c cs ih =>
    have h1 := h c (by simp)
    have h2 := ih (fun x hx => h x (by simp [hx]))
    simp [h1, h2.1, h2.2]

theorem takeName_name (n : Str) (rest : Str) (hn : n ≠ []) (h : ∀ c ∈ n, word c = true) :
    takeName ('?' :: '<' :: (n ++ '>' :: rest)) = some (n, rest) := by
  have hh := takeWhile_word n rest h
  cases n with
  | nil => exact absurd rfl hn
  | cons c cs =>
    simp only [takeName, hh.1, hh.2]

theorem takeName_other (r : Str) (h : r.head? ≠ some '?') : takeName r = none := by
  cases r with
  | nil => rfl
  | cons c cs =>
    have : c ≠ '?' := by simpa using h
    rw [takeName]
    intro _ e; simp only [List.cons.injEq] at e; exact absurd e.1 this

theorem excluded_other (r : Str) (h : r.head? ≠ some '?') : excluded r = false := by
  cases r with
  | nil => rfl
  | cons c cs =>
    have : c ≠ '?' := by simpa using h
    rw [excluded]
    · intro _ e; simp only [List.cons.injEq] at e; exact absurd e.1 this
    · intro _ e; simp only [List.cons.injEq] at e; exact absurd e.1 this

/-- Characters which are not parentheses are copied. -/
theorem scan_copy (s : Str) (h : '(' ∉ s) (n : Nat) (prev : Option Char) (r : Str) (hn : s.length ≤ n) :
    scan n prev (s ++ r) = (s ++ (scan (n - s.length) (if s = [] then prev else s.getLast?) r).1,
      (scan (n - s.length) (if s = [] then prev else s.getLast?) r).2) := by
  induction s generalizing n prev with
  | nil => simp
  | cons c cs ih =>
    simp only [List.mem_cons, not_or] at h
    simp only [List.length_cons] at hn
    obtain ⟨m, rfl⟩ : ∃ m, n = m + 1 := ⟨n - 1, by omega⟩
    rw [List.cons_append, scan_other _ _ _ _ (Ne.symm h.1), ih h.2 m (some c) (by omega)]
    have e : m + 1 - (cs.length + 1) = m - cs.length := by omega
    cases cs with
    | nil => simp
    | cons d ds => simp [e]

theorem scan_main (l : List Tok) (hw : WellFormed l) (ha : Assumed l) (n : Nat) (prev : Option Char)
    (hp : prev = some '\\' → ∀ m, l.head? ≠ some (.cap m)) (hn : (writeAll l).length < n) :
    scan n prev (writeAll l) = (writeAll (unnamed l), captures l) := by
  induction l generalizing n prev with
  | nil => cases n <;> rfl
  | cons t r ih =>
    have e : writeAll (t :: r) = write t ++ writeAll r := by simp [writeAll]
    rw [e] at hn ⊢
    simp only [List.length_append] at hn
    cases t with
    | ch c =>
      simp only [WellFormed] at hw
      have ha : Assumed r := ha
      simp only [write, List.length_singleton] at hn
      obtain ⟨m, rfl⟩ : ∃ m, n = m + 1 := ⟨n - 1, by omega⟩
      simp only [write, List.singleton_append]
      rw [scan_other _ _ _ _ hw.1, ih hw.2.2.2.2 ha m (some c) (by
        intro h; exact absurd (Option.some.inj h) hw.2.2.1) (by omega)]
      simp [writeAll, unnamed, captures, write]
    | esc c =>
      have hw : WellFormed r := hw
      simp only [Assumed] at ha
      simp only [write, List.length_cons, List.length_nil] at hn
      obtain ⟨m, rfl⟩ : ∃ m, n = m + 1 + 1 := ⟨n - 2, by omega⟩
      simp only [write, List.cons_append, List.nil_append]
      rw [scan_other _ _ _ _ (by decide)]
      by_cases hc : c = '('
      · subst hc
        have hex : takeName (writeAll r) = none := ha.2.1 rfl
        have hr := ih hw ha.2.2 m (some '(') (by intro h; simp at h) (by omega)
        simp only [scan, hex, hr]
        split <;> simp [writeAll, unnamed, captures, write]
      · rw [scan_other _ _ _ _ hc, ih hw ha.2.2 m (some c) (by
          intro h; exact ha.1 (Option.some.inj h)) (by omega)]
        simp [writeAll, unnamed, captures, write]
    | cls s =>
      simp only [WellFormed] at hw
      simp only [Assumed] at ha
      have hs : '(' ∉ write (.cls s) := by simp [write, ha.1]
      rw [scan_copy _ hs n prev _ (by omega)]
      have hl : (if write (.cls s) = [] then prev else (write (.cls s)).getLast?) = some ']' := by
        have e1 : write (.cls s) ≠ [] := by simp [write]
        rw [if_neg e1]
        have e2 : write (.cls s) = ('[' :: s) ++ [']'] := by simp [write]
        rw [e2, List.getLast?_append]
        simp
      rw [hl, ih hw.2 ha.2 _ (some ']') (by intro h; simp at h) (by omega)]
      simp [writeAll, unnamed, captures]
    | cap nm =>
      have hpp : prev ≠ some '\\' := by
        intro h; exact hp h nm rfl
      cases nm with
      | none =>
        simp only [WellFormed] at hw
        have ha : Assumed r := ha
        simp only [write, List.length_singleton] at hn
        obtain ⟨m, rfl⟩ : ∃ m, n = m + 1 := ⟨n - 1, by omega⟩
        have hr := ih hw.2 ha m (some '(') (by intro h; simp at h) (by omega)
        simp only [write, List.singleton_append, scan, excluded_other _ hw.1, takeName_other _ hw.1, hr,
          Bool.false_eq_true, if_false, if_neg hpp]
        simp [writeAll, unnamed, captures, write]
      | some nm =>
        simp only [WellFormed] at hw
        have ha : Assumed r := ha
        simp only [write, List.length_cons, List.length_append, List.length_nil] at hn
        obtain ⟨m, rfl⟩ : ∃ m, n = m + 1 := ⟨n - 1, by omega⟩
        have hr := ih hw.2.2 ha m (some '>') (by intro h; simp at h) (by omega)
        have e1 : write (.cap (some nm)) ++ writeAll r = '(' :: '?' :: '<' :: (nm ++ '>' :: writeAll r) := by
          simp [write]
        rw [e1]
        have hx : excluded ('?' :: '<' :: (nm ++ '>' :: writeAll r)) = false := rfl
        simp only [scan, hx, takeName_name nm _ hw.1 hw.2.1, hr, Bool.false_eq_true, if_false, if_neg hpp]
        simp [writeAll, unnamed, captures, write]
    | group =>
      have hw : WellFormed r := hw
      have ha : Assumed r := ha
      simp only [write, List.length_cons, List.length_nil] at hn
      obtain ⟨m, rfl⟩ : ∃ m, n = m + 1 + 1 + 1 := ⟨n - 3, by omega⟩
      have hr := ih hw ha m (some ':') (by intro h; simp at h) (by omega)
      have hx : excluded ('?' :: ':' :: writeAll r) = true := rfl
      simp only [write, List.cons_append, List.nil_append]
      rw [scan]
      simp only [hx, if_true]
      rw [scan_other _ _ _ _ (by decide), scan_other _ _ _ _ (by decide), hr]
      simp [writeAll, unnamed, captures, write]
    | look =>
      have hw : WellFormed r := hw
      have ha : Assumed r := ha
      simp only [write, List.length_cons, List.length_nil] at hn
      obtain ⟨m, rfl⟩ : ∃ m, n = m + 1 + 1 + 1 := ⟨n - 3, by omega⟩
      have hr := ih hw ha m (some '=') (by intro h; simp at h) (by omega)
      have hx : excluded ('?' :: '=' :: writeAll r) = true := rfl
      simp only [write, List.cons_append, List.nil_append]
      rw [scan]
      simp only [hx, if_true]
      rw [scan_other _ _ _ _ (by decide), scan_other _ _ _ _ (by decide), hr]
      simp [writeAll, unnamed, captures, write]
    | neg => exact absurd ha (by simp [Assumed])
    | close =>
      have hw : WellFormed r := hw
      have ha : Assumed r := ha
      simp only [write, List.length_singleton] at hn
      obtain ⟨m, rfl⟩ : ∃ m, n = m + 1 := ⟨n - 1, by omega⟩
      simp only [write, List.singleton_append]
      rw [scan_other _ _ _ _ (by decide), ih hw ha m (some ')') (by intro h; simp at h) (by omega)]
      simp [writeAll, unnamed, captures, write]

/-! ## The theorems -/

/-- **The transformed expression is the expression without the names, and the names are those of the
capture groups, in their order** — for the expressions which the program understands. -/
theorem names_are_right_partial (l : List Tok) (hw : WellFormed l) (ha : Assumed l) :
    data (writeAll l) = (writeAll (unnamed l), captures l) :=
  scan_main l hw ha _ none (by intro h; simp at h) (by omega)

/-- The transformed expression has no names, so that `std::regex` understands it, and has as many
capture groups. -/
theorem transformed_has_no_names (l : List Tok) :
    (captures (unnamed l)) = List.replicate (captures l).length [] := by
  induction l with
  | nil => rfl
  | cons t r ih =>
    simp only [captures, unnamed] at ih
    cases t <;> simp [captures, unnamed, List.replicate_succ] <;> simpa using ih

/-- **The text of a group is found by its name**: if the `i`-th capture group has a name which no
later group has, its text is what the name gives. -/
theorem at_gives_the_group (names : List Str) (groups : List Str) (i : Nat) (name t : Str)
    (hn : names[i]? = some name) (hne : name ≠ []) (hlast : ∀ j, i < j → names[j]? ≠ some name)
    (ht : groups[i + 1]? = some t) :
    at_ names groups name = t ∧ has names groups name = !t.isEmpty := by
  have hi : i < names.length := by
    rcases Nat.lt_or_ge i names.length with h | h
    · exact h
    · rw [List.getElem?_eq_none h] at hn; cases hn
  have hx : indexOf names name = some (i + 1) := by
    have hf : names.reverse.findIdx? (· == name) = some (names.length - 1 - i) := by
      rw [List.findIdx?_eq_some_iff_getElem]
      refine ⟨by simp; omega, ?_, ?_⟩
      · rw [List.getElem_reverse]
        have : names.length - 1 - (names.length - 1 - i) = i := by omega
        simp only [this]
        rw [List.getElem?_eq_getElem hi] at hn
        simpa using Option.some.inj hn
      · intro j hj
        rw [List.getElem_reverse]
        have hj' : names.length - 1 - j < names.length := by omega
        have := hlast (names.length - 1 - j) (by omega)
        rw [List.getElem?_eq_getElem hj'] at this
        simpa using this
    simp only [indexOf, if_neg hne, hf]
    congr 1
    omega
  simp only [at_, has, hx, ht, Option.getD_some]
  exact ⟨trivial, trivial⟩

/-- A name which no group has gives nothing. -/
theorem at_unknown (names groups : List Str) (name : Str) (h : name ∉ names) :
    at_ names groups name = [] ∧ has names groups name = false := by
  have hx : indexOf names name = none := by
    simp only [indexOf]
    split
    · rfl
    · have hf : names.reverse.findIdx? (· == name) = none := by
        rw [List.findIdx?_eq_none_iff]
        intro x hx
        have : x ∈ names := by simpa using hx
        simp only [beq_eq_false_iff_ne]
        intro e; subst e; exact h this
      rw [hf]
  simp [at_, has, hx]

/-- Without a match every name gives nothing. -/
theorem at_no_match (names : List Str) (name : Str) : at_ names [] name = [] ∧ has names [] name = false := by
  simp only [at_, has]
  split
  · exact ⟨rfl, rfl⟩
  · simp

/-- **Together**: for an expression which the program understands and a match of the expression
without the names, each name which is used once gives the text of its group. -/
theorem named_group_partial (l : List Tok) (hw : WellFormed l) (ha : Assumed l) (groups : List Str)
    (hg : groups.length = (captures l).length + 1) (i : Nat) (name : Str)
    (hn : (captures l)[i]? = some name) (hne : name ≠ []) (hone : ∀ j, i < j → (captures l)[j]? ≠ some name) :
    some (at_ (data (writeAll l)).2 groups name) = groups[i + 1]? := by
  rw [names_are_right_partial l hw ha]
  have hi : i < (captures l).length := by
    rcases Nat.lt_or_ge i (captures l).length with h | h
    · exact h
    · rw [List.getElem?_eq_none h] at hn; cases hn
  have hlt : i + 1 < groups.length := by omega
  rw [List.getElem?_eq_getElem hlt,
    (at_gives_the_group (captures l) groups i name _ hn hne hone (List.getElem?_eq_getElem hlt)).1]

/-! ## Examples, and expressions which the program does not understand -/

/-- `^(?<y>\d+)-(?:a|(b))\((?<m>[0-9]+)$` -/
def sample : List Tok :=
  [.ch '^', .cap (some "y".toList), .esc 'd', .ch '+', .close, .ch '-', .group, .ch 'a', .ch '|', .cap none, .ch 'b',
    .close, .close, .esc '(', .cap (some "m".toList), .cls "0-9".toList, .ch '+', .close, .ch '$']

theorem sample_understood : WellFormed sample ∧ Assumed sample := by
  constructor
  · refine ⟨by decide, by decide, by decide, by decide, by decide, by decide, ?_⟩
    refine ⟨by decide, by decide, by decide, by decide, ?_⟩
    refine ⟨by decide, by decide, by decide, by decide, ?_⟩
    refine ⟨by decide, by decide, by decide, by decide, ?_⟩
    refine ⟨by decide, by decide, by decide, by decide, ?_⟩
    refine ⟨by decide, ?_⟩
    refine ⟨by decide, by decide, by decide, by decide, ?_⟩
    refine ⟨by decide, by decide, by decide, ?_⟩
    refine ⟨by decide, by decide, by decide, by decide, ?_⟩
    exact ⟨by decide, by decide, by decide, by decide, trivial⟩
  · exact ⟨fun h => absurd h (by decide), fun h => absurd h (by decide), fun h => absurd h (by decide),
      fun _ => by decide, by decide, trivial⟩

theorem sample_data : data "^(?<y>\\d+)-(?:a|(b))\\((?<m>[0-9]+)$".toList =
    ("^(\\d+)-(?:a|(b))\\(([0-9]+)$".toList, ["y".toList, [], "m".toList]) := by
  decide +kernel

/-- **A parenthesis in a character class is counted**: in `[(](?<x>a)` the name `x` is of the second
group, and there is only one. -/
theorem class_is_counted : data "[(](?<x>a)".toList = ("[(](a)".toList, [[], "x".toList]) ∧
    captures [.cls "(".toList, .cap (some "x".toList), .ch 'a', .close] = ["x".toList] := by
  decide +kernel

/-- … and so the name gives nothing when the expression matches `(a`. -/
theorem class_loses_the_group : at_ (data "[(](?<x>a)".toList).2 ["(a".toList, "a".toList] "x".toList = [] := by
  decide +kernel

/-- **A negative look-ahead is counted**: in `(?!b)(?<x>\w)(?<y>\w)` the name `x` gives the text of `y`. -/
theorem negative_is_counted : data "(?!b)(?<x>\\w)(?<y>\\w)".toList =
      ("(?!b)(\\w)(\\w)".toList, [[], "x".toList, "y".toList]) ∧
    at_ (data "(?!b)(?<x>\\w)(?<y>\\w)".toList).2 ["pq".toList, "p".toList, "q".toList] "x".toList = "q".toList := by
  decide +kernel

/-- **A group after an escaped backslash is not counted**: `\\(?<x>a)` has no name `x`. -/
theorem escaped_backslash_hides : data "\\\\(?<x>a)".toList = ("\\\\(a)".toList, []) := by
  decide +kernel

/-- **The text is changed where there is no group**: `\(?<x>`, an optional parenthesis and then
`<x>`, becomes `\(`. -/
theorem text_is_changed : data "\\(?<x>".toList = ("\\(".toList, []) := by
  decide +kernel

/-- Of two groups of one name the last counts. -/
theorem same_name : at_ ["x".toList, "x".toList] ["pq".toList, "p".toList, "q".toList] "x".toList = "q".toList := by
  decide +kernel

/-- For every expression with a negative look-ahead before what the program understands, every name
is given the number of the group after it. -/
theorem negative_shifts (l : List Tok) (hw : WellFormed l) (ha : Assumed l) :
    (data (writeAll (.neg :: l))).2 = [] :: captures l := by
  have hr := scan_main l hw ha ((writeAll l).length + 1) (some '!') (by intro h; simp at h) (by omega)
  have e : writeAll (.neg :: l) = '(' :: '?' :: '!' :: writeAll l := by simp [writeAll, write]
  rw [e, data]
  have el : ('(' :: '?' :: '!' :: writeAll l).length + 1 = (writeAll l).length + 1 + 1 + 1 + 1 := by simp
  rw [el, scan]
  have hx : excluded ('?' :: '!' :: writeAll l) = false := rfl
  have ht : takeName ('?' :: '!' :: writeAll l) = none := rfl
  simp only [hx, ht, Bool.false_eq_true, if_false]
  rw [scan_other _ _ _ _ (by decide), scan_other _ _ _ _ (by decide), hr]
  simp

end Current.NamedRegex
