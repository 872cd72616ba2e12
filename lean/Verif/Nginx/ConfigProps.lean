import Verif.Nginx.Config

/-!
# What nginx reads (C121)

A reader of configuration files, written after the rules of nginx (a directive is words and `;`, or
words and a block in braces; words are separated by white space or quoted; `#` starts a comment),
and the proof that it reads a printed configuration as the tree of directives that was built.

Backslashes are not read: the reader fails on them, so a theorem says nothing about parameters with
backslashes.
-/

set_option linter.unusedSimpArgs false

namespace Current.Nginx

open Current.Persist

/-! ## The reader -/

/-- A directive as nginx understands it: its words, the name first, and what is in its block. -/
inductive Item where
  | simple (words : List Str)
  | block (words : List Str) (items : List Item)

/-- A token. -/
inductive Tok where
  | word (w : Str)
  | semicolon
  | opening
  | closing
deriving DecidableEq, Repr

/-- White space. -/
def isSpace (c : Char) : Bool := c = ' ' || c = '\t' || c = '\r' || c = '\n'

/-- Where the reader is: between words, in a word (the characters so far, last first), in double or
single quotes, right after a closing quote, in a comment. -/
inductive Mode where
  | gap
  | word (acc : Str)
  | dq (acc : Str)
  | sq (acc : Str)
  | quoted
  | comment

/-- Characters to tokens. -/
def lex : Mode → Str → Option (List Tok)
  | .gap, [] => some []
  | .comment, [] => some []
  | _, [] => none
  | .gap, c :: r =>
    if isSpace c then lex .gap r
    else if c = ';' then (lex .gap r).map (.semicolon :: ·)
    else if c = '{' then (lex .gap r).map (.opening :: ·)
    else if c = '}' then (lex .gap r).map (.closing :: ·)
    else if c = '#' then lex .comment r
    else if c = '"' then lex (.dq []) r
    else if c = '\'' then lex (.sq []) r
    else if c = '\\' then none
    else lex (.word [c]) r
  | .word acc, c :: r =>
    if isSpace c then (lex .gap r).map (.word acc.reverse :: ·)
    else if c = ';' then (lex .gap r).map (.word acc.reverse :: .semicolon :: ·)
    else if c = '{' then (lex .gap r).map (.word acc.reverse :: .opening :: ·)
    else if c = '\\' then none
    else lex (.word (c :: acc)) r
  | .dq acc, c :: r =>
    if c = '"' then (lex .quoted r).map (.word acc.reverse :: ·)
    else if c = '\\' then none
    else lex (.dq (c :: acc)) r
  | .sq acc, c :: r =>
    if c = '\'' then (lex .quoted r).map (.word acc.reverse :: ·)
    else if c = '\\' then none
    else lex (.sq (c :: acc)) r
  | .quoted, c :: r =>
    if isSpace c then lex .gap r
    else if c = ';' then (lex .gap r).map (.semicolon :: ·)
    else if c = '{' then (lex .gap r).map (.opening :: ·)
    else none
  | .comment, c :: r => if c = '\n' then lex .gap r else lex .comment r

/-- Tokens to directives: the words so far, the directives of the block so far (both last first),
and the blocks around it. -/
def parse : List Tok → List Str → List Item → List (List Str × List Item) → Option (List Item)
  | [], ws, items, stack => if ws = [] ∧ stack.isEmpty then some items.reverse else none
  | .word w :: ts, ws, items, stack => parse ts (w :: ws) items stack
  | .semicolon :: ts, ws, items, stack =>
    if ws = [] then none else parse ts [] (.simple ws.reverse :: items) stack
  | .opening :: ts, ws, items, stack =>
    if ws = [] then none else parse ts [] [] ((ws.reverse, items) :: stack)
  | .closing :: ts, ws, items, stack =>
    if ws = [] then
      match stack with
      | [] => none
      | (bw, outer) :: st => parse ts [] (.block bw items.reverse :: outer) st
    else none

/-- What nginx makes of the text of a file; `none`: it refuses it (or there is a backslash). -/
def read (text : Str) : Option (List Item) := (lex .gap text).bind (parse · [] [] [])

/-! ## Well-formed parameters -/

/-- A word that needs no quotes. -/
def Plain (w : Str) : Prop :=
  w ≠ [] ∧ (∀ c ∈ w, isSpace c = false ∧ c ≠ ';' ∧ c ≠ '{' ∧ c ≠ '\\') ∧
  ∀ c, w.head? = some c → c ≠ '}' ∧ c ≠ '#' ∧ c ≠ '"' ∧ c ≠ '\''

/-- A text that is a sequence of words: plain ones, or in quotes, with white space between. -/
inductive Words : Str → List Str → Prop where
  | nil : Words [] []
  | space {c s ws} : isSpace c = true → Words s ws → Words (c :: s) ws
  | plainEnd {w} : Plain w → Words w [w]
  | plain {w c s ws} : Plain w → isSpace c = true → Words s ws → Words (w ++ c :: s) (w :: ws)
  | dqEnd {w} : (∀ c ∈ w, c ≠ '"' ∧ c ≠ '\\') → Words ('"' :: w ++ ['"']) [w]
  | dq {w c s ws} : (∀ c ∈ w, c ≠ '"' ∧ c ≠ '\\') → isSpace c = true → Words s ws →
      Words ('"' :: w ++ '"' :: c :: s) (w :: ws)
  | sqEnd {w} : (∀ c ∈ w, c ≠ '\'' ∧ c ≠ '\\') → Words ('\'' :: w ++ ['\'']) [w]
  | sq {w c s ws} : (∀ c ∈ w, c ≠ '\'' ∧ c ≠ '\\') → isSpace c = true → Words s ws →
      Words ('\'' :: w ++ '\'' :: c :: s) (w :: ws)

/-- The directives that a configuration stands for: each has a plain name, and parameters that are
a sequence of words. -/
inductive Means : Conf → List Item → Prop where
  | nil : Means .nil []
  | simple {n p ws rest is} : Plain n → Words p ws → Means rest is →
      Means (.simple n p rest) (.simple (n :: ws) :: is)
  | block {k n p ws kids ks rest is} : Plain n → Words p ws → Means kids ks → Means rest is →
      Means (.block k n p kids rest) (.block (n :: ws) ks :: is)

/-! ## Reading what was printed -/

theorem lex_spaces (s r : Str) (h : ∀ c ∈ s, isSpace c = true) : lex .gap (s ++ r) = lex .gap r := by
  induction s with
  | nil => rfl
  | cons c s ih =>
    rw [List.cons_append, lex, if_pos (h c (by simp))]
    exact ih fun c hc => h c (by simp [hc])

theorem lex_word_body (w acc r : Str)
    (h : ∀ c ∈ w, isSpace c = false ∧ c ≠ ';' ∧ c ≠ '{' ∧ c ≠ '\\') :
    lex (.word acc) (w ++ r) = lex (.word (w.reverse ++ acc)) r := by
  induction w generalizing acc with
  | nil => rfl
  | cons c w ih =>
    obtain ⟨h1, h2, h3, h4⟩ := h c (by simp)
    rw [List.cons_append, lex, if_neg (by simp [h1]), if_neg h2, if_neg h3, if_neg h4, ih]
    · simp
    · exact fun c hc => h c (by simp [hc])

theorem lex_plain (w r : Str) (h : Plain w) : lex .gap (w ++ r) = lex (.word w.reverse) r := by
  obtain ⟨h1, h2, h3⟩ := h
  cases w with
  | nil => exact absurd rfl h1
  | cons c w =>
    obtain ⟨a1, a2, a3, a4⟩ := h2 c (by simp)
    obtain ⟨b1, b2, b3, b4⟩ := h3 c rfl
    rw [List.cons_append, lex, if_neg (by simp [a1]), if_neg a2, if_neg a3, if_neg b1, if_neg b2,
      if_neg b3, if_neg b4, if_neg a4, lex_word_body]
    · simp
    · exact fun c hc => h2 c (by simp [hc])

theorem lex_dq (w acc r : Str) (h : ∀ c ∈ w, c ≠ '"' ∧ c ≠ '\\') :
    lex (.dq acc) (w ++ '"' :: r) = (lex .quoted r).map (.word (acc.reverse ++ w) :: ·) := by
  induction w generalizing acc with
  | nil => simp [lex]
  | cons c w ih =>
    obtain ⟨h1, h2⟩ := h c (by simp)
    rw [List.cons_append, lex, if_neg h1, if_neg h2, ih]
    · simp
    · exact fun c hc => h c (by simp [hc])

theorem lex_sq (w acc r : Str) (h : ∀ c ∈ w, c ≠ '\'' ∧ c ≠ '\\') :
    lex (.sq acc) (w ++ '\'' :: r) = (lex .quoted r).map (.word (acc.reverse ++ w) :: ·) := by
  induction w generalizing acc with
  | nil => simp [lex]
  | cons c w ih =>
    obtain ⟨h1, h2⟩ := h c (by simp)
    rw [List.cons_append, lex, if_neg h1, if_neg h2, ih]
    · simp
    · exact fun c hc => h c (by simp [hc])

/-- What may follow the words of a directive. -/
def Ends (r : Str) : Prop := ∃ r', r = ';' :: r' ∨ r = ' ' :: r'

theorem lex_word_end (w r : Str) (h : Ends r) :
    lex (.word w.reverse) r = (lex .gap r).map (.word w :: ·) := by
  obtain ⟨r', rfl | rfl⟩ := h
  · cases h : lex .gap r' <;> simp [lex, isSpace, h]
  · simp [lex, isSpace]

theorem lex_quoted_end (r : Str) (h : Ends r) : lex .quoted r = lex .gap r := by
  obtain ⟨r', rfl | rfl⟩ := h <;> simp [lex, isSpace]

theorem lex_words {s : Str} {ws : List Str} (h : Words s ws) (r : Str) (he : Ends r) :
    lex .gap (s ++ r) = (lex .gap r).map (ws.map Tok.word ++ ·) := by
  induction h with
  | nil => simp
  | @space c s ws hc _ ih => rw [List.cons_append, lex, if_pos hc, ih]
  | @plainEnd w hw => rw [lex_plain _ _ hw, lex_word_end _ _ he]; rfl
  | @plain w c s ws hw hc _ ih =>
    rw [List.append_assoc, lex_plain _ _ hw, List.cons_append, lex, if_pos hc, ih]
    cases lex .gap r <;> simp
  | @dqEnd w hw =>
    have : '"' :: w ++ ['"'] ++ r = '"' :: (w ++ '"' :: r) := by simp
    rw [this, lex]
    simp only [isSpace]
    rw [if_neg (by decide), if_neg (by decide), if_neg (by decide), if_neg (by decide),
      if_neg (by decide), if_pos trivial, lex_dq _ _ _ hw, lex_quoted_end _ he]
    rfl
  | @dq w c s ws hw hc _ ih =>
    have : '"' :: w ++ '"' :: c :: s ++ r = '"' :: (w ++ '"' :: c :: (s ++ r)) := by simp
    rw [this, lex]
    simp only [isSpace]
    rw [if_neg (by decide), if_neg (by decide), if_neg (by decide), if_neg (by decide),
      if_neg (by decide), if_pos trivial, lex_dq _ _ _ hw, lex, if_pos hc, ih]
    cases lex .gap r <;> simp
  | @sqEnd w hw =>
    have : '\'' :: w ++ ['\''] ++ r = '\'' :: (w ++ '\'' :: r) := by simp
    rw [this, lex]
    simp only [isSpace]
    rw [if_neg (by decide), if_neg (by decide), if_neg (by decide), if_neg (by decide),
      if_neg (by decide), if_neg (by decide), if_pos trivial, lex_sq _ _ _ hw, lex_quoted_end _ he]
    rfl
  | @sq w c s ws hw hc _ ih =>
    have : '\'' :: w ++ '\'' :: c :: s ++ r = '\'' :: (w ++ '\'' :: c :: (s ++ r)) := by simp
    rw [this, lex]
    simp only [isSpace]
    rw [if_neg (by decide), if_neg (by decide), if_neg (by decide), if_neg (by decide),
      if_neg (by decide), if_neg (by decide), if_pos trivial, lex_sq _ _ _ hw, lex, if_pos hc, ih]
    cases lex .gap r <;> simp

theorem words_header {n p : Str} {ws : List Str} (hn : Plain n) (hp : Words p ws) :
    Words (header n p) (n :: ws) := by
  simp only [header]
  split
  · rename_i h
    subst h
    have : ws = [] := by
      generalize hs : ([] : Str) = s at hp
      cases hp <;> first | rfl | (simp at hs; done) | skip
      rename_i hw; exact absurd hs.symm hw.1
    subst this
    exact .plainEnd hn
  · exact .plain hn rfl hp

theorem indent_spaces (i : Nat) : ∀ c ∈ indent i, isSpace c = true := by
  intro c hc
  simp only [indent, List.mem_flatten, List.mem_replicate] at hc
  obtain ⟨l, ⟨_, rfl⟩, hc⟩ := hc
  simp at hc
  subst hc; rfl

/-- The tokens of a list of directives. -/
inductive Toks : List Item → List Tok → Prop where
  | nil : Toks [] []
  | simple {w ws is ts} : Toks is ts →
      Toks (.simple (w :: ws) :: is) ((w :: ws).map Tok.word ++ .semicolon :: ts)
  | block {w ws ks kts is ts} : Toks ks kts → Toks is ts →
      Toks (.block (w :: ws) ks :: is)
        ((w :: ws).map Tok.word ++ .opening :: kts ++ .closing :: ts)

theorem lex_print {c : Conf} {items : List Item} (h : Means c items) :
    ∃ ts, Toks items ts ∧ ∀ (i : Nat) (r : Str),
      lex .gap (c.print i ++ r) = (lex .gap r).map (ts ++ ·) := by
  induction h with
  | nil => exact ⟨[], .nil, fun i r => by simp [Conf.print]⟩
  | @simple n p ws rest is hn hp _ ih =>
    obtain ⟨ts, ht, hl⟩ := ih
    refine ⟨_, .simple (w := n) (ws := ws) ht, fun i r => ?_⟩
    have : (Conf.simple n p rest).print i ++ r =
        indent i ++ (header n p ++ ';' :: '\n' :: (rest.print i ++ r)) := by simp [Conf.print]
    rw [this, lex_spaces _ _ (indent_spaces i), lex_words (words_header hn hp) _ ⟨_, Or.inl rfl⟩]
    have e : lex .gap (';' :: '\n' :: (rest.print i ++ r)) =
        (lex .gap (rest.print i ++ r)).map (.semicolon :: ·) := by simp [lex, isSpace]
    rw [e, hl]
    cases lex .gap r <;> simp
  | @block k n p ws kids ks rest is hn hp _ _ ih1 ih2 =>
    obtain ⟨kts, hk, hkl⟩ := ih1
    obtain ⟨ts, ht, hl⟩ := ih2
    refine ⟨_, .block (w := n) (ws := ws) hk ht, fun i r => ?_⟩
    have : (Conf.block k n p kids rest).print i ++ r =
        indent i ++ (header n p ++ ' ' :: '{' :: '\n' :: (kids.print (i + 1) ++
          (indent i ++ '}' :: '\n' :: (rest.print i ++ r)))) := by simp [Conf.print]
    rw [this, lex_spaces _ _ (indent_spaces i), lex_words (words_header hn hp) _ ⟨_, Or.inr rfl⟩]
    have e : ∀ x, lex .gap (' ' :: '{' :: '\n' :: x) = (lex .gap x).map (.opening :: ·) := by
      intro x; simp [lex, isSpace]
    have e' : ∀ x, lex .gap ('}' :: '\n' :: x) = (lex .gap x).map (.closing :: ·) := by
      intro x; simp [lex, isSpace]
    rw [e, hkl, lex_spaces _ _ (indent_spaces i), e', hl]
    cases lex .gap r <;> simp

theorem parse_words (ws : List Str) (ts : List Tok) (acc : List Str) (items : List Item)
    (st : List (List Str × List Item)) :
    parse (ws.map Tok.word ++ ts) acc items st = parse ts (ws.reverse ++ acc) items st := by
  induction ws generalizing acc with
  | nil => rfl
  | cons w ws ih => simp [parse, ih]

theorem parse_toks {is : List Item} {ts : List Tok} (h : Toks is ts) (r : List Tok)
    (items : List Item) (st : List (List Str × List Item)) :
    parse (ts ++ r) [] items st = parse r [] (is.reverse ++ items) st := by
  induction h generalizing r items st with
  | nil => rfl
  | @simple w ws is ts _ ih =>
    rw [List.append_assoc, parse_words]
    simp only [List.cons_append, List.append_nil, parse]
    rw [if_neg (by simp), ih]
    simp
  | @block w ws ks kts is ts _ _ ih1 ih2 =>
    have : (w :: ws).map Tok.word ++ .opening :: kts ++ .closing :: ts ++ r =
        (w :: ws).map Tok.word ++ (.opening :: (kts ++ (.closing :: (ts ++ r)))) := by simp
    rw [this, parse_words]
    simp only [parse, List.append_nil]
    rw [if_neg (by simp), ih1]
    simp only [parse, if_true, List.append_nil, List.reverse_reverse]
    rw [ih2]
    simp

/-- **nginx reads the directives that were built**: for any configuration whose names are plain
words and whose parameters are sequences of words, printed with any indentation, nginx reads
exactly the same directives with the same parameters in the same order and the same blocks. -/
theorem print_read {c : Conf} {items : List Item} (h : Means c items) (i : Nat) :
    read (c.print i) = some items := by
  obtain ⟨ts, ht, hl⟩ := lex_print h
  have := hl i []
  rw [List.append_nil] at this
  rw [read, this]
  simp only [lex, Option.map_some, List.append_nil, Option.bind_some]
  have := parse_toks ht [] [] []
  rw [List.append_nil] at this
  rw [this]
  simp [parse]

theorem means_append {c d : Conf} {is js : List Item} (hc : Means c is) (hd : Means d js) :
    Means (c.append d) (is ++ js) := by
  induction hc with
  | nil => exact hd
  | simple hn hp _ ih => exact .simple hn hp ih
  | block hn hp hk _ _ ih => exact .block hn hp hk ih

theorem print_append (c d : Conf) (i : Nat) : (c.append d).print i = c.print i ++ d.print i := by
  induction c generalizing i with
  | nil => rfl
  | simple n p rest ih => simp [Conf.append, Conf.print, ih]
  | block k n p kids rest _ ih => simp [Conf.append, Conf.print, ih]

theorem plain_of_all {w : Str} (h0 : w ≠ [])
    (h : ∀ c ∈ w, isSpace c = false ∧ c ≠ ';' ∧ c ≠ '{' ∧ c ≠ '\\' ∧ c ≠ '}' ∧ c ≠ '#' ∧ c ≠ '"' ∧
      c ≠ '\'') : Plain w := by
  refine ⟨h0, fun c hc => ?_, fun c hc => ?_⟩
  · obtain ⟨a, b, c', d, _⟩ := h c hc; exact ⟨a, b, c', d⟩
  · have : c ∈ w := by cases w <;> simp_all
    obtain ⟨_, _, _, _, a, b, c', d⟩ := h c this; exact ⟨a, b, c', d⟩

/-- **nginx reads a whole configuration**: the directives that were added, then one `http` block
with what was added to it. -/
theorem full_read {f : Full} {is hs : List Item} (hd : Means f.directives is)
    (hh : Means f.http hs) :
    read f.print = some (is ++ [.block ["http".toList] hs]) := by
  have hp : Plain "http".toList := plain_of_all (by decide) (by decide)
  have : f.print = (f.directives.append (.block .plain "http".toList [] f.http .nil)).print 0 := by
    rw [print_append]; rfl
  rw [this]
  exact print_read (means_append hd (.block hp .nil hh .nil)) 0

end Current.Nginx
