import Verif.Persist.Codec
/-!
Progress lines on a terminal (C117): `blocks/xterm/progress.h`, `blocks/xterm/vt100.h`.

The output is a list of characters (code points: `UTF8StringLength`, `bricks/strings/util.h:324-334`, counts them, C70), and it is interpreted by a terminal: what is printed goes into
the cell at the cursor, `\b` moves the cursor left, `\n` to the beginning of the next row, `ESC [ n A` and `ESC [ n B` up and down, `ESC [ n m` changes the colours.

Simplified: the terminal is as large as needed, a code point takes one cell, colours are not part of a cell, and nobody else writes to it.
-/

namespace Current.Xterm

open Current.Persist (Str dec)

/-! ### The terminal (environment) -/

inductive Mode where
  | ground
  /-- After `ESC`. -/
  | esc
  /-- After `ESC [` and digits. -/
  | csi (n : Nat)
  deriving DecidableEq, Repr

structure Term where
  row : Nat
  col : Nat
  cell : Nat → Nat → Char
  mode : Mode := .ground

def escape : Char := Char.ofNat 0x1b
def backspace : Char := Char.ofNat 8

/-- One character arrives. -/
def feed1 (t : Term) (c : Char) : Term :=
  match t.mode with
  | .ground =>
      if c = escape then { t with mode := .esc }
      else if c = backspace then { t with col := t.col - 1 }
      else if c = '\n' then { t with row := t.row + 1, col := 0 }
      else { t with cell := fun r k => if r = t.row ∧ k = t.col then c else t.cell r k, col := t.col + 1 }
  | .esc => if c = '[' then { t with mode := .csi 0 } else { t with mode := .ground }
  | .csi n =>
      if c.isDigit then { t with mode := .csi (n * 10 + (c.toNat - '0'.toNat)) }
      else if c = 'A' then { t with row := t.row - max n 1, mode := .ground }
      else if c = 'B' then { t with row := t.row + max n 1, mode := .ground }
      else { t with mode := .ground }

def feed (t : Term) (s : Str) : Term := s.foldl feed1 t

/-! ### Escape sequences -/

/-- `operator<<(os, E)`, `vt100.h:128-132`. -/
def sgr (code : Nat) : Str := escape :: '[' :: dec code ++ ['m']

/-- `operator<<(os, UD)`, `vt100.h:134-142`, `up(d)` for `d ≥ 0`. -/
def up (d : Nat) : Str := if d = 0 then [] else escape :: '[' :: dec d ++ ['A']

/-- `down(d)`. -/
def down (d : Nat) : Str := if d = 0 then [] else escape :: '[' :: dec d ++ ['B']

/-! ### A status -/

/-- What is put into a status with `<<`. -/
inductive Piece where
  | text (s : Str)
  | code (n : Nat)
  deriving DecidableEq, Repr

/-- `oss_text`, `progress.h:98-109`. -/
def decorated (ps : List Piece) : Str := ps.flatMap fun | .text s => s | .code n => sgr n

/-- `oss_text_with_no_vt100_escape_sequences`. -/
def undecorated (ps : List Piece) : Str := ps.flatMap fun | .text s => s | .code _ => []

/-- A `ProgressLine`: `current_status_`, `current_undecorated_status_`, `current_status_length_`. -/
structure Line where
  status : Str := []
  und : Str := []
  len : Nat := 0

/-- `DoClearString`, `progress.h:55-60`. -/
def clear (n : Nat) : Str := List.replicate n backspace ++ List.replicate n ' ' ++ List.replicate n backspace

/-- `DoUpdate` without `up_`, `progress.h:135-145`: the line and what is written. -/
def Line.update (l : Line) (ps : List Piece) : Line × Str :=
  if decorated ps ≠ l.status then
    ({ status := decorated ps, und := undecorated ps, len := (undecorated ps).length }, clear l.len ++ decorated ps ++ sgr 0)
  else ({ l with und := undecorated ps }, [])

/-- The destructor without `up_`, `progress.h:115-123`. -/
def Line.destroy (l : Line) : Str := if l.len ≠ 0 then clear l.len else []

/-- `DoUpdate` with `up_`, `progress.h:135-161`; `n` is what `up_()` has returned. -/
def Line.updateUp (l : Line) (n : Nat) (ps : List Piece) : Line × Str :=
  if decorated ps ≠ l.status then
    ({ status := decorated ps, und := undecorated ps, len := (undecorated ps).length },
      if (undecorated ps).length > l.len then up (n + 1) ++ decorated ps ++ sgr 0 ++ ['\n'] ++ down n
      else up (n + 1) ++ decorated ps ++ sgr 0 ++ List.replicate (l.len - (undecorated ps).length) ' ' ++ ['\n'] ++ down n)
  else ({ l with und := undecorated ps }, [])

/-- A `ProgressLine` that writes one status after another. -/
def Line.updates : Line → Term → List (List Piece) → Line × Term
  | l, t, [] => (l, t)
  | l, t, ps :: rest => Line.updates (l.update ps).1 (feed t (l.update ps).2) rest

/-! ### Several lines, several threads -/

/-- `MultilineProgress`, and the lines it has made (the indexes start at one). -/
structure Multi where
  term : Term
  total : Nat := 0
  /-- The constructor of the line has returned. -/
  made : Nat → Bool := fun _ => false
  line : Nat → Line := fun _ => {}
  /-- The thread that uses the line is in `DoUpdate`, past the call of `up_()`. -/
  pend : Nat → Option (Nat × List Piece) := fun _ => none

inductive Act where
  /-- `MultilineProgress::operator()`, `progress.h:171-182`, up to the constructor of the line. -/
  | bump
  /-- The constructor of line `k`, `progress.h:64-74`. -/
  | newline (k : Nat)
  /-- A status of line `k` ends: `up_()` is called. (Simplified: also when the status is the same as before.) -/
  | read (k : Nat) (ps : List Piece)
  /-- The rest of `DoUpdate`, with the mutex. -/
  | print (k : Nat)
  deriving DecidableEq, Repr

def Multi.set {α : Type} (f : Nat → α) (k : Nat) (x : α) : Nat → α := fun j => if j = k then x else f j

def step (m : Multi) : Act → Option Multi
  | .bump => some { m with total := m.total + 1 }
  | .newline k => if 0 < k ∧ k ≤ m.total ∧ m.made k = false then some { m with term := feed m.term ['\n'], made := Multi.set m.made k true } else none
  | .read k ps => if m.made k = true ∧ m.pend k = none then some { m with pend := Multi.set m.pend k (some (m.total - k, ps)) } else none
  | .print k =>
      match m.pend k with
      | none => none
      | some (n, ps) =>
          let r := (m.line k).updateUp n ps
          some { m with term := feed m.term r.2, line := Multi.set m.line k r.1, pend := Multi.set m.pend k none }

def run : Multi → List Act → Option Multi
  | m, [] => some m
  | m, a :: as => (step m a).bind fun m' => run m' as

end Current.Xterm
