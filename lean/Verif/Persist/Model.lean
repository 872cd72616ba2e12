/-
Model of the in-memory persister, `blocks/persistence/memory.h`, and of the shared vocabulary of both
persisters (`blocks/ss/idx_ts.h`, `blocks/persistence/exceptions.h`, `blocks/ss/exceptions.h`).
-/
namespace Current.Persist

/-- A string of bytes. A byte is modelled as a `Char`; the code only compares bytes for equality. -/
abbrev Str := List Char

/-- `current::ss::IndexAndTimestamp` (`blocks/ss/idx_ts.h:48-54`). `index : uint64_t` is modelled as `Nat`,
`us : std::chrono::microseconds` as `Int`. -/
structure IdxTs where
  index : Nat
  us : Int
  deriving DecidableEq, Repr

/-- The exceptions the persisters throw (`blocks/persistence/exceptions.h:36-73`, `blocks/ss/exceptions.h`).
`parseError` is the exception of `ParseJSON`; `endOfFile` is the bare `current::Exception()` of
`file.h:313` and `file.h:373`. The payload of the string-carrying ones is dropped. -/
inductive Err where
  | inconsistentTimestamp (expected found : Int)
  | inconsistentIndex (expected found : Nat)
  | unsafeBadIndex (expected found : Nat)
  | malformedEntry
  | parseError
  | invalidRange
  | noEntries
  | invalidSignature
  | invalidSignatureLocation
  | endOfFile
  deriving DecidableEq, Repr

/-- What the code needs from JSON serialisation. `putIdx`/`getIdx` are `JSON(idxts_t)` and
`ParseJSON<idxts_t>`, `put`/`get` the same for the entry type; `none` is a thrown `ParseJSON` exception. -/
structure Codec (E : Type) where
  putIdx : IdxTs → Str
  getIdx : Str → Option IdxTs
  put : E → Str
  get : Str → Option E

/-- `raw_log_line.find('\t')` followed by the two `substr` calls, `memory.h:172-176`, `file.h:477-481`,
`file.h:87-91`: the part before the first tab and the part after it. -/
def splitTab : Str → Option (Str × Str)
  | [] => none
  | c :: cs =>
    if c = '\t' then some ([], cs)
    else match splitTab cs with
      | none => none
      | some (a, b) => some (c :: a, b)

/-- `MemoryPersister::Container` (`memory.h:61-71`): `entries_` (a deque of timestamp/entry pairs, oldest
first) and `head_`. The mutex is not modelled: every critical section is one step. -/
structure Mem (E : Type) where
  entries : List (Int × E)
  head : Int
  deriving DecidableEq, Repr

variable {E : Type}

/-- A freshly constructed persister, `memory.h:66`: no entries, `head_ = -1us`. -/
def Mem.init : Mem E := ⟨[], -1⟩

/-- The calls that modify a persister. The timestamp is what `TimestampAsMicroseconds` yields: the user's one,
or `Now()` when none was given (`memory.h:155`). -/
inductive Call (E : Type) where
  | publish (e : E) (ts : Int)
  | publishUnsafe (line : Str)
  | updateHead (ts : Int)
  deriving DecidableEq, Repr

/-- The observable result of a modifying call. -/
inductive Reply where
  | published (i : IdxTs)
  | headUpdated
  | thrown (e : Err)
  deriving DecidableEq, Repr

/-- `PersisterPublishImpl`, `memory.h:150-164`. The assertion of line 162 is `timestamp >= timestamp`. -/
def Mem.publish (s : Mem E) (e : E) (ts : Int) : Mem E × Reply :=
  if ts > s.head then
    ({ entries := s.entries ++ [(ts, e)], head := ts }, .published ⟨s.entries.length, ts⟩)
  else (s, .thrown (.inconsistentTimestamp (s.head + 1) ts))

/-- `PersisterPublishUnsafeImpl`, `memory.h:166-187`. `ParseJSON<ENTRY>` is evaluated (and may throw) before
`emplace_back` changes anything. -/
def Mem.publishUnsafe (k : Codec E) (s : Mem E) (line : Str) : Mem E × Reply :=
  match splitTab line with
  | none => (s, .thrown .malformedEntry)
  | some (a, b) =>
    match k.getIdx a with
    | none => (s, .thrown .parseError)
    | some x =>
      if x.index ≠ s.entries.length then (s, .thrown (.unsafeBadIndex s.entries.length x.index))
      else if ¬ x.us > s.head then (s, .thrown (.inconsistentTimestamp (s.head + 1) x.us))
      else match k.get b with
        | none => (s, .thrown .parseError)
        | some e => ({ entries := s.entries ++ [(x.us, e)], head := x.us }, .published x)

/-- `PersisterUpdateHeadImpl`, `memory.h:189-199`. -/
def Mem.updateHead (s : Mem E) (ts : Int) : Mem E × Reply :=
  if ts > s.head then ({ s with head := ts }, .headUpdated)
  else (s, .thrown (.inconsistentTimestamp (s.head + 1) ts))

/-- One modifying call on the memory persister. -/
def Mem.call (k : Codec E) (s : Mem E) : Call E → Mem E × Reply
  | .publish e ts => s.publish e ts
  | .publishUnsafe line => s.publishUnsafe k line
  | .updateHead ts => s.updateHead ts

/-- A history of calls, with all replies in order. -/
def Mem.run (k : Codec E) : Mem E → List (Call E) → Mem E × List Reply
  | s, [] => (s, [])
  | s, c :: cs =>
    let (s', r) := s.call k c
    let (s'', rs) := Mem.run k s' cs
    (s'', r :: rs)

/-- `PersisterEmptyImpl`, `memory.h:201-205`. -/
def Mem.empty (s : Mem E) : Bool := s.entries.isEmpty

/-- `PersisterSizeImpl`, `memory.h:207-211`. -/
def Mem.size (s : Mem E) : Nat := s.entries.length

/-- `PersisterCurrentHeadImpl`, `memory.h:234-238`. -/
def Mem.currentHead (s : Mem E) : Int := s.head

/-- The outcome of a call that may throw or abort on `CURRENT_ASSERT`. -/
inductive Outcome (α : Type) where
  | ok (a : α)
  | thrown (e : Err)
  | aborted
  deriving DecidableEq, Repr

/-- `PersisterLastPublishedIndexAndTimestampImpl`, `memory.h:213-222`, with its assertion. -/
def Mem.lastPublished (s : Mem E) : Outcome IdxTs :=
  match s.entries.getLast? with
  | none => .thrown .noEntries
  | some (us, _) => if s.head ≥ us then .ok ⟨s.entries.length - 1, us⟩ else .aborted

/-- `PersisterHeadAndLastPublishedIndexAndTimestampImpl`, `memory.h:224-232`; the result is
`head_optidxts_t`, `idx_ts.h:80-105`. -/
def Mem.headAndLast (s : Mem E) : Outcome (Int × Option IdxTs) :=
  match s.entries.getLast? with
  | none => .ok (s.head, none)
  | some (us, _) => if s.head ≥ us then .ok (s.head, some ⟨s.entries.length - 1, us⟩) else .aborted

/-- `std::lower_bound` / `std::upper_bound` as the standard halving loop over positions
`first, …, first+len-1`; `p i` is "element `i` is before the sought point".
(Used by `memory.h:246-263` and `file.h:567-584`.) -/
def halving (p : Nat → Bool) (first len : Nat) : Nat :=
  if h : len = 0 then first
  else
    if p (first + len / 2) then halving p (first + len / 2 + 1) (len - len / 2 - 1)
    else halving p first (len / 2)
  termination_by len
  decreasing_by all_goals omega

/-- `std::lower_bound(entries, from)` as an index, `memory.h:246-250`: `e.first < t`. -/
def lowerBound (ts : List Int) (t : Int) : Nat :=
  halving (fun i => match ts[i]? with | some x => decide (x < t) | none => false) 0 ts.length

/-- `std::upper_bound(entries, till)` as an index, `memory.h:255-260`: the predicate is `!(t < e.first)`. -/
def upperBound (ts : List Int) (t : Int) : Nat :=
  halving (fun i => match ts[i]? with | some x => decide (¬ t < x) | none => false) 0 ts.length

/-- `PersisterIndexRangeByTimestampRangeImpl`, `memory.h:240-266` (and `file.h:561-588`), on the list of record
timestamps. `none` is the sentinel `static_cast<uint64_t>(-1)`. -/
def indexRange (ts : List Int) (from_ till : Int) : Option Nat × Option Nat :=
  let b := lowerBound ts from_
  let first := if b ≠ ts.length then some b else none
  let second :=
    if till > 0 then
      let e := upperBound ts till
      if e ≠ ts.length then some e else none
    else none
  (first, second)

/-- `PersisterIterateImpl(begin, end)`, `memory.h:292-318`: the range handed out, `.ok (b, e)` standing for
`IterableRangeImpl(container, b, e)`. -/
def Mem.iterateRange (s : Mem E) (begin_ : Nat) (end_ : Option Nat) : Outcome (Nat × Nat) :=
  let size := s.entries.length
  let e := end_.getD size
  if e > size then .thrown .invalidRange
  else if begin_ = e then .ok (0, 0)
  else if begin_ ≥ size then .thrown .invalidRange
  else if e < begin_ then .thrown .invalidRange
  else .ok (begin_, e)

/-- `Iterator::operator*` for `i_`, `memory.h:99-102`; `none` is an out-of-bounds access. -/
def Mem.deref (s : Mem E) (i : Nat) : Option (IdxTs × E) :=
  (s.entries[i]?).map fun (us, e) => (⟨i, us⟩, e)

/-- A `for` loop over the range `[b, e)`, `memory.h:103-113, 136-150`: `fuel = e - b` increments.
`none` is an out-of-bounds access. -/
def Mem.readFrom (s : Mem E) : Nat → Nat → Option (List (IdxTs × E))
  | _, 0 => some []
  | i, n + 1 =>
    match s.deref i, Mem.readFrom s (i + 1) n with
    | some x, some xs => some (x :: xs)
    | _, _ => none

/-- Reads everything in a range previously handed out. Undefined behaviour shows as `.aborted`. -/
def Mem.read (s : Mem E) (r : Nat × Nat) : Outcome (List (IdxTs × E)) :=
  match s.readFrom r.1 (r.2 - r.1) with
  | some l => .ok l
  | none => .aborted

/-- `Iterate(begin, end)` and reading all of the range. -/
def Mem.iterate (s : Mem E) (begin_ : Nat) (end_ : Option Nat) : Outcome (List (IdxTs × E)) :=
  match s.iterateRange begin_ end_ with
  | .ok r => s.read r
  | .thrown e => .thrown e
  | .aborted => .aborted

/-- First critical section of `PersisterIterateImpl(from, till)`, `memory.h:321-325`. -/
def Mem.iterateTime₁ (s : Mem E) (from_ till : Int) : Outcome (Option Nat × Option Nat) :=
  if till > 0 ∧ till < from_ then .thrown .invalidRange
  else .ok (indexRange (s.entries.map (·.1)) from_ till)

/-- Second critical section, `memory.h:326-330`; other threads may have published in between. -/
def Mem.iterateTime₂ (s : Mem E) (r : Option Nat × Option Nat) : Outcome (Nat × Nat) :=
  match r.1 with
  | some b => s.iterateRange b r.2
  | none => .ok (0, 0)

/-- `Iterate(from, till)` whose two critical sections see the states `s₁` and `s₂`. -/
def iterateTimeRacing (s₁ s₂ : Mem E) (from_ till : Int) : Outcome (List (IdxTs × E)) :=
  match s₁.iterateTime₁ from_ till with
  | .ok r =>
    match s₂.iterateTime₂ r with
    | .ok q => s₂.read q
    | .thrown e => .thrown e
    | .aborted => .aborted
  | .thrown e => .thrown e
  | .aborted => .aborted

/-- `Iterate(from, till)` with no concurrent publisher. -/
def Mem.iterateTime (s : Mem E) (from_ till : Int) : Outcome (List (IdxTs × E)) :=
  iterateTimeRacing s s from_ till

end Current.Persist
