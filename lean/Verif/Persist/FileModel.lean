import Verif.Persist.Model
/-!
Model of the file persister, `blocks/persistence/file.h`, down to the bytes of the file.

Simplifications: I/O never fails (no full disk, no permission errors); every write is flushed when the call returns (the code uses
`std::endl`); a crash is modelled separately, as a truncation of the bytes written by the last call.
-/
namespace Current.Persist

variable {E : Type}

deriving instance DecidableEq for Except

/-- Successive `std::getline` results over the remaining bytes (`file.h:84`): the last line need not be terminated. -/
def getLines : Str → List Str
  | [] => []
  | c :: cs =>
    if c = '\n' then [] :: getLines cs
    else match getLines cs with
      | [] => [[c]]
      | l :: ls => (c :: l) :: ls

/-- `constants::kHeadDirective`, `file.h:62`. -/
def kHead : Str := ['#', 'h', 'e', 'a', 'd']
/-- `constants::kSignatureDirective`, `file.h:61`. -/
def kSignature : Str := ['#', 's', 'i', 'g', 'n', 'a', 't', 'u', 'r', 'e']

/-- `Printf("%020lld", us)`, `file.h:63, 513`. Only non-negative values are ever printed (heads exceed `-1us`). -/
def headFmt (us : Int) : Str :=
  let d := Nat.toDigits 10 us.toNat
  List.replicate (20 - d.length) '0' ++ d

/-- `std::isspace` in the "C" locale. -/
def isSpace (c : Char) : Bool :=
  c = ' ' || c = '\t' || c = '\n' || c = '\x0b' || c = '\x0c' || c = '\r'

/-- `current::FromString<int64_t>` (`bricks/strings/util.h:167-176`): `std::istringstream >> int64_t`, zero when
that fails, also on overflow. The input here never starts with white space. -/
def fromStringInt64 (s : Str) : Int :=
  let (neg, s) := match s with
    | '-' :: t => (true, t)
    | '+' :: t => (false, t)
    | _ => (false, s)
  let ds := s.takeWhile Char.isDigit
  let n := Nat.ofDigitChars 10 ds 0
  if ds = [] then 0
  else if neg then (if n ≤ 2 ^ 63 then -(n : Int) else 0)
  else (if n < 2 ^ 63 then (n : Int) else 0)

/-- The local variables of `ValidateFileAndInitializeHead` (`file.h:186-255`) together with `next_` of the
line iterator (`file.h:119`) and the three members it fills. -/
structure Scan where
  offset : Nat            -- `current_offset`
  next : IdxTs            -- `cit.next_`
  head : Int              -- `head`
  headOffset : Nat        -- `head_offset_`, 0 = none
  recOffset : List Nat    -- `record_offset_`
  recTs : List Int        -- `record_timestamp_`
  deriving DecidableEq, Repr

/-- Initial values: `file.h:75` (index 0, 0us), `file.h:183`, `file.h:194-195`. -/
def Scan.init : Scan := ⟨0, ⟨0, 0⟩, -1, 0, [], []⟩

/-- One `ProcessNextEntry` call (`file.h:82-112`) with the lambdas of `file.h:200-240`.
`current_offset = fi.tellg()` afterwards is the start of the next line. (For an unterminated last line the real
`tellg` is -1; the value is then only compared with zero, as here, where it is positive.) -/
def scanLine (k : Codec E) (sig : Str) (st : Scan) (line : Str) : Except Err Scan :=
  let offset' := st.offset + line.length + 1
  match line with
  | '#' :: _ =>
    if kHead.isPrefixOf line then
      let skipped := (line.drop kHead.length).takeWhile isSpace
      let rest := (line.drop kHead.length).dropWhile isSpace
      let us := fromStringInt64 rest
      if us > st.head then
        .ok { st with offset := offset', head := us,
                      headOffset := st.offset + kHead.length + skipped.length }
      else .error (.inconsistentTimestamp (st.head + 1) us)
    else if kSignature.isPrefixOf line then
      if st.offset ≠ 0 then .error .invalidSignatureLocation
      else
        let rest := (line.drop kSignature.length).dropWhile isSpace
        if rest.take sig.length = sig then .ok { st with offset := offset', headOffset := 0 }
        else .error .invalidSignature
    else .ok { st with offset := offset', headOffset := 0 }
  | _ =>
    match splitTab line with
    | none => .error .malformedEntry
    | some (a, _) =>
      match k.getIdx a with
      | none => .error .parseError
      | some cur =>
        if cur.index ≠ st.next.index then .error (.inconsistentIndex st.next.index cur.index)
        else if cur.us < st.next.us then .error (.inconsistentTimestamp st.next.us cur.us)
        else if ¬ cur.us > st.head then .error (.inconsistentTimestamp (st.head + 1) cur.us)
        else .ok
          { offset := offset', next := ⟨cur.index + 1, cur.us + 1⟩, head := cur.us, headOffset := 0
            recOffset := st.recOffset ++ [st.offset], recTs := st.recTs ++ [cur.us] }

/-- The `while` loop of `file.h:199-242` over all lines. -/
def scanLines (k : Codec E) (sig : Str) : Scan → List Str → Except Err Scan
  | st, [] => .ok st
  | st, l :: ls =>
    match scanLine k sig st l with
    | .ok st' => scanLines k sig st' ls
    | .error e => .error e

/-- `FilePersisterImpl` (`file.h:149-184`) together with the file itself. `appPos` is what `file_appender_.tellp()`
returns between calls: the position after the appender's last write. -/
structure FileP where
  bytes : Str
  appPos : Nat
  recOffset : List Nat
  recTs : List Int
  headOffset : Nat
  nextIndex : Nat
  lastUs : Int
  head : Int
  deriving DecidableEq, Repr

/-- The first line of a new file, `file.h:248-250`. -/
def signatureLine (sig : Str) : Str := kSignature ++ [' '] ++ sig ++ ['\n']

/-- The constructor, `file.h:171-184` with `ValidateFileAndInitializeHead`, `file.h:187-254`. A file that does not exist is
created empty by opening the appender. -/
def openFile (k : Codec E) (sig : Str) (bytes : Str) : Except Err FileP :=
  match scanLines k sig .init (getLines bytes) with
  | .error e => .error e
  | .ok st =>
    let bytes' := if st.offset = 0 then bytes ++ signatureLine sig else bytes
    .ok { bytes := bytes', appPos := bytes'.length, recOffset := st.recOffset, recTs := st.recTs
          headOffset := st.headOffset, nextIndex := st.next.index, lastUs := st.next.us - 1, head := st.head }

/-- The text `PersisterPublishImpl` writes before the line break, `file.h:464-467`. -/
def entryLine (k : Codec E) (x : IdxTs) (e : E) : Str := k.putIdx x ++ ['\t'] ++ k.put e

/-- Writing one line through the appender (opened with `app`, so it goes to the end of the file). -/
def FileP.append (f : FileP) (text : Str) : FileP :=
  { f with bytes := f.bytes ++ text, appPos := (f.bytes ++ text).length }

/-- `PersisterPublishImpl`, `file.h:440-471`. The assertions of 457-458 are `recOffset.length = nextIndex` and
`recTs.length = nextIndex`; a failing one is not a `Reply`, see `FileP.assertsOk`. -/
def FileP.publish (k : Codec E) (f : FileP) (e : E) (ts : Int) : FileP × Reply :=
  if ts > f.head then
    let x : IdxTs := ⟨f.nextIndex, ts⟩
    let g := f.append (entryLine k x e ++ ['\n'])
    ({ g with recOffset := f.recOffset ++ [f.appPos], recTs := f.recTs ++ [ts], headOffset := 0
              nextIndex := f.nextIndex + 1, lastUs := ts, head := ts }, .published x)
  else (f, .thrown (.inconsistentTimestamp (f.head + 1) ts))

/-- `PersisterPublishUnsafeImpl`, `file.h:473-502`. The body after the tab is not looked at. -/
def FileP.publishUnsafe (k : Codec E) (f : FileP) (line : Str) : FileP × Reply :=
  match splitTab line with
  | none => (f, .thrown .malformedEntry)
  | some (a, _) =>
    match k.getIdx a with
    | none => (f, .thrown .parseError)
    | some x =>
      if x.index ≠ f.nextIndex then (f, .thrown (.unsafeBadIndex f.nextIndex x.index))
      else if ¬ x.us > f.head then (f, .thrown (.inconsistentTimestamp (f.head + 1) x.us))
      else
        let g := f.append (line ++ ['\n'])
        ({ g with recOffset := f.recOffset ++ [f.appPos], recTs := f.recTs ++ [x.us], headOffset := 0
                  nextIndex := f.nextIndex + 1, lastUs := x.us, head := x.us }, .published x)

/-- Overwriting `text` at `off` (`rewriter.seekp`, `rewriter <<`), `file.h:515-517`. -/
def overwrite (bytes : Str) (off : Nat) (text : Str) : Str :=
  bytes.take off ++ text ++ bytes.drop (off + text.length)

/-- `PersisterUpdateHeadImpl`, `file.h:504-526`: rewrite the number in place if the last line is a head
directive, else append one. -/
def FileP.updateHead (f : FileP) (ts : Int) : FileP × Reply :=
  if ts > f.head then
    if f.headOffset ≠ 0 then
      ({ f with bytes := overwrite f.bytes f.headOffset (headFmt ts ++ ['\n']), head := ts }, .headUpdated)
    else
      let g := f.append (kHead ++ [' '] ++ headFmt ts ++ ['\n'])
      ({ g with headOffset := f.appPos + kHead.length + 1, head := ts }, .headUpdated)
  else (f, .thrown (.inconsistentTimestamp (f.head + 1) ts))

/-- The assertions of `file.h:457-458` and `489-490`. -/
def FileP.assertsOk (f : FileP) : Prop := f.recOffset.length = f.nextIndex ∧ f.recTs.length = f.nextIndex

def FileP.call (k : Codec E) (f : FileP) : Call E → FileP × Reply
  | .publish e ts => f.publish k e ts
  | .publishUnsafe line => f.publishUnsafe k line
  | .updateHead ts => f.updateHead ts

/-- `PersisterSizeImpl`, `file.h:533-536`. -/
def FileP.size (f : FileP) : Nat := f.nextIndex
/-- `PersisterEmptyImpl`, `file.h:528-531`. -/
def FileP.empty (f : FileP) : Bool := f.nextIndex == 0
/-- `PersisterCurrentHeadImpl`, `file.h:538-541`. -/
def FileP.currentHead (f : FileP) : Int := f.head
/-- `PersisterLastPublishedIndexAndTimestampImpl`, `file.h:543-551`. -/
def FileP.lastPublished (f : FileP) : Outcome IdxTs :=
  if f.nextIndex ≠ 0 then .ok ⟨f.nextIndex - 1, f.lastUs⟩ else .thrown .noEntries
/-- `PersisterHeadAndLastPublishedIndexAndTimestampImpl`, `file.h:553-561`, with the assertion of the constructor of
`head_optidxts_t`, `idx_ts.h:92-95`. -/
def FileP.headAndLast (f : FileP) : Outcome (Int × Option IdxTs) :=
  if f.nextIndex ≠ 0 then
    if f.head ≥ f.lastUs then .ok (f.head, some ⟨f.nextIndex - 1, f.lastUs⟩) else .aborted
  else .ok (f.head, none)

/-- A range handed out by `Iterate`: begin, end, and the offset of the first record (`file.h:427-430`). -/
structure FRange where
  b : Nat
  e : Nat
  offset : Nat
  deriving DecidableEq, Repr

/-- `PersisterIterateImpl(begin, end)`, `file.h:613-640`. `.aborted` is an out-of-bounds `record_offset_` access or
the assertion of line 633. -/
def FileP.iterateRange (f : FileP) (b : Nat) (e? : Option Nat) : Outcome FRange :=
  let size := f.nextIndex
  let e := e?.getD size
  if e > size then .thrown .invalidRange
  else if b = e then .ok ⟨0, 0, 0⟩
  else if e < b then .thrown .invalidRange
  else if f.recOffset.length < size then .aborted
  else match f.recOffset[b]? with
    | some off => .ok ⟨b, e, off⟩
    | none => .aborted

/-- `Iterator::operator*`, `file.h:298-317`: read lines until the one with index `i`. Returns the entry, the
remaining lines and the line iterator's `next_`. -/
def fetch (k : Codec E) (i : Nat) : IdxTs → List Str → Except Err ((IdxTs × E) × IdxTs × List Str)
  | _, [] => .error .endOfFile
  | next, line :: ls =>
    match line with
    | '#' :: _ => fetch k i next ls
    | _ =>
      match splitTab line with
      | none => .error .malformedEntry
      | some (a, body) =>
        match k.getIdx a with
        | none => .error .parseError
        | some cur =>
          if cur.index ≠ next.index then .error (.inconsistentIndex next.index cur.index)
          else if cur.us < next.us then .error (.inconsistentTimestamp next.us cur.us)
          else if cur.index = i then
            match k.get body with
            | none => .error .parseError
            | some e => .ok ((cur, e), ⟨cur.index + 1, cur.us + 1⟩, ls)
          else if cur.index > i then .error (.inconsistentIndex i cur.index)
          else fetch k i ⟨cur.index + 1, cur.us + 1⟩ ls

/-- A `for` loop of `n` iterations starting at index `i`. -/
def fetchMany (k : Codec E) : Nat → Nat → IdxTs → List Str → Except Err (List (IdxTs × E))
  | _, 0, _, _ => .ok []
  | i, n + 1, next, ls =>
    match fetch k i next ls with
    | .error e => .error e
    | .ok (x, next', ls') =>
      match fetchMany k (i + 1) n next' ls' with
      | .error e => .error e
      | .ok xs => .ok (x :: xs)

def Outcome.ofExcept {α : Type} : Except Err α → Outcome α
  | .ok a => .ok a
  | .error e => .thrown e

/-- Reading a range handed out earlier, from the bytes of the file as they are now: `file.h:283-296` opens the file and seeks
to the offset of the first record, with `next_ = (begin, 0us)`; an empty range opens nothing (`file.h:411-417`). -/
def FileP.read (k : Codec E) (f : FileP) (r : FRange) : Outcome (List (IdxTs × E)) :=
  if r.b = r.e then .ok []
  else .ofExcept (fetchMany k r.b (r.e - r.b) ⟨r.b, 0⟩ (getLines (f.bytes.drop r.offset)))

/-- `Iterate(begin, end)` and reading the whole range. -/
def FileP.iterate (k : Codec E) (f : FileP) (b : Nat) (e? : Option Nat) : Outcome (List (IdxTs × E)) :=
  match f.iterateRange b e? with
  | .ok r => f.read k r
  | .thrown e => .thrown e
  | .aborted => .aborted

/-- `PersisterIterateImpl(from, till)`, `file.h:642-655`, with no concurrent publisher. -/
def FileP.iterateTime (k : Codec E) (f : FileP) (from_ till : Int) : Outcome (List (IdxTs × E)) :=
  if till > 0 ∧ till < from_ then .thrown .invalidRange
  else
    let r := indexRange f.recTs from_ till
    match r.1 with
    | some b => f.iterate k b r.2
    | none => .ok []

/-- `IteratorUnsafe::operator*`, `file.h:360-377`: the raw line at the recorded offset. `.aborted`: out of bounds, or
the assertion of line 370. -/
def FileP.rawLine (f : FileP) (i : Nat) : Outcome Str :=
  match f.recOffset[i]? with
  | none => .aborted
  | some off =>
    match getLines (f.bytes.drop off) with
    | [] => .thrown .endOfFile
    | l :: _ => if l.head? = some '#' then .aborted else .ok l

/-- Operations of a session: a call, or closing the persister and opening the same file again. -/
inductive FOp (E : Type) where
  | call (c : Call E)
  | reopen
  deriving DecidableEq, Repr

/-- One operation; `reopen` may throw, in which case there is no persister any more (`none`). -/
def FileP.step (k : Codec E) (sig : Str) (f : FileP) : FOp E → Option FileP × Option Reply
  | .call c => let (g, r) := f.call k c; (some g, some r)
  | .reopen =>
    match openFile k sig f.bytes with
    | .ok g => (some g, none)
    | .error e => (none, some (.thrown e))

/-- A session on an open file. -/
def FileP.run (k : Codec E) (sig : Str) : FileP → List (FOp E) → Option FileP × List Reply
  | f, [] => (some f, [])
  | f, op :: ops =>
    match f.step k sig op with
    | (some g, r) => let (h, rs) := FileP.run k sig g ops; (h, r.toList ++ rs)
    | (none, r) => (none, r.toList)

end Current.Persist
