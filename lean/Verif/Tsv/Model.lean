/-!
`CompactTSV` (compact_tsv/compact_tsv.h), C82: packing rows of strings into a string and unpacking them.

Bytes are little-endian (the code copies integers as the processor keeps them). `unordered_map` is an association
list. `CURRENT_ASSERT` ends the program: `none`. Reading outside of the data is undefined behaviour: also `none`
(the theorems are about results that are not `none`). The callback gets the rows as `std::vector<std::string>`
(compact_tsv.h:62-68); with `const char*` it would get pointers into the data instead (78-85).
-/
namespace Current.Tsv

abbrev Bytes := List UInt8

/-- compact_tsv.h:226: `uint16_t` as bytes. -/
def le2 (n : Nat) : Bytes := [UInt8.ofNat n, UInt8.ofNat (n / 256)]

/-- compact_tsv.h:227: `uint32_t` as bytes. -/
def le4 (n : Nat) : Bytes := [UInt8.ofNat n, UInt8.ofNat (n / 256), UInt8.ofNat (n / 65536), UInt8.ofNat (n / 16777216)]

def read2 : Bytes → Option Nat
  | a :: b :: _ => some (a.toNat + 256 * b.toNat)
  | _ => none

def read4 : Bytes → Option Nat
  | a :: b :: c :: d :: _ => some (a.toNat + 256 * b.toNat + 65536 * c.toNat + 16777216 * d.toNat)
  | _ => none

/-- compact_tsv.h:233-234. -/
def rowDone : UInt8 := 254
def storage : UInt8 := 255

/-- compact_tsv.h:239-247. -/
structure Packer where
  done : Bool := false
  dim : Nat := 0
  first : Bool := true
  current : List Bytes := []
  data : Bytes := []
  offsets : List (Bytes × Nat) := []
deriving DecidableEq, Repr

/-- compact_tsv.h:114-117, the constructor. -/
def make (dim : Nat) : Option Packer := if dim ≤ 254 then some { dim := dim, current := List.replicate dim [] } else none

/-- compact_tsv.h:249-252, `AssertStillSmall`. -/
def small (d : Bytes) : Bool := d.length % 2 ^ 32 = d.length

/-- `offsets_[s]`: zero if there was nothing. -/
def offsetOf (s : Bytes) : List (Bytes × Nat) → Nat
  | [] => 0
  | (k, o) :: l => if k = s then o else offsetOf s l

/-- compact_tsv.h:254-263, `StoreString`: the data and the offset. -/
def storeString (data s : Bytes) : Option (Bytes × Nat) :=
  if s.length % 65536 = s.length then
    let d := data ++ [storage]
    let d' := d ++ le2 s.length ++ s ++ [0]
    if small d' then some (d', d.length % 2 ^ 32) else none
  else none

/-- compact_tsv.h:265-271, `GetOffsetOf`. -/
def getOffset (p : Packer) (s : Bytes) : Option (Packer × Nat) :=
  let o := offsetOf s p.offsets
  if o = 0 then
    match storeString p.data s with
    | some (d, o) => some ({ p with data := d, offsets := (s, o) :: p.offsets }, o)
    | none => none
  else some (p, o)

/-- compact_tsv.h:128-136, the loop over the columns, from column `i` on. -/
def columns : Nat → List Bytes → Packer → Option Packer
  | _, [], p => some p
  | i, s :: ss, p =>
    if s ≠ p.current.getD i [] ∨ p.first = true then
      match getOffset { p with current := p.current.set i s } s with
      | some (p, o) => columns (i + 1) ss { p with data := p.data ++ [UInt8.ofNat i] ++ le4 o }
      | none => none
    else columns (i + 1) ss p

/-- compact_tsv.h:119-140, `operator()`. -/
def addRow (p : Packer) (row : List Bytes) : Option Packer :=
  if p.done then none
  else if row = [] then none
  else
    let q : Option Packer :=
      if p.dim = 0 then
        if row.length ≤ 254 then some { p with dim := row.length, current := p.current ++ List.replicate row.length [] } else none
      else if row.length = p.dim then some p else none
    match q with
    | none => none
    | some p =>
      match columns 0 row p with
      | none => none
      | some p =>
        let d := p.data ++ [rowDone]
        if small d then some { p with data := d, first := false } else none

/-- compact_tsv.h:142-145, `Finalize`. -/
def finalize (p : Packer) : Option Packer := if p.done then none else some { p with done := true }

/-- compact_tsv.h:147-150, `GetPackedString`. -/
def packed (p : Packer) : Option Bytes := if p.done then some p.data else none

/-- Packing rows: the constructor, a call for each row, `Finalize`, `GetPackedString`. -/
def addRows (p : Packer) : List (List Bytes) → Option Packer
  | [] => some p
  | r :: rs => match addRow p r with
    | some p => addRows p rs
    | none => none

def pack (dim : Nat) (rows : List (List Bytes)) : Option Bytes :=
  match make dim with
  | none => none
  | some p => match addRows p rows with
    | none => none
    | some p => match finalize p with
      | none => none
      | some p => packed p

/-- compact_tsv.h:64-68 with 52-56: `GrowAsNeeded`, then assign. -/
def update (row : List Bytes) (i : Nat) (s : Bytes) : List Bytes :=
  (if row.length ≤ i then row ++ List.replicate (i + 1 - row.length) [] else row).set i s

/-- compact_tsv.h:176-180: the string at an offset of the data; its last byte has to be inside. -/
def stringAt (data : Bytes) (o : Nat) : Option Bytes :=
  match read2 (data.drop o) with
  | some n => if o + 2 + n ≤ data.length then some ((data.drop (o + 2)).take n) else none
  | none => none

/-- compact_tsv.h:155-186: the state of `Unpack`: the dispatcher's row, `dim`, and the rows passed to the callback. -/
structure Unpacker where
  row : List Bytes := []
  dim : Nat := 0
  out : List (List Bytes) := []
deriving DecidableEq, Repr

/-- compact_tsv.h:158-184: the loop, from `rest` on. -/
def loop (data : Bytes) (rest : Bytes) (u : Unpacker) : Option Unpacker :=
  match rest with
  | [] => some u
  | i :: r =>
    if i = storage then
      match read2 r with
      | none => none
      | some n => if n + 3 ≤ r.length then loop data (r.drop (n + 3)) u else none
    else if i = rowDone then
      if u.row = [] then none
      else if u.dim = 0 ∨ u.dim = u.row.length then
        loop data r { u with dim := u.row.length, out := u.out ++ [u.row] }
      else none
    else
      match read4 r with
      | none => none
      | some o =>
        match stringAt data o with
        | none => none
        | some s => loop data (r.drop 4) { u with row := update u.row i.toNat s }
termination_by rest.length
decreasing_by all_goals simp_wf <;> omega

/-- compact_tsv.h:152-186, `Unpack`: the rows passed to the callback; the result is their number. -/
def unpack (data : Bytes) : Option (List (List Bytes)) := (loop data data {}).map (·.out)

/-! ### What is promised -/

/-- A table which can be packed: all rows of the same number of columns, up to 254, strings up to 65535 bytes. -/
structure Table (dim : Nat) (rows : List (List Bytes)) : Prop where
  pos : 1 ≤ dim
  le : dim ≤ 254
  width : ∀ r ∈ rows, r.length = dim
  len : ∀ r ∈ rows, ∀ s ∈ r, s.length ≤ 65535

/-- The number of columns in which two rows differ. -/
def differences : List Bytes → List Bytes → Nat
  | a :: as, b :: bs => (if a = b then 0 else 1) + differences as bs
  | _, _ => 0

/-- The number of cells that differ from the cell above; those of the first row count. -/
def changesAfter : List Bytes → List (List Bytes) → Nat
  | _, [] => 0
  | p, r :: rs => differences p r + changesAfter r rs

def changes : List (List Bytes) → Nat
  | [] => 0
  | r :: rs => r.length + changesAfter r rs

/-- The size of a packed table: a byte for each row, five for each change, and each string once. -/
def sizeOf (rows : List (List Bytes)) (strings : List Bytes) : Nat :=
  rows.length + 5 * changes rows + (strings.map fun s => s.length + 4).sum

/-- The strings of a table, each once. -/
structure Strings (rows : List (List Bytes)) (strings : List Bytes) : Prop where
  nodup : strings.Nodup
  mem : ∀ s, s ∈ strings ↔ ∃ r ∈ rows, s ∈ r

end Current.Tsv
