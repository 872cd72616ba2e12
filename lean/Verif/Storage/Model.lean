import Verif.Storage.Maps
/-!
Model of the storage containers: `storage/container/{dictionary,one_to_one,one_to_many,many_to_many}.h`.

The entry types of all fields are one type `E`, with the projections of the fields (`sfinae::GetKey`, `GetRow`, `GetCol`) in `Schema`. Values of `Now()` are arguments.
`CURRENT_ASSERT` is always on (`port.h:282-291`): a failed one is `none`. Owning pointers are names in a heap, and using a freed one is visible.
-/
namespace Current.Storage

abbrev Time := Int

/-- Projections of entries, and `PatchWith`. -/
structure Schema (K R C E P : Type) where
  key : E → K
  row : E → R
  col : E → C
  patch : P → E → E

variable {K R C E P : Type} [DecidableEq K] [DecidableEq R] [DecidableEq C]

/-! ### Dictionary -/

/-- `map_`, `last_modified_`: `dictionary.h:209-210`. -/
structure Dict (K E : Type) where
  map : AMap K E := []
  lm : AMap K Time := []
  deriving DecidableEq, Repr

/-- Events logged by a dictionary, `storage.h:60-150`. -/
inductive DEv (K E P : Type) where
  | updated (us : Time) (e : E)
  | deleted (us : Time) (k : K)
  | patched (us : Time) (k : K) (p : P)
  deriving DecidableEq, Repr

/-- The rollback closures of a dictionary, with what they captured. -/
inductive DUndo (K E : Type) where
  | restore (k : K) (t : Time) (e : E)   -- `dictionary.h:91-94`, `121-124`, `146-149`
  | unadd (k : K) (t : Time)             -- `98-101`
  | forget (k : K)                       -- `103-106`
  deriving DecidableEq, Repr

def Dict.set (d : Dict K E) (us : Time) (k : K) (e : E) : Dict K E := { map := put d.map k e, lm := put d.lm k us }

/-- `Add`, `dictionary.h:82-111`. -/
def Dict.add (S : Schema K R C E P) (d : Dict K E) (now : Time) (e : E) : Option (Dict K E × List (DEv K E P × DUndo K E)) :=
  let k := S.key e
  match find d.map k, find d.lm k with
  | some _, none => none
  | some prev, some t => some (d.set now k e, [(.updated now e, .restore k t prev)])
  | none, some t => some (d.set now k e, [(.updated now e, .unadd k t)])
  | none, none => some (d.set now k e, [(.updated now e, .forget k)])

/-- `Erase`, `dictionary.h:113-128`. The event's key is the key of the erased object. -/
def Dict.erase (S : Schema K R C E P) (d : Dict K E) (now : Time) (k : K) : Option (Dict K E × List (DEv K E P × DUndo K E)) :=
  match find d.map k with
  | none => some (d, [])
  | some prev =>
    match find d.lm k with
    | none => none
    | some t => some ({ map := del d.map k, lm := put d.lm k now }, [(.deleted now (S.key prev), .restore k t prev)])

/-- `Patch`, `dictionary.h:134-155`. -/
def Dict.patch (S : Schema K R C E P) (d : Dict K E) (now : Time) (k : K) (p : P) : Option (Dict K E × List (DEv K E P × DUndo K E)) :=
  match find d.map k with
  | none => some (d, [])
  | some prev =>
    match find d.lm k with
    | none => none
    | some t => some (d.set now k (S.patch p prev), [(.patched now k p, .restore k t prev)])

/-- Replaying events, `dictionary.h:168-186`. -/
def Dict.replay (S : Schema K R C E P) (d : Dict K E) : DEv K E P → Dict K E
  | .updated us e => d.set us (S.key e) e
  | .deleted us k => { map := del d.map k, lm := put d.lm k us }
  | .patched us k p =>
    match find d.map k with
    | none => d
    | some e => d.set us k (S.patch p e)

/-- Running a rollback closure. -/
def Dict.undo (d : Dict K E) : DUndo K E → Dict K E
  | .restore k t e => d.set t k e
  | .unadd k t => { map := del d.map k, lm := put d.lm k t }
  | .forget k => { map := del d.map k, lm := del d.lm k }

/-! ### Matrices -/

abbrev Ptr := Nat

/-- `forward_` or `transposed_`: either one pointer for a row (column) or a map of them.
`one_to_one.h:283-284`: both single; `one_to_many.h:287-288`: forward multi, transposed single; `many_to_many.h:250-251`: both multi. -/
inductive Index (A B : Type) where
  | single (m : AMap A Ptr)
  | multi (m : AMap A (AMap B Ptr))
  deriving DecidableEq, Repr

/-- `forward_[row] = p` or `forward_[row][col] = p`. -/
def Index.put {A B : Type} [DecidableEq A] [DecidableEq B] : Index A B → A → B → Ptr → Index A B
  | .single m, a, _, p => .single (Storage.put m a p)
  | .multi m, a, b, p => .multi (Storage.put m a (Storage.put ((find m a).getD []) b p))

/-- Erasing: `one_to_one.h:271-272`, or `many_to_many.h:230-239`, where maps that become empty are removed. -/
def Index.del {A B : Type} [DecidableEq A] [DecidableEq B] : Index A B → A → B → Index A B
  | .single m, a, _ => .single (Storage.del m a)
  | .multi m, a, b =>
    let sub := Storage.del ((find m a).getD []) b
    .multi (if sub.isEmpty then Storage.del m a else Storage.put m a sub)

/-- Whether the row (column) is occupied: only asked for a single one. -/
def Index.conflict {A B : Type} [DecidableEq A] : Index A B → A → Option Ptr
  | .single m, a => find m a
  | .multi _, _ => none

def Index.isSingle {A B : Type} : Index A B → Bool
  | .single _ => true
  | .multi _ => false

/-- A matrix. `heap`: the live objects; `map` owns them (`std::unique_ptr`), the indexes point at them. -/
structure Matrix (R C E : Type) where
  heap : AMap Ptr E := []
  next : Ptr := 0
  map : AMap (R × C) Ptr := []
  fwd : Index R C
  tr : Index C R
  lm : AMap (R × C) Time := []
  deriving DecidableEq, Repr

def Matrix.oneToOne : Matrix R C E := { fwd := .single [], tr := .single [] }
def Matrix.oneToMany : Matrix R C E := { fwd := .multi [], tr := .single [] }
def Matrix.manyToMany : Matrix R C E := { fwd := .multi [], tr := .multi [] }

inductive MEv (R C E : Type) where
  | updated (us : Time) (e : E)
  | deleted (us : Time) (k : R × C)
  deriving DecidableEq, Repr

inductive MUndo (R C E : Type) where
  | restore (t : Time) (k : R × C) (e : E)   -- `DoUpdateWithLastModified(t, k, e)`
  | eraseTo (t : Time) (k : R × C)           -- `DoEraseWithLastModified(t, k)`
  | forget (k : R × C)                       -- `last_modified_.erase(k); DoEraseWithoutTouchingLastModified(k);`
  deriving DecidableEq, Repr

/-- What the owner at `k` points to is destroyed. -/
def Matrix.free (m : Matrix R C E) (k : R × C) : AMap Ptr E :=
  match find m.map k with
  | some old => del m.heap old
  | none => m.heap

/-- `DoUpdateWithLastModified`: `one_to_one.h:262-268`, `one_to_many.h:262-268`, `many_to_many.h:221-227`. -/
def Matrix.doUpdate (m : Matrix R C E) (us : Time) (k : R × C) (e : E) : Matrix R C E :=
  { heap := put (m.free k) m.next e, next := m.next + 1, map := put m.map k m.next,
    fwd := m.fwd.put k.1 k.2 m.next, tr := m.tr.put k.2 k.1 m.next, lm := put m.lm k us }

/-- `DoEraseWithoutTouchingLastModified`: `one_to_one.h:270-274`, `one_to_many.h:270-278`, `many_to_many.h:229-241`. -/
def Matrix.doEraseKeep (m : Matrix R C E) (k : R × C) : Matrix R C E :=
  { m with heap := m.free k, map := del m.map k, fwd := m.fwd.del k.1 k.2, tr := m.tr.del k.2 k.1 }

/-- `DoEraseWithLastModified`. -/
def Matrix.doErase (m : Matrix R C E) (us : Time) (k : R × C) : Matrix R C E :=
  { m with lm := put m.lm k us }.doEraseKeep k

/-- Following a pointer; `none` is a use after free. -/
def Matrix.obj (m : Matrix R C E) (p : Ptr) : Option E := find m.heap p

abbrev MResult (R C E : Type) := Option (Matrix R C E × List (MEv R C E × MUndo R C E))

def Schema.rc (S : Schema K R C E P) (e : E) : R × C := (S.row e, S.col e)

/-- The end of `Add` for a new key, `one_to_one.h:131-143`, `one_to_many.h:109-120`, `many_to_many.h:92-103`; `lm₀` is `last_modified_` as it was when `Add` began. -/
def Matrix.finishAdd (S : Schema K R C E P) (lm₀ : AMap (R × C) Time) (m : Matrix R C E) (now : Time) (e : E) (log : List (MEv R C E × MUndo R C E)) :
    MResult R C E :=
  let k := S.rc e
  match find lm₀ k with
  | some t => some (m.doUpdate now k e, log ++ [(.updated now e, .eraseTo t k)])
  | none => some (m.doUpdate now k e, log ++ [(.updated now e, .forget k)])

/-- `Add`: `one_to_one.h:73-144`, `one_to_many.h:78-121`, `many_to_many.h:77-104`, which differ in whether rows and columns can conflict. -/
def Matrix.add (S : Schema K R C E P) (m : Matrix R C E) (t₁ t₂ t₃ : Time) (e : E) : MResult R C E :=
  let k := S.rc e
  match find m.map k with
  | some p =>
    match m.obj p, find m.lm k with
    | some prev, some t => some (m.doUpdate t₁ k e, [(.updated t₁ e, .restore t k prev)])
    | _, _ => none
  | none =>
    match m.fwd.conflict k.1, m.tr.conflict k.2 with
    | some p, some q =>
      match m.obj p, m.obj q with
      | some a, some b =>
        let ka := (k.1, S.col a)
        let kb := (S.row b, k.2)
        match find m.lm ka, find m.lm kb with
        | some ta, some tb =>
          Matrix.finishAdd S m.lm ((m.doErase t₁ ka).doErase t₂ kb) t₃ e
            [(.deleted t₁ (S.rc a), .restore ta ka a), (.deleted t₂ (S.rc b), .restore tb kb b)]
        | _, _ => none
      | _, _ => none
    | some p, none =>
      match m.obj p with
      | some a =>
        match find m.lm (S.rc a) with
        | some ta => Matrix.finishAdd S m.lm (m.doErase t₁ (S.rc a)) t₂ e [(.deleted t₁ (S.rc a), .restore ta (S.rc a) a)]
        | none => none
      | none => none
    | none, some q =>
      match m.obj q with
      | some b =>
        match find m.lm (S.rc b) with
        | some tb => Matrix.finishAdd S m.lm (m.doErase t₁ (S.rc b)) t₂ e [(.deleted t₁ (S.rc b), .restore tb (S.rc b) b)]
        | none => none
      | none => none
    | none, none => Matrix.finishAdd S m.lm m t₁ e []

/-- The common part of the erasing functions: the object at `p` is erased under the key `k`. -/
def Matrix.eraseAt (S : Schema K R C E P) (m : Matrix R C E) (now : Time) (p : Ptr) (k : E → R × C) : MResult R C E :=
  match m.obj p with
  | none => none
  | some prev =>
    match find m.lm (k prev) with
    | none => none
    | some t => some (m.doErase now (k prev), [(.deleted now (S.rc prev), .restore t (k prev) prev)])

/-- `Erase`: `one_to_one.h:147-160`, `one_to_many.h:124-137`, `many_to_many.h:107-120`. -/
def Matrix.erase (S : Schema K R C E P) (m : Matrix R C E) (now : Time) (k : R × C) : MResult R C E :=
  match find m.map k with
  | none => some (m, [])
  | some p => m.eraseAt S now p fun _ => k

/-- `EraseRow`, `one_to_one.h:163-177`: exists for `OneToOne` only; elsewhere nothing is found. -/
def Matrix.eraseRow (S : Schema K R C E P) (m : Matrix R C E) (now : Time) (r : R) : MResult R C E :=
  match m.fwd.conflict r with
  | none => some (m, [])
  | some p => m.eraseAt S now p fun e => (r, S.col e)

/-- `EraseCol`, `one_to_one.h:179-193`, `one_to_many.h:140-154`: exists when columns are unique. -/
def Matrix.eraseCol (S : Schema K R C E P) (m : Matrix R C E) (now : Time) (c : C) : MResult R C E :=
  match m.tr.conflict c with
  | none => some (m, [])
  | some p => m.eraseAt S now p fun e => (S.row e, c)

/-- Replaying events: `one_to_one.h:242-247`, `one_to_many.h:193-198`, `many_to_many.h:147-152`. -/
def Matrix.replay (S : Schema K R C E P) (m : Matrix R C E) : MEv R C E → Matrix R C E
  | .updated us e => m.doUpdate us (S.rc e) e
  | .deleted us k => m.doErase us k

/-- Running a rollback closure. -/
def Matrix.undo (m : Matrix R C E) : MUndo R C E → Matrix R C E
  | .restore t k e => m.doUpdate t k e
  | .eraseTo t k => m.doErase t k
  | .forget k => { m with lm := del m.lm k }.doEraseKeep k

/-! Observers. `none`: no such entry; `some none`: a freed object was read. -/

/-- `operator[]`, `Get`. -/
def Matrix.get (m : Matrix R C E) (k : R × C) : Option (Option E) := (find m.map k).map m.obj
/-- `LastModified`. -/
def Matrix.lastModified (m : Matrix R C E) (k : R × C) : Option Time := find m.lm k
/-- `Size`. -/
def Matrix.size (m : Matrix R C E) : Nat := m.map.length
/-- Iterating over the matrix. -/
def Matrix.iterate (m : Matrix R C E) : List ((R × C) × Option E) := m.map.map fun p => (p.1, m.obj p.2)
/-- `GetEntryFromRow`, `one_to_one.h:206-212`; `Rows()[r]` for `OneToOne`. -/
def Matrix.getRow (m : Matrix R C E) (r : R) : Option (Option E) := (m.fwd.conflict r).map m.obj
/-- `GetEntryFromCol`. -/
def Matrix.getCol (m : Matrix R C E) (c : C) : Option (Option E) := (m.tr.conflict c).map m.obj
/-- The submap of a multi index: `Row(r)`, `Col(c)`: `many_to_many.h:202-213`, `one_to_many.h:249-255`. -/
def Index.sub {A B : Type} [DecidableEq A] : Index A B → A → AMap B Ptr
  | .single _, _ => []
  | .multi m, a => (find m a).getD []
/-- Iterating over a row. -/
def Matrix.row (m : Matrix R C E) (r : R) : List (C × Option E) := (m.fwd.sub r).map fun p => (p.1, m.obj p.2)
/-- Iterating over a column. -/
def Matrix.colEntries (m : Matrix R C E) (c : C) : List (R × Option E) := (m.tr.sub c).map fun p => (p.1, m.obj p.2)
/-- The keys of `Rows()` and `Cols()`. -/
def Index.keys {A B : Type} : Index A B → List A
  | .single m => m.map (·.1)
  | .multi m => m.map (·.1)
/-- `DoesNotConflict`: `one_to_one.h:235`, `one_to_many.h:188`. -/
def Matrix.doesNotConflict (m : Matrix R C E) (k : R × C) : Bool := (m.fwd.conflict k.1).isNone && (m.tr.conflict k.2).isNone

end Current.Storage
