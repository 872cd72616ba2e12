import Verif.Storage.Fields
/-!
Model of storage transactions: `storage/base.h:193-230`, `storage/transaction_policy.h`, `storage/persister/stream.h`, `storage/storage.h:384-420`.

Transactions run under the publishing mutex of the stream (`storage.h:387, 397, 408, 416`): a transaction is one step. Its body is any sequence of operations on the fields — chosen by
the user's code as it goes, in any way: the theorems are about all sequences — followed by any outcome. Values of `Now()` are arguments. `none` stands for the end of the process: a
failed `CURRENT_ASSERT`, or `std::exit(-1)` of `PersistJournal` (`transaction_policy.h:290-304`).
-/
namespace Current.Storage
variable {F K R C E P V : Type} [DecidableEq F] [DecidableEq K] [DecidableEq R] [DecidableEq C]

/-- `TransactionMeta`, `transaction.h:36-41`. -/
structure Meta where
  beginUs : Time := 0
  endUs : Time := 0
  fields : AMap String String := []
  deriving DecidableEq, Repr

/-- `Transaction`, `transaction.h:43-47`. -/
structure Transaction (F K R C E P : Type) where
  info : Meta
  mutations : List (F × FEv K R C E P)

/-- `MutationJournal`, `base.h:193-230`; the two logs are pushed together. -/
structure Journal (F K R C E P : Type) where
  info : Meta := {}
  log : List (Logged F K R C E P) := []

/-- `AssertEmpty`, `base.h:223-229`. -/
def Journal.isEmpty (j : Journal F K R C E P) : Bool := j.info.beginUs == 0 && j.info.endUs == 0 && j.info.fields.isEmpty && j.log.isEmpty

/-- An entry of the stream: a transaction, or, in a stream of a custom entry type, something else (`stream.h:46-47`). -/
abbrev StreamEntry (F K R C E P : Type) := Time × Option (Transaction F K R C E P)

/-- A storage, its persister and the stream under it. -/
structure Storage (F K R C E P : Type) where
  fields : Fields F K R C E
  journal : Journal F K R C E P := {}
  /-- The stream: entries and head. -/
  stream : List (StreamEntry F K R C E P) := []
  head : Time := -1
  /-- `last_applied_timestamp_`, `persister/stream.h:226`. -/
  lastApplied : Time := -1
  /-- Whether `publisher_used_` exists. -/
  master : Bool := true
  /-- `destructing_`, `transaction_policy.h`. -/
  destructing : Bool := false
  /-- The following storage's subscription (`subscriber_scope_`) and its `next_replay_index_`. -/
  subscribed : Bool := false
  next : Nat := 0

/-- What a transaction body does. `SetTransactionMetaField`, `EraseTransactionMetaField`: `base.h:242-248`. -/
inductive Act (F K R C E P : Type) where
  | op (f : F) (o : FOp K R C E P)
  | setMeta (k v : String)
  | eraseMeta (k : String)

/-- Running a body: every operation logs its mutations. -/
def runActs (S : F → Schema K R C E P) : Fields F K R C E → Journal F K R C E P → List (Act F K R C E P) → Option (Fields F K R C E × Journal F K R C E P)
  | σ, j, [] => some (σ, j)
  | σ, j, .op f o :: as => match σ.op S f o with
    | none => none
    | some (σ', l) => runActs S σ' { j with log := j.log ++ l } as
  | σ, j, .setMeta k v :: as => runActs S σ { j with info := { j.info with fields := put j.info.fields k v } } as
  | σ, j, .eraseMeta k :: as => runActs S σ { j with info := { j.info with fields := del j.info.fields k } } as

/-- How user code ends. -/
inductive Outcome (V : Type) where
  | returns (v : V)
  | rollbackWith (v : V)   -- `StorageRollbackExceptionWithValue`
  | rollback               -- `StorageRollbackExceptionWithNoValue`
  | throws                 -- anything else
  deriving DecidableEq, Repr

/-- What the caller gets. -/
inductive Result (V : Type) where
  | committed (v : V)
  | rolledBack (v : Option V)
  | exception                -- the exception of the body, in the future
  | shutdown                 -- `StorageInGracefulShutdownException`, in the future
  | notMaster                -- `ReadWriteTransactionInFollowerStorageException`, thrown
  | thrown                   -- an exception of user code, thrown at the caller
  deriving DecidableEq, Repr

/-- Reported as committed: `WasCommitted`. -/
def Result.wasCommitted : Result V → Bool
  | .committed _ => true
  | _ => false

/-- `Rollback`, `base.h:208-213`. -/
def Storage.rollback (st : Storage F K R C E P) : Storage F K R C E P :=
  { st with fields := ((st.journal.log.map (·.2)).reverse).foldl Fields.undo st.fields, journal := {} }

/-- `PersistJournalFromLockedSection`, `persister/stream.h:120-139`: an assertion on the times, `Publish` (which refuses a timestamp not above the head of the stream),
`SetLastAppliedTimestampFromLockedSection` (`213-216`). -/
def Storage.persist (st : Storage F K R C E P) (ts : Time) : Option (Storage F K R C E P) :=
  if st.master then
    if st.journal.log.isEmpty then some { st with journal := {} }
    else if st.journal.info.beginUs < st.journal.info.endUs ∧ st.head < ts ∧ st.lastApplied < ts then
      some { st with journal := {}, stream := st.stream ++ [(ts, some ⟨st.journal.info, st.journal.log.map (·.1)⟩)], head := ts, lastApplied := ts }
    else none
  else none

/-- Readings of the clock: `BeforeTransaction`, `AfterTransaction`, `PersistJournalFromLockedSection`. -/
structure Clock where
  beginUs : Time
  endUs : Time
  ts : Time
  deriving DecidableEq, Repr

/-- The first part of a read-write transaction, up to the outcome of the body. -/
def Storage.run (S : F → Schema K R C E P) (st : Storage F K R C E P) (t : Clock) (acts : List (Act F K R C E P)) : Option (Storage F K R C E P) :=
  match runActs S st.fields { st.journal with info := { st.journal.info with beginUs := t.beginUs } } acts with
  | none => none
  | some (σ, j) => some { st with fields := σ, journal := j }

def Storage.after (st : Storage F K R C E P) (t : Clock) : Storage F K R C E P :=
  { st with journal := { st.journal with info := { st.journal.info with endUs := t.endUs } } }

/-- Read-write transaction returning a value: `storage.h:384-392`, `transaction_policy.h:62-101`. -/
def Storage.readWrite (S : F → Schema K R C E P) (st : Storage F K R C E P) (t : Clock) (acts : List (Act F K R C E P)) (out : Outcome V) :
    Option (Storage F K R C E P × Result V) :=
  if st.master = false then some (st, .notMaster)
  else if st.journal.isEmpty = false then none
  else if st.destructing then some (st, .shutdown)
  else match st.run S t acts with
    | none => none
    | some st₁ => match out with
      | .returns v => ((st₁.after t).persist t.ts).map fun st₂ => (st₂, .committed v)
      | .rollbackWith v => some (st₁.rollback, .rolledBack (some v))
      | .rollback => some (st₁.rollback, .rolledBack none)
      | .throws => some (st₁.rollback, .exception)

/-- Read-write transaction returning `void`: `transaction_policy.h:139-175`. A rollback with a value is an exception like any other; a rollback without one reports an existing `void`. -/
def Storage.readWriteVoid (S : F → Schema K R C E P) (st : Storage F K R C E P) (t : Clock) (acts : List (Act F K R C E P)) (out : Outcome Unit) :
    Option (Storage F K R C E P × Result Unit) :=
  if st.master = false then some (st, .notMaster)
  else if st.journal.isEmpty = false then none
  else if st.destructing then some (st, .shutdown)
  else match st.run S t acts with
    | none => none
    | some st₁ => match out with
      | .returns v => ((st₁.after t).persist t.ts).map fun st₂ => (st₂, .committed v)
      | .rollback => some (st₁.rollback, .rolledBack (some ()))
      | .rollbackWith _ => some (st₁.rollback, .exception)
      | .throws => some (st₁.rollback, .exception)

/-- Two-step read-write transaction: `storage.h:394-403`, `transaction_policy.h:211-251`. `f2 n v`: how the second step ends when called with `v`, if it has been called
`n` times before. The last component: the values `f2` was called with. -/
def Storage.twoStep (S : F → Schema K R C E P) (st : Storage F K R C E P) (t : Clock) (acts : List (Act F K R C E P)) (out : Outcome V) (f2 : Nat → V → Outcome V) :
    Option (Storage F K R C E P × Result Unit × List V) :=
  if st.master = false then some (st, .notMaster, [])
  else if st.journal.isEmpty = false then none
  else if st.destructing then some (st, .shutdown, [])
  else
    -- The `catch` clauses.
    let handle (st : Storage F K R C E P) (o : Outcome V) (calls : List V) : Storage F K R C E P × Result Unit × List V :=
      match o with
      | .returns _ => (st, .committed (), calls)
      | .rollbackWith v => match f2 calls.length v with
        | .returns _ => (st.rollback, .rolledBack none, calls ++ [v])
        | _ => (st.rollback, .thrown, calls ++ [v])
      | .rollback => (st.rollback, .rolledBack none, calls)
      | .throws => (st.rollback, .exception, calls)
    match st.run S t acts with
    | none => none
    | some st₁ => match out with
      | .returns v => ((st₁.after t).persist t.ts).map fun st₂ => handle st₂ (f2 0 v) [v]
      | o => some (handle st₁ o [])

/-- Read-only transaction returning a value: `storage.h:405-412`, `transaction_policy.h:103-137`. The body gets `const` fields. -/
def Storage.readOnly (st : Storage F K R C E P) (out : Outcome V) : Option (Storage F K R C E P × Result V) :=
  if st.journal.isEmpty = false then none
  else if st.destructing then some (st, .shutdown)
  else match out with
    | .returns v => some (st, .committed v)
    | .rollbackWith v => some (st, .rolledBack (some v))
    | .rollback => some (st, .rolledBack none)
    | .throws => some (st, .exception)

/-- Something else published to the stream through `PublisherUsed()`, `storage.h:423`. -/
def Storage.publishOther (st : Storage F K R C E P) (ts : Time) : Storage F K R C E P :=
  if st.head < ts then { st with stream := st.stream ++ [(ts, none)], head := ts } else st

/-- `ApplyMutationsFromLockedSectionOrConstructor`, `persister/stream.h:190-197`, for the transactions among some entries. -/
def applyEntries (S : F → Schema K R C E P) : Fields F K R C E → Time → List (StreamEntry F K R C E P) → Option (Fields F K R C E × Time)
  | σ, last, [] => some (σ, last)
  | σ, last, (_, none) :: es => applyEntries S σ last es
  | σ, last, (ts, some tx) :: es => if last < ts then applyEntries S (σ.replayAll S tx.mutations) ts es else none

/-- A master storage atop an existing stream: `persister/stream.h:75-89`: everything is replayed. -/
def Storage.create (S : F → Schema K R C E P) (kinds : F → Kind) (stream : List (StreamEntry F K R C E P)) (head : Time) : Option (Storage F K R C E P) :=
  match applyEntries S (fun f => (kinds f).empty) (-1) stream with
  | none => none
  | some (σ, last) => some { fields := σ, stream := stream, head := head, lastApplied := last }

/-- A following storage: `persister/stream.h:91-103`. -/
def Storage.createFollowing (kinds : F → Kind) (stream : List (StreamEntry F K R C E P)) (head : Time) : Storage F K R C E P :=
  { fields := fun f => (kinds f).empty, stream := stream, head := head, master := false, subscribed := true }

/-- The subscriber of a following storage gets the next transaction, `persister/stream.h:61-65`. (Subscriptions deliver the entries of the stream in order, each once, see `Verif.Stream`;
entries of other types are not shown to it.) -/
def Storage.follow (S : F → Schema K R C E P) (st : Storage F K R C E P) : Option (Storage F K R C E P) :=
  if st.subscribed then
    match (st.stream.drop st.next).findIdx? (fun e => e.2.isSome) with
    | none => some st
    | some i => match (st.stream.drop st.next).take (i + 1) with
      | es => match applyEntries S st.fields st.lastApplied es with
        | none => none
        | some (σ, last) => some { st with fields := σ, lastApplied := last, next := st.next + i + 1 }
  else some st

/-- `BecomeMasterStorage`, `persister/stream.h:161-174`. `streamIsMaster`: whether the stream lets its publisher go; if it does not, `BecomeFollowingStream` throws. -/
def Storage.becomeMaster (S : F → Schema K R C E P) (st : Storage F K R C E P) (streamIsMaster : Bool) : Option (Storage F K R C E P × Bool) :=
  if st.master then some (st, false)
  else if streamIsMaster then
    match applyEntries S st.fields st.lastApplied (st.stream.drop st.next) with
    | none => none
    | some (σ, last) => some ({ st with fields := σ, lastApplied := last, master := true, subscribed := false }, true)
  else some ({ st with subscribed := false }, false)

/-- What happens to a following storage: its stream receives entries of the master's stream (replication, `Verif.Replicate`), its subscriber gets a transaction. -/
inductive FollowerStep where
  | receive (n : Nat)
  | apply
  deriving DecidableEq, Repr

/-- A step of a following storage. `all`: the master's stream, of which it has a part. -/
def Storage.followerStep (S : F → Schema K R C E P) (all : List (StreamEntry F K R C E P)) (st : Storage F K R C E P) : FollowerStep → Option (Storage F K R C E P)
  | .receive n => some (if st.stream.length ≤ n then { st with stream := all.take n } else st)
  | .apply => st.follow S

def Storage.followerSteps (S : F → Schema K R C E P) (all : List (StreamEntry F K R C E P)) : Storage F K R C E P → List FollowerStep → Option (Storage F K R C E P)
  | st, [] => some st
  | st, x :: xs => match st.followerStep S all x with
    | none => none
    | some st' => Storage.followerSteps S all st' xs

end Current.Storage
