import Verif.Replicate.Chunk
import Verif.Strings.Split
import Verif.Persist.Codec
/-!
Model of following a remote stream: `RemoteStreamSubscriber`, `RemoteSubscriberThread` and `StreamReplicatorImpl`,
`stream/replicator.h:111-236, 287-333, 442-491`.

The follower's own persister is the memory one (`Verif/Persist/Model`); the replicator holds its only publisher (C24), so nobody else publishes.

Not modelled: `CheckSchema` (a failure is a connection that delivers nothing), the subscription id and `Terminate` (the run just stops), HTTP itself: a
connection delivers some chunks, then ends, for whatever reason.
-/
namespace Current.Replicate
open Current.Persist Current.Strings

variable {E : Type}

/-- The codec of a log, and of what only travels over the wire: `JSON(ts_only_t)`, `ParseJSON<ts_only_t>`, `ParseJSON<ts_optidx_t>`
(`blocks/ss/idx_ts.h:56-78`). -/
structure Wire (E : Type) extends Codec E where
  putHead : Int → Str
  getHead : Str → Option Int
  getOpt : Str → Option (Option Nat × Int)

/-- What replication relies on from JSON: parsing inverts printing, and nothing printed contains a raw tab or line break, or is empty. -/
structure Wire.Lawful (k : Wire E) : Prop where
  base : k.toCodec.Lawful
  getOpt_idx : ∀ x, k.getOpt (k.putIdx x) = some (some x.index, x.us)
  getOpt_head : ∀ us, k.getOpt (k.putHead us) = some (none, us)
  getHead_put : ∀ us, k.getHead (k.putHead us) = some us
  put_clean : ∀ e, k.put e ≠ [] ∧ ∀ c ∈ k.put e, c ≠ '\t' ∧ isSep c = false
  idx_clean : ∀ x, k.putIdx x ≠ [] ∧ ∀ c ∈ k.putIdx x, c ≠ '\t' ∧ isSep c = false
  head_clean : ∀ us, k.putHead us ≠ [] ∧ ∀ c ∈ k.putHead us, c ≠ '\t' ∧ isSep c = false

/-- `ReplicationMode`. -/
inductive Mode where
  | checked | unchecked
  deriving DecidableEq, Repr

/-- The follower. -/
structure Follower (E : Type) where
  next : Nat        -- `next_expected_index_`
  from_ : Int       -- `from_us_`
  carry : Str       -- `carried_over_data_`
  mem : Mem E       -- the follower's stream
  deriving DecidableEq, Repr

/-- Publishing by the replicator, `replicator.h:459-485`: `none` is an exception of the persister, which leaves it as it was (C02). -/
def publishTo (c : Mem E × Reply) : Option (Mem E) :=
  match c.2 with
  | .thrown _ => none
  | _ => some c.1

/-- `PassEntryToSubscriber` in checked mode, `replicator.h:178-212`, with the replicator as the subscriber. `false`: an exception. -/
def passChecked (k : Wire E) (f : Follower E) (line : Str) : Follower E × Bool :=
  match (split (matchChar '\t') false line).1 with
  | [] => (f, false)
  | a :: rest =>
    match k.getOpt a with
    | none => (f, false)
    | some (idx, us) =>
      if f.from_ > 0 ∧ us < f.from_ then (f, false)
      else match idx with
        | some i =>
          match rest with
          | [b] =>
            if i ≠ f.next then (f, false)
            else match k.get b with
              | none => (f, false)
              | some e =>
                match publishTo (f.mem.publish e us) with
                | none => (f, false)
                | some m => ({ f with next := f.next + 1, from_ := 0, mem := m }, true)
          | _ => (f, false)
        | none =>
          match rest with
          | [] =>
            match publishTo (f.mem.updateHead us) with
            | none => (f, false)
            | some m => ({ f with from_ := us + 1, mem := m }, true)
          | _ => (f, false)

/-- `PassEntryToSubscriber` in unchecked mode, `replicator.h:214-236`. -/
def passUnchecked (k : Wire E) (f : Follower E) (line : Str) : Follower E × Bool :=
  match splitTab line with
  | some _ =>
    match publishTo (f.mem.publishUnsafe k.toCodec line) with
    | none => (f, false)
    | some m => ({ f with next := f.next + 1, from_ := 0, mem := m }, true)
  | none =>
    match k.getHead line with
    | none => (f, false)
    | some us =>
      match publishTo (f.mem.updateHead us) with
      | none => (f, false)
      | some m => ({ f with from_ := us + 1, mem := m }, true)

def passEntry (k : Wire E) : Mode → Follower E → Str → Follower E × Bool
  | .checked => passChecked k
  | .unchecked => passUnchecked k

/-- Lines passed on one after another, until an exception. -/
def passLines (k : Wire E) (md : Mode) : Follower E → List Str → Follower E × Bool
  | f, [] => (f, true)
  | f, l :: ls =>
    let r := passEntry k md f l
    if r.2 then passLines k md r.1 ls else r

/-- `OnChunk`, `replicator.h:326-333`: one chunk (see `passChunk`), its lines passed on until an exception. (After an exception the real
`carried_over_data_` may be something else; it is cleared at once, see `session`.) -/
def onChunk (k : Wire E) (md : Mode) (f : Follower E) (chunk : Str) : Follower E × Bool :=
  let r := passChunk f.carry chunk
  let q := passLines k md f r.1
  ({ q.1 with carry := r.2 }, q.2)

/-- One connection: chunks until an exception or until the connection ends, however it does. -/
def onChunks (k : Wire E) (md : Mode) : Follower E → List Str → Follower E × Bool
  | f, [] => (f, true)
  | f, c :: cs =>
    let r := onChunk k md f c
    if r.2 then onChunks k md r.1 cs else r

/-- One iteration of `ThreadImpl`'s loop, `replicator.h:290-316`: connect, receive, forget the unfinished line. -/
def session (k : Wire E) (md : Mode) (f : Follower E) (chunks : List Str) : Follower E :=
  { (onChunks k md f chunks).1 with carry := [] }

/-- The life of a follower: one connection after another. -/
def sessions (k : Wire E) (md : Mode) : Follower E → List (List Str) → Follower E
  | f, [] => f
  | f, c :: cs => sessions k md (session k md f c) cs

/-- A follower created over a stream: `FollowRemoteStream`, `replicator.h:585-590`; `from_us` is `CurrentHead() + 1us`. -/
def Follower.start (m : Mem E) : Follower E := ⟨m.entries.length, m.head + 1, [], m⟩

/-- The URL asked for, `GetURLToSubscribe`, `replicator.h:85-88`: `i`, and `since` if positive. -/
def Follower.request (f : Follower E) : Nat × Option Int := (f.next, if f.from_ > 0 then some f.from_ else none)

end Current.Replicate
