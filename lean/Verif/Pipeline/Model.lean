set_option linter.unusedSimpArgs false
set_option linter.unusedVariables false

/-! # Pipelines over a circular buffer (`examples/streamed_sockets/latencytest/dsl/dsl.h`)

One thread reads bytes into a circular buffer, one thread per worker goes over the blobs in it, in place; a worker may run along the buffer as far as all workers of the previous stage have gone, and the source as far as it does not overwrite what the last stage has not done.

The reads of the counters without the mutex (through the `volatile` reference) are modelled as reading any value which is not above the current one (the counters only grow). -/

namespace Current.Pipeline

/-! ### The types: who waits for whom -/

/-- The arguments of `Pipeline(source, ...)` after the source: `BlockWorker<...>` or `ParallelPipeline(...)` of `n + 1` workers (with none it does not compile). -/
inductive Block
  | worker
  | parallel (n : Nat)

/-- `PipelineWorker<I, U, V, WORKER>`, `dsl.h:136-155`. -/
structure W where
  i : Nat
  u : Nat
  v : Nat

/-- `ExpandParallelWorkers<I, U, V, WORKERS...>`, `dsl.h:362-378`, for `n` workers. -/
def expand (i u v : Nat) : Nat → List W
  | 0 => []
  | n + 1 => ⟨i, u, v⟩ :: expand (i + 1) u v n

/-- `PipelineTypeListBuilder<I, ...>`, `dsl.h:341-360` and `:387-392`. -/
def build (i : Nat) : List Block → List W
  | [] => []
  | .worker :: bs => ⟨i, i, i⟩ :: build (i + 1) bs
  | .parallel n :: bs => expand i i (i + (n + 1) - 1) (n + 1) ++ build (i + (n + 1)) bs

/-- `UVPerI<I, WORKERS...>`, `dsl.h:437-459`. -/
def uv (ws : List W) (z : Nat) : Nat × Nat :=
  if z = 0 then (0, 0) else match ws.find? (·.i = z) with | some w => (w.u, w.v) | none => (0, 0)

/-- `CompileTimeMinimumArrayElementFromRange<U, U + d, ...>`, `dsl.h:422-435`. -/
def minRange (a : Nat → Nat) (u : Nat) : Nat → Nat
  | 0 => a u
  | d + 1 => min (a u) (minRange a (u + 1) d)

/-- `InternalReadyCountFor<I>`, `dsl.h:477-482`. -/
def internalReady (ws : List W) (pub : Nat → Nat) (i : Nat) : Nat := minRange pub (uv ws i).1 ((uv ws i).2 - (uv ws i).1)

/-- The number of threads, `N`, `dsl.h:468`. -/
def nOf (ws : List W) : Nat := ws.length + 1

/-- `ReadyCountFor<I>`, `dsl.h:487-490`. -/
def readyFor (ws : List W) (pub : Nat → Nat) (i : Nat) : Nat := internalReady ws pub ((nOf ws + (uv ws i).1 - 1) % nOf ws)

/-- `GrandTotalProcessedCount`, `dsl.h:485`. -/
def grandTotal (ws : List W) (pub : Nat → Nat) : Nat := internalReady ws pub (nOf ws - 1)

/-! ### The threads -/

/-- The range of the buffer a thread has in its hands during one call of `DoWork(begin, end)` or `DoGetInput(begin, end)`, and how far it is. -/
structure Chunk where
  p0 : Nat
  p : Nat
  e : Nat

/-- The local variables of `WorkerThread`, `dsl.h:557-611`. -/
structure Thread where
  /-- `updating_total_blobs_done` -/
  done : Nat
  /-- `trailing_total_blobs_read` -/
  trail : Nat
  work : Option Chunk

/-- The local variables of `SourceThread`, `dsl.h:669-742`. -/
structure Source where
  /-- `updating_total_bytes_read` -/
  bytes : Nat
  /-- `updating_total_blobs_read` -/
  blobs : Nat
  /-- `trailing_total_blobs_done` -/
  trail : Nat
  /-- `trailing_total_bytes_aval` -/
  aval : Nat
  work : Option Chunk

/-- The pipeline at run time. -/
structure St (β σ : Type) where
  /-- `total_ready`, guarded by the mutex of the `WaitableAtomic`. -/
  pub : Nat → Nat
  /-- `circular_buffer`, as bytes. -/
  buf : Nat → β
  src : Source
  th : Nat → Thread
  /-- The states of the workers. -/
  ws : Nat → σ
  /-- The blobs each worker was given, newest first. -/
  seen : Nat → List (List β)

/-- The parameters: `2 ^ s` blobs in the buffer, `2 ^ b` bytes in a blob, the bytes which the source delivers, and what the workers do to a blob. -/
structure Cfg (β σ : Type) where
  blocks : List Block
  s : Nat
  b : Nat
  input : Nat → β
  zero : β
  init : Nat → σ
  f : Nat → σ → List β → List β × σ

variable {β σ : Type}

/-- The type list of the pipeline. -/
def Cfg.workers (c : Cfg β σ) : List W := build 1 c.blocks
/-- The size of the buffer in blobs. -/
def Cfg.S (c : Cfg β σ) : Nat := 2 ^ c.s
/-- `sizeof(BLOB)`. -/
def Cfg.B (c : Cfg β σ) : Nat := 2 ^ c.b
/-- `total_buffer_size_in_bytes`. -/
def Cfg.SB (c : Cfg β σ) : Nat := 2 ^ c.s * 2 ^ c.b

/-- The initial state. -/
def St.init (c : Cfg β σ) : St β σ := ⟨fun _ => 0, fun _ => c.zero, ⟨0, 0, 0, 0, none⟩, fun _ => ⟨0, 0, none⟩, c.init, fun _ => []⟩

/-- The blob at a position of the buffer. -/
def readBlob (c : Cfg β σ) (buf : Nat → β) (p : Nat) : List β := (List.range c.B).map fun j => buf (p * c.B + j)

/-- Writing a blob. -/
def writeBlob (c : Cfg β σ) (buf : Nat → β) (p : Nat) (x : List β) : Nat → β := fun y =>
  if p * c.B ≤ y ∧ y < p * c.B + c.B then x.getD (y - p * c.B) (buf y) else buf y

/-- Changing the thread of a worker. -/
def St.setTh (s : St β σ) (i : Nat) (t : Thread) : St β σ := { s with th := fun j => if j = i then t else s.th j }

/-- What can happen. -/
inductive Op
  /-- A worker looks at the counters and sees `r`: `Update`, `dsl.h:573-576`. -/
  | look (i r : Nat)
  /-- A worker enters `DoWork`, `dsl.h:595-608`. -/
  | start (i : Nat)
  /-- A worker does one blob. -/
  | blob (i : Nat)
  /-- `DoWork` returns, and the counter is updated, `dsl.h:596-599`. -/
  | finish (i : Nat)
  /-- The source looks at the counters, `dsl.h:703-710`. -/
  | srcLook (r : Nat)
  /-- The source enters `DoGetInput`, `dsl.h:731-738`. -/
  | srcStart
  /-- One byte arrives. -/
  | srcByte
  /-- `DoGetInput` returns, `dsl.h:718-729`. -/
  | srcFinish

/-- Where the chunk ends: `dsl.h:602-608` and `:731-738`. -/
def chunkEnd (bgn en size : Nat) : Nat := if bgn < en then en else size

/-- One step, or none if it is not possible. -/
def step (c : Cfg β σ) (s : St β σ) : Op → Option (St β σ)
  | .look i r =>
    let t := s.th i
    if 1 ≤ i ∧ i < nOf c.workers ∧ t.work.isNone ∧ r ≤ readyFor c.workers s.pub i then
      some (s.setTh i { t with trail := max t.trail r })
    else none
  | .start i =>
    let t := s.th i
    if 1 ≤ i ∧ i < nOf c.workers ∧ t.work.isNone ∧ t.done < t.trail then
      let bgn := t.done &&& (c.S - 1)
      let en := t.trail &&& (c.S - 1)
      some (s.setTh i { t with work := some ⟨bgn, bgn, chunkEnd bgn en c.S⟩ })
    else none
  | .blob i =>
    let t := s.th i
    match t.work with
    | none => none
    | some k =>
      if 1 ≤ i ∧ i < nOf c.workers ∧ k.p < k.e then
        let x := readBlob c s.buf k.p
        let (y, w) := c.f i (s.ws i) x
        some { (s.setTh i { t with work := some { k with p := k.p + 1 } }) with
          buf := writeBlob c s.buf k.p y
          ws := fun j => if j = i then w else s.ws j
          seen := fun j => if j = i then x :: s.seen i else s.seen j }
      else none
  | .finish i =>
    let t := s.th i
    match t.work with
    | none => none
    | some k =>
      if 1 ≤ i ∧ i < nOf c.workers then
        let done := t.done + (k.p - k.p0)
        some { (s.setTh i { t with done := done, work := none }) with pub := fun j => if j = i then done else s.pub j }
      else none
  | .srcLook r =>
    if s.src.work.isNone ∧ r ≤ readyFor c.workers s.pub 0 then
      let trail := max s.src.trail r
      some { s with src := { s.src with trail := trail, aval := trail * c.B + c.SB } }
    else none
  | .srcStart =>
    if s.src.work.isNone ∧ s.src.aval ≠ s.src.bytes then
      let bgn := s.src.bytes &&& (c.SB - 1)
      let en := s.src.aval &&& (c.SB - 1)
      some { s with src := { s.src with work := some ⟨bgn, bgn, chunkEnd bgn en c.SB⟩ } }
    else none
  | .srcByte =>
    match s.src.work with
    | none => none
    | some k =>
      if k.p < k.e then
        some { s with
          src := { s.src with work := some { k with p := k.p + 1 } }
          buf := fun y => if y = k.p then c.input (s.src.bytes + (k.p - k.p0)) else s.buf y }
      else none
  | .srcFinish =>
    match s.src.work with
    | none => none
    | some k =>
      let bytes := s.src.bytes + (k.p - k.p0)
      if k.p - k.p0 ≠ 0 then
        let cand := bytes / c.B
        if cand ≠ s.src.blobs then
          some { s with src := { s.src with bytes := bytes, blobs := cand, work := none }, pub := fun j => if j = 0 then cand else s.pub j }
        else some { s with src := { s.src with bytes := bytes, work := none } }
      else some { s with src := { s.src with work := none } }

/-- A history. -/
def run (c : Cfg β σ) (s : St β σ) : List Op → Option (St β σ)
  | [] => some s
  | o :: os => match step c s o with | none => none | some s' => run c s' os

/-- `RoundUpToPowerOfTwo`, `dsl.h:789-795`: the size of the buffer is always a power of two. Simplified: no overflow (with a size over `2 ^ 63` blobs the loop of the program would not end); `0 < n` is for the termination check only. -/
def roundUp (x : Nat) (n : Nat) : Nat := if 0 < n ∧ n < x then roundUp x (n * 2) else n
termination_by x - n

/-! ### Specification: the workers one after the other -/

/-- The `k`-th blob of the input. -/
def raw (c : Cfg β σ) (k : Nat) : List β := (List.range (2 ^ c.b)).map fun j => c.input (k * 2 ^ c.b + j)

/-- The state of a worker which has been given the first `k` blobs of `x`, one by one. -/
def stateAfter (f : σ → List β → List β × σ) (w : σ) (x : Nat → List β) : Nat → σ
  | 0 => w
  | k + 1 => (f (stateAfter f w x k) (x k)).2

/-- The blobs after the workers `1` to `i` have gone over all of them, one worker after the other. -/
def after (c : Cfg β σ) : Nat → Nat → List β
  | 0 => raw c
  | i + 1 => fun k => (c.f (i + 1) (stateAfter (c.f (i + 1)) (c.init (i + 1)) (after c i) k) (after c i k)).1

/-- A block of `n + 1` workers with the numbers from `i` on is a `ParallelPipeline`. -/
def isParallel (i : Nat) (j : Nat) : List Block → Bool
  | [] => false
  | .worker :: bs => isParallel (i + 1) j bs
  | .parallel n :: bs => (decide (i ≤ j ∧ j < i + (n + 1)) && decide (0 < n)) || isParallel (i + (n + 1)) j bs

/-- What a user must respect: a worker keeps the size of a blob, and workers of a `ParallelPipeline` (of more than one) do not change it. -/
structure Cfg.Ok (c : Cfg β σ) : Prop where
  size : ∀ i w x, (c.f i w x).1.length = x.length
  parallel : ∀ i, isParallel 1 i c.blocks = true → ∀ w x, (c.f i w x).1 = x

end Current.Pipeline
