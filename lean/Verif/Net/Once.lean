/-!
# One response per request

`GenericHTTPServerConnection`, `bricks/net/http/impl/server.h:710-927`, the `Request` that owns it, `blocks/http/request.h:49-131`, and
the loop of the server's thread, `blocks/http/impl/posix_server.h:416-473`.

The text of responses is the subject of C57; here a response is an item on the wire.  A handler is any sequence of operations
on its request, whether they happen on the server's thread or, after the request has been moved, on others; moving a request
has no effect of its own (it owns the connection through a `unique_ptr`).  What the handler makes of exceptions is its
business: the operations after one that throws are what it does then.
-/
namespace Current.Net.Once

/-- what is written to the socket; `R` is a response, `D` the data of a chunk -/
inductive W (R D : Type)
  | whole (r : R)
  | part (r : R)        -- the beginning of a response, the write failed
  | header              -- the header of a chunked response
  | chunk (d : D)
  | last                -- the final, empty chunk
  deriving DecidableEq

/-- what can be done with a request -/
inductive Op (R D : Type)
  | respond (r : R)         -- `r(...)`, `SendHTTPResponse`
  | respondThrows           -- the same, composing the response throws (the JSON of an empty variant, say)
  | respondFails (r : R)    -- the same, the socket fails when a part has been written
  | chunked                 -- `SendChunkedResponse`
  | chunkedFails            -- the same, the socket fails
  | send (d : D)            -- `Send` of the sender
  | sendFails (d : D)       -- the same, the socket fails
  | dropSender              -- the sender is destroyed
  | drop                    -- the request is destroyed

structure Conn (R D : Type) where
  wire : List (W R D)
  /-- `responded_` -/
  responded : Bool
  /-- the live sender of chunks, with its `can_no_longer_write_` -/
  sender : Option Bool
  /-- the request has not been destroyed -/
  alive : Bool
  /-- how many operations have thrown -/
  thrown : Nat
  /-- an object was used after it had been destroyed -/
  dangling : Bool
  deriving DecidableEq

variable {R D : Type}

def fresh : Conn R D := ⟨[], false, none, true, 0, false⟩

/-- One operation; `ise` is "INTERNAL SERVER ERROR". -/
def op (ise : R) (s : Conn R D) : Op R D → Conn R D
  -- `server.h:748-756`, `request.h:88-97`
  | .respond r => if !s.alive then { s with dangling := true }
      else if s.responded then { s with thrown := s.thrown + 1 }
      else { s with wire := s.wire ++ [.whole r], responded := true }
  | .respondThrows => if !s.alive then { s with dangling := true } else { s with thrown := s.thrown + 1 }
  | .respondFails r => if !s.alive then { s with dangling := true }
      else if s.responded then { s with thrown := s.thrown + 1 }
      else { s with wire := s.wire ++ [.part r], thrown := s.thrown + 1 }
  -- `server.h:881-895`: `responded_ = true` comes first
  | .chunked => if !s.alive then { s with dangling := true }
      else if s.responded then { s with thrown := s.thrown + 1 }
      else { s with wire := s.wire ++ [.header], responded := true, sender := some false }
  | .chunkedFails => if !s.alive then { s with dangling := true }
      else if s.responded then { s with thrown := s.thrown + 1 }
      else { s with responded := true, thrown := s.thrown + 1 }
  -- `server.h:783-819`: the sender has a reference to the connection
  | .send d => match s.sender with
    | none => s
    | some _ => if !s.alive then { s with dangling := true } else { s with wire := s.wire ++ [.chunk d] }
  | .sendFails _ => match s.sender with
    | none => s
    | some _ => if !s.alive then { s with dangling := true }
        else { s with sender := some true, thrown := s.thrown + 1 }
  -- `server.h:765-779`
  | .dropSender => match s.sender with
    | none => s
    | some true => { s with sender := none }
    | some false => if !s.alive then { s with dangling := true, sender := none }
        else { s with wire := s.wire ++ [.last], sender := none }
  -- `server.h:720-746`
  | .drop => if !s.alive then s
      else if s.responded then { s with alive := false } else { s with alive := false, wire := s.wire ++ [.whole ise] }

/-- A handler, and what is destroyed when it is over: the sender, if it is still there, and then the request, which has been
there before it. -/
def handle (ise : R) (ops : List (Op R D)) : Conn R D := op ise (op ise (ops.foldl (op ise) fresh) .dropSender) .drop

/-! ## Specification -/

/-- exactly one response -/
def OneResponse (w : List (W R D)) : Prop :=
  (∃ r, w = [.whole r]) ∨ ∃ ds : List D, w = .header :: ds.map W.chunk ++ [.last]

/-- the socket works -/
def SocketOk (ops : List (Op R D)) : Prop :=
  ∀ o ∈ ops, (∀ r, o ≠ .respondFails r) ∧ o ≠ .chunkedFails ∧ ∀ d, o ≠ .sendFails d

/-- the operations that answer a request -/
def Answers : Op R D → Prop
  | .respond _ | .chunked => True
  | _ => False

/-! ## Proofs -/

/-- the wire holds one response that is not chunked -/
def IsWhole (w : List (W R D)) : Prop := ∃ r, w = [.whole r]

/-- the wire holds the beginning of a chunked response -/
def IsOpen (w : List (W R D)) : Prop := ∃ ds : List D, w = .header :: ds.map W.chunk

/-- the wire holds a chunked response -/
def IsClosed (w : List (W R D)) : Prop := ∃ ds : List D, w = .header :: ds.map W.chunk ++ [.last]

theorem isWhole_nil (r : R) : IsWhole ([] ++ [W.whole r] : List (W R D)) := ⟨r, rfl⟩
theorem isOpen_nil : IsOpen ([] ++ [W.header] : List (W R D)) := ⟨[], rfl⟩
theorem isOpen_append (w : List (W R D)) (d : D) (h : IsOpen w) : IsOpen (w ++ [.chunk d]) := by
  obtain ⟨ds, rfl⟩ := h; exact ⟨ds ++ [d], by simp⟩
theorem isClosed_append (w : List (W R D)) (h : IsOpen w) : IsClosed (w ++ [.last]) := by
  obtain ⟨ds, rfl⟩ := h; exact ⟨ds, by simp⟩

/-- the state of the wire -/
def Ok (s : Conn R D) : Prop :=
  s.sender ≠ some true ∧
  ((s.responded = false ∧ s.alive = true ∧ s.wire = [] ∧ s.sender = none) ∨
   (s.responded = false ∧ s.alive = false ∧ IsWhole s.wire ∧ s.sender = none) ∨
   (s.responded = true ∧ IsWhole s.wire ∧ s.sender = none) ∨
   (s.responded = true ∧ IsOpen s.wire ∧ s.sender = some false) ∨
   (s.responded = true ∧ IsClosed s.wire ∧ s.sender = none) ∨
   s.dangling = true)

theorem ok_op (ise : R) (s : Conn R D) (o : Op R D) (h : Ok s)
    (ho : (∀ r, o ≠ .respondFails r) ∧ o ≠ .chunkedFails ∧ ∀ d, o ≠ .sendFails d) : Ok (op ise s o) := by
  obtain ⟨h1, h2, h3⟩ := ho
  unfold Ok at h ⊢
  cases o with
  | respondFails r => exact absurd rfl (h1 r)
  | chunkedFails => exact absurd rfl h2
  | sendFails d => exact absurd rfl (h3 d)
  | _ =>
    clear h1 h2 h3
    simp only [op]
    (repeat' split)
    all_goals grind [isWhole_nil, isOpen_nil, isOpen_append, isClosed_append]

theorem dangling_stays (ise : R) (s : Conn R D) (o : Op R D) (h : s.dangling = true) : (op ise s o).dangling = true := by
  cases o <;> simp only [op] <;> (repeat' split) <;> simp_all

theorem ok_fold (ise : R) (ops : List (Op R D)) (s : Conn R D) (h : Ok s) (ho : SocketOk ops) : Ok (ops.foldl (op ise) s) := by
  induction ops generalizing s with
  | nil => exact h
  | cons o os ih => exact ih _ (ok_op ise s o h (ho o (by simp))) (fun o' h' => ho o' (by simp [h']))

/-- **Every request is answered, and once.**  Whatever a handler does with its request — answers it, answers it twice, throws,
forgets it, hands it to another thread — exactly one response is sent, provided that the socket works and nothing is used
after it was destroyed. -/
theorem one_response (ise : R) (ops : List (Op R D)) (ho : SocketOk ops) (hd : (handle ise ops).dangling = false) :
    OneResponse (handle ise ops).wire := by
  have h1 : Ok (ops.foldl (op ise) (fresh : Conn R D)) :=
    ok_fold ise ops fresh ⟨by simp [fresh], .inl ⟨rfl, rfl, rfl, rfl⟩⟩ ho
  unfold handle at hd ⊢
  generalize hs : ops.foldl (op ise) (fresh : Conn R D) = s at *
  have hnd : s.dangling = false := by
    cases hsd : s.dangling with
    | false => rfl
    | true => rw [dangling_stays ise _ _ (dangling_stays ise s _ hsd)] at hd; cases hd
  obtain ⟨w, rs, sd, al, th, dg⟩ := s
  simp only at hnd
  subst hnd
  unfold Ok at h1
  simp only [Bool.false_eq_true, or_false] at h1
  obtain ⟨h0, h1⟩ := h1
  rcases h1 with ⟨rfl, rfl, rfl, rfl⟩ | ⟨rfl, rfl, ⟨r, rfl⟩, rfl⟩ | ⟨rfl, ⟨r, rfl⟩, rfl⟩ | ⟨rfl, ⟨ds, rfl⟩, rfl⟩ |
      ⟨rfl, ⟨ds, rfl⟩, rfl⟩
  · exact .inl ⟨ise, by simp [op]⟩
  · exact .inl ⟨r, by simp [op]⟩
  · exact .inl ⟨r, by cases al <;> simp [op]⟩
  · cases al
    · simp [op] at hd
    · exact .inr ⟨ds, by simp [op]⟩
  · exact .inr ⟨ds, by cases al <;> simp [op]⟩

/-- the state after a number of operations -/
def after (ise : R) (ops : List (Op R D)) : Conn R D := ops.foldl (op ise) fresh

/-- **The first answer is the one.**  Once a request has been answered, every further attempt throws and sends nothing. -/
theorem second_answer_throws (ise : R) (before between : List (Op R D)) (a b : Op R D) (ha : Answers a) (hb : Answers b)
    (halive : (after ise (before ++ a :: between)).alive = true) :
    (op ise (after ise (before ++ a :: between)) b).wire = (after ise (before ++ a :: between)).wire ∧
    (op ise (after ise (before ++ a :: between)) b).thrown = (after ise (before ++ a :: between)).thrown + 1 := by
  have mono : ∀ (s : Conn R D) o, s.responded = true → (op ise s o).responded = true := by
    intro s o h
    cases o <;> simp only [op] <;> (repeat' split) <;> simp_all
  have alive_back : ∀ (s : Conn R D) o, (op ise s o).alive = true → s.alive = true := by
    intro s o h
    cases o <;> simp only [op] at h <;> (repeat' split at h) <;> simp_all
  have fold_alive : ∀ (os : List (Op R D)) (s : Conn R D), (os.foldl (op ise) s).alive = true → s.alive = true := by
    intro os
    induction os with
    | nil => exact fun s h => h
    | cons o os ih => exact fun s h => alive_back s o (ih _ h)
  have fold_resp : ∀ (os : List (Op R D)) (s : Conn R D), s.responded = true → (os.foldl (op ise) s).responded = true := by
    intro os
    induction os with
    | nil => exact fun s h => h
    | cons o os ih => exact fun s h => ih _ (mono s o h)
  have hr : (after ise (before ++ a :: between)).responded = true := by
    unfold after at halive ⊢
    rw [List.foldl_append, List.foldl_cons] at halive ⊢
    apply fold_resp
    have hal := alive_back _ _ (fold_alive _ _ halive)
    cases a <;> simp only [Answers] at ha <;> simp only [op] <;> (repeat' split) <;> simp_all
  cases b <;> simp only [Answers] at hb <;> simp [op, halive, hr]

/-- the first answer is on the wire as given, if nothing answered before it -/
theorem first_answer_is_sent (ise : R) (before : List (Op R D)) (r : R) (rest : List (Op R D))
    (hal : (after ise before).alive = true) (hno : (after ise before).responded = false) (ho : SocketOk (before ++ .respond r :: rest))
    (hd : (handle ise (before ++ .respond r :: rest)).dangling = false) :
    (handle ise (before ++ .respond r :: rest)).wire = [.whole r] := by
  have hw : (after ise before).wire = [] ∨ (after ise before).dangling = true := by
    have h1 : Ok (after ise before) := ok_fold ise before fresh ⟨by simp [fresh], .inl ⟨rfl, rfl, rfl, rfl⟩⟩
      (fun o h => ho o (by simp [h]))
    rcases h1.2 with h | h | h | h | h | h
    · exact .inl h.2.2.1
    · rw [h.2.1] at hal; cases hal
    · rw [h.1] at hno; cases hno
    · rw [h.1] at hno; cases hno
    · rw [h.1] at hno; cases hno
    · exact .inr h
  have fold_dangling : ∀ (os : List (Op R D)) (s : Conn R D), s.dangling = true → (os.foldl (op ise) s).dangling = true := by
    intro os
    induction os with
    | nil => exact fun s h => h
    | cons o os ih => exact fun s h => ih _ (dangling_stays ise s o h)
  rcases hw with hw | hw
  · obtain ⟨tail, ht⟩ : ∃ tail, (handle ise (before ++ .respond r :: rest)).wire = .whole r :: tail := by
      have grow : ∀ (s : Conn R D) o, ∃ t, (op ise s o).wire = s.wire ++ t := by
        intro s o
        cases o <;> simp only [op] <;> (repeat' split) <;>
          first | exact ⟨_, rfl⟩ | exact ⟨[], (List.append_nil _).symm⟩
      have fold_grow : ∀ (os : List (Op R D)) (s : Conn R D), ∃ t, (os.foldl (op ise) s).wire = s.wire ++ t := by
        intro os
        induction os with
        | nil => exact fun s => ⟨[], (List.append_nil _).symm⟩
        | cons o os ih =>
          intro s
          obtain ⟨t1, h1⟩ := grow s o
          obtain ⟨t2, h2⟩ := ih (op ise s o)
          exact ⟨t1 ++ t2, by rw [List.foldl_cons, h2, h1, List.append_assoc]⟩
      obtain ⟨t, h⟩ := fold_grow (rest ++ [.dropSender, .drop]) (op ise (after ise before) (.respond r))
      refine ⟨t, ?_⟩
      have he : handle ise (before ++ .respond r :: rest) =
          (rest ++ [Op.dropSender, Op.drop]).foldl (op ise) (op ise (after ise before) (.respond r)) := by
        simp [handle, after, List.foldl_append]
      rw [he, h]
      simp [op, hal, hno, hw]
    rcases one_response ise _ ho hd with ⟨r', h⟩ | ⟨ds, h⟩
    · rw [ht] at h; injection h with h1 h2; injection h1 with h1; rw [ht, h2]
    · rw [ht] at h; injection h with h1 h2; cases h1
  · exfalso
    have : (handle ise (before ++ .respond r :: rest)).dangling = true := by
      unfold handle
      apply dangling_stays
      apply dangling_stays
      rw [List.foldl_append]
      exact fold_dangling _ _ hw
    rw [this] at hd; cases hd

/-- If whoever destroys the request has destroyed the sender before, and nobody touches the request after that, nothing
dangles. -/
theorem no_dangling (ise : R) (ops : List (Op R D)) (h : ∀ o ∈ ops, o ≠ .drop) : (handle ise ops).dangling = false := by
  have key : ∀ (os : List (Op R D)) (s : Conn R D), (∀ o ∈ os, o ≠ .drop) → s.alive = true → s.dangling = false →
      (os.foldl (op ise) s).alive = true ∧ (os.foldl (op ise) s).dangling = false := by
    intro os
    induction os with
    | nil => exact fun s _ h1 h2 => ⟨h1, h2⟩
    | cons o os ih =>
      intro s ho h1 h2
      have hne := ho o (by simp)
      refine ih _ (fun o' h' => ho o' (by simp [h'])) ?_ ?_
      all_goals cases o <;> simp only [op] <;> (repeat' split) <;> simp_all
  obtain ⟨h1, h2⟩ := key ops fresh h rfl rfl
  unfold handle
  generalize ops.foldl (op ise) (fresh : Conn R D) = s at *
  simp only [op]
  (repeat' split) <;> simp_all

/-! ## The server's thread -/

/-- what happens to a connection that is accepted -/
inductive Client (R D : Type)
  | bad (r : R)                 -- the request is malformed: answered with 400, 411 or 413 while it is read, then an exception
  | gone                        -- the socket is closed before the request is complete
  | noRoute                     -- there is no handler: 404
  | request (ops : List (Op R D)) (foreign : Bool)
      -- a handler; `foreign`: an exception leaves it that is not a `current::Exception`
  | foreignParse                -- reading the request ends in such an exception (C55: `std::length_error`, `std::out_of_range`)
  | silent                      -- nothing ever comes: `recv` blocks

/-- what the thread does: the wires of the connections, and whether the process is still there and the thread not blocked -/
def serve (ise notFound : R) : List (Client R D) → List (List (W R D)) × Bool
  | [] => ([], true)
  | .bad r :: cs => let p := serve ise notFound cs; ([.whole r] :: p.1, p.2)
  | .gone :: cs => let p := serve ise notFound cs; ([] :: p.1, p.2)
  | .noRoute :: cs => let p := serve ise notFound cs; ([.whole notFound] :: p.1, p.2)
  | .request ops false :: cs => let p := serve ise notFound cs; ((handle ise ops).wire :: p.1, p.2)
  | .request ops true :: _ => ([(handle ise ops).wire], false)
  | .foreignParse :: _ => ([[]], false)
  | .silent :: _ => ([[]], false)

/-- the clients that the server's thread survives -/
def Survived : Client R D → Prop
  | .bad _ | .gone | .noRoute => True
  | .request ops foreign => foreign = false ∧ SocketOk ops ∧ ∀ o ∈ ops, o ≠ .drop
  | _ => False

/-- what each of them gets -/
def Answered (ise notFound : R) (w : List (W R D)) : Client R D → Prop
  | .gone => w = []
  | .bad r => w = [.whole r]
  | .noRoute => w = [.whole notFound]
  | .request ops _ => OneResponse w ∧ w = (handle ise ops).wire
  | _ => False

/-- **Every client is answered**, once, in the order of connection, and the thread goes on: as long as no handler lets an
exception out that is not a `current::Exception`, no request is one of those that C55 describes, and no client is silent. -/
theorem all_answered_partial (ise notFound : R) (cs : List (Client R D)) (h : ∀ c ∈ cs, Survived c) :
    (serve ise notFound cs).2 = true ∧ (serve ise notFound cs).1.length = cs.length ∧
    ∀ (i : Nat) c w, cs[i]? = some c → (serve ise notFound cs).1[i]? = some w → Answered ise notFound w c := by
  induction cs with
  | nil => simp [serve]
  | cons c cs ih =>
    obtain ⟨h1, h2, h3⟩ := ih (fun c' hc' => h c' (by simp [hc']))
    have hc := h c (by simp)
    have step : ∀ w, (serve ise notFound (c :: cs)) = (w :: (serve ise notFound cs).1, (serve ise notFound cs).2) →
        Answered ise notFound w c →
        (serve ise notFound (c :: cs)).2 = true ∧ (serve ise notFound (c :: cs)).1.length = (c :: cs).length ∧
        ∀ (i : Nat) c' w', (c :: cs)[i]? = some c' → (serve ise notFound (c :: cs)).1[i]? = some w' →
          Answered ise notFound w' c' := by
      intro w he hw
      rw [he]
      refine ⟨h1, by simp [h2], fun i c' w' hi hi' => ?_⟩
      cases i with
      | zero => simp at hi hi'; subst hi hi'; exact hw
      | succ i => exact h3 i c' w' (by simpa using hi) (by simpa using hi')
    cases c with
    | bad r => exact step _ rfl rfl
    | gone => exact step _ rfl rfl
    | noRoute => exact step _ rfl rfl
    | request ops foreign =>
      obtain ⟨hf, hs, hd⟩ := hc
      subst hf
      exact step _ rfl ⟨one_response ise ops hs (no_dangling ise ops hd), rfl⟩
    | foreignParse => exact absurd hc (by simp [Survived])
    | silent => exact absurd hc (by simp [Survived])

/-! ## Concrete connections, and what goes wrong -/

/-- a handler that answers twice, one that forgets to, one that streams, one that throws before it answers -/
theorem demo_once :
    (handle 500 [.respond 200, .respond 201, .chunked] : Conn Nat Nat).wire = [.whole 200] ∧
    (handle 500 [.respond 200, .respond 201, .chunked] : Conn Nat Nat).thrown = 2 ∧
    (handle 500 [] : Conn Nat Nat).wire = [.whole 500] ∧
    (handle 500 [.respondThrows] : Conn Nat Nat).wire = [.whole 500] ∧
    (handle 500 [.chunked, .send 1, .send 2] : Conn Nat Nat).wire = [.header, .chunk 1, .chunk 2, .last] ∧
    (serve 500 404 [.noRoute, .bad 411, .gone, .request [.respond 200] false] : List (List (W Nat Nat)) × Bool) =
      ([[.whole 404], [.whole 411], [], [.whole 200]], true) := by decide

/-- If the socket fails in the middle of a response, the destructor sends a second one after the part that was sent. -/
theorem part_then_500 : (handle 500 [.respondFails 200] : Conn Nat Nat).wire = [.part 200, .whole 500] := by decide

/-- A sender that outlives its request writes to a destroyed connection. -/
theorem sender_outlives_request : (handle 500 [.chunked, .drop, .send 1] : Conn Nat Nat).dangling = true := by decide

/-- One silent client is enough for all that come after it to get nothing. -/
theorem silent_client_blocks (cs : List (Client Nat Nat)) :
    serve 500 404 (.silent :: cs) = ([[]], false) := rfl

/-- So is an exception of the standard library that leaves a handler: the process ends. -/
theorem foreign_exception_ends (ops : List (Op Nat Nat)) (cs : List (Client Nat Nat)) :
    serve 500 404 (.request ops true :: cs) = ([(handle 500 ops).wire], false) := rfl
end Current.Net.Once
