import Mathlib.Data.List.Forall2

/-!
# A TCP connection: `BlockingRead` and `BlockingWrite`

`Connection`, `bricks/net/tcp/impl/posix.h:377-560`, in the POSIX branch.  The socket is the kernel's: what `::recv` and
`::send` answer is not the code's choice, so here it is a parameter of each call, restricted only by what POSIX promises.
One direction of a connection is modelled: one thread writes, one thread reads.  The other direction is the same.
-/
namespace Current.Net.Tcp

abbrev Byte := UInt8

/-- the values of `errno` which the code tells apart -/
inductive Errno
  | again          -- `EAGAIN`
  | connReset      -- `ECONNRESET`
  | other
  deriving DecidableEq

/-- `BlockingReadPolicy`, `posix.h:394` -/
inductive Policy
  | asap           -- `ReturnASAP`
  | full           -- `FillFullBuffer`
  deriving DecidableEq

/-- what `::recv` returns -/
inductive Recv
  | got (bs : List Byte)    -- the number of bytes, which are now in the buffer
  | zero                    -- `0`
  | fail                    -- `-1`
  deriving DecidableEq

/-- how `BlockingRead` ends -/
inductive ReadRes
  | ok (bs : List Byte)     -- returns their number
  | resetAfterData          -- `ConnectionResetByPeer`
  | reset                   -- `EmptyConnectionResetByPeer`
  | errorAfterData          -- `SocketReadException`
  | error                   -- `EmptySocketReadException`
  deriving DecidableEq

/-- how the body of the loop ends -/
inductive Body
  | ret (bs : List Byte)
  | cont (bs : List Byte)   -- `continue`, with what is in the buffer by now
  | fall (bs : List Byte)   -- past the end of the body

/-- `posix.h:410-449`: the body of the `do`, of which the first iteration has an empty buffer -/
def readBody (p : Policy) (n : Nat) (errno : Errno) : Recv → Body
  | .got bs => if p = .asap ∨ bs.length = n then .ret bs else .cont bs
  | .zero | .fail => if errno = .again then .cont [] else .fall []

/-- `posix.h:456-474`: the exceptions -/
def readTail (errno : Errno) (bs : List Byte) : ReadRes :=
  if errno = .connReset then
    if bs ≠ [] then .resetAfterData else .reset
  else
    if bs ≠ [] then .errorAfterData else .error

/-- `BlockingRead`, `posix.h:396-498`.  The loop is `do { ... } while (false)`: in it `continue` jumps to the condition, which
is false, so that there is no second iteration. `errno` is the value after the call of `::recv`. -/
def blockingRead (p : Policy) (n : Nat) (errno : Errno) (r : Recv) : ReadRes :=
  if n = 0 then .ok []
  else match readBody p n errno r with
    | .ret bs => .ok bs
    | .cont bs => readTail errno bs
    | .fall bs => readTail errno bs

/-- how `BlockingWrite` ends -/
inductive WriteRes
  | ok
  | error                   -- `SocketWriteException`
  | notEverything           -- `SocketCouldNotWriteEverythingException`
  deriving DecidableEq

/-- `static_cast<int>` of what `::send` returns -/
def toInt32 (i : Int) : Int :=
  (i + 2 ^ 31) % 2 ^ 32 - 2 ^ 31

/-- `BlockingWrite(const void*, size_t, bool)`, `posix.h:500-524`; `ret` is what `::send` returns -/
def blockingWrite (len : Nat) (ret : Int) : WriteRes :=
  let result := toInt32 ret
  if result < 0 then .error
  else if result.toNat ≠ len then .notEverything
  else .ok

/-! ## The connection -/

/-- what `::send` does: takes the first `k` bytes, or fails -/
inductive Send
  | took (k : Nat)
  | fail
  deriving DecidableEq

/-- what `::recv` does -/
inductive KRecv
  | give (k : Nat)          -- the next `k` bytes
  | eof
  | fail (e : Errno)        -- sets `errno`
  deriving DecidableEq

structure Wrote where
  buf : List Byte
  res : WriteRes

structure Read where
  policy : Policy
  len : Nat
  res : ReadRes

structure St where
  /-- all bytes the kernel has accepted from the writer -/
  wire : List Byte := []
  /-- the writer has closed its socket -/
  closed : Bool := false
  /-- how many of the bytes `::recv` has handed out -/
  given : Nat := 0
  /-- `errno` of the thread that reads -/
  errno : Errno := .other
  writes : List Wrote := []
  reads : List Read := []

inductive Act
  | write (buf : List Byte) (k : Send)     -- `BlockingWrite(&buf[0], buf.size())`
  | writeRange (buf : List Byte) (k : Send)  -- `BlockingWrite(begin, end)`, `BlockingWrite(container)`
  | close
  | read (p : Policy) (n : Nat) (k : KRecv)
  | setErrno (e : Errno)                   -- anything else the thread that reads does

/-- one call of `::send` and the code around it -/
def doWrite (s : St) (buf : List Byte) : Send → Option St
  | .took k =>
    if s.closed = false ∧ k ≤ buf.length ∧ (buf ≠ [] → 0 < k) then
      some { s with
        wire := s.wire ++ buf.take k
        writes := s.writes ++ [⟨buf, blockingWrite buf.length k⟩] }
    else none
  | .fail => some { s with writes := s.writes ++ [⟨buf, blockingWrite buf.length (-1)⟩] }

/-- one call of `::recv` and the code around it; `max_length == 0` does not get to the call.  With `MSG_WAITALL` too the kernel
may give less than was asked for, if "a signal is caught, the connection is terminated, [...] or an error is pending". -/
def doRead (s : St) (p : Policy) (n : Nat) : KRecv → Option St
  | .give k =>
    if n = 0 then some { s with reads := s.reads ++ [⟨p, n, blockingRead p n s.errno .zero⟩] }
    else if 0 < k ∧ k ≤ n ∧ s.given + k ≤ s.wire.length then
      some { s with
        given := s.given + k
        reads := s.reads ++ [⟨p, n, blockingRead p n s.errno (.got ((s.wire.drop s.given).take k))⟩] }
    else none
  | .eof =>
    if n = 0 then some { s with reads := s.reads ++ [⟨p, n, blockingRead p n s.errno .zero⟩] }
    else if s.closed = true ∧ s.given = s.wire.length then
      some { s with reads := s.reads ++ [⟨p, n, blockingRead p n s.errno .zero⟩] }
    else none
  | .fail e =>
    if n = 0 then some { s with reads := s.reads ++ [⟨p, n, blockingRead p n s.errno .zero⟩] }
    else some { s with
      errno := e
      reads := s.reads ++ [⟨p, n, blockingRead p n e .fail⟩] }

def step (s : St) : Act → Option St
  | .write buf k => doWrite s buf k
  | .writeRange buf k =>      -- `posix.h:531-538`
    if buf ≠ [] then doWrite s buf k
    else some { s with writes := s.writes ++ [⟨buf, .ok⟩] }
  | .close => some { s with closed := true }
  | .read p n k => doRead s p n k
  | .setErrno e => some { s with errno := e }

def run : St → List Act → Option St
  | s, [] => some s
  | s, a :: as => (step s a).bind (run · as)

/-! ## Specification -/

/-- what the calls of `BlockingRead` that returned have put in their buffers -/
def delivered (rs : List Read) : List Byte :=
  rs.flatMap fun r => match r.res with | .ok bs => bs | _ => []

/-- a call that had taken bytes from the stream and threw -/
def LosesData (r : Read) : Prop := r.res = .resetAfterData ∨ r.res = .errorAfterData

instance (r : Read) : Decidable (LosesData r) := by unfold LosesData; infer_instance

/-- a call of `BlockingRead` that returned did what its policy says -/
def KeepsPolicy (r : Read) : Prop :=
  ∀ bs, r.res = .ok bs →
    bs.length ≤ r.len ∧ (r.len ≠ 0 → bs ≠ []) ∧ (r.policy = .full → bs.length = r.len)

/-- the bytes `part` are what can be on the wire of a call of `BlockingWrite` -/
def Accepted (w : Wrote) (part : List Byte) : Prop :=
  part <+: w.buf ∧ (w.res = .ok → part = w.buf)

/-! ## Proofs -/

theorem toInt32_nonneg {k : Nat} (h : 0 ≤ toInt32 k) : (toInt32 k).toNat = k % 2 ^ 32 := by
  unfold toInt32 at *; omega

theorem write_ok {len k : Nat} (hk : k ≤ len) (h : blockingWrite len k = .ok) : k = len := by
  unfold blockingWrite at h
  unfold toInt32 at h
  simp only at h
  split at h
  · cases h
  · split at h
    · cases h
    · omega

theorem write_fail (len : Nat) : blockingWrite len (-1) = .error := by
  unfold blockingWrite toInt32
  rfl

structure Inv (s : St) : Prop where
  given : s.given ≤ s.wire.length
  wire : ∃ parts : List (List Byte), List.Forall₂ Accepted s.writes parts ∧ s.wire = parts.flatten
  policy : ∀ r ∈ s.reads, KeepsPolicy r
  exact : (∀ r ∈ s.reads, ¬LosesData r) → delivered s.reads = s.wire.take s.given
  order : (delivered s.reads).Sublist (s.wire.take s.given)

theorem delivered_append (a b : List Read) : delivered (a ++ b) = delivered a ++ delivered b := by
  simp [delivered]

theorem forall₂_concat {R : α → β → Prop} {l : List α} {m : List β} (h : List.Forall₂ R l m) {x : α} {y : β}
    (hxy : R x y) : List.Forall₂ R (l ++ [x]) (m ++ [y]) := by
  induction h with
  | nil => exact .cons hxy .nil
  | cons h _ ih => exact .cons h ih

theorem inv_write {s s' : St} {buf : List Byte} {k : Send} (hi : Inv s) (h : doWrite s buf k = some s') : Inv s' := by
  obtain ⟨hg, ⟨parts, hp, hw⟩, hpol, hex, hord⟩ := hi
  cases k with
  | took k =>
    simp only [doWrite] at h
    split at h
    · rename_i hc
      injection h with h
      subst h
      refine ⟨by rw [List.length_append]; exact Nat.le_add_right_of_le hg, ⟨parts ++ [buf.take k], forall₂_concat hp ⟨List.take_prefix _ _, fun ho => ?_⟩, by simp [hw]⟩,
        hpol, ?_, ?_⟩
      · dsimp only at ho
        have := write_ok (len := buf.length) (k := k) hc.2.1 ho
        rw [this, List.take_length]
      · intro hl
        rw [hex hl, List.take_append_of_le_length hg]
      · dsimp only
        rw [List.take_append_of_le_length hg]
        exact hord
    · cases h
  | fail =>
    simp only [doWrite] at h
    injection h with h
    subst h
    refine ⟨hg, ⟨parts ++ [[]], forall₂_concat hp ⟨List.nil_prefix, fun ho => ?_⟩, by simp [hw]⟩, hpol, hex, hord⟩
    rw [write_fail] at ho
    cases ho

/-- what one call of `BlockingRead` does, given what `::recv` took from the stream -/
theorem read_got {p : Policy} {n : Nat} {e : Errno} {bs : List Byte} (hn : n ≠ 0) (hb : bs ≠ []) (hl : bs.length ≤ n) :
    KeepsPolicy ⟨p, n, blockingRead p n e (.got bs)⟩ ∧
    (delivered [⟨p, n, blockingRead p n e (.got bs)⟩] = bs ∨
      LosesData ⟨p, n, blockingRead p n e (.got bs)⟩ ∧ delivered [⟨p, n, blockingRead p n e (.got bs)⟩] = []) := by
  unfold blockingRead
  rw [if_neg hn]
  by_cases hc : p = .asap ∨ bs.length = n
  · simp only [readBody, if_pos hc]
    refine ⟨fun bs' h => ?_, .inl (by simp [delivered])⟩
    injection h with h
    subst h
    refine ⟨hl, fun _ => hb, fun hp => ?_⟩
    rcases hc with hc | hc
    · simp only at hp
      rw [hc] at hp
      cases hp
    · exact hc
  · simp only [readBody, if_neg hc]
    by_cases he : e = .connReset
    · simp [readTail, he, hb, KeepsPolicy, LosesData, delivered]
    · simp [readTail, he, hb, KeepsPolicy, LosesData, delivered]

theorem read_none {p : Policy} {n : Nat} {e : Errno} {r : Recv} (hr : r = .zero ∨ r = .fail) :
    KeepsPolicy ⟨p, n, blockingRead p n e r⟩ ∧ ¬LosesData ⟨p, n, blockingRead p n e r⟩ ∧
      delivered [⟨p, n, blockingRead p n e r⟩] = [] := by
  unfold blockingRead
  by_cases hn : n = 0
  · simp [hn, KeepsPolicy, LosesData, delivered]
  · rw [if_neg hn]
    rcases hr with hr | hr <;> subst hr <;> cases e <;> simp [readBody, readTail, KeepsPolicy, LosesData, delivered]

theorem inv_none {s : St} (hi : Inv s) (e : Errno) {r : Read} (h1 : KeepsPolicy r) (h2 : ¬LosesData r)
    (h3 : delivered [r] = []) : Inv { s with errno := e, reads := s.reads ++ [r] } := by
  obtain ⟨hg, hw, hpol, hex, hord⟩ := hi
  refine ⟨hg, hw, ?_, ?_, ?_⟩
  · intro r' hr'
    rcases List.mem_append.1 hr' with h | h
    · exact hpol r' h
    · simp at h; subst h; exact h1
  · intro hl
    dsimp only
    rw [delivered_append, h3, List.append_nil]
    exact hex fun r' h => hl r' (List.mem_append_left _ h)
  · dsimp only
    rw [delivered_append, h3, List.append_nil]
    exact hord

theorem inv_read {s s' : St} {p : Policy} {n : Nat} {k : KRecv} (hi : Inv s) (h : doRead s p n k = some s') : Inv s' := by
  by_cases hn : n = 0
  · have hz := read_none (p := p) (n := n) (e := s.errno) (r := .zero) (.inl rfl)
    have hs : s' = { s with errno := s.errno, reads := s.reads ++ [⟨p, n, blockingRead p n s.errno .zero⟩] } := by
      cases k <;> simp only [doRead, if_pos hn] at h <;> injection h with h <;> exact h.symm
    rw [hs]
    exact inv_none hi _ hz.1 hz.2.1 hz.2.2
  · cases k with
    | eof =>
      simp only [doRead, if_neg hn] at h
      split at h
      · injection h with h
        subst h
        have hz := read_none (p := p) (n := n) (e := s.errno) (r := .zero) (.inl rfl)
        exact inv_none hi s.errno hz.1 hz.2.1 hz.2.2
      · cases h
    | fail e =>
      simp only [doRead, if_neg hn] at h
      injection h with h
      subst h
      have hz := read_none (p := p) (n := n) (e := e) (r := .fail) (.inr rfl)
      exact inv_none hi e hz.1 hz.2.1 hz.2.2
    | give k =>
      simp only [doRead, if_neg hn] at h
      split at h
      · rename_i hc
        injection h with h
        subst h
        obtain ⟨hg, hw, hpol, hex, hord⟩ := hi
        have hlen : ((s.wire.drop s.given).take k).length = k := by simp; omega
        have hb : (s.wire.drop s.given).take k ≠ [] := by
          intro hh; rw [hh] at hlen; simp at hlen; omega
        have hr := read_got (p := p) (n := n) (e := s.errno) hn hb (by omega)
        have ht : s.wire.take (s.given + k) = s.wire.take s.given ++ (s.wire.drop s.given).take k := by
          rw [List.take_add]
        refine ⟨hc.2.2, hw, ?_, ?_, ?_⟩
        · intro r' hr'
          rcases List.mem_append.1 hr' with h | h
          · exact hpol r' h
          · simp at h; subst h; exact hr.1
        · intro hl
          dsimp only
          rw [delivered_append, hex fun r' h => hl r' (List.mem_append_left _ h), ht]
          rcases hr.2 with h | h
          · rw [h]
          · exact absurd h.1 (hl _ (by simp))
        · dsimp only
          rw [delivered_append, ht]
          rcases hr.2 with h | h
          · rw [h]
            exact hord.append (List.Sublist.refl _)
          · rw [h.2, List.append_nil]
            exact hord.trans (List.sublist_append_left _ _)
      · cases h

theorem inv_step {s s' : St} {a : Act} (hi : Inv s) (h : step s a = some s') : Inv s' := by
  cases a with
  | write buf k => exact inv_write hi h
  | writeRange buf k =>
    simp only [step] at h
    split at h
    · exact inv_write hi h
    · rename_i hb
      injection h with h
      subst h
      obtain ⟨hg, ⟨parts, hp, hw⟩, hpol, hex, hord⟩ := hi
      have hb' : buf = [] := by simpa using hb
      exact ⟨hg, ⟨parts ++ [buf], forall₂_concat hp ⟨List.prefix_rfl, fun _ => rfl⟩, by simp [hw, hb']⟩, hpol, hex, hord⟩
  | close => injection h with h; subst h; exact ⟨hi.1, hi.2, hi.3, hi.4, hi.5⟩
  | read p n k => exact inv_read hi h
  | setErrno e => injection h with h; subst h; exact ⟨hi.1, hi.2, hi.3, hi.4, hi.5⟩

theorem inv_run {as : List Act} {s s' : St} (hi : Inv s) (h : run s as = some s') : Inv s' := by
  induction as generalizing s with
  | nil => injection h with h; subst h; exact hi
  | cons a as ih =>
    unfold run at h
    cases hs : step s a with
    | none => rw [hs] at h; cases h
    | some t => rw [hs] at h; exact ih (inv_step hi hs) h

theorem inv_init : Inv {} :=
  ⟨Nat.le_refl _, ⟨[], .nil, rfl⟩, (by intro r h; cases h), fun _ => rfl, List.Sublist.refl _⟩

/-! ## Theorems -/

/-- What the writer's calls put on the wire: all of the buffer if `BlockingWrite` returned, a beginning of it if it threw; and
nothing else. -/
theorem written {as : List Act} {s : St} (h : run {} as = some s) :
    ∃ parts : List (List Byte), List.Forall₂ Accepted s.writes parts ∧ s.wire = parts.flatten :=
  (inv_run inv_init h).wire

/-- Reading: while no call threw after it had taken bytes from the stream, what the calls have returned is, in order and
without a gap, the beginning of what was written. -/
theorem read_in_order {as : List Act} {s : St} (h : run {} as = some s) (hl : ∀ r ∈ s.reads, ¬LosesData r) :
    delivered s.reads <+: s.wire := by
  rw [(inv_run inv_init h).exact hl]
  exact List.take_prefix _ _

/-- In any case no byte is returned twice or out of order or made up. -/
theorem read_subsequence {as : List Act} {s : St} (h : run {} as = some s) : (delivered s.reads).Sublist s.wire :=
  (inv_run inv_init h).order.trans (List.take_sublist _ _)

/-- A call that returns has at least one byte, if one was asked for, and no more than asked for; with `FillFullBuffer` exactly as
many as asked for. -/
theorem read_length {as : List Act} {s : St} (h : run {} as = some s) : ∀ r ∈ s.reads, KeepsPolicy r :=
  (inv_run inv_init h).policy

/-- Both ends together: if no call threw, and the reader has taken all there is, it has the writer's buffers. -/
theorem end_to_end {as : List Act} {s : St} (h : run {} as = some s) (hw : ∀ w ∈ s.writes, w.res = .ok)
    (hl : ∀ r ∈ s.reads, ¬LosesData r) : delivered s.reads <+: s.writes.flatMap (·.buf) := by
  obtain ⟨parts, hp, he⟩ := written h
  have : ∀ (ws : List Wrote) (ps : List (List Byte)), List.Forall₂ Accepted ws ps → (∀ w ∈ ws, w.res = .ok) →
      ps.flatten = ws.flatMap (·.buf) := by
    intro ws ps hf
    induction hf with
    | nil => intro _; rfl
    | cons h1 _ ih =>
      intro ho
      simp only [List.flatten_cons, List.flatMap_cons]
      rw [h1.2 (ho _ (by simp)), ih fun w hw => ho w (by simp [hw])]
  rw [← this _ _ hp hw, ← he]
  exact read_in_order h hl

/-- One call of `BlockingRead` that the kernel answers with all that was asked for (`MSG_WAITALL`) returns it. Missing for the
full claim of `posix.h:389-393`: that the call reads on when `::recv` returns early (`full_does_not_read_on`). -/
theorem full_read_partial {s s' : St} {n : Nat} (hn : n ≠ 0) (h : step s (.read .full n (.give n)) = some s') :
    s'.reads = s.reads ++ [⟨.full, n, .ok ((s.wire.drop s.given).take n)⟩] ∧ ((s.wire.drop s.given).take n).length = n := by
  simp only [step, doRead, if_neg hn] at h
  split at h
  · rename_i hc
    injection h with h
    subst h
    have hlen : ((s.wire.drop s.given).take n).length = n := by simp; omega
    refine ⟨?_, hlen⟩
    simp only [blockingRead, if_neg hn, readBody, hlen, or_true, if_true]
  · cases h

/-- One call with `ReturnASAP` returns what `::recv` gives. -/
theorem asap_read {s s' : St} {n k : Nat} (hn : n ≠ 0) (h : step s (.read .asap n (.give k)) = some s') :
    s'.reads = s.reads ++ [⟨.asap, n, .ok ((s.wire.drop s.given).take k)⟩] ∧ 0 < k ∧ k ≤ n := by
  simp only [step, doRead, if_neg hn] at h
  split at h
  · rename_i hc
    injection h with h
    subst h
    refine ⟨?_, hc.1, hc.2.1⟩
    simp [blockingRead, if_neg hn, readBody]
  · cases h

/-- A call that found the end of the stream, or that failed, takes nothing from it and throws one of the two exceptions that
say so, `EmptySocketReadException` and `EmptyConnectionResetByPeer`. -/
theorem empty_read {s s' : St} {p : Policy} {n : Nat} {k : KRecv} (hn : n ≠ 0) (hk : ∀ m, k ≠ .give m)
    (h : step s (.read p n k) = some s') :
    s'.given = s.given ∧ ∃ r, s'.reads = s.reads ++ [⟨p, n, r⟩] ∧ (r = .reset ∨ r = .error) := by
  cases k with
  | give m => exact absurd rfl (hk m)
  | eof =>
    simp only [step, doRead, if_neg hn] at h
    split at h
    · injection h with h
      subst h
      refine ⟨rfl, _, rfl, ?_⟩
      cases s.errno <;> simp [blockingRead, if_neg hn, readBody, readTail]
    · cases h
  | fail e =>
    simp only [step, doRead, if_neg hn] at h
    injection h with h
    subst h
    refine ⟨rfl, _, rfl, ?_⟩
    cases e <;> simp [blockingRead, if_neg hn, readBody, readTail]

/-! ## Witnesses -/

/-- a conversation with all kinds of calls: two writes (of which the second only gets to send a part), reads of both kinds, the
end of the stream -/
theorem demo_tcp :
    (run {} [.write [1, 2, 3] (.took 3), .read .asap 10 (.give 2), .writeRange [] .fail, .write [4, 5, 6] (.took 2),
        .read .full 3 (.give 3), .read .asap 0 .eof, .close, .read .full 1 .eof]).map
      (fun s => (s.wire, s.writes.map (·.res), s.reads.map (·.res))) =
    some ([1, 2, 3, 4, 5], [.ok, .ok, .notEverything], [.ok [1, 2], .ok [3, 4, 5], .ok [], .error]) := by
  decide +kernel

/-- `FillFullBuffer` does not "keep reading more data until all `max_elements` are read": when `::recv` returns early, the call
throws, and the bytes it has are lost, though the connection is alive and the rest is there. -/
theorem full_does_not_read_on :
    (run {} [.write [1, 2, 3, 4] (.took 4), .read .full 3 (.give 1), .read .full 3 (.give 3)]).map
      (fun s => (s.closed, s.reads.map (·.res))) =
    some (false, [.errorAfterData, .ok [2, 3, 4]]) := by
  decide +kernel

/-- `EAGAIN` is not retried, though the comment says so. -/
theorem again_is_not_retried :
    (run {} [.write [1] (.took 1), .read .asap 1 (.fail .again), .read .asap 1 (.give 1)]).map
      (fun s => s.reads.map (·.res)) =
    some [.error, .ok [1]] := by
  decide +kernel

/-- The orderly end of the stream is told from a reset by `errno`, which `::recv` does not set when it returns zero: what is left
there by some earlier call decides. -/
theorem eof_reported_as_reset :
    (run {} [.write [1] (.took 1), .read .asap 1 (.give 1), .close, .setErrno .connReset, .read .asap 1 .eof]).map
      (fun s => s.reads.map (·.res)) =
    some [.ok [1], .reset] := by
  decide +kernel

/-- A write of 2 GiB that succeeds is reported as a failure, since the result is an `int`. -/
theorem two_gib_write {s s' : St} {buf : List Byte} (hb : buf.length = 2 ^ 31)
    (h : step s (.write buf (.took (2 ^ 31))) = some s') :
    s'.wire = s.wire ++ buf ∧ s'.writes = s.writes ++ [⟨buf, .error⟩] := by
  simp only [step, doWrite] at h
  split at h
  · injection h with h
    subst h
    refine ⟨by rw [← hb, List.take_length], ?_⟩
    rw [hb]
    rfl
  · cases h

/-- ... and 2 GiB is the limit: shorter buffers are reported exactly. -/
theorem write_reported {len k : Nat} (hk : k ≤ len) (hl : len < 2 ^ 31) :
    blockingWrite len k = if k = len then .ok else .notEverything := by
  unfold blockingWrite toInt32
  simp only
  rw [if_neg (by omega)]
  by_cases h : k = len
  · rw [if_neg (by omega), if_pos h]
  · rw [if_pos (by omega), if_neg h]

end Current.Net.Tcp
