set_option linter.unusedSimpArgs false
set_option linter.unusedVariables false

/-! # The workers of the latency test (`examples/streamed_sockets/latencytest/workers/{indexer,processor,saver}.h`)

C128 is about the pipeline the workers are in; there a worker is a function which goes over one blob at a time. Here are the functions themselves, which get as many blobs as there are and go over some of them. -/

namespace Current.Workers

/-- `Blob`, `blob.h:33-38`. -/
structure Blob where
  index : Nat
  origin : Nat
  id : Nat
deriving DecidableEq

/-- `request_origin_latencytest`, `blob.h:48`. -/
def latencytest : Nat := 0xaaffffffff

/-- A worker: from its state and the blobs there are, its next state and the blobs it has gone over, as it leaves them; the program goes on from the blob after those. `none`: it exits. -/
abbrev Worker (σ : Type) := σ → List Blob → Option (σ × List Blob)

/-- `if (end > begin + block) end = begin + block`. -/
def cap (block : Nat) (l : List Blob) : List Blob := if l.length > block then l.take block else l

/-- `IndexingWorker::DoWork`, `indexer.h:36-47`: the state is `total_index`. -/
def indexer : Worker Nat := fun t l =>
  let rec go (t : Nat) : List Blob → Nat × List Blob
    | [] => (t, [])
    | b :: l => let r := go (t + 1) l; (r.1, { b with index := t } :: r.2)
  some (go t (cap 1024 l))

/-- The state of `ProcessingWorker`, `processor.h:39-48`: the next index, `none` for `-1` which stands for the first time; and what has been sent. An index which is itself `-1` is not modelled. -/
structure Proc where
  next : Option Nat
  sent : List Blob

/-- `ProcessingWorker::DoWork`, `processor.h:49-77`. Sending is taken to succeed. What has been sent is still there after the exit: here it is lost, see `processor_exits`. -/
def processor : Worker Proc := fun s l =>
  let rec go (s : Proc) : List Blob → Option Proc
    | [] => some s
    | b :: l =>
      if s.next = none ∨ s.next = some b.index then
        go ⟨some (b.index + 1), if b.origin = latencytest then s.sent ++ [b] else s.sent⟩ l
      else none
  match go s (cap 16384 l) with
  | none => none
  | some s' => some (s', cap 16384 l)

/-- The state of `SavingWorker`, `saver.h:48-50`, and the files, by number. The last of the queue is the number of the open file. -/
structure Saver where
  files : Nat → Option (List Blob)
  queue : List Nat

/-- `while (written_files_indexes.size() > max_total_files)`, `saver.h:101-104`. -/
def trim (max : Nat) (files : Nat → Option (List Blob)) : List Nat → (Nat → Option (List Blob)) × List Nat
  | [] => (files, [])
  | k :: q => if (k :: q).length > max then trim max (fun j => if j = k then none else files j) q else (files, k :: q)

/-- The next file, `saver.h:93-107`. `fopen` with `"wb"` empties a file which is there. -/
def Saver.open_ (max : Nat) (s : Saver) (k : Nat) : Saver :=
  let q := s.queue ++ [k]
  let r := if max ≠ 0 then trim max s.files q else (s.files, q)
  ⟨fun j => if j = k then some [] else r.1 j, r.2⟩

/-- `fwrite`, to the open file. What is written is taken to be in the file at once. -/
def Saver.write (s : Saver) (k : Nat) (l : List Blob) : Saver := { s with files := fun j => if j = k then (s.files j).map (· ++ l) else s.files j }

/-- `SavingWorker::DoWork`, `saver.h:84-124`, with `--skip_fwrite` off. -/
def saver (perFile max : Nat) : Worker Saver := fun s l =>
  let l := cap 16384 l
  match l with
  | [] => none
  | b :: _ =>
    let k := b.index / perFile
    let s1 := if s.queue = [] ∨ s.queue.getLast? ≠ some k then s.open_ max k else s
    let left := perFile - (b.index - k * perFile)
    if left < l.length then some (s1.write k (l.take left), l.take left) else some (s1.write k l, l)

/-! ### The schedule -/

/-- A worker over an input: each number says how many blobs there are for the worker at that time. -/
def drive {σ : Type} (w : Worker σ) : List Nat → σ × List Blob × List Blob → Option (σ × List Blob × List Blob)
  | [], s => some s
  | a :: as, (s, done, rest) =>
    if rest.take a = [] then drive w as (s, done, rest)
    else
      match w s (rest.take a) with
      | none => none
      | some (s', out) => drive w as (s', done ++ out, rest.drop out.length)

/-- Going over the blobs one at a time. -/
def each {σ : Type} (f : σ → Blob → Option (σ × Blob)) : σ → List Blob → Option (σ × List Blob)
  | s, [] => some (s, [])
  | s, b :: l =>
    match f s b with
    | none => none
    | some (s', b') =>
      match each f s' l with
      | none => none
      | some (s'', l') => some (s'', b' :: l')

theorem each_append {σ : Type} (f : σ → Blob → Option (σ × Blob)) (x y : List Blob) : ∀ s, each f s (x ++ y) = match each f s x with
    | none => none
    | some (s', x') => match each f s' y with | none => none | some (s'', y') => some (s'', x' ++ y') := by
  induction x with
  | nil => intro s; simp only [List.nil_append, each]; split <;> rename_i h <;> simp [h]
  | cons b x ih =>
    intro s
    simp only [List.cons_append, each]
    cases f s b with
    | none => rfl
    | some r =>
      simp only [ih]
      cases each f r.1 x with
      | none => rfl
      | some r' =>
        simp only
        cases each f r'.1 y with
        | none => rfl
        | some r'' => rfl

theorem each_length {σ : Type} (f : σ → Blob → Option (σ × Blob)) (x : List Blob) : ∀ s r, each f s x = some r → r.2.length = x.length := by
  induction x with
  | nil => intro s r h; simp only [each, Option.some.injEq] at h; subst h; rfl
  | cons b x ih =>
    intro s r h
    simp only [each] at h
    cases hf : f s b with
    | none => rw [hf] at h; cases h
    | some q =>
      rw [hf] at h
      simp only at h
      cases he : each f q.1 x with
      | none => rw [he] at h; cases h
      | some q' =>
        rw [he] at h
        simp only [Option.some.injEq] at h
        subst h
        simp [ih _ _ he]

/-- The worker is a function of one blob at a time, on inputs of a kind: of any blobs it is given it goes over at least one. -/
def Refines {σ : Type} (w : Worker σ) (f : σ → Blob → Option (σ × Blob)) (Ok : List Blob → Prop) : Prop :=
  ∀ s l, l ≠ [] → Ok l → ∃ n, 1 ≤ n ∧ n ≤ l.length ∧ w s l = each f s (l.take n)

/-- Whatever the schedule is, the result is that of going over a beginning of the input one at a time, of at least as many blobs as there have been calls; or the program has exited, which it does on a beginning of the input gone over one at a time. -/
theorem drive_eq {σ : Type} {w : Worker σ} {f : σ → Blob → Option (σ × Blob)} {Ok : List Blob → Prop} (h : Refines w f Ok) (hok : ∀ l a b, Ok l → Ok ((l.drop a).take b)) (as : List Nat) :
    ∀ s done input, Ok input → ∃ n, n ≤ input.length ∧
      (drive w as (s, done, input) = match each f s (input.take n) with | none => none | some (s', out) => some (s', done ++ out, input.drop n)) ∧
      (each f s (input.take n) ≠ none → (as.filter (fun a => decide (0 < a))).length ≤ n ∨ n = input.length) := by
  induction as with
  | nil => intro s done input hi; exact ⟨0, by omega, by simp [drive, each], by simp⟩
  | cons a as ih =>
    intro s done input hi
    simp only [drive]
    by_cases he : input.take a = []
    · rw [if_pos he]
      obtain ⟨n, h1, h2, h3⟩ := ih s done input hi
      refine ⟨n, h1, h2, ?_⟩
      intro hne
      rcases h3 hne with h4 | h4
      · rw [List.take_eq_nil_iff] at he
        rcases he with rfl | rfl
        · left; simpa using h4
        · right; simp at h1 ⊢; omega
      · right; exact h4
    · rw [if_neg he]
      obtain ⟨n, n1, n2, n3⟩ := h s (input.take a) he (by have := hok input 0 a hi; simpa using this)
      rw [List.take_take] at n3
      have hmin : min n a = n := by rw [List.length_take] at n2; omega
      rw [hmin] at n3
      have hnl : n ≤ input.length := by rw [List.length_take] at n2; omega
      rw [n3]
      cases hq : each f s (input.take n) with
      | none => exact ⟨n, hnl, by rw [hq], by rw [hq]; simp⟩
      | some r =>
        simp only
        have hl : r.2.length = n := by rw [each_length f _ _ _ hq, List.length_take]; omega
        rw [hl]
        obtain ⟨m, m1, m2, m3⟩ := ih r.1 (done ++ r.2) (input.drop n) (by have := hok input n (input.drop n).length hi; rwa [List.take_length] at this)
        have et : input.take (n + m) = input.take n ++ (input.drop n).take m := List.take_add
        refine ⟨n + m, by simp at m1; omega, ?_, ?_⟩
        · rw [m2, et, each_append, hq]
          simp only
          cases each f r.1 ((input.drop n).take m) with
          | none => rfl
          | some q => simp [List.drop_drop]
        · intro hne
          rw [et, each_append, hq] at hne
          simp only at hne
          have hne' : each f r.1 ((input.drop n).take m) ≠ none := by
            intro z; rw [z] at hne; exact hne rfl
          rcases m3 hne' with h4 | h4
          · left
            by_cases ha : 0 < a
            · simp [List.filter_cons, ha]; omega
            · simp [List.filter_cons, ha]; omega
          · right; simp at h4; omega

theorem cap_take (block : Nat) (l : List Blob) (hb : 0 < block) (hl : l ≠ []) : ∃ n, 1 ≤ n ∧ n ≤ l.length ∧ cap block l = l.take n := by
  have hp := List.length_pos_iff.2 hl
  unfold cap
  split
  · exact ⟨block, hb, by omega, rfl⟩
  · exact ⟨l.length, hp, Nat.le_refl _, by rw [List.take_length]⟩

/-! ### The indexer -/

def indexOne (t : Nat) (b : Blob) : Option (Nat × Blob) := some (t + 1, { b with index := t })

theorem indexer_refines : Refines indexer indexOne (fun _ => True) := by
  intro s l hl _
  obtain ⟨n, h1, h2, h3⟩ := cap_take 1024 l (by omega) hl
  refine ⟨n, h1, h2, ?_⟩
  unfold indexer
  rw [h3]
  generalize l.take n = m
  clear h3 h2 h1 hl
  induction m generalizing s with
  | nil => rfl
  | cons b m ih =>
    have := ih (s + 1)
    simp only [indexer.go, each, indexOne] at this ⊢
    rw [← this]

theorem each_index (t : Nat) (l : List Blob) : each indexOne t l = some (t + l.length, l.mapIdx (fun i b => { b with index := t + i })) := by
  induction l generalizing t with
  | nil => rfl
  | cons b l ih =>
    simp only [each, indexOne, ih, List.mapIdx_cons, List.length_cons, Option.some.injEq, Prod.mk.injEq]
    refine ⟨by omega, ?_⟩
    congr 1
    congr 1
    funext i b
    rw [show t + 1 + i = t + (i + 1) by omega]

/-- C135 (a): however the input comes in, the blobs are numbered one after another from zero, nothing else in them being changed. -/
theorem indexer_numbers (as : List Nat) (input : List Blob) : ∃ n, n ≤ input.length ∧ ((as.filter (fun a => decide (0 < a))).length ≤ n ∨ n = input.length) ∧
    drive indexer as (0, [], input) = some (n, (input.take n).mapIdx (fun i b => { b with index := i }), input.drop n) := by
  obtain ⟨n, h1, h2, h3⟩ := drive_eq indexer_refines (fun _ _ _ _ => trivial) as 0 [] input trivial
  rw [each_index] at h2 h3
  refine ⟨n, h1, h3 (by simp), ?_⟩
  rw [h2]
  simp only [List.length_take, Nat.min_eq_left h1, Nat.zero_add, List.nil_append]

/-! ### The processor -/

/-- The indexes go up by one. -/
def Consec (l : List Blob) : Prop := ∃ i0, ∀ (j : Nat) (b : Blob), l[j]? = some b → b.index = i0 + j

theorem Consec.part {l : List Blob} (h : Consec l) (a b : Nat) : Consec ((l.drop a).take b) := by
  obtain ⟨i0, h⟩ := h
  refine ⟨i0 + a, ?_⟩
  intro j x hx
  rw [List.getElem?_take] at hx
  split at hx
  · rw [List.getElem?_drop] at hx
    rw [h _ x hx]; omega
  · cases hx

def processOne (s : Proc) (b : Blob) : Option (Proc × Blob) :=
  if s.next = none ∨ s.next = some b.index then some (⟨some (b.index + 1), if b.origin = latencytest then s.sent ++ [b] else s.sent⟩, b) else none

theorem processor_go (s : Proc) (l : List Blob) : each processOne s l = match processor.go s l with | none => none | some s' => some (s', l) := by
  induction l generalizing s with
  | nil => rfl
  | cons b l ih =>
    simp only [each, processor.go, processOne]
    by_cases h : s.next = none ∨ s.next = some b.index
    · rw [if_pos h, if_pos h]
      simp only [ih]
      split <;> rename_i e <;> split at e <;> simp_all
    · rw [if_neg h, if_neg h]

theorem processor_refines : Refines processor processOne (fun _ => True) := by
  intro s l hl _
  obtain ⟨n, h1, h2, h3⟩ := cap_take 16384 l (by omega) hl
  refine ⟨n, h1, h2, ?_⟩
  unfold processor
  rw [h3, processor_go]

theorem each_process (l : List Blob) : ∀ (i0 : Nat) (s : Proc), (s.next = none ∨ s.next = some i0) → (∀ (j : Nat) (b : Blob), l[j]? = some b → b.index = i0 + j) →
    ∃ nx, each processOne s l = some (⟨nx, s.sent ++ l.filter (fun b => decide (b.origin = latencytest))⟩, l) ∧ (nx = none ∨ nx = some (i0 + l.length)) := by
  induction l with
  | nil => intro i0 s hs _; exact ⟨s.next, by simp [each], by simpa using hs⟩
  | cons b l ih =>
    intro i0 s hs h
    have hb := h 0 b rfl
    simp only [Nat.add_zero] at hb
    have hc : s.next = none ∨ s.next = some b.index := by rw [hb]; exact hs
    obtain ⟨nx, e, hn⟩ := ih (i0 + 1) ⟨some (b.index + 1), if b.origin = latencytest then s.sent ++ [b] else s.sent⟩ (Or.inr (by simp [hb])) (by
      intro j x hx
      have := h (j + 1) x (by simpa using hx)
      omega)
    refine ⟨nx, ?_, by simp only [List.length_cons]; rcases hn with hn | hn; exact Or.inl hn; right; rw [hn]; congr 1; omega⟩
    simp only [each, processOne, if_pos hc, e]
    by_cases ho : b.origin = latencytest
    · simp [ho]
    · simp [ho]

/-- C135 (b): however the input comes in, if its indexes go up by one: the processor does not exit, and it has sent the requests of the latency test among those it has gone over, in order, each once, and nothing else. -/
theorem processor_sends (as : List Nat) (input : List Blob) (h : Consec input) : ∃ n nx, n ≤ input.length ∧ ((as.filter (fun a => decide (0 < a))).length ≤ n ∨ n = input.length) ∧
    drive processor as (⟨none, []⟩, [], input) = some (⟨nx, (input.take n).filter (fun b => decide (b.origin = latencytest))⟩, input.take n, input.drop n) := by
  obtain ⟨n, h1, h2, h3⟩ := drive_eq processor_refines (fun _ _ _ _ => trivial) as ⟨none, []⟩ [] input trivial
  obtain ⟨i0, hc⟩ := h.part 0 n
  obtain ⟨nx, e, _⟩ := each_process (input.take n) i0 ⟨none, []⟩ (Or.inl rfl) (by simpa using hc)
  rw [e] at h2 h3
  exact ⟨n, nx, h1, h3 (by simp), by rw [h2]; simp⟩

/-- C135 (c): and it exits only if they do not. -/
theorem processor_exits (as : List Nat) (input : List Blob) (h : drive processor as (⟨none, []⟩, [], input) = none) : ¬ Consec input := by
  intro hc
  obtain ⟨n, nx, _, _, e⟩ := processor_sends as input hc
  rw [e] at h
  cases h

example : drive processor [2, 2] (⟨none, []⟩, [], [⟨5, 0, 0⟩, ⟨6, latencytest, 1⟩, ⟨8, 0, 2⟩]) = none := by decide

/-! ### The saver -/

def saveOne (perFile max : Nat) (s : Saver) (b : Blob) : Option (Saver × Blob) :=
  let k := b.index / perFile
  let s1 := if s.queue.getLast? = some k then s else s.open_ max k
  some (s1.write k [b], b)

theorem trim_last (max : Nat) (hm : max ≠ 0) (k : Nat) : ∀ (q : List Nat) (files : Nat → Option (List Blob)), (trim max files (q ++ [k])).2.getLast? = some k := by
  intro q
  induction q with
  | nil =>
    intro files
    simp only [List.nil_append, trim]
    rw [if_neg (by simp; omega)]; rfl
  | cons a q ih =>
    intro files
    simp only [List.cons_append, trim]
    split
    · exact ih _
    · simp [List.getLast?_cons]

theorem open_last (max : Nat) (s : Saver) (k : Nat) : (s.open_ max k).queue.getLast? = some k := by
  unfold Saver.open_
  simp only
  split
  · rename_i h; exact trim_last max h k _ _
  · simp

theorem write_write (s : Saver) (k : Nat) (a b : List Blob) : (s.write k a).write k b = s.write k (a ++ b) := by
  unfold Saver.write
  simp only [Saver.mk.injEq, and_true]
  funext j
  split
  · cases s.files j <;> simp
  · rfl

/-- Blobs of one file are written one after another. -/
theorem each_save_same (perFile max : Nat) (k : Nat) (l : List Blob) : ∀ s : Saver, s.queue.getLast? = some k → (∀ b ∈ l, b.index / perFile = k) → each (saveOne perFile max) s l = some (s.write k l, l) := by
  induction l with
  | nil =>
    intro s _ _
    have : s.write k [] = s := by
      obtain ⟨fs, q⟩ := s
      unfold Saver.write
      simp only [Saver.mk.injEq, and_true]
      funext j
      split
      · cases fs j <;> simp
      · rfl
    simp [each, this]
  | cons b l ih =>
    intro s hs h
    have hb := h b (by simp)
    simp only [each, saveOne, hb, hs, if_true]
    rw [ih (s.write k [b]) hs (fun x hx => h x (by simp [hx]))]
    simp only [write_write]
    rfl

theorem saver_refines (perFile max : Nat) (hp : 0 < perFile) : Refines (saver perFile max) (saveOne perFile max) Consec := by
  intro s l hl hc
  obtain ⟨n, h1, h2, h3⟩ := cap_take 16384 l (by omega) hl
  cases l with
  | nil => exact absurd rfl hl
  | cons b l =>
  obtain ⟨i0, hi⟩ := hc
  have hb := hi 0 b rfl
  simp only [Nat.add_zero] at hb
  obtain ⟨n, rfl⟩ : ∃ m, n = m + 1 := ⟨n - 1, by omega⟩
  -- the blobs up to the end of the file
  have hsame : ∀ m, m ≤ perFile - (b.index - b.index / perFile * perFile) → ∀ x ∈ (b :: l).take m, x.index / perFile = b.index / perFile := by
    intro m hm x hx
    obtain ⟨j, hj⟩ := List.mem_iff_getElem?.1 hx
    rw [List.getElem?_take] at hj
    split at hj
    · rename_i hjm
      have := hi j x hj
      rw [this, hb]
      have e := Nat.div_add_mod i0 perFile
      rw [hb] at hm
      have e2 : i0 / perFile * perFile = perFile * (i0 / perFile) := Nat.mul_comm _ _
      rw [Nat.div_eq_iff hp]
      have hr := Nat.mod_lt i0 hp
      omega
    · cases hj
  have hk : ∀ m, m + 1 ≤ perFile - (b.index - b.index / perFile * perFile) → each (saveOne perFile max) s ((b :: l).take (m + 1)) =
      some ((if s.queue = [] ∨ s.queue.getLast? ≠ some (b.index / perFile) then s.open_ max (b.index / perFile) else s).write (b.index / perFile) ((b :: l).take (m + 1)), (b :: l).take (m + 1)) := by
    intro m hm
    have hs := hsame (m + 1) hm
    rw [List.take_succ_cons] at hs ⊢
    simp only [each, saveOne]
    have hopen : (if s.queue = [] ∨ s.queue.getLast? ≠ some (b.index / perFile) then s.open_ max (b.index / perFile) else s) = (if s.queue.getLast? = some (b.index / perFile) then s else s.open_ max (b.index / perFile)) := by
      by_cases hq : s.queue.getLast? = some (b.index / perFile)
      · have : s.queue ≠ [] := by intro e; rw [e] at hq; simp at hq
        simp [hq, this]
      · simp [hq]
    rw [hopen]
    have hlast : (if s.queue.getLast? = some (b.index / perFile) then s else s.open_ max (b.index / perFile)).queue.getLast? = some (b.index / perFile) := by
      split
      · rename_i hq; exact hq
      · exact open_last _ _ _
    rw [each_save_same perFile max (b.index / perFile) (l.take m) ((if s.queue.getLast? = some (b.index / perFile) then s else s.open_ max (b.index / perFile)).write (b.index / perFile) [b]) hlast (fun x hx => hs x (by simp [hx]))]
    simp only [write_write]
    rfl
  have hleft : 1 ≤ perFile - (b.index - b.index / perFile * perFile) := by
    have e := Nat.div_add_mod b.index perFile
    have e2 : b.index / perFile * perFile = perFile * (b.index / perFile) := Nat.mul_comm _ _
    have := Nat.mod_lt b.index hp
    omega
  unfold saver
  simp only [h3]
  rw [List.take_succ_cons]
  simp only
  rw [← List.take_succ_cons]
  have hlen : ((b :: l).take (n + 1)).length = n + 1 := by rw [List.length_take]; omega
  rw [hlen]
  by_cases hlt : perFile - (b.index - b.index / perFile * perFile) < n + 1
  · rw [if_pos hlt]
    obtain ⟨m, hm⟩ : ∃ m, perFile - (b.index - b.index / perFile * perFile) = m + 1 := ⟨perFile - (b.index - b.index / perFile * perFile) - 1, by omega⟩
    rw [hm]
    refine ⟨m + 1, by omega, by omega, ?_⟩
    rw [hk m (by omega), List.take_take, Nat.min_eq_left (by omega)]
  · rw [if_neg hlt]
    refine ⟨n + 1, by omega, h2, ?_⟩
    rw [hk n (by omega)]

/-- The first file which is kept: all of them, or the last `max`. -/
def firstKept (max lo hi : Nat) : Nat := if max = 0 then lo else if hi + 1 ≤ lo + max then lo else hi + 1 - max

/-- What there is in the files after blobs `l` with consecutive indexes, files `lo` to `hi`: a file which is not kept is not there, of those kept each has the blobs with its numbers in order, and the others are as before. -/
def filesAfter (perFile max lo hi : Nat) (F0 : Nat → Option (List Blob)) (l : List Blob) (k : Nat) : Option (List Blob) :=
  if k < lo ∨ hi < k then F0 k
  else if k < firstKept max lo hi then none
  else some (l.filter (fun b => decide (b.index / perFile = k)))

theorem trim_range (max : Nat) (F : Nat → Option (List Blob)) (p len : Nat) (h : len ≤ max + 1) : trim max F (List.range' p len) = if len = max + 1 then (fun j => if j = p then none else F j, List.range' (p + 1) max) else (F, List.range' p len) := by
  cases len with
  | zero => rw [if_neg (by omega)]; rfl
  | succ m =>
    rw [List.range'_succ]
    simp only [trim, List.length_cons, List.length_range']
    by_cases hm : m = max
    · subst hm
      rw [if_pos (by omega), if_pos rfl]
      cases m with
      | zero => rfl
      | succ m =>
        rw [List.range'_succ]
        simp only [trim, List.length_cons, List.length_range']
        rw [if_neg (by omega)]
    · rw [if_neg (by omega), if_neg (by omega)]

theorem each_save (perFile max : Nat) (hp : 0 < perFile) (F0 : Nat → Option (List Blob)) (i0 : Nat) (l : List Blob) (hl : ∀ j b, l[j]? = some b → b.index = i0 + j) :
    ∀ n, n + 1 ≤ l.length → each (saveOne perFile max) ⟨F0, []⟩ (l.take (n + 1)) =
      some (⟨filesAfter perFile max (i0 / perFile) ((i0 + n) / perFile) F0 (l.take (n + 1)),
        List.range' (firstKept max (i0 / perFile) ((i0 + n) / perFile)) ((i0 + n) / perFile + 1 - firstKept max (i0 / perFile) ((i0 + n) / perFile))⟩, l.take (n + 1)) := by
  intro n
  induction n with
  | zero =>
    intro hn
    cases l with
    | nil => simp at hn
    | cons b l =>
    have hb := hl 0 b rfl
    simp only [Nat.add_zero] at hb
    simp only [Nat.zero_add, List.take_succ_cons, List.take_zero, each, saveOne, hb, Nat.add_zero]
    have hf : firstKept max (i0 / perFile) (i0 / perFile) = i0 / perFile := by 
      unfold firstKept
      by_cases h0 : max = 0
      · rw [if_pos h0]
      · rw [if_neg h0, if_pos (by omega)]
    simp only [List.getLast?_nil, hf, reduceCtorEq, if_false]
    have e1 : i0 / perFile + 1 - i0 / perFile = 1 := by omega
    rw [e1]
    have ht : (if max ≠ 0 then trim max F0 ([] ++ [i0 / perFile]) else (F0, [] ++ [i0 / perFile])) = (F0, [i0 / perFile]) := by
      split
      · simp only [List.nil_append, trim]
        rw [if_neg (by simp; omega)]
      · rfl
    simp only [Saver.open_, ht, Saver.write, List.range'_one, Option.some.injEq, Prod.mk.injEq, Saver.mk.injEq, and_true]
    funext k
    unfold filesAfter
    rw [hf]
    by_cases hk : k = i0 / perFile
    · subst hk; simp [hb]
    · rw [if_neg hk, if_neg hk, if_pos (by omega)]
  | succ n ih =>
    intro hn
    have ih := ih (by omega)
    obtain ⟨b, hb'⟩ : ∃ b, l[n + 1]? = some b := ⟨l[n + 1], by simp⟩
    have hb := hl _ b hb'
    have htake : l.take (n + 1 + 1) = l.take (n + 1) ++ [b] := by rw [List.take_add_one, hb']; rfl
    rw [htake, each_append, ih]
    have hlo : i0 / perFile ≤ (i0 + n) / perFile := Nat.div_le_div_right (by omega)
    have hk : (i0 + (n + 1)) / perFile = (i0 + n) / perFile ∨ (i0 + (n + 1)) / perFile = (i0 + n) / perFile + 1 := by
      have h1 := Nat.div_le_div_right (c := perFile) (show i0 + n ≤ i0 + (n + 1) by omega)
      have h2 : (i0 + (n + 1)) / perFile ≤ (i0 + n) / perFile + 1 := by
        rw [← Nat.add_div_right _ hp]
        exact Nat.div_le_div_right (by omega)
      omega
    have hmem : ∀ x ∈ l.take (n + 1), x.index / perFile ≤ (i0 + n) / perFile := by
      intro x hx
      obtain ⟨j, hj⟩ := List.mem_iff_getElem?.1 hx
      rw [List.getElem?_take] at hj
      split at hj
      · rw [hl j x hj]; exact Nat.div_le_div_right (by omega)
      · cases hj
    have hbk : b.index / perFile = (i0 + (n + 1)) / perFile := by rw [hb]
    simp only [each, saveOne, hb]
    generalize (i0 + (n + 1)) / perFile = k at *
    generalize (i0 + n) / perFile = hi at *
    generalize i0 / perFile = lo at *
    generalize l.take (n + 1) = L at *
    have hlast : (List.range' (firstKept max lo hi) (hi + 1 - firstKept max lo hi)).getLast? = some hi := by
      have : firstKept max lo hi ≤ hi := by unfold firstKept; split <;> (try split) <;> omega
      rw [List.getLast?_range']
      rw [if_neg (by omega)]
      congr 1; omega
    rcases hk with rfl | rfl
    · rw [if_pos hlast]
      simp only [Saver.write, Option.some.injEq, Prod.mk.injEq, Saver.mk.injEq, and_true]
      funext j
      unfold filesAfter
      have hp' : firstKept max lo k ≤ k := by unfold firstKept; split <;> (try split) <;> omega
      by_cases hj : j = k
      · subst hj
        rw [if_pos rfl, if_neg (by omega), if_neg (by omega), if_neg (by omega), if_neg (by omega)]
        simp [List.filter_append, hbk]
      · rw [if_neg hj]
        have : ([b].filter (fun b => decide (b.index / perFile = j))) = [] := by simp [hbk]; omega
        rw [List.filter_append, this, List.append_nil]
    · rw [if_neg (by rw [hlast]; simp)]
      have hq : List.range' (firstKept max lo hi) (hi + 1 - firstKept max lo hi) ++ [hi + 1] = List.range' (firstKept max lo hi) (hi + 2 - firstKept max lo hi) := by
        have : firstKept max lo hi ≤ hi := by unfold firstKept; split <;> (try split) <;> omega
        have e : hi + 2 - firstKept max lo hi = (hi + 1 - firstKept max lo hi) + 1 := by omega
        rw [e, List.range'_concat]
        congr 2; omega
      have hnil : L.filter (fun b => decide (b.index / perFile = hi + 1)) = [] := by
        rw [List.filter_eq_nil_iff]
        intro x hx
        have := hmem x hx
        simp; omega
      have hone : ∀ j, j ≠ hi + 1 → ([b].filter (fun b => decide (b.index / perFile = j))) = [] := by
        intro j hj; simp [hbk]; omega
      simp only [Saver.open_, hq]
      by_cases hm : max = 0
      · subst hm
        have h0 : ∀ h, firstKept 0 lo h = lo := by intro h; simp [firstKept]
        simp only [h0, ne_eq, not_true_eq_false, if_false, Saver.write, Option.some.injEq, Prod.mk.injEq, Saver.mk.injEq, and_true]
        funext j
        unfold filesAfter
        rw [h0, h0]
        by_cases hj : j = hi + 1
        · subst hj
          rw [if_pos rfl, if_pos rfl, if_neg (by omega), if_neg (by omega), List.filter_append, hnil]
          simp [hbk]
        · rw [if_neg hj, if_neg hj, List.filter_append, hone j hj, List.append_nil]
          by_cases hjo : j < lo ∨ hi < j
          · rw [if_pos hjo, if_pos (by omega)]
          · rw [if_neg hjo, if_neg (by omega), if_neg (by omega)]
      · rw [if_pos hm]
        by_cases hfit : hi + 2 ≤ lo + max
        · have h0 : firstKept max lo hi = lo := by unfold firstKept; rw [if_neg hm, if_pos (by omega)]
          have h1 : firstKept max lo (hi + 1) = lo := by unfold firstKept; rw [if_neg hm, if_pos (by omega)]
          rw [h0, h1, trim_range _ _ _ _ (by omega), if_neg (by omega)]
          simp only [Saver.write, Option.some.injEq, Prod.mk.injEq, Saver.mk.injEq, and_true]
          funext j
          unfold filesAfter
          rw [h0, h1]
          by_cases hj : j = hi + 1
          · subst hj
            rw [if_pos rfl, if_pos rfl, if_neg (by omega), if_neg (by omega), List.filter_append, hnil]
            simp [hbk]
          · rw [if_neg hj, if_neg hj, List.filter_append, hone j hj, List.append_nil]
            by_cases hjo : j < lo ∨ hi < j
            · rw [if_pos hjo, if_pos (by omega)]
            · rw [if_neg hjo, if_neg (by omega), if_neg (by omega)]
        · have h0 : firstKept max lo hi = hi + 1 - max := by
            unfold firstKept; rw [if_neg hm]
            by_cases h : hi + 1 ≤ lo + max
            · rw [if_pos h]; omega
            · rw [if_neg h]
          have h1 : firstKept max lo (hi + 1) = hi + 2 - max := by unfold firstKept; rw [if_neg hm, if_neg (by omega)]
          rw [h0, h1, trim_range _ _ _ _ (by omega), if_pos (by omega)]
          have e1 : hi + 1 - max + 1 = hi + 2 - max := by omega
          have e2 : hi + 1 + 1 - (hi + 2 - max) = max := by omega
          simp only [e1, e2, Saver.write, Option.some.injEq, Prod.mk.injEq, Saver.mk.injEq, and_true]
          funext j
          unfold filesAfter
          rw [h0, h1]
          by_cases hj : j = hi + 1
          · subst hj
            rw [if_pos rfl, if_pos rfl, if_neg (by omega), if_neg (by omega), List.filter_append, hnil]
            simp [hbk]
          · rw [if_neg hj, if_neg hj, List.filter_append, hone j hj, List.append_nil]
            by_cases hjo : j < lo ∨ hi < j
            · rw [if_neg (by omega), if_pos hjo, if_pos (by omega)]
            · by_cases hjp : j = hi + 1 - max
              · rw [if_pos hjp, if_neg (by omega), if_pos (by omega)]
              · have c1 : ¬ (j < lo ∨ hi + 1 < j) := by omega
                rw [if_neg hjp, if_neg hjo, if_neg c1]
                by_cases hjl : j < hi + 1 - max
                · rw [if_pos hjl, if_pos (by omega)]
                · rw [if_neg hjl, if_neg (by omega)]

/-- C135 (d): however the input comes in, if its indexes go up by one from `i0`: of the files of the blobs which the saver has gone over, those kept — all, or the last `max` — each have exactly the blobs with its numbers, in order, each once; the others of them are not there; and no other file is touched. -/
theorem saver_files (perFile max : Nat) (hp : 0 < perFile) (F0 : Nat → Option (List Blob)) (as : List Nat) (i0 : Nat) (input : List Blob) (h : ∀ (j : Nat) (b : Blob), input[j]? = some b → b.index = i0 + j)
    (hne : input ≠ []) (has : ∃ a ∈ as, 0 < a) :
    ∃ n s, n + 1 ≤ input.length ∧ ((as.filter (fun a => decide (0 < a))).length ≤ n + 1 ∨ n + 1 = input.length) ∧
      drive (saver perFile max) as (⟨F0, []⟩, [], input) = some (s, input.take (n + 1), input.drop (n + 1)) ∧
      s.files = filesAfter perFile max (i0 / perFile) ((i0 + n) / perFile) F0 (input.take (n + 1)) := by
  obtain ⟨n, h1, h2, h3⟩ := drive_eq (saver_refines perFile max hp) (fun _ _ _ hc => hc.part _ _) as ⟨F0, []⟩ [] input ⟨i0, h⟩
  have hsome : each (saveOne perFile max) ⟨F0, []⟩ (input.take n) ≠ none := by
    cases n with
    | zero => simp [each]
    | succ n => rw [each_save perFile max hp F0 i0 input h n h1]; simp
  have h3 := h3 hsome
  have hpos : 0 < input.length := by cases input <;> simp at hne ⊢
  have hf : 0 < (as.filter (fun a => decide (0 < a))).length := by
    obtain ⟨a, ha, h0⟩ := has
    exact List.length_pos_of_mem (List.mem_filter.2 ⟨ha, by simpa using h0⟩)
  cases n with
  | zero => omega
  | succ n =>
    rw [each_save perFile max hp F0 i0 input h n h1] at h2
    exact ⟨n, _, h1, h3, by simpa using h2, rfl⟩

/-- Seven blobs from 2 on, two in a file, the last two files kept. -/
example : ((drive (saver 2 2) [5, 1, 7, 7, 7] (⟨fun _ => none, []⟩, [], (List.range 7).map (fun j => ⟨j + 2, 0, j⟩))).map (fun r => [r.1.files 1, r.1.files 2, r.1.files 3, r.1.files 4])) =
    some [none, none, some [⟨6, 0, 4⟩, ⟨7, 0, 5⟩], some [⟨8, 0, 6⟩]] := by decide

/-- A file which is there is emptied: after a restart in the middle of a file what was in it is lost. -/
theorem restart_loses : ∃ s, drive (saver 4 0) [1] (⟨fun k => if k = 0 then some [⟨0, 0, 0⟩, ⟨1, 0, 1⟩] else none, []⟩, [], [⟨2, 0, 2⟩]) = some s ∧ s.1.files 0 = some [⟨2, 0, 2⟩] := ⟨_, rfl, by decide⟩

/-- Without consecutive indexes, which the saver does not check, a blob is written to a file of other numbers. -/
theorem gap_misfiled : ∃ s, drive (saver 4 0) [2] (⟨fun _ => none, []⟩, [], [⟨0, 0, 0⟩, ⟨100, 0, 1⟩]) = some s ∧ s.1.files 0 = some [⟨0, 0, 0⟩, ⟨100, 0, 1⟩] ∧ s.1.files 25 = none := ⟨_, rfl, by decide, by decide⟩

end Current.Workers
