import Verif.Persist.FileInv
/-!
Reassembling log lines from the chunks of an HTTP response: `RemoteStreamSubscriber::PassChunkToSubscriber`,
`stream/replicator.h:128-167` (C28).
-/
namespace Current.Replicate
open Current.Persist

/-- `c == '\n' || c == '\r'`. -/
def isSep (c : Char) : Bool := c = '\n' || c = '\r'

theorem dropWhile_length_le {α : Type} (p : α → Bool) (l : List α) : (l.dropWhile p).length ≤ l.length := by
  induction l with
  | nil => simp
  | cons x l ih => simp only [List.dropWhile]; split <;> simp <;> omega

/-- The `for` loop, `replicator.h:150-166`, on what remains of the chunk: the lines passed on, and what is left in
`carried_over_data_` (which is empty when the loop starts). -/
def lineLoop (chunk : Str) : List Str × Str :=
  if _h : chunk.dropWhile isSep = [] then ([], [])
  else
    let line := (chunk.dropWhile isSep).takeWhile (!isSep ·)
    let rest := (chunk.dropWhile isSep).dropWhile (!isSep ·)
    if rest = [] then ([], line)
    else
      let r := lineLoop rest.tail
      (line :: r.1, r.2)
  termination_by chunk.length
  decreasing_by
    have h1 := dropWhile_length_le isSep chunk
    have h2 := dropWhile_length_le (!isSep ·) (chunk.dropWhile isSep)
    have h3 : (chunk.dropWhile isSep).length ≠ 0 := by simpa using _h
    simp only [List.length_tail]
    omega

/-- `PassChunkToSubscriber`, `replicator.h:128-167`: the lines passed on by one chunk, and `carried_over_data_` afterwards. -/
def passChunk (carry chunk : Str) : List Str × Str :=
  if carry = [] then lineLoop chunk
  else
    let rest := chunk.dropWhile (!isSep ·)
    if rest = [] then ([], carry ++ chunk)
    else
      let r := lineLoop rest
      ((carry ++ chunk.takeWhile (!isSep ·)) :: r.1, r.2)

/-- All chunks of a response. -/
def passChunks (carry : Str) : List Str → List Str × Str
  | [] => ([], carry)
  | c :: cs =>
    let r := passChunk carry c
    let r' := passChunks r.2 cs
    (r.1 ++ r'.1, r'.2)

/-- Specification: reading a text character by character. A line ends at a separator; empty lines do not count; `cur` is the line being read. -/
def readLines (cur : Str) : Str → List Str × Str
  | [] => ([], cur)
  | c :: cs =>
    if c = '\n' ∨ c = '\r' then
      let r := readLines [] cs
      ((if cur = [] then [] else [cur]) ++ r.1, r.2)
    else readLines (cur ++ [c]) cs

theorem readLines_cons (cur : Str) (c : Char) (cs : Str) : readLines cur (c :: cs) =
    if isSep c then ((if cur = [] then [] else [cur]) ++ (readLines [] cs).1, (readLines [] cs).2) else readLines (cur ++ [c]) cs := by
  simp [readLines, isSep]

theorem readLines_append (cur s t : Str) :
    readLines cur (s ++ t) = ((readLines cur s).1 ++ (readLines (readLines cur s).2 t).1, (readLines (readLines cur s).2 t).2) := by
  induction s generalizing cur with
  | nil => simp [readLines]
  | cons c s ih =>
    simp only [List.cons_append, readLines_cons]
    split
    · simp [ih]
    · exact ih _

theorem readLines_nosep (cur s : Str) (h : ∀ c ∈ s, isSep c = false) : readLines cur s = ([], cur ++ s) := by
  induction s generalizing cur with
  | nil => simp [readLines]
  | cons c s ih =>
    have := h c (List.mem_cons_self ..)
    simp only [readLines_cons, this, Bool.false_eq_true, if_false]
    rw [ih _ fun x hx => h x (List.mem_cons_of_mem _ hx)]
    simp

theorem readLines_skip (s : Str) : readLines [] s = readLines [] (s.dropWhile isSep) := by
  induction s with
  | nil => rfl
  | cons c s ih =>
    simp only [List.dropWhile]
    by_cases h : isSep c = true
    · simp only [readLines_cons, h, if_true]
      rw [ih]; simp
    · simp only [Bool.not_eq_true] at h
      simp [h]

theorem mem_takeWhile {α : Type} {p : α → Bool} {l : List α} {x : α} (h : x ∈ l.takeWhile p) : p x = true := by
  induction l with
  | nil => simp at h
  | cons y l ih =>
    simp only [List.takeWhile] at h
    split at h
    · rcases List.mem_cons.1 h with rfl | h
      · assumption
      · exact ih h
    · cases h

theorem dropWhile_head {α : Type} {p : α → Bool} {l : List α} {x : α} {r : List α} (h : l.dropWhile p = x :: r) : p x = false := by
  induction l with
  | nil => simp at h
  | cons y l ih =>
    simp only [List.dropWhile] at h
    split at h
    · exact ih h
    · cases h; simpa using ‹_›

theorem lineLoop_eq (s : Str) : lineLoop s = readLines [] s := by
  have key : ∀ n (s : Str), s.length ≤ n → lineLoop s = readLines [] s := by
    intro n
    induction n with
    | zero =>
      intro s hs
      have : s = [] := by cases s; rfl; simp at hs
      subst this
      unfold lineLoop; simp [readLines]
    | succ n ih =>
      intro s hs
      unfold lineLoop
      rw [readLines_skip]
      split
      · rename_i h; rw [h]; rfl
      · rename_i h
        have hlen := dropWhile_length_le isSep s
        have hhd : ∀ a r, s.dropWhile isSep = a :: r → isSep a = false := fun a r h => dropWhile_head h
        generalize s.dropWhile isSep = t at *
        have htd : t = t.takeWhile (!isSep ·) ++ t.dropWhile (!isSep ·) := (List.takeWhile_append_dropWhile).symm
        have hns : ∀ c ∈ t.takeWhile (!isSep ·), isSep c = false := fun c hc => by simpa using mem_takeWhile hc
        dsimp only
        split
        · rename_i hr
          rw [hr, List.append_nil] at htd
          conv => rhs; rw [htd]
          rw [readLines_nosep _ _ hns]; simp
        · rename_i hr
          obtain ⟨c, r, hcr⟩ := List.exists_cons_of_ne_nil hr
          have hc : isSep c = true := by simpa using dropWhile_head hcr
          conv => rhs; rw [htd]
          rw [readLines_append, readLines_nosep _ _ hns, hcr]
          simp only [List.tail_cons, List.nil_append, readLines_cons, hc, if_true]
          have hne : t.takeWhile (!isSep ·) ≠ [] := by
            intro h0
            rw [h0, List.nil_append, hcr] at htd
            rw [hhd c r htd] at hc
            cases hc
          rw [if_neg hne, ih r]
          · simp
          · have : t.length = (t.takeWhile (!isSep ·)).length + (r.length + 1) := by
              conv => lhs; rw [htd, hcr]
              simp
            omega
  exact key _ s (Nat.le_refl _)

theorem passChunk_eq (carry chunk : Str) (h : ∀ c ∈ carry, isSep c = false) : passChunk carry chunk = readLines carry chunk := by
  unfold passChunk
  split
  · rename_i h0; subst h0; exact lineLoop_eq chunk
  · rename_i h0
    have htd : chunk = chunk.takeWhile (!isSep ·) ++ chunk.dropWhile (!isSep ·) := (List.takeWhile_append_dropWhile).symm
    have hns : ∀ c ∈ chunk.takeWhile (!isSep ·), isSep c = false := fun c hc => by simpa using mem_takeWhile hc
    dsimp only
    split
    · rename_i hr
      rw [hr, List.append_nil] at htd
      rw [← htd] at hns
      rw [readLines_nosep _ _ hns]
    · rename_i hr
      obtain ⟨c, r, hcr⟩ := List.exists_cons_of_ne_nil hr
      have hc : isSep c = true := by simpa using dropWhile_head hcr
      conv => rhs; rw [htd]
      rw [readLines_append, readLines_nosep _ _ hns, hcr, lineLoop_eq]
      simp only [readLines_cons, hc, if_true]
      simp [h0]

theorem readLines_carry (cur s : Str) (h : ∀ c ∈ cur, isSep c = false) : ∀ c ∈ (readLines cur s).2, isSep c = false := by
  induction s generalizing cur with
  | nil => exact h
  | cons c s ih =>
    simp only [readLines_cons]
    split
    · exact ih [] (by simp)
    · rename_i hc
      refine ih _ fun x hx => ?_
      rcases List.mem_append.1 hx with hx | hx
      · exact h x hx
      · simp only [List.mem_singleton] at hx; subst hx; simpa using hc

/-- C28: however the network splits a response into chunks, the lines passed on are those of the whole text read so far: the non-empty ones that are
terminated by a line break. What is carried over is the line still being read. -/
theorem lines_do_not_depend_on_chunks (chunks : List Str) : passChunks [] chunks = readLines [] chunks.flatten := by
  have key : ∀ (chunks : List Str) (carry : Str), (∀ c ∈ carry, isSep c = false) → passChunks carry chunks = readLines carry chunks.flatten := by
    intro chunks
    induction chunks with
    | nil => intro carry _; rfl
    | cons c cs ih =>
      intro carry h
      simp only [passChunks, List.flatten_cons, readLines_append, passChunk_eq carry c h]
      rw [ih _ (readLines_carry _ _ h)]
  exact key chunks [] (by simp)

/-- C28: two splits of the same text give the same lines. -/
theorem same_text_same_lines (xs ys : List Str) (h : xs.flatten = ys.flatten) : (passChunks [] xs).1 = (passChunks [] ys).1 := by
  rw [lines_do_not_depend_on_chunks, lines_do_not_depend_on_chunks, h]

/-- Three splits of `ab`, newline, `c`, return, newline, `d`. -/
example : passChunks [] [['a', 'b', '\n', 'c', '\r', '\n', 'd']] = ([['a', 'b'], ['c']], ['d']) ∧
    passChunks [] [['a'], ['b'], [], ['\n', 'c', '\r'], ['\n'], ['d']] = ([['a', 'b'], ['c']], ['d']) := by
  constructor <;> rw [lines_do_not_depend_on_chunks] <;> decide +kernel

/-- Specification of the text of a response: lines, each followed by a newline. -/
def textOf (lines : List Str) : Str := (lines.map (· ++ ['\n'])).flatten

theorem readLines_textOf (lines : List Str) (hl : ∀ l ∈ lines, l ≠ [] ∧ ∀ c ∈ l, isSep c = false) : readLines [] (textOf lines) = (lines, []) := by
  induction lines with
  | nil => rfl
  | cons l ls ih =>
    have h1 := hl l (List.mem_cons_self ..)
    have h2 := ih (fun x hx => hl x (List.mem_cons_of_mem _ hx))
    have e : textOf (l :: ls) = l ++ '\n' :: textOf ls := by simp [textOf]
    have hs : isSep '\n' = true := by decide
    rw [e, readLines_append, readLines_nosep _ _ h1.2]
    simp only [List.nil_append, readLines_cons, hs, if_true, h2, h1.1, if_false]
    simp

/-- C28: what is passed on after any part of a response has been received is a part of the response's lines; after all of it, all of them. -/
theorem lines_of_prefix (lines : List Str) (hl : ∀ l ∈ lines, l ≠ [] ∧ ∀ c ∈ l, isSep c = false) (chunks : List Str)
    (hp : chunks.flatten <+: textOf lines) :
    (passChunks [] chunks).1 <+: lines ∧ (chunks.flatten = textOf lines → (passChunks [] chunks).1 = lines) := by
  have whole := readLines_textOf lines hl
  obtain ⟨t, ht⟩ := hp
  have h := readLines_append [] chunks.flatten t
  rw [ht, whole] at h
  rw [lines_do_not_depend_on_chunks]
  refine ⟨⟨_, (congrArg Prod.fst h).symm⟩, fun he => ?_⟩
  rw [he, whole]

end Current.Replicate
