import Verif.Replicate.Chunk
import Verif.Json.Text
set_option linter.unusedSimpArgs false
/-!
`examples/benchmark/replication` (C148): the data of the benchmark of replication (`generate_stream.h`), and the server which sends
the file of a stream as it is (`FakeStream` of `replication_server.cc`).

Modelled: the thread of a subscriber, step by step, with the signal of termination coming at any time, and the texts of the
generated entries. The HTTP endpoint of the server (which is that of a stream) is not modelled here; that the answer of the
subscriber is ignored is part of the model: the loop does not look at it.
-/
namespace Current.FakeStream
open Current.Persist
open Current.Replicate

/-! ### Model -/

/-- The local state of the thread. `sent` is what the subscriber has been given, oldest first. -/
structure S where
  skipping : Bool := true
  offset : Nat := 0
  sent : List Str := []
  finished : Bool := false
  deriving DecidableEq, Repr

/-- `data.find('\n', offset) + 1` with `npos + 1 = 0`. -/
def afterLine (data : Str) (offset : Nat) : Nat :=
  match (data.drop offset).findIdx? (· == '\n') with
  | some i => offset + i + 1
  | none => 0

/-- One round of the loops of `ThreadImpl`, lines 203-219. `chunk` is the flag, `signal` whether the signal of termination is seen in
this round. Sums of `uint64_t` do not overflow for files below 2^63 bytes. -/
def step (data : Str) (chunk : Nat) (signal : Bool) (s : S) : S :=
  if s.finished then s
  else if s.skipping then
    if s.offset < data.length ∧ data[s.offset]? = some '#' then { s with offset := afterLine data s.offset }
    else { s with skipping := false }
  else if s.offset < data.length then
    if signal then { s with finished := true }
    else
      let size := if s.offset < data.length + chunk then chunk else data.length - s.offset
      { s with sent := s.sent ++ [(data.drop s.offset).take size], offset := s.offset + size }
  else { s with finished := true }

/-- `n` rounds. -/
def rounds (data : Str) (chunk : Nat) (signal : Nat → Bool) : Nat → S
  | 0 => {}
  | n + 1 => step data chunk (signal n) (rounds data chunk signal n)

/-- The 62 characters, `generate_stream.h:41-42`. -/
def symbols : List Char := "0123456789abcdefghijklmnopqrstuvwxyzABCDEFGHIJKLMNOPQRSTUVWXYZ".toList

/-- `JSON(Entry(s))`: an object with one member. -/
def entryJSON (s : Str) : Str := "{\"s\":".toList ++ Json.writeString s ++ ['}']

/-- The text of entry `i`, `generate_stream.h:44-54`, for `entry_length` of at least that of an empty entry (with the newline). The
indexes are `uint32_t`. -/
def entryText (entryLength i : Nat) : Str :=
  (List.range (entryLength - ((entryJSON []).length + 1))).map fun j => symbols.getD (((i / 62 + (i + 1) * j % 2 ^ 32) % 2 ^ 32) % 62) '\x00'

/-! ### Specification -/

/-- A file: lines which begin with `#`, and the rest, which does not begin with `#`. -/
structure Layout (data : Str) (directives : List Str) (body : Str) : Prop where
  all : data = textOf directives ++ body
  marked : ∀ l ∈ directives, (∃ r, l = '#' :: r) ∧ '\n' ∉ l
  rest : body.head? ≠ some '#'

/-! ### Lemmas -/

theorem textOf_cons (l : Str) (ls : List Str) : textOf (l :: ls) = l ++ '\n' :: textOf ls := by simp [textOf]

theorem textOf_append (a b : List Str) : textOf (a ++ b) = textOf a ++ textOf b := by simp [textOf]

theorem textOf_nil : textOf [] = [] := rfl

theorem afterLine_line {data pre l rest : Str} (h : data = pre ++ (l ++ '\n' :: rest)) (hl : '\n' ∉ l) :
    afterLine data pre.length = pre.length + l.length + 1 := by
  unfold afterLine
  have hd : data.drop pre.length = l ++ '\n' :: rest := by rw [h]; simp
  rw [hd]
  have : (l ++ '\n' :: rest).findIdx? (· == '\n') = some l.length := by
    clear h hd
    induction l with
    | nil => simp [List.findIdx?_cons]
    | cons c l ih =>
      have hc : (c == '\n') = false := by
        simp at hl; simpa using fun h => hl.1 h.symm
      have ih := ih (fun h => hl (List.mem_cons_of_mem _ h))
      rw [List.cons_append, List.findIdx?_cons, hc, ih]
      simp
  rw [this]

variable {data body : Str} {directives : List Str} {chunk : Nat} {signal : Nat → Bool}

/-- What holds after each round: the thread is after some of the directives, or it has sent the beginning of the body, in full
chunks up to the last. -/
inductive Good (directives : List Str) (body : Str) : S → Prop
  | skip (i : Nat) (h : i ≤ directives.length) : Good directives body ⟨true, (textOf (directives.take i)).length, [], false⟩
  | send (offset : Nat) (sent : List Str) (f : Bool) (n : Nat) (h : sent.flatten = body.take n)
      (ho : offset = (textOf directives).length + n) : Good directives body ⟨false, offset, sent, f⟩

theorem textOf_split (i : Nat) (h : i < directives.length) :
    textOf directives = textOf (directives.take i) ++ (directives[i] ++ '\n' :: textOf (directives.drop (i + 1))) := by
  have : directives = directives.take i ++ directives[i] :: directives.drop (i + 1) := by
    rw [List.getElem_cons_drop, List.take_append_drop]
  calc textOf directives = textOf (directives.take i ++ directives[i] :: directives.drop (i + 1)) := congrArg textOf this
    _ = _ := by rw [textOf_append, textOf_cons]

theorem good_step (L : Layout data directives body) (sig : Bool) {s : S} (g : Good directives body s) :
    Good directives body (step data chunk sig s) := by
  cases g with
  | skip i h =>
    unfold step
    rw [if_neg (by simp), if_pos rfl]
    by_cases hi : i < directives.length
    · have hs := textOf_split i hi
      obtain ⟨⟨r, hr⟩, hn⟩ := L.marked directives[i] (List.getElem_mem hi)
      have hd : data = textOf (directives.take i) ++ (directives[i] ++ '\n' :: (textOf (directives.drop (i + 1)) ++ body)) := by
        rw [L.all, hs]; simp
      have hc : (textOf (directives.take i)).length < data.length ∧ data[(textOf (directives.take i)).length]? = some '#' := by
        rw [hd]
        constructor
        · simp; omega
        · rw [List.getElem?_append_right (by simp), hr]; simp
      show Good directives body (if (textOf (directives.take i)).length < data.length ∧ data[(textOf (directives.take i)).length]? = some '#' then _ else _)
      rw [if_pos hc]
      have ha := afterLine_line hd hn
      have : (textOf (directives.take (i + 1))).length = (textOf (directives.take i)).length + directives[i].length + 1 := by
        rw [List.take_succ_eq_append_getElem hi, textOf_append, textOf_cons, textOf_nil]; simp; omega
      show Good directives body ⟨true, afterLine data (textOf (directives.take i)).length, [], false⟩
      rw [ha, ← this]
      exact .skip (i + 1) (by omega)
    · have hi : i = directives.length := by omega
      subst hi
      have hd : data[(textOf directives).length]? = body.head? := by
        rw [L.all, List.getElem?_append_right (Nat.le_refl _)]
        simp [List.head?_eq_getElem?]
      simp only [List.take_length]
      rw [if_neg (by rw [hd]; exact fun h => L.rest h.2)]
      exact .send _ [] _ 0 (by simp) rfl
  | send offset sent f n h ho =>
    unfold step
    by_cases h1 : f = true
    · rw [if_pos h1]; exact .send offset sent f n h ho
    · rw [if_neg h1, if_neg (show ¬ false = true by simp)]
      by_cases h2 : offset < data.length
      · rw [if_pos h2]
        by_cases h3 : sig = true
        · rw [if_pos h3]; exact .send offset sent true n h ho
        · rw [if_neg h3]
          obtain ⟨size, hsize⟩ : ∃ c, c = if offset < data.length + chunk then chunk else data.length - offset := ⟨_, rfl⟩
          show Good directives body ⟨false, offset + (if offset < data.length + chunk then chunk else data.length - offset),
            sent ++ [(data.drop offset).take (if offset < data.length + chunk then chunk else data.length - offset)], f⟩
          rw [← hsize]
          refine .send _ _ f (n + size) ?_ (by omega)
          have hd : data.drop offset = body.drop n := by
            rw [L.all, ho, List.drop_append]
            simp
          rw [hd, List.flatten_append, h, List.take_add]
          simp
      · rw [if_neg h2]; exact .send offset sent true n h ho

theorem good_rounds (L : Layout data directives body) (n : Nat) : Good directives body (rounds data chunk signal n) := by
  induction n with
  | zero => exact .skip 0 (by omega)
  | succ n ih => exact good_step L _ ih

/-- Once finished, for ever. -/
theorem finished_stays {n : Nat} (h : (rounds data chunk signal n).finished = true) (k : Nat) :
    rounds data chunk signal (n + k) = rounds data chunk signal n := by
  induction k with
  | zero => rfl
  | succ k ih =>
    show step data chunk _ (rounds data chunk signal (n + k)) = _
    rw [ih]
    exact if_pos h

/-- What is left to do. -/
def left (data : Str) (s : S) : Nat :=
  if s.finished then 0 else if s.skipping then 2 * data.length + 3 - s.offset else 1 + (data.length - s.offset)

theorem step_less (L : Layout data directives body) (hc : 0 < chunk) (sig : Bool) {s : S} (g : Good directives body s)
    (h : s.finished = false) : left data (step data chunk sig s) < left data s := by
  have g' := good_step (chunk := chunk) L sig g
  have hl : (textOf directives).length ≤ data.length := by rw [L.all]; simp
  cases g with
  | skip i hi =>
    have hle : (textOf (directives.take i)).length ≤ data.length := by
      have : textOf directives = textOf (directives.take i) ++ textOf (directives.drop i) := by
        rw [← textOf_append, List.take_append_drop]
      rw [this] at hl; simp at hl ⊢; omega
    unfold step at g' ⊢
    rw [if_neg (by simp), if_pos rfl] at g' ⊢
    by_cases h1 : (textOf (directives.take i)).length < data.length ∧ data[(textOf (directives.take i)).length]? = some '#'
    · simp only at g' ⊢
      rw [if_pos h1] at g' ⊢
      by_cases hi : i < directives.length
      · obtain ⟨_, hn⟩ := L.marked directives[i] (List.getElem_mem hi)
        have hd : data = textOf (directives.take i) ++ (directives[i] ++ '\n' :: (textOf (directives.drop (i + 1)) ++ body)) := by
          rw [L.all, textOf_split i hi]; simp
        have ha := afterLine_line hd hn
        simp only [left]
        rw [ha]
        simp; omega
      · have hi : i = directives.length := by omega
        subst hi
        exfalso
        simp only [List.take_length] at h1
        have hd : data[(textOf directives).length]? = body.head? := by
          rw [L.all, List.getElem?_append_right (Nat.le_refl _)]
          simp [List.head?_eq_getElem?]
        rw [hd] at h1
        exact L.rest h1.2
    · simp only
      rw [if_neg h1]
      simp only [left]
      simp; omega
  | send offset sent f n _ ho =>
    simp only at h
    subst h
    unfold step
    rw [if_neg (by simp), if_neg (by simp)]
    by_cases h2 : offset < data.length
    · simp only
      rw [if_pos h2]
      by_cases h3 : sig = true
      · rw [if_pos h3]; simp only [left]; simp; omega
      · rw [if_neg h3]
        simp only [left]
        rw [if_pos (show offset < data.length + chunk by omega)]
        simp
        omega
    · simp only
      rw [if_neg h2]
      simp only [left]; simp; omega

/-! ### Theorems -/

/-- C148. At every moment what the subscriber has been given is the beginning of the file without its directives: nothing is
left out, repeated or changed, whenever the signal of termination comes. -/
theorem sent_is_a_beginning (L : Layout data directives body) (n : Nat) :
    (rounds data chunk signal n).sent.flatten <+: body := by
  have g := good_rounds (chunk := chunk) (signal := signal) L n
  obtain ⟨s, hs⟩ : ∃ s, s = rounds data chunk signal n := ⟨_, rfl⟩
  rw [← hs] at g ⊢
  cases g with
  | skip i h => simp
  | send offset sent f n h ho => simp only; rw [h]; exact List.take_prefix _ _

/-- C148. With chunks of at least one byte the thread comes to its end. -/
theorem thread_ends (L : Layout data directives body) (hc : 0 < chunk) :
    ∃ n, (rounds data chunk signal n).finished = true := by
  have key : ∀ k n, left data (rounds data chunk signal n) ≤ k → ∃ m, (rounds data chunk signal m).finished = true := by
    intro k
    induction k with
    | zero =>
      intro n h
      by_cases hf : (rounds data chunk signal n).finished = true
      · exact ⟨n, hf⟩
      · have := step_less (chunk := chunk) L hc (signal n) (good_rounds (signal := signal) L n) (by simpa using hf)
        omega
    | succ k ih =>
      intro n h
      by_cases hf : (rounds data chunk signal n).finished = true
      · exact ⟨n, hf⟩
      · have := step_less (chunk := chunk) L hc (signal n) (good_rounds (signal := signal) L n) (by simpa using hf)
        exact ih (n + 1) (by show left data (step data chunk (signal n) _) ≤ k; omega)
  exact key _ 0 (Nat.le_refl _)

/-- C148. If no signal comes, at the end all of it has been sent. -/
theorem all_is_sent (L : Layout data directives body) (hs : ∀ n, signal n = false) (n : Nat)
    (h : (rounds data chunk signal n).finished = true) : (rounds data chunk signal n).sent.flatten = body := by
  induction n with
  | zero => cases h
  | succ n ih =>
    by_cases hf : (rounds data chunk signal n).finished = true
    · have := finished_stays hf 1
      rw [this]
      exact ih hf
    · have g := good_rounds (chunk := chunk) (signal := signal) L n
      have e : rounds data chunk signal (n + 1) = step data chunk false (rounds data chunk signal n) := by
        show step data chunk (signal n) _ = _
        rw [hs n]
      rw [e] at h ⊢
      obtain ⟨s, hs⟩ : ∃ s, s = rounds data chunk signal n := ⟨_, rfl⟩
      rw [← hs] at g h hf ⊢
      cases g with
      | skip i hi =>
        unfold step at h
        rw [if_neg (by simp), if_pos rfl] at h
        simp only at h
        split at h <;> cases h
      | send offset sent f k hk ho =>
        unfold step at h ⊢
        simp only at hf
        rw [if_neg hf, if_neg (by simp)] at h ⊢
        simp only at h ⊢
        by_cases h2 : offset < data.length
        · rw [if_pos h2] at h
          simp at h
          exact absurd h hf
        · rw [if_neg h2]
          simp only
          rw [hk]
          apply List.take_of_length_le
          have : data.length = (textOf directives).length + body.length := by rw [L.all]; simp
          omega

/-- C148. A client of the fake stream gets the lines of the file which are not directives, whatever the size of the chunks (C28). -/
theorem client_gets_the_lines {lines : List Str} (L : Layout data directives (textOf lines)) (hs : ∀ n, signal n = false)
    (hl : ∀ l ∈ lines, l ≠ [] ∧ ∀ c ∈ l, isSep c = false) (n : Nat) (h : (rounds data chunk signal n).finished = true) :
    (passChunks [] (rounds data chunk signal n).sent).1 = lines := by
  have ha := all_is_sent L hs n h
  exact (lines_of_prefix lines hl _ (by rw [ha]; exact List.prefix_rfl)).2 ha

/-- C148 is false with chunks of zero bytes: the thread sends empty chunks for ever, until the signal. -/
theorem zero_chunk_never_ends (L : Layout data directives body) (hb : body ≠ []) (hs : ∀ n, signal n = false) (n : Nat) :
    (rounds data 0 signal n).finished = false ∧ (rounds data 0 signal n).sent.flatten = [] := by
  have key : (rounds data 0 signal n).finished = false ∧ (rounds data 0 signal n).sent.flatten = [] ∧
      ((rounds data 0 signal n).skipping = false → (rounds data 0 signal n).offset = (textOf directives).length) := by
    induction n with
    | zero => exact ⟨rfl, rfl, fun h => by cases h⟩
    | succ n ih =>
      have g := good_rounds (chunk := 0) (signal := signal) L n
      have g' := good_rounds (chunk := 0) (signal := signal) L (n + 1)
      have e : rounds data 0 signal (n + 1) = step data 0 false (rounds data 0 signal n) := by
        show step data 0 (signal n) _ = _
        rw [hs n]
      rw [e] at g' ⊢
      have hd : data.length = (textOf directives).length + body.length := by rw [L.all]; simp
      have hb : 0 < body.length := List.length_pos_iff.2 hb
      obtain ⟨s, hs⟩ : ∃ s, s = rounds data 0 signal n := ⟨_, rfl⟩
      rw [← hs] at g g' ih ⊢
      obtain ⟨i1, i2, i3⟩ := ih
      cases g with
      | skip i hi =>
        unfold step at g' ⊢
        rw [if_neg (by simp), if_pos rfl] at g' ⊢
        simp only at g' ⊢
        split at g'
        · rename_i h; rw [if_pos h]; exact ⟨rfl, rfl, fun h => by cases h⟩
        · rename_i h; rw [if_neg h]
          refine ⟨rfl, rfl, fun _ => ?_⟩
          cases g' with
          | send _ _ _ k hk ho =>
            by_cases hi : i < directives.length
            · exfalso
              obtain ⟨⟨r, hr⟩, hn⟩ := L.marked directives[i] (List.getElem_mem hi)
              have hd : data = textOf (directives.take i) ++ (directives[i] ++ '\n' :: (textOf (directives.drop (i + 1)) ++ body)) := by
                rw [L.all, textOf_split i hi]; simp
              apply h
              rw [hd]
              constructor
              · simp; omega
              · rw [List.getElem?_append_right (by simp), hr]; simp
            · have hi : i = directives.length := by omega
              subst hi
              simp
      | send offset sent f k hk ho =>
        simp only at i1 i2 i3
        have i3 := i3 trivial
        subst i1
        unfold step
        rw [if_neg (by simp), if_neg (by simp)]
        simp only
        rw [if_pos (by omega), if_neg (by simp), if_pos (by omega)]
        refine ⟨rfl, ?_, fun _ => ?_⟩
        · simp [i2]
        · simpa using i3
  exact ⟨key.1, key.2.1⟩

/-- C148 is false of a file of which the last directive has no newline (a stream without entries whose last line was cut): the thread
reads the directives for ever, and does not even look at the signal. -/
theorem cut_directive_never_ends (n : Nat) (l : Str) (hn : '\n' ∉ l) :
    rounds ('#' :: l) chunk signal n = {} := by
  induction n with
  | zero => rfl
  | succ n ih =>
    show step _ _ _ (rounds ('#' :: l) chunk signal n) = _
    rw [ih]
    unfold step
    rw [if_neg (by simp), if_pos rfl]
    simp only
    rw [if_pos (by simp)]
    have : afterLine ('#' :: l) 0 = 0 := by
      unfold afterLine
      have : (List.drop 0 ('#' :: l)).findIdx? (· == '\n') = none := by
        rw [List.drop_zero, List.findIdx?_eq_none_iff]
        intro x hx
        simp at hx ⊢
        rintro rfl
        rcases hx with h | h
        · cases h
        · exact hn h
      rw [this]
    rw [this]

/-! ### The generated entries -/

theorem symbols_plain : ∀ c ∈ symbols, Json.escapeOf c = none ∧ isSep c = false ∧ c ≠ '\x00' := by decide

theorem entry_char (a : Nat) : symbols.getD (a % 62) '\x00' ∈ symbols := by
  have h : a % 62 < symbols.length := Nat.mod_lt _ (by decide)
  rw [List.getD_eq_getElem?_getD, List.getElem?_eq_getElem h]
  exact List.getElem_mem h

theorem escaped_plain (s : Str) (h : ∀ c ∈ s, Json.escapeOf c = none) : Json.escaped s = s := by
  induction s with
  | nil => rfl
  | cons c s ih =>
    rw [Json.escaped, h c (by simp)]
    simp only
    rw [ih (fun x hx => h x (by simp [hx]))]

theorem empty_entry_length : (entryJSON []).length = 8 := by decide

/-- C148. Every entry is as long as was asked for: with its newline its JSON has exactly `entry_length` bytes. -/
theorem entries_have_the_length (entryLength i : Nat) (h : (entryJSON []).length + 1 ≤ entryLength) :
    (entryJSON (entryText entryLength i) ++ ['\n']).length = entryLength := by
  have he : Json.escaped (entryText entryLength i) = entryText entryLength i := by
    apply escaped_plain
    intro c hc
    obtain ⟨j, _, rfl⟩ := List.mem_map.1 hc
    exact (symbols_plain _ (entry_char _)).1
  have hl : (entryText entryLength i).length = entryLength - 9 := by
    unfold entryText
    rw [List.length_map, List.length_range, empty_entry_length]
  rw [empty_entry_length] at h
  unfold entryJSON Json.writeString
  rw [he]
  simp [hl]
  omega

/-- C148. No text of an entry is cut by the `char` of zero at its end, and none breaks a line. -/
theorem entries_are_plain (entryLength i : Nat) : ∀ c ∈ entryText entryLength i, c ≠ '\x00' ∧ isSep c = false := by
  intro c hc
  obtain ⟨j, _, rfl⟩ := List.mem_map.1 hc
  exact ⟨(symbols_plain _ (entry_char _)).2.2, (symbols_plain _ (entry_char _)).2.1⟩

/-! ### The conditions are met -/

def sampleFile : Str := "#signature x\n#head\nabc\nd\n".toList

theorem sample_layout : Layout sampleFile ["#signature x".toList, "#head".toList] (textOf ["abc".toList, "d".toList]) :=
  ⟨by decide, by intro l hl; simp at hl; rcases hl with rfl | rfl <;> exact ⟨⟨_, rfl⟩, by decide⟩, by decide⟩

example : (rounds sampleFile 4 (fun _ => false) 20).finished = true ∧
    (rounds sampleFile 4 (fun _ => false) 20).sent = ["abc\n".toList, "d\n".toList] := by decide

example : (rounds sampleFile 4 (fun n => n = 4) 20).sent = ["abc\n".toList] := by decide

example : entryText 14 3 = ['0', '4', '8', 'c', 'g'] := by decide +kernel

end Current.FakeStream
