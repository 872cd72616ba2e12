/-!
C159: `Printf` (`bricks/strings/printf.h`), except on Windows. The text that the format and the arguments denote is given; what is modelled is
the two buffers and how the text gets out of them. It is shorter than 2^31 - 1 bytes, and `vsnprintf` does not fail.
-/
namespace Current.Strings.Printf

abbrev Bytes := List Nat

/-- `vsnprintf(buffer, size, ...)` (C11, 7.21.6.12), for a buffer of `size` bytes: as much of the text as fits in front of a NUL; the bytes behind
are left as they were. Returns the length of the text. `none`: writes outside of the buffer. -/
def vsnprintf (buffer : Bytes) (size : Nat) (text : Bytes) : Option (Bytes × Nat) :=
  if size = 0 then some (buffer, text.length)
  else
    let k := min text.length (size - 1)
    if k + 1 ≤ buffer.length then some (text.take k ++ 0 :: buffer.drop (k + 1), text.length) else none

/-- `std::string(const char*)`: up to the first NUL. `none`: there is none in the buffer. -/
def fromC (buffer : Bytes) : Option Bytes :=
  if 0 ∈ buffer then some (buffer.takeWhile (· ≠ 0)) else none

/-- `max_string_length_for_static_buffer` (`:45`). -/
def maxStatic : Nat := 64 * 1024 - 1
/-- `max_formatted_output_length` (`:47`). -/
def maxOutput : Nat := 1024 * 1024 - 1

/-- `Printf` (`:43-87`): the string returned, and the static buffer of the thread afterwards. `buffer`: as the last call in this thread left it. -/
def printf (buffer text : Bytes) : Option (Bytes × Bytes) := do
  let (buffer, res) ← vsnprintf buffer (maxStatic + 1) text
  if res > maxStatic then
    let length := min (res + 1) (maxOutput + 1)
    let (large, _) ← vsnprintf (List.replicate length 0) length text
    return (← fromC large, buffer)
  else return (← fromC buffer, buffer)

theorem vsnprintf_eq (buffer : Bytes) (size : Nat) (text : Bytes) (h : 0 < size) (hb : size ≤ buffer.length) :
    vsnprintf buffer size text = some (text.take (size - 1) ++ 0 :: buffer.drop (min text.length (size - 1) + 1), text.length) := by
  unfold vsnprintf
  rw [if_neg (by omega)]
  simp only
  rw [if_pos (by omega)]
  have : text.take (min text.length (size - 1)) = text.take (size - 1) := by
    rcases Nat.le_total text.length (size - 1) with h | h
    · rw [Nat.min_eq_left h, List.take_of_length_le (Nat.le_refl _), List.take_of_length_le h]
    · rw [Nat.min_eq_right h]
  rw [this]

theorem takeWhile_all (t : Bytes) (h : 0 ∉ t) : t.takeWhile (· ≠ 0) = t := by
  induction t with
  | nil => rfl
  | cons c t ih =>
    have hc : c ≠ 0 := by rintro rfl; exact h (by simp)
    rw [List.takeWhile_cons_of_pos (by simp [hc]), ih (fun q => h (by simp [q]))]

theorem fromC_eq (t r : Bytes) : fromC (t ++ 0 :: r) = some (t.takeWhile (· ≠ 0)) := by
  unfold fromC
  rw [if_pos (by simp)]
  congr 1
  induction t with
  | nil => simp
  | cons c t ih =>
    by_cases h : c = 0
    · subst h; simp
    · have := ih; simp_all

/-- Whatever the buffer contains, the first 1048575 bytes of the text, up to a NUL, are returned; and nothing is written or read out of bounds. -/
theorem printf_spec (buffer text : Bytes) (hb : buffer.length = 64 * 1024) :
    ∃ buffer', printf buffer text = some ((text.take 1048575).takeWhile (· ≠ 0), buffer') ∧ buffer'.length = 64 * 1024 := by
  unfold printf
  rw [vsnprintf_eq buffer _ text (by decide) (by rw [hb]; decide)]
  have hl : (text.take (maxStatic + 1 - 1) ++ 0 :: buffer.drop (min text.length (maxStatic + 1 - 1) + 1)).length = 64 * 1024 := by
    simp only [List.length_append, List.length_cons, List.length_take, List.length_drop, hb, maxStatic]
    omega
  simp only [Option.bind_eq_bind, Option.bind_some]
  by_cases h : text.length > maxStatic
  · rw [if_pos h]
    rw [vsnprintf_eq _ _ text (by omega) (by simp)]
    simp only [Option.bind_some, fromC_eq]
    refine ⟨_, ?_, hl⟩
    have e : text.take (min (text.length + 1) (maxOutput + 1) - 1) = text.take 1048575 := by
      have : maxOutput = 1048575 := by decide
      rw [this]
      rcases Nat.le_total text.length 1048575 with h' | h'
      · rw [List.take_of_length_le (by omega), List.take_of_length_le h']
      · rw [Nat.min_eq_right (by omega)]
    rw [e]; rfl
  · rw [if_neg h]
    simp only [fromC_eq, Option.bind_some]
    refine ⟨_, ?_, hl⟩
    have s : maxStatic = 65535 := by decide
    rw [List.take_of_length_le (by omega), List.take_of_length_le (by omega)]; rfl

/-- Texts of at most a megabyte without a NUL are returned whole. -/
theorem printf_whole (buffer text : Bytes) (hb : buffer.length = 64 * 1024) (h : text.length < 2 ^ 20) (hn : 0 ∉ text) :
    ∃ buffer', printf buffer text = some (text, buffer') ∧ buffer'.length = 64 * 1024 := by
  obtain ⟨b, e, l⟩ := printf_spec buffer text hb
  refine ⟨b, ?_, l⟩
  rw [e, List.take_of_length_le (by omega)]
  rw [takeWhile_all text hn]

/-- Longer texts are cut. -/
theorem printf_cut (buffer text : Bytes) (hb : buffer.length = 64 * 1024) (h : 2 ^ 20 ≤ text.length) :
    ∃ t buffer', printf buffer text = some (t, buffer') ∧ t ≠ text := by
  obtain ⟨b, e, l⟩ := printf_spec buffer text hb
  refine ⟨_, b, e, ?_⟩
  intro q
  have h1 : ((text.take 1048575).takeWhile (· ≠ 0)).length ≤ 1048575 :=
    Nat.le_trans (List.takeWhile_prefix _).length_le (List.length_take_le _ _)
  rw [q] at h1
  omega

/-- A sequence of calls in one thread, each on the buffer that the last one left. -/
def calls : Bytes → List Bytes → Option (List Bytes)
  | _, [] => some []
  | b, t :: ts => do
    let (r, b) ← printf b t
    let rs ← calls b ts
    return r :: rs

/-- Nothing of one call shows up in the next. -/
theorem calls_spec (ts : List Bytes) : ∀ b : Bytes, b.length = 64 * 1024 → calls b ts = some (ts.map fun t => (t.take 1048575).takeWhile (· ≠ 0)) := by
  induction ts with
  | nil => intro b _; rfl
  | cons t ts ih =>
    intro b hb
    obtain ⟨b', e, l⟩ := printf_spec b t hb
    unfold calls
    rw [e]
    simp only [Option.bind_eq_bind, Option.bind_some]
    rw [ih b' l]
    rfl

/-- A long text and a short one after it. -/
example (n : Nat) (h : n < 2 ^ 20) : calls (List.replicate (64 * 1024) 0) [List.replicate n 97, [98], [99, 0, 100]] = some [List.replicate n 97, [98], [99]] := by
  have l : (List.replicate (64 * 1024) 0).length = 64 * 1024 := List.length_replicate
  have e : (List.replicate n 97).take 1048575 = List.replicate n 97 := List.take_of_length_le (by rw [List.length_replicate]; omega)
  have w : (List.replicate n 97).takeWhile (· ≠ 0) = List.replicate n 97 :=
    takeWhile_all _ (fun h => absurd (List.eq_of_mem_replicate h) (by decide))
  rw [calls_spec _ _ l, List.map_cons, e, w]
  rfl

end Current.Strings.Printf
