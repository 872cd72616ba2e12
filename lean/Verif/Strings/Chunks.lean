import Verif.Persist.Model
/-!
`bricks/strings/chunk.h`: `Chunk`, `UniqueChunk`, `ChunkDB` (C72).

Memory is a function from addresses to bytes; `Chunk` does not own or change it. Objects of type `Chunk` that `ChunkDB` points to live at addresses
of their own, and are not changed or destroyed while the `ChunkDB` exists (this is what the comments of the header demand).
-/
namespace Current.Strings
open Current.Persist

/-! ### Model -/

/-- The bytes of the memory. -/
abbrev Memory := Nat → Char

/-- `class Chunk`, `chunk.h:72-175`. -/
structure Chunk where
  s : Nat
  n : Nat
  deriving DecidableEq, Repr

/-- `memcmp(p, q, n)`: the difference of the first bytes that differ, as unsigned numbers. -/
def memcmp (mem : Memory) (p q : Nat) : Nat → Int
  | 0 => 0
  | n + 1 => if mem p = mem q then memcmp mem (p + 1) (q + 1) n else (mem p).toNat - (mem q).toNat

/-- `assign(s, n)`, `chunk.h:97-101`; `none`: the assertion fails and the program ends. -/
def Chunk.assign (mem : Memory) (s n : Nat) : Option Chunk := if mem (s + n) = '\x00' then some ⟨s, n⟩ else none

/-- `HasPrefix`, `chunk.h:118`. -/
def Chunk.hasPrefix (mem : Memory) (c p : Chunk) : Bool := decide (p.n ≤ c.n) && decide (memcmp mem c.s p.s p.n = 0)

/-- `ExpungePrefix`, `chunk.h:122-129`: `some none`: returned false. -/
def Chunk.expungePrefix (mem : Memory) (c p : Chunk) : Option (Option Chunk) :=
  if c.hasPrefix mem p then (Chunk.assign mem (c.s + p.n) (c.n - p.n)).map some else some none

/-- `LexicographicalCompare`, `chunk.h:131-146`. -/
def Chunk.compare (mem : Memory) (l r : Chunk) : Int :=
  let d := memcmp mem l.s r.s (min l.n r.n)
  if d ≠ 0 then d else if l.n < r.n then -1 else if r.n < l.n then 1 else 0

/-- `ChunkDB::map`, `chunk.h:242`: copies of the chunks, with the addresses of the objects. The unordered map looks keys up with `EqualityComparator`
among those of the same hash; the hash depends on the bytes of the chunk only, so this is the same as looking at all keys. (The hash itself, a sum
of cosines cast to `size_t`, is not modelled.) -/
abbrev ChunkDB := List (Chunk × Nat)

/-- `map.find(key)`. -/
def ChunkDB.find? (mem : Memory) (db : ChunkDB) (key : Chunk) : Option Nat :=
  (List.find? (fun e => decide (Chunk.compare mem e.1 key = 0)) db).map (·.2)

/-- `FromConstChunk(chunk)`, `chunk.h:222-229`; `heap o` is the `Chunk` at address `o`. Returns the address of the `UniqueChunk`. -/
def ChunkDB.fromConstChunk (mem : Memory) (heap : Nat → Chunk) (db : ChunkDB) (o : Nat) : ChunkDB × Nat :=
  match db.find? mem (heap o) with
  | some r => (db, r)
  | none => (db ++ [(heap o, o)], o)

/-- `Find(key, response)`, `chunk.h:232-240`: the value assigned to `response`. -/
def ChunkDB.find (mem : Memory) (heap : Nat → Chunk) (db : ChunkDB) (key : Chunk) : Option Chunk :=
  (db.find? mem key).map heap

/-- `UniqueChunk::operator==`, `chunk.h:196-198`: pointers only. -/
def uniqueEq (a b : Chunk) : Bool := a.s = b.s

/-- A history of `FromConstChunk` calls on an empty database, with the results. -/
def ChunkDB.run (mem : Memory) (heap : Nat → Chunk) : List Nat → ChunkDB → ChunkDB × List Nat
  | [], db => (db, [])
  | o :: os, db =>
    let r := db.fromConstChunk mem heap o
    let q := ChunkDB.run mem heap os r.1
    (q.1, r.2 :: q.2)

/-! ### Specification -/

/-- The text of a chunk. -/
def Chunk.text (mem : Memory) (c : Chunk) : Str := (List.range c.n).map fun i => mem (c.s + i)

/-- Strings are ordered by the first byte that differs, a prefix comes first. -/
def byteLt (a b : Str) : Prop := a.map Char.toNat < b.map Char.toNat

/-! ### Chunk -/

theorem text_succ (mem : Memory) (s n : Nat) : Chunk.text mem ⟨s, n + 1⟩ = mem s :: Chunk.text mem ⟨s + 1, n⟩ := by
  simp only [Chunk.text, List.range_succ_eq_map, List.map_cons, List.map_map]
  simp [Function.comp_def, Nat.add_assoc, Nat.add_comm, Nat.add_left_comm]

theorem text_length (mem : Memory) (c : Chunk) : (c.text mem).length = c.n := by simp [Chunk.text]

theorem text_zero (mem : Memory) (s : Nat) : Chunk.text mem ⟨s, 0⟩ = [] := rfl

theorem text_append (mem : Memory) : ∀ (k s n : Nat), Chunk.text mem ⟨s, k + n⟩ = Chunk.text mem ⟨s, k⟩ ++ Chunk.text mem ⟨s + k, n⟩
  | 0, s, n => by simp [text_zero]
  | k + 1, s, n => by
    rw [show k + 1 + n = (k + n) + 1 by omega, text_succ, text_succ, text_append mem k (s + 1) n, List.cons_append,
      show s + 1 + k = s + (k + 1) by omega]

theorem char_toNat_inj {c d : Char} : c.toNat = d.toNat ↔ c = d :=
  ⟨fun h => Char.ext (UInt32.toNat_inj.1 h), fun h => by rw [h]⟩

theorem memcmp_zero (mem : Memory) : ∀ (n p q : Nat), memcmp mem p q n = 0 ↔ Chunk.text mem ⟨p, n⟩ = Chunk.text mem ⟨q, n⟩
  | 0, p, q => by simp [memcmp, text_zero]
  | n + 1, p, q => by
    rw [memcmp, text_succ, text_succ]
    split
    · rename_i h; rw [memcmp_zero mem n]; simp [h]
    · rename_i h
      have : ¬ (mem p).toNat = (mem q).toNat := fun e => h (char_toNat_inj.1 e)
      constructor
      · intro e; omega
      · intro e; simp at e; exact absurd e.1 h

/-- **C72.** `HasPrefix`. -/
theorem hasPrefix_iff (mem : Memory) (c p : Chunk) : c.hasPrefix mem p = true ↔ p.text mem <+: c.text mem := by
  simp only [Chunk.hasPrefix, Bool.and_eq_true, decide_eq_true_eq, memcmp_zero]
  constructor
  · rintro ⟨h1, h2⟩
    have := text_append mem p.n c.s (c.n - p.n)
    rw [show p.n + (c.n - p.n) = c.n by omega] at this
    refine ⟨Chunk.text mem ⟨c.s + p.n, c.n - p.n⟩, ?_⟩
    rw [show c.text mem = Chunk.text mem ⟨c.s, c.n⟩ from rfl, this, h2]
  · rintro ⟨t, e⟩
    have hl := congrArg List.length e
    rw [List.length_append, text_length, text_length] at hl
    refine ⟨by omega, ?_⟩
    have := text_append mem p.n c.s (c.n - p.n)
    rw [show p.n + (c.n - p.n) = c.n by omega] at this
    rw [show c.text mem = Chunk.text mem ⟨c.s, c.n⟩ from rfl, this] at e
    exact ((List.append_inj e (by rw [text_length, text_length])).1).symm

/-- **C72.** `ExpungePrefix`, for chunks that end with a zero: returns false if `p` is not a prefix, otherwise the rest. -/
theorem expungePrefix_spec (mem : Memory) (c p : Chunk) (hz : mem (c.s + c.n) = '\x00') :
    (¬ p.text mem <+: c.text mem ∧ c.expungePrefix mem p = some none) ∨
    ∃ r, c.expungePrefix mem p = some (some r) ∧ c.text mem = p.text mem ++ r.text mem ∧ mem (r.s + r.n) = '\x00' := by
  by_cases h : c.hasPrefix mem p = true
  · right
    have h' := h
    simp only [Chunk.hasPrefix, Bool.and_eq_true, decide_eq_true_eq, memcmp_zero] at h'
    refine ⟨⟨c.s + p.n, c.n - p.n⟩, ?_, ?_, ?_⟩
    · rw [Chunk.expungePrefix, if_pos h, Chunk.assign, if_pos (by rw [show c.s + p.n + (c.n - p.n) = c.s + c.n by omega]; exact hz)]
      rfl
    · have := text_append mem p.n c.s (c.n - p.n)
      rw [show p.n + (c.n - p.n) = c.n by omega, h'.2] at this
      exact this
    · rw [show c.s + p.n + (c.n - p.n) = c.s + c.n by omega]; exact hz
  · left
    refine ⟨fun hp => h ((hasPrefix_iff mem c p).2 hp), ?_⟩
    rw [Chunk.expungePrefix, if_neg h]

/-- A chunk made of two pointers need not end with a zero: then finding the prefix ends the program. -/
theorem expungePrefix_aborts (mem : Memory) (c p : Chunk) (hp : p.text mem <+: c.text mem) (hz : mem (c.s + c.n) ≠ '\x00') :
    c.expungePrefix mem p = none := by
  have h := (hasPrefix_iff mem c p).2 hp
  have h' := h
  simp only [Chunk.hasPrefix, Bool.and_eq_true, decide_eq_true_eq] at h'
  rw [Chunk.expungePrefix, if_pos h, Chunk.assign, if_neg (by rw [show c.s + p.n + (c.n - p.n) = c.s + c.n by omega]; exact hz)]
  rfl

theorem compare_text (mem : Memory) : ∀ (k a b s t : Nat), min a b = k →
    (Chunk.compare mem ⟨s, a⟩ ⟨t, b⟩ < 0 ↔ byteLt (Chunk.text mem ⟨s, a⟩) (Chunk.text mem ⟨t, b⟩)) ∧
    (Chunk.compare mem ⟨s, a⟩ ⟨t, b⟩ = 0 ↔ Chunk.text mem ⟨s, a⟩ = Chunk.text mem ⟨t, b⟩)
  | 0, 0, 0, s, t, h => by simp [Chunk.compare, memcmp, byteLt, text_zero]
  | 0, 0, b + 1, s, t, h => by simp [Chunk.compare, memcmp, byteLt, text_zero, text_succ]
  | 0, a + 1, 0, s, t, h => by simp [Chunk.compare, memcmp, byteLt, text_zero, text_succ]
  | k, a + 1, b + 1, s, t, h => by
    have ih := compare_text mem (min a b) a b (s + 1) (t + 1) rfl
    have hm : min (a + 1) (b + 1) = min a b + 1 := by omega
    rw [text_succ, text_succ]
    by_cases e : mem s = mem t
    · have hc : Chunk.compare mem ⟨s, a + 1⟩ ⟨t, b + 1⟩ = Chunk.compare mem ⟨s + 1, a⟩ ⟨t + 1, b⟩ := by
        simp only [Chunk.compare, hm, memcmp, e, if_true, Nat.add_lt_add_iff_right]
      rw [hc]
      refine ⟨ih.1.trans ?_, ih.2.trans (by simp [e])⟩
      simp only [byteLt, List.map_cons, List.cons_lt_cons_iff, e]
      simp
    · have hne : (mem s).toNat ≠ (mem t).toNat := fun h => e (char_toNat_inj.1 h)
      have hc : Chunk.compare mem ⟨s, a + 1⟩ ⟨t, b + 1⟩ = (mem s).toNat - (mem t).toNat := by
        simp only [Chunk.compare, hm, memcmp, e, if_false]
        rw [if_pos (by omega)]
      rw [hc]
      constructor
      · simp only [byteLt, List.map_cons, List.cons_lt_cons_iff]
        constructor
        · intro h; left; omega
        · rintro (h | h)
          · omega
          · exact absurd h.1 hne
      · constructor
        · intro h; omega
        · intro h; simp at h; exact absurd h.1 e

/-- **C72.** `LexicographicalComparator` is the lexicographical order of the bytes, `EqualityComparator` is equality of the texts. -/
theorem compare_spec (mem : Memory) (l r : Chunk) :
    (l.compare mem r < 0 ↔ byteLt (l.text mem) (r.text mem)) ∧ (l.compare mem r = 0 ↔ l.text mem = r.text mem) :=
  compare_text mem _ l.n r.n l.s r.s rfl

theorem byteLt_total (a b : Str) : byteLt a b ∨ a = b ∨ byteLt b a := by
  induction a generalizing b with
  | nil => cases b <;> simp [byteLt]
  | cons c a ih =>
    cases b with
    | nil => simp [byteLt]
    | cons d b =>
      simp only [byteLt, List.map_cons, List.cons_lt_cons_iff] at *
      rcases Nat.lt_trichotomy c.toNat d.toNat with h | h | h
      · exact .inl (.inl h)
      · rcases ih b with h' | h' | h'
        · exact .inl (.inr ⟨h, h'⟩)
        · exact .inr (.inl (by rw [char_toNat_inj.1 h, h']))
        · exact .inr (.inr (.inr ⟨h.symm, h'⟩))
      · exact .inr (.inr (.inl h))

/-- **C72.** Of two chunks, one is smaller, or they have the same text: the comparators order chunks totally. -/
theorem compare_total (mem : Memory) (l r : Chunk) : l.compare mem r < 0 ∨ l.text mem = r.text mem ∨ r.compare mem l < 0 := by
  rw [(compare_spec mem l r).1, (compare_spec mem r l).1]
  exact byteLt_total _ _

/-! ### ChunkDB -/

/-- The entries of the database: the key is the chunk of the object, and no two have the same text. -/
structure DBOk (mem : Memory) (heap : Nat → Chunk) (db : ChunkDB) : Prop where
  keys : ∀ e ∈ db, e.1 = heap e.2
  unique : ∀ e ∈ db, ∀ f ∈ db, e.1.text mem = f.1.text mem → e = f

theorem find?_some {mem : Memory} {heap : Nat → Chunk} {db : ChunkDB} (h : DBOk mem heap db) {key : Chunk} {r : Nat} :
    db.find? mem key = some r ↔ (heap r, r) ∈ db ∧ (heap r).text mem = key.text mem := by
  constructor
  · intro hf
    unfold ChunkDB.find? at hf
    cases hc : List.find? (fun e => decide (Chunk.compare mem e.1 key = 0)) db with
    | none => rw [hc] at hf; cases hf
    | some e =>
      rw [hc] at hf
      simp at hf
      have hm := List.mem_of_find?_eq_some hc
      have hp := List.find?_some hc
      simp only [decide_eq_true_eq, (compare_spec mem e.1 key).2] at hp
      have hk := h.keys e hm
      subst hf
      rw [hk] at hp
      have : e = (heap e.2, e.2) := by rw [← hk]
      exact ⟨this ▸ hm, hp⟩
  · rintro ⟨hm, ht⟩
    unfold ChunkDB.find?
    cases hc : List.find? (fun e => decide (Chunk.compare mem e.1 key = 0)) db with
    | none =>
      have := List.find?_eq_none.1 hc (heap r, r) hm
      simp only [decide_eq_true_eq, (compare_spec mem _ key).2] at this
      exact absurd ht this
    | some e =>
      have hm' := List.mem_of_find?_eq_some hc
      have hp := List.find?_some hc
      simp only [decide_eq_true_eq, (compare_spec mem e.1 key).2] at hp
      have := h.unique e hm' (heap r, r) hm (hp.trans ht.symm)
      rw [this]; rfl

theorem find?_none {mem : Memory} {db : ChunkDB} {key : Chunk} :
    db.find? mem key = none ↔ ∀ e ∈ db, e.1.text mem ≠ key.text mem := by
  unfold ChunkDB.find?
  rw [Option.map_eq_none_iff, List.find?_eq_none]
  constructor
  · intro h e he ht; exact h e he (by simp [(compare_spec mem e.1 key).2, ht])
  · intro h e he hp
    simp only [decide_eq_true_eq, (compare_spec mem e.1 key).2] at hp
    exact h e he hp

theorem fromConstChunk_ok {mem : Memory} {heap : Nat → Chunk} {db : ChunkDB} (h : DBOk mem heap db) (o : Nat) :
    DBOk mem heap (db.fromConstChunk mem heap o).1 ∧ (∀ e ∈ db, e ∈ (db.fromConstChunk mem heap o).1) ∧
    (heap (db.fromConstChunk mem heap o).2, (db.fromConstChunk mem heap o).2) ∈ (db.fromConstChunk mem heap o).1 ∧
    (heap (db.fromConstChunk mem heap o).2).text mem = (heap o).text mem ∧
    (∀ e ∈ (db.fromConstChunk mem heap o).1, e ∈ db ∨ e.2 = o) := by
  unfold ChunkDB.fromConstChunk
  split
  · rename_i r hr
    have := (find?_some h).1 hr
    exact ⟨h, fun e he => he, this.1, this.2, fun e he => .inl he⟩
  · rename_i hn
    have hn' := find?_none.1 hn
    refine ⟨⟨?_, ?_⟩, fun e he => by simp [he], by simp, rfl, ?_⟩
    · intro e he
      simp at he
      rcases he with he | rfl
      · exact h.keys e he
      · rfl
    · intro e he f hf ht
      simp only [List.mem_append, List.mem_singleton] at he hf
      rcases he with he | rfl <;> rcases hf with hf | rfl
      · exact h.unique e he f hf ht
      · exact absurd ht (hn' e he)
      · exact absurd ht.symm (hn' f hf)
      · rfl
    · intro e he
      simp at he
      rcases he with he | rfl
      · exact .inl he
      · exact .inr rfl

theorem run_ok {mem : Memory} {heap : Nat → Chunk} : ∀ (os : List Nat) (db : ChunkDB), DBOk mem heap db →
    DBOk mem heap (ChunkDB.run mem heap os db).1 ∧ (∀ e ∈ db, e ∈ (ChunkDB.run mem heap os db).1) ∧
    (ChunkDB.run mem heap os db).2.length = os.length ∧
    (∀ i, ∀ h : i < os.length, ∀ h' : i < (ChunkDB.run mem heap os db).2.length,
      (heap (ChunkDB.run mem heap os db).2[i], (ChunkDB.run mem heap os db).2[i]) ∈ (ChunkDB.run mem heap os db).1 ∧
      (heap (ChunkDB.run mem heap os db).2[i]).text mem = (heap os[i]).text mem) ∧
    (∀ e ∈ (ChunkDB.run mem heap os db).1, e ∈ db ∨ e.2 ∈ os)
  | [], db, h => ⟨h, fun e he => he, rfl, fun i h => by simp at h, fun e he => .inl he⟩
  | o :: os, db, h => by
    obtain ⟨h1, h2, h3, h4, h5⟩ := fromConstChunk_ok h o
    obtain ⟨g1, g2, g3, g4, g5⟩ := run_ok os (db.fromConstChunk mem heap o).1 h1
    refine ⟨g1, fun e he => g2 e (h2 e he), by simp [ChunkDB.run, g3], ?_, ?_⟩
    · intro i hi hi'
      cases i with
      | zero => exact ⟨g2 _ h3, h4⟩
      | succ i => exact g4 i (by simpa using hi) (by simpa [ChunkDB.run] using hi')
    · intro e he
      rcases g5 e he with h | h
      · rcases h5 e h with h | h
        · exact .inl h
        · exact .inr (by simp [h])
      · exact .inr (by simp [h])

theorem dbok_nil (mem : Memory) (heap : Nat → Chunk) : DBOk mem heap [] := ⟨by simp, by simp⟩

/-- **C72.** Whatever the calls, two of them return the same object exactly if the texts are equal, and the object has the text asked for. -/
theorem interned (mem : Memory) (heap : Nat → Chunk) (os : List Nat) (i j : Nat) (hi : i < os.length) (hj : j < os.length)
    {ri rj : Nat} (ei : (ChunkDB.run mem heap os []).2[i]? = some ri) (ej : (ChunkDB.run mem heap os []).2[j]? = some rj) :
    (heap ri).text mem = (heap os[i]).text mem ∧ (ri = rj ↔ (heap os[i]).text mem = (heap os[j]).text mem) := by
  obtain ⟨g1, _, g3, g4, _⟩ := run_ok os [] (dbok_nil mem heap)
  have hi' : i < (ChunkDB.run mem heap os []).2.length := by omega
  have hj' : j < (ChunkDB.run mem heap os []).2.length := by omega
  rw [List.getElem?_eq_getElem hi'] at ei
  rw [List.getElem?_eq_getElem hj'] at ej
  simp only [Option.some.injEq] at ei ej
  have a := g4 i hi hi'
  have b := g4 j hj hj'
  rw [ei] at a
  rw [ej] at b
  refine ⟨a.2, ?_⟩
  constructor
  · intro e; rw [← a.2, ← b.2, e]
  · intro e
    have := g1.unique _ a.1 _ b.1 (by rw [a.2, b.2, e])
    exact congrArg Prod.snd this

/-- **C72 (partial).** Comparing the results with `==` compares the texts, if no two of the chunks start at the same address with different
lengths. What is missing: see `unique_chunks_confused`. -/
theorem unique_eq_partial (mem : Memory) (heap : Nat → Chunk) (os : List Nat) (i j : Nat) (hi : i < os.length) (hj : j < os.length)
    {ri rj : Nat} (ei : (ChunkDB.run mem heap os []).2[i]? = some ri) (ej : (ChunkDB.run mem heap os []).2[j]? = some rj)
    (hs : ∀ a ∈ os, ∀ b ∈ os, (heap a).s = (heap b).s → (heap a).n = (heap b).n) :
    uniqueEq (heap ri) (heap rj) = true ↔ (heap os[i]).text mem = (heap os[j]).text mem := by
  obtain ⟨g1, _, g3, g4, g5⟩ := run_ok os [] (dbok_nil mem heap)
  have hi' : i < (ChunkDB.run mem heap os []).2.length := by omega
  have hj' : j < (ChunkDB.run mem heap os []).2.length := by omega
  have a := g4 i hi hi'
  have b := g4 j hj hj'
  have key := interned mem heap os i j hi hj ei ej
  rw [List.getElem?_eq_getElem hi'] at ei
  rw [List.getElem?_eq_getElem hj'] at ej
  simp only [Option.some.injEq] at ei ej
  rw [ei] at a
  rw [ej] at b
  have ma : ri ∈ os := by rcases g5 _ a.1 with h | h; simp at h; exact h
  have mb : rj ∈ os := by rcases g5 _ b.1 with h | h; simp at h; exact h
  simp only [uniqueEq, decide_eq_true_eq]
  constructor
  · intro e
    have hc : heap ri = heap rj := by
      have := hs ri ma rj mb e
      cases h1 : heap ri; cases h2 : heap rj
      rw [h1, h2] at e this
      simp at e this
      rw [e, this]
    rw [← a.2, ← b.2, hc]
  · intro e
    rw [key.2.2 e]

/-- `Find` finds exactly the texts that were added, and gives the stored chunk. -/
theorem find_spec (mem : Memory) (heap : Nat → Chunk) (os : List Nat) (key : Chunk) :
    ((ChunkDB.run mem heap os []).1.find mem heap key = none ↔ ∀ o ∈ os, (heap o).text mem ≠ key.text mem) ∧
    ∀ c, (ChunkDB.run mem heap os []).1.find mem heap key = some c → c.text mem = key.text mem := by
  obtain ⟨g1, _, g3, g4, g5⟩ := run_ok os [] (dbok_nil mem heap)
  constructor
  · rw [ChunkDB.find, Option.map_eq_none_iff, find?_none]
    constructor
    · intro h o ho
      obtain ⟨i, hi, rfl⟩ := List.getElem_of_mem ho
      have := g4 i hi (by omega)
      rw [← this.2]
      exact h _ this.1
    · intro h e he
      rcases g5 e he with h' | h'
      · simp at h'
      · rw [g1.keys e he]; exact h _ h'
  · intro c hc
    simp only [ChunkDB.find, Option.map_eq_some_iff] at hc
    obtain ⟨r, hr, rfl⟩ := hc
    exact ((find?_some g1).1 hr).2

/-- The comment says that `UniqueChunk` "doesn't have to consider `Chunk::N` at all", as chunks of different length have different objects; but `==`
compares the pointers to the bytes, not the objects. Two chunks that start at the same place, one a prefix of the other, are different chunks of
the database and compare as equal. -/
theorem unique_chunks_confused (mem : Memory) (s m n : Nat) (h : m ≠ n) :
    let heap : Nat → Chunk := fun o => if o = 0 then ⟨s, m⟩ else ⟨s, n⟩
    (ChunkDB.run mem heap [0, 1] []).2 = [0, 1] ∧ uniqueEq (heap 0) (heap 1) = true ∧ (heap 0).text mem ≠ (heap 1).text mem := by
  have hne : Chunk.text mem ⟨s, m⟩ ≠ Chunk.text mem ⟨s, n⟩ := by
    intro e
    have := congrArg List.length e
    rw [text_length, text_length] at this
    exact h this
  refine ⟨?_, by simp [uniqueEq], hne⟩
  have hc : Chunk.compare mem ⟨s, m⟩ ⟨s, n⟩ ≠ 0 := fun e => hne ((compare_spec mem ⟨s, m⟩ ⟨s, n⟩).2.1 e)
  simp [ChunkDB.run, ChunkDB.fromConstChunk, ChunkDB.find?, hc]

/-! ### Examples -/

/-- `f o o \0 f o o d \0` -/
def exampleMemory : Memory := fun i => ['f', 'o', 'o', '\x00', 'f', 'o', 'o', 'd', '\x00'].getD i '\x00'

example : (⟨4, 4⟩ : Chunk).hasPrefix exampleMemory ⟨0, 3⟩ = true ∧
    (⟨4, 4⟩ : Chunk).expungePrefix exampleMemory ⟨0, 3⟩ = some (some ⟨7, 1⟩) ∧ (⟨4, 4⟩ : Chunk).compare exampleMemory ⟨0, 3⟩ = 1 := by
  decide
/-- "foo", "food" and another "foo": the third call returns the first object. -/
example : (ChunkDB.run exampleMemory (fun o => if o = 0 then ⟨0, 3⟩ else if o = 1 then ⟨4, 4⟩ else ⟨4, 3⟩) [0, 1, 2] []).2 = [0, 1, 0] := by
  decide

end Current.Strings
