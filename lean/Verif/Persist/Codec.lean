import Verif.Persist.Model
/-!
What the file format relies on from JSON, and a concrete codec that satisfies it (so that theorems stated for
every lawful codec are not vacuous).
-/
namespace Current.Persist

variable {E : Type}

/-- The facts about `JSON`/`ParseJSON` the file format relies on: parsing inverts printing; `JSON(idxts_t)` is
a single-line object, starting with `{` (so not with the directive marker `#`) and holding no tab; no JSON starts with `#`; `JSON(entry)` has no
line break (RapidJSON escapes control characters). -/
structure Codec.Lawful (k : Codec E) : Prop where
  getIdx_putIdx : ∀ x, k.getIdx (k.putIdx x) = some x
  putIdx_head : ∀ x, ∃ t, k.putIdx x = '{' :: t
  putIdx_tab : ∀ x, '\t' ∉ k.putIdx x
  putIdx_nl : ∀ x, '\n' ∉ k.putIdx x
  getIdx_hash : ∀ s, k.getIdx ('#' :: s) = none
  get_put : ∀ e, k.get (k.put e) = some e
  put_nl : ∀ e, '\n' ∉ k.put e

/-- Decimal digits of a number, as `JSON` prints `uint64_t`. -/
def dec (n : Nat) : Str := Nat.toDigits 10 n

/-- Decimal rendering of a signed number. -/
def decInt : Int → Str
  | .ofNat n => dec n
  | .negSucc n => '-' :: dec (n + 1)

/-- Drops a literal prefix. -/
def stripPrefix : Str → Str → Option Str
  | [], s => some s
  | _ :: _, [] => none
  | p :: ps, c :: cs => if p = c then stripPrefix ps cs else none

/-- Reads a maximal run of digits, at least one. -/
def readNat (s : Str) : Option (Nat × Str) :=
  let ds := s.takeWhile Char.isDigit
  if ds = [] then none else some (Nat.ofDigitChars 10 ds 0, s.dropWhile Char.isDigit)

def readInt : Str → Option (Int × Str)
  | '-' :: s => (readNat s).map fun (n, r) => (-(n : Int), r)
  | s => (readNat s).map fun (n, r) => ((n : Int), r)

/-- `JSON(idxts_t)`: `CURRENT_STRUCT(IndexAndTimestamp)` has the two fields `index` and `us`, printed in this order
(`blocks/ss/idx_ts.h:48-54`, `typesystem/serialization/json`). -/
def jsonPutIdx (x : IdxTs) : Str :=
  ['{', '"', 'i', 'n', 'd', 'e', 'x', '"', ':'] ++ dec x.index ++ [',', '"', 'u', 's', '"', ':'] ++ decInt x.us ++ ['}']

/-- A parser for exactly the form `jsonPutIdx` prints. (The real `ParseJSON` accepts more; every theorem about the
file format quantifies over all lawful codecs, so it does not depend on what else is accepted.) -/
def jsonGetIdx (s : Str) : Option IdxTs := do
  let s ← stripPrefix ['{', '"', 'i', 'n', 'd', 'e', 'x', '"', ':'] s
  let (i, s) ← readNat s
  let s ← stripPrefix [',', '"', 'u', 's', '"', ':'] s
  let (u, s) ← readInt s
  let s ← stripPrefix ['}'] s
  if s = [] then some ⟨i, u⟩ else none

/-- A concrete codec for a log of numbers. -/
def natCodec : Codec Nat where
  putIdx := jsonPutIdx
  getIdx := jsonGetIdx
  put := dec
  get := fun s => match readNat s with
    | some (n, []) => some n
    | _ => none

theorem stripPrefix_append (p s : Str) : stripPrefix p (p ++ s) = some s := by
  induction p with
  | nil => rfl
  | cons a p ih => simp [stripPrefix, ih]

theorem dec_isDigit {n : Nat} {c : Char} (h : c ∈ dec n) : c.isDigit = true :=
  Nat.isDigit_of_mem_toDigits (by decide) (by decide) h

theorem dec_ne_nil (n : Nat) : dec n ≠ [] := Nat.toDigits_ne_nil

theorem takeWhile_dec (n : Nat) (s : Str) (hs : ∀ c, s.head? = some c → c.isDigit = false) :
    (dec n ++ s).takeWhile Char.isDigit = dec n ∧ (dec n ++ s).dropWhile Char.isDigit = s := by
  have key : ∀ l : Str, (∀ c ∈ l, c.isDigit = true) →
      (l ++ s).takeWhile Char.isDigit = l ∧ (l ++ s).dropWhile Char.isDigit = s := by
    intro l
    induction l with
    | nil =>
      intro _
      cases s with
      | nil => simp
      | cons c s => have := hs c rfl; simp [this]
    | cons a l ih =>
      intro h
      have ha := h a (by simp)
      have := ih (fun c hc => h c (by simp [hc]))
      simp [ha, this]
  exact key _ (fun c hc => dec_isDigit hc)

theorem readNat_dec (n : Nat) (s : Str) (hs : ∀ c, s.head? = some c → c.isDigit = false) :
    readNat (dec n ++ s) = some (n, s) := by
  obtain ⟨h1, h2⟩ := takeWhile_dec n s hs
  simp only [readNat, h1, h2, dec_ne_nil, if_false]
  simp [dec]

theorem dec_head_ne_minus (n : Nat) (s t : Str) : dec n ++ s ≠ '-' :: t := by
  intro h
  cases hd : dec n with
  | nil => exact dec_ne_nil n hd
  | cons c l =>
    rw [hd] at h
    simp at h
    have := dec_isDigit (n := n) (c := c) (by simp [hd])
    rw [h.1] at this
    exact absurd this (by decide)

theorem readInt_decInt (u : Int) (s : Str) (hs : ∀ c, s.head? = some c → c.isDigit = false) :
    readInt (decInt u ++ s) = some (u, s) := by
  cases u with
  | ofNat n =>
    simp only [decInt]
    unfold readInt
    split
    · rename_i t h; exact absurd h (dec_head_ne_minus n s t)
    · simp [readNat_dec n s hs]
  | negSucc n =>
    simp only [decInt, List.cons_append, readInt, readNat_dec (n + 1) s hs]
    simp [Int.negSucc_eq]

theorem jsonGetIdx_jsonPutIdx (x : IdxTs) : jsonGetIdx (jsonPutIdx x) = some x := by
  unfold jsonGetIdx jsonPutIdx
  simp only [List.append_assoc, stripPrefix_append, Option.bind_eq_bind, Option.bind_some]
  rw [readNat_dec _ _ (by intro c h; simp at h; subst h; decide)]
  simp only [stripPrefix_append, Option.bind_some]
  rw [readInt_decInt _ _ (by intro c h; simp at h; subst h; decide)]
  simp only [Option.bind_some]
  have : stripPrefix ['}'] ['}'] = some [] := by decide
  rw [this]
  rfl

theorem decInt_char {u : Int} {c : Char} (h : c ∈ decInt u) : c.isDigit = true ∨ c = '-' := by
  cases u with
  | ofNat n => exact .inl (dec_isDigit h)
  | negSucc n =>
    simp only [decInt, List.mem_cons] at h
    rcases h with h | h
    · exact .inr h
    · exact .inl (dec_isDigit h)

theorem jsonPutIdx_char {x : IdxTs} {c : Char} (h : c ∈ jsonPutIdx x) : c ≠ '\t' ∧ c ≠ '\n' := by
  simp only [jsonPutIdx, List.mem_append] at h
  have aux : ∀ c : Char, c.isDigit = true ∨ c = '-' → c ≠ '\t' ∧ c ≠ '\n' := by
    intro c hc
    constructor <;> (intro he; subst he; revert hc; decide)
  have l1 : ∀ c ∈ ['{', '"', 'i', 'n', 'd', 'e', 'x', '"', ':'], c ≠ '\t' ∧ c ≠ '\n' := by decide
  have l2 : ∀ c ∈ [',', '"', 'u', 's', '"', ':'], c ≠ '\t' ∧ c ≠ '\n' := by decide
  have l3 : ∀ c ∈ ['}'], c ≠ '\t' ∧ c ≠ '\n' := by decide
  rcases h with (((h | h) | h) | h) | h
  · exact l1 c h
  · exact aux c (.inl (dec_isDigit h))
  · exact l2 c h
  · exact aux c (decInt_char h)
  · exact l3 c h

theorem natCodec_lawful : natCodec.Lawful where
  getIdx_putIdx := jsonGetIdx_jsonPutIdx
  putIdx_head := fun x => ⟨_, rfl⟩
  putIdx_tab := fun x h => (jsonPutIdx_char h).1 rfl
  putIdx_nl := fun x h => (jsonPutIdx_char h).2 rfl
  getIdx_hash := by
    intro s; simp [natCodec, jsonGetIdx, stripPrefix]
  get_put := by
    intro e
    have := readNat_dec e [] (by simp)
    simp only [List.append_nil] at this
    simp [natCodec, this]
  put_nl := by
    intro e h
    have := dec_isDigit (n := e) h
    revert this; decide

end Current.Persist
