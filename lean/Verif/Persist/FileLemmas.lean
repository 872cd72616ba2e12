import Verif.Persist.FileModel
import Verif.Persist.Lemmas
import Verif.Persist.Codec
/-! Helper lemmas for the file persister. -/
namespace Current.Persist

variable {E : Type}

def unlines (ls : List Str) : Str := ls.flatMap (· ++ ['\n'])

@[simp] theorem unlines_nil : unlines [] = [] := rfl
@[simp] theorem unlines_cons (l : Str) (ls : List Str) : unlines (l :: ls) = l ++ '\n' :: unlines ls := by
  simp [unlines]
@[simp] theorem unlines_append (a b : List Str) : unlines (a ++ b) = unlines a ++ unlines b := by
  simp [unlines]

def NoNl (ls : List Str) : Prop := ∀ l ∈ ls, '\n' ∉ l

theorem NoNl.append {a b : List Str} (ha : NoNl a) (hb : NoNl b) : NoNl (a ++ b) := by
  intro l hl; simp at hl; rcases hl with h | h
  · exact ha l h
  · exact hb l h

theorem NoNl.single {l : Str} (h : '\n' ∉ l) : NoNl [l] := by
  intro x hx; simp at hx; subst hx; exact h

theorem getLines_line (l r : Str) (h : '\n' ∉ l) : getLines (l ++ '\n' :: r) = l :: getLines r := by
  induction l with
  | nil => simp [getLines]
  | cons c l ih =>
    simp only [List.mem_cons, not_or] at h
    simp [getLines, Ne.symm h.1, ih h.2]

theorem getLines_last (l : Str) (h : '\n' ∉ l) (hne : l ≠ []) : getLines l = [l] := by
  induction l with
  | nil => exact absurd rfl hne
  | cons c l ih =>
    simp only [List.mem_cons, not_or] at h
    cases l with
    | nil => simp [getLines, Ne.symm h.1]
    | cons d l =>
      have := ih h.2 (by simp)
      rw [getLines, this]
      simp [Ne.symm h.1]

theorem getLines_unlines_append (ls : List Str) (r : Str) (h : NoNl ls) :
    getLines (unlines ls ++ r) = ls ++ getLines r := by
  induction ls with
  | nil => simp
  | cons l ls ih =>
    rw [unlines_cons, List.append_assoc, List.cons_append, getLines_line _ _ (h l (by simp)),
      ih (fun x hx => h x (by simp [hx]))]
    rfl

theorem getLines_unlines (ls : List Str) (h : NoNl ls) : getLines (unlines ls) = ls := by
  have := getLines_unlines_append ls [] h
  simpa [getLines] using this

theorem scanLines_append (k : Codec E) (sig : Str) (st : Scan) (a b : List Str) :
    scanLines k sig st (a ++ b) =
      match scanLines k sig st a with
      | .ok st' => scanLines k sig st' b
      | .error e => .error e := by
  induction a generalizing st with
  | nil => simp [scanLines]
  | cons l a ih =>
    simp only [List.cons_append, scanLines]
    cases scanLine k sig st l with
    | ok st' => simp [ih]
    | error e => simp

theorem scanLines_snoc {k : Codec E} {sig : Str} {st st' : Scan} {a : List Str}
    (h : scanLines k sig st a = .ok st') (l : Str) :
    scanLines k sig st (a ++ [l]) = scanLine k sig st' l := by
  rw [scanLines_append, h]
  simp only [scanLines]
  cases scanLine k sig st' l <;> rfl

/-- The entry a line carries, if it is an entry line. -/
def entryOf (k : Codec E) (line : Str) : Option (IdxTs × Str) :=
  if line.head? = some '#' then none
  else match splitTab line with
    | none => none
    | some (a, b) => (k.getIdx a).map (·, b)

def entryLines (k : Codec E) (ls : List Str) : List (IdxTs × Str) := ls.filterMap (entryOf k)

/-- The two ways a line passes validation. -/
theorem scanLine_ok {k : Codec E} {sig : Str} {st st' : Scan} {line : Str}
    (h : scanLine k sig st line = .ok st') :
    (line.head? = some '#' ∧ entryOf k line = none ∧ st'.next = st.next ∧ st'.recOffset = st.recOffset ∧
      st'.recTs = st.recTs ∧ st.head ≤ st'.head ∧ st'.offset = st.offset + line.length + 1) ∨
    (∃ x b, line.head? ≠ some '#' ∧ entryOf k line = some (x, b) ∧ x.index = st.next.index ∧ st.next.us ≤ x.us ∧
      st.head < x.us ∧
      st' = { offset := st.offset + line.length + 1, next := ⟨x.index + 1, x.us + 1⟩, head := x.us, headOffset := 0
              recOffset := st.recOffset ++ [st.offset], recTs := st.recTs ++ [x.us] }) := by
  simp only [scanLine] at h
  split at h
  · left
    rename_i t
    refine ⟨rfl, by simp [entryOf], ?_⟩
    split at h
    · split at h
      · injection h with h; subst h; simp; omega
      · simp at h
    · split at h
      · split at h
        · simp at h
        · split at h
          · injection h with h; subst h; simp
          · simp at h
      · injection h with h; subst h; simp
  · right
    rename_i hne
    have hne' : line.head? ≠ some '#' := by
      intro hc
      cases line with
      | nil => simp at hc
      | cons c t => simp at hc; subst hc; exact hne t rfl
    split at h
    · simp at h
    · rename_i a b hab
      split at h
      · simp at h
      · rename_i cur hcur
        split at h
        · simp at h
        · rename_i hi
          split at h
          · simp at h
          · rename_i hu
            split at h
            · simp at h
            · rename_i hh
              injection h with h
              refine ⟨cur, b, hne', by simp [entryOf, hne', hab, hcur], by simpa using hi, by omega, ?_, h.symm⟩
              simpa using hh

structure ScanInv (k : Codec E) (ls : List Str) (st : Scan) : Prop where
  offset : st.offset = (unlines ls).length
  nextIndex : st.next.index = (entryLines k ls).length
  offLen : st.recOffset.length = (entryLines k ls).length
  recTs : st.recTs = (entryLines k ls).map (·.1.us)
  indexes : (entryLines k ls).map (·.1.index) = List.range (entryLines k ls).length
  sorted : st.recTs.Pairwise (· < ·)
  lt_next : ∀ t ∈ st.recTs, t < st.next.us
  next_le : st.next.us ≤ st.head + 1
  next_nonneg : 0 ≤ st.next.us
  ts_nonneg : ∀ t ∈ st.recTs, 0 ≤ t
  lastUs : ∀ t, st.recTs.getLast? = some t → st.next.us = t + 1
  noneUs : st.recTs = [] → st.next.us = 0
  dirs : ∀ l ∈ ls, l.head? = some '#' ∨ (entryOf k l).isSome
  offs : ∀ i (h : i < st.recOffset.length), ∃ ls₁ l ls₂, ls = ls₁ ++ l :: ls₂ ∧
    st.recOffset[i] = (unlines ls₁).length ∧ (entryLines k ls₁).length = i ∧ (entryOf k l).isSome

theorem ScanInv.init (k : Codec E) : ScanInv k [] .init := by
  constructor <;> simp [Scan.init, entryLines]

theorem ScanInv.step {k : Codec E} {sig : Str} {ls : List Str} {st st' : Scan} {line : Str}
    (h : ScanInv k ls st) (hs : scanLine k sig st line = .ok st') : ScanInv k (ls ++ [line]) st' := by
  rcases scanLine_ok hs with ⟨hh, he, h1, h2, h3, h4, h5⟩ | ⟨x, b, hh, he, h1, h2, h3, rfl⟩
  · have hel : entryLines k (ls ++ [line]) = entryLines k ls := by simp [entryLines, he]
    refine ⟨?_, ?_, ?_, ?_, ?_, ?_, ?_, ?_, ?_, ?_, ?_, ?_, ?_, ?_⟩
    · rw [h5, h.offset]; simp; omega
    · rw [h1, hel]; exact h.nextIndex
    · rw [h2, hel]; exact h.offLen
    · rw [h3, hel]; exact h.recTs
    · rw [hel]; exact h.indexes
    · rw [h3]; exact h.sorted
    · rw [h3, h1]; exact h.lt_next
    · rw [h1]; have := h.next_le; omega
    · rw [h1]; exact h.next_nonneg
    · rw [h3]; exact h.ts_nonneg
    · rw [h3, h1]; exact h.lastUs
    · rw [h3, h1]; exact h.noneUs
    · intro l hl; simp at hl; rcases hl with hl | rfl
      · exact h.dirs l hl
      · exact .inl hh
    · intro i hi
      simp only [h2] at hi ⊢
      obtain ⟨a, l, c, e1, e2, e3⟩ := h.offs i hi
      exact ⟨a, l, c ++ [line], by simp [e1], e2, e3⟩
  · have hel : entryLines k (ls ++ [line]) = entryLines k ls ++ [(x, b)] := by simp [entryLines, he]
    refine ⟨?_, ?_, ?_, ?_, ?_, ?_, ?_, ?_, ?_, ?_, ?_, ?_, ?_, ?_⟩
    · simp only [h.offset]; simp; omega
    · rw [hel]; simp [h1, h.nextIndex]
    · rw [hel]; simp [h.offLen]
    · rw [hel]; simp [h.recTs]
    · rw [hel]; simp [h.indexes, List.range_succ, h1, h.nextIndex]
    · simp only [List.pairwise_append, h.sorted, true_and, List.pairwise_singleton]
      intro a ha c hc; simp at hc; subst hc
      have := h.lt_next a ha; omega
    · intro t ht; simp at ht; rcases ht with ht | rfl
      · have := h.lt_next t ht; simp; omega
      · simp; omega
    · simp
    · have := h.next_nonneg; simp; omega
    · intro t ht; simp at ht; rcases ht with ht | rfl
      · exact h.ts_nonneg t ht
      · have := h.next_nonneg; omega
    · intro t ht; simp at ht; subst ht; rfl
    · simp
    · intro l hl; simp at hl; rcases hl with hl | rfl
      · exact h.dirs l hl
      · right; simp [he]
    · intro i hi
      simp only [List.length_append, List.length_cons, List.length_nil] at hi
      by_cases hlt : i < st.recOffset.length
      · obtain ⟨a, l, c, e1, e2, e3⟩ := h.offs i hlt
        refine ⟨a, l, c ++ [line], by simp [e1], ?_, e3⟩
        simp only [List.getElem_append_left hlt]; exact e2
      · have : i = st.recOffset.length := by omega
        subst this
        refine ⟨ls, line, [], rfl, ?_, h.offLen.symm, by simp [he]⟩
        simp [h.offset]

theorem ScanInv.lines {k : Codec E} {sig : Str} {pre ls : List Str} {st st' : Scan}
    (h : ScanInv k pre st) (hs : scanLines k sig st ls = .ok st') : ScanInv k (pre ++ ls) st' := by
  induction ls generalizing pre st with
  | nil => simp [scanLines] at hs; subst hs; simpa
  | cons l ls ih =>
    simp only [scanLines] at hs
    split at hs
    · rename_i st₁ h₁
      have := ih (h.step h₁) hs
      simpa using this
    · simp at hs

theorem scan_inv {k : Codec E} {sig : Str} {ls : List Str} {st : Scan}
    (hs : scanLines k sig .init ls = .ok st) : ScanInv k ls st := by
  have := (ScanInv.init k).lines hs
  simpa using this

/-! ### Reading back -/

/-- `ls` holds the entries `es`, numbered from `next.index`, and nothing but directives besides. -/
inductive Clean (k : Codec E) : IdxTs → List Str → List (IdxTs × E) → Prop
  | nil (next) : Clean k next [] []
  | dir {next line ls es} : line.head? = some '#' → Clean k next ls es → Clean k next (line :: ls) es
  | entry {next line ls es cur b e} : line.head? ≠ some '#' → entryOf k line = some (cur, b) →
      cur.index = next.index → next.us ≤ cur.us → k.get b = some e →
      Clean k ⟨cur.index + 1, cur.us + 1⟩ ls es → Clean k next (line :: ls) ((cur, e) :: es)

theorem Clean.weaken {k : Codec E} {next next' : IdxTs} {ls : List Str} {es : List (IdxTs × E)}
    (h : Clean k next ls es) (h1 : next'.index = next.index) (h2 : next'.us ≤ next.us) :
    Clean k next' ls es := by
  induction h generalizing next' with
  | nil => exact .nil _
  | dir hl _ ih => exact .dir hl (ih h1 h2)
  | entry hl he hi hu hg hc ih => exact .entry hl he (by omega) (by omega) hg hc

theorem Clean.append_dir {k : Codec E} {next : IdxTs} {ls : List Str} {es : List (IdxTs × E)} {line : Str}
    (h : Clean k next ls es) (hl : line.head? = some '#') : Clean k next (ls ++ [line]) es := by
  induction h with
  | nil => exact .dir hl (.nil _)
  | dir hd _ ih => exact .dir hd ih
  | entry hl' he hi hu hg _ ih => exact .entry hl' he hi hu hg ih

theorem Clean.append_entry {k : Codec E} {next : IdxTs} {ls : List Str} {es : List (IdxTs × E)} {line : Str}
    {cur : IdxTs} {b : Str} {e : E}
    (h : Clean k next ls es) (hl : line.head? ≠ some '#') (he : entryOf k line = some (cur, b))
    (hi : cur.index = next.index + es.length) (hu : next.us ≤ cur.us) (hlast : ∀ x ∈ es, x.1.us < cur.us)
    (hg : k.get b = some e) : Clean k next (ls ++ [line]) (es ++ [(cur, e)]) := by
  induction h with
  | nil => exact .entry hl he (by simpa using hi) hu hg (.nil _)
  | dir hd _ ih => exact .dir hd (ih hi hu hlast)
  | @entry nx ln ls' es' cur' b' e' hl' he' hi' hu' hg' _ ih =>
    refine .entry hl' he' hi' hu' hg' (ih ?_ ?_ ?_)
    · simp at hi ⊢; omega
    · have := hlast (cur', e') (by simp); simp at this ⊢; omega
    · intro x hx; exact hlast x (by simp [hx])

theorem Clean.entries {k : Codec E} {next : IdxTs} {ls : List Str} {es : List (IdxTs × E)}
    (h : Clean k next ls es) : (entryLines k ls).map (fun p => (p.1, k.get p.2)) =
      es.map (fun p => (p.1, some p.2)) := by
  induction h with
  | nil => simp [entryLines]
  | @dir nx ln ls' es' hd hc ih =>
    have : entryOf k ln = none := by simp [entryOf, hd]
    simpa [entryLines, this] using ih
  | entry hl he hi hu hg hc ih =>
    simp only [entryLines, List.filterMap_cons, he, List.map_cons, hg]
    rw [← ih]; rfl

theorem fetch_clean {k : Codec E} {next : IdxTs} {ls : List Str} {cur : IdxTs} {e : E} {es : List (IdxTs × E)}
    (h : Clean k next ls ((cur, e) :: es)) :
    cur.index = next.index ∧
    ∃ ls', fetch k next.index next ls = .ok ((cur, e), ⟨cur.index + 1, cur.us + 1⟩, ls') ∧
      Clean k ⟨cur.index + 1, cur.us + 1⟩ ls' es := by
  generalize hfull : (cur, e) :: es = full at h
  induction h with
  | nil => simp at hfull
  | @dir nx ln ls' es' hd hc ih =>
    obtain ⟨h1, ls'', h2, h3⟩ := ih hfull
    refine ⟨h1, ls'', ?_, h3⟩
    cases ln with
    | nil => simp at hd
    | cons c t => simp at hd; subst hd; rw [fetch]; exact h2
  | @entry nx ln ls' es' cur' b' e' hl' he' hi' hu' hg' hc ih =>
    simp only [List.cons.injEq, Prod.mk.injEq] at hfull
    obtain ⟨⟨rfl, rfl⟩, rfl⟩ := hfull
    refine ⟨hi', ls', ?_, hc⟩
    have hnt : ∀ t, ln ≠ '#' :: t := by intro t ht; subst ht; simp at hl'
    simp only [entryOf, hl', if_false] at he'
    cases hst : splitTab ln with
    | none => simp [hst] at he'
    | some ab =>
      obtain ⟨a, b⟩ := ab
      simp only [hst, Option.map_eq_some_iff, Prod.mk.injEq] at he'
      obtain ⟨c, hc1, rfl, rfl⟩ := he'
      unfold fetch
      split
      · rename_i t; exact absurd rfl (hnt t)
      · rw [hst]
        simp only [hc1]
        rw [if_neg (by simp [hi']), if_neg (by omega), if_pos hi', hg']

theorem fetchMany_clean {k : Codec E} {next : IdxTs} {ls : List Str} {es : List (IdxTs × E)}
    (h : Clean k next ls es) (n : Nat) (hn : n ≤ es.length) :
    fetchMany k next.index n next ls = .ok (es.take n) := by
  induction n generalizing next ls es with
  | zero => simp [fetchMany]
  | succ n ih =>
    cases es with
    | nil => simp at hn
    | cons x es =>
      obtain ⟨cur, e⟩ := x
      obtain ⟨h1, ls', h2, h3⟩ := fetch_clean h
      have := ih h3 (by simpa using hn)
      simp only at this
      simp only [fetchMany, h2]
      rw [← h1, this]
      rfl

/-- Dropping whole lines up to an entry. -/
theorem Clean.drop {k : Codec E} {next : IdxTs} {ls₁ ls₂ : List Str} {es : List (IdxTs × E)}
    (h : Clean k next (ls₁ ++ ls₂) es) :
    ∃ u, 0 ≤ u - next.us ∧ Clean k ⟨next.index + (entryLines k ls₁).length, u⟩ ls₂
      (es.drop (entryLines k ls₁).length) := by
  induction ls₁ generalizing next es with
  | nil => exact ⟨next.us, by omega, by simpa [entryLines] using h⟩
  | cons l ls₁ ih =>
    rw [List.cons_append] at h
    generalize hcons : l :: (ls₁ ++ ls₂) = full at h
    cases h with
    | nil => simp at hcons
    | @dir _ ln ls' _ hd hc =>
      simp only [List.cons.injEq] at hcons
      obtain ⟨rfl, rfl⟩ := hcons
      have hn : entryOf k l = none := by simp [entryOf, hd]
      obtain ⟨u, h1, h2⟩ := ih hc
      exact ⟨u, h1, by simpa [entryLines, hn] using h2⟩
    | @entry _ ln ls' es' cur b e hl he hi hu hg hc =>
      simp only [List.cons.injEq] at hcons
      obtain ⟨rfl, rfl⟩ := hcons
      obtain ⟨u, h1, h2⟩ := ih hc
      refine ⟨u, by simp at h1; omega, ?_⟩
      have : entryLines k (l :: ls₁) = (cur, b) :: entryLines k ls₁ := by simp [entryLines, he]
      rw [this]
      simp only [List.length_cons, List.drop_succ_cons]
      have e1 : next.index + ((entryLines k ls₁).length + 1) = cur.index + 1 + (entryLines k ls₁).length := by omega
      rw [e1]; exact h2

/-! ### The head directive -/

theorem headFmt_digits {us : Int} {c : Char} (h : c ∈ headFmt us) : c.isDigit = true := by
  simp only [headFmt, List.mem_append, List.mem_replicate] at h
  rcases h with ⟨_, rfl⟩ | h
  · decide
  · exact dec_isDigit h

theorem headFmt_length {us : Int} (h : us < 2 ^ 63) : (headFmt us).length = 20 := by
  have : (Nat.toDigits 10 us.toNat).length ≤ 20 := by
    rw [Nat.length_toDigits_le_iff (by decide) (by decide)]
    have : us.toNat < 2 ^ 63 := by omega
    omega
  simp [headFmt]; omega

theorem headFmt_value (us : Int) : Nat.ofDigitChars 10 (headFmt us) 0 = us.toNat := by
  simp [headFmt, Nat.ofDigitChars_append]

theorem takeWhile_all {α : Type} (p : α → Bool) (l : List α) (h : ∀ x ∈ l, p x = true) :
    l.takeWhile p = l := by
  induction l with
  | nil => rfl
  | cons a l ih => simp [h a (by simp), ih (fun x hx => h x (by simp [hx]))]

theorem headFmt_ne_nil {us : Int} (h : us < 2 ^ 63) : headFmt us ≠ [] := by
  intro hc; have := headFmt_length h; rw [hc] at this; simp at this

theorem fromString_digits (s : Str) (hd : ∀ c ∈ s, c.isDigit = true) (hne : s ≠ []) :
    fromStringInt64 s =
      if Nat.ofDigitChars 10 s 0 < 2 ^ 63 then (Nat.ofDigitChars 10 s 0 : Int) else 0 := by
  unfold fromStringInt64
  split
  rename_i neg s' hm
  have : neg = false ∧ s' = s := by
    split at hm
    · have := hd '-' (by simp); exact absurd this (by decide)
    · have := hd '+' (by simp); exact absurd this (by decide)
    · simp at hm; exact ⟨hm.1, hm.2.symm⟩
  obtain ⟨rfl, rfl⟩ := this
  rw [takeWhile_all _ _ hd]
  simp [hne]

theorem fromString_headFmt {us : Int} (h0 : 0 ≤ us) (h : us < 2 ^ 63) : fromStringInt64 (headFmt us) = us := by
  rw [fromString_digits _ (fun c hc => headFmt_digits hc) (headFmt_ne_nil h), headFmt_value]
  rw [if_pos (by omega)]
  omega

def headText (us : Int) : Str := kHead ++ [' '] ++ headFmt us

theorem digit_not_space {c : Char} (h : c.isDigit = true) : isSpace c = false := by
  simp only [isSpace, Bool.or_eq_false_iff, decide_eq_false_iff_not]
  refine ⟨⟨⟨⟨⟨?_, ?_⟩, ?_⟩, ?_⟩, ?_⟩, ?_⟩ <;> (intro hc; subst hc; revert h; decide)

theorem headText_nl (us : Int) : '\n' ∉ headText us := by
  intro h
  simp only [headText, List.mem_append] at h
  rcases h with (h | h) | h
  · revert h; decide
  · revert h; decide
  · have := headFmt_digits h; revert this; decide

theorem scanLine_digits (k : Codec E) (sig : Str) (st : Scan) (ds : Str)
    (hd : ∀ c ∈ ds, c.isDigit = true) :
    scanLine k sig st (kHead ++ [' '] ++ ds) =
      if fromStringInt64 ds > st.head then
        .ok { st with offset := st.offset + (kHead ++ [' '] ++ ds).length + 1, head := fromStringInt64 ds,
                      headOffset := st.offset + kHead.length + 1 }
      else .error (.inconsistentTimestamp (st.head + 1) (fromStringInt64 ds)) := by
  have e1 : (kHead ++ [' '] ++ ds) = '#' :: (['h','e','a','d',' '] ++ ds) := rfl
  have e2 : kHead.isPrefixOf ('#' :: (['h','e','a','d',' '] ++ ds)) = true := by
    simp [kHead, List.isPrefixOf]
  have e3 : List.drop kHead.length ('#' :: (['h','e','a','d',' '] ++ ds)) = ' ' :: ds := rfl
  have sp : isSpace ' ' = true := by decide
  have e4 : List.takeWhile isSpace (' ' :: ds) = [' '] := by
    cases ds with
    | nil => simp [sp]
    | cons c t => simp [sp, digit_not_space (hd c (by simp))]
  have e5 : List.dropWhile isSpace (' ' :: ds) = ds := by
    cases ds with
    | nil => simp [sp]
    | cons c t => simp [sp, digit_not_space (hd c (by simp))]
  rw [e1]
  simp only [scanLine, e2, if_true, e3, e4, e5, List.length_singleton]

theorem scanLine_head (k : Codec E) (sig : Str) (st : Scan) {us : Int} (h0 : 0 ≤ us) (h : us < 2 ^ 63)
    (hh : us > st.head) :
    scanLine k sig st (headText us) =
      .ok { st with offset := st.offset + (headText us).length + 1, head := us,
                    headOffset := st.offset + kHead.length + 1 } := by
  rw [headText, scanLine_digits k sig st _ (fun c hc => headFmt_digits hc), fromString_headFmt h0 h, if_pos hh]

theorem headText_head (us : Int) : (headText us).head? = some '#' := rfl

/-! ### Signature -/

/-- `JSON(StreamSignature)`: a one-line JSON object. -/
structure SigOk (sig : Str) : Prop where
  brace : ∃ t, sig = '{' :: t
  noNl : '\n' ∉ sig

def sigText (sig : Str) : Str := kSignature ++ [' '] ++ sig

theorem scanLine_sig (k : Codec E) (sig : Str) (h : SigOk sig) :
    scanLine k sig .init (sigText sig) = .ok { Scan.init with offset := (sigText sig).length + 1 } := by
  obtain ⟨t, rfl⟩ := h.brace
  have e1 : sigText ('{' :: t) = '#' :: (['s','i','g','n','a','t','u','r','e',' '] ++ ('{' :: t)) := rfl
  have e2 : kHead.isPrefixOf ('#' :: (['s','i','g','n','a','t','u','r','e',' '] ++ ('{' :: t))) = false := by
    simp [kHead, List.isPrefixOf]
  have e3 : kSignature.isPrefixOf ('#' :: (['s','i','g','n','a','t','u','r','e',' '] ++ ('{' :: t))) = true := by
    simp [kSignature, List.isPrefixOf]
  have e4 : List.drop kSignature.length ('#' :: (['s','i','g','n','a','t','u','r','e',' '] ++ ('{' :: t))) =
      ' ' :: '{' :: t := rfl
  have e5 : List.dropWhile isSpace (' ' :: '{' :: t) = '{' :: t := by
    have : isSpace ' ' = true := by decide
    have h2 : isSpace '{' = false := by decide
    simp [this, h2]
  rw [e1]
  simp only [scanLine, e2, e3, if_true, e4, e5, List.take_length, Scan.init]
  simp

theorem sigText_nl {sig : Str} (h : SigOk sig) : '\n' ∉ sigText sig := by
  intro hc
  simp only [sigText, List.mem_append] at hc
  rcases hc with (hc | hc) | hc
  · revert hc; decide
  · revert hc; decide
  · exact h.noNl hc

end Current.Persist
