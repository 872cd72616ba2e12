import Verif.Persist.Model
/-!
`bricks/strings/split.h` and `bricks/strings/join.h` (C43).
-/
namespace Current.Strings
open Current.Persist

/-! ### Model -/

/-- `emit`, `split.h:139-144`: `processor(s.substr(j, i - j))` and `++n`, unless the field is empty and empty fields are skipped. -/
def emit (keep : Bool) (s : Str) (i j : Nat) (acc : List Str × Nat) : List Str × Nat :=
  if keep || i ≠ j then (acc.1 ++ [(s.drop j).take (i - j)], acc.2 + 1) else acc

/-- The loop of `split.h:145-151`, with `rest = s[i..]`; `match_` is `impl::Match(·, separator)`. -/
def splitLoop (match_ : Char → Bool) (keep : Bool) (s : Str) : Str → Nat → Nat → List Str × Nat → List Str × Nat
  | [], i, j, acc => emit keep s i j acc
  | c :: rest, i, j, acc =>
    if match_ c then splitLoop match_ keep s rest (i + 1) (i + 1) (emit keep s i j acc)
    else splitLoop match_ keep s rest (i + 1) j acc

/-- `Split(const std::string&, separator, processor, empty_fields_strategy)`, `split.h:131-154`: the fields passed to the processor, and the
value returned. `keep`: `EmptyFields::Keep`. The versions that return a vector (`split.h:287-300`) collect the same fields. -/
def split (match_ : Char → Bool) (keep : Bool) (s : Str) : List Str × Nat := splitLoop match_ keep s s 0 0 ([], 0)

/-- `MatchImpl<const char[N]>::Match`, `split.h:91-95`: the search includes the terminating zero of the literal. -/
def matchLiteral (lit : Str) (c : Char) : Bool := (lit ++ ['\x00']).contains c
/-- `MatchImpl<std::string>::Match`, `split.h:85-89`. -/
def matchString (seps : Str) (c : Char) : Bool := seps.contains c
/-- `MatchImpl<char>::Match`. -/
def matchChar (a : Char) (c : Char) : Bool := c = a
/-- A callable tells which characters belong to fields, `split.h:102-105`. -/
def matchCallable (f : Char → Bool) (c : Char) : Bool := !f c

/-- One call of the processor by the in-place version: the contents of the buffer at that moment (terminating zero included), and where the chunk is. -/
structure Shot where
  buf : Str
  from_ : Nat
  len : Nat
  deriving DecidableEq, Repr

/-- The state of the in-place version: the buffer, the calls so far, `n`. -/
structure InPlace where
  buf : Str
  shots : List Shot
  n : Nat
  deriving DecidableEq, Repr

/-- `emit` of the in-place version, `split.h:169-176`. -/
def emitInPlace (keep : Bool) (i j : Nat) (st : InPlace) : InPlace :=
  if keep || i ≠ j then
    let save := st.buf.getD i '\x00'
    let during := st.buf.set i '\x00'
    { buf := during.set i save, shots := st.shots ++ [⟨during, j, i - j⟩], n := st.n + 1 }
  else st

/-- The loop of `split.h:177-182`; `k` is the number of characters left. The character matched is read from the buffer. -/
def inPlaceLoop (match_ : Char → Bool) (keep : Bool) : Nat → Nat → Nat → InPlace → InPlace
  | 0, i, j, st => emitInPlace keep i j st
  | k + 1, i, j, st =>
    if match_ (st.buf.getD i '\x00') then inPlaceLoop match_ keep k (i + 1) (i + 1) (emitInPlace keep i j st)
    else inPlaceLoop match_ keep k (i + 1) j st

/-- `Split(char* s, size_t length, …)`, `split.h:160-185`, on a zero-terminated buffer. -/
def splitInPlace (match_ : Char → Bool) (keep : Bool) (s : Str) : InPlace :=
  inPlaceLoop match_ keep s.length 0 0 ⟨s ++ ['\x00'], [], 0⟩

/-- The loop of `Join`, `join.h:133-141`. -/
def joinLoop (sep : Str) : Bool → List Str → Str → Str
  | _, [], acc => acc
  | first, c :: cs, acc => joinLoop sep false cs ((if first then acc else acc ++ sep) ++ c)

/-- `Join`, `join.h:126-144`, on strings. A `char` separator is a string of one character. -/
def join (comps : List Str) (sep : Str) : Str := if comps = [] then [] else joinLoop sep true comps []

/-- `SplitIntoKeyValuePairs`, `split.h:302-327`. `none`: an exception. -/
def keyValuePairs (kv fs : Char → Bool) (throw_ : Bool) (s : Str) : Option (List (Str × Str)) :=
  (split fs false s).1.foldl (fun acc f =>
    match acc with
    | none => none
    | some l =>
      match (split kv false f).1 with
      | [k, v] => some (l ++ [(k, v)])
      | _ => if throw_ then none else some l) (some [])

/-! ### Specification -/

/-- The fields of a text: what stands between separators. -/
def fields (match_ : Char → Bool) : Str → List Str
  | [] => [[]]
  | c :: cs =>
    if match_ c then [] :: fields match_ cs
    else match fields match_ cs with
      | [] => [[c]]
      | f :: fs => (c :: f) :: fs

/-- Strings with a separator between them. -/
def joined (sep : Str) : List Str → Str
  | [] => []
  | [x] => x
  | x :: y :: l => x ++ sep ++ joined sep (y :: l)

/-! ### Proofs -/

theorem fields_ne_nil (m : Char → Bool) (s : Str) : fields m s ≠ [] := by
  cases s with
  | nil => simp [fields]
  | cons c s =>
    simp only [fields]
    split
    · simp
    · split <;> simp

/-- Fields of a text whose first field already holds `cur`. -/
def fieldsFrom (m : Char → Bool) (cur s : Str) : List Str :=
  match fields m s with
  | [] => [cur]
  | f :: fs => (cur ++ f) :: fs

theorem fieldsFrom_nil (m : Char → Bool) (s : Str) : fieldsFrom m [] s = fields m s := by
  unfold fieldsFrom
  cases h : fields m s with
  | nil => exact absurd h (fields_ne_nil m s)
  | cons f fs => simp

theorem fieldsFrom_cons (m : Char → Bool) (cur : Str) (c : Char) (s : Str) :
    fieldsFrom m cur (c :: s) = if m c then cur :: fields m s else fieldsFrom m (cur ++ [c]) s := by
  unfold fieldsFrom
  by_cases h : m c = true
  · simp [fields, h]
  · simp only [fields, h]
    cases hf : fields m s with
    | nil => exact absurd hf (fields_ne_nil m s)
    | cons f fs => simp

def kept (keep : Bool) (l : List Str) : List Str := if keep then l else l.filter (· ≠ [])

theorem kept_cons (keep : Bool) (x : Str) (l : List Str) : kept keep (x :: l) = (if keep || x ≠ [] then [x] else []) ++ kept keep l := by
  cases keep <;> simp [kept, List.filter_cons]
  split <;> simp

theorem take_drop_len {s : Str} {i j : Nat} (hij : j ≤ i) (hi : i ≤ s.length) : ((s.drop j).take (i - j) = []) ↔ i = j := by
  rw [← List.length_eq_zero_iff, List.length_take, List.length_drop]
  omega

theorem emit_eq {keep : Bool} {s : Str} {i j : Nat} (acc : List Str × Nat) (hij : j ≤ i) (hi : i ≤ s.length) :
    emit keep s i j acc = (acc.1 ++ kept keep [(s.drop j).take (i - j)], acc.2 + (kept keep [(s.drop j).take (i - j)]).length) := by
  unfold emit
  rw [kept_cons]
  have := take_drop_len hij hi
  by_cases h : keep = true
  · simp [h, kept]
  · simp only [Bool.not_eq_true] at h
    subst h
    by_cases h2 : i = j
    · simp [h2, kept]
    · have : ¬ ((s.drop j).take (i - j) = []) := by rw [this]; exact h2
      simp [h2, this, kept]

theorem splitLoop_eq (m : Char → Bool) (keep : Bool) (s rest : Str) (i j : Nat) (acc : List Str × Nat)
    (hr : rest = s.drop i) (hij : j ≤ i) (hi : i ≤ s.length) :
    splitLoop m keep s rest i j acc =
      (acc.1 ++ kept keep (fieldsFrom m ((s.drop j).take (i - j)) rest), acc.2 + (kept keep (fieldsFrom m ((s.drop j).take (i - j)) rest)).length) := by
  induction rest generalizing i j acc with
  | nil =>
    simp only [splitLoop, fieldsFrom, fields]
    rw [emit_eq acc hij hi]; simp
  | cons c rest ih =>
    have hlt : i < s.length := by
      apply Classical.byContradiction; intro h
      rw [List.drop_eq_nil_of_le (by omega)] at hr; cases hr
    have hdrop : s.drop i = c :: s.drop (i + 1) := by
      rw [← hr]
      have : s.drop (i + 1) = (s.drop i).drop 1 := by rw [List.drop_drop]
      rw [this, ← hr]; rfl
    have hrest : rest = s.drop (i + 1) := by rw [← hr] at hdrop; injection hdrop
    have hc : s[i]? = some c := by
      have := congrArg List.head? hdrop
      simpa [List.head?_drop] using this
    simp only [splitLoop]
    rw [fieldsFrom_cons]
    split
    · rw [ih (i + 1) (i + 1) _ hrest (Nat.le_refl _) (by omega), emit_eq acc hij hi]
      rw [kept_cons keep _ (fields m rest), kept_cons keep _ []]
      simp only [Nat.sub_self, List.take_zero, fieldsFrom_nil]
      have : kept keep [] = [] := by cases keep <;> rfl
      rw [this]
      simp only [List.append_nil, List.append_assoc, List.length_append]
      rw [Nat.add_assoc]
    · rw [ih (i + 1) j acc hrest (by omega) (by omega)]
      have : (s.drop j).take (i - j) ++ [c] = (s.drop j).take (i + 1 - j) := by
        have hcj : (s.drop j)[i - j]? = some c := by rw [List.getElem?_drop]; rw [show j + (i - j) = i by omega]; exact hc
        have hle : i - j < (s.drop j).length := (List.getElem?_eq_some_iff.1 hcj).1
        rw [show i + 1 - j = i - j + 1 by omega, List.take_add_one, hcj]
        rfl
      rw [this]

/-- C43: `Split` yields the fields of the text (without the empty ones, unless they are kept), and returns their number. -/
theorem split_is_fields (m : Char → Bool) (keep : Bool) (s : Str) :
    (split m keep s).1 = (if keep then fields m s else (fields m s).filter (· ≠ [])) ∧ (split m keep s).2 = (split m keep s).1.length := by
  unfold split
  rw [splitLoop_eq m keep s s 0 0 _ (by simp) (Nat.le_refl _) (Nat.zero_le _)]
  simp [fieldsFrom_nil, kept]

theorem joinLoop_false (sep : Str) (l : List Str) (acc : Str) : joinLoop sep false l acc = acc ++ (l.map (sep ++ ·)).flatten := by
  induction l generalizing acc with
  | nil => simp [joinLoop]
  | cons x l ih => simp [joinLoop, ih]

theorem joined_cons (sep : Str) (x : Str) (l : List Str) : joined sep (x :: l) = x ++ (l.map (sep ++ ·)).flatten := by
  induction l generalizing x with
  | nil => simp [joined]
  | cons y l ih => simp [joined, ih]

/-- C43: `Join` puts the separator between the strings. -/
theorem join_is_joined (comps : List Str) (sep : Str) : join comps sep = joined sep comps := by
  cases comps with
  | nil => rfl
  | cons x l => simp [join, joinLoop, joinLoop_false, joined_cons]

theorem joined_fields (a : Char) (s : Str) : joined [a] (fields (matchChar a) s) = s := by
  induction s with
  | nil => rfl
  | cons c s ih =>
    simp only [fields]
    by_cases h : c = a
    · simp only [matchChar, h, decide_true, if_true]
      obtain ⟨f, fs, hf⟩ := List.exists_cons_of_ne_nil (fields_ne_nil (fun c => decide (c = a)) s)
      have e : fields (matchChar a) s = f :: fs := hf
      rw [e] at ih
      show joined [a] ([] :: fields (matchChar a) s) = _
      rw [e]
      simp [joined, ih]
    · have hm : matchChar a c = false := by simp [matchChar, h]
      rw [hm]
      simp only [Bool.false_eq_true, if_false]
      obtain ⟨f, fs, hf⟩ := List.exists_cons_of_ne_nil (fields_ne_nil (matchChar a) s)
      rw [hf] at ih ⊢
      simp only [joined_cons] at ih ⊢
      rw [List.cons_append, ih]

/-- C43: joining what `Split` with kept empty fields yields gives the text back. -/
theorem join_split (a : Char) (s : Str) : join (split (matchChar a) true s).1 [a] = s := by
  rw [(split_is_fields _ _ _).1, join_is_joined]
  exact joined_fields a s

theorem fields_nosep (m : Char → Bool) (x : Str) (h : ∀ c ∈ x, m c = false) : fields m x = [x] := by
  induction x with
  | nil => rfl
  | cons c x ih =>
    simp only [fields, h c (List.mem_cons_self ..), Bool.false_eq_true, if_false, ih fun d hd => h d (List.mem_cons_of_mem _ hd)]

theorem fields_append_sep (m : Char → Bool) (x : Str) (a : Char) (s : Str) (h : ∀ c ∈ x, m c = false) (ha : m a = true) :
    fields m (x ++ a :: s) = x :: fields m s := by
  induction x with
  | nil => simp [fields, ha]
  | cons c x ih =>
    simp only [List.cons_append, fields, h c (List.mem_cons_self ..), Bool.false_eq_true, if_false, ih fun d hd => h d (List.mem_cons_of_mem _ hd)]

theorem fields_joined (a : Char) (l : List Str) (hne : l ≠ []) (h : ∀ x ∈ l, a ∉ x) : fields (matchChar a) (joined [a] l) = l := by
  have hm : ∀ x ∈ l, ∀ c ∈ x, matchChar a c = false := by
    intro x hx c hc
    simp only [matchChar, decide_eq_false_iff_not]
    rintro rfl; exact h x hx hc
  induction l with
  | nil => exact absurd rfl hne
  | cons x l ih =>
    cases l with
    | nil => exact fields_nosep _ _ (hm x (List.mem_cons_self ..))
    | cons y l =>
      have := ih (by simp) (fun z hz => h z (List.mem_cons_of_mem _ hz)) (fun z hz => hm z (List.mem_cons_of_mem _ hz))
      simp only [joined]
      rw [List.append_assoc, List.singleton_append, fields_append_sep _ _ _ _ (hm x (List.mem_cons_self ..)) (by simp [matchChar]), this]

/-- C43: splitting what was joined gives the strings back, if there is at least one and none contains the separator. -/
theorem split_join_keep (a : Char) (l : List Str) (hne : l ≠ []) (h : ∀ x ∈ l, a ∉ x) : (split (matchChar a) true (join l [a])).1 = l := by
  rw [(split_is_fields _ _ _).1, join_is_joined]
  exact fields_joined a l hne h

example : (split (matchChar ',') true (join [['a'], [], ['b', 'c']] [','])).1 = [['a'], [], ['b', 'c']] :=
  split_join_keep ',' _ (by simp) (by decide)

/-- C43: the same when empty fields are skipped, for any list of non-empty strings. -/
theorem split_join_skip (a : Char) (l : List Str) (h : ∀ x ∈ l, a ∉ x ∧ x ≠ []) : (split (matchChar a) false (join l [a])).1 = l := by
  rw [(split_is_fields _ _ _).1, join_is_joined]
  simp only [Bool.false_eq_true, if_false]
  by_cases hne : l = []
  · subst hne; rfl
  · rw [fields_joined a l hne fun x hx => (h x hx).1, List.filter_eq_self.2]
    intro x hx
    simpa using (h x hx).2

example : (split (matchChar '\t') false (join [['a'], ['b', 'c']] ['\t'])).1 = [['a'], ['b', 'c']] :=
  split_join_skip '\t' _ (by decide)

/-- C43: fields contain no separators, and with the separators removed from the text nothing is lost. -/
theorem split_loses_only_separators (m : Char → Bool) (keep : Bool) (s : Str) :
    (∀ f ∈ (split m keep s).1, ∀ c ∈ f, m c = false) ∧ (split m keep s).1.flatten = s.filter (fun c => !m c) := by
  have h1 : ∀ s : Str, ∀ f ∈ fields m s, ∀ c ∈ f, m c = false := by
    intro s
    induction s with
    | nil => simp [fields]
    | cons c s ih =>
      simp only [fields]
      split
      · intro f hf d hd
        rcases List.mem_cons.1 hf with rfl | hf
        · cases hd
        · exact ih f hf d hd
      · rename_i hc
        obtain ⟨g, gs, hg⟩ := List.exists_cons_of_ne_nil (fields_ne_nil m s)
        rw [hg] at ih ⊢
        intro f hf d hd
        rcases List.mem_cons.1 hf with rfl | hf
        · rcases List.mem_cons.1 hd with rfl | hd
          · simpa using hc
          · exact ih g (List.mem_cons_self ..) d hd
        · exact ih f (List.mem_cons_of_mem _ hf) d hd
  have h2 : ∀ s : Str, (fields m s).flatten = s.filter (fun c => !m c) := by
    intro s
    induction s with
    | nil => rfl
    | cons c s ih =>
      simp only [fields]
      split
      · rename_i hc; simp [hc, ih]
      · rename_i hc
        obtain ⟨g, gs, hg⟩ := List.exists_cons_of_ne_nil (fields_ne_nil m s)
        rw [hg] at ih ⊢
        simp only [Bool.not_eq_true] at hc
        simp [hc, ← ih]
  have h3 : ∀ l : List Str, (l.filter (· ≠ [])).flatten = l.flatten := by
    intro l
    induction l with
    | nil => rfl
    | cons x l ih =>
      rw [List.filter_cons]
      split
      · rw [List.flatten_cons, List.flatten_cons, ih]
      · rename_i hx; simp only [ne_eq, decide_not, Bool.not_eq_true', decide_eq_false_iff_not, Classical.not_not] at hx
        rw [List.flatten_cons, hx, ih]; rfl
  rw [(split_is_fields m keep s).1]
  cases keep with
  | true => exact ⟨h1 s, h2 s⟩
  | false =>
    simp only [Bool.false_eq_true, if_false]
    exact ⟨fun f hf => h1 s f (List.mem_filter.1 hf).1, (h3 _).trans (h2 s)⟩

/-- Not what one expects of a separator given as a string literal: it also separates at zero bytes. -/
theorem literal_splits_at_zero (lit : Str) : matchLiteral lit '\x00' = true := by simp [matchLiteral]

theorem literal_else (lit : Str) (c : Char) (h : c ≠ '\x00') : matchLiteral lit c = matchString lit c := by
  simp [matchLiteral, matchString, h]

/-! ### The in-place version -/

/-- The chunk a call of the processor is given. -/
def Shot.text (x : Shot) : Str := (x.buf.drop x.from_).take x.len

theorem set_restore (l : Str) (i : Nat) : (l.set i '\x00').set i (l.getD i '\x00') = l := by
  rw [List.set_set]
  apply List.ext_getElem?
  intro k
  rw [List.getElem?_set]
  by_cases h : i = k
  · subst h
    by_cases hl : i < l.length
    · simp [hl]
    · simp [hl]
  · simp [h]

theorem emitInPlace_eq {keep : Bool} {s : Str} {i j : Nat} {st : InPlace} (hb : st.buf = s ++ ['\x00']) (hij : j ≤ i) (hi : i ≤ s.length) :
    (emitInPlace keep i j st).buf = s ++ ['\x00'] ∧
    (emitInPlace keep i j st).shots.map Shot.text = (emit keep s i j (st.shots.map Shot.text, st.n)).1 ∧
    (emitInPlace keep i j st).n = (emit keep s i j (st.shots.map Shot.text, st.n)).2 ∧
    ((∀ x ∈ st.shots, x.buf[x.from_ + x.len]? = some '\x00') → ∀ x ∈ (emitInPlace keep i j st).shots, x.buf[x.from_ + x.len]? = some '\x00') := by
  unfold emitInPlace emit
  by_cases h : (keep || decide (i ≠ j)) = true
  · rw [if_pos h, if_pos h]
    refine ⟨?_, ?_, rfl, ?_⟩
    · dsimp only; rw [set_restore, hb]
    · simp only [List.map_append, List.map_cons, List.map_nil, Shot.text]
      congr 2
      rw [hb]
      rw [List.drop_set]
      rw [if_neg (by omega)]
      rw [List.take_set_of_le (Nat.le_refl _)]
      rw [List.drop_append_of_le_length (by omega)]
      rw [List.take_append_of_le_length (by simp; omega)]
    · intro hall x hx
      rcases List.mem_append.1 hx with hx | hx
      · exact hall x hx
      · simp only [List.mem_singleton] at hx
        subst hx
        dsimp only
        rw [hb, show j + (i - j) = i by omega, List.getElem?_set_self (by simp; omega)]
  · rw [if_neg h, if_neg h]
    exact ⟨hb, rfl, rfl, fun h => h⟩

theorem inPlaceLoop_eq (m : Char → Bool) (keep : Bool) (s : Str) (k i j : Nat) (st : InPlace) (hb : st.buf = s ++ ['\x00'])
    (hk : i + k = s.length) (hij : j ≤ i) (hz : ∀ x ∈ st.shots, x.buf[x.from_ + x.len]? = some '\x00') :
    let r := inPlaceLoop m keep k i j st
    r.buf = s ++ ['\x00'] ∧ (r.shots.map Shot.text, r.n) = splitLoop m keep s (s.drop i) i j (st.shots.map Shot.text, st.n) ∧
    ∀ x ∈ r.shots, x.buf[x.from_ + x.len]? = some '\x00' := by
  induction k generalizing i j st with
  | zero =>
    have hi : i = s.length := by omega
    obtain ⟨a, b, c, d⟩ := emitInPlace_eq (keep := keep) hb hij (by omega)
    rw [List.drop_eq_nil_of_le (by omega)]
    simp only [inPlaceLoop, splitLoop]
    exact ⟨a, by rw [b, c], d hz⟩
  | succ k ih =>
    have hi : i < s.length := by omega
    obtain ⟨a, b, c, d⟩ := emitInPlace_eq (keep := keep) hb hij (by omega)
    have hg : st.buf.getD i '\x00' = s[i] := by rw [hb]; simp [List.getD, List.getElem?_append_left hi, List.getElem?_eq_getElem hi]
    rw [List.drop_eq_getElem_cons hi]
    simp only [inPlaceLoop, splitLoop, hg]
    split
    · have := ih (i + 1) (i + 1) (emitInPlace keep i j st) a (by omega) (Nat.le_refl _) (d hz)
      rw [b, c] at this
      exact this
    · exact ih (i + 1) j st hb (by omega) (by omega) hz

/-- C43: the in-place version passes the same fields and returns the same number; it leaves the text as it was; and at each call the chunk is
followed by a zero byte. -/
theorem split_in_place (m : Char → Bool) (keep : Bool) (s : Str) :
    (splitInPlace m keep s).buf = s ++ ['\x00'] ∧ (splitInPlace m keep s).shots.map Shot.text = (split m keep s).1 ∧
    (splitInPlace m keep s).n = (split m keep s).2 ∧
    ∀ x ∈ (splitInPlace m keep s).shots, x.buf[x.from_ + x.len]? = some '\x00' := by
  obtain ⟨a, b, c⟩ := inPlaceLoop_eq m keep s s.length 0 0 ⟨s ++ ['\x00'], [], 0⟩ rfl (by simp) (Nat.le_refl _) (by simp)
  simp only [List.drop_zero, List.map_nil] at b
  exact ⟨a, congrArg Prod.fst b, congrArg Prod.snd b, c⟩

/-! ### Key-value pairs -/

/-- C43: pairs written with one separator between key and value, and one between the pairs, are read back, whatever the mode. -/
theorem key_value_pairs_roundtrip (kv fs : Char) (hne : kv ≠ fs) (l : List (Str × Str)) (throw_ : Bool)
    (h : ∀ p ∈ l, p.1 ≠ [] ∧ p.2 ≠ [] ∧ kv ∉ p.1 ∧ fs ∉ p.1 ∧ kv ∉ p.2 ∧ fs ∉ p.2) :
    keyValuePairs (matchChar kv) (matchChar fs) throw_ (join (l.map fun p => join [p.1, p.2] [kv]) [fs]) = some l := by
  unfold keyValuePairs
  rw [split_join_skip]
  · have key : ∀ (l acc : List (Str × Str)), (∀ p ∈ l, p.1 ≠ [] ∧ p.2 ≠ [] ∧ kv ∉ p.1 ∧ fs ∉ p.1 ∧ kv ∉ p.2 ∧ fs ∉ p.2) →
        (l.map fun p => join [p.1, p.2] [kv]).foldl (fun acc f =>
          match acc with
          | none => none
          | some l =>
            match (split (matchChar kv) false f).1 with
            | [k, v] => some (l ++ [(k, v)])
            | _ => if throw_ then none else some l) (some acc) = some (acc ++ l) := by
      intro l
      induction l with
      | nil => intro acc _; simp
      | cons p l ih =>
        intro acc h
        obtain ⟨h1, h2, h3, h4, h5, h6⟩ := h p (List.mem_cons_self ..)
        have hs : (split (matchChar kv) false (join [p.1, p.2] [kv])).1 = [p.1, p.2] :=
          split_join_skip kv [p.1, p.2] (by simp [h1, h2, h3, h5])
        rw [List.map_cons, List.foldl_cons]
        simp only [hs]
        rw [ih _ fun q hq => h q (List.mem_cons_of_mem _ hq)]
        simp
    exact (key l [] h).trans (by simp)
  · intro x hx
    rw [List.mem_map] at hx
    obtain ⟨p, hp, rfl⟩ := hx
    obtain ⟨h1, h2, h3, h4, h5, h6⟩ := h p hp
    rw [join_is_joined]
    simp only [joined]
    constructor
    · simp only [List.mem_append, List.mem_singleton, not_or]
      exact ⟨⟨h4, fun e => hne e.symm⟩, h6⟩
    · simp

example : keyValuePairs (matchChar '=') (matchChar ',') true ['a', '=', 'b', ',', 'c', '=', 'd'] = some [(['a'], ['b']), (['c'], ['d'])] := by
  decide +kernel

/-- Not an error even in `Throw` mode: `=a=b` is read as the pair `a`, `b`, as empty fields are skipped within a pair too. -/
theorem leading_separator_ignored : keyValuePairs (matchChar '=') (matchChar ',') true ['=', 'a', '=', 'b'] = some [(['a'], ['b'])] := by
  decide +kernel

end Current.Strings
