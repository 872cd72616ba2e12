import Verif.Url.RoundTrip
import Verif.Strings.Convert
/-!
Pagination of collections in the hypermedia REST API (C77): `storage/rest/hypermedia.h`.

Unsigned 64-bit arithmetic is arithmetic modulo `2^64`.
-/
namespace Current.Rest
open Current.Persist Current.Url Current.Strings

/-! ### Model -/

def W : Nat := 2 ^ 64

/-- `HypermediaRESTCollectionResponse`, `rest/types.h`, without the type of the records. A link is the pair of the arguments of `gen_page_url`. -/
structure Page (α : Type) where
  url : Nat × Nat
  i : Nat
  n : Nat
  total : Nat
  prev : Option (Nat × Nat) := none
  next : Option (Nat × Nat) := none
  data : List α
  deriving DecidableEq, Repr

/-- The loop of `BuildResponseWithCollection`, `hypermedia.h:127-153`, from `current_index = idx` on: the new records, `has_previous_page`,
`has_next_page`. -/
def scan {α : Type} (i n : Nat) : Nat → List α → List α × Bool × Bool
  | _, [] => ([], false, false)
  | idx, x :: rest =>
    if i ≤ idx ∧ idx < (i + n) % W then
      let r := scan i n (idx + 1) rest
      (x :: r.1, r.2.1, r.2.2)
    else if idx < i then
      let r := scan i n (idx + 1) rest
      (r.1, true, r.2.2)
    else if (i + n) % W ≤ idx then ([], false, true)
    else scan i n (idx + 1) rest

/-- `BuildResponseWithCollection`, `hypermedia.h:110-179`, on the records `l` of the span, in the order of iteration. `none`: `response.data.reserve`
threw (`std::length_error`, `std::bad_alloc`); `fits` tells when it does not. -/
def collection {α : Type} (fits : Nat → Bool) (i n : Nat) (l : List α) : Option (Page α) :=
  let total := l.length
  if fits n then
    let r := scan i n 0 l
    let i := if total < i then total else i
    some {
      url := (i, n), i := i, n := min n ((total + W - i) % W), total := total, data := r.1
      prev := if r.2.1 then some (if n ≤ i then (i + W - n) % W else 0, n) else none
      next := if r.2.2 then some (if total < (i + n * 2) % W then (total + W - n) % W else (i + n) % W, n) else none }
  else none

/-- `gen_page_url`, `hypermedia.h:155-157`. -/
def pageUrl (base : Str) (p : Nat × Nat) : Str := base ++ (['?', 'i', '='] ++ dec p.1 ++ ['&', 'n', '='] ++ dec p.2)

/-- `Enter`, `hypermedia.h:200-201`, for a new context (`83-84`: the first ten records). -/
def pageOf (q : Query) : Nat × Nat :=
  ((fromStringInt uint64 ((q ['i']).getD (dec 0))).toNat, (fromStringInt uint64 ((q ['n']).getD (dec 10))).toNat)

/-- The loop of `PopulateCollectionRecord`, `hypermedia.h:66-74`: at most the first three records are shown. -/
def previewLoop {α : Type} : Nat → List α → List α
  | _, [] => []
  | i, e :: rest => e :: if i + 1 ≥ 3 then [] else previewLoop (i + 1) rest

/-- A row of a table, as an element of a collection of rows: the number of its records and the preview, `hypermedia.h:64-76`. -/
def rowRecord {α : Type} (row : List α) : Nat × List α := (row.length, previewLoop 0 row)

/-! ### What is promised -/

/-- What a vector of records that are not empty can hold: `max_size()` is at most `2^63 / 32`, and the memory of the process bounds it further. -/
def Sane (fits : Nat → Bool) : Prop := ∀ n, fits n = true → n ≤ 2 ^ 58

/-! ### Proofs -/

theorem scan_eq {α : Type} (i n : Nat) (l : List α) : ∀ idx, (i < idx + l.length → i + n < W) →
    scan i n idx l = ((l.drop (i - idx)).take (n - (idx - i)), decide (idx < i) && !l.isEmpty, decide (i + n < idx + l.length) && decide (i ≤ idx + l.length) && !l.isEmpty) := by
  induction l with
  | nil => intro idx _; simp [scan]
  | cons x l ih =>
    intro idx hw
    rw [scan]
    simp only [List.length_cons] at hw ⊢
    have hw' := ih (idx + 1) (fun h => hw (by omega))
    by_cases h : idx < i
    · rw [if_neg (by omega), if_pos h, hw']
      have e1 : i - idx = (i - (idx + 1)) + 1 := by omega
      have e2 : n - (idx - i) = n - (idx + 1 - i) := by omega
      refine Prod.ext ?_ (Prod.ext ?_ ?_)
      · rw [e1, List.drop_succ_cons, e2]
      · simp [h]
      · simp only [List.isEmpty_cons, Bool.not_false, Bool.and_true]
        cases l with
        | nil => simp only [List.length_nil, List.isEmpty_nil, Bool.not_true, Bool.and_false]; symm; simp; omega
        | cons y l =>
          simp only [List.length_cons, List.isEmpty_cons, Bool.not_false, Bool.and_true]
          congr 1 <;> (apply decide_eq_decide.2; omega)
    · have hs := hw (by omega)
      rw [Nat.mod_eq_of_lt hs]
      by_cases h2 : idx < i + n
      · rw [if_pos ⟨by omega, h2⟩, hw']
        have e1 : i - idx = 0 := by omega
        have e2 : i - (idx + 1) = 0 := by omega
        have e3 : n - (idx - i) = (n - (idx + 1 - i)) + 1 := by omega
        refine Prod.ext ?_ (Prod.ext ?_ ?_)
        · rw [e1, e2, e3]; simp
        · simp [show ¬ idx + 1 < i by omega, h]
        · simp only [List.isEmpty_cons, Bool.not_false, Bool.and_true]
          cases l with
          | nil => simp only [List.length_nil, List.isEmpty_nil, Bool.not_true, Bool.and_false]; symm; simp; omega
          | cons y l =>
            simp only [List.length_cons, List.isEmpty_cons, Bool.not_false, Bool.and_true]
            congr 1 <;> (apply decide_eq_decide.2; omega)
      · rw [if_neg (by omega), if_neg h, if_pos (by omega)]
        have e3 : n - (idx - i) = 0 := by omega
        refine Prod.ext ?_ (Prod.ext ?_ ?_)
        · rw [e3]; simp
        · simp; omega
        · simp; omega

/-- **C77.** The page of a request `?i=<i>&n=<n>`: the records from the `i`-th on, at most `n` of them, in the order of the collection, with
their position, their number and the size of the collection; the link to the previous page is there iff records precede the page, the link to the
next page iff records follow it, and they are for pages of the same size. -/
theorem page_content {α : Type} {fits : Nat → Bool} (hf : Sane fits) (i n : Nat) (l : List α) (hl : l.length < 2 ^ 63)
    {p : Page α} (h : collection fits i n l = some p) :
    p.data = (l.drop i).take n ∧ p.i = min i l.length ∧ p.n = p.data.length ∧ p.total = l.length ∧ p.url = (min i l.length, n) ∧
    (p.prev = if 0 < i ∧ l ≠ [] then some (min i l.length - n, n) else none) ∧
    (p.next = if i + n < l.length then some (min (i + n) (l.length - n), n) else none) := by
  unfold collection at h
  by_cases hn : fits n = true
  · have hn' := hf n hn
    have hw : i < 0 + l.length → i + n < W := by unfold W; omega
    simp only [hn, if_true, Option.some.injEq] at h
    subst h
    rw [scan_eq i n l 0 hw]
    have hi : (if l.length < i then l.length else i) = min i l.length := by split <;> omega
    simp only [hi, Nat.sub_zero, Nat.zero_sub, Nat.zero_add]
    have hm : min i l.length ≤ l.length := Nat.min_le_right _ _
    generalize hj : min i l.length = j at hm
    refine ⟨trivial, trivial, ?_, trivial, trivial, ?_, ?_⟩
    · have : (l.length + W - j) % W = l.length - j := by
        rw [show l.length + W - j = (l.length - j) + W from by omega, Nat.add_mod_right]
        exact Nat.mod_eq_of_lt (by unfold W; omega)
      rw [this, List.length_take, List.length_drop]
      omega
    · by_cases hp : 0 < i ∧ l ≠ []
      · rw [if_pos (by simp [hp.1, hp.2]), if_pos hp]
        congr 2
        by_cases hc : n ≤ j
        · rw [if_pos hc, show j + W - n = (j - n) + W from by omega, Nat.add_mod_right]
          exact Nat.mod_eq_of_lt (by unfold W; omega)
        · rw [if_neg hc]; omega
      · rw [if_neg (by simpa using hp), if_neg hp]
    · by_cases hp : i + n < l.length
      · have : l ≠ [] := by intro e; subst e; simp at hp
        rw [if_pos (by simp [this, hp]; omega), if_pos hp]
        congr 2
        have ej : j = i := by omega
        subst ej
        rw [Nat.mod_eq_of_lt (show j + n * 2 < W by unfold W; omega), Nat.mod_eq_of_lt (show j + n < W by unfold W; omega)]
        by_cases hc : l.length < j + n * 2
        · rw [if_pos hc, show l.length + W - n = (l.length - n) + W from by omega, Nat.add_mod_right,
            Nat.mod_eq_of_lt (show l.length - n < W by unfold W; omega)]
          omega
        · rw [if_neg hc]; omega
      · rw [if_neg (by simp [hp]), if_neg hp]
  · simp [hn] at h

/-- **C77.** A page is refused only when memory for its size cannot be had. -/
theorem page_exists {α : Type} (fits : Nat → Bool) (i n : Nat) (l : List α) : (collection fits i n l).isSome = fits n := by
  unfold collection; split <;> simp_all

/-- The pages seen from `?i=<i>&n=<n>` on by following the links that `link` picks, at most `fuel` of them. -/
def walk {α : Type} (fits : Nat → Bool) (l : List α) (link : Page α → Option (Nat × Nat)) : Nat → Nat × Nat → List (Page α)
  | 0, _ => []
  | fuel + 1, q =>
    match collection fits q.1 q.2 l with
    | none => []
    | some p => p :: (match link p with | none => [] | some q' => walk fits l link fuel q')

/-- How many pages of `n` records there are. -/
def pages (total n : Nat) : Nat := max 1 ((total + n - 1) / n)

theorem pages_pos (total n : Nat) : 0 < pages total n := by unfold pages; omega

theorem lt_pages {total n k : Nat} (hn : 0 < n) : k + 1 < pages total n ↔ (k + 1) * n < total := by
  unfold pages
  have h : k + 1 < (total + n - 1) / n ↔ (k + 1 + 1) * n ≤ total + n - 1 := by
    rw [← Nat.le_div_iff_mul_le hn]; exact Iff.rfl
  have e : (k + 1 + 1) * n = (k + 1) * n + n := by rw [Nat.add_mul (k + 1), Nat.one_mul]
  rw [e] at h
  constructor
  · intro g; have := h.1 (by omega); omega
  · intro g; have := h.2 (by omega); omega

theorem collection_some {α : Type} {fits : Nat → Bool} {n : Nat} (h : fits n = true) (i : Nat) (l : List α) :
    ∃ p, collection fits i n l = some p := by
  rw [← Option.isSome_iff_exists, page_exists, h]

theorem walk_next {α : Type} {fits : Nat → Bool} (hf : Sane fits) {n : Nat} (hn : 0 < n) (hfit : fits n = true) (l : List α)
    (hl : l.length < 2 ^ 63) : ∀ (r k fuel : Nat), k + r = pages l.length n → 0 < r → r ≤ fuel →
      (walk fits l (·.next) fuel (min (k * n) (l.length - n), n)).map some =
        (List.range' k r).map fun k => collection fits (min (k * n) (l.length - n)) n l := by
  intro r
  induction r with
  | zero => intro k fuel _ h; omega
  | succ r ih =>
    intro k fuel hk _ hfu
    obtain ⟨p, hp⟩ := collection_some hfit (min (k * n) (l.length - n)) l
    have hc := (page_content hf _ n l hl hp).2.2.2.2.2.2
    cases fuel with
    | zero => omega
    | succ fuel =>
      simp only [walk, hp, List.range'_succ, List.map_cons]
      congr 1
      have e : (k + 1) * n = k * n + n := by rw [Nat.add_mul, Nat.one_mul]
      cases r with
      | zero =>
        have : ¬ (k + 1) * n < l.length := by rw [← lt_pages hn]; omega
        rw [hc, if_neg (by omega)]
        simp
      | succ r =>
        have : (k + 1) * n < l.length := by rw [← lt_pages hn]; omega
        rw [hc, if_pos (by omega)]
        rw [← ih (k + 1) fuel (by omega) (by omega) (by omega)]
        simp only
        rw [e] at this ⊢
        congr 3
        omega

/-- **C77.** Walking through the pages of a positive size `n` by the links to the next page shows `⌈total / n⌉` pages (one if there are no records) and
ends there: the `k`-th begins at the record `k * n`, but the last is moved to the left to be full, if there are `n` records at all. -/
theorem walk_pages {α : Type} {fits : Nat → Bool} (hf : Sane fits) {n : Nat} (hn : 0 < n) (hfit : fits n = true) (l : List α)
    (hl : l.length < 2 ^ 63) (fuel : Nat) (hfu : pages l.length n ≤ fuel) :
    (walk fits l (·.next) fuel (0, n)).map some =
      (List.range (pages l.length n)).map fun k => collection fits (min (k * n) (l.length - n)) n l := by
  have := walk_next hf hn hfit l hl (pages l.length n) 0 fuel (by omega) (pages_pos _ _) hfu
  rw [show min (0 * n) (l.length - n) = 0 from by omega] at this
  rw [this, List.range_eq_range']

/-- **C77.** Every record is shown: the `j`-th one by the page with number `j / n`, at its position. -/
theorem walk_shows_all {α : Type} {fits : Nat → Bool} (hf : Sane fits) {n : Nat} (hn : 0 < n) (hfit : fits n = true) (l : List α)
    (hl : l.length < 2 ^ 63) (fuel : Nat) (hfu : pages l.length n ≤ fuel) (j : Nat) (hj : j < l.length) :
    ∃ p, (walk fits l (·.next) fuel (0, n))[j / n]? = some p ∧ p.i ≤ j ∧ p.data[j - p.i]? = some l[j] := by
  have h1 : j / n * n ≤ j := Nat.div_mul_le_self j n
  have h2 : j < (j / n + 1) * n := by
    have := Nat.lt_succ_iff.1 (Nat.lt_succ_self (j / n))
    exact (Nat.div_lt_iff_lt_mul hn).1 (Nat.lt_succ_self _)
  have hk : j / n < pages l.length n := by
    cases hq : j / n with
    | zero => exact pages_pos _ _
    | succ q => rw [lt_pages hn]; rw [hq] at h1; omega
  obtain ⟨p, hp⟩ := collection_some hfit (min (j / n * n) (l.length - n)) l
  have hc := page_content hf _ n l hl hp
  refine ⟨p, ?_, ?_, ?_⟩
  · have := congrArg (·[j / n]?) (walk_pages hf hn hfit l hl fuel hfu)
    simp only [List.getElem?_map, List.getElem?_range hk, Option.map_some, hp] at this
    cases hw : (walk fits l (·.next) fuel (0, n))[j / n]? <;> simp_all
  · rw [hc.2.1]; omega
  · have e : (j / n + 1) * n = j / n * n + n := by rw [Nat.add_mul, Nat.one_mul]
    rw [hc.1, hc.2.1, List.getElem?_take, if_pos (by omega), List.getElem?_drop]
    rw [show min (j / n * n) (l.length - n) + (j - min (min (j / n * n) (l.length - n)) l.length) = j from by omega]
    exact List.getElem?_eq_getElem hj

theorem walk_prev_aux {α : Type} {fits : Nat → Bool} (hf : Sane fits) {n : Nat} (hn : 0 < n) (hfit : fits n = true) (l : List α)
    (hl : l.length < 2 ^ 63) (hne : l ≠ []) : ∀ (r i fuel : Nat), i ≤ l.length → r = (i + n - 1) / n → r < fuel →
      (walk fits l (·.prev) fuel (i, n)).map some = (List.range (r + 1)).map fun k => collection fits (i - k * n) n l := by
  intro r
  induction r with
  | zero =>
    intro i fuel hi hr hfu
    have h0 : i = 0 := by
      by_contra hc
      have := (Nat.le_div_iff_mul_le hn (x := 1) (y := i + n - 1)).2 (by omega)
      omega
    subst h0
    obtain ⟨p, hp⟩ := collection_some hfit 0 l
    have hc := (page_content hf _ n l hl hp).2.2.2.2.2.1
    cases fuel with
    | zero => omega
    | succ fuel =>
      rw [if_neg (by omega)] at hc
      simp only [walk, hp, hc]
      simp [List.range_succ, hp]
  | succ r ih =>
    intro i fuel hi hr hfu
    have h0 : 0 < i := by
      by_contra hc
      have : (i + n - 1) / n = 0 := Nat.div_eq_of_lt (by omega)
      omega
    obtain ⟨p, hp⟩ := collection_some hfit i l
    have hc := (page_content hf _ n l hl hp).2.2.2.2.2.1
    cases fuel with
    | zero => omega
    | succ fuel =>
      rw [if_pos ⟨h0, hne⟩, Nat.min_eq_left hi] at hc
      have hr' : r = (i - n + n - 1) / n := by
        by_cases hin : n ≤ i
        · rw [show i + n - 1 = (i - n + n - 1) + n from by omega, Nat.add_div_right _ hn] at hr
          omega
        · have : (i + n - 1) / n < 2 := (Nat.div_lt_iff_lt_mul hn).2 (by omega)
          rw [Nat.div_eq_of_lt (by omega)]; omega
      have := ih (i - n) fuel (by omega) hr' (by omega)
      simp only [walk, hp, hc, List.map_cons, this]
      rw [List.range_succ_eq_map (n := r + 1)]
      simp only [List.map_cons, Nat.zero_mul, Nat.sub_zero, hp, List.map_map]
      congr 1
      apply List.map_congr_left
      intro k _
      simp only [Function.comp_apply, Nat.succ_eq_add_one, Nat.add_mul, Nat.one_mul]
      congr 1
      omega

/-- **C77.** From every page, the links to the previous page lead to the first one. -/
theorem walk_back {α : Type} {fits : Nat → Bool} (hf : Sane fits) {n : Nat} (hn : 0 < n) (hfit : fits n = true) (l : List α)
    (hl : l.length < 2 ^ 63) (hne : l ≠ []) (i fuel : Nat) (hi : i ≤ l.length) (hfu : (i + n - 1) / n < fuel) :
    (walk fits l (·.prev) fuel (i, n)).map some = (List.range ((i + n - 1) / n + 1)).map fun k => collection fits (i - k * n) n l :=
  walk_prev_aux hf hn hfit l hl hne _ i fuel hi rfl hfu

/-- **C77.** Every record before a page is shown on the way back from it. -/
theorem walk_back_shows_all {α : Type} {fits : Nat → Bool} (hf : Sane fits) {n : Nat} (hn : 0 < n) (hfit : fits n = true) (l : List α)
    (hl : l.length < 2 ^ 63) (i fuel : Nat) (hi : i ≤ l.length) (hfu : (i + n - 1) / n < fuel) (j : Nat) (hj : j < i) :
    ∃ p ∈ walk fits l (·.prev) fuel (i, n), p.i ≤ j ∧ p.data[j - p.i]? = some (l[j]'(by omega)) := by
  have hne : l ≠ [] := by intro e; subst e; simp at hi; omega
  have hw := walk_back hf hn hfit l hl hne i fuel hi hfu
  obtain ⟨k, hk⟩ : ∃ k, k = (i - j + n - 1) / n := ⟨_, rfl⟩
  have h1 : k * n ≤ i - j + n - 1 := by rw [hk]; exact Nat.div_mul_le_self _ _
  have h2 : i - j + n - 1 < (k + 1) * n := by rw [hk]; exact (Nat.div_lt_iff_lt_mul hn).1 (Nat.lt_succ_self _)
  have h3 : k ≤ (i + n - 1) / n := by rw [hk]; exact Nat.div_le_div_right (by omega)
  rw [Nat.add_mul, Nat.one_mul] at h2
  obtain ⟨p, hp⟩ := collection_some hfit (i - k * n) l
  have hc := page_content hf _ n l hl hp
  refine ⟨p, ?_, ?_, ?_⟩
  · have : some p ∈ (walk fits l (·.prev) fuel (i, n)).map some := by
      rw [hw, List.mem_map]
      exact ⟨k, List.mem_range.2 (by omega), hp⟩
    simpa using this
  · rw [hc.2.1]; omega
  · rw [hc.1, hc.2.1, List.getElem?_take, if_pos (by omega), List.getElem?_drop]
    rw [show i - k * n + (j - min (i - k * n) l.length) = j from by omega]
    exact List.getElem?_eq_getElem (by omega)

/-! ### The text of the links -/

theorem digits_ascii (k : Nat) : isAscii (dec k) := by
  intro c hc
  have := dec_isDigit hc
  simp only [Char.isDigit, Bool.and_eq_true, decide_eq_true_eq] at this
  have h := UInt32.le_iff_toNat_le.1 this.2
  have : c.val.toNat = c.toNat := rfl
  simp at h
  omega

theorem encode_dec (k : Nat) : encodeURI (dec k) = dec k := by
  have : ∀ s : Str, (∀ c ∈ s, c.isDigit = true) → encodeURI s = s := by
    intro s
    induction s with
    | nil => intro _; rfl
    | cons c s ih =>
      intro h
      have hc := h c (by simp)
      have hu : isUnreserved c = true := by
        unfold isUnreserved
        simp only [Char.isDigit, Bool.and_eq_true, decide_eq_true_eq] at hc
        have : ('0' ≤ c ∧ c ≤ '9') := ⟨hc.1, hc.2⟩
        simp [this]
      have := ih fun c hc => h c (by simp [hc])
      simp only [encodeURI, List.flatMap_cons, encodeChar, hu, if_true] at this ⊢
      rw [this]; rfl
  exact this _ fun c hc => dec_isDigit hc

/-- **C77.** A client that requests the text of a link gets the page it is for: of an URL without `?` and `#`, and `i`, `n` below `2^64`. -/
theorem link_text (base : Str) (hb1 : '#' ∉ base) (hb2 : '?' ∉ base) (p : Nat × Nat) (h1 : p.1 < W) (h2 : p.2 < W) :
    (extract (pageUrl base p)).2 = base.length ∧ pageOf (queryOf (extract (pageUrl base p)).1.params) = p := by
  have e : pageUrl base p = base ++ composeParams ⟨[(['i'], dec p.1), (['n'], dec p.2)], []⟩ := by
    have ei : encodeURI ['i'] = ['i'] := by decide
    have en : encodeURI ['n'] = ['n'] := by decide
    simp [pageUrl, composeParams, composeLoop, encode_dec, ei, en]
  have hx := extract_query base [(['i'], dec p.1), (['n'], dec p.2)] [] hb1 hb2 (by
    intro kv hkv
    simp only [List.mem_cons, List.not_mem_nil, or_false] at hkv
    rcases hkv with e | e <;> subst e <;> exact ⟨fun c hc => by simp at hc; subst hc; decide, (digits_ascii _).byte⟩)
  rw [e, hx]
  refine ⟨rfl, ?_⟩
  have di : decodeURI (encodeURI ['i']) = ['i'] := decode_encode_partial _ (by decide)
  have dn : decodeURI (encodeURI ['n']) = ['n'] := decode_encode_partial _ (by decide)
  have d1 := decode_encode_partial _ (digits_ascii p.1)
  have d2 := decode_encode_partial _ (digits_ascii p.2)
  have f : ∀ k, k < W → (fromStringInt uint64 (dec k)).toNat = k := by
    intro k hk
    have := fromString_toString uint64 (k : Int) (by unfold W at hk; unfold IntTy.Fits uint64; simp; omega)
    have e : toStringInt (k : Int) = dec k := rfl
    rw [e] at this
    rw [this]; rfl
  have hni : (['n'] : Str) ≠ ['i'] := by decide
  simp only [List.map_cons, List.map_nil, di, dn, d1, d2, pageOf, first_value]
  simp [f p.1 h1, f p.2 h2]

/-- **C77.** Without `i` and `n` in the query, the first ten records are requested. -/
theorem default_page : pageOf (fun _ => none) = (0, 10) := by
  have f : ∀ k, k < W → (fromStringInt uint64 (dec k)).toNat = k := by
    intro k hk
    have := fromString_toString uint64 (k : Int) (by unfold W at hk; unfold IntTy.Fits uint64; simp; omega)
    have e : toStringInt (k : Int) = dec k := rfl
    rw [e] at this
    rw [this]; rfl
  simp only [pageOf, Option.getD_none, f 0 (by decide), f 10 (by decide)]

/-- **C77.** A row of a table is shown as the number of its records and the first three of them. -/
theorem row_preview {α : Type} (row : List α) : rowRecord row = (row.length, row.take 3) := by
  rcases row with _ | ⟨a, _ | ⟨b, _ | ⟨c, r⟩⟩⟩ <;> simp [rowRecord, previewLoop]

/-! ### Where the walk is not a partition; page size zero; huge pages -/

def roomy (n : Nat) : Bool := decide (n ≤ 2 ^ 58)
theorem roomy_sane : Sane roomy := fun n h => by simpa [roomy] using h

/-- **C77**, false in one respect: the last page of a walk repeats records of the page before, when the size of the collection is not a multiple
of the size of the page. -/
theorem last_page_overlaps :
    (walk roomy ['a', 'b', 'c'] (·.next) 5 (0, 2)).map (·.data) = [['a', 'b'], ['b', 'c']] := by decide

/-- **C77**, false in one respect: a page of size zero of a collection that has records links to itself as the next page; a client that follows links never ends. -/
theorem empty_page_loops {α : Type} (l : List α) (hl : l.length < 2 ^ 63) (hne : l ≠ []) :
    ∃ p, collection roomy 0 0 l = some p ∧ p.data = [] ∧ p.next = some (0, 0) := by
  obtain ⟨p, hp⟩ := collection_some (fits := roomy) (n := 0) (by decide) 0 l
  have hc := page_content roomy_sane 0 0 l hl hp
  have : 0 < l.length := List.length_pos_iff.2 hne
  refine ⟨p, hp, by simpa using hc.1, ?_⟩
  rw [hc.2.2.2.2.2.2, if_pos (by omega)]
  congr 2

/-- **C77**, false in one respect: a page larger than memory is an exception, although the collection may be tiny. -/
theorem huge_page_fails {α : Type} {fits : Nat → Bool} (hf : Sane fits) (i : Nat) (l : List α) : collection fits i (2 ^ 59) l = none := by
  have : fits (2 ^ 59) = false := by
    by_contra h
    have := hf _ (by simpa using h)
    omega
  simp [collection, this]

/-- The hypotheses of `walk_pages` and `walk_back` are met. -/
theorem walk_example :
    (walk roomy (List.range 7) (·.next) 3 (0, 3)).map some = (List.range 3).map (fun k => collection roomy (min (k * 3) 4) 3 (List.range 7)) ∧
    (walk roomy (List.range 7) (·.next) 3 (0, 3)).map (·.data) = [[0, 1, 2], [3, 4, 5], [4, 5, 6]] ∧
    (walk roomy (List.range 7) (·.prev) 3 (4, 3)).map (·.data) = [[4, 5, 6], [1, 2, 3], [0, 1, 2]] :=
  ⟨walk_pages roomy_sane (by decide) (by decide) _ (by decide) 3 (by decide), by decide, by decide⟩

end Current.Rest
