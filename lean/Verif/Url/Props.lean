import Verif.Url.Encode
/-!
Parsing and composing URLs (C41, C42).
-/
namespace Current.Url
open Current.Persist

/-! ### Lemmas: searching -/

theorem findIdx_at (x : Str) (c : Char) (r : Str) (h : c ∉ x) : (x ++ c :: r).findIdx? (· = c) = some x.length := by
  induction x with
  | nil => simp [List.findIdx?_cons]
  | cons a x ih =>
    have ha : a ≠ c := fun e => h (by simp [e])
    rw [List.cons_append, List.findIdx?_cons, ih (fun hm => h (by simp [hm]))]
    simp [ha]

theorem findIdx_none (x : Str) (c : Char) (h : c ∉ x) : x.findIdx? (· = c) = none := by
  induction x with
  | nil => simp
  | cons a x ih =>
    have ha : a ≠ c := fun e => h (by simp [e])
    rw [List.findIdx?_cons, ih (fun hm => h (by simp [hm]))]
    simp [ha]

/-- The first `c` from the end of `p` on. -/
theorem find_at (p x : Str) (c : Char) (r : Str) (h : c ∉ x) :
    findFrom (p ++ (x ++ c :: r)) c p.length = some (p.length + x.length) := by
  simp only [findFrom, List.drop_left, findIdx_at x c r h, Option.map_some]
  congr 1; omega

theorem find_none (p x : Str) (c : Char) (h : c ∉ x) : findFrom (p ++ x) c p.length = none := by
  simp only [findFrom, List.drop_left, findIdx_none x c h, Option.map_none]

theorem find_at0 (x : Str) (c : Char) (r : Str) (h : c ∉ x) : findFrom (x ++ c :: r) c 0 = some x.length := by
  have := find_at [] x c r h
  simpa using this

theorem find_none0 (x : Str) (c : Char) (h : c ∉ x) : findFrom x c 0 = none := by
  have := find_none [] x c h
  simpa using this

/-- What a search finds. -/
theorem find_some {s : Str} {c : Char} {off k : Nat} (h : findFrom s c off = some k) :
    off ≤ k ∧ ∃ x r, s.drop off = x ++ c :: r ∧ c ∉ x ∧ x.length = k - off := by
  simp only [findFrom, Option.map_eq_some_iff] at h
  obtain ⟨j, hj, rfl⟩ := h
  refine ⟨by omega, ?_⟩
  generalize s.drop off = t at hj
  clear s
  induction t generalizing j with
  | nil => simp at hj
  | cons a t ih =>
    rw [List.findIdx?_cons] at hj
    by_cases ha : a = c
    · subst ha
      simp at hj
      subst hj
      exact ⟨[], t, rfl, by simp, by simp⟩
    · simp only [ha, decide_false] at hj
      cases hf : t.findIdx? (· = c) with
      | none => rw [hf] at hj; simp at hj
      | some i =>
        rw [hf] at hj
        simp at hj
        obtain ⟨x, r, h1, h2, h3⟩ := ih i hf
        exact ⟨a :: x, r, by simp [h1], by simp [h2]; exact fun e => ha e.symm, by simp [h3]; omega⟩

theorem slice_at (p x r : Str) : slice (p ++ (x ++ r)) p.length (some (p.length + x.length)) = x := by
  simp only [slice, List.drop_left]
  have : p.length + x.length - p.length = x.length := by omega
  rw [this, List.take_left]

theorem slashes_at (x r : Str) (h : '/' ∉ x) : findSlashes (x ++ '/' :: '/' :: r) = some x.length := by
  induction x with
  | nil => simp [findSlashes]
  | cons a x ih =>
    have ha : a ≠ '/' := fun e => h (by simp [e])
    have hx := ih (fun hm => h (by simp [hm]))
    rw [List.cons_append, findSlashes]
    · rw [hx]; simp
    · intro t e; exact absurd e ha

/-! ### Lemmas: the query string -/

/-- The chunks of the query. -/
def chunk (kv : Str × Str) : Str := encodeURI kv.1 ++ ['='] ++ encodeURI kv.2

def isByte (s : Str) : Prop := ∀ c ∈ s, c.toNat < 256
def isAscii (s : Str) : Prop := ∀ c ∈ s, c.toNat < 128

theorem isAscii.byte {s : Str} (h : isAscii s) : isByte s := fun c hc => by have := h c hc; omega

theorem composeLoop_false (l : List (Str × Str)) : composeLoop false l = (l.map fun kv => '&' :: chunk kv).flatten := by
  induction l with
  | nil => rfl
  | cons kv l ih => simp [composeLoop, ih, chunk]

theorem composeLoop_true (l : List (Str × Str)) :
    composeLoop true l = if l = [] then [] else '?' :: Strings.joined ['&'] (l.map chunk) := by
  cases l with
  | nil => rfl
  | cons kv l =>
    simp only [composeLoop, if_true, composeLoop_false, List.map_cons, reduceCtorEq, if_false, Strings.joined_cons]
    simp [chunk, List.map_map, Function.comp_def]

theorem chunk_ok (kv : Str × Str) (h1 : isByte kv.1) (h2 : isByte kv.2) :
    '&' ∉ chunk kv ∧ '#' ∉ chunk kv ∧ '?' ∉ chunk kv ∧ chunk kv ≠ [] := by
  have a := encoding_has_no_delimiters kv.1 h1
  have b := encoding_has_no_delimiters kv.2 h2
  refine ⟨?_, ?_, ?_, ?_⟩
  · simp [chunk, a.1, b.1]
  · simp [chunk, a.2.2.1, b.2.2.1]
  · simp [chunk, a.2.2.2.1, b.2.2.2.1]
  · simp [chunk]

theorem keyValue_chunk (kv : Str × Str) (h1 : isByte kv.1) : keyValue (chunk kv) = (encodeURI kv.1, encodeURI kv.2) := by
  have a := encoding_has_no_delimiters kv.1 h1
  have e : chunk kv = encodeURI kv.1 ++ '=' :: encodeURI kv.2 := by simp [chunk]
  have e2 : encodeURI kv.1 ++ '=' :: encodeURI kv.2 = (encodeURI kv.1 ++ ['=']) ++ encodeURI kv.2 := by simp
  unfold keyValue
  rw [e, find_at0 _ _ _ a.2.1]
  simp only
  rw [List.take_left]
  congr 1
  rw [e2]
  have : (encodeURI kv.1).length + 1 = (encodeURI kv.1 ++ ['=']).length := by simp
  rw [this, List.drop_left]

theorem not_mem_joined (c : Char) (hc : c ≠ '&') (l : List Str) (h : ∀ x ∈ l, c ∉ x) : c ∉ Strings.joined ['&'] l := by
  cases l with
  | nil => simp [Strings.joined]
  | cons x l =>
    rw [Strings.joined_cons]
    simp only [List.mem_append, List.mem_flatten, List.mem_map, not_or, not_exists, not_and]
    refine ⟨h x (by simp), ?_⟩
    rintro y ⟨z, hz, rfl⟩
    simp only [List.cons_append, List.nil_append, List.mem_cons, not_or]
    exact ⟨hc, h z (by simp [hz])⟩

/-- The query string, with whatever follows. -/
theorem extract_query (base : Str) (l : List (Str × Str)) (frag : Str) (hb1 : '#' ∉ base) (hb2 : '?' ∉ base)
    (hl : ∀ kv ∈ l, isByte kv.1 ∧ isByte kv.2) :
    extract (base ++ composeParams ⟨l, frag⟩) =
      (⟨l.map fun kv => (decodeURI (encodeURI kv.1), decodeURI (encodeURI kv.2)), frag⟩, base.length) := by
  have hj1 : '#' ∉ Strings.joined ['&'] (l.map chunk) := not_mem_joined _ (by decide) _ (by
    intro x hx; simp only [List.mem_map] at hx; obtain ⟨kv, hkv, rfl⟩ := hx
    exact (chunk_ok kv (hl kv hkv).1 (hl kv hkv).2).2.1)
  have hsplit : (Strings.split (Strings.matchChar '&') false (Strings.joined ['&'] (l.map chunk))).1 = l.map chunk := by
    have := Strings.split_join_skip '&' (l.map chunk) (by
      intro x hx; simp only [List.mem_map] at hx; obtain ⟨kv, hkv, rfl⟩ := hx
      have := chunk_ok kv (hl kv hkv).1 (hl kv hkv).2
      exact ⟨this.1, this.2.2.2⟩)
    rwa [Strings.join_is_joined] at this
  have hmap : ((l.map chunk).map keyValue).map (fun kv => (decodeURI kv.1, decodeURI kv.2)) =
      l.map fun kv => (decodeURI (encodeURI kv.1), decodeURI (encodeURI kv.2)) := by
    rw [List.map_map, List.map_map]
    apply List.map_congr_left
    intro kv hkv
    simp only [Function.comp_apply, keyValue_chunk kv (hl kv hkv).1]
  unfold composeParams
  simp only [composeLoop_true]
  by_cases hl0 : l = []
  · subst hl0
    simp only [if_true, List.nil_append]
    by_cases hf : frag = []
    · subst hf
      simp only [ne_eq, not_true_eq_false, if_false, List.append_nil, extract, find_none0 _ _ hb1, find_none0 _ _ hb2, List.map_nil]
    · simp only [ne_eq, hf, not_false_eq_true, if_true, extract, find_at0 _ _ _ hb1]
      have ed : (base ++ '#' :: frag).drop (base.length + 1) = frag := by
        have e : base ++ '#' :: frag = (base ++ ['#']) ++ frag := by simp
        rw [e]; have : base.length + 1 = (base ++ ['#']).length := by simp
        rw [this, List.drop_left]
      rw [ed]
      cases hq : findFrom (base ++ '#' :: frag) '?' 0 with
      | none => rfl
      | some q =>
        simp only
        rw [if_neg]
        · rfl
        · simp only [before, decide_eq_true_eq]
          obtain ⟨_, x, r, h1, h2, h3⟩ := find_some hq
          intro hlt
          simp only [List.drop_zero] at h1
          have hm : '?' ∈ base := by
            have : (base ++ '#' :: frag)[q]? = (x ++ '?' :: r)[q]? := by rw [h1]
            rw [List.getElem?_append_left hlt] at this
            have e : (x ++ '?' :: r)[q]? = some '?' := by
              have : q = x.length := by omega
              rw [this]; simp
            rw [e] at this
            exact List.mem_of_getElem? this
          exact hb2 hm
  · rw [if_neg hl0]
    by_cases hf : frag = []
    · subst hf
      simp only [ne_eq, not_true_eq_false, if_false, List.append_nil]
      have n1 : '#' ∉ base ++ '?' :: Strings.joined ['&'] (l.map chunk) := by
        simp only [List.mem_append, List.mem_cons, not_or]; exact ⟨hb1, by decide, hj1⟩
      simp only [extract, find_none0 _ _ n1, find_at0 _ _ _ hb2, before, if_true]
      have e : base ++ '?' :: Strings.joined ['&'] (l.map chunk) = (base ++ ['?']) ++ Strings.joined ['&'] (l.map chunk) := by simp
      have ed : (base ++ '?' :: Strings.joined ['&'] (l.map chunk)).drop (base.length + 1) = Strings.joined ['&'] (l.map chunk) := by
        rw [e]; have : base.length + 1 = (base ++ ['?']).length := by simp
        rw [this, List.drop_left]
      rw [ed]
      have et : (Strings.joined ['&'] (l.map chunk)).take ((base ++ '?' :: Strings.joined ['&'] (l.map chunk)).length - (base.length + 1)) =
          Strings.joined ['&'] (l.map chunk) := by
        apply List.take_of_length_le; simp only [List.length_append, List.length_cons]; omega
      rw [et, hsplit, hmap]
    · simp only [ne_eq, hf, not_false_eq_true, if_true]
      have n1 : '#' ∉ base ++ '?' :: Strings.joined ['&'] (l.map chunk) := by
        simp only [List.mem_append, List.mem_cons, not_or]; exact ⟨hb1, by decide, hj1⟩
      have e0 : base ++ ('?' :: Strings.joined ['&'] (l.map chunk) ++ '#' :: frag) =
          (base ++ '?' :: Strings.joined ['&'] (l.map chunk)) ++ '#' :: frag := by simp
      have e0' : base ++ ('?' :: Strings.joined ['&'] (l.map chunk) ++ '#' :: frag) =
          base ++ '?' :: (Strings.joined ['&'] (l.map chunk) ++ '#' :: frag) := by simp
      have f1 : findFrom (base ++ ('?' :: Strings.joined ['&'] (l.map chunk) ++ '#' :: frag)) '#' 0 =
          some (base ++ '?' :: Strings.joined ['&'] (l.map chunk)).length := by rw [e0, find_at0 _ _ _ n1]
      have f2 : findFrom (base ++ ('?' :: Strings.joined ['&'] (l.map chunk) ++ '#' :: frag)) '?' 0 = some base.length := by
        rw [e0', find_at0 _ _ _ hb2]
      have hlt : before base.length (some (base ++ '?' :: Strings.joined ['&'] (l.map chunk)).length) = true := by
        simp [before]
      simp only [extract, f1, f2, hlt, if_true]
      have ed : (base ++ ('?' :: Strings.joined ['&'] (l.map chunk) ++ '#' :: frag)).drop (base.length + 1) =
          Strings.joined ['&'] (l.map chunk) ++ '#' :: frag := by
        have e : base ++ ('?' :: Strings.joined ['&'] (l.map chunk) ++ '#' :: frag) =
          (base ++ ['?']) ++ (Strings.joined ['&'] (l.map chunk) ++ '#' :: frag) := by simp
        rw [e]; have : base.length + 1 = (base ++ ['?']).length := by simp
        rw [this, List.drop_left]
      have ef : (base ++ ('?' :: Strings.joined ['&'] (l.map chunk) ++ '#' :: frag)).drop
          ((base ++ '?' :: Strings.joined ['&'] (l.map chunk)).length + 1) = frag := by
        have e : base ++ ('?' :: Strings.joined ['&'] (l.map chunk) ++ '#' :: frag) =
          (base ++ '?' :: Strings.joined ['&'] (l.map chunk) ++ ['#']) ++ frag := by simp
        rw [e]; have : (base ++ '?' :: Strings.joined ['&'] (l.map chunk)).length + 1 =
          (base ++ '?' :: Strings.joined ['&'] (l.map chunk) ++ ['#']).length := by simp; omega
        rw [this, List.drop_left]
      have et : (Strings.joined ['&'] (l.map chunk) ++ '#' :: frag).take
          ((base ++ '?' :: Strings.joined ['&'] (l.map chunk)).length - (base.length + 1)) = Strings.joined ['&'] (l.map chunk) := by
        have : (base ++ '?' :: Strings.joined ['&'] (l.map chunk)).length - (base.length + 1) = (Strings.joined ['&'] (l.map chunk)).length := by
          simp only [List.length_append, List.length_cons]; omega
        rw [this, List.take_left]
      rw [ed, ef, et, hsplit, hmap]

/-! ### Lemmas: the rest -/

theorem find_ge {p x r : Str} {c : Char} {k : Nat} (hx : c ∉ x) (h : findFrom (p ++ (x ++ r)) c p.length = some k) :
    p.length + x.length ≤ k := by
  obtain ⟨hle, y, t, h1, h2, h3⟩ := find_some h
  rw [List.drop_left] at h1
  by_cases hlt : k < p.length + x.length
  · exfalso
    apply hx
    have : (x ++ r)[k - p.length]? = (y ++ c :: t)[k - p.length]? := by rw [h1]
    rw [List.getElem?_append_left (by omega), ← h3] at this
    simp at this
    exact List.mem_of_getElem? this
  · omega

theorem atoi_dec_int (n : Nat) (hn : n ≤ 2147483647) (r : Str) (hr : ∀ c, r.head? = some c → c.isDigit = false) : atoi (dec n ++ r) = some (n : Int) := by
  have h0 := takeWhile_dec n r hr
  cases hd : dec n with
  | nil => exact absurd hd (dec_ne_nil n)
  | cons c l =>
    have hc : c.isDigit = true := dec_isDigit (n := n) (by simp [hd])
    have hsp : isSpace c = false := by
      cases h : isSpace c with
      | false => rfl
      | true =>
        exfalso
        simp only [isSpace, Bool.or_eq_true, decide_eq_true_eq] at h
        rcases h with ((((h | h) | h) | h) | h) | h <;> (subst h; exact absurd hc (by decide))
    have hm : c ≠ '-' := by rintro rfl; exact absurd hc (by decide)
    have hp : c ≠ '+' := by rintro rfl; exact absurd hc (by decide)
    have e1 : (c :: l ++ r).dropWhile isSpace = c :: l ++ r := by simp [hsp]
    have e2 : sign (c :: l ++ r) = (false, c :: l ++ r) := by
      unfold sign
      split
      · rename_i h; injection h with h; exact absurd h hm
      · rename_i h; injection h with h; exact absurd h hp
      · rfl
    have hv : Nat.ofDigitChars 10 (dec n) 0 = n := by
      have := readNat_dec n [] (by simp)
      simp only [List.append_nil, readNat] at this
      split at this
      · cases this
      · have h1 := (takeWhile_dec n [] (by simp)).1
        rw [List.append_nil] at h1
        rw [h1] at this
        simp only [Option.some.injEq, Prod.mk.injEq] at this
        exact this.1
    unfold atoi
    simp only [e1, e2]
    rw [← hd, h0.1, hv]
    simp only [Bool.false_eq_true, if_false]
    rw [if_pos (by omega)]

theorem atoi_dec (n : Nat) (hn : n < 65536) (r : Str) (hr : ∀ c, r.head? = some c → c.isDigit = false) : atoi (dec n ++ r) = some (n : Int) :=
  atoi_dec_int n (by omega) r hr

/-- What `ComposeURL` writes before the host. -/
def auth (user pass : Str) : Str :=
  if user ≠ [] then user ++ (if pass ≠ [] then ':' :: pass else []) ++ ['@'] else []

def portText (port : Nat) : Str := if 0 < port then ':' :: dec port else []

theorem digit_ne {c : Char} (h : c.isDigit = true) : c ≠ '/' ∧ c ≠ '@' ∧ c ≠ ':' ∧ c ≠ '?' ∧ c ≠ '#' := by
  refine ⟨?_, ?_, ?_, ?_, ?_⟩ <;> (rintro rfl; exact absurd h (by decide))

theorem portText_ne (port : Nat) (c : Char) (h : c ∈ portText port) : c = ':' ∨ c.isDigit = true := by
  unfold portText at h
  split at h
  · rcases List.mem_cons.mp h with rfl | h
    · left; rfl
    · right; exact dec_isDigit h
  · cases h

/-- Parsing what `ComposeURL` writes for a URL with a host. -/
theorem parse_absolute (s user pass host path : Str) (port : Nat) (hs : '/' ∉ s)
    (hu : '/' ∉ user ∧ '@' ∉ user ∧ ':' ∉ user) (hp : '/' ∉ pass ∧ '@' ∉ pass) (hup : user = [] → pass = [])
    (hh : '/' ∉ host ∧ '@' ∉ host ∧ ':' ∉ host) (hport : port < 65536) (hpath : ∃ r, path = '/' :: r) :
    parseBase ((s ++ [':', '/', '/']) ++ (auth user pass ++ (host ++ (portText port ++ path)))) =
      .ok ⟨host, path, s, port, user, pass⟩ := by
  obtain ⟨r, rfl⟩ := hpath
  have hP : '/' ∉ portText port ∧ '@' ∉ portText port := by
    constructor <;> (intro h; rcases portText_ne _ _ h with h | h; · cases h
                     · exact absurd h (by decide))
  have hA : '/' ∉ auth user pass := by
    unfold auth
    split
    · simp only [List.mem_append, List.mem_singleton, not_or]
      refine ⟨⟨hu.1, ?_⟩, by decide⟩
      split
      · simp only [List.mem_cons, not_or]; exact ⟨by decide, hp.1⟩
      · simp
    · simp
  generalize hu0 : (s ++ [':', '/', '/']) ++ (auth user pass ++ (host ++ (portText port ++ '/' :: r))) = url
  have hne : url ≠ [] := by rw [← hu0]; simp
  -- the scheme
  have h1 : parseScheme url = (s, (s ++ [':', '/', '/']).length) := by
    have e : url = (s ++ [':']) ++ '/' :: '/' :: (auth user pass ++ (host ++ (portText port ++ '/' :: r))) := by rw [← hu0]; simp
    have hf : findSlashes url = some (s.length + 1) := by
      rw [e, slashes_at _ _ (by simp only [List.mem_append, List.mem_singleton, not_or]; exact ⟨hs, by decide⟩)]; simp
    have hg : url.getD (s.length + 1 - 1) '\x00' = ':' := by rw [e]; simp
    have ht : url.take (s.length + 1 - 1) = s := by
      have : url = s ++ ':' :: '/' :: '/' :: (auth user pass ++ (host ++ (portText port ++ '/' :: r))) := by rw [e]; simp
      rw [this, Nat.add_sub_cancel, List.take_left]
    simp only [parseScheme, hf]
    rw [if_neg (by omega), if_pos hg, ht]
    simp
  -- the end of the host
  have h2 : findFrom url '/' (s ++ [':', '/', '/']).length =
      some ((s ++ [':', '/', '/']).length + (auth user pass ++ (host ++ portText port)).length) := by
    have e : url = (s ++ [':', '/', '/']) ++ ((auth user pass ++ (host ++ portText port)) ++ '/' :: r) := by rw [← hu0]; simp
    rw [e, find_at]
    simp only [List.mem_append, not_or]
    exact ⟨hA, hh.1, hP.1⟩
  -- the user
  have h3 : parseUser url (s ++ [':', '/', '/']).length (some ((s ++ [':', '/', '/']).length + (auth user pass ++ (host ++ portText port)).length)) =
      (user, pass, ((s ++ [':', '/', '/']) ++ auth user pass).length) := by
    by_cases hu1 : user = []
    · have hp1 := hup hu1
      subst hu1; subst hp1
      have hau : auth [] [] = [] := rfl
      rw [hau] at hu0 ⊢
      simp only [List.nil_append, List.append_nil]
      have e : url = (s ++ [':', '/', '/']) ++ ((host ++ portText port) ++ '/' :: r) := by rw [← hu0]; simp
      unfold parseUser
      cases hf : findFrom url '@' (s ++ [':', '/', '/']).length with
      | none => rfl
      | some k =>
        simp only
        rw [e] at hf
        have hge := find_ge (by simp only [List.mem_append, not_or]; exact ⟨hh.2.1, hP.2⟩) hf
        rw [if_neg]
        simp only [before, decide_eq_true_eq]
        omega
    · by_cases hp1 : pass = []
      · have hau : auth user pass = user ++ ['@'] := by simp [auth, hu1, hp1]
        rw [hau] at hu0 ⊢
        have e : url = (s ++ [':', '/', '/']) ++ (user ++ '@' :: (host ++ (portText port ++ '/' :: r))) := by rw [← hu0]; simp
        have hf : findFrom url '@' (s ++ [':', '/', '/']).length = some ((s ++ [':', '/', '/']).length + user.length) := by
          rw [e, find_at _ _ _ _ hu.2.1]
        have hsl : slice url (s ++ [':', '/', '/']).length (some ((s ++ [':', '/', '/']).length + user.length)) = user := by
          rw [e, slice_at]
        have hb : before ((s ++ [':', '/', '/']).length + user.length)
            (some ((s ++ [':', '/', '/']).length + (user ++ ['@'] ++ (host ++ portText port)).length)) = true := by
          simp only [before, List.length_append, List.length_cons, List.length_nil, decide_eq_true_eq]; omega
        have hlen : (s ++ [':', '/', '/']).length + user.length + 1 = ((s ++ [':', '/', '/']) ++ (user ++ ['@'])).length := by
          simp only [List.length_append, List.length_cons, List.length_nil]; omega
        unfold parseUser
        simp only [hf, hb, if_true]
        cases hc : findFrom url ':' (s ++ [':', '/', '/']).length with
        | none => simp only [hsl, hp1, hlen]
        | some k =>
          simp only
          have hge : (s ++ [':', '/', '/']).length + user.length ≤ k := by
            rw [e] at hc
            exact find_ge hu.2.2 hc
          rw [if_neg (by omega), hsl, hp1, hlen]
      · have hau : auth user pass = user ++ (':' :: pass ++ ['@']) := by simp [auth, hu1, hp1]
        rw [hau] at hu0 ⊢
        have e : url = (s ++ [':', '/', '/']) ++ ((user ++ ':' :: pass) ++ '@' :: (host ++ (portText port ++ '/' :: r))) := by
          rw [← hu0]; simp
        have e' : url = (s ++ [':', '/', '/']) ++ (user ++ ':' :: (pass ++ '@' :: (host ++ (portText port ++ '/' :: r)))) := by
          rw [← hu0]; simp
        have e'' : url = ((s ++ [':', '/', '/']) ++ (user ++ [':'])) ++ (pass ++ '@' :: (host ++ (portText port ++ '/' :: r))) := by
          rw [← hu0]; simp
        have hf : findFrom url '@' (s ++ [':', '/', '/']).length = some ((s ++ [':', '/', '/']).length + (user ++ ':' :: pass).length) := by
          rw [e, find_at]
          simp only [List.mem_append, List.mem_cons, not_or]
          exact ⟨hu.2.1, by decide, hp.2⟩
        have hc : findFrom url ':' (s ++ [':', '/', '/']).length = some ((s ++ [':', '/', '/']).length + user.length) := by
          rw [e', find_at _ _ _ _ hu.2.2]
        have hsl : slice url (s ++ [':', '/', '/']).length (some ((s ++ [':', '/', '/']).length + user.length)) = user := by
          rw [e', slice_at]
        have hl1 : (s ++ [':', '/', '/']).length + user.length + 1 = ((s ++ [':', '/', '/']) ++ (user ++ [':'])).length := by
          simp only [List.length_append, List.length_cons, List.length_nil]; omega
        have hl2 : (s ++ [':', '/', '/']).length + (user ++ ':' :: pass).length =
            ((s ++ [':', '/', '/']) ++ (user ++ [':'])).length + pass.length := by
          simp only [List.length_append, List.length_cons, List.length_nil]; omega
        have hsp : slice url ((s ++ [':', '/', '/']).length + user.length + 1) (some ((s ++ [':', '/', '/']).length + (user ++ ':' :: pass).length)) = pass := by
          rw [hl1, hl2, e'', slice_at]
        have hb : before ((s ++ [':', '/', '/']).length + (user ++ ':' :: pass).length)
            (some ((s ++ [':', '/', '/']).length + (user ++ (':' :: pass ++ ['@']) ++ (host ++ portText port)).length)) = true := by
          simp only [before, List.length_append, List.length_cons, List.length_nil, decide_eq_true_eq]; omega
        have hlen : (s ++ [':', '/', '/']).length + (user ++ ':' :: pass).length + 1 =
            ((s ++ [':', '/', '/']) ++ (user ++ (':' :: pass ++ ['@']))).length := by
          simp only [List.length_append, List.length_cons, List.length_nil]; omega
        have hlt : (s ++ [':', '/', '/']).length + user.length < (s ++ [':', '/', '/']).length + (user ++ ':' :: pass).length := by
          simp only [List.length_append, List.length_cons]; omega
        unfold parseUser
        simp only [hf, hb, if_true, hc]
        rw [if_pos hlt, hsl, hsp, hlen]
  -- the host and the port
  have h4 : parseHost url ((s ++ [':', '/', '/']) ++ auth user pass).length
      (some ((s ++ [':', '/', '/']).length + (auth user pass ++ (host ++ portText port)).length)) = some (host, port) := by
    have e : url = ((s ++ [':', '/', '/']) ++ auth user pass) ++ (host ++ (portText port ++ '/' :: r)) := by rw [← hu0]; simp
    have hlen : (s ++ [':', '/', '/']).length + (auth user pass ++ (host ++ portText port)).length =
        ((s ++ [':', '/', '/']) ++ auth user pass).length + (host ++ portText port).length := by
      simp only [List.length_append]; omega
    rw [hlen]
    generalize ((s ++ [':', '/', '/']) ++ auth user pass) = pre at e
    by_cases hp0 : 0 < port
    · have hpt : portText port = ':' :: dec port := by simp [portText, hp0]
      rw [hpt] at e ⊢
      have hf : findFrom url ':' pre.length = some (pre.length + host.length) := by
        rw [e]; exact find_at pre host ':' _ hh.2.2
      have hb : before (pre.length + host.length) (some (pre.length + (host ++ ':' :: dec port).length)) = true := by
        simp only [before, List.length_append, List.length_cons, decide_eq_true_eq]; omega
      have hd : url.drop (pre.length + host.length + 1) = dec port ++ '/' :: r := by
        have e2 : url = (pre ++ (host ++ [':'])) ++ (dec port ++ '/' :: r) := by rw [e]; simp
        have : pre.length + host.length + 1 = (pre ++ (host ++ [':'])).length := by
          simp only [List.length_append, List.length_cons, List.length_nil]; omega
        rw [e2, this, List.drop_left]
      have hsl : slice url pre.length (some (pre.length + host.length)) = host := by rw [e, slice_at]
      simp only [parseHost, hf, hb, if_true, hd, hsl]
      rw [atoi_dec port hport _ (by intro c h; simp at h; subst h; decide)]
      simp only [Option.map_some, Option.some.injEq, Prod.mk.injEq, true_and]
      omega
    · have hpt : portText port = [] := by simp [portText, hp0]
      have hz : port = 0 := by omega
      rw [hpt] at e ⊢
      simp only [List.nil_append] at e
      have hsl : slice url pre.length (some (pre.length + host.length)) = host := by rw [e, slice_at]
      simp only [List.append_nil]
      unfold parseHost
      cases hf : findFrom url ':' pre.length with
      | none => simp only [hsl, hz]
      | some k =>
        simp only
        rw [e] at hf
        have hge := find_ge hh.2.2 hf
        rw [if_neg (by simp only [before, decide_eq_true_eq]; omega), hsl, hz]
  -- the path
  have h5 : parsePath url (some ((s ++ [':', '/', '/']).length + (auth user pass ++ (host ++ portText port)).length)) = '/' :: r := by
    have e : url = ((s ++ [':', '/', '/']) ++ (auth user pass ++ (host ++ portText port))) ++ '/' :: r := by rw [← hu0]; simp
    have hl : (s ++ [':', '/', '/']).length + (auth user pass ++ (host ++ portText port)).length =
        ((s ++ [':', '/', '/']) ++ (auth user pass ++ (host ++ portText port))).length := by
      simp only [List.length_append]
    simp only [parsePath]
    rw [hl, e, List.drop_left]
    simp
  simp only [parseBase, if_neg hne, h1, h2, h3, h4, h5]

end Current.Url
