import Verif.Net.Headers
import Verif.Net.Props

/-!
Sequences of calls on `Headers`; what the server's `headers` are after a request; cookies.
-/
namespace Current.Net
open Current.Persist Current.Strings Current.Url

/-! ### Sequences -/

inductive HOp where
  | set (name value : Str)
  | assign (name value : Str)
  | remove (name : Str)
  /-- the copy constructor, or a copy into a new variable -/
  | copy

/-- A call on the container. -/
def HOp.run (h : Hdrs) : HOp → Option Hdrs
  | .set n v => h.set n v
  | .assign n v => h.assign n v
  | .remove n => h.remove n
  | .copy => some (({} : Hdrs).copyFrom h.contents)

def runOps (h : Hdrs) : List HOp → Option Hdrs
  | [] => some h
  | o :: os => (o.run h).bind fun h' => runOps h' os

/-- The same on a list of names and values. -/
def HOp.spec (l : List (Str × Str)) : HOp → List (Str × Str)
  | .set n v => if n = [] then l else update l n fun old => addValue old v
  | .assign n v => update l n fun _ => v
  | .remove n => erase l n
  | .copy => l

def HOp.name : HOp → Str
  | .set n _ => n
  | .assign n _ => n
  | .remove n => n
  | .copy => []

/-- No call names a cookie header, and `Remove` uses the spelling under which the header is there. -/
def OpsOk : List (Str × Str) → List HOp → Prop
  | _, [] => True
  | l, o :: os => (¬ SameName o.name kCookie ∧ ¬ SameName o.name kSetCookie) ∧
      (∀ n, o = .remove n → ∀ e ∈ l, SameName e.1 n → e.1 = n) ∧ OpsOk (o.spec l) os

theorem Good.contents_distinct {h : Hdrs} (g : Good h) : h.contents.Pairwise fun a b => ¬ SameName a.1 b.1 := by
  unfold Hdrs.contents
  rw [List.pairwise_map]
  exact g.distinct

/-- **C58** Any sequence of `Set`, `[] =`, `Remove` and copies: iteration gives the headers of the specification, in their order, and never freed
memory; `Get` finds each of them under any spelling. -/
theorem ops_spec : ∀ (os : List HOp) {h : Hdrs} (_ : Good h) (_ : OpsOk h.contents os),
    ∃ h', runOps h os = some h' ∧ Good h' ∧ h'.view = (os.foldl HOp.spec h.contents).map some ∧
      ∀ name, h'.get name = lookup (os.foldl HOp.spec h.contents) name
  | [], h, g, _ => ⟨h, rfl, g, g.view, fun n => (get_spec g n).1⟩
  | o :: os, h, g, hok => by
    obtain ⟨⟨hn, hn'⟩, hr, hok⟩ := hok
    have key : ∃ h1, o.run h = some h1 ∧ Good h1 ∧ h1.contents = o.spec h.contents := by
      cases o with
      | set n v =>
        by_cases hne : n = []
        · subst hne
          have hc : isCookieHeader [] = false := by decide
          exact ⟨h, by simp [HOp.run, Hdrs.set, hc], g, by simp [HOp.spec]⟩
        · obtain ⟨h1, a, b, c⟩ := set_spec g hn hn' hne v
          exact ⟨h1, a, b, by simp [HOp.spec, hne, c, HOp.name]⟩
      | assign n v => exact assign_spec g hn hn' v
      | remove n => exact remove_spec g hn hn' (hr n rfl)
      | copy =>
        obtain ⟨a, b⟩ := copy_spec empty_good h.contents g.contents_distinct (by simp [Hdrs.contents])
        exact ⟨_, rfl, a, by rw [b]; simp [Hdrs.contents, HOp.spec]⟩
    obtain ⟨h1, a, b, c⟩ := key
    rw [← c] at hok
    obtain ⟨h', d, e, f, i⟩ := ops_spec os b hok
    refine ⟨h', by simp [runOps, a, d], e, ?_, ?_⟩
    · rw [f, c]; rfl
    · intro name; rw [i, c]; rfl

/-! ### Cookies -/

/-- `Trim`, bricks/strings/util.h:278-290. -/
def trim (s : Str) : Str := ((s.dropWhile isSpace).reverse.dropWhile isSpace).reverse

/-- `cookies.emplace(name, value)`: an existing one stays. -/
def emplace (m : List (Str × Str)) (k v : Str) : List (Str × Str) :=
  if m.any fun e => e.1 = k then m else m ++ [(k, v)]

/-- `ApplyCookieHeader`, headers.h:331-335. -/
def applyCookieHeader (m : List (Str × Str)) (value : Str) : List (Str × Str) :=
  ((keyValuePairs (matchChar '=') (matchChar ';') false value).getD []).foldl (fun m kv => emplace m (trim kv.1) (trim kv.2)) m

/-- The loop of `CookiesAsString`, headers.h:393-405. -/
def cookiesLoop : List (Str × Str) → Str → Str
  | [], acc => acc
  | c :: cs, acc => cookiesLoop cs ((if acc ≠ [] then acc ++ [';', ' '] else acc) ++ c.1 ++ ['='] ++ c.2)

def cookiesAsString (m : List (Str × Str)) : Str := if m = [] then [] else cookiesLoop m []

/-- `SetHeaderOrCookie` (headers.h:336-342), for each header the parser has passed on (`OnHeader`, server.h:340). -/
structure Seen where
  headers : Hdrs := {}
  cookies : List (Str × Str) := []

def Seen.onHeader (s : Seen) (h : Str × Str) : Option Seen :=
  if isCookieHeader h.1 then some { s with cookies := applyCookieHeader s.cookies h.2 }
  else (s.headers.set h.1 h.2).map fun x => { s with headers := x }

def Seen.onHeaders : Seen → List (Str × Str) → Option Seen
  | s, [] => some s
  | s, h :: hs => (s.onHeader h).bind fun s' => s'.onHeaders hs

/-! #### Proofs -/

/-- A name or a value of a cookie that survives: not empty, no `=`, no `;`, no white space at its ends. -/
structure CookiePart (s : Str) : Prop where
  ne : s ≠ []
  chars : '=' ∉ s ∧ ';' ∉ s
  first : ∀ c, s.head? = some c → isSpace c = false
  last : ∀ c, s.getLast? = some c → isSpace c = false

theorem trim_part {s : Str} (h : CookiePart s) : trim s = s ∧ trim (' ' :: s) = s := by
  have e1 : s.dropWhile isSpace = s := dropWhile_head h.first
  have e2 : s.reverse.dropWhile isSpace = s.reverse := dropWhile_head (by simpa using h.last)
  unfold trim
  have e3 : (' ' :: s).dropWhile isSpace = s := by
    have : isSpace ' ' = true := by decide
    simp [this, e1]
  rw [e3, e1, e2, List.reverse_reverse]
  exact ⟨rfl, rfl⟩

theorem cookiesLoop_eq : ∀ (cs : List (Str × Str)) (acc : Str), acc ≠ [] →
    cookiesLoop cs acc = acc ++ (cs.map fun c => [';', ' '] ++ c.1 ++ ['='] ++ c.2).flatten
  | [], acc, _ => by simp [cookiesLoop]
  | c :: cs, acc, h => by
    simp only [cookiesLoop]
    rw [cookiesLoop_eq cs _ (by simp [h])]
    simp [h]

/-- the fields of the text of the cookies at `;` -/
theorem cookies_fields (c : Str × Str) (cs : List (Str × Str)) (hc : ';' ∉ c.1 ∧ ';' ∉ c.2)
    (hcs : ∀ x ∈ cs, ';' ∉ x.1 ∧ ';' ∉ x.2) :
    fields (matchChar ';') (cookiesAsString (c :: cs)) =
      (c.1 ++ '=' :: c.2) :: cs.map fun x => ' ' :: (x.1 ++ '=' :: x.2) := by
  have e : cookiesAsString (c :: cs) =
      (c.1 ++ '=' :: c.2) ++ (cs.map fun c => [';', ' '] ++ c.1 ++ ['='] ++ c.2).flatten := by
    simp only [cookiesAsString, List.cons_ne_nil, if_false, cookiesLoop]
    rw [cookiesLoop_eq cs _ (by simp)]
    simp
  rw [e]
  have ns : ∀ x : Str × Str, ';' ∉ x.1 ∧ ';' ∉ x.2 → ∀ ch ∈ (x.1 ++ '=' :: x.2), matchChar ';' ch = false := by
    intro x hx ch hch
    simp only [List.mem_append, List.mem_cons] at hch
    simp only [matchChar, decide_eq_false_iff_not]
    rintro rfl
    rcases hch with h | h | h
    · exact hx.1 h
    · exact absurd h (by decide)
    · exact hx.2 h
  have key : ∀ (l : List (Str × Str)) (p : Str), (∀ ch ∈ p, matchChar ';' ch = false) → (∀ x ∈ l, ';' ∉ x.1 ∧ ';' ∉ x.2) →
      fields (matchChar ';') (p ++ (l.map fun c => [';', ' '] ++ c.1 ++ ['='] ++ c.2).flatten) =
        p :: l.map fun x => ' ' :: (x.1 ++ '=' :: x.2) := by
    intro l
    induction l with
    | nil => intro p hp _; simpa using fields_nosep _ _ hp
    | cons x l ih =>
      intro p hp hl
      have e : p ++ ((x :: l).map fun c => [';', ' '] ++ c.1 ++ ['='] ++ c.2).flatten =
          p ++ ';' :: ((' ' :: (x.1 ++ '=' :: x.2)) ++ (l.map fun c => [';', ' '] ++ c.1 ++ ['='] ++ c.2).flatten) := by
        simp
      rw [e, fields_append_sep _ _ _ _ hp (by decide), ih _ ?_ (fun y hy => hl y (by simp [hy]))]
      · simp
      · intro ch hch
        rcases List.mem_cons.1 hch with rfl | hch
        · decide
        · exact ns x (hl x (by simp)) ch hch
  exact key cs _ (ns c hc) hcs

theorem pair_fields {k v : Str} (hk : k ≠ []) (hv : v ≠ []) (h1 : '=' ∉ k) (h2 : '=' ∉ v) :
    (split (matchChar '=') false (k ++ '=' :: v)).1 = [k, v] := by
  rw [(split_is_fields _ _ _).1]
  have n1 : ∀ c ∈ k, matchChar '=' c = false := by
    intro c hc; simp only [matchChar, decide_eq_false_iff_not]; rintro rfl; exact h1 hc
  have n2 : ∀ c ∈ v, matchChar '=' c = false := by
    intro c hc; simp only [matchChar, decide_eq_false_iff_not]; rintro rfl; exact h2 hc
  rw [fields_append_sep _ _ _ _ n1 (by decide), fields_nosep _ _ n2]
  simp [hk, hv]

theorem kv_fold (l : List (Str × Str)) (hl : ∀ x ∈ l, x.1 ≠ [] ∧ x.2 ≠ [] ∧ '=' ∉ x.1 ∧ '=' ∉ x.2) :
    ∀ acc : List (Str × Str), (l.map fun x => x.1 ++ '=' :: x.2).foldl (fun acc f =>
      match acc with
      | none => none
      | some l =>
        match (split (matchChar '=') false f).1 with
        | [k, v] => some (l ++ [(k, v)])
        | _ => if false then none else some l) (some acc) = some (acc ++ l) := by
  induction l with
  | nil => intro acc; simp
  | cons x l ih =>
    intro acc
    obtain ⟨a, b, c, d⟩ := hl x (by simp)
    simp only [List.map_cons, List.foldl_cons]
    rw [pair_fields a b c d]
    dsimp only
    rw [ih (fun y hy => hl y (by simp [hy]))]
    simp

theorem emplace_fold (l : List (Str × Str)) : ∀ (m : List (Str × Str)), (l.map Prod.fst).Nodup → (∀ x ∈ l, ∀ e ∈ m, e.1 ≠ x.1) →
    l.foldl (fun m kv => emplace m kv.1 kv.2) m = m ++ l := by
  induction l with
  | nil => intro m _ _; simp
  | cons x l ih =>
    intro m hn hd
    simp only [List.map_cons, List.nodup_cons] at hn
    simp only [List.foldl_cons]
    have : emplace m x.1 x.2 = m ++ [x] := by
      unfold emplace
      rw [if_neg]
      simp only [List.any_eq_true, decide_eq_true_eq, not_exists, not_and]
      exact hd x (by simp)
    rw [this, ih _ hn.2 ?_]
    · simp
    · intro y hy e he
      rcases List.mem_append.1 he with he | he
      · exact hd y (by simp [hy]) e he
      · simp at he; subst he
        intro h
        exact hn.1 (by rw [h]; exact List.mem_map.2 ⟨y, hy, rfl⟩)

/-- **C58** Cookies survive the way from the client to the server, if their names and values have no `=`, no `;`, no white space at their ends and are not
empty. -/
theorem cookies_round_trip (cs : List (Str × Str)) (hn : (cs.map Prod.fst).Nodup)
    (hp : ∀ c ∈ cs, CookiePart c.1 ∧ CookiePart c.2) : applyCookieHeader [] (cookiesAsString cs) = cs := by
  cases cs with
  | nil => decide
  | cons c cs =>
    have hf := cookies_fields c cs ⟨(hp c (by simp)).1.chars.2, (hp c (by simp)).2.chars.2⟩
      (fun x hx => ⟨(hp x (by simp [hx])).1.chars.2, (hp x (by simp [hx])).2.chars.2⟩)
    have hsplit : (split (matchChar ';') false (cookiesAsString (c :: cs))).1 =
        ((c :: cs.map fun x => (' ' :: x.1, x.2)).map fun x => x.1 ++ '=' :: x.2) := by
      rw [(split_is_fields _ _ _).1, hf]
      simp only [Bool.false_eq_true, if_false, List.map_cons, List.map_map]
      rw [List.filter_eq_self.2]
      · rfl
      · intro a ha
        simp only [List.mem_cons, List.mem_map] at ha
        rcases ha with rfl | ⟨x, _, rfl⟩ <;> simp
    have hkv : keyValuePairs (matchChar '=') (matchChar ';') false (cookiesAsString (c :: cs)) =
        some (c :: cs.map fun x => (' ' :: x.1, x.2)) := by
      unfold keyValuePairs
      rw [hsplit]
      have := kv_fold (c :: cs.map fun x => (' ' :: x.1, x.2)) ?_ []
      · rw [List.nil_append] at this
        exact this
      · intro x hx
        simp only [List.mem_cons, List.mem_map] at hx
        rcases hx with rfl | ⟨y, hy, rfl⟩
        · obtain ⟨a, b⟩ := hp x (by simp)
          exact ⟨a.ne, b.ne, a.chars.1, b.chars.1⟩
        · obtain ⟨a, b⟩ := hp y (by simp [hy])
          exact ⟨by simp, b.ne, by simp [a.chars.1], b.chars.1⟩
    unfold applyCookieHeader
    rw [hkv]
    simp only [Option.getD_some]
    have e : ∀ m, (c :: cs.map fun x => (' ' :: x.1, x.2)).foldl (fun m kv => emplace m (trim kv.1) (trim kv.2)) m =
        (c :: cs).foldl (fun m kv => emplace m kv.1 kv.2) m := by
      intro m
      have : ∀ (l : List (Str × Str)) m, (∀ x ∈ l, CookiePart x.1 ∧ CookiePart x.2) →
          (l.map fun x => (' ' :: x.1, x.2)).foldl (fun m kv => emplace m (trim kv.1) (trim kv.2)) m =
            l.foldl (fun m kv => emplace m kv.1 kv.2) m := by
        intro l
        induction l with
        | nil => intro m _; rfl
        | cons x l ih =>
          intro m hl
          obtain ⟨a, b⟩ := hl x (by simp)
          simp only [List.map_cons, List.foldl_cons, (trim_part a).2, (trim_part b).1]
          exact ih _ (fun y hy => hl y (by simp [hy]))
      obtain ⟨a, b⟩ := hp c (by simp)
      simp only [List.foldl_cons, (trim_part a).1, (trim_part b).1]
      exact this cs _ (fun x hx => hp x (by simp [hx]))
    rw [e, emplace_fold _ _ hn (by simp)]
    simp

/-- **C58, defects.** A value ending in `=` loses it; one with `=` inside, or an empty one, loses the cookie. -/
theorem cookies_lost :
    applyCookieHeader [] (cookiesAsString [(['a'], ['b', '='])]) = [(['a'], ['b'])] ∧
      applyCookieHeader [] (cookiesAsString [(['a'], ['b', '=', 'c'])]) = [] ∧
      applyCookieHeader [] (cookiesAsString [(['a'], [])]) = [] := by decide

/-! ### What a handler sees -/

/-- Names of regular headers, all different. -/
structure Regular (l : List (Str × Str)) : Prop where
  distinct : l.Pairwise fun a b => ¬ SameName a.1 b.1
  names : ∀ x ∈ l, x.1 ≠ [] ∧ ¬ SameName x.1 kCookie ∧ ¬ SameName x.1 kSetCookie

theorem onHeaders_regular : ∀ (l : List (Str × Str)) (s : Seen) (_ : Good s.headers) (_ : Regular l)
    (_ : ∀ x ∈ l, ∀ e ∈ s.headers.contents, ¬ SameName e.1 x.1),
    ∃ s', s.onHeaders l = some s' ∧ Good s'.headers ∧ s'.headers.contents = s.headers.contents ++ l ∧ s'.cookies = s.cookies
  | [], s, g, _, _ => ⟨s, rfl, g, by simp, rfl⟩
  | x :: l, s, g, hr, hd => by
    have hp := hr.distinct
    rw [List.pairwise_cons] at hp
    obtain ⟨h0, h1, h2⟩ := hr.names x (by simp)
    obtain ⟨h', a, b, c⟩ := set_spec g h1 h2 h0 x.2
    have hc : isCookieHeader x.1 = false := by
      rw [← Bool.not_eq_true, isCookieHeader_iff]; simp [h1, h2]
    have hcont : h'.contents = s.headers.contents ++ [x] := by
      rw [c, update, if_neg]
      · have : addValue [] x.2 = x.2 := by
          unfold addValue
          by_cases hx : x.2 = [] <;> simp [hx]
        rw [this]
      · simp only [List.any_eq_true, decide_eq_true_eq, not_exists, not_and]
        exact hd x (by simp)
    have hon : s.onHeader x = some { s with headers := h' } := by
      simp [Seen.onHeader, hc, a]
    obtain ⟨s', d, e, f, i⟩ := onHeaders_regular l { s with headers := h' } b ⟨hp.2, fun y hy => hr.names y (by simp [hy])⟩ (by
      intro y hy e he
      dsimp only at he
      rw [hcont] at he
      rcases List.mem_append.1 he with he | he
      · exact hd y (by simp [hy]) e he
      · simp at he; subst he; exact hp.1 y hy)
    refine ⟨s', by simp [Seen.onHeaders, hon, d], e, ?_, i⟩
    rw [f]
    dsimp only
    rw [hcont]
    simp

theorem onHeaders_append : ∀ (a b : List (Str × Str)) (s : Seen), s.onHeaders (a ++ b) = (s.onHeaders a).bind fun s' => s'.onHeaders b
  | [], b, s => rfl
  | x :: a, b, s => by
    simp only [List.cons_append, Seen.onHeaders]
    cases s.onHeader x with
    | none => rfl
    | some s' => exact onHeaders_append a b s'

/-- **C58** End to end: the client sets headers, with different names, and cookies; the handler on the server finds, under any spelling of their names,
these headers, and these cookies. -/
theorem headers_delivered (g : Nat → Nat) (ks : Nat → Nat) {cap : Nat} (h2 : 2 ≤ cap) (q : ClientRequest) (hq : q.Ok)
    (cs : List (Str × Str)) (hcq : q.cookies = cookiesAsString cs) (hn : (cs.map Prod.fst).Nodup)
    (hp : ∀ c ∈ cs, CookiePart c.1 ∧ CookiePart c.2)
    (hr : Regular ([(kHost, q.host)] ++ optHeader kUserAgent q.userAgent ++ q.headers ++ optHeader kContentType q.contentType ++
      if q.body = [] ∧ needContentLength q.method = false then [] else [(kContentLength, dec q.body.length)])) :
    ∃ r s, Ends g ks cap q.wire (.done r) ∧ ({} : Seen).onHeaders r.headers = some s ∧ s.cookies = cs ∧
      (∀ name value, (name, value) ∈ q.headers → ∀ spelling, SameName spelling name → s.headers.get spelling = some value) ∧
      s.headers.view = ([(kHost, q.host)] ++ optHeader kUserAgent q.userAgent ++ q.headers ++ optHeader kContentType q.contentType ++
        if q.body = [] ∧ needContentLength q.method = false then [] else [(kContentLength, dec q.body.length)]).map some := by
  have hd := request_delivered g ks h2 q hq []
  rw [List.append_nil] at hd
  generalize hL : (if q.body = [] ∧ needContentLength q.method = false then [] else [(kContentLength, dec q.body.length)]) = L at *
  generalize hA : [(kHost, q.host)] ++ optHeader kUserAgent q.userAgent ++ q.headers = A at *
  generalize hB : optHeader kContentType q.contentType = B at *
  have hsent : q.sent = A ++ (optHeader kCookie q.cookies ++ (B ++ L)) := by
    unfold ClientRequest.sent
    rw [hL, hA, hB]; simp
  have hall : A ++ B ++ L = A ++ (B ++ L) := by simp
  rw [hall] at hr ⊢
  have hpw := List.pairwise_append.1 hr.distinct
  have hrA : Regular A := ⟨hpw.1, fun x hx => hr.names x (by simp [hx])⟩
  have hrB : Regular (B ++ L) := ⟨hpw.2.1, fun x hx => hr.names x (by simp only [List.mem_append] at *; exact .inr hx)⟩
  obtain ⟨s1, a1, a2, a3, a4⟩ := onHeaders_regular A {} empty_good hrA (by simp [Hdrs.contents])
  have hcont1 : s1.headers.contents = A := by rw [a3]; simp [Hdrs.contents]
  have hck : s1.onHeaders (optHeader kCookie q.cookies) = some { s1 with cookies := cs } := by
    unfold optHeader
    by_cases hc : q.cookies = []
    · have : cs = [] := by
        cases cs with
        | nil => rfl
        | cons c cs =>
          exfalso
          rw [hcq] at hc
          simp only [cookiesAsString, List.cons_ne_nil, if_false, cookiesLoop] at hc
          rw [cookiesLoop_eq cs _ (by simp)] at hc
          simp at hc
      subst this
      rw [if_pos hc]
      simp only [Seen.onHeaders]
      have : s1.cookies = [] := a4
      rw [← this]
    · rw [if_neg hc]
      have h1 : isCookieHeader kCookie = true := by decide
      have h2 : s1.cookies = [] := a4
      simp only [Seen.onHeaders, Seen.onHeader, h1, if_true, h2]
      rw [hcq, cookies_round_trip cs hn hp]
      rfl
  obtain ⟨s2, b1, b2, b3, b4⟩ := onHeaders_regular (B ++ L) { s1 with cookies := cs } a2 hrB (by
    intro x hx e he
    dsimp only at he
    rw [hcont1] at he
    exact hpw.2.2 e he x hx)
  have hcont2 : s2.headers.contents = A ++ (B ++ L) := by rw [b3]; dsimp only; rw [hcont1]
  refine ⟨_, s2, hd, ?_, b4, ?_, ?_⟩
  · dsimp only
    rw [hsent, onHeaders_append, a1]
    simp only [Option.bind_some]
    rw [onHeaders_append, hck]
    simpa using b1
  · intro name value hm sp hs
    rw [(get_spec b2 sp).1, hcont2]
    have hmem : (name, value) ∈ A ++ (B ++ L) := by rw [← hA]; simp [hm]
    unfold lookup
    cases hf : (A ++ (B ++ L)).find? fun e => decide (SameName e.1 sp) with
    | none => exact absurd (by simpa using hs.symm) (List.find?_eq_none.1 hf _ hmem)
    | some e =>
      have h1 : SameName e.1 sp := by simpa using List.find?_some hf
      have := (pairwise_mem (fun _ _ h h' => h h'.symm) hr.distinct (List.mem_of_find?_eq_some hf) hmem).resolve_right
        (fun h => h (h1.trans hs))
      rw [this]; rfl
  · rw [b2.view, hcont2]

/-! ### Concrete cases -/

example : ∃ h', runOps {} [.set ['A','-','b'] ['1'], .set ['a','_','B'] ['2'], .set ['c'] [], .copy, .remove ['c']] = some h' ∧
    h'.view = [some (['A','-','b'], ['1', ',', ' ', '2'])] ∧ h'.get ['A','_','B'] = some ['1', ',', ' ', '2'] := by
  obtain ⟨h', a, _, c, d⟩ := ops_spec [.set ['A','-','b'] ['1'], .set ['a','_','B'] ['2'], .set ['c'] [], .copy, .remove ['c']] empty_good
    (by
      have e : ({} : Hdrs).contents = [] := rfl
      rw [e]
      refine ⟨by decide, by simp, by decide, by simp, by decide, by simp, by decide, by simp, by decide, ?_, trivial⟩
      intro n hn
      injection hn with hn
      subst hn
      decide)
  exact ⟨h', a, by rw [c]; decide, by rw [d]; decide⟩

/-- The hypotheses of `headers_delivered` are met. -/
example : exampleRequest.cookies = cookiesAsString [(['c'], ['1'])] ∧ Regular ([(kHost, exampleRequest.host)] ++
    optHeader kUserAgent exampleRequest.userAgent ++ exampleRequest.headers ++ optHeader kContentType exampleRequest.contentType ++
    if exampleRequest.body = [] ∧ needContentLength exampleRequest.method = false then []
    else [(kContentLength, dec exampleRequest.body.length)]) :=
  ⟨by decide, ⟨by decide, by decide⟩⟩

/-- Those of the two defects: `Remove("x")` after `Set("X", …)`, and an assignment over the same header. -/
example : ∃ h h', ({} : Hdrs).set ['X'] ['1'] = some h ∧ h.remove ['x'] = some h' ∧ none ∈ h'.view ∧
    none ∈ (h.copyFrom [(['X'], ['2'])]).view := by
  obtain ⟨h, a, g, c⟩ := set_spec empty_good (name := ['X']) (by decide) (by decide) (by decide) ['1']
  have hc : h.contents = [(['X'], ['1'])] := by rw [c]; decide
  obtain ⟨h', d, e⟩ := remove_other_spelling_dangles g (name := ['x']) (by decide) (by decide) (n := ['X']) (v := ['1'])
    (by rw [hc]; simp) (by decide) (by decide)
  exact ⟨h, h', a, d, e, assignment_dangles g _ (e := (['X'], ['1'])) (x := (['X'], ['2'])) (by rw [hc]; simp) (by simp) (.refl _)⟩

end Current.Net
