import Verif.Net.Wire
import Verif.Net.Names
import Verif.Url.Props

/-!
What one side writes is what the other side reads.
-/
namespace Current.Net
open Current.Persist Current.Strings Current.Url

/-! ### Lines -/

/-- No line feed and no zero: what can be a line. -/
def Clean (s : Str) : Prop := '\n' ∉ s ∧ '\x00' ∉ s

instance (s : Str) : Decidable (Clean s) := by unfold Clean; infer_instance

theorem Clean.append {a b : Str} (ha : Clean a) (hb : Clean b) : Clean (a ++ b) := by
  simp [Clean] at *; exact ⟨⟨ha.1, hb.1⟩, ha.2, hb.2⟩

theorem crlf_line : ∀ (l rest : Str), Clean l → crlf (l ++ eol ++ rest) = some (l, rest)
  | [], rest, _ => by simp [crlf, eol]
  | [c], rest, h => by
    simp [Clean] at h
    have h2 : c ≠ '\x00' := fun e => h.2 e.symm
    have := crlf_line [] rest (by simp [Clean])
    simp [eol] at this
    simp [crlf, eol, h2]
  | c :: d :: r, rest, h => by
    simp [Clean] at h
    have h2 : c ≠ '\x00' := fun e => h.2.1 e.symm
    have hd : d ≠ '\n' := fun e => h.1.2.1 e.symm
    have ih := crlf_line (d :: r) rest (by simp [Clean]; exact ⟨h.1.2, h.2.2⟩)
    simp only [List.cons_append] at ih ⊢
    rw [crlf]
    rw [if_neg (by simp [hd]), if_neg h2, ih]
    rfl

theorem parse_line {m : M} (l rest : Str) (h : Clean l) : parse m (l ++ eol ++ rest) =
    match handle m l with
    | .more m' => parse m' rest
    | .chunk m' n =>
      if n ≤ rest.length then parse (addChunk m' (rest.take n)) (rest.drop n) else .reset
    | .negative _ => .lengthError
    | .body m' n => if n ≤ rest.length then .done { m'.req with body := rest.take n } else .reset
    | .fin o => o := parse_some (crlf_line l rest h)

/-! ### Headers -/

/-- The value has no space or tab at its ends. -/
def Trimmed (v : Str) : Prop :=
  (∀ c, v.head? = some c → isSpaceOrTab c = false) ∧ ∀ c, v.getLast? = some c → isSpaceOrTab c = false

/-- A header that is just passed on: a name without a colon, other than the three that mean something to the parser. -/
structure Plain (h : Str × Str) : Prop where
  name : Clean h.1 ∧ ':' ∉ h.1
  value : Clean h.2 ∧ Trimmed h.2
  notLength : ¬ SameName h.1 kContentLength
  notMethod : ¬ SameName h.1 kMethodOverride
  notEncoding : ¬ SameName h.1 kTransferEncoding

theorem dropWhile_head {p : Char → Bool} {v : Str} (h : ∀ c, v.head? = some c → p c = false) : v.dropWhile p = v := by
  cases v with
  | nil => rfl
  | cons c r => simp [h c rfl]

theorem trimValue_trimmed {v : Str} (h : Trimmed v) : trimValue (' ' :: v) = v := by
  unfold trimValue
  have e : (' ' :: v).dropWhile isSpaceOrTab = v.dropWhile isSpaceOrTab := by simp [isSpaceOrTab]
  rw [e, dropWhile_head h.1, dropWhile_head (by simpa using h.2), List.reverse_reverse]

theorem splitColon_key : ∀ (k v : Str), ':' ∉ k → splitColon (k ++ ':' :: v) = some (k, v)
  | [], v, _ => by simp [splitColon]
  | c :: k, v, h => by
    simp at h
    have hc : c ≠ ':' := fun e => h.1 e.symm
    simp [splitColon, hc, splitColon_key k v h.2]

theorem handle_header {m : M} (hf : m.firstLineParsed = true) (hc : m.inChunks = false) (line : Str) (hne : line ≠ []) :
    handle m line = handleHeader m line := by
  simp [handle, hf, hc, hne]

def addHeaders (m : M) (hs : List (Str × Str)) : M :=
  { m with req := { m.req with headers := m.req.headers ++ hs } }

theorem headerLine_eq (h : Str × Str) : headerLine h = (h.1 ++ ':' :: ' ' :: h.2) ++ eol := by
  simp [headerLine]

theorem clean_line {k v : Str} (hk : Clean k) (hv : Clean v) : Clean (k ++ ':' :: ' ' :: v) := by
  simp [Clean] at *
  exact ⟨⟨hk.1, hv.1⟩, hk.2, hv.2⟩

theorem parse_header {m : M} (hf : m.firstLineParsed = true) (hc : m.inChunks = false) {h : Str × Str} (hp : Plain h)
    (rest : Str) : parse m (headerLine h ++ rest) = parse (addHeaders m [h]) rest := by
  rw [headerLine_eq, parse_line _ _ (clean_line hp.name.1 hp.value.1), handle_header hf hc _ (by simp)]
  unfold handleHeader
  rw [splitColon_key _ _ hp.name.2]
  simp only [trimValue_trimmed hp.value.2, headerNameEquals_false hp.notLength, headerNameEquals_false hp.notMethod,
    headerNameEquals_false hp.notEncoding]
  rfl

theorem parse_headers : ∀ (hs : List (Str × Str)) {m : M} (_ : m.firstLineParsed = true) (_ : m.inChunks = false)
    (_ : ∀ h ∈ hs, Plain h) (rest : Str), parse m (headerLines hs ++ rest) = parse (addHeaders m hs) rest
  | [], m, _, _, _, rest => by simp [headerLines, addHeaders]
  | h :: hs, m, hf, hc, hp, rest => by
    have e : headerLines (h :: hs) ++ rest = headerLine h ++ (headerLines hs ++ rest) := by simp [headerLines]
    rw [e, parse_header hf hc (hp h (by simp))]
    rw [parse_headers hs (m := addHeaders m [h]) hf hc (fun x hx => hp x (by simp [hx]))]
    simp [addHeaders]

theorem dec_clean (n : Nat) : Clean (dec n) := by
  constructor
  · intro h; exact absurd (dec_isDigit h) (by decide)
  · intro h; exact absurd (dec_isDigit h) (by decide)

theorem dec_trimmed (n : Nat) : Trimmed (dec n) := by
  have key : ∀ c, c ∈ dec n → isSpaceOrTab c = false := by
    intro c hc
    have hd := dec_isDigit hc
    cases h : isSpaceOrTab c with
    | false => rfl
    | true =>
      exfalso
      simp only [isSpaceOrTab, Bool.or_eq_true, decide_eq_true_eq] at h
      rcases h with h | h <;> (subst h; exact absurd hd (by decide))
  exact ⟨fun c h => key c (List.mem_of_head? h), fun c h => key c (List.mem_of_getLast? h)⟩

theorem atoi_dec' (n : Nat) (hn : n ≤ 2147483647) : atoi (dec n) = some (n : Int) := by
  have := atoi_dec_int n hn [] (by simp)
  simpa using this

/-- the verdict on a header line -/
theorem parse_header_line {m : M} (hf : m.firstLineParsed = true) (hc : m.inChunks = false) {k v : Str} (hk : Clean k)
    (hk' : ':' ∉ k) (hv : Clean v) (rest : Str) :
    ∃ line, splitColon line = some (k, ' ' :: v) ∧ parse m (headerLine (k, v) ++ rest) =
      match handleHeader m line with
      | .more m' => parse m' rest
      | .fin o => o
      | _ => .reset := by
  refine ⟨k ++ ':' :: ' ' :: v, splitColon_key _ _ hk', ?_⟩
  rw [headerLine_eq, parse_line _ _ (clean_line (k := k) hk hv), handle_header hf hc _ (by simp)]
  have : ∀ m' n, handleHeader m (k ++ ':' :: ' ' :: v) ≠ .chunk m' n ∧ handleHeader m (k ++ ':' :: ' ' :: v) ≠ .body m' n ∧
      handleHeader m (k ++ ':' :: ' ' :: v) ≠ .negative n := by
    intro m' n
    unfold handleHeader
    split
    · simp
    · dsimp only
      repeat' split
      all_goals simp
  cases h : handleHeader m (k ++ ':' :: ' ' :: v) with
  | more m' => rfl
  | chunk m' n => exact absurd h (this _ _).1
  | negative n => exact absurd h (this m _).2.2
  | body m' n => exact absurd h (this _ _).2.1
  | fin o => rfl

/-- **C55** A `Content-Length`, under any spelling of the name, is the length of the body; a later one replaces it. -/
theorem parse_length {m : M} (hf : m.firstLineParsed = true) (hc : m.inChunks = false) {k : Str} (hk : Clean k) (hk' : ':' ∉ k)
    (hs : SameName k kContentLength) (n : Nat) (hn : n ≤ maxPayload) (rest : Str) :
    parse m (headerLine (k, dec n) ++ rest) = parse { addHeaders m [(k, dec n)] with bodyLength := some n } rest := by
  obtain ⟨line, h1, h2⟩ := parse_header_line hf hc hk hk' (dec_clean n) rest
  rw [h2]
  unfold handleHeader
  rw [h1]
  have hm : maxPayload = 16777216 := rfl
  have hn' : n ≤ 2147483647 := by omega
  simp only [trimValue_trimmed (dec_trimmed n), (headerNameEquals_iff _ _).2 hs, if_true, atoi_dec' n hn']
  rw [if_neg (by omega)]
  rfl

/-- names that are two of the three -/
theorem special_names {k : Str} : (SameName k kTransferEncoding → headerNameEquals k kContentLength = false ∧
      headerNameEquals k kMethodOverride = false) ∧ (SameName k kMethodOverride → headerNameEquals k kContentLength = false) := by
  have tr : ∀ a b, headerNameEquals k a = true → headerNameEquals k b = true → headerNameEquals a b = true := by
    intro a b ha hb
    simp only [headerNameEquals, beq_iff_eq] at *
    exact ha.symm.trans hb
  constructor
  · intro h
    have h := (headerNameEquals_iff _ _).2 h
    constructor
    · cases h2 : headerNameEquals k kContentLength with
      | false => rfl
      | true => exact absurd (tr _ _ h h2) (by decide)
    · cases h2 : headerNameEquals k kMethodOverride with
      | false => rfl
      | true => exact absurd (tr _ _ h h2) (by decide)
  · intro h
    have h := (headerNameEquals_iff _ _).2 h
    cases h2 : headerNameEquals k kContentLength with
    | false => rfl
    | true => exact absurd (tr _ _ h h2) (by decide)

/-- **C55** `Transfer-Encoding: chunked`, under any spelling of both, announces chunks; another transfer encoding has no effect. -/
theorem parse_encoding {m : M} (hf : m.firstLineParsed = true) (hc : m.inChunks = false) {k v : Str} (hk : Clean k) (hk' : ':' ∉ k)
    (hs : SameName k kTransferEncoding) (hv : Clean v) (hv' : Trimmed v) (rest : Str) :
    parse m (headerLine (k, v) ++ rest) =
      parse (if SameName v kChunked then { addHeaders m [(k, v)] with chunked := true } else addHeaders m [(k, v)]) rest := by
  obtain ⟨line, h1, h2⟩ := parse_header_line hf hc hk hk' hv rest
  rw [h2]
  unfold handleHeader
  rw [h1]
  simp only [trimValue_trimmed hv', (special_names.1 hs).1, (special_names.1 hs).2, (headerNameEquals_iff _ _).2 hs]
  by_cases hx : SameName v kChunked
  · simp only [(headerNameEquals_iff _ _).2 hx, hx, if_true]
    rfl
  · simp only [headerNameEquals_false hx, hx, if_false]
    rfl

theorem parse_chunked {m : M} (hf : m.firstLineParsed = true) (hc : m.inChunks = false) (rest : Str) :
    parse m (headerLine (kTransferEncoding, kChunked) ++ rest) =
      parse { addHeaders m [(kTransferEncoding, kChunked)] with chunked := true } rest := by
  have h : Trimmed kChunked := by constructor <;> (intro c hc; simp [kChunked] at hc; subst hc; decide)
  rw [parse_encoding hf hc (by decide) (by decide) (by decide) (by decide) h, if_pos (by decide)]

/-- **C55** `X-HTTP-Method-Override`, under any spelling, replaces the method, in capitals. -/
theorem parse_override {m : M} (hf : m.firstLineParsed = true) (hc : m.inChunks = false) {k v : Str} (hk : Clean k) (hk' : ':' ∉ k)
    (hs : SameName k kMethodOverride) (hv : Clean v) (hv' : Trimmed v) (rest : Str) :
    parse m (headerLine (k, v) ++ rest) =
      parse { m with req := { m.req with method := v.map Char.toUpper, headers := m.req.headers ++ [(k, v)] } } rest := by
  obtain ⟨line, h1, h2⟩ := parse_header_line hf hc hk hk' hv rest
  rw [h2]
  unfold handleHeader
  rw [h1]
  simp only [trimValue_trimmed hv', special_names.2 hs, (headerNameEquals_iff _ _).2 hs]
  rfl

/-! ### The first line -/

/-- A word: not empty, no white space, no zero. -/
def Word (s : Str) : Prop := s ≠ [] ∧ (∀ c ∈ s, isSpace c = false) ∧ '\x00' ∉ s

theorem Word.clean {s : Str} (h : Word s) : Clean s :=
  ⟨fun hm => absurd (h.2.1 _ hm) (by decide), h.2.2⟩

theorem parse_first {a b c : Str} (ha : Word a) (hb : Word b) (hc : Clean c) (rest : Str) :
    parse {} (a ++ [' '] ++ b ++ [' '] ++ c ++ eol ++ rest) =
      parse { firstLineParsed := true, req := { method := a, rawPath := b } } rest := by
  have h1 := ha.clean
  have h2 := hb.clean
  have hcl : Clean (a ++ [' '] ++ b ++ [' '] ++ c) :=
    (((h1.append (by decide)).append h2).append (by decide)).append hc
  have hs : ∃ l, (split isSpace false (a ++ [' '] ++ b ++ [' '] ++ c)).1 = a :: b :: l := by
    refine ⟨(fields isSpace c).filter (· ≠ []), ?_⟩
    rw [(split_is_fields _ _ _).1]
    have e : a ++ [' '] ++ b ++ [' '] ++ c = a ++ ' ' :: (b ++ ' ' :: c) := by simp
    rw [e, fields_append_sep _ _ _ _ ha.2.1 (by decide), fields_append_sep _ _ _ _ hb.2.1 (by decide)]
    simp [ha.1, hb.1]
  obtain ⟨l, hl⟩ := hs
  rw [parse_line _ _ hcl]
  have e : handle {} (a ++ [' '] ++ b ++ [' '] ++ c) =
      .more { firstLineParsed := true, req := { method := a, rawPath := b } } := by
    simp only [handle, handleFirst, hl]
    simp
  rw [e]

/-! ### The end of the headers -/

theorem parse_blank {m : M} (hf : m.firstLineParsed = true) (hc : m.inChunks = false) (rest : Str) :
    parse m (eol ++ rest) = 
      match handleBlank m with
      | .more m' => parse m' rest
      | .body m' n => if n ≤ rest.length then .done { m'.req with body := rest.take n } else .reset
      | .fin o => o
      | _ => .reset := by
  have h := parse_line (m := m) [] rest (by decide)
  rw [List.nil_append] at h
  rw [h]
  have e : handle m [] = handleBlank m := by simp [handle, hf, hc]
  rw [e]
  unfold handleBlank
  cases m.chunked
  · cases m.bodyLength with
    | none => cases needContentLength m.req.method <;> rfl
    | some n => rfl
  · rfl

/-- With a length: the body, and nothing of what follows it. -/
theorem parse_body {m : M} (hf : m.firstLineParsed = true) (hc : m.inChunks = false) (hch : m.chunked = false)
    (body rest : Str) (hb : body.length ≤ maxPayload) :
    parse m (headerLine (kContentLength, dec body.length) ++ eol ++ body ++ rest) =
      .done { m.req with headers := m.req.headers ++ [(kContentLength, dec body.length)], body := body } := by
  rw [List.append_assoc, List.append_assoc, parse_length hf hc (k := kContentLength) (by decide) (by decide) (by decide) _ hb]
  rw [parse_blank (by exact hf) (by exact hc)]
  simp [handleBlank, addHeaders, hch]

theorem parse_nobody {m : M} (hf : m.firstLineParsed = true) (hc : m.inChunks = false) (hch : m.chunked = false)
    (hl : m.bodyLength = none) (hn : needContentLength m.req.method = false) (rest : Str) :
    parse m (eol ++ rest) = .done m.req := by
  rw [parse_blank hf hc]
  simp [handleBlank, hch, hl, hn]

/-! ### Requests -/

/-- A request the client can be asked to send: the words of the first line are words, the headers plain. -/
structure ClientRequest.Ok (q : ClientRequest) : Prop where
  method : Word q.method
  target : Word q.target
  host : Clean q.host ∧ Trimmed q.host
  userAgent : Clean q.userAgent ∧ Trimmed q.userAgent
  headers : ∀ h ∈ q.headers, Plain h
  cookies : Clean q.cookies ∧ Trimmed q.cookies
  contentType : Clean q.contentType ∧ Trimmed q.contentType
  body : q.body.length ≤ maxPayload

/-- The headers the server sees. -/
def ClientRequest.sent (q : ClientRequest) : List (Str × Str) :=
  [(kHost, q.host)] ++ optHeader kUserAgent q.userAgent ++ q.headers ++ optHeader kCookie q.cookies ++
    optHeader kContentType q.contentType ++
    if q.body = [] ∧ needContentLength q.method = false then [] else [(kContentLength, dec q.body.length)]

theorem headerLines_append (a b : List (Str × Str)) : headerLines (a ++ b) = headerLines a ++ headerLines b := by
  simp [headerLines]

theorem headerLines_one (h : Str × Str) : headerLines [h] = headerLine h := by simp [headerLines]

theorem headerLines_opt (k v : Str) : headerLines (optHeader k v) = if v ≠ [] then headerLine (k, v) else [] := by
  unfold optHeader
  by_cases h : v = [] <;> simp [h, headerLines]

theorem plain_of {k v : Str} (hk : Clean k) (h1 : ':' ∉ k) (h2 : ¬ SameName k kContentLength)
    (h3 : ¬ SameName k kMethodOverride) (h4 : ¬ SameName k kTransferEncoding)
    (hv : Clean v ∧ Trimmed v) : Plain (k, v) := ⟨⟨hk, h1⟩, hv, h2, h3, h4⟩

theorem plain_opt {k v : Str} (h : Plain (k, v)) : ∀ x ∈ optHeader k v, Plain x := by
  intro x hx
  unfold optHeader at hx
  split at hx
  · simp at hx
  · simp at hx; subst hx; exact h

/-- **C56** What the server reads is what the client was asked to send: the method, the path with its
parameters, the headers in their order, the body. Bytes after the request do not matter. -/
theorem request_round_trip (q : ClientRequest) (hq : q.Ok) (rest : Str) :
    parse {} (q.wire ++ rest) =
      .done { method := q.method, rawPath := q.target, headers := q.sent, body := q.body } := by
  have hhost : Plain (kHost, q.host) := plain_of (by decide) (by decide) (by decide) (by decide) (by decide) hq.host
  have hua : Plain (kUserAgent, q.userAgent) :=
    plain_of (by decide) (by decide) (by decide) (by decide) (by decide) hq.userAgent
  have hck : Plain (kCookie, q.cookies) := plain_of (by decide) (by decide) (by decide) (by decide) (by decide) hq.cookies
  have hct : Plain (kContentType, q.contentType) :=
    plain_of (by decide) (by decide) (by decide) (by decide) (by decide) hq.contentType
  have hall : ∀ h ∈ [(kHost, q.host)] ++ optHeader kUserAgent q.userAgent ++ q.headers ++ optHeader kCookie q.cookies ++
    optHeader kContentType q.contentType, Plain h := by
    intro h hh
    simp only [List.mem_append] at hh
    rcases hh with (((hh | hh) | hh) | hh) | hh
    · simp at hh; subst hh; exact hhost
    · exact plain_opt hua h hh
    · exact hq.headers h hh
    · exact plain_opt hck h hh
    · exact plain_opt hct h hh
  have e : ∀ tail : Str, q.method ++ [' '] ++ q.target ++ [' '] ++ kHttp11 ++ eol ++
      headerLine (kHost, q.host) ++
      (if q.userAgent ≠ [] then headerLine (kUserAgent, q.userAgent) else []) ++
      headerLines q.headers ++
      (if q.cookies ≠ [] then headerLine (kCookie, q.cookies) else []) ++
      (if q.contentType ≠ [] then headerLine (kContentType, q.contentType) else []) ++ tail =
      q.method ++ [' '] ++ q.target ++ [' '] ++ kHttp11 ++ eol ++ (headerLines ([(kHost, q.host)] ++
        optHeader kUserAgent q.userAgent ++ q.headers ++ optHeader kCookie q.cookies ++
        optHeader kContentType q.contentType) ++ tail) := by
    intro tail
    simp only [headerLines_append, headerLines_one, headerLines_opt, List.append_assoc]
  unfold ClientRequest.wire
  rw [List.append_assoc, e, parse_first hq.method hq.target (by decide),
    parse_headers _ rfl rfl hall]
  unfold ClientRequest.sent
  by_cases hb : q.body ≠ [] || needContentLength q.method
  · rw [if_pos hb, parse_body rfl rfl rfl _ _ hq.body]
    have : ¬ (q.body = [] ∧ needContentLength q.method = false) := by
      simp at hb
      rintro ⟨h1, h2⟩
      simp [h1, h2] at hb
    rw [if_neg this]
    simp [addHeaders]
  · rw [if_neg hb]
    simp at hb
    rw [parse_nobody rfl rfl rfl rfl (by simpa [addHeaders] using hb.2), if_pos hb]
    simp [addHeaders, hb.1]

/-! ### Responses -/

structure ResponseOk (reason : Str) (headers : List (Str × Str)) (cookies : List SetCookie)
    (contentType : Str) : Prop where
  reason : Clean reason
  headers : ∀ h ∈ headers, Plain h
  cookies : ∀ c ∈ cookies, Clean c.text ∧ Trimmed c.text
  contentType : Clean contentType ∧ Trimmed contentType

/-- The headers the client sees, before the one on the body. -/
def seenHeaders (keepAlive : Bool) (headers : List (Str × Str)) (cookies : List SetCookie)
    (contentType : Str) : List (Str × Str) :=
  [(kContentType, contentType), (kConnection, if keepAlive then kKeepAlive else kClose)] ++ headers ++
    cookies.map fun c => (kSetCookie, c.text)

theorem dec_word (n : Nat) : Word (dec n) := by
  refine ⟨dec_ne_nil n, ?_, (dec_clean n).2⟩
  intro c hc
  have hd := dec_isDigit hc
  cases h : isSpace c with
  | false => rfl
  | true =>
    exfalso
    simp only [isSpace, Bool.or_eq_true, decide_eq_true_eq] at h
    rcases h with ((((h | h) | h) | h) | h) | h <;> (subst h; exact absurd hd (by decide))

theorem parse_head (keepAlive : Bool) (code : Nat) {reason : Str} {headers : List (Str × Str)} {cookies : List SetCookie}
    {contentType : Str} (h : ResponseOk reason headers cookies contentType) (rest : Str) :
    parse {} (responseHead keepAlive code reason headers cookies contentType ++ rest) =
      parse
        { firstLineParsed := true,
          req := { method := kHttp11, rawPath := dec code, headers := seenHeaders keepAlive headers cookies contentType } }
        rest := by
  have e : responseHead keepAlive code reason headers cookies contentType ++ rest =
      kHttp11 ++ [' '] ++ dec code ++ [' '] ++ reason ++ eol ++
        (headerLines (seenHeaders keepAlive headers cookies contentType) ++ rest) := by
    unfold responseHead seenHeaders
    simp only [headerLines_append, List.append_assoc]
    congr 6
    simp [headerLines]
  have hall : ∀ x ∈ seenHeaders keepAlive headers cookies contentType, Plain x := by
    intro x hx
    unfold seenHeaders at hx
    simp only [List.mem_append, List.mem_cons, List.not_mem_nil, or_false, List.mem_map] at hx
    rcases hx with ((hx | hx) | hx) | ⟨c, hc, hx⟩
    · subst hx; exact plain_of (by decide) (by decide) (by decide) (by decide) (by decide) h.contentType
    · subst hx
      refine plain_of (by decide) (by decide) (by decide) (by decide) (by decide) ?_
      cases keepAlive
      · exact ⟨by decide, by constructor <;> (intro c hc; simp [kClose] at hc; subst hc; decide)⟩
      · exact ⟨by decide, by constructor <;> (intro c hc; simp [kKeepAlive] at hc; subst hc; decide)⟩
    · exact h.headers x hx
    · subst hx
      exact plain_of (by decide) (by decide) (by decide) (by decide) (by decide) (h.cookies c hc)
  rw [e, parse_first (a := kHttp11) ⟨by decide, by decide, by decide⟩ (dec_word code) h.reason, parse_headers _ rfl rfl hall]
  rfl

/-- **C57** What the client reads is what the server's handler has sent: the code, the headers and the cookies in their
order, the body. -/
theorem response_round_trip (code : Nat) {reason : Str} {headers : List (Str × Str)} {cookies : List SetCookie}
    {contentType : Str} (h : ResponseOk reason headers cookies contentType) (body rest : Str)
    (hb : body.length ≤ maxPayload) :
    parse {} (response code reason headers cookies contentType body ++ rest) =
      .done { method := kHttp11, rawPath := dec code,
              headers := seenHeaders false headers cookies contentType ++ [(kContentLength, dec body.length)],
              body := body } := by
  have e : response code reason headers cookies contentType body ++ rest =
      responseHead false code reason headers cookies contentType ++
        (headerLine (kContentLength, dec body.length) ++ eol ++ body ++ rest) := by
    simp [response]
  rw [e, parse_head _ _ h, parse_body rfl rfl rfl _ _ hb]

/-! ### Chunks -/

theorem hexDigit_table : ∀ n < 16, isHex (hexDigit n) = true ∧ hexVal (hexDigit n) = n ∧ isSpace (hexDigit n) = false ∧
    hexDigit n ≠ '-' ∧ hexDigit n ≠ '+' ∧ hexDigit n ≠ 'x' ∧ hexDigit n ≠ 'X' ∧ hexDigit n ≠ '\n' ∧ hexDigit n ≠ '\x00' := by
  decide

theorem hexU_char (n : Nat) : ∀ c ∈ hexU n, ∃ d < 16, c = hexDigit d := by
  induction n using Nat.strongRecOn with
  | ind n ih =>
    intro c hc
    rw [hexU] at hc
    split at hc
    · rename_i h; simp at hc; exact ⟨n, h, hc⟩
    · simp at hc
      rcases hc with hc | hc
      · exact ih (n / 16) (by omega) c hc
      · exact ⟨n % 16, by omega, hc⟩

theorem hexU_ne_nil (n : Nat) : hexU n ≠ [] := by
  rw [hexU]; split <;> simp

theorem hexNum_hexU (n : Nat) : hexNum (hexU n) = n := by
  induction n using Nat.strongRecOn with
  | ind n ih =>
    rw [hexU]
    split
    · rename_i h; simp [hexNum, (hexDigit_table n h).2.1]
    · have := ih (n / 16) (by omega)
      unfold hexNum at this ⊢
      rw [List.foldl_append, this]
      simp [(hexDigit_table (n % 16) (by omega)).2.1]
      omega

theorem skip0x_hexU (n : Nat) : skip0x (hexU n) = hexU n := by
  have h := hexU_char n
  unfold skip0x
  split
  · rename_i e
    rw [e] at h
    obtain ⟨d, hd, hx⟩ := h 'x' (by simp)
    exact absurd hx.symm (hexDigit_table d hd).2.2.2.2.2.1
  · rename_i e
    rw [e] at h
    obtain ⟨d, hd, hx⟩ := h 'X' (by simp)
    exact absurd hx.symm (hexDigit_table d hd).2.2.2.2.2.2.1
  · rfl

theorem stoi16_hexU (n : Nat) (hn : n ≤ 2147483647) : stoi16 (hexU n) = .value n := by
  have h := hexU_char n
  have e1 : (hexU n).dropWhile isSpace = hexU n := by
    apply dropWhile_head
    intro c hc
    obtain ⟨d, hd, rfl⟩ := h c (List.mem_of_head? hc)
    exact (hexDigit_table d hd).2.2.1
  have e2 : sign (hexU n) = (false, hexU n) := by
    unfold sign
    split
    · rename_i e
      rw [e] at h
      obtain ⟨d, hd, hx⟩ := h '-' (by simp)
      exact absurd hx.symm (hexDigit_table d hd).2.2.2.1
    · rename_i e
      rw [e] at h
      obtain ⟨d, hd, hx⟩ := h '+' (by simp)
      exact absurd hx.symm (hexDigit_table d hd).2.2.2.2.1
    · rfl
  have e3 : (hexU n).takeWhile isHex = hexU n := by
    have key : ∀ l : Str, (∀ c ∈ l, isHex c = true) → l.takeWhile isHex = l := by
      intro l
      induction l with
      | nil => intro _; rfl
      | cons c l ih => intro hl; simp [hl c (by simp), ih fun x hx => hl x (by simp [hx])]
    apply key
    intro c hc
    obtain ⟨d, hd, rfl⟩ := h c hc
    exact (hexDigit_table d hd).1
  unfold stoi16
  simp only [e1, e2, skip0x_hexU, e3, hexU_ne_nil, hexNum_hexU, if_false, Bool.false_eq_true]
  rw [if_pos (by omega)]

theorem hexU_clean (n : Nat) : Clean (hexU n) := by
  constructor
  · intro hm
    obtain ⟨d, hd, hx⟩ := hexU_char n _ hm
    exact (hexDigit_table d hd).2.2.2.2.2.2.2.1 hx.symm
  · intro hm
    obtain ⟨d, hd, hx⟩ := hexU_char n _ hm
    exact (hexDigit_table d hd).2.2.2.2.2.2.2.2 hx.symm

theorem parse_chunk {m : M} (hf : m.firstLineParsed = true) (hc : m.inChunks = true) (data rest : Str)
    (h0 : data ≠ []) (hn : data.length ≤ 2147483647) :
    parse m (chunkText data ++ rest) = parse (addChunk m data) rest := by
  have hpos : 0 < data.length := List.length_pos_iff.2 h0
  have e : chunkText data ++ rest = hexU data.length ++ eol ++ (data ++ (eol ++ rest)) := by simp [chunkText]
  have hv : handle m (hexU data.length) = .chunk m data.length := by
    simp only [handle, hf, hc, handleChunkLine, hexU_ne_nil, stoi16_hexU _ hn]
    simp
    rw [if_neg h0, if_neg (by omega)]
  rw [e, parse_line _ _ (hexU_clean _), hv]
  dsimp only
  rw [if_pos (by simp)]
  rw [List.take_left, List.drop_left]
  have h := parse_line (m := addChunk m data) [] rest (by decide)
  rw [List.nil_append] at h
  rw [h]
  have : handle (addChunk m data) [] = .more (addChunk m data) := by
    simp [handle, addChunk, hf, hc, handleChunkLine]
  rw [this]

theorem parse_chunks : ∀ (cs : List Str) {m : M} (_ : m.firstLineParsed = true) (_ : m.inChunks = true) (rest : Str)
    (_ : ∀ c ∈ cs, c ≠ [] ∧ c.length ≤ 2147483647),
    parse m ((cs.map chunkText).flatten ++ (['0'] ++ eol ++ rest)) =
      .done { m.req with chunks := m.req.chunks ++ cs }
  | [], m, hf, hc, rest, _ => by
    have h := parse_line (m := m) ['0'] rest (by decide)
    simp only [List.map_nil, List.flatten_nil, List.nil_append, List.append_nil]
    rw [h]
    have e : stoi16 ['0'] = .value 0 := by decide
    have : handle m ['0'] = .fin (.done m.req) := by
      simp [handle, hf, hc, handleChunkLine, e]
    rw [this]
  | c :: cs, m, hf, hc, rest, h => by
    have e : ((c :: cs).map chunkText).flatten ++ (['0'] ++ eol ++ rest) =
      chunkText c ++ ((cs.map chunkText).flatten ++ (['0'] ++ eol ++ rest)) := by simp
    obtain ⟨h1, h2⟩ := h c (by simp)
    rw [e, parse_chunk hf hc _ _ h1 h2, parse_chunks cs (m := addChunk m c) hf hc rest (fun x hx => h x (by simp [hx]))]
    simp [addChunk]

/-- **C57** A chunked response: the client gets the chunks the server has sent, each of them. -/
theorem chunked_round_trip (code : Nat) {reason : Str} {headers : List (Str × Str)} {cookies : List SetCookie}
    {contentType : Str} (h : ResponseOk reason headers cookies contentType) (cs : List Str) (rest : Str)
    (hcs : ∀ c ∈ cs, c ≠ [] ∧ c.length ≤ 2147483647) :
    parse {} (chunkedHead code reason headers cookies contentType ++
        ((cs.map chunkText).flatten ++ (['0'] ++ eol ++ rest))) =
      .done { method := kHttp11, rawPath := dec code,
              headers := seenHeaders true headers cookies contentType ++ [(kTransferEncoding, kChunked)],
              chunks := cs } := by
  have e : ∀ t : Str, chunkedHead code reason headers cookies contentType ++ t =
      responseHead true code reason headers cookies contentType ++
        (headerLine (kTransferEncoding, kChunked) ++ (eol ++ t)) := by
    intro t; simp [chunkedHead]
  rw [e, parse_head _ _ h, parse_chunked rfl rfl, parse_blank rfl rfl]
  simp only [handleBlank, addHeaders]
  exact parse_chunks cs rfl rfl rest hcs

/-! ### The sender with its cache -/

/-- The bytes of the chunks for the data of the calls, those with data. -/
def chunkBytes (calls : List (Str × Bool)) : Str :=
  (((calls.map Prod.fst).filter (· ≠ [])).map chunkText).flatten

theorem send_total (size : Nat) (w : Sender) (data : Str) (flush : Bool) :
    (w.send size data flush).wire ++ (w.send size data flush).cache =
      w.wire ++ w.cache ++ (if data ≠ [] then chunkText data else []) := by
  unfold Sender.send
  by_cases hd : data = []
  · subst hd
    by_cases hf : flush && w.cache ≠ []
    · rw [if_pos (by simpa using hf)]
      simp [Sender.write, Sender.wire]
    · rw [if_neg (by simpa using hf)]
      simp
  · rw [if_pos (by simp [hd]), if_pos hd, if_pos hd]
    dsimp only
    have hm : ∀ n, (w.makeRoom size n flush).wire ++ (w.makeRoom size n flush).cache = w.wire ++ w.cache ∧
        (flush = true → (w.makeRoom size n flush).cache = []) ∧
        (n > size → (w.makeRoom size n flush).cache = []) := by
      intro n
      unfold Sender.makeRoom
      split
      · simp [Sender.write, Sender.wire]
      · rename_i h
        simp at h
        refine ⟨rfl, ?_, ?_⟩
        · intro hf
          by_cases hc : w.cache = []
          · exact hc
          · have := (h hc).1; simp [hf] at this
        · intro hn
          by_cases hc : w.cache = []
          · exact hc
          · have := (h hc).2; omega
    generalize hg : ((hexU data.length ++ eol).length + data.length + 2) = n
    obtain ⟨h1, h2, h3⟩ := hm n
    generalize w.makeRoom size n flush = w' at *
    split
    · rename_i hc
      simp at hc
      have hc' : w'.cache = [] := by
        rcases hc with hc | hc
        · exact h2 hc
        · exact h3 hc
      rw [← h1]
      simp [Sender.write, Sender.wire, hc', chunkText]
    · rw [← h1]
      simp [Sender.copy, Sender.wire, chunkText]

theorem sends_total (size : Nat) : ∀ (calls : List (Str × Bool)) (w : Sender),
    (w.sends size calls).wire ++ (w.sends size calls).cache = w.wire ++ w.cache ++ chunkBytes calls
  | [], w => by simp [Sender.sends, chunkBytes]
  | c :: calls, w => by
    have ih := sends_total size calls (w.send size c.1 c.2)
    have e : w.sends size (c :: calls) = (w.send size c.1 c.2).sends size calls := rfl
    rw [e, ih, send_total]
    by_cases hc : c.1 = []
    · simp [chunkBytes, hc]
    · simp [chunkBytes, hc]

/-- **C57** Whatever is cached and whenever it is flushed: once the sender is closed, the wire has the chunks of the calls
of `Send` with data, in their order, and the end mark. -/
theorem closed_wire (size : Nat) (calls : List (Str × Bool)) :
    (({} : Sender).sends size calls).close.wire = chunkBytes calls ++ ['0'] ++ eol ++ eol := by
  have h := sends_total size calls {}
  have e0 : ({} : Sender).wire ++ ({} : Sender).cache = [] := rfl
  rw [e0, List.nil_append] at h
  rw [← h]
  generalize ({} : Sender).sends size calls = w
  unfold Sender.close
  dsimp only
  split
  · simp [Sender.write, Sender.wire]
  · rename_i hc
    simp at hc
    simp [Sender.write, Sender.wire, hc]

/-- The cache is never written past its end. -/
theorem send_safe (size : Nat) {w : Sender} (h1 : w.overflow = false) (h2 : w.cache.length ≤ size) (data : Str) (flush : Bool) :
    (w.send size data flush).overflow = false ∧ (w.send size data flush).cache.length ≤ size := by
  unfold Sender.send
  by_cases hd : data = []
  · subst hd
    split
    · simp [Sender.write, h1]
    · exact ⟨h1, h2⟩
  · rw [if_pos (by simp [hd]), if_pos hd]
    dsimp only
    generalize hg : ((hexU data.length ++ eol).length + data.length + 2) = n
    have hm : (w.makeRoom size n flush).overflow = false ∧ (w.makeRoom size n flush).cache.length ≤ size ∧
        (n ≤ size → flush = false → (w.makeRoom size n flush).cache.length + n ≤ size) := by
      unfold Sender.makeRoom
      split
      · exact ⟨h1, by simp, fun h _ => by simpa using h⟩
      · rename_i h
        simp at h
        refine ⟨h1, h2, fun hn hf => ?_⟩
        by_cases hc : w.cache = []
        · simp [hc]; exact hn
        · have := (h hc).2; omega
    obtain ⟨a, b, c⟩ := hm
    generalize w.makeRoom size n flush = w' at *
    split
    · exact ⟨a, b⟩
    · rename_i hc
      simp at hc
      have := c hc.2 hc.1
      have el : eol.length = 2 := rfl
      simp [Sender.copy, a, el] at hg ⊢
      omega

/-- **C57** No sequence of calls overflows the cache. -/
theorem cache_never_overflows (size : Nat) (calls : List (Str × Bool)) :
    (({} : Sender).sends size calls).overflow = false := by
  have : ∀ (calls : List (Str × Bool)) (w : Sender), w.overflow = false → w.cache.length ≤ size →
      (w.sends size calls).overflow = false := by
    intro calls
    induction calls with
    | nil => intro w h _; exact h
    | cons c calls ih =>
      intro w h1 h2
      have := send_safe size h1 h2 c.1 c.2
      exact ih _ this.1 this.2
  exact this calls {} rfl (by simp)

/-- **C57** After a `Send` that asks to flush, all the data sent so far is on the wire. -/
theorem flushed (size : Nat) (calls : List (Str × Bool)) (data : Str) :
    (({} : Sender).sends size (calls ++ [(data, true)])).wire = chunkBytes (calls ++ [(data, true)]) := by
  have h := sends_total size (calls ++ [(data, true)]) {}
  have e0 : ({} : Sender).wire ++ ({} : Sender).cache = [] := rfl
  rw [e0, List.nil_append] at h
  rw [← h]
  have : (({} : Sender).sends size (calls ++ [(data, true)])).cache = [] := by
    have e : ({} : Sender).sends size (calls ++ [(data, true)]) = (({} : Sender).sends size calls).send size data true := by
      simp [Sender.sends]
    rw [e]
    generalize ({} : Sender).sends size calls = w
    unfold Sender.send Sender.makeRoom
    by_cases hd : data = [] <;> by_cases hc : w.cache = [] <;> simp [hd, hc, Sender.write]
  rw [this, List.append_nil]

/-- **C57** From the handler to the client: whatever the cache does, the client has the data of each call of `Send` as one chunk, and
their concatenation as the body. -/
theorem chunked_response_delivered (size : Nat) (code : Nat) {reason : Str} {headers : List (Str × Str)}
    {cookies : List SetCookie} {contentType : Str} (h : ResponseOk reason headers cookies contentType)
    (calls : List (Str × Bool)) (hcs : ∀ c ∈ calls, c.1.length ≤ 2147483647) :
    ∃ r, parse {} (chunkedHead code reason headers cookies contentType ++ (({} : Sender).sends size calls).close.wire) = .done r ∧
      r.rawPath = dec code ∧ r.chunks = (calls.map Prod.fst).filter (· ≠ []) ∧
      r.Body = (calls.map Prod.fst).flatten ∧
      r.headers = seenHeaders true headers cookies contentType ++ [(kTransferEncoding, kChunked)] := by
  refine ⟨{ method := kHttp11, rawPath := dec code,
            headers := seenHeaders true headers cookies contentType ++ [(kTransferEncoding, kChunked)],
            chunks := (calls.map Prod.fst).filter (· ≠ []) }, ?_, rfl, rfl, ?_, rfl⟩
  · rw [closed_wire]
    have e : chunkBytes calls ++ ['0'] ++ eol ++ eol = chunkBytes calls ++ (['0'] ++ eol ++ eol) := by simp
    rw [e]
    refine chunked_round_trip code h _ eol ?_
    intro c hc
    simp only [List.mem_filter, List.mem_map, decide_eq_true_eq] at hc
    obtain ⟨⟨x, hx, rfl⟩, hne⟩ := hc
    exact ⟨by simpa using hne, hcs x hx⟩
  · simp only [Req.Body, List.append_nil]
    generalize calls.map Prod.fst = l
    induction l with
    | nil => rfl
    | cons x l ih => by_cases hx : x = [] <;> simp_all

/-! ### A connection that breaks -/

/-- **C55** A stream cut short at any place is either refused as such, or has the same outcome: no truncated message is
taken for another one. -/
theorem truncated (m : M) (p t : Str) : parse m p = .reset ∨ parse m (p ++ t) = parse m p := by
  induction hn : p.length using Nat.strongRecOn generalizing m p with
  | ind n ih =>
    subst hn
    cases hc : crlf p with
    | none => exact .inl (parse_none hc)
    | some la =>
      obtain ⟨line, after⟩ := la
      have hlt := crlf_lt hc
      rw [parse_some hc, parse_some (crlf_append t hc)]
      cases handle m line with
      | more m' => exact ih _ hlt m' after rfl
      | chunk m' n =>
        dsimp only
        by_cases hle : n ≤ after.length
        · rw [if_pos hle, if_pos (by simp; omega), List.take_append_of_le_length hle, List.drop_append_of_le_length hle]
          exact ih _ (by simp; omega) _ _ rfl
        · rw [if_neg hle]; exact .inl rfl
      | negative k => exact .inr rfl
      | body m' n =>
        dsimp only
        by_cases hle : n ≤ after.length
        · rw [if_pos hle, if_pos (by simp; omega), List.take_append_of_le_length hle]; exact .inr rfl
        · rw [if_neg hle]; exact .inl rfl
      | fin o => exact .inr rfl

/-- **C57** If the connection breaks while the response is being sent, at any byte, the client either has the whole response or an error. -/
theorem broken_response (g : Nat → Nat) (ks : Nat → Nat) {cap : Nat} (h2 : 2 ≤ cap) {full p t : Str} {r r' : Req}
    (hfull : parse {} full = .done r) (hp : full = p ++ t) (h : Ends g ks cap p (.done r')) : r' = r := by
  have h' := (accepted_iff g ks h2 p r').1 h
  subst hp
  rcases truncated {} p t with h3 | h3
  · rw [h'] at h3; simp at h3
  · rw [h', hfull] at h3
    injection h3 with h3
    exact h3.symm

end Current.Net
