import Verif.Net.RoundTrip

/-!
From one end of the connection to the other; refusals; and what goes wrong.
-/
namespace Current.Net
open Current.Persist Current.Strings Current.Url

/-! ### End to end -/

/-- **C56** The client's request arrives, however TCP cuts it and whatever the size of the server's buffer. -/
theorem request_delivered (g : Nat → Nat) (ks : Nat → Nat) {cap : Nat} (h2 : 2 ≤ cap) (q : ClientRequest) (hq : q.Ok)
    (rest : Str) :
    Ends g ks cap (q.wire ++ rest)
      (.done { method := q.method, rawPath := q.target, headers := q.sent, body := q.body }) :=
  (accepted_iff g ks h2 _ _).2 (request_round_trip q hq rest)

/-- **C57** The server's response arrives; the code the client sees is the code sent. -/
theorem response_delivered (g : Nat → Nat) (ks : Nat → Nat) {cap : Nat} (h2 : 2 ≤ cap) (code : Nat)
    (hcode : code ≤ 999) {reason : Str} {headers : List (Str × Str)} {cookies : List SetCookie} {contentType : Str}
    (h : ResponseOk reason headers cookies contentType) (body rest : Str) (hb : body.length ≤ maxPayload) :
    ∃ r, Ends g ks cap (response code reason headers cookies contentType body ++ rest) (.done r) ∧
      atoi r.rawPath = some (code : Int) ∧ r.Body = body ∧
      r.headers = [(kContentType, contentType), (kConnection, kClose)] ++ headers ++
        (cookies.map fun c => (kSetCookie, c.text)) ++ [(kContentLength, dec body.length)] := by
  refine ⟨_, (accepted_iff g ks h2 _ _).2 (response_round_trip code h body rest hb), ?_, ?_, rfl⟩
  · exact atoi_dec' code (by omega)
  · simp [Req.Body]

/-- **C57** The chunked response arrives, whatever the server's cache and the client's buffer do; cut off before its end, it never
arrives as something else. -/
theorem chunked_response_arrives (g : Nat → Nat) (ks : Nat → Nat) {cap : Nat} (h2 : 2 ≤ cap) (size : Nat) (code : Nat)
    (hcode : code ≤ 999) {reason : Str} {headers : List (Str × Str)} {cookies : List SetCookie} {contentType : Str}
    (h : ResponseOk reason headers cookies contentType) (calls : List (Str × Bool))
    (hcs : ∀ c ∈ calls, c.1.length ≤ 2147483647) :
    ∃ r, Ends g ks cap (chunkedHead code reason headers cookies contentType ++
          (({} : Sender).sends size calls).close.wire) (.done r) ∧
      atoi r.rawPath = some (code : Int) ∧ r.chunks = (calls.map Prod.fst).filter (· ≠ []) ∧
      r.Body = (calls.map Prod.fst).flatten ∧
      ∀ (p t : Str) (r' : Req), p ++ t = chunkedHead code reason headers cookies contentType ++
          (({} : Sender).sends size calls).close.wire → Ends g ks cap p (.done r') → r' = r := by
  obtain ⟨r, h1, hp, hc, hb, _⟩ := chunked_response_delivered size code h calls hcs
  refine ⟨r, (accepted_iff g ks h2 _ _).2 h1, ?_, hc, hb, ?_⟩
  · rw [hp]; exact atoi_dec' code (by omega)
  · intro p t r' hpt he
    exact broken_response g ks h2 h1 hpt.symm he

/-! ### Refusals -/

/-- The first line and the headers of a request. -/
def requestHead (method target proto : Str) (hs : List (Str × Str)) : Str :=
  method ++ [' '] ++ target ++ [' '] ++ proto ++ eol ++ headerLines hs

theorem parse_requestHead {method target proto : Str} {hs : List (Str × Str)} (h1 : Word method) (h2 : Word target)
    (h3 : Clean proto) (h4 : ∀ h ∈ hs, Plain h) (rest : Str) :
    parse {} (requestHead method target proto hs ++ rest) =
      parse { firstLineParsed := true, req := { method := method, rawPath := target, headers := hs } } rest := by
  unfold requestHead
  rw [List.append_assoc, parse_first h1 h2 h3, parse_headers _ rfl rfl h4]
  rfl

/-- **C55** Without `Content-Length` and chunks: `POST`, `PUT` and `PATCH` are refused, anything else has no body. -/
theorem no_length {method target proto : Str} {hs : List (Str × Str)} (h1 : Word method) (h2 : Word target)
    (h3 : Clean proto) (h4 : ∀ h ∈ hs, Plain h) (rest : Str) :
    parse {} (requestHead method target proto hs ++ (eol ++ rest)) =
      if method = kPOST ∨ method = kPUT ∨ method = kPATCH then .lengthRequired
      else .done { method := method, rawPath := target, headers := hs } := by
  rw [parse_requestHead h1 h2 h3 h4, parse_blank rfl rfl]
  simp only [handleBlank]
  by_cases hm : method = kPOST ∨ method = kPUT ∨ method = kPATCH
  · have : needContentLength method = true := by
      simp [needContentLength]
      rcases hm with h | h | h <;> simp [h]
    rw [if_pos hm]
    simp [this]
  · have : needContentLength method = false := by
      simp [needContentLength]
      simpa [not_or, and_assoc] using hm
    rw [if_neg hm]
    simp [this]

/-- **C55** A `Content-Length` over the limit is refused as soon as it is seen, without waiting for the body. -/
theorem too_large {method target proto : Str} {hs : List (Str × Str)} (h1 : Word method) (h2 : Word target)
    (h3 : Clean proto) (h4 : ∀ h ∈ hs, Plain h) (n : Nat) (hn : maxPayload < n) (hi : n ≤ 2147483647) (rest : Str) :
    parse {} (requestHead method target proto hs ++ (headerLine (kContentLength, dec n) ++ rest)) = .tooLarge := by
  rw [parse_requestHead h1 h2 h3 h4, headerLine_eq,
    parse_line _ _ (clean_line (k := kContentLength) (by decide) (dec_clean n)), handle_header rfl rfl _ (by simp)]
  unfold handleHeader
  rw [splitColon_key kContentLength _ (by decide)]
  have e : headerNameEquals kContentLength kContentLength = true := by decide
  simp only [trimValue_trimmed (dec_trimmed n), e, if_true, atoi_dec' n hi]
  rw [if_pos (by omega)]

/-- **C55** A zero byte in the headers: no line end is found any more, whatever follows; the connection is read into an ever growing
buffer until the peer closes it. -/
theorem zero_byte_never_ends (m : M) (l rest : Str) (h : '\n' ∉ l) : parse m (l ++ '\x00' :: rest) = .reset := by
  apply parse_none
  induction l with
  | nil =>
    cases rest with
    | nil => rfl
    | cons d r => simp [crlf]
  | cons c l ih =>
    simp at h
    have ih := ih h.2
    cases l with
    | nil =>
      simp only [List.nil_append, List.cons_append] at ih ⊢
      simp only [crlf]
      rw [if_neg (by simp), ih]
      simp
    | cons d l =>
      simp only [List.cons_append] at ih ⊢
      simp only [crlf]
      have hd : d ≠ '\n' := by
        have := h.2; simp at this; exact fun e => this.1 e.symm
      rw [if_neg (by simp [hd]), ih]
      simp

/-! ### Concrete cases -/

def exampleRequest : ClientRequest :=
  { method := kPOST, target := ['/','a','?','x','=','1'], host := ['h'], userAgent := [], headers := [(['X','-','A'], ['1',',',' ','2'])],
    cookies := ['c','=','1'], contentType := ['t','/','p'], body := ['{','\r','\n','\x00','}'] }

theorem trimmed_of_decide (v : Str) (h1 : (v.head?.all fun c => !isSpaceOrTab c) = true)
    (h2 : (v.getLast?.all fun c => !isSpaceOrTab c) = true) : Trimmed v := by
  constructor
  · intro c hc; rw [hc] at h1; simpa using h1
  · intro c hc; rw [hc] at h2; simpa using h2

theorem exampleRequest_ok : exampleRequest.Ok where
  method := ⟨by decide, by decide, by decide⟩
  target := ⟨by decide, by decide, by decide⟩
  host := ⟨by decide, trimmed_of_decide _ (by decide) (by decide)⟩
  userAgent := ⟨by decide, trimmed_of_decide _ (by decide) (by decide)⟩
  headers := by
    intro h hh
    simp only [exampleRequest, List.mem_cons, List.not_mem_nil, or_false] at hh
    subst hh
    exact ⟨by decide, ⟨by decide, trimmed_of_decide _ (by decide) (by decide)⟩, by decide, by decide, by decide⟩
  cookies := ⟨by decide, trimmed_of_decide _ (by decide) (by decide)⟩
  contentType := ⟨by decide, trimmed_of_decide _ (by decide) (by decide)⟩
  body := by decide

/-- The hypotheses of `request_delivered` are met, byte by byte into a buffer of two bytes. -/
example : Ends (fun n => n) (fun _ => 1) 2 exampleRequest.wire
    (.done { method := kPOST, rawPath := ['/','a','?','x','=','1'], headers := exampleRequest.sent,
             body := ['{','\r','\n','\x00','}'] }) := by
  have := request_delivered (fun n => n) (fun _ => 1) (cap := 2) (by omega) exampleRequest exampleRequest_ok []
  rwa [List.append_nil] at this

example : ResponseOk ['O','K'] [(['X'], ['y'])] [⟨['a'], ['b'], [(['S'], [])]⟩] ['t'] where
  reason := by decide
  headers := by
    intro h hh
    simp at hh
    subst hh
    exact ⟨by decide, ⟨by decide, trimmed_of_decide _ (by decide) (by decide)⟩, by decide, by decide, by decide⟩
  cookies := by
    intro c hc
    simp at hc
    subst hc
    exact ⟨by decide, trimmed_of_decide _ (by decide) (by decide)⟩
  contentType := ⟨by decide, trimmed_of_decide _ (by decide) (by decide)⟩

/-- A chunked request up to the size of a chunk: `P / H`, the header, the blank line. -/
def chunkedStart : Str := ['P',' ','/',' ','H'] ++ eol ++ headerLine (kTransferEncoding, kChunked) ++ eol

/-- **C55, a defect.** The size of a chunk is parsed as a signed number and then taken as an unsigned one. With the right negative size (here `-2B`,
that is -43, one more than the offset in the buffer) `recv` is given a length of about 2^64 minus what is in the buffer: the peer
writes past the end of the buffer. -/
theorem negative_chunk_size_overruns :
    Ends (fun n => n * 2) (fun _ => 1000) 64 (chunkedStart ++ ['-', '2', 'B'] ++ eol) .overrun :=
  ⟨8, by decide +kernel⟩

/-- **C55** Another negative size ends in `std::length_error`, which is neither a network exception nor answered with HTTP 400. -/
theorem negative_chunk_size_throws :
    Ends (fun n => n * 2) (fun _ => 1000) 64 (chunkedStart ++ ['-', '1'] ++ eol) .lengthError :=
  ⟨8, by decide +kernel⟩

/-- **C55** So does a size that does not fit an `int`: `std::out_of_range` is not caught, although an invalid size is answered with HTTP 400. -/
theorem huge_chunk_size_throws :
    parse {} (chunkedStart ++ ['8','0','0','0','0','0','0','0'] ++ eol) = .chunkSizeOutOfRange ∧
      parse {} (chunkedStart ++ ['x'] ++ eol) = .badChunkSize := by
  constructor
  · have := (parser_is_stream_parser (fun n => n) (fun _ => 1000) (cap := 200) (by omega) (chunkedStart ++ ['8','0','0','0','0','0','0','0'] ++ eol))
    obtain ⟨o, h1, h2, _⟩ := this
    have e : Ends (fun n => n) (fun _ => 1000) 200 (chunkedStart ++ ['8','0','0','0','0','0','0','0'] ++ eol) .chunkSizeOutOfRange := ⟨8, by decide +kernel⟩
    rw [← h2, h1.unique e]; rfl
  · have := (parser_is_stream_parser (fun n => n) (fun _ => 1000) (cap := 200) (by omega) (chunkedStart ++ ['x'] ++ eol))
    obtain ⟨o, h1, h2, _⟩ := this
    have e : Ends (fun n => n) (fun _ => 1000) 200 (chunkedStart ++ ['x'] ++ eol) .badChunkSize := ⟨8, by decide +kernel⟩
    rw [← h2, h1.unique e]; rfl

/-- The value of a header is not checked for line ends: one header with the value `v\r\nSet-Cookie: a=b` is two on the wire. -/
theorem header_injection (k v k' v' : Str) :
    headerLine (k, v ++ eol ++ k' ++ [':', ' '] ++ v') = headerLines [(k, v), (k', v')] := by
  simp [headerLine, headerLines]

end Current.Net
