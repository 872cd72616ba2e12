import Verif.Net.Stream

/-!
What is written to the connection: requests by the client (blocks/http/impl/posix_client.h:97-133), responses
by the server (bricks/net/http/impl/server.h:98-137), chunked responses (server.h:756-842, 880-895).
-/
namespace Current.Net
open Current.Persist Current.Strings Current.Url

def eol : Str := ['\r', '\n']

/-- `name: value` and the end of line. -/
def headerLine (h : Str × Str) : Str := h.1 ++ [':', ' '] ++ h.2 ++ eol

def headerLines (hs : List (Str × Str)) : Str := (hs.map headerLine).flatten

def kHost : Str := ['H','o','s','t']
def kUserAgent : Str := ['U','s','e','r','-','A','g','e','n','t']
def kCookie : Str := ['C','o','o','k','i','e']
def kSetCookie : Str := ['S','e','t','-','C','o','o','k','i','e']
def kContentType : Str := ['C','o','n','t','e','n','t','-','T','y','p','e']
def kConnection : Str := ['C','o','n','n','e','c','t','i','o','n']
def kClose : Str := ['c','l','o','s','e']
def kKeepAlive : Str := ['k','e','e','p','-','a','l','i','v','e']
def kHttp11 : Str := ['H','T','T','P','/','1','.','1']

/-- `request_method_`, `path + ComposeParameters()`, `host`, `request_user_agent_`, `request_headers_` in their
order, `CookiesAsString()` (empty if there are none), `request_body_content_type_`, `request_body_contents_`. -/
structure ClientRequest where
  method : Str
  target : Str
  host : Str
  userAgent : Str
  headers : List (Str × Str)
  cookies : Str
  contentType : Str
  body : Str

def optHeader (k v : Str) : List (Str × Str) := if v = [] then [] else [(k, v)]

/-- What `GenericHTTPClientPOSIX::Go` writes, posix_client.h:97-133: all the `BlockingWrite`-s together. -/
def ClientRequest.wire (q : ClientRequest) : Str :=
  q.method ++ [' '] ++ q.target ++ [' '] ++ kHttp11 ++ eol ++
  headerLine (kHost, q.host) ++
  (if q.userAgent ≠ [] then headerLine (kUserAgent, q.userAgent) else []) ++
  headerLines q.headers ++
  (if q.cookies ≠ [] then headerLine (kCookie, q.cookies) else []) ++
  (if q.contentType ≠ [] then headerLine (kContentType, q.contentType) else []) ++
  (if q.body ≠ [] || needContentLength q.method then
    headerLine (kContentLength, dec q.body.length) ++ eol ++ q.body
  else eol)

/-- A cookie of a response: its name, its value and its parameters. -/
structure SetCookie where
  name : Str
  value : Str
  params : List (Str × Str)

/-- server.h:113-122, without the name of the header. -/
def SetCookie.text (c : SetCookie) : Str :=
  c.name ++ ['='] ++ c.value ++
    (c.params.map fun p => [';', ' '] ++ p.1 ++ if p.2 = [] then [] else '=' :: p.2).flatten

/-- `PrepareHTTPResponseHeader`, server.h:100-124. `reason` is `HTTPResponseCodeAsString(code)`. -/
def responseHead (keepAlive : Bool) (code : Nat) (reason : Str) (headers : List (Str × Str))
    (cookies : List SetCookie) (contentType : Str) : Str :=
  kHttp11 ++ [' '] ++ dec code ++ [' '] ++ reason ++ eol ++
  headerLine (kContentType, contentType) ++
  headerLine (kConnection, if keepAlive then kKeepAlive else kClose) ++
  headerLines headers ++
  headerLines (cookies.map fun c => (kSetCookie, c.text))

/-- `SendHTTPResponseImpl`, server.h:126-137. -/
def response (code : Nat) (reason : Str) (headers : List (Str × Str)) (cookies : List SetCookie)
    (contentType : Str) (body : Str) : Str :=
  responseHead false code reason headers cookies contentType ++
  headerLine (kContentLength, dec body.length) ++ eol ++ body

/-- `SendChunkedHTTPResponse`, server.h:880-895: what is written before the chunks. -/
def chunkedHead (code : Nat) (reason : Str) (headers : List (Str × Str)) (cookies : List SetCookie)
    (contentType : Str) : Str :=
  responseHead true code reason headers cookies contentType ++
  headerLine (kTransferEncoding, kChunked) ++ eol

def hexDigit (n : Nat) : Char :=
  if n < 10 then Char.ofNat (48 + n) else Char.ofNat (55 + n)

/-- `Printf("%lX", n)`. -/
def hexU (n : Nat) : Str :=
  if n < 16 then [hexDigit n] else hexU (n / 16) ++ [hexDigit (n % 16)]

/-- A chunk as it is on the wire. -/
def chunkText (data : Str) : Str := hexU data.length ++ eol ++ data ++ eol

/-- `ChunkedResponseSender::Impl`, server.h:756-842: `written` is what `BlockingWrite` was called with so far, call by call;
`cache` the first `cache_size_` bytes of `data_cache_`. -/
structure Sender where
  written : List Str := []
  cache : Str := []
  /-- `memcpy` past the end of `data_cache_` -/
  overflow : Bool := false
deriving DecidableEq, Repr

/-- `connection_.BlockingWrite(s, …)`. -/
def Sender.write (w : Sender) (s : Str) : Sender := { w with written := w.written ++ [s] }

/-- `memcpy(data_cache_ + cache_size_, s, s.size()); cache_size_ += s.size()`. -/
def Sender.copy (size : Nat) (w : Sender) (s : Str) : Sender :=
  { w with cache := w.cache ++ s, overflow := w.overflow || decide (w.cache.length + s.length > size) }

/-- server.h:784-787: write out the cache before this chunk. -/
def Sender.makeRoom (size : Nat) (w : Sender) (chunkSize : Nat) (flush : Bool) : Sender :=
  if w.cache ≠ [] && (flush || decide (chunkSize > size - w.cache.length)) then
    { w.write w.cache with cache := [] }
  else w

/-- `SendImpl`, server.h:776-817, no write failing. -/
def Sender.send (size : Nat) (w : Sender) (data : Str) (flush : Bool) : Sender :=
  if data ≠ [] || (flush && w.cache ≠ []) then
    if data ≠ [] then
      let header := hexU data.length ++ eol
      let chunkSize := header.length + data.length + 2
      let w := w.makeRoom size chunkSize flush
      if flush || decide (chunkSize > size) then
        ((w.write header).write data).write eol
      else
        ((w.copy size header).copy size data).copy size eol
    else { w.write w.cache with cache := [] }
  else w

/-- `~Impl`, server.h:760-774. -/
def Sender.close (w : Sender) : Sender :=
  let w := if w.cache ≠ [] then w.write w.cache else w
  ((w.write ['0']).write eol).write eol

/-- The calls of `Send`, in order. -/
def Sender.sends (size : Nat) (w : Sender) (calls : List (Str × Bool)) : Sender :=
  calls.foldl (fun w c => w.send size c.1 c.2) w

/-- The bytes on the wire. -/
def Sender.wire (w : Sender) : Str := w.written.flatten

end Current.Net
