import Verif.Strings.Split
import Verif.Url.Model

/-!
The HTTP message parser, `GenericHTTPRequestData` (bricks/net/http/impl/server.h:371-642), which the server
uses for requests and the client (blocks/http/impl/posix_client.h:129) for responses: the read buffer with
its growth and its two `memmove`s, fed by a TCP stream cut in arbitrary pieces.

Simplifications, all at the places concerned: the buffer is the list of the bytes below `offset` and a
capacity (the zeros the code writes over line ends lie in the part already consumed); `length_cap` and
`body_offset` are set only right before returning, so the loop conditions on them are constant; `URL()` is a
function of `RawPath()` and left to the URL model.
-/
namespace Current.Net
open Current.Persist Current.Strings Current.Url

/-- How parsing ends. -/
inductive Final (α : Type) where
  | done (r : α)
  /-- `ConnectionResetByPeer` or another socket exception: the peer closed the connection too early -/
  | reset
  /-- HTTP 413 is sent, `HTTPPayloadTooLarge` thrown -/
  | tooLarge
  /-- HTTP 411 is sent, `HTTPRequestBodyLengthNotProvided` thrown -/
  | lengthRequired
  /-- HTTP 400 is sent, `ChunkSizeNotAValidHEXValue` thrown -/
  | badChunkSize
  /-- `std::out_of_range` of `std::stoi`, not caught by the parser -/
  | chunkSizeOutOfRange
  /-- `std::length_error`, not caught by the parser -/
  | lengthError
  /-- `recv` is told to write past the end of the buffer -/
  | overrun
  /-- `atoi` of a number that does not fit: undefined behaviour -/
  | undefinedAtoi
  /-- `CURRENT_ASSERT(buffer_.size() > offset + 1)` fails -/
  | assertFailed
  /-- an access past the end of the buffer -/
  | outOfBounds
deriving DecidableEq, Repr

/-- What the parser extracts: `Method()`, `RawPath()`, the calls of `OnHeader` and of `OnChunk` in order, and
the body of a message with `Content-Length`. -/
structure Req where
  method : Str := []
  rawPath : Str := []
  headers : List (Str × Str) := []
  chunks : List Str := []
  body : Str := []
deriving DecidableEq, Repr

/-- `Body()` (server.h:603-612) with `HTTPDefaultHelper::OnChunk` / `OnChunkedBodyDone` (server.h:343-353). -/
def Req.Body (r : Req) : Str := r.chunks.flatten ++ r.body

/-- The local variables of the parser that survive from line to line (server.h:383-404). -/
structure M where
  firstLineParsed : Bool := false
  chunked : Bool := false
  inChunks : Bool := false
  bodyLength : Option Nat := none
  req : Req := {}
deriving DecidableEq, Repr

/-- `NormalizeHeaderChar` (server.h:635), on ASCII. -/
def normHeaderChar (c : Char) : Char := if c ≠ '_' then c.toLower else '-'

/-- `HeaderNameEquals` (server.h:636-643), on strings without zeros. -/
def headerNameEquals (a b : Str) : Bool := a.map normHeaderChar == b.map normHeaderChar

/-- constants.h:49-52. -/
def kContentLength : Str := ['C','o','n','t','e','n','t','-','L','e','n','g','t','h']
def kTransferEncoding : Str := ['T','r','a','n','s','f','e','r','-','E','n','c','o','d','i','n','g']
def kChunked : Str := ['c','h','u','n','k','e','d']
def kMethodOverride : Str :=
  ['X','-','H','T','T','P','-','M','e','t','h','o','d','-','O','v','e','r','r','i','d','e']
def kPOST : Str := ['P','O','S','T']
def kPUT : Str := ['P','U','T']
def kPATCH : Str := ['P','A','T','C','H']

/-- constants.h:63: `kMaxHTTPPayloadSizeInBytes` (configurable at compile time; the default). -/
def maxPayload : Nat := 1024 * 1024 * 16

/-- `NeedContentLengthHeader`, body_requirement.h:35-37. -/
def needContentLength (method : Str) : Bool := method == kPOST || method == kPUT || method == kPATCH

def isHex (c : Char) : Bool := c.isDigit || (decide ('a' ≤ c) && decide (c ≤ 'f')) || (decide ('A' ≤ c) && decide (c ≤ 'F'))

def hexVal (c : Char) : Nat :=
  if c.isDigit then c.toNat - 48 else if 'a' ≤ c ∧ c ≤ 'f' then c.toNat - 87 else c.toNat - 55

def hexNum (s : Str) : Nat := s.foldl (fun n c => n * 16 + hexVal c) 0

/-- The optional `0x` that `strtol(…, 16)` skips if a hexadecimal digit follows. -/
def skip0x : Str → Str
  | '0' :: 'x' :: h :: r => if isHex h then h :: r else '0' :: 'x' :: h :: r
  | '0' :: 'X' :: h :: r => if isHex h then h :: r else '0' :: 'X' :: h :: r
  | s => s

inductive Stoi where
  | invalid
  | outOfRange
  | value (v : Int)
deriving DecidableEq, Repr

/-- `std::stoi(s, nullptr, 16)`: spaces, an optional sign, an optional `0x`, hexadecimal digits; the rest is
ignored. -/
def stoi16 (s : Str) : Stoi :=
  let t := sign (s.dropWhile isSpace)
  let ds := (skip0x t.2).takeWhile isHex
  if ds = [] then .invalid
  else
    let v : Int := if t.1 then -(hexNum ds : Int) else hexNum ds
    if -2147483648 ≤ v ∧ v ≤ 2147483647 then .value v else .outOfRange

def isSpaceOrTab (c : Char) : Bool := c = ' ' || c = '\t'

/-- server.h:549-556: spaces and tabs around the value are ignored. -/
def trimValue (s : Str) : Str := ((s.dropWhile isSpaceOrTab).reverse.dropWhile isSpaceOrTab).reverse

/-- `strchr(line, ':')`: what is before and what is after. -/
def splitColon : Str → Option (Str × Str)
  | [] => none
  | c :: r => if c = ':' then some ([], r) else (splitColon r).map fun p => (c :: p.1, p.2)

/-- What a line asks for. -/
inductive Verdict where
  | more (m : M)
  /-- a chunk of `n > 0` bytes follows -/
  | chunk (m : M) (n : Nat)
  /-- the chunk size is `-k`, `k > 0` -/
  | negative (k : Nat)
  /-- a body of `n` bytes follows -/
  | body (m : M) (n : Nat)
  | fin (o : Final Req)
deriving DecidableEq, Repr

/-- A header line, server.h:543-576. -/
def handleHeader (m : M) (line : Str) : Verdict :=
  match splitColon line with
  | none => .more m
  | some (key, rest) =>
    let value := trimValue rest
    let m := { m with req := { m.req with headers := m.req.headers ++ [(key, value)] } }
    if headerNameEquals key kContentLength then
      match atoi value with
      | none => .fin .undefinedAtoi
      | some v =>
        -- `static_cast<size_t>` of a negative number exceeds the limit
        if v < 0 ∨ v > (maxPayload : Int) then .fin .tooLarge
        else .more { m with bodyLength := some v.toNat }
    else if headerNameEquals key kMethodOverride then
      .more { m with req := { m.req with method := value.map Char.toUpper } }
    else if headerNameEquals key kTransferEncoding then
      if headerNameEquals value kChunked then .more { m with chunked := true } else .more m
    else .more m

/-- The first line, server.h:466-482. -/
def handleFirst (m : M) (line : Str) : Verdict :=
  if line = [] then .more m
  else
    match (split isSpace false line).1 with
    | [] => .more { m with firstLineParsed := true }
    | [method] => .more { m with firstLineParsed := true, req := { m.req with method := method } }
    | method :: path :: _ =>
      .more { m with firstLineParsed := true, req := { m.req with method := method, rawPath := path } }

/-- A line in the chunked body, server.h:483-505. -/
def handleChunkLine (m : M) (line : Str) : Verdict :=
  if line = [] then .more m
  else
    match stoi16 line with
    | .invalid => .fin .badChunkSize
    | .outOfRange => .fin .chunkSizeOutOfRange
    | .value v => if v = 0 then .fin (.done m.req) else if v < 0 then .negative v.natAbs else .chunk m v.natAbs

/-- The blank line after the headers, server.h:577-616. -/
def handleBlank (m : M) : Verdict :=
  if !m.chunked then
    match m.bodyLength with
    | some n => .body m n
    | none => if needContentLength m.req.method then .fin .lengthRequired else .fin (.done m.req)
  else .more { m with inChunks := true }

/-- One line, server.h:466-616. -/
def handle (m : M) (line : Str) : Verdict :=
  if !m.firstLineParsed then handleFirst m line
  else if m.inChunks then handleChunkLine m line
  else if line ≠ [] then handleHeader m line
  else handleBlank m

/-- `strstr(s, "\r\n")` on a zero-terminated string: what is before and what is after. -/
def crlf : Str → Option (Str × Str)
  | [] => none
  | [_] => none
  | c :: d :: r =>
    if c = '\r' ∧ d = '\n' then some ([], r)
    else if c = '\x00' then none
    else (crlf (d :: r)).map fun p => (c :: p.1, p.2)

/-- `buffer_` (its size `cap`, and the bytes below `offset`), `current_line_offset`, and the rest. -/
structure PSt where
  cap : Nat
  buf : Str
  cur : Nat
  m : M
deriving DecidableEq, Repr

/-- Where the parser is: at the top of the outer loop, at the test of the inner loop, after the inner loop, or
finished; with what the peer has sent or will send, and has not been read. -/
inductive Cfg where
  | top (s : PSt) (net : Str)
  | lines (s : PSt) (net : Str)
  | tail (s : PSt) (net : Str)
  | fin (o : Final Req)
deriving DecidableEq, Repr

def addChunk (m : M) (c : Str) : M := { m with req := { m.req with chunks := m.req.chunks ++ [c] } }

/-- server.h:406-435: read some bytes. `k` is the kernel's choice of how many; `g` is
`size * buffer_growth_k`. At the end of the stream `recv` returns 0 and `BlockingRead` throws. -/
def readStep (g : Nat → Nat) (k : Nat) (s : PSt) (net : Str) : Cfg :=
  if !(decide (s.cap > s.buf.length + 1)) then .fin .assertFailed
  else if net = [] then .fin .reset
  else
    let chunk := s.cap - s.buf.length - 1
    let n := min (max 1 k) (min chunk net.length)
    let buf := s.buf ++ net.take n
    let cap := if n = chunk then max (g s.cap) (s.cap + 1) else s.cap
    -- `buffer_[offset] = '\0'`
    if buf.length < cap then .lines { s with cap := cap, buf := buf } (net.drop n) else .fin .outOfBounds

/-- server.h:507-541: make room for a chunk of `n` bytes that begins at `off`, read what is missing
(`FillFullBuffer`), pass it on. -/
def chunkStep (g : Nat → Nat) (s : PSt) (net : Str) (m : M) (off n : Nat) : Cfg :=
  let next := off + n
  if s.buf.length < next then
    let need := next - s.buf.length
    let r : Nat × Str × Nat :=
      if s.cap < next + 1 then
        if off ≥ next + 1 - s.cap then (s.cap, s.buf.drop off, 0)
        else (max (g s.cap) (next + 1), s.buf, off)
      else (s.cap, s.buf, off)
    if net.length < need then .fin .reset
    else
      let buf := r.2.1 ++ net.take need
      if r.2.2 + n < r.1 then
        .lines ⟨r.1, buf, r.2.2 + n, addChunk m ((buf.drop r.2.2).take n)⟩ (net.drop need)
      else .fin .outOfBounds
  else .lines { s with cur := next, m := addChunk m ((s.buf.drop off).take n) } net

/-- The same code for a chunk size of `-k`, in 64-bit arithmetic: `chunk_length = 2^64 - k`. Either
`std::string::append` / `std::vector::resize` throw `std::length_error`, or `recv` gets a length far beyond
the buffer. -/
def negativeStep (s : PSt) (off k : Nat) : Final Req :=
  let next := (off + (2 ^ 64 - k)) % 2 ^ 64
  if s.buf.length < next then
    if s.cap < (next + 1) % 2 ^ 64 then
      if off ≥ next + 1 - s.cap then .overrun else .lengthError
    else .overrun
  else .lengthError

/-- server.h:583-606: the body after `Content-Length`. -/
def bodyStep (s : PSt) (net : Str) (m : M) (off n : Nat) : Final Req :=
  let cap := max s.cap (off + n + 1)
  if off + n > s.buf.length then
    let need := off + n - s.buf.length
    if net.length < need then .reset
    else if off + n < cap then
      .done { m.req with body := ((s.buf ++ net.take need).drop off).take n }
    else .outOfBounds
  else .done { m.req with body := (s.buf.drop off).take n }

/-- One step of the parser, server.h:405-639. -/
def step (g : Nat → Nat) (k : Nat) : Cfg → Cfg
  | .fin o => .fin o
  | .top s net => readStep g k s net
  | .lines s net =>
    match crlf (s.buf.drop s.cur) with
    | none => .tail s net
    | some (line, _) =>
      let off := s.cur + line.length + 2
      match handle s.m line with
      | .more m => .lines { s with m := m, cur := off } net
      | .chunk m n => chunkStep g s net m off n
      | .negative k => .fin (negativeStep s off k)
      | .body m n => .fin (bodyStep s net m off n)
      | .fin o => .fin o
  | .tail s net =>
    -- server.h:626-638: move the rest to the beginning of the buffer
    if s.m.inChunks && decide (s.cur ≠ 0) then
      if s.buf.length > s.cur then .top { s with buf := s.buf.drop s.cur, cur := 0 } net
      else .top { s with buf := [], cur := 0 } net
    else .top s net

/-- Parsing: `cap` is `initial_buffer_size`, `stream` all the peer sends before it closes, `ks` how the kernel
cuts it, `n` steps. -/
def run (g : Nat → Nat) (ks : Nat → Nat) : Nat → Cfg → Cfg
  | 0, c => c
  | n + 1, c => run g (fun i => ks (i + 1)) n (step g (ks 0) c)

def start (cap : Nat) (stream : Str) : Cfg := .top ⟨cap, [], 0, {}⟩ stream

/-- The parser ends with `o`. -/
def Ends (g : Nat → Nat) (ks : Nat → Nat) (cap : Nat) (stream : Str) (o : Final Req) : Prop :=
  ∃ n, run g ks n (start cap stream) = .fin o

end Current.Net
