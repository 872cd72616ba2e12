import Verif.Net.Wire
import Verif.Url.RoundTrip
import Mathlib.Data.List.Perm.Subperm
/-!
C99: the HTTP client follows redirects. Model of `GenericHTTPClientPOSIX::Go`, `blocks/http/impl/posix_client.h:73-158`.

Simplifications: connections do not fail and every response arrives (C57 is about how it is read); an assignment of `HTTPResponseCode` from a number is the number.
A server is any function of all the requests made so far, so it may keep a state, and there may be many of them.
-/
namespace Current.Net
open Current.Persist Current.Url

/-- The fields filled by `PrepareInput`, `posix_client.h:163-171, 187-251`. -/
structure Asked where
  method : Str
  url : Str
  userAgent : Str
  headers : List (Str × Str)
  cookies : Str
  contentType : Str
  body : Str
  allow : Bool

/-- A request and the host and port it goes to. -/
structure Sent where
  host : Str
  port : Nat
  request : ClientRequest

structure Response where
  code : Int
  headers : List (Str × Str)
  body : Str

/-- The port to connect to, `posix_client.h:89-98`. -/
def portFor (b : Base) : Nat :=
  if b.port = 0 then (if defaultPort b.scheme = 0 then 80 else defaultPort b.scheme) else b.port

/-- What is sent, and where to, `posix_client.h:99-135`. -/
def sendTo (a : Asked) (u : URL) : Sent :=
  ⟨u.base.host, portFor u.base, ⟨a.method, u.base.path ++ composeParams u.par, u.base.host, a.userAgent, a.headers, a.cookies, a.contentType, a.body⟩⟩

def kLocation : Str := ['L', 'o', 'c', 'a', 't', 'i', 'o', 'n']

/-- `HTTPRedirectHelper::OnHeader`, `posix_client.h:52-57`, for the headers one by one. -/
def location (hs : List (Str × Str)) : Str := hs.foldl (fun l h => if h.1 = kLocation then h.2 else l) []

/-- The test for a redirect, `posix_client.h:146`. -/
def isRedirect (r : Response) : Bool := decide (300 ≤ r.code) && decide (r.code ≤ 399) && decide (location r.headers ≠ [])

inductive GoResult where
  | response (url : Str) (r : Response)
  | redirectLoop
  | notAllowed
  | badURL
  | undefined

/-- The loop, `posix_client.h:79-156`: `shown` is `response_url_after_redirects_`, `seen` is `all_urls`, `made` are the requests sent so far. `none`: more than `n` iterations. -/
def goLoop (a : Asked) (server : List Sent → Response) : Nat → URL → Str → List Str → List Sent → Option (GoResult × List Sent)
  | 0, _, _, _, _ => none
  | n + 1, u, shown, seen, made =>
    if compose u ∈ seen then some (.redirectLoop, made)
    else
      let made := made ++ [sendTo a u]
      let r := server made
      if isRedirect r then
        if a.allow then
          match Url.parse (location r.headers) with
          | .ok v => goLoop a server n (redirected u v) (compose (redirected u v)) (seen ++ [compose u]) made
          | .throws => some (.badURL, made)
          | .undefined => some (.undefined, made)
        else some (.notAllowed, made)
      else some (.response shown r, made)

/-- `Go`, `posix_client.h:73-78`. -/
def go (a : Asked) (server : List Sent → Response) (n : Nat) : Option (GoResult × List Sent) :=
  match Url.parse a.url with
  | .ok u => goLoop a server n u a.url [] []
  | .throws => some (.badURL, [])
  | .undefined => some (.undefined, [])

/-! ### Specification -/

/-- `us` are the URLs of a chain of redirects from `u0`: each but the first is where the response to the previous request points. -/
inductive Chain (a : Asked) (server : List Sent → Response) (u0 : URL) : List URL → Prop where
  | start : Chain a server u0 [u0]
  | follow {us : List URL} {u v : URL} : Chain a server u0 (us ++ [u]) → isRedirect (server ((us ++ [u]).map (sendTo a))) = true →
      Url.parse (location (server ((us ++ [u]).map (sendTo a))).headers) = .ok v → Chain a server u0 (us ++ [u] ++ [redirected u v])

/-- What `Go` promises, given the URLs `us` it asked for. -/
def Truthful (a : Asked) (server : List Sent → Response) (us : List URL) : GoResult → Prop
  | .response url r => r = server (us.map (sendTo a)) ∧ isRedirect r = false ∧ (a.allow = false → us.length = 1) ∧
      (us.length = 1 → url = a.url) ∧ (us.length ≠ 1 → (us.getLast?).map compose = some url)
  | .redirectLoop => ∃ u v, us.getLast? = some u ∧ isRedirect (server (us.map (sendTo a))) = true ∧
      Url.parse (location (server (us.map (sendTo a))).headers) = .ok v ∧ compose (redirected u v) ∈ us.map compose
  | .notAllowed => a.allow = false ∧ us.length = 1 ∧ isRedirect (server (us.map (sendTo a))) = true
  | .badURL => a.allow = true ∧ isRedirect (server (us.map (sendTo a))) = true ∧ Url.parse (location (server (us.map (sendTo a))).headers) = .throws
  | .undefined => a.allow = true ∧ isRedirect (server (us.map (sendTo a))) = true ∧ Url.parse (location (server (us.map (sendTo a))).headers) = .undefined

/-! ### Proofs -/

theorem goLoop_spec (a : Asked) (server : List Sent → Response) (u0 : URL) : ∀ n us u shown out, Chain a server u0 (us ++ [u]) → ((us ++ [u]).dropLast.map compose).Nodup →
    (us ≠ [] → a.allow = true) → (us = [] → shown = a.url) → (us ≠ [] → shown = compose u) →
    (compose u ∈ us.map compose → ∃ w x, us.getLast? = some w ∧ isRedirect (server (us.map (sendTo a))) = true ∧ Url.parse (location (server (us.map (sendTo a))).headers) = .ok x ∧ u = redirected w x ∧ Chain a server u0 us) →
    goLoop a server n u shown (us.map compose) (us.map (sendTo a)) = some out →
    ∃ vs, Chain a server u0 vs ∧ (vs.map compose).Nodup ∧ out.2 = vs.map (sendTo a) ∧ Truthful a server vs out.1 := by
  intro n
  induction n with
  | zero => intro us u shown out _ _ _ _ _ _ h; cases h
  | succ n ih =>
    intro us u shown out hch hnd hal hs1 hs2 hloop h
    rw [List.dropLast_concat] at hnd
    simp only [goLoop] at h
    by_cases hin : compose u ∈ us.map compose
    · rw [if_pos hin] at h
      cases h
      obtain ⟨w, x, h1, h2, h3, rfl, h5⟩ := hloop hin
      exact ⟨us, h5, hnd, rfl, w, x, h1, h2, h3, hin⟩
    rw [if_neg hin] at h
    have hmade : us.map (sendTo a) ++ [sendTo a u] = (us ++ [u]).map (sendTo a) := by simp
    have hnd' : ((us ++ [u]).map compose).Nodup := by
      rw [List.map_append, List.nodup_append]
      refine ⟨hnd, by simp, ?_⟩
      intro x hx y hy
      simp only [List.map_cons, List.map_nil, List.mem_singleton] at hy
      subst hy
      rintro rfl
      exact hin hx
    rw [hmade] at h
    by_cases hr : isRedirect (server ((us ++ [u]).map (sendTo a))) = true
    · rw [if_pos hr] at h
      by_cases ha : a.allow = true
      · rw [if_pos ha] at h
        cases hp : Url.parse (location (server ((us ++ [u]).map (sendTo a))).headers) with
        | ok v =>
          rw [hp] at h
          simp only at h
          have hseen : us.map compose ++ [compose u] = (us ++ [u]).map compose := by simp
          rw [hseen] at h
          refine ih (us ++ [u]) (redirected u v) _ out (.follow hch hr hp) ?_ (fun _ => ha) (fun h => absurd h (by simp)) (fun _ => rfl) ?_ h
          · rw [List.dropLast_concat]; exact hnd'
          · intro _
            exact ⟨u, v, by simp, hr, hp, rfl, hch⟩
        | throws =>
          rw [hp] at h
          cases h
          exact ⟨us ++ [u], hch, hnd', rfl, ha, hr, hp⟩
        | undefined =>
          rw [hp] at h
          cases h
          exact ⟨us ++ [u], hch, hnd', rfl, ha, hr, hp⟩
      · rw [if_neg ha] at h
        cases h
        have hus : us = [] := by
          cases us with
          | nil => rfl
          | cons _ _ => exact absurd (hal (by simp)) ha
        subst hus
        exact ⟨[u], hch, hnd', rfl, by simpa using ha, rfl, hr⟩
    · rw [if_neg hr] at h
      cases h
      refine ⟨us ++ [u], hch, hnd', rfl, rfl, by simpa using hr, ?_, ?_, ?_⟩
      · intro ha
        cases us with
        | nil => rfl
        | cons _ _ => rw [hal (by simp)] at ha; cases ha
      · intro h1
        apply hs1
        cases us with
        | nil => rfl
        | cons _ _ => simp at h1
      · intro h1
        have : us ≠ [] := by rintro rfl; exact h1 rfl
        rw [hs2 this]; simp

/-- **C99.** Whatever the servers do, if the client returns or throws, then it has sent the same method, headers and body to the URLs of a chain of redirects, all different; and what it returns is the response to the last of these requests, which is not a redirect, and its URL;
a redirect is reported as not allowed only if it is not allowed and then nothing else was sent; a loop is reported only if the last response points to a URL that was asked for before. -/
theorem redirects_followed (a : Asked) (server : List Sent → Response) (n : Nat) (out : GoResult × List Sent) (h : go a server n = some out) {u0 : URL} (hu : Url.parse a.url = .ok u0) :
    ∃ us, Chain a server u0 us ∧ (us.map compose).Nodup ∧ out.2 = us.map (sendTo a) ∧ Truthful a server us out.1 := by
  unfold go at h
  rw [hu] at h
  exact goLoop_spec a server u0 n [] u0 a.url out .start (by simp) (by simp) (by simp) (by simp) (by simp) h

/-- A URL that cannot be parsed: nothing is sent. -/
theorem bad_url_sends_nothing (a : Asked) (server : List Sent → Response) (n : Nat) (h : Url.parse a.url = .throws) : go a server n = some (.badURL, []) := by
  simp only [go, h]

theorem goLoop_ends (a : Asked) (server : List Sent → Response) (u0 : URL) (U : List Str) (hU : ∀ us, Chain a server u0 us → ∀ u ∈ us, compose u ∈ U) :
    ∀ n us u shown, Chain a server u0 (us ++ [u]) → (us.map compose).Nodup → U.length + 2 ≤ n + us.length →
      goLoop a server n u shown (us.map compose) (us.map (sendTo a)) ≠ none := by
  intro n
  induction n with
  | zero =>
    intro us u shown hch hnd hlen
    have hsub : us.map compose ⊆ U := by
      intro x hx
      obtain ⟨w, hw, rfl⟩ := List.mem_map.1 hx
      exact hU _ hch w (by simp [hw])
    have := (List.Nodup.subperm hnd hsub).length_le
    rw [List.length_map] at this
    omega
  | succ n ih =>
    intro us u shown hch hnd hlen
    simp only [goLoop]
    by_cases hin : compose u ∈ us.map compose
    · rw [if_pos hin]; exact Option.some_ne_none _
    rw [if_neg hin]
    have hmade : us.map (sendTo a) ++ [sendTo a u] = (us ++ [u]).map (sendTo a) := by simp
    rw [hmade]
    split
    · rename_i hr
      split
      · cases hp : Url.parse (location (server ((us ++ [u]).map (sendTo a))).headers) with
        | ok v =>
          have hseen : us.map compose ++ [compose u] = (us ++ [u]).map compose := by simp
          simp only [hseen]
          refine ih (us ++ [u]) (redirected u v) _ (.follow hch hr hp) ?_ (by rw [List.length_append]; simp; omega)
          rw [List.map_append, List.nodup_append]
          refine ⟨hnd, by simp, ?_⟩
          intro x hx y hy
          simp only [List.map_cons, List.map_nil, List.mem_singleton] at hy
          subst hy
          rintro rfl
          exact hin hx
        | throws => simp
        | undefined => simp
      · exact Option.some_ne_none _
    · exact Option.some_ne_none _

/-- **C99.** If the redirects lead only to finitely many URLs, the client returns or throws, after at most that many requests. -/
theorem redirects_end (a : Asked) (server : List Sent → Response) {u0 : URL} (hu : Url.parse a.url = .ok u0) (U : List Str)
    (hU : ∀ us, Chain a server u0 us → ∀ u ∈ us, compose u ∈ U) : ∃ out, go a server (U.length + 2) = some out ∧ out.2.length ≤ U.length := by
  have h : go a server (U.length + 2) ≠ none := by
    unfold go; rw [hu]
    exact goLoop_ends a server u0 U hU (U.length + 2) [] u0 a.url .start (by simp) (by simp)
  obtain ⟨out, ho⟩ := Option.ne_none_iff_exists'.1 h
  refine ⟨out, ho, ?_⟩
  obtain ⟨us, h1, h2, h3, -⟩ := redirects_followed a server _ out ho hu
  have hsub : us.map compose ⊆ U := by
    intro x hx
    obtain ⟨w, hw, rfl⟩ := List.mem_map.1 hx
    exact hU _ h1 w hw
  have := (List.Nodup.subperm h2 hsub).length_le
  rw [h3]
  simpa using this

theorem portFor_eq (b : Base) : portFor b = if (if portIsImplied b then 0 else b.port) ≠ 0 then (if portIsImplied b then 0 else b.port)
    else if effScheme b = https then 443 else 80 := by
  unfold portFor defaultPort portIsImplied effScheme
  have hne := http_ne_https
  by_cases hs : b.scheme = [] <;> by_cases h0 : b.port = 0 <;> by_cases h1 : b.port = 80 <;> by_cases h2 : b.port = 443 <;>
    by_cases h3 : b.scheme = http <;> by_cases h4 : b.scheme = https <;> simp_all [http, https]

/-- **C99.** No loop is reported by mistake: URLs which are written the same are asked for from the same host and port with the same request line (for URLs whose parts do not contain the characters that separate them, with ASCII parameters). -/
theorem same_text_same_request (a : Asked) (u v : URL) (hu : u.base.Ok) (hv : v.base.Ok) (pu : ∀ kv ∈ u.par.params, isAscii kv.1 ∧ isAscii kv.2)
    (pv : ∀ kv ∈ v.par.params, isAscii kv.1 ∧ isAscii kv.2) (h : compose u = compose v) : sendTo a u = sendTo a v := by
  have e1 := url_roundtrip_partial u hu pu
  have e2 := url_roundtrip_partial v hv pv
  rw [h, e2] at e1
  injection e1 with e1
  simp only [URL.mk.injEq, Base.mk.injEq] at e1
  obtain ⟨⟨hhost, hpath, hsch, hport, -, -⟩, hpar⟩ := e1
  have hp : portFor v.base = portFor u.base := by rw [portFor_eq, portFor_eq, hport, hsch]
  unfold sendTo
  rw [hpar, hhost, hpath, hp]

/-! ### Witnesses -/

deriving instance DecidableEq for ClientRequest

def str (s : String) : Str := s.toList

/-- A POST with a body and a cookie. -/
def exampleAsked (allow : Bool) : Asked := ⟨str "POST", str "http://a.com/x", [], [(str "Authorization", str "secret")], str "id=1", str "text/plain", str "data", allow⟩

/-- `a.com/x` redirects to `b.org:81/y?k=v#f`, which answers. -/
def exampleServer : List Sent → Response
  | [_] => ⟨303, [(str "Location", str "//b.org:81/y?k=v#f")], []⟩
  | _ => ⟨200, [], str "ok"⟩

def summary (o : Option (GoResult × List Sent)) : Option (Option (Str × Int) × List (Str × Nat × ClientRequest)) :=
  o.map fun p => (match p.1 with | .response u r => some (u, r.code) | _ => none, p.2.map fun q => (q.host, q.port, q.request))

/-- **C99 (finding).** After a 303 the POST is repeated with its body (it should become a GET); headers such as `Authorization` and the cookies are sent to the other host as well; the fragment is sent to the server, and `Host` lacks the port. -/
theorem redirect_sends_everything_elsewhere : summary (go (exampleAsked true) exampleServer 5) = some (some (str "http://b.org:81/y?k=v#f", 200),
    [(str "a.com", 80, ⟨str "POST", str "/x", str "a.com", [], [(str "Authorization", str "secret")], str "id=1", str "text/plain", str "data"⟩),
     (str "b.org", 81, ⟨str "POST", str "/y?k=v#f", str "b.org", [], [(str "Authorization", str "secret")], str "id=1", str "text/plain", str "data"⟩)]) := by
  decide +kernel

theorem kLocation_str : kLocation = str "Location" := by decide +kernel

/-- `location` is the value of the last header of that name. -/
theorem location_last (pre post : List (Str × Str)) (v : Str) (h : ∀ x ∈ post, x.1 ≠ str "Location") :
    location (pre ++ (str "Location", v) :: post) = v := by
  unfold location
  rw [kLocation_str, List.foldl_append, List.foldl_cons, if_pos rfl]
  clear pre
  induction post with
  | nil => rfl
  | cons x xs ih =>
    rw [List.foldl_cons, if_neg (h x (by simp))]
    exact ih fun y hy => h y (by simp [hy])

theorem location_none (hs : List (Str × Str)) (h : ∀ x ∈ hs, x.1 ≠ str "Location") : location hs = [] := by
  unfold location
  rw [kLocation_str]
  induction hs with
  | nil => rfl
  | cons x xs ih =>
    rw [List.foldl_cons, if_neg (h x (by simp))]
    exact ih fun y hy => h y (by simp [hy])

theorem last_split (hs : List (Str × Str)) : (∀ x ∈ hs, x.1 ≠ str "Location") ∨
    ∃ pre v post, hs = pre ++ (str "Location", v) :: post ∧ ∀ x ∈ post, x.1 ≠ str "Location" := by
  induction hs with
  | nil => exact .inl (by simp)
  | cons x xs ih =>
    rcases ih with h | ⟨pre, v, post, he, h⟩
    · by_cases hx : x.1 = str "Location"
      · exact .inr ⟨[], x.2, xs, by rw [← hx]; rfl, h⟩
      · exact .inl fun y hy => by rcases List.mem_cons.1 hy with rfl | hy; exacts [hx, h y hy]
    · exact .inr ⟨x :: pre, v, post, by rw [he]; rfl, h⟩

/-- **C99.** What counts as a redirect: a 3xx code and a non-empty `Location` header (the last one, if there are several). -/
theorem redirect_is_3xx_with_location (r : Response) : isRedirect r = true ↔ 300 ≤ r.code ∧ r.code < 400 ∧
    ∃ pre v post, r.headers = pre ++ (str "Location", v) :: post ∧ (∀ x ∈ post, x.1 ≠ str "Location") ∧ v ≠ [] := by
  unfold isRedirect
  simp only [Bool.and_eq_true, decide_eq_true_eq]
  constructor
  · rintro ⟨⟨h1, h2⟩, h3⟩
    refine ⟨h1, by omega, ?_⟩
    rcases last_split r.headers with h | ⟨pre, v, post, he, h⟩
    · exact absurd (location_none _ h) h3
    · exact ⟨pre, v, post, he, h, by rw [he, location_last pre post v h] at h3; exact h3⟩
  · rintro ⟨h1, h2, pre, v, post, he, h, hv⟩
    exact ⟨⟨h1, by omega⟩, by rw [he, location_last pre post v h]; exact hv⟩

/-- **C99 (finding).** The name of the header is compared as it is written: `location` is not followed, the redirect itself is the result. -/
theorem lower_case_location_is_ignored : isRedirect ⟨302, [(str "location", str "/y")], []⟩ = false := by decide +kernel

/-- **C99 (finding).** A relative path without a slash in front is taken for a host. -/
theorem relative_location_is_a_host : (match Url.parse (str "other.html") with | .ok v => some (sendTo (exampleAsked true) (redirected ⟨⟨str "a.com", str "/x/y", str "http", 80, [], []⟩, ⟨[], []⟩⟩ v)).host | _ => none) = some (str "other.html") := by
  decide +kernel

/-- The path `/aaa…a`. -/
def longer (k : Nat) : Str := '/' :: List.replicate k 'a'

/-- Each response points to a path longer by one. -/
def endlessServer (made : List Sent) : Response := ⟨302, [(kLocation, longer made.length)], []⟩

theorem parse_longer (k : Nat) : Url.parse (longer k) = .ok ⟨⟨[], longer k, [], 0, [], []⟩, ⟨[], []⟩⟩ := by
  have hno : ∀ c, c ≠ '/' → c ≠ 'a' → c ∉ longer k := by
    intro c h1 h2 h
    rcases List.mem_cons.1 h with h | h
    · exact h1 h
    · exact h2 (List.eq_of_mem_replicate h)
  have hex : extract (longer k) = (⟨[], []⟩, (longer k).length) := by
    simp only [extract, find_none0 _ '#' (hno '#' (by decide) (by decide)), find_none0 _ '?' (hno '?' (by decide) (by decide))]
  have hsl : findSlashes (longer k) = none := by
    have : ∀ n, findSlashes (List.replicate n 'a') = none := by
      intro n
      induction n with
      | zero => rfl
      | succ n ih => cases n with
        | zero => rfl
        | succ n => simp only [List.replicate_succ] at ih ⊢; simp [findSlashes, ih]
    cases k with
    | zero => rfl
    | succ k => have := this (k + 1); simp only [longer, List.replicate_succ] at this ⊢; simp [findSlashes, this]
  have hb := relative_url (longer k) _ rfl (by rw [hsl]; intro _ h; cases h)
  simp only [Url.parse, hex, List.take_length, hb]

theorem compose_plain (b : Base) (hh : b.host ≠ []) (hs : b.scheme = http) (hp : b.port = 0 ∨ b.port = 80) (hu : b.username = []) :
    compose ⟨b, ⟨[], []⟩⟩ = http ++ [':', '/', '/'] ++ b.host ++ b.path := by
  have hne : http ≠ [] := by decide
  have h80 : defaultPort http = 80 := by decide
  have hp' : ¬ (0 < b.port ∧ b.port ≠ 80) := by omega
  simp only [compose, composeBase, composeParams, composeLoop, hs, hu, ne_eq, hh, hne, not_false_eq_true, if_true, not_true_eq_false, if_false, h80, Nat.lt_irrefl, List.append_nil]
  rw [if_neg hp']
  simp

/-- **C99 (finding).** There is no limit on the number of redirects: against such a server the client goes on for ever. -/
theorem endless_redirects (a : Asked) (ha : a.allow = true) (hu : a.url = str "http://a.com/") (n : Nat) : go a endlessServer n = none := by
  have key : ∀ n k u shown seen made, u.base.host = str "a.com" → u.base.scheme = http → u.base.port = 0 ∨ u.base.port = 80 → u.base.username = [] → u.base.password = [] →
      u.base.path = longer k → u.par = ⟨[], []⟩ → made.length = k → (∀ t ∈ seen, t.length < (compose u).length) → goLoop a endlessServer n u shown seen made = none := by
    intro n
    induction n with
    | zero => intros; rfl
    | succ n ih =>
      intro k u shown seen made h1 h2 h3 h4 h5 h6 h7 h8 h9
      have hnot : compose u ∉ seen := fun h => absurd (h9 _ h) (Nat.lt_irrefl _)
      have hred : isRedirect (endlessServer (made ++ [sendTo a u])) = true := by
        have : location (endlessServer (made ++ [sendTo a u])).headers = longer (k + 1) := by simp [endlessServer, location, h8]
        unfold isRedirect
        rw [this]
        simp [endlessServer, longer]
      have hloc : location (endlessServer (made ++ [sendTo a u])).headers = longer (k + 1) := by simp [endlessServer, location, h8]
      simp only [goLoop, if_neg hnot, hred, ha, if_true, hloc, parse_longer]
      have hr := redirect_relative u ⟨⟨[], longer (k + 1), [], 0, [], []⟩, ⟨[], []⟩⟩ rfl rfl rfl rfl rfl
      obtain ⟨d1, d2, d3, d4, d5, d6⟩ := defaults_set { u.base with path := longer (k + 1), username := [], password := [] }
      have hne : u.base.host ≠ [] := by rw [h1]; decide +kernel
      have heff : effScheme { u.base with path := longer (k + 1), username := [], password := [] } = http := by
        unfold effScheme; simp only [h2]; rfl
      have hp80 : (withDefaults { u.base with path := longer (k + 1), username := [], password := [] }).port = 80 := by
        rw [d3, heff]
        rcases h3 with h | h <;> simp [h]
      refine ih (k + 1) _ _ _ _ ?_ ?_ ?_ ?_ ?_ ?_ ?_ (by simp [h8]) ?_
      · rw [hr]; show (withDefaults _).host = _; rw [d2]; simp only [if_neg hne]; exact h1
      · rw [hr]; show (withDefaults _).scheme = _; rw [d1, heff]
      · rw [hr]; exact .inr hp80
      · rw [hr]; exact d5
      · rw [hr]; exact d6
      · rw [hr]; exact d4
      · rw [hr]
      · have hlen : (compose u).length < (compose (redirected u ⟨⟨[], longer (k + 1), [], 0, [], []⟩, ⟨[], []⟩⟩)).length := by
          have hu' : u = ⟨u.base, ⟨[], []⟩⟩ := by rw [← h7]
          have e1 : compose u = http ++ [':', '/', '/'] ++ u.base.host ++ longer k := by
            rw [hu', compose_plain _ hne h2 h3 h4, h6]
          have e2 : compose (redirected u ⟨⟨[], longer (k + 1), [], 0, [], []⟩, ⟨[], []⟩⟩) = http ++ [':', '/', '/'] ++ u.base.host ++ longer (k + 1) := by
            rw [hr]
            have := compose_plain (withDefaults { u.base with path := longer (k + 1), username := [], password := [] }) (by rw [d2]; simp only [if_neg hne]; exact hne) (by rw [d1, heff]) (.inr hp80) d5
            rw [d2, d4] at this
            simp only [if_neg hne] at this
            exact this
          rw [e1, e2]
          simp [longer]
        intro t ht
        rcases List.mem_append.1 ht with ht | ht
        · exact Nat.lt_trans (h9 t ht) hlen
        · rw [List.mem_singleton.1 ht]; exact hlen
  unfold go
  have hp : Url.parse a.url = .ok ⟨⟨str "a.com", longer 0, http, 0, [], []⟩, ⟨[], []⟩⟩ := by rw [hu]; rfl
  rw [hp]
  exact key n 0 _ _ _ _ rfl rfl (.inl rfl) rfl rfl rfl rfl rfl (by simp)

/-- The hypotheses of `redirects_end` hold for the example above. -/
example : ∃ u0, Url.parse (exampleAsked true).url = .ok u0 ∧ ∀ us, Chain (exampleAsked true) exampleServer u0 us → ∀ u ∈ us, compose u ∈ [str "http://a.com/x", str "http://b.org:81/y?k=v#f"] := by
  refine ⟨_, rfl, fun us h => ?_⟩
  generalize hw : (⟨⟨str "a.com", str "/x", http, 0, [], []⟩, ⟨[], []⟩⟩ : URL) = w at h
  have hshape : us = [w] ∨ ∃ v, us = [w, v] ∧ compose v = str "http://b.org:81/y?k=v#f" := by
    subst hw
    induction h with
    | start => exact .inl rfl
    | @follow us u v hc hr hp ih =>
      rcases ih with ih | ⟨v', ih, -⟩
      · have : us = [] := by
          cases us with
          | nil => rfl
          | cons _ _ => simp at ih
        subst this
        simp at ih
        subst ih
        refine .inr ⟨_, rfl, ?_⟩
        have e : Url.parse (location (exampleServer ([] ++ [sendTo (exampleAsked true) ⟨⟨str "a.com", str "/x", http, 0, [], []⟩, ⟨[], []⟩⟩])).headers) = .ok ⟨⟨str "b.org", str "/y", [], 81, [], []⟩, ⟨[(str "k", str "v")], str "f"⟩⟩ := by decide +kernel
        have hv : (Res.ok v) = .ok ⟨⟨str "b.org", str "/y", [], 81, [], []⟩, ⟨[(str "k", str "v")], str "f"⟩⟩ := by rw [← hp, ← e]; rfl
        injection hv with hv
        rw [hv]
        decide +kernel
      · rw [ih] at hr
        simp [exampleServer, isRedirect] at hr
  intro u hu
  rcases hshape with rfl | ⟨v, rfl, hv⟩
  · simp at hu; subst hu; subst hw; decide +kernel
  · simp at hu
    rcases hu with rfl | rfl
    · subst hw; decide +kernel
    · rw [hv]; simp

end Current.Net
