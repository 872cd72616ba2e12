import Verif.Url.RoundTrip
set_option linter.unusedSimpArgs false
/-!
`integrations/onesignal/ios_notifications_sender.h` (C149) and `integrations/adwords/conversion_tracking.h` (C150), as built without
`CURRENT_CI`. The HTTP client is a parameter: for every request it gives a response or throws. How a response is parsed as JSON is a
parameter too. The text of the request is not modelled (the object which is written is).
-/
namespace Current.Integrations
open Current.Persist
open Current.Url

/-! ### Model: OneSignal -/

/-- `OneSignalNotificationRequest`, lines 47-65. -/
structure Notification where
  appId : Str
  players : List Str := []
  contents : Option Str := none
  badgeType : Option Str := none
  badgeCount : Option Int := none
  contentAvailable : Option Bool := none
  deriving DecidableEq, Repr

/-- `OneSignalNotificationResponse`, lines 67-71. -/
structure Answer where
  recipients : Option Int
  errors : Option (List Str)
  deriving DecidableEq, Repr

/-- The exceptions. All are derived from `current::Exception` (`integrations/exceptions.h:33`, `onesignal/exceptions.h`). -/
inductive Exc where
  | network                -- of the HTTP client
  | json                   -- of `ParseJSON`
  | push (letter : Char)   -- `OneSignalPushNotificationException`
  | initialization
  deriving DecidableEq, Repr

/-- `e` is caught by `catch (const Exception&)`. -/
def Exc.isException : Exc → Bool
  | .network | .json | .push _ | .initialization => true

/-- `try { … } catch (const Exception& e) { handler }`. -/
def tryCatch {α : Type} (body : Except Exc α) (handler : Exc → Except Exc α) : Except Exc α :=
  match body with
  | .ok a => .ok a
  | .error e => if e.isException then handler e else .error e

/-- The body of a response: `none` if `ParseJSON` throws. -/
abbrev Parser := Str → Option Answer

/-- The constructor, lines 77-107: the response to `GET /.current` has to be the golden one. -/
def golden : Str := "https://onesignal.com/api/v1/notifications\n".toList

def construct (get : Except Exc Str) : Except Exc Unit :=
  match get with
  | .error _ => .error .initialization
  | .ok actual => if actual = golden then .ok () else .error .initialization

/-- The object which is posted, lines 123-139. -/
def notification (appId player message : Str) (counter : Int) : Notification :=
  let n : Notification := { appId := appId, players := [player] }
  let n := if message ≠ [] then { n with contents := some message } else { n with contentAvailable := some true }
  if counter ≠ 0 then { n with badgeType := some "Increase".toList, badgeCount := some counter } else n

/-- `Push`, lines 112-180: the requests which are posted, and the result. -/
def push (appId : Str) (post : Notification → Except Exc Str) (parse : Parser) (player message : Str) (counter : Int) :
    List Notification × Except Exc Bool :=
  if message = [] ∧ counter = 0 then ([], .ok true)
  else
    let n := notification appId player message counter
    ([n], tryCatch
      (match post n with
       | .error e => .error e
       | .ok body =>
         match tryCatch (match parse body with | some a => .ok a | none => .error .json) (fun _ => .error (.push 'A')) with
         | .error e => .error e
         | .ok a =>
           match a.recipients with
           | none => if a.errors.isSome then .ok false else .error (.push 'Q')
           | some r => if r = 0 then .ok false else if r > 1 then .error (.push 'Z') else .ok true)
      (fun _ => .ok false))

/-! ### Model: AdWords -/

structure AdWords where
  conversionId : Str
  label : Str
  bundleid : Str
  idtype : Str
  deriving DecidableEq, Repr

/-- `get_url_`, lines 51-58. -/
def getUrl (port : Nat) (p : AdWords) : Str :=
  "localhost:".toList ++ dec port ++ "/googleadservices/pagead/conversion/".toList ++ p.conversionId ++ "/?label=".toList ++ p.label ++
    "&bundleid=".toList ++ p.bundleid ++ "&idtype=".toList ++ p.idtype ++ "&rdid=".toList

/-- `SendConversionEvent`, lines 103-113: the URL which is asked, and the result. -/
def sendConversionEvent (port : Nat) (p : AdWords) (get : Str → Except Exc Nat) (rdid : Str) : Str × Except Exc Bool :=
  let url := getUrl port p ++ rdid
  (url, match get url with | .ok code => .ok (code == 200) | .error e => .error e)

/-! ### Specification -/

/-- What the answer to a request says. -/
inductive Verdict where
  | failed                        -- there is no answer
  | garbage                       -- it is not JSON
  | silent                        -- neither recipients nor errors
  | errors
  | notified (devices : Int)
  deriving DecidableEq, Repr

def verdict (parse : Parser) : Except Exc Str → Verdict
  | .error _ => .failed
  | .ok body =>
    match parse body with
    | none => .garbage
    | some ⟨some r, _⟩ => .notified r
    | some ⟨none, some _⟩ => .errors
    | some ⟨none, none⟩ => .silent

/-- The request which the caller asked for. -/
structure Asked (appId player message : Str) (counter : Int) (n : Notification) : Prop where
  app : n.appId = appId
  device : n.players = [player]
  text : n.contents = if message = [] then none else some message
  silent : n.contentAvailable = if message = [] then some true else none
  badge : n.badgeCount = if counter = 0 then none else some counter
  kind : n.badgeType = if counter = 0 then none else some "Increase".toList

/-- Letters, digits and `_ - . ! ~ * ' ( )`. -/
def Plain (s : Str) : Prop := ∀ c ∈ s, isUnreserved c = true

/-! ### Theorems: OneSignal -/

variable (appId player message : Str) (counter : Int) (post : Notification → Except Exc Str) (parse : Parser)

/-- C149. Nothing to send: nothing is sent. Otherwise exactly one request is posted, and it asks for what the caller asked for, of
the one device. -/
theorem push_posts_what_was_asked :
    ((message = [] ∧ counter = 0) → (push appId post parse player message counter).1 = []) ∧
    (¬ (message = [] ∧ counter = 0) → ∃ n, (push appId post parse player message counter).1 = [n] ∧
      Asked appId player message counter n) := by
  constructor
  · intro h; unfold push; rw [if_pos h]
  · intro h
    refine ⟨notification appId player message counter, by unfold push; rw [if_neg h], ?_⟩
    unfold notification
    by_cases h1 : message = [] <;> by_cases h2 : counter = 0 <;> constructor <;> simp [h1, h2]

/-- C149. The result of a push which has something to send. -/
theorem push_result (h : ¬ (message = [] ∧ counter = 0)) :
    (push appId post parse player message counter).2 =
      .ok (match verdict parse (post (notification appId player message counter)) with
        | .notified r => decide (r ≠ 0 ∧ r ≤ 1)
        | _ => false) := by
  unfold push
  rw [if_neg h]
  simp only
  obtain ⟨r, hr⟩ : ∃ r, r = post (notification appId player message counter) := ⟨_, rfl⟩
  rw [← hr]
  cases r with
  | error e => cases e <;> rfl
  | ok body =>
    simp only [verdict]
    cases hp : parse body with
    | none => rfl
    | some a =>
      obtain ⟨rec, err⟩ := a
      cases rec with
      | none => cases err <;> rfl
      | some r =>
        simp only [tryCatch]
        by_cases h0 : r = 0
        · simp [h0]
        · by_cases h1 : r > 1
          · have h2 : ¬ r ≤ 1 := by omega
            simp [h0, h1, h2, Exc.isException]
          · have h2 : r ≤ 1 := by omega
            simp [h0, h1, h2]

/-- C149. A push which has something to send reports success exactly if the service has answered that one device was notified;
for services which do not answer with negative numbers of devices. -/
theorem push_reports_success_iff (h : ¬ (message = [] ∧ counter = 0))
    (hs : ∀ r, verdict parse (post (notification appId player message counter)) = .notified r → 0 ≤ r) :
    (push appId post parse player message counter).2 = .ok true ↔
      verdict parse (post (notification appId player message counter)) = .notified 1 := by
  rw [push_result _ _ _ _ _ _ h]
  obtain ⟨v, hv⟩ : ∃ v, v = verdict parse (post (notification appId player message counter)) := ⟨_, rfl⟩
  rw [← hv] at hs ⊢
  cases v with
  | notified r =>
    have := hs r rfl
    simp only [Except.ok.injEq, decide_eq_true_eq, Verdict.notified.injEq]
    omega
  | _ => simp

/-- C149. `Push` never throws. -/
theorem push_never_throws : ∃ b, (push appId post parse player message counter).2 = .ok b := by
  by_cases h : message = [] ∧ counter = 0
  · exact ⟨true, by unfold push; rw [if_pos h]⟩
  · exact ⟨_, push_result _ _ _ _ _ _ h⟩

/-- The comment on `Push` says that it throws on terrible errors: if the answer makes no sense, or if the notification went to more
than one device. It does not: its own exceptions are caught as errors of HTTP, and `false` is returned as for a regular error. -/
theorem terrible_errors_are_swallowed (h : ¬ (message = [] ∧ counter = 0))
    (hv : verdict parse (post (notification appId player message counter)) = .garbage ∨
      verdict parse (post (notification appId player message counter)) = .silent ∨
      ∃ r, 1 < r ∧ verdict parse (post (notification appId player message counter)) = .notified r) :
    (push appId post parse player message counter).2 = .ok false := by
  rw [push_result _ _ _ _ _ _ h]
  rcases hv with hv | hv | ⟨r, hr, hv⟩ <;> rw [hv]
  simp; omega

/-- A negative number of devices is taken for success. -/
theorem negative_recipients : (push [] (fun _ => .ok []) (fun _ => some ⟨some (-1), none⟩) [] ['x'] 0).2 = .ok true := rfl

/-- C149. The sender is only constructed if the proxy is the right one. -/
theorem constructed_iff (get : Except Exc Str) : construct get = .ok () ↔ get = .ok golden := by
  unfold construct
  cases get with
  | error e => simp
  | ok a =>
    by_cases h : a = golden <;> simp [h]

example : (push ['a'] (fun _ => .ok []) (fun _ => some ⟨some 1, none⟩) ['p'] ['x'] 2) =
    ([⟨['a'], [['p']], some ['x'], some "Increase".toList, some 2, none⟩], .ok true) := rfl

/-! ### Theorems: AdWords -/

theorem encode_plain {s : Str} (h : Plain s) : encodeURI s = s := by
  induction s with
  | nil => rfl
  | cons c s ih =>
    have hc := h c (by simp)
    have ih := ih (fun x hx => h x (by simp [hx]))
    unfold encodeURI at ih ⊢
    rw [List.flatMap_cons, ih, encodeChar, if_pos hc]
    rfl

theorem plain_ascii {s : Str} (h : Plain s) : isAscii s := fun c hc => unreserved_lt c (h c hc)

theorem plain_free {s : Str} (h : Plain s) : '/' ∉ s ∧ '#' ∉ s ∧ '?' ∉ s := by
  refine ⟨fun hc => ?_, fun hc => ?_, fun hc => ?_⟩
  · exact (unreserved_ne _ (h _ hc)).2.2.2.2.2.2 rfl
  · exact (unreserved_ne _ (h _ hc)).2.2.2.2.1 rfl
  · exact (unreserved_ne _ (h _ hc)).2.2.2.2.2.1 rfl

/-- No two slashes in a row. -/
theorem noSlashes_append (x : Str) (s : Str) (hx : '/' ∉ x) (hs : findSlashes s = none) : findSlashes (x ++ s) = none := by
  induction x with
  | nil => exact hs
  | cons c x ih =>
    have hc : c ≠ '/' := fun e => hx (by simp [e])
    have ih := ih (fun h => hx (by simp [h]))
    rw [List.cons_append, findSlashes]
    · rw [ih]; rfl
    · intro r h _; exact absurd h hc

theorem noSlashes_cons (s : Str) (h : s.head? ≠ some '/') (hs : findSlashes s = none) : findSlashes ('/' :: s) = none := by
  rw [findSlashes]
  · rw [hs]; rfl
  · intro r _ e; rw [e] at h; simp at h

/-- A URL without a scheme. -/
theorem parse_schemeless (host : Str) (port : Nat) (r : Str) (hh : '/' ∉ host ∧ ':' ∉ host ∧ '@' ∉ host) (hp : port < 65536)
    (hs : findSlashes (host ++ ':' :: (dec port ++ '/' :: r)) = none) :
    parseBase (host ++ ':' :: (dec port ++ '/' :: r)) = .ok ⟨host, '/' :: r, [], port, [], []⟩ := by
  obtain ⟨url, hu⟩ : ∃ u, u = host ++ ':' :: (dec port ++ '/' :: r) := ⟨_, rfl⟩
  rw [← hu] at hs ⊢
  have hd : ∀ c ∈ dec port, c ≠ '/' ∧ c ≠ '@' := fun c hc => ⟨(digit_ne (dec_isDigit hc)).1, (digit_ne (dec_isDigit hc)).2.1⟩
  have hnil : url ≠ [] := by rw [hu]; simp
  have h1 : parseScheme url = ([], 0) := by unfold parseScheme; rw [hs]
  -- up to the slash
  obtain ⟨auth, ha⟩ : ∃ a, a = host ++ ':' :: dec port := ⟨_, rfl⟩
  have hau : url = auth ++ '/' :: r := by rw [hu, ha]; simp
  have hac : '/' ∉ auth ∧ '@' ∉ auth := by
    rw [ha]
    constructor <;> simp only [List.mem_append, List.mem_cons, not_or]
    · exact ⟨hh.1, by decide, fun h => (hd _ h).1 rfl⟩
    · exact ⟨hh.2.2, by decide, fun h => (hd _ h).2 rfl⟩
  have h2 : findFrom url '/' 0 = some auth.length := by rw [hau]; exact find_at0 _ _ _ hac.1
  have h3 : findFrom url ':' 0 = some host.length := by rw [hu]; exact find_at0 _ _ _ hh.2.1
  have h4 : parseUser url 0 (some auth.length) = ([], [], 0) := by
    unfold parseUser
    cases hf : findFrom url '@' 0 with
    | none => rfl
    | some k =>
      have : auth.length ≤ k := by
        have hg : findFrom ([] ++ (auth ++ '/' :: r)) '@' ([] : Str).length = some k := by simpa [← hau] using hf
        have := find_ge (p := []) hac.2 hg
        simpa using this
      have hb : before k (some auth.length) = false := by simp [before]; omega
      simp [hb]
  have hal : host.length < auth.length := by rw [ha]; simp
  have h5 : parseHost url 0 (some auth.length) = some (host, port) := by
    unfold parseHost
    rw [h3]
    have hb : before host.length (some auth.length) = true := by simp [before, hal]
    simp only [hb, if_true]
    have e : url.drop (host.length + 1) = dec port ++ '/' :: r := by rw [hu]; simp
    rw [e, atoi_dec port hp _ (by intro c hc; simp at hc; subst hc; decide)]
    have hsl : slice url 0 (some host.length) = host := by
      have := slice_at [] host (':' :: (dec port ++ '/' :: r))
      simpa [← hu] using this
    rw [Option.map_some, hsl]
    simp
    omega
  have h6 : parsePath url (some auth.length) = '/' :: r := by
    unfold parsePath
    have : url.drop auth.length = '/' :: r := by rw [hau]; simp
    simp [this]
  unfold parseBase
  rw [if_neg hnil, h1]
  simp only
  rw [h2, h4]
  simp only
  rw [h5, h6]

/-- The query of an event. -/
def eventParams (p : AdWords) (rdid : Str) : List (Str × Str) :=
  [("label".toList, p.label), ("bundleid".toList, p.bundleid), ("idtype".toList, p.idtype), ("rdid".toList, rdid)]

theorem url_split (port : Nat) (p : AdWords) (rdid : Str) (h1 : Plain p.label) (h2 : Plain p.bundleid) (h3 : Plain p.idtype) (h4 : Plain rdid) :
    getUrl port p ++ rdid = ("localhost".toList ++ ':' :: (dec port ++ '/' :: ("googleadservices".toList ++ '/' :: ("pagead".toList ++
      '/' :: ("conversion".toList ++ '/' :: (p.conversionId ++ ['/'])))))) ++ composeParams ⟨eventParams p rdid, []⟩ := by
  have e1 : encodeURI "label".toList = "label".toList := encode_plain (by unfold Plain; decide)
  have e2 : encodeURI "bundleid".toList = "bundleid".toList := encode_plain (by unfold Plain; decide)
  have e3 : encodeURI "idtype".toList = "idtype".toList := encode_plain (by unfold Plain; decide)
  have e4 : encodeURI "rdid".toList = "rdid".toList := encode_plain (by unfold Plain; decide)
  have l0 : "localhost:".toList = "localhost".toList ++ [':'] := rfl
  have l1 : "/googleadservices/pagead/conversion/".toList =
    '/' :: ("googleadservices".toList ++ '/' :: ("pagead".toList ++ '/' :: ("conversion".toList ++ ['/']))) := rfl
  have l2 : "/?label=".toList = '/' :: '?' :: ("label".toList ++ ['=']) := rfl
  have l3 : "&bundleid=".toList = '&' :: ("bundleid".toList ++ ['=']) := rfl
  have l4 : "&idtype=".toList = '&' :: ("idtype".toList ++ ['=']) := rfl
  have l5 : "&rdid=".toList = '&' :: ("rdid".toList ++ ['=']) := rfl
  unfold getUrl
  rw [l0, l1, l2, l3, l4, l5]
  simp only [composeParams, eventParams, composeLoop, e1, e2, e3, e4, encode_plain h1, encode_plain h2, encode_plain h3, encode_plain h4]
  generalize "localhost".toList = x0
  generalize "googleadservices".toList = x1
  generalize "pagead".toList = x2
  generalize "conversion".toList = x3
  generalize "label".toList = x4
  generalize "bundleid".toList = x5
  generalize "idtype".toList = x6
  generalize "rdid".toList = x7
  simp

/-- C150. The request of a conversion event goes to the proxy on the port, to the path of the conversion, and its query has exactly the
four parameters with their values; the event is reported as sent exactly if the answer has the code 200. For parameters without
reserved characters. -/
theorem event_is_sent (port : Nat) (p : AdWords) (get : Str → Except Exc Nat) (rdid : Str) (hport : port < 65536)
    (h0 : Plain p.conversionId) (hne : p.conversionId ≠ []) (h1 : Plain p.label) (h2 : Plain p.bundleid) (h3 : Plain p.idtype) (h4 : Plain rdid) :
    Url.parse (sendConversionEvent port p get rdid).1 =
      .ok ⟨⟨"localhost".toList, "/googleadservices/pagead/conversion/".toList ++ p.conversionId ++ ['/'], [], port, [], []⟩,
        ⟨[("label".toList, p.label), ("bundleid".toList, p.bundleid), ("idtype".toList, p.idtype), ("rdid".toList, rdid)], []⟩⟩ ∧
    ((sendConversionEvent port p get rdid).2 = .ok true ↔ get (sendConversionEvent port p get rdid).1 = .ok 200) := by
  constructor
  · show Url.parse (getUrl port p ++ rdid) = _
    rw [url_split port p rdid h1 h2 h3 h4]
    obtain ⟨base, hb⟩ : ∃ b, b = "localhost".toList ++ ':' :: (dec port ++ '/' :: ("googleadservices".toList ++ '/' :: ("pagead".toList ++
      '/' :: ("conversion".toList ++ '/' :: (p.conversionId ++ ['/']))))) := ⟨_, rfl⟩
    rw [← hb]
    have hc := plain_free h0
    have hd : ∀ c ∈ dec port, c ≠ '/' ∧ c ≠ '#' ∧ c ≠ '?' := fun c hc =>
      ⟨(digit_ne (dec_isDigit hc)).1, (digit_ne (dec_isDigit hc)).2.2.2.2, (digit_ne (dec_isDigit hc)).2.2.2.1⟩
    have hm : '#' ∉ base ∧ '?' ∉ base := by
      rw [hb]
      constructor <;> simp only [List.mem_append, List.mem_cons, not_or]
      · exact ⟨by decide, by decide, fun h => (hd _ h).2.1 rfl, by decide, by decide, by decide, by decide, by decide, by decide, by decide, hc.2.1, by decide, by simp⟩
      · exact ⟨by decide, by decide, fun h => (hd _ h).2.2 rfl, by decide, by decide, by decide, by decide, by decide, by decide, by decide, hc.2.2, by decide, by simp⟩
    have hasc : ∀ kv ∈ eventParams p rdid, isAscii kv.1 ∧ isAscii kv.2 := by
      intro kv hkv
      simp only [eventParams, List.mem_cons, List.mem_nil_iff, or_false] at hkv
      rcases hkv with rfl | rfl | rfl | rfl
      · exact ⟨plain_ascii (s := "label".toList) (by unfold Plain; decide), plain_ascii h1⟩
      · exact ⟨plain_ascii (s := "bundleid".toList) (by unfold Plain; decide), plain_ascii h2⟩
      · exact ⟨plain_ascii (s := "idtype".toList) (by unfold Plain; decide), plain_ascii h3⟩
      · exact ⟨plain_ascii (s := "rdid".toList) (by unfold Plain; decide), plain_ascii h4⟩
    have e := extract_query base (eventParams p rdid) [] hm.1 hm.2 (fun kv hkv => ⟨(hasc kv hkv).1.byte, (hasc kv hkv).2.byte⟩)
    have emap : (eventParams p rdid).map (fun kv => (decodeURI (encodeURI kv.1), decodeURI (encodeURI kv.2))) = eventParams p rdid := by
      have : (eventParams p rdid).map (fun kv => (decodeURI (encodeURI kv.1), decodeURI (encodeURI kv.2))) = (eventParams p rdid).map id := by
        apply List.map_congr_left
        intro kv hkv
        simp only [decode_encode_partial _ (hasc kv hkv).1, decode_encode_partial _ (hasc kv hkv).2, id]
      simpa using this
    rw [emap] at e
    have hs : findSlashes base = none := by
      rw [hb]
      apply noSlashes_append _ _ (by decide)
      rw [show ':' :: (dec port ++ '/' :: ("googleadservices".toList ++ '/' :: ("pagead".toList ++ '/' :: ("conversion".toList ++ '/' :: (p.conversionId ++ ['/']))))) =
        (':' :: dec port) ++ '/' :: ("googleadservices".toList ++ '/' :: ("pagead".toList ++ '/' :: ("conversion".toList ++ '/' :: (p.conversionId ++ ['/'])))) by simp]
      apply noSlashes_append _ _ (by simp only [List.mem_cons, not_or]; exact ⟨by decide, fun h => (hd _ h).1 rfl⟩)
      apply noSlashes_cons _ (by show some 'g' ≠ some '/'; decide)
      apply noSlashes_append _ _ (by decide)
      apply noSlashes_cons _ (by show some 'p' ≠ some '/'; decide)
      apply noSlashes_append _ _ (by decide)
      apply noSlashes_cons _ (by show some 'c' ≠ some '/'; decide)
      apply noSlashes_append _ _ (by decide)
      refine noSlashes_cons _ ?_ (noSlashes_append _ _ hc.1 (by decide))
      intro h
      obtain ⟨c, r, hcr⟩ := List.exists_cons_of_ne_nil hne
      rw [hcr] at h hc
      simp at h hc
      exact hc.1.1 h.symm
    have hpb := parse_schemeless "localhost".toList port ("googleadservices".toList ++ '/' :: ("pagead".toList ++
      '/' :: ("conversion".toList ++ '/' :: (p.conversionId ++ ['/'])))) (by decide) hport (by rw [← hb]; exact hs)
    rw [← hb] at hpb
    unfold Url.parse
    rw [e]
    simp only [List.take_left, hpb]
    have l1 : "/googleadservices/pagead/conversion/".toList =
      '/' :: ("googleadservices".toList ++ '/' :: ("pagead".toList ++ '/' :: ("conversion".toList ++ ['/']))) := rfl
    rw [l1]
    unfold eventParams
    generalize "googleadservices".toList = x1
    generalize "pagead".toList = x2
    generalize "conversion".toList = x3
    simp
  · unfold sendConversionEvent
    simp only
    cases get (getUrl port p ++ rdid) with
    | error e => simp
    | ok code => simp

/-- C150 is false for other texts: nothing is escaped, and a device identifier with an ampersand adds a parameter. -/
theorem identifier_adds_a_parameter :
    ∃ u, Url.parse (sendConversionEvent 24002 ⟨['1'], ['l'], ['b'], ['t']⟩ (fun _ => .ok 200) "x&y=z".toList).1 = .ok u ∧
      (("y".toList, "z".toList) ∈ u.par.params) := by
  refine ⟨⟨⟨"localhost".toList, "/googleadservices/pagead/conversion/1/".toList, [], 24002, [], []⟩,
    ⟨[("label".toList, ['l']), ("bundleid".toList, ['b']), ("idtype".toList, ['t']), ("rdid".toList, ['x']), ("y".toList, ['z'])], []⟩⟩, ?_, ?_⟩
  · decide +kernel
  · decide

example : Plain "com.example.app-1".toList := by unfold Plain; decide

end Current.Integrations
