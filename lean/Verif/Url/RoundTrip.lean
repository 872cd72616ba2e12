import Verif.Url.Props
/-!
C41 and C42: the property theorems.
-/
namespace Current.Url
open Current.Persist

/-! ### Specification -/

/-- The scheme that is meant when none is given. -/
def effScheme (b : Base) : Str :=
  if b.scheme ≠ [] then b.scheme else if b.port = 443 then https else http

/-- The port is the one the scheme implies. -/
def portIsImplied (b : Base) : Prop := (effScheme b = http ∧ b.port = 80) ∨ (effScheme b = https ∧ b.port = 443)

instance (b : Base) : Decidable (portIsImplied b) := inferInstanceAs (Decidable (_ ∨ _))

/-- None of these characters is in the text. -/
def free (s : Str) (cs : List Char) : Prop := ∀ c ∈ cs, c ∉ s

/-- The components do not contain what separates them. -/
structure Base.Ok (b : Base) : Prop where
  scheme : free b.scheme ['/', '?', '#']
  username : free b.username ['/', '?', '#', '@', ':']
  password : free b.password ['/', '?', '#', '@']
  noUser : b.username = [] → b.password = []
  host : free b.host ['/', '?', '#', '@', ':']
  hostSet : b.host ≠ []
  port : b.port < 65536
  path : ∃ r, b.path = '/' :: r
  pathFree : free b.path ['?', '#']

/-! ### Lemmas -/

theorem http_ne_https : http ≠ https := by decide

theorem composeBase_eq (b : Base) (hh : b.host ≠ []) :
    composeBase b = (effScheme b ++ [':', '/', '/']) ++ (auth b.username b.password ++
      (b.host ++ (portText (if portIsImplied b then 0 else b.port) ++ b.path))) := by
  have key : (if portIsImplied b then 0 else b.port) =
      (if 0 < b.port ∧ b.port ≠ defaultPort (if b.scheme ≠ [] then b.scheme else if 0 < b.port then defaultScheme b.port else http) then b.port else 0) := by
    unfold portIsImplied effScheme defaultPort defaultScheme
    by_cases hs : b.scheme = []
    · simp only [hs, ne_eq, not_true_eq_false, if_false]
      by_cases h0 : b.port = 0
      · simp [h0]
      · by_cases h1 : b.port = 80
        · simp [h1]
        · by_cases h2 : b.port = 443
          · simp [h2]; decide
          · have : 0 < b.port := by omega
            simp only [this, if_true, h1, h2, if_false, and_false, or_false, true_and]
            simp [http, https, h0]
    · simp only [ne_eq, hs, not_false_eq_true, if_true]
      by_cases h1 : b.scheme = http
      · simp only [h1, true_and, if_true, http_ne_https, false_and, or_false]
        by_cases h2 : b.port = 80
        · simp [h2]
        · by_cases h0 : b.port = 0
          · simp [h0]
          · have : 0 < b.port := by omega
            simp [h2, this]
      · simp only [h1, false_and, if_false, false_or]
        by_cases h3 : b.scheme = https
        · simp only [h3, true_and, if_true]
          by_cases h2 : b.port = 443
          · simp [h2]
          · by_cases h0 : b.port = 0
            · simp [h0]
            · have : 0 < b.port := by omega
              simp [h2, this]
        · simp only [h3, false_and, if_false]
          by_cases h0 : b.port = 0
          · simp [h0]
          · have : 0 < b.port := by omega
            simp [this, h0]
  have key2 : (if (if b.scheme ≠ [] then b.scheme else if 0 < b.port then defaultScheme b.port else http) ≠ [] then
      (if b.scheme ≠ [] then b.scheme else if 0 < b.port then defaultScheme b.port else http) else http) = effScheme b := by
    unfold effScheme
    by_cases hs : b.scheme = []
    · simp only [hs, ne_eq, not_true_eq_false, if_false]
      by_cases h0 : b.port = 0
      · simp [h0, http]
      · have : 0 < b.port := by omega
        by_cases h1 : b.port = 80
        · simp [h1, defaultScheme, http]
        · by_cases h2 : b.port = 443
          · simp [h2, defaultScheme, https]
          · simp [defaultScheme, h1, h2, this]
    · simp [hs]
  unfold composeBase
  rw [if_pos hh, key]
  simp only
  rw [key2]
  simp only [auth, portText, List.append_assoc]

theorem effScheme_free (b : Base) (h : free b.scheme ['/', '?', '#']) : free (effScheme b) ['/', '?', '#'] := by
  unfold effScheme
  split
  · exact h
  · split
    · intro c hc; revert c; decide
    · intro c hc; revert c; decide

theorem compose_has_no_marks (b : Base) (h : b.Ok) : '#' ∉ composeBase b ∧ '?' ∉ composeBase b := by
  have hs := effScheme_free b h.scheme
  have hA : ∀ c ∈ ['#', '?'], c ∉ auth b.username b.password := by
    intro c hc
    have h3 : c ≠ ':' ∧ c ≠ '@' ∧ c ∈ ['/', '?', '#', '@', ':'] ∧ c ∈ ['/', '?', '#', '@'] := by revert c; decide
    have h1 : c ∉ b.username := h.username c h3.2.2.1
    have h2 : c ∉ b.password := h.password c h3.2.2.2
    unfold auth
    split
    · simp only [List.mem_append, List.mem_singleton, not_or]
      refine ⟨⟨h1, ?_⟩, h3.2.1⟩
      split
      · simp only [List.mem_cons, not_or]; exact ⟨h3.1, h2⟩
      · simp
    · simp
  have hP : ∀ c ∈ ['#', '?'], ∀ n, c ∉ portText n := by
    intro c hc n hm
    rcases portText_ne _ _ hm with e | e
    · subst e; exact absurd hc (by decide)
    · have := digit_ne e
      simp only [List.mem_cons, List.not_mem_nil, or_false] at hc
      rcases hc with rfl | rfl
      · exact this.2.2.2.2 rfl
      · exact this.2.2.2.1 rfl
  have key : ∀ c ∈ ['#', '?'], c ∉ composeBase b := by
    intro c hc
    rw [composeBase_eq b h.hostSet]
    simp only [List.mem_append, not_or]
    refine ⟨⟨hs c (by revert c; decide), by revert c; decide⟩, hA c hc, h.host c (by revert c; decide), hP c hc _, h.pathFree c (by revert c; decide)⟩
  exact ⟨key '#' (by simp), key '?' (by simp)⟩

/-! ### C41 -/

/-- C41. What is composed: the port is left out exactly when it is not set or is the one of the scheme. -/
theorem composed_text (b : Base) (hh : b.host ≠ []) :
    composeBase b = effScheme b ++ [':', '/', '/'] ++
      (if b.username = [] then [] else b.username ++ (if b.password = [] then [] else [':'] ++ b.password) ++ ['@']) ++
      b.host ++ (if b.port = 0 ∨ portIsImplied b then [] else [':'] ++ dec b.port) ++ b.path := by
  rw [composeBase_eq b hh]
  have h1 : auth b.username b.password = (if b.username = [] then [] else b.username ++ (if b.password = [] then [] else [':'] ++ b.password) ++ ['@']) := by
    unfold auth
    by_cases hu : b.username = [] <;> by_cases hp : b.password = [] <;> simp [hu, hp]
  have h2 : portText (if portIsImplied b then 0 else b.port) = (if b.port = 0 ∨ portIsImplied b then [] else [':'] ++ dec b.port) := by
    unfold portText
    by_cases hi : portIsImplied b
    · simp [hi]
    · by_cases h0 : b.port = 0
      · simp [h0]
      · have : 0 < b.port := by omega
        simp [hi, h0, this]
  rw [h1, h2]
  simp only [List.append_assoc]

/-- C41. Parsing what was composed gives the components back: the scheme is the one that was meant, and the port is 0 when
the scheme implies it. -/
theorem base_roundtrip (b : Base) (h : b.Ok) :
    parseBase (composeBase b) = .ok { b with scheme := effScheme b, port := if portIsImplied b then 0 else b.port } := by
  rw [composeBase_eq b h.hostSet, parse_absolute]
  · exact effScheme_free b h.scheme '/' (by simp)
  · exact ⟨h.username '/' (by simp), h.username '@' (by simp), h.username ':' (by simp)⟩
  · exact ⟨h.password '/' (by simp), h.password '@' (by simp)⟩
  · exact h.noUser
  · exact ⟨h.host '/' (by simp), h.host '@' (by simp), h.host ':' (by simp)⟩
  · have := h.port; split <;> omega
  · exact h.path

theorem parse_compose (u : URL) (h : u.base.Ok) (hp : ∀ kv ∈ u.par.params, isByte kv.1 ∧ isByte kv.2) :
    parse (compose u) = .ok ⟨{ u.base with scheme := effScheme u.base, port := if portIsImplied u.base then 0 else u.base.port },
      ⟨u.par.params.map fun kv => (decodeURI (encodeURI kv.1), decodeURI (encodeURI kv.2)), u.par.fragment⟩⟩ := by
  have hm := compose_has_no_marks u.base h
  have e := extract_query (composeBase u.base) u.par.params u.par.fragment hm.1 hm.2 hp
  unfold parse compose
  have e0 : u.par = ⟨u.par.params, u.par.fragment⟩ := rfl
  rw [e0, e]
  simp only [List.take_left, base_roundtrip u.base h]

/-- C41, C42. The same for whole URLs with ASCII parameters. The fragment may be anything. -/
theorem url_roundtrip_partial (u : URL) (h : u.base.Ok) (hp : ∀ kv ∈ u.par.params, isAscii kv.1 ∧ isAscii kv.2) :
    parse (compose u) = .ok ⟨{ u.base with scheme := effScheme u.base, port := if portIsImplied u.base then 0 else u.base.port }, u.par⟩ := by
  rw [parse_compose u h fun kv hkv => ⟨(hp kv hkv).1.byte, (hp kv hkv).2.byte⟩]
  have : u.par.params.map (fun kv => (decodeURI (encodeURI kv.1), decodeURI (encodeURI kv.2))) = u.par.params := by
    have : u.par.params.map (fun kv => (decodeURI (encodeURI kv.1), decodeURI (encodeURI kv.2))) = u.par.params.map id := by
      apply List.map_congr_left
      intro kv hkv
      simp only [decode_encode_partial _ (hp kv hkv).1, decode_encode_partial _ (hp kv hkv).2, id]
    rw [this, List.map_id]
  rw [this]

/-- C41. A path alone is parsed as a path, unless its first `//` is at its beginning or after a colon. -/
theorem relative_url (path : Str) (r : Str) (hp : path = '/' :: r)
    (hs : ∀ k, findSlashes path = some k → k ≠ 0 ∧ path.getD (k - 1) '\x00' ≠ ':') :
    parseBase path = .ok ⟨[], path, [], 0, [], []⟩ := by
  have h1 : parseScheme path = ([], 0) := by
    unfold parseScheme
    cases hf : findSlashes path with
    | none => rfl
    | some k => simp only; rw [if_neg (hs k hf).1, if_neg (hs k hf).2]
  have h2 : findFrom path '/' 0 = some 0 := by
    subst hp
    have := find_at0 [] '/' r (by simp)
    simpa using this
  have h3 : parseUser path 0 (some 0) = ([], [], 0) := by
    unfold parseUser
    cases findFrom path '@' 0 with
    | none => rfl
    | some k => simp [before]
  have h4 : parseHost path 0 (some 0) = some ([], 0) := by
    unfold parseHost
    cases findFrom path ':' 0 with
    | none => simp [slice]
    | some k => simp [before, slice]
  have hne : path ≠ [] := by rw [hp]; simp
  have h5 : parsePath path (some 0) = path := by simp [parsePath, hne]
  simp only [parseBase, if_neg hne, h1, h2, h3, h4, h5]

/-- C41, a finding: a path that contains `://` is taken for a scheme and a host. -/
theorem url_in_path_is_misparsed :
    parseBase ['/', 'g', 'o', '/', 'h', 't', 't', 'p', ':', '/', '/', 'x', '/', 'y'] =
      .ok ⟨['x'], ['/', 'y'], ['/', 'g', 'o', '/', 'h', 't', 't', 'p'], 0, [], []⟩ := by decide +kernel

/-- C41, a finding: a URL with an empty host is composed as its path, which may be parsed as another host. -/
theorem empty_host_is_unstable :
    parseBase ['h', 't', 't', 'p', ':', '/', '/', '/', '/', 'x', '/', 'y'] = .ok ⟨[], ['/', '/', 'x', '/', 'y'], http, 0, [], []⟩ ∧
    parseBase (composeBase ⟨[], ['/', '/', 'x', '/', 'y'], http, 0, [], []⟩) = .ok ⟨['x'], ['/', 'y'], [], 0, [], []⟩ := by
  decide +kernel

/-- C41, a finding: the port is taken modulo 65536, and a number that does not fit an `int` is undefined behaviour. -/
theorem large_ports :
    parseBase ['h', ':', '6', '5', '6', '1', '6', '/'] = .ok ⟨['h'], ['/'], [], 80, [], []⟩ ∧
    parseBase ['h', ':', '9', '9', '9', '9', '9', '9', '9', '9', '9', '9', '/'] = .undefined := by
  decide +kernel

/-- C41: the empty URL, and one that starts with its parameters, are refused. -/
theorem empty_refused (r : Str) : parse [] = .throws ∧ parse ('?' :: r) = .throws ∧ parse ('#' :: r) = .throws := by
  have hq : findFrom ('?' :: r) '?' 0 = some 0 := by simpa using find_at0 [] '?' r (by simp)
  have hh : findFrom ('#' :: r) '#' 0 = some 0 := by simpa using find_at0 [] '#' r (by simp)
  refine ⟨by rfl, ?_, ?_⟩
  · have h2 : (extract ('?' :: r)).2 = 0 := by
      unfold extract
      have hb : before 0 (findFrom ('?' :: r) '#' 0) = true := by
        cases hf : findFrom ('?' :: r) '#' 0 with
        | none => rfl
        | some k =>
          have := find_ge (p := []) (x := ['?']) (r := r) (c := '#') (k := k) (by decide) (by simpa using hf)
          simp [before]
          simp at this
          omega
      simp only [hq, hb, if_true]
    cases he : extract ('?' :: r) with
    | mk par start =>
      rw [he] at h2
      simp only at h2
      subst h2
      simp only [parse, he]
      rfl
  · have h2 : (extract ('#' :: r)).2 = 0 := by
      unfold extract
      simp only [hh]
      cases findFrom ('#' :: r) '?' 0 with
      | none => rfl
      | some k => simp [before]
    cases he : extract ('#' :: r) with
    | mk par start =>
      rw [he] at h2
      simp only at h2
      subst h2
      simp only [parse, he]
      rfl

/-! ### C42 -/

/-- The value of a parameter that occurs more than once is the first. -/
theorem first_value (l : List (Str × Str)) (key : Str) : queryOf l key = (l.find? fun kv => kv.1 = key).map (·.2) := by
  have gen : ∀ (l : List (Str × Str)) (q : Query), l.foldl Query.insert q key =
      (match q key with | some v => some v | none => (l.find? fun kv => kv.1 = key).map (·.2)) := by
    intro l
    induction l with
    | nil => intro q; simp only [List.foldl_nil]; cases q key <;> rfl
    | cons kv l ih =>
      intro q
      rw [List.foldl_cons, ih]
      unfold Query.insert
      by_cases hk : key = kv.1
      · subst hk
        simp only [if_true]
        cases q kv.1 <;> simp
      · have : ¬ kv.1 = key := fun e => hk e.symm
        simp only [hk, if_false]
        cases q key <;> simp [this]
  rw [queryOf, gen]

/-- C42. Parameters composed into a URL are the parameters of the parsed URL, in the same order; `get` and `operator[]`
give the value of the first one with that key, or the default; the fragment is not part of them. -/
theorem query_roundtrip_partial (u : URL) (h : u.base.Ok) (hp : ∀ kv ∈ u.par.params, isAscii kv.1 ∧ isAscii kv.2) :
    ∃ v, parse (compose u) = .ok v ∧ v.par.params = u.par.params ∧ v.par.fragment = u.par.fragment ∧
      ∀ key dflt, v.get key dflt = ((u.par.params.find? fun kv => kv.1 = key).map (·.2)).getD dflt := by
  refine ⟨_, url_roundtrip_partial u h hp, rfl, rfl, ?_⟩
  intro key dflt
  simp only [URL.get, first_value]

/-- C42 is false for other bytes: what comes back instead. -/
theorem query_bytes (u : URL) (h : u.base.Ok) (hp : ∀ kv ∈ u.par.params, isByte kv.1 ∧ isByte kv.2) :
    ∃ v, parse (compose u) = .ok v ∧ v.par.fragment = u.par.fragment ∧
      v.par.params = u.par.params.map (fun kv => (kv.1.flatMap twice, kv.2.flatMap twice)) := by
  refine ⟨_, parse_compose u h hp, rfl, ?_⟩
  apply List.map_congr_left
  intro kv hkv
  rw [decode_encode_bytes _ (hp kv hkv).1, decode_encode_bytes _ (hp kv hkv).2]
  rfl

/-- C42. A body composed as a query string is parsed by `ParseQueryString`. -/
theorem parse_query_string_partial (l : List (Str × Str)) (hl : l ≠ []) (hp : ∀ kv ∈ l, isAscii kv.1 ∧ isAscii kv.2) :
    ∃ body, composeParams ⟨l, []⟩ = '?' :: body ∧
      ∃ q, parseQueryString body = .ok q ∧ ∀ key, q key = (l.find? fun kv => kv.1 = key).map (·.2) := by
  refine ⟨Strings.joined ['&'] (l.map chunk), by simp [composeParams, composeLoop_true, hl], ?_⟩
  have e := extract_query ['/'] l [] (by decide) (by decide) (fun kv hkv => ⟨(hp kv hkv).1.byte, (hp kv hkv).2.byte⟩)
  have e1 : ['/'] ++ composeParams ⟨l, []⟩ = ['/', '?'] ++ Strings.joined ['&'] (l.map chunk) := by
    simp [composeParams, composeLoop_true, hl]
  rw [e1] at e
  have hb : parseBase ['/'] = .ok ⟨[], ['/'], [], 0, [], []⟩ := by decide +kernel
  have ht : (['/', '?'] ++ Strings.joined ['&'] (l.map chunk)).take 1 = ['/'] := rfl
  refine ⟨queryOf (l.map fun kv => (decodeURI (encodeURI kv.1), decodeURI (encodeURI kv.2))), ?_, ?_⟩
  · simp only [parseQueryString, parse, e, List.length_singleton, ht, hb]
  · have : l.map (fun kv => (decodeURI (encodeURI kv.1), decodeURI (encodeURI kv.2))) = l.map id := by
      apply List.map_congr_left
      intro kv hkv
      simp only [decode_encode_partial _ (hp kv hkv).1, decode_encode_partial _ (hp kv hkv).2, id]
    intro key
    rw [this, List.map_id, first_value]

/-! ### C41: defaults and redirects -/

/-- The defaults: nothing that is set is changed; the scheme, the host and (for `http` and `https`) the port get set. -/
theorem defaults_set (b : Base) :
    (withDefaults b).scheme = effScheme b ∧ (withDefaults b).host = (if b.host = [] then localhost else b.host) ∧
    (withDefaults b).port = (if b.port ≠ 0 then b.port else if effScheme b = http then 80 else if effScheme b = https then 443 else 0) ∧
    (withDefaults b).path = b.path ∧ (withDefaults b).username = b.username ∧ (withDefaults b).password = b.password := by
  unfold withDefaults effScheme defaultScheme defaultPort
  by_cases hs : b.scheme = [] <;> by_cases hh : b.host = [] <;> by_cases h0 : b.port = 0 <;>
    by_cases h1 : b.port = 80 <;> by_cases h2 : b.port = 443 <;> simp_all [http, https]

/-- Setting the defaults does not change the URL that is composed. -/
theorem defaults_same_text (b : Base) (h : b.host ≠ []) : composeBase (withDefaults b) = composeBase b := by
  obtain ⟨h1, h2, h3, h4, h5, h6⟩ := defaults_set b
  have hh : (withDefaults b).host = b.host := by rw [h2, if_neg h]
  have hne : effScheme b ≠ [] := by
    unfold effScheme; split
    · assumption
    · split <;> decide
  have he : effScheme (withDefaults b) = effScheme b := by
    unfold effScheme
    rw [h1, if_pos hne]
    rfl
  rw [composeBase_eq b h, composeBase_eq _ (by rw [hh]; exact h), he, hh, h4, h5, h6]
  have hp : (if portIsImplied (withDefaults b) then 0 else (withDefaults b).port) = (if portIsImplied b then 0 else b.port) := by
    have hi : portIsImplied (withDefaults b) ↔ (effScheme b = http ∧ (withDefaults b).port = 80) ∨ (effScheme b = https ∧ (withDefaults b).port = 443) := by
      rw [portIsImplied, he]
    have hj : portIsImplied b ↔ (effScheme b = http ∧ b.port = 80) ∨ (effScheme b = https ∧ b.port = 443) := Iff.rfl
    simp only [hi, hj, h3]
    by_cases h0 : b.port = 0
    · by_cases ha : effScheme b = http
      · simp [h0, ha]
      · by_cases hb : effScheme b = https
        · simp [h0, hb, http, https]
        · simp [h0, ha, hb]
    · simp [h0]
  rw [hp]

/-- A redirect to a URL with a scheme and a host goes there, whatever the source was. -/
theorem redirect_absolute (src dst : URL) (h1 : dst.base.scheme ≠ []) (h2 : dst.base.host ≠ []) :
    redirected src dst = ⟨withDefaults dst.base, dst.par⟩ := by
  simp only [redirected, ne_eq, h1, not_false_eq_true, if_true, h2]

/-- A redirect to a path stays on the same scheme, host and port; the path, parameters and fragment are the new ones, and
the user and the password are dropped. -/
theorem redirect_relative (src dst : URL) (h1 : dst.base.scheme = []) (h2 : dst.base.host = []) (h3 : dst.base.port = 0)
    (h4 : dst.base.username = []) (h5 : dst.base.password = []) :
    redirected src dst = ⟨withDefaults { src.base with path := dst.base.path, username := [], password := [] }, dst.par⟩ := by
  simp [redirected, h1, h2, h3, h4, h5]

/-- A redirect to `//host/path` keeps only the scheme. -/
theorem redirect_protocol_relative (src dst : URL) (h1 : dst.base.scheme = []) (h2 : dst.base.host ≠ []) :
    redirected src dst = ⟨withDefaults { dst.base with scheme := src.base.scheme }, dst.par⟩ := by
  simp [redirected, h1, h2]

/-! ### Witnesses -/

def sample : Base := ⟨['h'], ['/', 'p'], ['f', 't', 'p'], 8080, ['u'], ['q', ':', 'w']⟩

example : sample.Ok := by
  constructor
  · intro c hc; revert c; decide
  · intro c hc; revert c; decide
  · intro c hc; revert c; decide
  · intro h; exact absurd h (by decide)
  · intro c hc; revert c; decide
  · decide
  · decide
  · exact ⟨['p'], rfl⟩
  · intro c hc; revert c; decide

end Current.Url
