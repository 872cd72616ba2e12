import Verif.Nginx.ConfigProps

/-!
# Building a configuration (C121)
-/

set_option linter.unusedSimpArgs false

namespace Current.Nginx

open Current.Persist

/-- The ports of the servers in a vector of directives. -/
def ports : Conf → List Nat
  | .nil => []
  | .simple _ _ rest => ports rest
  | .block (.server p) _ _ _ rest => p :: ports rest
  | .block .plain _ _ _ rest => ports rest
  | .block .location _ _ _ rest => ports rest

theorem ports_append (c d : Conf) : ports (c.append d) = ports c ++ ports d := by
  induction c with
  | nil => rfl
  | simple n p rest ih => simpa [Conf.append, ports] using ih
  | block k n p kids rest _ ih => cases k <;> simp [Conf.append, ports, ih]

theorem hasServer_iff (c : Conf) (p : Nat) : c.hasServer p = true ↔ p ∈ ports c := by
  induction c with
  | nil => simp [Conf.hasServer, ports]
  | simple n q rest ih => simpa [Conf.hasServer, ports] using ih
  | block k n q kids rest _ ih =>
    cases k <;> simp [Conf.hasServer, ports, ih]
    grind

theorem ports_addInside (c d : Conf) (i : Nat) : ports (c.addInside i d) = ports c := by
  induction c generalizing i with
  | nil => rfl
  | simple n q rest ih => cases i <;> simp [Conf.addInside, ports, ih]
  | block k n q kids rest _ ih => cases i <;> cases k <;> simp [Conf.addInside, ports, ih]

/-! ## What a program means -/

/-- What a program does, in terms of what nginx reads. -/
inductive SOp where
  | add (js : List Item)
  | httpAdd (js : List Item)
  | createServer (port : Nat)
  | inside (i : Nat) (js : List Item)

/-- The directives, those inside `http`, and the ports of the servers created. -/
structure Spec where
  items : List Item
  http : List Item
  created : List Nat

/-- More directives in a block. -/
def Item.grow (js : List Item) : Item → Item
  | .simple ws => .simple ws
  | .block ws ks => .block ws (ks ++ js)

/-- The effect: a server is created with a `listen` directive, unless one has been created with
this port already. -/
def SOp.run (s : Spec) : SOp → Spec
  | .add js => { s with items := s.items ++ js }
  | .httpAdd js => { s with http := s.http ++ js }
  | .createServer p =>
    if p ∈ s.created then s
    else { s with
      http := s.http ++ [.block ["server".toList] [.simple ["listen".toList, dec p]]]
      created := s.created ++ [p] }
  | .inside i js => { s with http := s.http.modify i (Item.grow js) }

/-- An operation and its meaning; servers are made by `createServer` only. -/
inductive OpMeans : Op → SOp → Prop where
  | add {d js} : Means d js → OpMeans (.add d) (.add js)
  | httpAdd {d js} : Means d js → ports d = [] → OpMeans (.httpAdd d) (.httpAdd js)
  | createServer {p} : OpMeans (.createServer p) (.createServer p)
  | inside {i d js} : Means d js → OpMeans (.inside i d) (.inside i js)

/-- A program and its meaning. -/
inductive ProgMeans : List Op → List SOp → Prop where
  | nil : ProgMeans [] []
  | cons {o so os sos} : OpMeans o so → ProgMeans os sos → ProgMeans (o :: os) (so :: sos)

theorem means_addInside {c d : Conf} {is js : List Item} (hc : Means c is) (hd : Means d js)
    (i : Nat) : Means (c.addInside i d) (is.modify i (Item.grow js)) := by
  induction hc generalizing i with
  | nil => cases i <;> exact .nil
  | simple hn hp hr ih =>
    cases i with
    | zero => exact .simple hn hp hr
    | succ i => exact .simple hn hp (ih i)
  | block hn hp hk hr _ ih =>
    cases i with
    | zero => exact .block hn hp (means_append hk hd) hr
    | succ i => exact .block hn hp hk (ih i)

theorem digit_plain (c : Char) (h : c.isDigit = true) :
    isSpace c = false ∧ c ≠ ';' ∧ c ≠ '{' ∧ c ≠ '\\' ∧ c ≠ '}' ∧ c ≠ '#' ∧ c ≠ '"' ∧ c ≠ '\'' := by
  refine ⟨?_, ?_, ?_, ?_, ?_, ?_, ?_, ?_⟩
  · rw [Bool.eq_false_iff]
    intro hs
    simp only [isSpace, Bool.or_eq_true, decide_eq_true_eq] at hs
    rcases hs with ((rfl | rfl) | rfl) | rfl <;> revert h <;> decide
  all_goals (rintro rfl; revert h; decide)

theorem means_server (p : Nat) :
    Means (server p) [.block ["server".toList] [.simple ["listen".toList, dec p]]] := by
  refine .block (plain_of_all (by decide) (by decide)) .nil
    (.simple (plain_of_all (by decide) (by decide)) (.plainEnd ?_) .nil) .nil
  exact plain_of_all (dec_ne_nil p) fun c hc => digit_plain c (dec_isDigit hc)

/-- What was built corresponds to its meaning. -/
structure Sim (f : Full) (s : Spec) : Prop where
  directives : Means f.directives s.items
  http : Means f.http s.http
  created : ports f.http = s.created

theorem sim_run {f : Full} {s : Spec} {o : Op} {so : SOp} (h : Sim f s) (ho : OpMeans o so) :
    Sim (o.run f).1 (so.run s) := by
  cases ho with
  | add hd => exact ⟨means_append h.directives hd, h.http, h.created⟩
  | httpAdd hd hp =>
    exact ⟨h.directives, means_append h.http hd, by simp [Op.run, SOp.run, ports_append, hp, h.created]⟩
  | inside hd =>
    exact ⟨h.directives, means_addInside h.http hd _, by
      simp [Op.run, SOp.run, ports_addInside, h.created]⟩
  | @createServer p =>
    simp only [Op.run, SOp.run, Nginx.createServer]
    by_cases hp : f.http.hasServer p = true
    · have : p ∈ s.created := by rw [← h.created]; exact (hasServer_iff _ _).1 hp
      simpa [hp, this] using h
    · have : p ∉ s.created := by rw [← h.created, ← hasServer_iff]; exact hp
      simp only [hp, this]
      refine ⟨h.directives, means_append h.http (means_server p), ?_⟩
      simp [ports_append, ports, server, h.created]

theorem sim_build {ops : List Op} {sops : List SOp} (h : ProgMeans ops sops) (f : Full) (s : Spec)
    (hs : Sim f s) :
    Sim (ops.foldl (fun f o => (o.run f).1) f) (sops.foldl SOp.run s) := by
  induction h generalizing f s with
  | nil => exact hs
  | cons ho _ ih => exact ih _ _ (sim_run hs ho)

/-- The empty configuration. -/
def Spec.empty : Spec := { items := [], http := [], created := [] }

/-- **nginx reads what the program built**: for every sequence of `Add`s and `Create`s, nginx reads
the directives in the order in which they were added, `http` last, with one `server` block, that
begins with its `listen`, for every port for which a server was created. -/
theorem build_read {ops : List Op} {sops : List SOp} (h : ProgMeans ops sops) :
    read (build ops).print =
      some ((sops.foldl SOp.run Spec.empty).items ++
        [.block ["http".toList] (sops.foldl SOp.run Spec.empty).http]) := by
  have hs := sim_build h { directives := .nil, http := .nil } Spec.empty ⟨.nil, .nil, rfl⟩
  exact full_read hs.directives hs.http

/-- The ports asked for, in order. -/
def asked : List SOp → List Nat
  | [] => []
  | .createServer p :: l => p :: asked l
  | _ :: l => asked l

theorem created_spec (sops : List SOp) (s : Spec) (hn : s.created.Nodup) :
    (sops.foldl SOp.run s).created.Nodup ∧
    ∀ p, p ∈ (sops.foldl SOp.run s).created ↔ p ∈ s.created ∨ p ∈ asked sops := by
  induction sops generalizing s with
  | nil => simp [asked, hn]
  | cons o sops ih =>
    have h1 : (o.run s).created.Nodup ∧ ∀ p, p ∈ (o.run s).created ↔
        p ∈ s.created ∨ p ∈ asked [o] := by
      cases o with
      | createServer p =>
        simp only [SOp.run]
        split
        · refine ⟨hn, fun q => ?_⟩
          simp only [asked, List.mem_singleton]; grind
        · refine ⟨?_, fun q => by simp [asked]⟩
          rw [List.nodup_append]
          refine ⟨hn, by simp, ?_⟩
          intro a ha b hb
          simp at hb
          grind
      | add => simp [SOp.run, asked, hn]
      | httpAdd => simp [SOp.run, asked, hn]
      | inside => simp [SOp.run, asked, hn]
    obtain ⟨i1, i2⟩ := ih (o.run s) h1.1
    refine ⟨i1, fun p => ?_⟩
    have e : asked (o :: sops) = asked [o] ++ asked sops := by cases o <;> simp [asked]
    simp only [List.foldl_cons, i2, h1.2, e, List.mem_append, or_assoc]

/-- **One server per port**: whatever a program does (it may not `Add` a `ServerDirective` itself),
`http` has exactly one server for every port which `CreateServer` was called with. -/
theorem one_server_per_port {ops : List Op} {sops : List SOp} (h : ProgMeans ops sops) :
    (ports (build ops).http).Nodup ∧ ∀ p, p ∈ ports (build ops).http ↔ p ∈ asked sops := by
  have hs := sim_build h { directives := .nil, http := .nil } Spec.empty ⟨.nil, .nil, rfl⟩
  have := created_spec sops Spec.empty (by simp [Spec.empty])
  simp only [build]
  rw [hs.created]
  simpa [Spec.empty] using this

/-- **`CreateServer` throws exactly when there is a server with this port**, and then changes
nothing. -/
theorem createServer_throws (f : Full) (p : Nat) :
    ((Op.run f (.createServer p)).2 = true ↔ p ∈ ports f.http) ∧
    ((Op.run f (.createServer p)).2 = true → (Op.run f (.createServer p)).1 = f) := by
  simp only [Op.run, Nginx.createServer]
  by_cases hp : f.http.hasServer p = true
  · simp [hp, (hasServer_iff _ _).1 hp]
  · have : p ∉ ports f.http := fun h => hp ((hasServer_iff _ _).2 h)
    simp [hp, this]

/-! ## Examples -/

/-- Two servers, one with a proxy location, and a second attempt to create the first. -/
def demo : List Op :=
  [ .add (.simple "worker_processes".toList "1".toList .nil),
    .createServer 8910,
    .inside 0 (proxyPass "/v1".toList "http://localhost:8000".toList),
    .createServer 8910,
    .createServer 8911 ]

theorem demo_text : (build demo).print =
    ("worker_processes 1;\nhttp {\n  server {\n    listen 8910;\n    location /v1 {\n" ++
     "      proxy_pass http://localhost:8000;\n" ++
     "      proxy_set_header X-Real-IP $remote_addr;\n" ++
     "      proxy_set_header X-Forwarded-For $proxy_add_x_forwarded_for;\n" ++
     "      proxy_pass_request_headers on;\n    }\n  }\n  server {\n    listen 8911;\n  }\n}\n").toList := by
  decide +kernel

theorem words_two {a b : Str} (ha : Plain a) (hb : Plain b) : Words (a ++ ' ' :: b) [a, b] :=
  .plain ha rfl (.plainEnd hb)

/-- A proxy location means what it says. -/
theorem means_proxyPass {path to : Str} {pw tw : List Str} (hp : Words path pw) (ht : Words to tw) :
    Means (proxyPass path to)
      [.block ("location".toList :: pw)
        [.simple ("proxy_pass".toList :: tw),
         .simple ["proxy_set_header".toList, "X-Real-IP".toList, "$remote_addr".toList],
         .simple ["proxy_set_header".toList, "X-Forwarded-For".toList,
           "$proxy_add_x_forwarded_for".toList],
         .simple ["proxy_pass_request_headers".toList, "on".toList]]] := by
  have pl : ∀ w : Str, w ≠ [] → (∀ c ∈ w, isSpace c = false ∧ c ≠ ';' ∧ c ≠ '{' ∧ c ≠ '\\' ∧
      c ≠ '}' ∧ c ≠ '#' ∧ c ≠ '"' ∧ c ≠ '\'') → Plain w := fun w => plain_of_all
  refine .block (pl _ (by decide) (by decide)) hp
    (.simple (pl _ (by decide) (by decide)) ht
    (.simple (pl _ (by decide) (by decide)) ?_
    (.simple (pl _ (by decide) (by decide)) ?_
    (.simple (pl _ (by decide) (by decide)) (.plainEnd (pl _ (by decide) (by decide))) .nil)))) .nil
  · exact words_two (a := "X-Real-IP".toList) (b := "$remote_addr".toList)
      (pl _ (by decide) (by decide)) (pl _ (by decide) (by decide))
  · exact words_two (a := "X-Forwarded-For".toList) (b := "$proxy_add_x_forwarded_for".toList)
      (pl _ (by decide) (by decide)) (pl _ (by decide) (by decide))

/-- The hypotheses are met: the example program has a meaning. -/
theorem demo_means : ∃ sops, ProgMeans demo sops ∧ asked sops = [8910, 8910, 8911] := by
  refine ⟨_, .cons (.add (.simple (plain_of_all (by decide) (by decide))
      (.plainEnd (plain_of_all (by decide) (by decide))) .nil))
    (.cons .createServer (.cons (.inside (means_proxyPass
      (.plainEnd (plain_of_all (by decide) (by decide)))
      (.plainEnd (plain_of_all (by decide) (by decide)))))
    (.cons .createServer (.cons .createServer .nil)))), rfl⟩

/-- **`Add` does not check ports**: adding a `ServerDirective` twice gives two servers with one
port. -/
theorem add_not_checked :
    ports (build [.httpAdd (server 8910), .httpAdd (server 8910)]).http = [8910, 8910] := by
  decide +kernel

/-- **Parameters are not checked**: a parameter with a semicolon is read as two directives (this is
documented: config.h 39-40). -/
theorem parameters_not_checked :
    (lex .gap ((Conf.simple "server_name".toList "a; root /".toList .nil).print 0)) =
    some [.word "server_name".toList, .word "a".toList, .semicolon, .word "root".toList,
      .word "/".toList, .semicolon] := by decide +kernel

end Current.Nginx
