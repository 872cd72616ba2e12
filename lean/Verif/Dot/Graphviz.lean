import Verif.Persist.Codec

/-!
# Graphs rendered for GraphViz (`bricks/dot/graphviz.h`)

`GenericGraph<DIRECTED>::AsDOT()` numbers the nodes which were added, and writes the graph as a
text in the DOT language. The model is the text, character by character, of every graph. The
specification is an independent reader of the DOT language — a lexer with the quoting rules of
DOT and a parser of its statements — and the claim is that the reader, given the text, finds the
nodes, attributes, clusters and edges of the graph, whatever characters the labels contain.

Simplifications: `std::map<std::string, …>` are association lists in the order of iteration; the
process image (`AsSVG`, which runs `dot`) is not modelled.
-/

set_option linter.unusedSimpArgs false
set_option linter.unusedVariables false

namespace Current.Dot

open Current.Persist (Str dec)

/-! ## The program -/

/-- `Escape` (graphviz.h 48-57). -/
def escape : Str → Str
  | [] => []
  | c :: cs => (if c = '"' ∨ c = '\\' then ['\\'] else []) ++ c :: escape cs

/-- `Node::Impl` without its `order_key` (graphviz.h 60-66). -/
structure Node where
  label : Str
  params : List (Str × Option Str) := []
  html : Bool := false

/-- `Group` (graphviz.h 100-139): the nodes are pointers. -/
structure Group where
  nodes : List Nat
  params : List (Str × Str) := []
  graph : List (Str × Str) := []

/-- `GenericGraph` (graphviz.h 143-182); a node is known by its address. -/
structure Graph where
  directed : Bool
  title : Option Str := none
  params : List (Str × Option Str) := []
  nodes : List Nat
  edges : List (Nat × Nat) := []
  groups : List Group := []

/-- The `order_key`s of the nodes, which live in the nodes, not in the graph. A node which never
was in a rendered graph has an uninitialised `order_key` (graphviz.h 61, 65), that is: any. -/
abbrev Keys := Nat → Nat

/-- `node->order_key = v`. -/
def setKey (k : Keys) (a v : Nat) : Keys := fun b => if b = a then v else k b

/-- The map `node_index` (graphviz.h 189), in its order. -/
abbrev Index := List (Nat × Nat)

/-- Whether the elements of the map are in the order of the comparator (graphviz.h 184-186). -/
def sorted (k : Keys) : Index → Bool
  | e :: f :: r => k e.1 < k f.1 && sorted k (f :: r)
  | _ => true

/-- Insertion of a new element to its place. -/
def insertAt (k : Keys) (a : Nat) : Index → Index
  | [] => [(a, 0)]
  | e :: r => if k a < k e.1 then (a, 0) :: e :: r else e :: insertAt k a r

/-- `node_index[node]` of `std::map`: elements are the same when neither is before the other. If
the elements of the map are not in the order of the comparator the behaviour is undefined. -/
def look (k : Keys) (m : Index) (a : Nat) : Option (Index × Nat) :=
  if sorted k m then
    match m.find? (fun e => k e.1 == k a) with
    | some e => some (m, e.2)
    | none => some (insertAt k a m, 0)
  else none

/-- The first loop of `AsDOT` (graphviz.h 191-195). -/
def number : List Nat → Nat → Keys → Index → Option (Keys × Index)
  | [], _, k, m => some (k, m)
  | a :: r, n, k, m =>
    match look (setKey k a (n + 1)) m a with
    | none => none
    | some (m', _) => number r (n + 1) (setKey k a (n + 1)) m'

/-- The second loop (graphviz.h 196-199). -/
def renumber : Index → Nat → Index
  | [], _ => []
  | e :: r, n => (e.1, n + 1) :: renumber r (n + 1)

/-- `"node" << node_index[node]`, with the text after it. -/
def name (i : Nat) : Str := "node".toList ++ dec i

/-- One attribute, as in ` key="value"` (graphviz.h 209, 221, 235, 240). -/
def attr (k v : Str) : Str := k ++ "=\"".toList ++ escape v ++ "\"".toList

/-- The parameters of the graph (graphviz.h 207-211). -/
def showParams : List (Str × Option Str) → Str
  | [] => []
  | (k, some v) :: r => "  ".toList ++ attr k v ++ ";\n".toList ++ showParams r
  | (_, none) :: r => showParams r

/-- The parameters of a node (graphviz.h 219-223). -/
def showNodeParams : List (Str × Option Str) → Str
  | [] => []
  | (k, some v) :: r => attr k v ++ " ".toList ++ showNodeParams r
  | (_, none) :: r => showNodeParams r

/-- A node with its number (graphviz.h 213-224). -/
def showNode (i : Nat) (n : Node) : Str :=
  "  ".toList ++ name i ++
    (if n.html then " [ label=<".toList ++ n.label ++ "> ".toList
      else " [ label=\"".toList ++ escape n.label ++ "\" ".toList) ++
    showNodeParams n.params ++ "];\n".toList

/-- The loop over the nodes (graphviz.h 212-225). -/
def showNodes (h : Nat → Node) (k : Keys) : List Nat → Index → Option (Index × Str)
  | [], m => some (m, [])
  | a :: r, m =>
    match look k m a with
    | none => none
    | some (m', i) =>
      match showNodes h k r m' with
      | none => none
      | some (m'', t) => some (m'', showNode i (h a) ++ t)

/-- The nodes of a group (graphviz.h 231-233). -/
def showMembers (k : Keys) : List Nat → Index → Option (Index × Str)
  | [], m => some (m, [])
  | a :: r, m =>
    match look k m a with
    | none => none
    | some (m', i) =>
      match showMembers k r m' with
      | none => none
      | some (m'', t) => some (m'', "    ".toList ++ name i ++ ";\n".toList ++ t)

/-- The parameters of a group (graphviz.h 234-236). -/
def showGroupParams : List (Str × Str) → Str
  | [] => []
  | (k, v) :: r => "    ".toList ++ attr k v ++ ";\n".toList ++ showGroupParams r

/-- The style of a group (graphviz.h 239-241). -/
def showStyle : List (Str × Str) → Str
  | [] => []
  | (k, v) :: r => " ".toList ++ attr k v ++ showStyle r

/-- The loop over the groups (graphviz.h 228-245). -/
def showGroups (k : Keys) : List Group → Nat → Index → Option (Index × Str)
  | [], _, m => some (m, [])
  | g :: r, i, m =>
    match showMembers k g.nodes m with
    | none => none
    | some (m', t) =>
      match showGroups k r (i + 1) m' with
      | none => none
      | some (m'', u) =>
        some (m'', "  subgraph cluster_".toList ++ dec (i + 1) ++ " {\n".toList ++ t ++
          showGroupParams g.params ++
          (if g.graph.isEmpty then [] else "    graph [".toList ++ showStyle g.graph ++ " ];\n".toList) ++
          "  }\n".toList ++ u)

/-- The loop over the edges (graphviz.h 246-249). The two look-ups are made in some order; the
second does not change what the first has found. -/
def showEdges (directed : Bool) (k : Keys) : List (Nat × Nat) → Index → Option (Index × Str)
  | [], m => some (m, [])
  | (a, b) :: r, m =>
    match look k m a with
    | none => none
    | some (m1, i) =>
      match look k m1 b with
      | none => none
      | some (m2, j) =>
        match showEdges directed k r m2 with
        | none => none
        | some (m3, t) =>
          some (m3, "  ".toList ++ name i ++ " ".toList ++
            (if directed then "->".toList else "--".toList) ++ " ".toList ++ name j ++ ";\n".toList ++ t)

/-- `AsDOT` (graphviz.h 188-253): the text, and the `order_key`s left in the nodes. `none` is
undefined behaviour. -/
def asDOT (h : Nat → Node) (k : Keys) (g : Graph) : Option (Str × Keys) :=
  match number g.nodes 0 k [] with
  | none => none
  | some (k, m) =>
    match showNodes h k g.nodes (renumber m 0) with
    | none => none
    | some (m1, tn) =>
      match showGroups k g.groups 0 m1 with
      | none => none
      | some (m2, tg) =>
        match showEdges g.directed k g.edges m2 with
        | none => none
        | some (_, te) =>
          some ((if g.directed then "digraph".toList else "graph".toList) ++ " ".toList ++
            (match g.title with
              | some t => "\"".toList ++ escape t ++ "\" ".toList
              | none => []) ++
            "{\n".toList ++ showParams g.params ++ tn ++ tg ++ te ++ "}\n".toList, k)

/-! ## The specification: a reader of the DOT language -/

/-- The tokens of DOT. -/
inductive Tok
  | id (s : Str)
  /-- A quoted string, as DOT stores it: `\"` is a quote, any other `\x` stays two characters. -/
  | quoted (s : Str)
  | html (s : Str)
  | arrow
  | line
  | sym (c : Char)
deriving DecidableEq

/-- A character of an unquoted identifier. -/
def idChar (c : Char) : Bool := c.isAlpha || c.isDigit || c == '_'

/-- The states of the lexer. -/
inductive Lex
  | start
  | inId (acc : Str)
  | inQuoted (acc : Str)
  | inEscape (acc : Str)
  | inHtml (depth : Nat) (acc : Str)
  | dash

/-- What a character does between tokens. -/
def begin (c : Char) : Option (List Tok × Lex) :=
  if c = ' ' ∨ c = '\n' then some ([], .start)
  else if c = '"' then some ([], .inQuoted [])
  else if c = '<' then some ([], .inHtml 0 [])
  else if c = '-' then some ([], .dash)
  else if c = '{' ∨ c = '}' ∨ c = '[' ∨ c = ']' ∨ c = ';' ∨ c = '=' then some ([.sym c], .start)
  else if idChar c then some ([], .inId [c])
  else none

/-- One character. -/
def eat : Lex → Char → Option (List Tok × Lex)
  | .start, c => begin c
  | .inId acc, c =>
    if idChar c then some ([], .inId (acc ++ [c]))
    else (begin c).map (fun p => (.id acc :: p.1, p.2))
  | .inQuoted acc, c =>
    if c = '"' then some ([.quoted acc], .start)
    else if c = '\\' then some ([], .inEscape acc)
    else some ([], .inQuoted (acc ++ [c]))
  | .inEscape acc, c =>
    if c = '"' then some ([], .inQuoted (acc ++ ['"']))
    else if c = '\n' then some ([], .inQuoted acc)
    else some ([], .inQuoted (acc ++ ['\\', c]))
  | .inHtml d acc, c =>
    if c = '>' then
      match d with
      | 0 => some ([.html acc], .start)
      | d + 1 => some ([], .inHtml d (acc ++ ['>']))
    else if c = '<' then some ([], .inHtml (d + 1) (acc ++ ['<']))
    else some ([], .inHtml d (acc ++ [c]))
  | .dash, c =>
    if c = '>' then some ([.arrow], .start)
    else if c = '-' then some ([.line], .start) else none

/-- The lexer. -/
def lex : Lex → Str → Option (List Tok)
  | .start, [] => some []
  | _, [] => none
  | s, c :: cs =>
    match eat s c with
    | none => none
    | some (t, s') => (lex s' cs).map (t ++ ·)

/-- The value of an attribute. -/
inductive Val
  | text (s : Str)
  | html (s : Str)
deriving DecidableEq

/-- The statements of DOT. A cluster is its opening, what is in it, and its closing. -/
inductive Stmt
  | set (k : Str) (v : Val)
  | item (n : Str) (attrs : List (Str × Val))
  | mention (n : Str)
  | edge (a : Str) (directed : Bool) (b : Str)
  | opening (n : Str)
  | closing
deriving DecidableEq

/-- A token which is a value. -/
def asVal : Tok → Option Val
  | .quoted s => some (.text s)
  | .html s => some (.html s)
  | _ => none

/-- The parser of statements; the first argument is the attribute list being read. -/
def parse : Option (Str × List (Str × Val)) → List Tok → Option (List Stmt)
  | none, [] => some []
  | none, .id k :: .sym '=' :: v :: r =>
    match asVal v with
    | some v => match r with
      | .sym ';' :: r' => (parse none r').map (.set k v :: ·)
      | _ => none
    | none => none
  | none, .id n :: .sym '[' :: r => parse (some (n, [])) r
  | none, .id n :: .sym ';' :: r => (parse none r).map (.mention n :: ·)
  | none, .id a :: .arrow :: .id b :: .sym ';' :: r => (parse none r).map (.edge a true b :: ·)
  | none, .id a :: .line :: .id b :: .sym ';' :: r => (parse none r).map (.edge a false b :: ·)
  | none, .id s :: .id n :: .sym '{' :: r =>
    if s = "subgraph".toList then (parse none r).map (.opening n :: ·) else none
  | none, .sym '}' :: r => (parse none r).map (.closing :: ·)
  | some (n, acc), .sym ']' :: .sym ';' :: r => (parse none r).map (.item n acc :: ·)
  | some (n, acc), .id k :: .sym '=' :: v :: r =>
    match asVal v with
    | some v => parse (some (n, acc ++ [(k, v)])) r
    | none => none
  | _, _ => none

/-- A graph as read: directed or not, its name, and its statements up to the closing brace. -/
def readDot (s : Str) : Option (Bool × Option Str × List Stmt) :=
  match lex .start s with
  | none => none
  | some (.id w :: r) =>
    let kind := if w = "digraph".toList then some true else if w = "graph".toList then some false else none
    match kind with
    | none => none
    | some d =>
      match r with
      | .sym '{' :: r => (parse none r).map (fun x => (d, none, x))
      | .quoted t :: .sym '{' :: r => (parse none r).map (fun x => (d, some t, x))
      | _ => none
  | some _ => none

/-- How labels are shown: in a string of this type (`escString`) a backslash and the character
after it stand for something; two backslashes are one. What the others are is any function. -/
def shown (special : Char → Str) : Str → Str
  | '\\' :: '\\' :: r => '\\' :: shown special r
  | '\\' :: c :: r => special c ++ shown special r
  | c :: r => c :: shown special r
  | [] => []

/-- Backslashes doubled. -/
def doubled (s : Str) : Str := s.flatMap (fun c => if c = '\\' then ['\\', '\\'] else [c])

/-- A name which may be written without quotes. -/
def Plain (k : Str) : Prop := k ≠ [] ∧ ∀ c ∈ k, idChar c = true

/-- Angle brackets are balanced: the depth never is negative and is zero at the end. -/
def balanced : Nat → Str → Bool
  | d, [] => d == 0
  | d, c :: cs =>
    if c = '<' then balanced (d + 1) cs
    else if c = '>' then (match d with
      | 0 => false
      | d + 1 => balanced d cs)
    else balanced d cs

/-- The graph is one which can be written: distinct nodes; groups and edges of these nodes; names
of attributes plain; HTML labels balanced. -/
structure Ok (h : Nat → Node) (g : Graph) : Prop where
  distinct : g.nodes.Nodup
  edges : ∀ e ∈ g.edges, e.1 ∈ g.nodes ∧ e.2 ∈ g.nodes
  members : ∀ p ∈ g.groups, ∀ a ∈ p.nodes, a ∈ g.nodes
  keys : ∀ p ∈ g.params, Plain p.1
  nodeKeys : ∀ a ∈ g.nodes, ∀ p ∈ (h a).params, Plain p.1
  groupKeys : ∀ p ∈ g.groups, (∀ q ∈ p.params, Plain q.1) ∧ ∀ q ∈ p.graph, Plain q.1
  bodies : ∀ a ∈ g.nodes, (h a).html = true → balanced 0 (h a).label = true

/-- The place of a node among the added, from one. -/
def place (nodes : List Nat) (a : Nat) : Nat := nodes.idxOf a + 1

/-- The name of a node in the text. -/
def called (nodes : List Nat) (a : Nat) : Str := "node".toList ++ dec (place nodes a)

/-- The attributes which are set. -/
def present (ps : List (Str × Option Str)) : List (Str × Val) :=
  ps.filterMap (fun p => p.2.map (fun v => (p.1, Val.text (doubled v))))

/-- The statements which describe a group. -/
def describeGroup (nodes : List Nat) (i : Nat) (p : Group) : List Stmt :=
  [.opening ("cluster_".toList ++ dec (i + 1))] ++
    p.nodes.map (fun a => .mention (called nodes a)) ++
    p.params.map (fun q => .set q.1 (.text (doubled q.2))) ++
    (if p.graph = [] then [] else
      [.item "graph".toList (p.graph.map (fun q => (q.1, Val.text (doubled q.2))))]) ++
    [.closing]

/-- The groups, numbered. -/
def describeGroups (nodes : List Nat) : Nat → List Group → List Stmt
  | _, [] => []
  | i, p :: r => describeGroup nodes i p ++ describeGroups nodes (i + 1) r

/-- The statements which describe a graph. -/
def describe (h : Nat → Node) (g : Graph) : List Stmt :=
  (present g.params).map (fun p => .set p.1 p.2) ++
  g.nodes.map (fun a => .item (called g.nodes a)
    (("label".toList, if (h a).html then .html (h a).label else .text (doubled (h a).label)) ::
      present (h a).params)) ++
  describeGroups g.nodes 0 g.groups ++
  g.edges.map (fun e => .edge (called g.nodes e.1) g.directed (called g.nodes e.2)) ++
  [.closing]

/-! ## Numbering -/

theorem sorted_append_last {k : Keys} {m : Index} {a v : Nat}
    (hs : sorted k m = true) (hl : ∀ e ∈ m, k e.1 < k a) : sorted k (m ++ [(a, v)]) = true := by
  induction m with
  | nil => rfl
  | cons e r ih =>
    cases r with
    | nil => simp [sorted]; exact hl e (by simp)
    | cons f r =>
      simp only [sorted, List.cons_append, Bool.and_eq_true, decide_eq_true_eq] at hs ⊢
      exact ⟨hs.1, ih hs.2 (fun e he => hl e (by simp [he]))⟩

theorem insertAt_last {k : Keys} {m : Index} {a : Nat}
    (hl : ∀ e ∈ m, k e.1 < k a) : insertAt k a m = m ++ [(a, 0)] := by
  induction m with
  | nil => rfl
  | cons e r ih =>
    have h1 := hl e (by simp)
    have c : ¬ (k a < k e.1) := by omega
    simp only [insertAt, List.cons_append, if_neg c]
    rw [ih (fun e he => hl e (by simp [he]))]

theorem sorted_congr {k k' : Keys} {m : Index} (h : ∀ e ∈ m, k e.1 = k' e.1) :
    sorted k m = sorted k' m := by
  induction m with
  | nil => rfl
  | cons e r ih =>
    cases r with
    | nil => rfl
    | cons f r =>
      simp only [sorted]
      rw [h e (by simp), h f (by simp), ih (fun e he => h e (by simp [he]))]

/-- A map built from nodes numbered in their order. -/
def Good (k : Keys) (done : List Nat) (m : Index) : Prop :=
  m.map Prod.fst = done ∧ sorted k m = true ∧ ∀ i (hi : i < done.length), k done[i] = i + 1

theorem Good.bound {k : Keys} {done : List Nat} {m : Index} (h : Good k done m) :
    ∀ e ∈ m, k e.1 ≤ done.length := by
  intro e he
  have : e.1 ∈ done := by rw [← h.1]; exact List.mem_map_of_mem he
  obtain ⟨i, hi, e'⟩ := List.getElem_of_mem this
  rw [← e', h.2.2 i hi]; omega

theorem number_good (rest : List Nat) (done : List Nat) (k : Keys) (m : Index)
    (hd : (done ++ rest).Nodup) (hg : Good k done m) :
    ∃ k' m', number rest done.length k m = some (k', m') ∧ Good k' (done ++ rest) m' ∧
      ∀ b, b ∉ rest → k' b = k b := by
  induction rest generalizing done k m with
  | nil => exact ⟨k, m, rfl, by simpa using hg, fun _ _ => rfl⟩
  | cons a r ih =>
    have hna : a ∉ done := by
      intro hc
      have := (List.nodup_append.mp hd).2.2 a hc a (by simp)
      exact this rfl
    let k1 := setKey k a (done.length + 1)
    have hk1 : ∀ b ∈ done, k1 b = k b := by
      intro b hb
      have : b ≠ a := fun e => hna (e ▸ hb)
      simp [k1, setKey, this]
    have hm : ∀ e ∈ m, e.1 ∈ done := by
      intro e he; rw [← hg.1]; exact List.mem_map_of_mem he
    have hs1 : sorted k1 m = true := by
      rw [sorted_congr (k' := k) (fun e he => hk1 _ (hm e he))]; exact hg.2.1
    have hka : k1 a = done.length + 1 := by simp [k1, setKey]
    have hlt : ∀ e ∈ m, k1 e.1 < k1 a := by
      intro e he
      rw [hk1 _ (hm e he), hka]
      have := hg.bound e he
      omega
    have hf : m.find? (fun e => k1 e.1 == k1 a) = none := by
      rw [List.find?_eq_none]
      intro e he
      have := hlt e he
      simp; omega
    have hlook : look k1 m a = some (m ++ [(a, 0)], 0) := by
      simp only [look, hs1, hf, insertAt_last hlt, if_true]
    have hg' : Good k1 (done ++ [a]) (m ++ [(a, 0)]) := by
      refine ⟨by simp [hg.1], sorted_append_last hs1 hlt, ?_⟩
      intro i hi
      rw [List.getElem_append]
      split
      · rename_i h1
        rw [hk1 _ (List.getElem_mem h1)]
        exact hg.2.2 i h1
      · simp only [List.length_append, List.length_singleton] at hi
        simp only [List.getElem_singleton]
        rw [hka]; omega
    obtain ⟨k', m', h1, h2, h3⟩ := ih (done ++ [a]) k1 (m ++ [(a, 0)]) (by simpa using hd) hg'
    refine ⟨k', m', ?_, by simpa using h2, ?_⟩
    · simp only [number]
      have : look (setKey k a (done.length + 1)) m a = some (m ++ [(a, 0)], 0) := hlook
      rw [this]
      simpa using h1
    · intro b hb
      simp only [List.mem_cons, not_or] at hb
      rw [h3 b hb.2]
      simp [k1, setKey, hb.1]

theorem renumber_fst (m : Index) (n : Nat) : (renumber m n).map Prod.fst = m.map Prod.fst := by
  induction m generalizing n with
  | nil => rfl
  | cons e r ih => simp [renumber, ih]

theorem sorted_fst {k : Keys} {m m' : Index} (h : m.map Prod.fst = m'.map Prod.fst) :
    sorted k m = sorted k m' := by
  induction m generalizing m' with
  | nil => cases m' with
    | nil => rfl
    | cons _ _ => simp at h
  | cons e r ih =>
    cases m' with
    | nil => simp at h
    | cons e' r' =>
      simp only [List.map_cons, List.cons.injEq] at h
      cases r with
      | nil =>
        have : r' = [] := by simpa using h.2.symm
        subst this; rfl
      | cons f r =>
        cases r' with
        | nil => simp at h
        | cons f' r' =>
          have := ih h.2
          simp only [List.map_cons, List.cons.injEq] at h
          simp only [sorted, h.1, h.2.1, this]

/-- What is found under a key in a numbered map. -/
theorem find_renumber (k : Keys) (m : Index) (n j : Nat)
    (hk : ∀ i (hi : i < m.length), k (m[i]).1 = n + i + 1) :
    (renumber m n).find? (fun e => k e.1 == j) =
      if h : n < j ∧ j ≤ n + m.length then some ((m[j - n - 1]'(by omega)).1, j) else none := by
  induction m generalizing n with
  | nil =>
    have c : ¬ (n < j ∧ j ≤ n + ([] : Index).length) := by simp; 
    simp [renumber]
  | cons e r ih =>
    have h0 := hk 0 (by simp)
    simp only [List.getElem_cons_zero] at h0
    simp only [renumber, List.find?_cons, h0]
    by_cases hj : n + 0 + 1 = j
    · have : (n + 0 + 1 == j) = true := by simpa using hj
      simp only [this]
      have c : n < j ∧ j ≤ n + (e :: r).length := by simp; omega
      rw [dif_pos c]
      have : j - n - 1 = 0 := by omega
      simp [this]; omega
    · have : (n + 0 + 1 == j) = false := by simpa using hj
      simp only [this]
      rw [ih (n + 1) (by
        intro i hi
        have := hk (i + 1) (by simp; omega)
        simp only [List.getElem_cons_succ] at this
        omega)]
      by_cases c : n + 1 < j ∧ j ≤ n + 1 + r.length
      · have c' : n < j ∧ j ≤ n + (e :: r).length := by simp; omega
        rw [dif_pos c, dif_pos c']
        have : j - n - 1 = (j - (n + 1) - 1) + 1 := by omega
        simp [this]
      · have c' : ¬ (n < j ∧ j ≤ n + (e :: r).length) := by simp; omega
        rw [dif_neg c, dif_neg c']

/-- A map which is numbered. -/
def Numbered (k : Keys) (nodes : List Nat) (m : Index) : Prop :=
  ∃ m0, Good k nodes m0 ∧ m = renumber m0 0

theorem Numbered.keys {k : Keys} {nodes : List Nat} {m0 : Index} (g : Good k nodes m0) :
    ∀ i (hi : i < m0.length), k (m0[i]).1 = 0 + i + 1 := by
  intro i hi
  have hl : m0.length = nodes.length := by rw [← g.1]; simp
  have : (m0[i]).1 = nodes[i]'(by omega) := by
    have := g.1
    subst this
    simp
  rw [this, g.2.2]; omega

theorem look_added {k : Keys} {nodes : List Nat} {m : Index} (hn : Numbered k nodes m) {a : Nat}
    (ha : a ∈ nodes) : look k m a = some (m, place nodes a) := by
  obtain ⟨m0, g, rfl⟩ := hn
  have hs : sorted k (renumber m0 0) = true := by
    rw [sorted_fst (renumber_fst m0 0)]; exact g.2.1
  have hi : nodes.idxOf a < nodes.length := List.idxOf_lt_length_of_mem ha
  have hk : k a = place nodes a := by
    have := g.2.2 _ hi
    rw [List.getElem_idxOf] at this
    exact this
  have hl : m0.length = nodes.length := by rw [← g.1]; simp
  have c : 0 < k a ∧ k a ≤ 0 + m0.length := by rw [hk, hl]; simp only [place]; omega
  simp only [look, hs, if_true]
  rw [find_renumber k m0 0 (k a) (Numbered.keys g), dif_pos c]
  simp only [hk]

/-! ## Quoting -/

theorem lex_cons {s : Lex} {c : Char} {cs : Str} {t : List Tok} {s' : Lex} (h : eat s c = some (t, s')) :
    lex s (c :: cs) = (lex s' cs).map (t ++ ·) := by
  simp only [lex, h]

theorem lex_quiet {s : Lex} {c : Char} {cs : Str} {s' : Lex} (h : eat s c = some ([], s')) :
    lex s (c :: cs) = lex s' cs := by
  rw [lex_cons h]; simp

theorem lex_escape (s : Str) (acc rest : Str) :
    lex (.inQuoted acc) (escape s ++ rest) = lex (.inQuoted (acc ++ doubled s)) rest := by
  induction s generalizing acc with
  | nil => simp [escape, doubled]
  | cons c cs ih =>
    by_cases h1 : c = '"'
    · subst h1
      simp only [escape, true_or, if_true, List.cons_append, List.nil_append]
      rw [lex_quiet (s' := .inEscape acc) (by simp [eat]),
        lex_quiet (s' := .inQuoted (acc ++ ['"'])) (by simp [eat]), ih]
      simp [doubled]
    · by_cases h2 : c = '\\'
      · subst h2
        simp only [escape, or_true, if_true, List.cons_append, List.nil_append]
        rw [lex_quiet (s' := .inEscape acc) (by simp [eat]),
          lex_quiet (s' := .inQuoted (acc ++ ['\\', '\\'])) (by simp [eat]), ih]
        simp [doubled]
      · have c' : ¬ (c = '"' ∨ c = '\\') := by simp [h1, h2]
        simp only [escape, if_neg c', List.nil_append, List.cons_append]
        rw [lex_quiet (s' := .inQuoted (acc ++ [c])) (by simp [eat, h1, h2]), ih]
        simp [doubled, h2]

theorem lex_html (s : Str) (d : Nat) (acc rest : Str) (hb : balanced d s = true) :
    lex (.inHtml d acc) (s ++ '>' :: rest) = (lex .start rest).map (Tok.html (acc ++ s) :: ·) := by
  induction s generalizing d acc with
  | nil =>
    simp only [balanced, beq_iff_eq] at hb
    subst hb
    simp only [List.nil_append, List.append_nil]
    rw [lex_cons (t := [.html acc]) (s' := .start) (by simp [eat])]
    rfl
  | cons c cs ih =>
    simp only [balanced] at hb
    by_cases h1 : c = '<'
    · subst h1
      simp only [if_true] at hb
      simp only [List.cons_append]
      rw [lex_quiet (s' := .inHtml (d + 1) (acc ++ ['<'])) (by simp [eat]), ih _ _ hb]
      simp
    · simp only [if_neg h1] at hb
      by_cases h2 : c = '>'
      · subst h2
        simp only [if_true] at hb
        cases d with
        | zero => simp at hb
        | succ d =>
          simp only at hb
          simp only [List.cons_append]
          rw [lex_quiet (s' := .inHtml d (acc ++ ['>'])) (by simp [eat]), ih _ _ hb]
          simp
      · simp only [if_neg h2] at hb
        simp only [List.cons_append]
        rw [lex_quiet (s' := .inHtml d (acc ++ [c])) (by simp [eat, h1, h2]), ih _ _ hb]
        simp

/-- A piece of text which is some tokens, whatever comes after it. -/
def Lexes (s : Str) (t : List Tok) : Prop :=
  ∀ rest, lex .start (s ++ rest) = (lex .start rest).map (t ++ ·)

theorem Lexes.nil : Lexes [] [] := by intro r; simp

theorem Lexes.append {s s' : Str} {t t' : List Tok} (h : Lexes s t) (h' : Lexes s' t') :
    Lexes (s ++ s') (t ++ t') := by
  intro r
  rw [List.append_assoc, h, h', Option.map_map]
  congr 1
  funext x
  simp

theorem begin_id {c : Char} (h : idChar c = true) : begin c = some ([], .inId [c]) := by
  have ne : ∀ d : Char, idChar d = false → c ≠ d := by
    intro d hd e; subst e; rw [h] at hd; exact absurd hd (by simp)
  simp only [begin]
  simp [ne ' ' (by decide), ne '\n' (by decide), ne '"' (by decide), ne '<' (by decide),
    ne '-' (by decide), ne '{' (by decide), ne '}' (by decide), ne '[' (by decide), ne ']' (by decide),
    ne ';' (by decide), ne '=' (by decide), h]

theorem lex_id_go (w acc : Str) (c : Char) (rest : Str) (hw : ∀ x ∈ w, idChar x = true)
    (hc : idChar c = false) :
    lex (.inId acc) (w ++ c :: rest) = (lex .start (c :: rest)).map (Tok.id (acc ++ w) :: ·) := by
  induction w generalizing acc with
  | nil =>
    simp only [List.nil_append, List.append_nil]
    simp only [lex, eat, hc]
    cases hb : begin c with
    | none => simp
    | some p =>
      obtain ⟨t, s'⟩ := p
      simp only [Option.map_some, Bool.false_eq_true, if_false, Option.map_map]
      congr 1
  | cons x xs ih =>
    simp only [List.cons_append]
    rw [lex_quiet (s' := .inId (acc ++ [x])) (by simp [eat, hw x (by simp)]),
      ih _ (fun y hy => hw y (by simp [hy]))]
    simp

/-- An identifier and the character after it. -/
theorem Lexes.word {w : Str} {c : Char} {t : List Tok} (hw : Plain w) (hc : idChar c = false)
    (h : Lexes [c] t) : Lexes (w ++ [c]) (.id w :: t) := by
  intro rest
  obtain ⟨hne, hall⟩ := hw
  cases w with
  | nil => exact absurd rfl hne
  | cons x xs =>
    have e : (x :: xs ++ [c]) ++ rest = x :: (xs ++ c :: rest) := by simp
    rw [e, lex_quiet (s' := .inId [x]) (by simp only [eat]; exact begin_id (hall x (by simp))),
      lex_id_go xs [x] c rest (fun y hy => hall y (by simp [hy])) hc]
    have := h rest
    simp only [List.singleton_append] at this
    rw [this, Option.map_map]
    congr 1

theorem Lexes.blank : Lexes [' '] [] := by intro r; rw [List.singleton_append, lex_quiet (s' := .start) (by rfl)]; simp
theorem Lexes.newline : Lexes ['\n'] [] := by intro r; rw [List.singleton_append, lex_quiet (s' := .start) (by rfl)]; simp
theorem Lexes.sym {c : Char} (h : c = '{' ∨ c = '}' ∨ c = '[' ∨ c = ']' ∨ c = ';' ∨ c = '=') :
    Lexes [c] [.sym c] := by
  intro r
  rcases h with rfl | rfl | rfl | rfl | rfl | rfl <;>
    rw [List.singleton_append, lex_cons (s' := .start) (t := [.sym _]) (by rfl)]
theorem Lexes.arrow : Lexes ['-', '>'] [.arrow] := by
  intro r
  show lex .start ('-' :: '>' :: r) = _
  rw [lex_quiet (s' := .dash) (by rfl), lex_cons (s' := .start) (t := [.arrow]) (by rfl)]
theorem Lexes.line : Lexes ['-', '-'] [.line] := by
  intro r
  show lex .start ('-' :: '-' :: r) = _
  rw [lex_quiet (s' := .dash) (by rfl), lex_cons (s' := .start) (t := [.line]) (by rfl)]

theorem Lexes.quoted (s : Str) : Lexes ('"' :: (escape s ++ ['"'])) [.quoted (doubled s)] := by
  intro r
  have e : ('"' :: (escape s ++ ['"'])) ++ r = '"' :: (escape s ++ '"' :: r) := by simp
  rw [e, lex_quiet (s' := .inQuoted []) (by rfl), lex_escape,
    lex_cons (s' := .start) (t := [.quoted (doubled s)]) (by simp [eat])]

theorem Lexes.html {s : Str} (hb : balanced 0 s = true) : Lexes ('<' :: (s ++ ['>'])) [.html s] := by
  intro r
  have e : ('<' :: (s ++ ['>'])) ++ r = '<' :: (s ++ '>' :: r) := by simp
  rw [e, lex_quiet (s' := .inHtml 0 []) (by rfl), lex_html s 0 [] r hb]
  simp

/-! ## Pieces of the text -/

theorem plain_append {a b : Str} (ha : Plain a) (hb : ∀ c ∈ b, idChar c = true) : Plain (a ++ b) := by
  refine ⟨by simp [ha.1], ?_⟩
  intro c hc
  rcases List.mem_append.mp hc with h | h
  · exact ha.2 c h
  · exact hb c h

theorem dec_idChar (n : Nat) : ∀ c ∈ dec n, idChar c = true := by
  intro c hc
  have := Current.Persist.dec_isDigit hc
  simp [idChar, this]

theorem plain_name (i : Nat) : Plain (name i) := plain_append (by simp [Plain]; decide) (dec_idChar i)

theorem lexes_attr {k : Str} (hk : Plain k) (v : Str) :
    Lexes (attr k v) [.id k, .sym '=', .quoted (doubled v)] := by
  have h := (Lexes.word hk (by decide) (Lexes.sym (c := '=') (by simp))).append (Lexes.quoted v)
  have e : attr k v = (k ++ ['=']) ++ ('"' :: (escape v ++ ['"'])) := by simp [attr]
  rw [e]; exact h

/-- A piece of text which is some statements, whatever comes after it. -/
def Reads (s : Str) (x : List Stmt) : Prop :=
  ∃ t, Lexes s t ∧ ∀ r, parse none (t ++ r) = (parse none r).map (x ++ ·)

theorem Reads.nil : Reads [] [] := ⟨[], Lexes.nil, by intro r; simp⟩

theorem Reads.append {s s' : Str} {x x' : List Stmt} (h : Reads s x) (h' : Reads s' x') :
    Reads (s ++ s') (x ++ x') := by
  obtain ⟨t, l, p⟩ := h
  obtain ⟨t', l', p'⟩ := h'
  refine ⟨t ++ t', l.append l', ?_⟩
  intro r
  rw [List.append_assoc, p, p', Option.map_map]
  congr 1
  funext x
  simp

theorem reads_set {k : Str} (hk : Plain k) (v : Str) (n : Nat) :
    Reads (List.replicate n ' ' ++ attr k v ++ ";\n".toList) [.set k (.text (doubled v))] := by
  have hsp : Lexes (List.replicate n ' ') [] := by
    induction n with
    | zero => exact Lexes.nil
    | succ n ih => exact Lexes.blank.append ih
  refine ⟨_, (hsp.append (lexes_attr hk v)).append ((Lexes.sym (c := ';') (by simp)).append Lexes.newline), ?_⟩
  intro r
  simp only [List.nil_append, List.append_nil, List.cons_append]
  simp only [parse, asVal]

theorem reads_params (ps : List (Str × Option Str)) (hk : ∀ p ∈ ps, Plain p.1) :
    Reads (showParams ps) ((present ps).map (fun p => .set p.1 p.2)) := by
  induction ps with
  | nil => exact Reads.nil
  | cons p r ih =>
    obtain ⟨k, v⟩ := p
    have ih := ih (fun p hp => hk p (by simp [hp]))
    cases v with
    | none => simpa [showParams, present] using ih
    | some v =>
      have := (reads_set (hk (k, some v) (by simp)) v 2).append ih
      simpa [showParams, present, List.replicate] using this

theorem reads_groupParams (ps : List (Str × Str)) (hk : ∀ p ∈ ps, Plain p.1) :
    Reads (showGroupParams ps) (ps.map (fun q => .set q.1 (.text (doubled q.2)))) := by
  induction ps with
  | nil => exact Reads.nil
  | cons p r ih =>
    obtain ⟨k, v⟩ := p
    have ih := ih (fun p hp => hk p (by simp [hp]))
    have := (reads_set (hk (k, v) (by simp)) v 4).append ih
    simpa [showGroupParams, List.replicate] using this

/-- A piece of text which is some attributes. -/
def ReadsAttrs (s : Str) (x : List (Str × Val)) : Prop :=
  ∃ t, Lexes s t ∧ ∀ n acc r, parse (some (n, acc)) (t ++ r) = parse (some (n, acc ++ x)) r

theorem ReadsAttrs.nil : ReadsAttrs [] [] := ⟨[], Lexes.nil, by intro n acc r; simp⟩

theorem ReadsAttrs.append {s s' : Str} {x x' : List (Str × Val)} (h : ReadsAttrs s x)
    (h' : ReadsAttrs s' x') : ReadsAttrs (s ++ s') (x ++ x') := by
  obtain ⟨t, l, p⟩ := h
  obtain ⟨t', l', p'⟩ := h'
  refine ⟨t ++ t', l.append l', ?_⟩
  intro n acc r
  rw [List.append_assoc, p, p', List.append_assoc]

theorem ReadsAttrs.blank : ReadsAttrs [' '] [] := ⟨[], Lexes.blank, by intro n acc r; simp⟩

theorem readsAttrs_attr {k : Str} (hk : Plain k) (v : Str) :
    ReadsAttrs (attr k v) [(k, .text (doubled v))] :=
  ⟨_, lexes_attr hk v, by intro n acc r; simp only [List.cons_append, List.nil_append, parse, asVal]⟩

theorem readsAttrs_html {k : Str} (hk : Plain k) {v : Str} (hb : balanced 0 v = true) :
    ReadsAttrs (k ++ '=' :: ('<' :: (v ++ ['>']))) [(k, .html v)] := by
  have h := (Lexes.word hk (by decide) (Lexes.sym (c := '=') (by simp))).append (Lexes.html hb)
  have e : k ++ '=' :: ('<' :: (v ++ ['>'])) = (k ++ ['=']) ++ ('<' :: (v ++ ['>'])) := by simp
  rw [e]
  exact ⟨_, h, by intro n acc r; simp only [List.cons_append, List.nil_append, parse, asVal]⟩

theorem readsAttrs_nodeParams (ps : List (Str × Option Str)) (hk : ∀ p ∈ ps, Plain p.1) :
    ReadsAttrs (showNodeParams ps) (present ps) := by
  induction ps with
  | nil => exact ReadsAttrs.nil
  | cons p r ih =>
    obtain ⟨k, v⟩ := p
    have ih := ih (fun p hp => hk p (by simp [hp]))
    cases v with
    | none => simpa [showNodeParams, present] using ih
    | some v =>
      have := ((readsAttrs_attr (hk (k, some v) (by simp)) v).append ReadsAttrs.blank).append ih
      simpa [showNodeParams, present] using this

theorem readsAttrs_style (ps : List (Str × Str)) (hk : ∀ p ∈ ps, Plain p.1) :
    ReadsAttrs (showStyle ps) (ps.map (fun q => (q.1, Val.text (doubled q.2)))) := by
  induction ps with
  | nil => exact ReadsAttrs.nil
  | cons p r ih =>
    obtain ⟨k, v⟩ := p
    have ih := ih (fun p hp => hk p (by simp [hp]))
    have := (ReadsAttrs.blank.append (readsAttrs_attr (hk (k, v) (by simp)) v)).append ih
    simpa [showStyle] using this

/-- A name and a list of attributes. -/
theorem reads_item {w : Str} (hw : Plain w) {s : Str} {x : List (Str × Val)} (h : ReadsAttrs s x) :
    Reads (w ++ " [".toList ++ s ++ "];\n".toList) [.item w x] := by
  obtain ⟨t, l, p⟩ := h
  have h1 := (Lexes.word hw (by decide) Lexes.blank).append (Lexes.sym (c := '[') (by simp))
  have h2 := ((Lexes.sym (c := ']') (by simp)).append (Lexes.sym (c := ';') (by simp))).append Lexes.newline
  have h3 := (h1.append l).append h2
  have e : w ++ " [".toList ++ s ++ "];\n".toList =
    ((w ++ [' ']) ++ ['[']) ++ s ++ (([']'] ++ [';']) ++ ['\n']) := by simp
  rw [e]
  refine ⟨_, h3, ?_⟩
  intro r
  have e2 : ((.id w :: [] ++ [Tok.sym '[']) ++ t ++ (([Tok.sym ']'] ++ [Tok.sym ';']) ++ []) ++ r) =
    .id w :: .sym '[' :: (t ++ (.sym ']' :: .sym ';' :: r)) := by simp
  rw [e2]
  simp only [parse, p]
  simp

theorem Reads.blank : Reads [' '] [] := ⟨[], Lexes.blank, by intro r; simp⟩

theorem plain_label : Plain "label".toList := by simp [Plain]; decide
theorem plain_graph : Plain "graph".toList := by simp [Plain]; decide

theorem reads_node (i : Nat) (n : Node) (hk : ∀ p ∈ n.params, Plain p.1)
    (hb : n.html = true → balanced 0 n.label = true) :
    Reads (showNode i n) [.item (name i) (("label".toList,
      if n.html then .html n.label else .text (doubled n.label)) :: present n.params)] := by
  have hp := readsAttrs_nodeParams n.params hk
  cases hh : n.html with
  | true =>
    have hl := readsAttrs_html plain_label (hb hh)
    have h := (Reads.blank.append Reads.blank).append
      (reads_item (plain_name i) (((ReadsAttrs.blank.append hl).append ReadsAttrs.blank).append hp))
    have e : showNode i n = (([' '] ++ [' ']) ++ (name i ++ " [".toList ++
      ((([' '] ++ ("label".toList ++ '=' :: ('<' :: (n.label ++ ['>'])))) ++ [' ']) ++
        showNodeParams n.params) ++ "];\n".toList)) := by
      simp [showNode, hh]
    rw [e]
    exact h
  | false =>
    have hl := readsAttrs_attr plain_label n.label
    have h := (Reads.blank.append Reads.blank).append
      (reads_item (plain_name i) (((ReadsAttrs.blank.append hl).append ReadsAttrs.blank).append hp))
    have e : showNode i n = (([' '] ++ [' ']) ++ (name i ++ " [".toList ++
      ((([' '] ++ attr "label".toList n.label) ++ [' ']) ++
        showNodeParams n.params) ++ "];\n".toList)) := by
      simp [showNode, hh, attr]
    rw [e]
    exact h

theorem reads_mention (i : Nat) (n : Nat) :
    Reads (List.replicate n ' ' ++ name i ++ ";\n".toList) [.mention (name i)] := by
  have hsp : Lexes (List.replicate n ' ') [] := by
    induction n with
    | zero => exact Lexes.nil
    | succ n ih => exact Lexes.blank.append ih
  have h := (hsp.append (Lexes.word (plain_name i) (by decide) (Lexes.sym (c := ';') (by simp)))).append
    Lexes.newline
  refine ⟨_, by simpa using h, ?_⟩
  intro r
  simp only [List.cons_append, List.nil_append, parse]

theorem reads_edge (d : Bool) (i j : Nat) :
    Reads ("  ".toList ++ name i ++ " ".toList ++ (if d then "->".toList else "--".toList) ++ " ".toList ++
      name j ++ ";\n".toList) [.edge (name i) d (name j)] := by
  have ha : Lexes (if d then "->".toList else "--".toList) [if d then .arrow else .line] := by
    cases d
    · exact Lexes.line
    · exact Lexes.arrow
  have h := (Lexes.blank.append Lexes.blank).append
    (((Lexes.word (plain_name i) (by decide) Lexes.blank).append (ha.append Lexes.blank)).append
    ((Lexes.word (plain_name j) (by decide) (Lexes.sym (c := ';') (by simp))).append Lexes.newline))
  refine ⟨_, by simpa using h, ?_⟩
  intro r
  cases d <;> simp only [List.cons_append, List.nil_append, parse, if_true, Bool.false_eq_true, if_false]

theorem reads_opening (i : Nat) :
    Reads ("  subgraph cluster_".toList ++ dec i ++ " {\n".toList) [.opening ("cluster_".toList ++ dec i)] := by
  have h1 : Plain "subgraph".toList := by simp [Plain]; decide
  have h2 : Plain ("cluster_".toList ++ dec i) := plain_append (by simp [Plain]; decide) (dec_idChar i)
  have h := (Lexes.blank.append Lexes.blank).append
    ((Lexes.word h1 (by decide) Lexes.blank).append ((Lexes.word h2 (by decide) Lexes.blank).append
      ((Lexes.sym (c := '{') (by simp)).append Lexes.newline)))
  refine ⟨_, by simpa using h, ?_⟩
  intro r
  simp [parse]

theorem reads_closing (n : Nat) : Reads (List.replicate n ' ' ++ "}\n".toList) [.closing] := by
  have hsp : Lexes (List.replicate n ' ') [] := by
    induction n with
    | zero => exact Lexes.nil
    | succ n ih => exact Lexes.blank.append ih
  have h := hsp.append ((Lexes.sym (c := '}') (by simp)).append Lexes.newline)
  refine ⟨_, by simpa using h, ?_⟩
  intro r
  simp [parse]

/-! ## The loops -/

theorem showNodes_reads {h : Nat → Node} {k : Keys} {nodes : List Nat} {m : Index}
    (hn : Numbered k nodes m) (l : List Nat) (hl : ∀ a ∈ l, a ∈ nodes)
    (hk : ∀ a ∈ l, ∀ p ∈ (h a).params, Plain p.1)
    (hb : ∀ a ∈ l, (h a).html = true → balanced 0 (h a).label = true) :
    ∃ t, showNodes h k l m = some (m, t) ∧
      Reads t (l.map (fun a => .item (called nodes a) (("label".toList,
        if (h a).html then .html (h a).label else .text (doubled (h a).label)) :: present (h a).params))) := by
  induction l with
  | nil => exact ⟨[], rfl, Reads.nil⟩
  | cons a r ih =>
    obtain ⟨t, e, rd⟩ := ih (fun a ha => hl a (by simp [ha])) (fun a ha => hk a (by simp [ha]))
      (fun a ha => hb a (by simp [ha]))
    refine ⟨showNode (place nodes a) (h a) ++ t, ?_, ?_⟩
    · simp only [showNodes, look_added hn (hl a (by simp)), e]
    · exact (reads_node (place nodes a) (h a) (hk a (by simp)) (hb a (by simp))).append rd

theorem showMembers_reads {k : Keys} {nodes : List Nat} {m : Index}
    (hn : Numbered k nodes m) (l : List Nat) (hl : ∀ a ∈ l, a ∈ nodes) :
    ∃ t, showMembers k l m = some (m, t) ∧ Reads t (l.map (fun a => .mention (called nodes a))) := by
  induction l with
  | nil => exact ⟨[], rfl, Reads.nil⟩
  | cons a r ih =>
    obtain ⟨t, e, rd⟩ := ih (fun a ha => hl a (by simp [ha]))
    refine ⟨"    ".toList ++ name (place nodes a) ++ ";\n".toList ++ t, ?_, ?_⟩
    · simp only [showMembers, look_added hn (hl a (by simp)), e]
    · exact (reads_mention (place nodes a) 4).append rd

theorem showGroups_reads {k : Keys} {nodes : List Nat} {m : Index}
    (hn : Numbered k nodes m) (gs : List Group) (i : Nat) (hl : ∀ p ∈ gs, ∀ a ∈ p.nodes, a ∈ nodes)
    (hk : ∀ p ∈ gs, (∀ q ∈ p.params, Plain q.1) ∧ ∀ q ∈ p.graph, Plain q.1) :
    ∃ t, showGroups k gs i m = some (m, t) ∧ Reads t (describeGroups nodes i gs) := by
  induction gs generalizing i with
  | nil => exact ⟨[], rfl, Reads.nil⟩
  | cons p r ih =>
    obtain ⟨u, e, rd⟩ := ih (i + 1) (fun a ha => hl a (by simp [ha])) (fun a ha => hk a (by simp [ha]))
    obtain ⟨t, e1, rd1⟩ := showMembers_reads hn p.nodes (hl p (by simp))
    refine ⟨_, by simp only [showGroups, e1, e]; rfl, ?_⟩
    have hs : Reads (if p.graph.isEmpty then [] else "    graph [".toList ++ showStyle p.graph ++ " ];\n".toList)
        (if p.graph = [] then [] else
      [.item "graph".toList (p.graph.map (fun q => (q.1, Val.text (doubled q.2))))]) := by
      cases hg : p.graph with
      | nil => exact Reads.nil
      | cons q qs =>
        rw [← hg]
        have c1 : p.graph.isEmpty = false := by rw [hg]; rfl
        have c2 : ¬ (p.graph = []) := by rw [hg]; simp
        rw [if_neg c2]
        simp only [c1, Bool.false_eq_true, if_false]
        have := ((Reads.blank.append Reads.blank).append (Reads.blank.append Reads.blank)).append
          (reads_item plain_graph
          ((readsAttrs_style p.graph (hk p (by simp)).2).append ReadsAttrs.blank))
        simpa using this
    have := ((((reads_opening (i + 1)).append rd1).append
      (reads_groupParams p.params (hk p (by simp)).1)).append hs).append (reads_closing 2)
    have := this.append rd
    exact this

theorem showEdges_reads {k : Keys} {nodes : List Nat} {m : Index} (d : Bool)
    (hn : Numbered k nodes m) (l : List (Nat × Nat)) (hl : ∀ e ∈ l, e.1 ∈ nodes ∧ e.2 ∈ nodes) :
    ∃ t, showEdges d k l m = some (m, t) ∧
      Reads t (l.map (fun e => .edge (called nodes e.1) d (called nodes e.2))) := by
  induction l with
  | nil => exact ⟨[], rfl, Reads.nil⟩
  | cons a r ih =>
    obtain ⟨a, b⟩ := a
    obtain ⟨t, e, rd⟩ := ih (fun a ha => hl a (by simp [ha]))
    have h1 := hl (a, b) (by simp)
    refine ⟨_, by simp only [showEdges, look_added hn h1.1, look_added hn h1.2, e]; rfl, ?_⟩
    exact (reads_edge d (place nodes a) (place nodes b)).append rd

theorem number_numbers (k : Keys) (nodes : List Nat) (hd : nodes.Nodup) :
    ∃ k' m, number nodes 0 k [] = some (k', m) ∧ Good k' nodes m ∧ ∀ b, b ∉ nodes → k' b = k b := by
  have := number_good nodes [] k [] (by simpa using hd) ⟨rfl, rfl, by intro i hi; simp at hi⟩
  simpa using this

/-! ## The theorems -/

theorem read_framed {w : Str} {d : Bool} (hw : Plain w)
    (hd : (if w = "digraph".toList then some true else if w = "graph".toList then some false else none) = some d)
    {ti : Option Str} {body : Str} {x : List Stmt} (rb : Reads body x) :
    readDot (w ++ " ".toList ++ (match ti with
              | some t => "\"".toList ++ escape t ++ "\" ".toList
              | none => []) ++ "{\n".toList ++ body) = some (d, ti.map doubled, x) := by
  obtain ⟨t, l, p⟩ := rb
  have hp : parse none t = some x := by
    have := p []
    simpa [parse] using this
  have hk := Lexes.word hw (c := ' ') (by decide) Lexes.blank
  have ho := (Lexes.sym (c := '{') (by simp)).append Lexes.newline
  cases ti with
  | none =>
    have := (hk.append (ho.append l)) []
    simp only [List.append_nil, lex, Option.map_some] at this
    have e : w ++ " ".toList ++ [] ++ "{\n".toList ++ body =
        (w ++ [' ']) ++ ((['{'] ++ ['\n']) ++ body) := by simp
    simp only
    rw [e]
    simp only [readDot, this]
    simp only [List.cons_append, List.nil_append, hd, hp, Option.map_some, Option.map_none]
  | some ti =>
    have := (hk.append (((Lexes.quoted ti).append Lexes.blank).append (ho.append l))) []
    simp only [List.append_nil, lex, Option.map_some] at this
    have e : w ++ " ".toList ++ ("\"".toList ++ escape ti ++ "\" ".toList) ++ "{\n".toList ++ body =
        (w ++ [' ']) ++ ((('"' :: (escape ti ++ ['"'])) ++ [' ']) ++ ((['{'] ++ ['\n']) ++ body)) := by simp
    simp only
    rw [e]
    simp only [readDot, this]
    simp only [List.cons_append, List.nil_append, hd, hp, Option.map_some]

/-- **The text of a graph is read, by the rules of DOT, as that graph**: its kind, its name, its
parameters, its nodes in the order of addition with their labels and attributes, its clusters, and
its edges between the right nodes; whatever characters are in the title, in the labels and in the
values, and whatever the `order_key`s of the nodes were before. -/
theorem text_is_read_as_the_graph (h : Nat → Node) (k : Keys) (g : Graph) (ok : Ok h g) :
    ∃ text k', asDOT h k g = some (text, k') ∧
      readDot text = some (g.directed, g.title.map doubled, describe h g) := by
  obtain ⟨k', m, e, good, _⟩ := number_numbers k g.nodes ok.distinct
  have hn : Numbered k' g.nodes (renumber m 0) := ⟨m, good, rfl⟩
  obtain ⟨tn, e1, r1⟩ := showNodes_reads (h := h) hn g.nodes (fun _ h => h) ok.nodeKeys ok.bodies
  obtain ⟨tg, e2, r2⟩ := showGroups_reads hn g.groups 0 ok.members ok.groupKeys
  obtain ⟨te, e3, r3⟩ := showEdges_reads g.directed hn g.edges ok.edges
  refine ⟨_, k', by simp only [asDOT, e, e1, e2, e3]; rfl, ?_⟩
  have rb := ((((reads_params g.params ok.keys).append r1).append r2).append r3).append (reads_closing 0)
  have rb : Reads (showParams g.params ++ tn ++ tg ++ te ++ "}\n".toList) (describe h g) := rb
  have hkind : Plain (if g.directed then "digraph".toList else "graph".toList) := by
    cases g.directed <;> (simp [Plain]; decide)
  have hkindv : (if (if g.directed then "digraph".toList else "graph".toList) = "digraph".toList then some true
      else if (if g.directed then "digraph".toList else "graph".toList) = "graph".toList then some false else none)
      = some g.directed := by
    cases g.directed
    · decide
    · decide
  have key := read_framed (ti := g.title) hkind hkindv rb
  simpa only [List.append_assoc] using key

/-- **A label is shown as it was given**, whatever characters it has. -/
theorem label_is_shown (special : Char → Str) (s : Str) : shown special (doubled s) = s := by
  induction s with
  | nil => rfl
  | cons c cs ih =>
    by_cases h : c = '\\'
    · subst h
      have e : doubled ('\\' :: cs) = '\\' :: '\\' :: doubled cs := by simp [doubled]
      rw [e, shown, ih]
    · have e : doubled (c :: cs) = c :: doubled cs := by simp [doubled, h]
      rw [e, shown, ih]
      · intro _ hc; exact absurd hc h
      · intro _ _ hc; exact absurd hc h

/-- A value which is not a label is as it was given if it has no backslashes. -/
theorem value_without_backslashes (s : Str) (h : '\\' ∉ s) : doubled s = s := by
  induction s with
  | nil => rfl
  | cons c cs ih =>
    simp only [List.mem_cons, not_or] at h
    have e : doubled (c :: cs) = c :: doubled cs := by
      simp [doubled, Ne.symm h.1]
    rw [e, ih h.2]

/-- … and only then: a backslash in a title, a shape or a file name is read as two. -/
theorem backslash_is_doubled (s : Str) (h : doubled s = s) : '\\' ∉ s := by
  have hlen : ∀ s : Str, (doubled s).length = s.length + s.count '\\' := by
    intro s
    induction s with
    | nil => rfl
    | cons c cs ih =>
      by_cases hc : c = '\\'
      · subst hc
        have e : doubled ('\\' :: cs) = '\\' :: '\\' :: doubled cs := by simp [doubled]
        rw [e]; simp [ih]; omega
      · have e : doubled (c :: cs) = c :: doubled cs := by simp [doubled, hc]
        rw [e]; simp [ih, hc]; omega
  have := hlen s
  rw [h] at this
  exact List.count_eq_zero.mp (by omega)

/-- Distinct nodes have distinct names. -/
theorem names_are_distinct (nodes : List Nat) (a b : Nat) (ha : a ∈ nodes) (hb : b ∈ nodes)
    (h : place nodes a = place nodes b) : a = b := by
  have h1 := List.idxOf_lt_length_of_mem ha
  have h2 := List.idxOf_lt_length_of_mem hb
  have e : nodes.idxOf a = nodes.idxOf b := by simp only [place] at h; omega
  have e1 := List.getElem_idxOf h1
  have e2 := List.getElem_idxOf h2
  rw [← e1, ← e2]
  simp only [e]

/-! ## Nodes which were not added, and nodes which were added twice -/

/-- What a rendering leaves in the nodes: the place of each in the graph. -/
theorem keys_are_left (h : Nat → Node) (k k' : Keys) (g : Graph) (t : Str) (hd : g.nodes.Nodup)
    (e : asDOT h k g = some (t, k')) : ∀ a ∈ g.nodes, k' a = place g.nodes a := by
  obtain ⟨k1, m, e1, good, _⟩ := number_numbers k g.nodes hd
  have : k' = k1 := by
    simp only [asDOT, e1] at e
    (repeat' split at e) <;> simp_all
  subst this
  intro a ha
  have hi : g.nodes.idxOf a < g.nodes.length := List.idxOf_lt_length_of_mem ha
  have := good.2.2 _ hi
  rw [List.getElem_idxOf] at this
  exact this

/-- **An edge to a node which was not added goes to whichever node has its old number.** If the
key left in the node `a` is the place of the node `c`, an edge from `b` to `a` is written exactly
as an edge from `b` to `c`. -/
theorem stranger_is_taken_for_another (h : Nat → Node) (k : Keys) (g : Graph) (a b c : Nat)
    (hd : g.nodes.Nodup) (ha : a ∉ g.nodes) (hb : b ∈ g.nodes) (hc : c ∈ g.nodes)
    (hk : k a = place g.nodes c) (hg : ∀ p ∈ g.groups, ∀ x ∈ p.nodes, x ∈ g.nodes)
    (hp : ∀ p ∈ g.groups, (∀ q ∈ p.params, Plain q.1) ∧ ∀ q ∈ p.graph, Plain q.1) :
    asDOT h k { g with edges := [(b, a)] } = asDOT h k { g with edges := [(b, c)] } := by
  obtain ⟨k1, m, e1, good, hk1⟩ := number_numbers k g.nodes hd
  have hn : Numbered k1 g.nodes (renumber m 0) := ⟨m, good, rfl⟩
  have hkc : k1 c = place g.nodes c := by
    have hi : g.nodes.idxOf c < g.nodes.length := List.idxOf_lt_length_of_mem hc
    have := good.2.2 _ hi
    rw [List.getElem_idxOf] at this
    exact this
  have hka : k1 a = k1 c := by rw [hk1 a ha, hk, hkc]
  have hla : look k1 (renumber m 0) a = look k1 (renumber m 0) c := by
    have h1 := look_added hn hc
    simp only [look, hka] at h1 ⊢
    split at h1
    · rename_i hs
      rw [if_pos hs, if_pos hs]
      split at h1
      · rename_i e he; simp only [he]
      · rename_i he
        simp only [place] at h1
        simp at h1
    · simp at h1
  have hsn : ∀ l : List Nat, (∀ x ∈ l, x ∈ g.nodes) →
      ∃ t, showNodes h k1 l (renumber m 0) = some (renumber m 0, t) := by
    intro l hl
    induction l with
    | nil => exact ⟨[], rfl⟩
    | cons x r ih =>
      obtain ⟨t, e⟩ := ih (fun y hy => hl y (by simp [hy]))
      exact ⟨_, by simp only [showNodes, look_added hn (hl x (by simp)), e]; rfl⟩
  obtain ⟨tn, e2⟩ := hsn g.nodes (fun _ h => h)
  obtain ⟨tg, e3, _⟩ := showGroups_reads hn g.groups 0 hg hp
  simp only [asDOT, e1, e2, e3, showEdges, look_added hn hb, look_added hn hc, hla]

/-- The keys are left by an earlier rendering: a node of one graph, used in an edge of the next
graph to which it was not added, stands there for the node with the same place. -/
theorem stranger_from_an_earlier_graph (h : Nat → Node) (k k' : Keys) (g1 g2 : Graph) (t : Str) (a b c : Nat)
    (hd1 : g1.nodes.Nodup) (e : asDOT h k g1 = some (t, k')) (ha1 : a ∈ g1.nodes)
    (hd : g2.nodes.Nodup) (ha : a ∉ g2.nodes) (hb : b ∈ g2.nodes) (hc : c ∈ g2.nodes)
    (hp : place g1.nodes a = place g2.nodes c) (hg : g2.groups = []) :
    asDOT h k' { g2 with edges := [(b, a)] } = asDOT h k' { g2 with edges := [(b, c)] } :=
  stranger_is_taken_for_another h k' g2 a b c hd ha hb hc
    ((keys_are_left h k k' g1 t hd1 e a ha1).trans hp) (by simp [hg]) (by simp [hg])

/-- With any other key the node which was not added is the node number zero, which has no label. -/
theorem stranger_is_node_zero (k : Keys) (nodes : List Nat) (m : Index) (hn : Numbered k nodes m)
    (a : Nat) (hk : k a = 0 ∨ nodes.length < k a) :
    ∃ m', look k m a = some (m', 0) := by
  obtain ⟨m0, g, rfl⟩ := hn
  have hs : sorted k (renumber m0 0) = true := by
    rw [sorted_fst (renumber_fst m0 0)]; exact g.2.1
  have hl : m0.length = nodes.length := by rw [← g.1]; simp
  have c : ¬ (0 < k a ∧ k a ≤ 0 + m0.length) := by omega
  refine ⟨insertAt k a (renumber m0 0), ?_⟩
  simp only [look, hs, if_true]
  rw [find_renumber k m0 0 (k a) (Numbered.keys g), dif_neg c]

theorem number_append (l r : List Nat) (n : Nat) (k : Keys) (m : Index) :
    number (l ++ r) n k m = match number l n k m with
      | none => none
      | some (k', m') => number r (n + l.length) k' m' := by
  induction l generalizing n k m with
  | nil => simp [number]
  | cons a l ih =>
    simp only [List.cons_append, number]
    cases look (setKey k a (n + 1)) m a with
    | none => rfl
    | some p =>
      simp only [ih, List.length_cons]
      have : n + 1 + l.length = n + (l.length + 1) := by omega
      rw [this]

theorem sorted_mid {k : Keys} {l1 l2 : Index} {e f : Nat × Nat} (h : sorted k (l1 ++ e :: f :: l2) = true) :
    k e.1 < k f.1 := by
  induction l1 with
  | nil => simp only [List.nil_append, sorted, Bool.and_eq_true, decide_eq_true_eq] at h; exact h.1
  | cons x r ih =>
    cases r with
    | nil =>
      simp only [List.nil_append, List.cons_append, sorted, Bool.and_eq_true, decide_eq_true_eq] at h
      exact h.2.1
    | cons y r =>
      simp only [List.cons_append, sorted, Bool.and_eq_true] at h
      exact ih h.2

/-- **Adding a node twice, with another node added between, is undefined behaviour**: the second
number is written to the element of the map which orders it, and the map is not ordered any more. -/
theorem added_twice_is_undefined (h : Nat → Node) (k : Keys) (g : Graph) (p q r : List Nat) (a c : Nat)
    (hg : g.nodes = p ++ a :: c :: q ++ a :: r) (hd : (p ++ a :: c :: q).Nodup) :
    asDOT h k g = none := by
  obtain ⟨k', m, e, good, _⟩ := number_numbers k (p ++ a :: c :: q) hd
  have hnone : number g.nodes 0 k [] = none := by
    rw [hg, number_append, e]
    simp only [number]
    have hns : sorted (setKey k' a (0 + (p ++ a :: c :: q).length + 1)) m = false := by
      by_cases hs : sorted (setKey k' a (0 + (p ++ a :: c :: q).length + 1)) m = true
      · exfalso
        obtain ⟨l1, l2', hm, h1, h2⟩ := List.map_eq_append_iff.mp good.1
        obtain ⟨x, l3, hl, hx, h3⟩ := List.map_eq_cons_iff.mp h2
        obtain ⟨y, l4, hl', hy, h4⟩ := List.map_eq_cons_iff.mp h3
        subst hl'; subst hl; subst hm
        have hlt := sorted_mid hs
        have hyb := good.bound y (by simp)
        have hne : y.1 ≠ a := by
          rw [hy]
          intro hca
          subst hca
          simp [List.nodup_append] at hd
        simp only [setKey, hx, if_true, if_neg hne] at hlt
        omega
      · simpa using hs
    simp only [look, hns, Bool.false_eq_true, if_false]
  simp only [asDOT, hnone]

/-! ## Examples -/

/-- Nodes with awkward labels. -/
def sampleHeap : Nat → Node
  | 0 => { label := "say \"a\\b\";".toList, params := [("shape".toList, some "box".toList), ("color".toList, none)] }
  | 1 => { label := "<b>x</b>".toList, html := true }
  | _ => { label := [] }

/-- A directed graph with a title, parameters, a group and two edges. -/
def sampleGraph : Graph :=
  { directed := true, title := some "T".toList, params := [("rankdir".toList, some "LR".toList)], nodes := [0, 1],
    edges := [(0, 1), (1, 0)],
    groups := [{ nodes := [1], params := [("label".toList, "g".toList)], graph := [("style".toList, "dashed".toList)] }] }

theorem plain_of {k : Str} (h : (!k.isEmpty && k.all idChar) = true) : Plain k := by
  simp only [Bool.and_eq_true, Bool.not_eq_true', List.all_eq_true] at h
  exact ⟨by intro e; rw [e] at h; simp at h, h.2⟩

theorem mem_two {α : Type} {x a b : α} (h : x ∈ [a, b]) : x = a ∨ x = b := by simpa using h

theorem sample_ok : Ok sampleHeap sampleGraph where
  distinct := by decide
  edges := by decide
  members := by decide
  keys := by
    intro p hp
    rw [List.mem_singleton.mp hp]
    exact plain_of (by decide)
  nodeKeys := by
    intro a ha p hp
    rcases mem_two ha with rfl | rfl
    · rcases mem_two hp with rfl | rfl <;> exact plain_of (by decide)
    · cases hp
  groupKeys := by
    intro p hp
    rw [List.mem_singleton.mp hp]
    refine ⟨?_, ?_⟩ <;> intro q hq <;> rw [List.mem_singleton.mp hq] <;> exact plain_of (by decide)
  bodies := by decide

/-- The text of the sample. -/
theorem sample_text : (asDOT sampleHeap (fun _ => 77) sampleGraph).map Prod.fst = some
    ("digraph \"T\" {\n  rankdir=\"LR\";\n  node1 [ label=\"say \\\"a\\\\b\\\";\" shape=\"box\" ];\n" ++
     "  node2 [ label=<<b>x</b>> ];\n  subgraph cluster_1 {\n    node2;\n    label=\"g\";\n" ++
     "    graph [ style=\"dashed\" ];\n  }\n  node1 -> node2;\n  node2 -> node1;\n}\n").toList := by
  decide +kernel

/-- An HTML label with an unbalanced bracket cannot be read at all. -/
theorem unbalanced_html_is_not_read :
    (asDOT (fun _ => { label := "a > b".toList, html := true }) (fun _ => 0) { directed := false, nodes := [5] }).map
      (fun p => readDot p.1) = some none := by
  decide +kernel

/-- The title `a\b` is read as `a\\b`. -/
theorem backslash_in_title :
    (asDOT (fun _ => { label := [] }) (fun _ => 0) { directed := false, title := some "a\\b".toList, nodes := [5] }).map
      (fun p => (readDot p.1).map (fun q => q.2.1)) = some (some (some "a\\\\b".toList)) := by
  decide +kernel

/-- A node of the first graph drawn in the second, to which it was not added. -/
theorem stranger_example :
    ∃ t k', asDOT sampleHeap (fun _ => 0) { directed := true, nodes := [0, 1] } = some (t, k') ∧
      asDOT sampleHeap k' { directed := true, nodes := [2, 3], edges := [(2, 1)] } =
      asDOT sampleHeap k' { directed := true, nodes := [2, 3], edges := [(2, 3)] } := by
  obtain ⟨t, k', e, _⟩ := text_is_read_as_the_graph sampleHeap (fun _ => 0) { directed := true, nodes := [0, 1] }
    { distinct := by decide, edges := by decide, members := by decide, keys := (by intro p hp; cases hp),
      nodeKeys := sample_ok.nodeKeys, groupKeys := (by intro p hp; cases hp), bodies := by decide }
  exact ⟨t, k', e, stranger_from_an_earlier_graph sampleHeap (fun _ => 0) k' { directed := true, nodes := [0, 1] }
    { directed := true, nodes := [2, 3] } t 1 2 3 (by simp) e (by simp) (by simp) (by simp) (by simp) (by simp)
    (by decide) rfl⟩

end Current.Dot
