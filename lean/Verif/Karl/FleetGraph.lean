import Verif.Dot.Graphviz

/-!
# The picture of the fleet (`karl/render.h`, `DefaultFleetViewRenderer::RenderFleetGraph`)

Karl shows the services it knows of as a graph: a node with an HTML table for each service, an
arrow from each service to those it depends on which are shown, and a cluster for each machine.
The model builds the `graphviz::DiGraph` as the code does; `Current.Dot` (graphviz.h) makes the text
of it and has the reader of DOT by which the text is judged.

Simplifications: times, which the code formats in various ways, come into the model as texts. What
`Render` of the runtime status of a service writes is any text. The key of a service in the map
`services` of a machine and its field `codename` are one (karl.h 938, 958). A `graphviz::Node` is a
shared pointer: an address.
-/

set_option linter.unusedSimpArgs false
set_option linter.unusedVariables false
set_option maxRecDepth 10000

namespace Current.Fleet

open Current.Persist (Str dec)
open Current.Dot

/-! ## The program -/

/-- A piece written into the body of a node: a literal of the code, a text from elsewhere, or the
text which the runtime status writes itself. -/
inductive Piece where
  | lit (s : String)
  | text (s : Str)
  | html (s : Str)

def Piece.str : Piece → Str
  | .lit s => s.toList
  | .text s => s
  | .html s => s

def flat (l : List Piece) : Str := l.flatMap Piece.str

/-- `ServiceToReport` (schema_karl.h 259-323), as far as it is shown: name and codename; whether it
is up, with the times of the start and of the last keepalive as texts; if it was built, when as date
and as interval; commit, branch, whether dirty; the report of the runtime status; the dependencies. -/
structure Service where
  codename : Str
  service : Str
  up : Bool
  since : Str
  seen : Str
  built : Option (Str × Str)
  commit : Option Str
  branch : Option Str
  dirty : Option Bool
  runtime : Option Str
  dependencies : List Str

/-- `ServerToReport` (schema_karl.h 326-346), with the key of the map: the IP address. -/
structure Machine where
  ip : Str
  cloud : Option Str
  zone : Option Str
  skew : Str
  services : List Service

/-- The status, with the texts in the title and in the label of the graph. -/
structure Status where
  name : Str
  label : Str
  machines : List Machine

/-- The constants (render.h 35-45). -/
def h1Begin : Piece := .lit "<FONT POINT-SIZE='24' FACE='Courier'><B>"
def h1End : Piece := .lit "</B></FONT>"
def smallLinkBegin : Piece := .lit "<FONT POINT-SIZE='13' FACE='Courier' COLOR='blue'><B><U>"
def smallLinkEnd : Piece := .lit "</U></B></FONT>"
def mediumTextBegin : Piece := .lit "<FONT POINT-SIZE='11' FACE='Courier'>"
def mediumTextEnd : Piece := .lit "</FONT>"
def mediumLinkBegin : Piece := .lit "<FONT POINT-SIZE='11' FACE='Courier' COLOR='black'><B><U>"
def mediumLinkEnd : Piece := .lit "</U></B></FONT>"
def tinyTextBegin : Piece := .lit "<FONT POINT-SIZE='8' FACE='Courier'>"
def tinyTextEnd : Piece := .lit "</FONT>"
def widthMarker : List Piece := [.lit "<BR/>", h1Begin, .lit "        ", h1End]

/-- The cells of the first section (render.h 131-156). -/
def upDownCells (s : Service) : List (List Piece) :=
  if s.up then
    [[.lit "<TD><FONT COLOR='#00a000'>", mediumTextBegin, .lit "up ", .text s.since, mediumTextEnd,
      .lit "</FONT></TD>"],
     [.lit "<TD HREF='./snapshot/", .text s.codename, .lit "?nobuild'>", mediumLinkBegin,
      .lit "<FONT COLOR='#00a000'>updated ", .text s.seen, .lit "</FONT>", mediumLinkEnd, .lit "</TD>"]]
  else
    [[.lit "<TD><FONT COLOR='#a00000'>", mediumTextBegin, .lit "started ", .text s.since,
      mediumTextEnd, .lit "</FONT></TD>"],
     [.lit "<TD HREF='./snapshot/", .text s.codename, .lit "?nobuild'>", mediumLinkBegin,
      .lit "<FONT COLOR='#a00000'>down, last seen ", .text s.seen, .lit "</FONT>", mediumLinkEnd,
      .lit "</TD>"]]

/-- A cell with a link if there is one. -/
def cell (href : Option (List Piece)) (body : List Piece) : List Piece :=
  match href with
  | none => [.lit "<TD>"] ++ body ++ [.lit "</TD>"]
  | some u => [.lit "<TD HREF='"] ++ u ++ [.lit "'>"] ++ body ++ [.lit "</TD>"]

/-- The cells of the second section (render.h 184-219). -/
def buildCells (repo : Str) (s : Service) : List (List Piece) :=
  (match s.built with
    | none => []
    | some (date, ago) =>
      [cell none [mediumTextBegin, .lit "build of ", .text date, mediumTextEnd],
       cell (match s.commit with
          | some c => if repo = [] then none else some [.text repo, .lit "/commit/", .text c]
          | none => none)
        [mediumLinkBegin, .lit "built ", .text ago, mediumLinkEnd]]) ++
  (match s.branch, s.dirty with
    | some b, some d =>
      [cell (if repo = [] then none else some [.text repo, .lit "/tree/", .text b])
        [mediumLinkBegin, .text b, .lit ", ", .lit (if d then "dirty" else "clean"), mediumLinkEnd]]
    | _, _ => [])

/-- A section: the left cell spans the rows of the right ones (render.h 159-169, 221-228). -/
def rows (href : List Piece) (body : List Piece) : List (List Piece) → List Piece
  | [] => []
  | c :: cs =>
    [.lit "<TR><TD ROWSPAN='", .text (dec (cs.length + 1 + 1)), .lit "' HREF='"] ++ href ++
      [.lit "'>"] ++ body ++ [.lit "</TD>"] ++ c ++ [.lit "</TR>"] ++
      cs.flatMap (fun x => [.lit "<TR>"] ++ x ++ [.lit "</TR>"])

/-- The body of the node of a service (render.h 115-234). -/
def bodyOf (repo : Str) (s : Service) : List Piece :=
  [.lit "<TABLE CELLBORDER='0' CELLSPACING='5' BGCOLOR='white'>",
    .lit "<TR><TD COLSPAN='2' ALIGN='center'>", tinyTextBegin, .lit "service", tinyTextEnd,
    .lit "<BR/>", h1Begin, .text s.service, h1End, .lit "</TD></TR>"] ++
  rows [.lit "./live/", .text s.codename]
    ([tinyTextBegin, .lit "codename", tinyTextEnd, .lit "<BR/>", smallLinkBegin, .text s.codename,
      smallLinkEnd] ++ widthMarker) (upDownCells s) ++
  [.lit "<TR><TD><BR/></TD></TR>"] ++
  rows [.lit "./build/", .text s.codename]
    ([tinyTextBegin, .lit "commit", tinyTextEnd, .lit "<BR/>", smallLinkBegin,
      (match s.commit with | some c => .text (c.take 6) | none => .lit "unknown"),
      smallLinkEnd] ++ widthMarker) (buildCells repo s) ++
  [.lit "<TR><TD><BR/></TD></TR>"] ++
  (match s.runtime with | some r => [.html r] | none => []) ++
  [.lit "</TABLE>"]

/-- `graphviz::Node(os.str()).BodyAsHTML().Shape("none")` (render.h 236). -/
def nodeOf (repo : Str) (s : Service) : Node :=
  { label := flat (bodyOf repo s), html := true, params := [("shape".toList, some "none".toList)] }

/-- What is built: the nodes by their addresses, `services` (codename to node), and the nodes of
the graph. -/
structure Build where
  heap : List Node := []
  services : List (Str × Nat) := []
  nodes : List Nat := []

/-- `services[codename]`, where it exists. -/
def find (m : List (Str × Nat)) (c : Str) : Option Nat := (m.find? (fun e => e.1 == c)).map (·.2)

/-- `graph += (services[service.codename] = graphviz::Node(…))`: a new node; the map has the latest
of a codename (render.h 236-237). -/
def addService (repo : Str) (b : Build) (s : Service) : Build :=
  { heap := b.heap ++ [nodeOf repo s], services := (s.codename, b.heap.length) :: b.services,
    nodes := b.nodes ++ [b.heap.length] }

/-- The loop over machines and services (render.h 110-239). -/
def addAll (repo : Str) (st : Status) : Build :=
  st.machines.foldl (fun b m => m.services.foldl (addService repo) b) {}

/-- `RenderServiceDependencies` (render.h 251-264). All services of the status are in the map, so
`services[service.first]` does not make one. -/
def edgesOf (services : List (Str × Nat)) (st : Status) : List (Nat × Nat) :=
  st.machines.flatMap (fun m => m.services.flatMap (fun s =>
    match find services s.codename with
    | none => []
    | some a => s.dependencies.filterMap (fun d => (find services d).map (fun b => (a, b)))))

/-- The label of a machine (render.h 274-278). -/
def labelOf (m : Machine) : Str :=
  (if m.ip = "127.0.0.1".toList then "localhost".toList else m.ip) ++ "\n".toList ++
  (match m.cloud with | some c => c ++ "\n".toList | none => []) ++
  (match m.zone with | some z => z ++ "\n".toList | none => []) ++
  (if m.ip = "127.0.0.1".toList then [] else m.skew)

/-- `RenderServiceGroupsByMachines` (render.h 267-289); the codenames of a machine are those of its
services (`machines[ip].push_back`, 237). The parameters in the order of the map. -/
def groupsOf (services : List (Str × Nat)) (st : Status) : List Group :=
  st.machines.map (fun m =>
    { nodes := m.services.filterMap (fun s => find services s.codename)
      params := [("fontname".toList, "Courier".toList), ("fontsize".toList, "32".toList),
        ("label".toList, labelOf m), ("labelloc".toList, "t".toList)]
      graph := [("style".toList, "dashed".toList)] })

/-- The parameters of the graph (render.h 93-108), in the order of the map. -/
def params (st : Status) : List (Str × Option Str) :=
  [("fontname".toList, some "Courier".toList), ("fontsize".toList, some "24".toList),
    ("label".toList, some st.label), ("labelloc".toList, some "b".toList),
    ("rankdir".toList, some "RL".toList)]

/-- `RenderFleetGraph` (render.h 88-247): the nodes and the graph. -/
def render (repo : Str) (st : Status) : (Nat → Node) × Graph :=
  let b := addAll repo st
  (fun a => b.heap.getD a { label := [] },
   { directed := true, title := some st.name, params := params st, nodes := b.nodes,
     edges := edgesOf b.services st, groups := groupsOf b.services st })

/-! ## Specification -/

/-- All services which are shown, in order. -/
def shownServices (st : Status) : List Service := st.machines.flatMap (·.services)

/-- The codenames of all services shown. -/
def codenames (st : Status) : List Str := (shownServices st).map (·.codename)

/-- The name of the node of a service: its number in order, from one. -/
def nodeName (st : Status) (c : Str) : Str := "node".toList ++ dec ((codenames st).idxOf c + 1)

/-- The statements of a machine: a cluster with exactly its services. -/
def machineStmts (st : Status) (i : Nat) (m : Machine) : List Stmt :=
  [.opening ("cluster_".toList ++ dec (i + 1))] ++
  m.services.map (fun s => .mention (nodeName st s.codename)) ++
  [.set "fontname".toList (.text "Courier".toList), .set "fontsize".toList (.text "32".toList),
   .set "label".toList (.text (doubled (labelOf m))), .set "labelloc".toList (.text "t".toList),
   .item "graph".toList [("style".toList, .text "dashed".toList)], .closing]

def machinesStmts (st : Status) : Nat → List Machine → List Stmt
  | _, [] => []
  | i, m :: ms => machineStmts st i m ++ machinesStmts st (i + 1) ms

/-- The picture: a node for each service with its table; a cluster for each machine; an arrow from
each service to each of its dependencies which is shown. -/
def picture (repo : Str) (st : Status) : List Stmt :=
  [.set "fontname".toList (.text "Courier".toList), .set "fontsize".toList (.text "24".toList),
   .set "label".toList (.text (doubled st.label)), .set "labelloc".toList (.text "b".toList),
   .set "rankdir".toList (.text "RL".toList)] ++
  (shownServices st).map (fun s => .item (nodeName st s.codename)
    [("label".toList, .html (flat (bodyOf repo s))), ("shape".toList, .text "none".toList)]) ++
  machinesStmts st 0 st.machines ++
  (shownServices st).flatMap (fun s => (s.dependencies.filter (fun d => (codenames st).contains d)).map
    (fun d => .edge (nodeName st s.codename) true (nodeName st d))) ++
  [.closing]

/-- A text without angle brackets. -/
def NoAngle (s : Str) : Prop := '<' ∉ s ∧ '>' ∉ s

/-- The texts of a service which are shown within its table have no angle brackets, and what its
runtime status writes has them balanced. -/
structure Clean (s : Service) : Prop where
  codename : NoAngle s.codename
  service : NoAngle s.service
  since : NoAngle s.since
  seen : NoAngle s.seen
  built : ∀ p, s.built = some p → NoAngle p.1 ∧ NoAngle p.2
  commit : ∀ c, s.commit = some c → NoAngle c
  branch : ∀ b, s.branch = some b → NoAngle b
  runtime : ∀ r, s.runtime = some r → balanced 0 r = true

/-! ## Brackets -/

/-- The depth after a text, from a depth. -/
def walk : Nat → Str → Option Nat
  | d, [] => some d
  | d, c :: cs =>
    if c = '<' then walk (d + 1) cs
    else if c = '>' then (match d with
      | 0 => none
      | d + 1 => walk d cs)
    else walk d cs

theorem walk_append (s t : Str) (d : Nat) : walk d (s ++ t) = (walk d s).bind (fun e => walk e t) := by
  induction s generalizing d with
  | nil => simp [walk]
  | cons c s ih =>
    simp only [List.cons_append, walk]
    split
    · exact ih _
    · split
      · cases d with
        | zero => rfl
        | succ d => exact ih _
      · exact ih _

theorem balanced_walk (s : Str) (d : Nat) : balanced d s = (walk d s == some 0) := by
  induction s generalizing d with
  | nil => simp only [balanced, walk]; cases d <;> rfl
  | cons c s ih =>
    simp only [balanced, walk]
    split
    · exact ih _
    · split
      · cases d with
        | zero => rfl
        | succ d => exact ih _
      · exact ih _

theorem walk_noAngle {s : Str} (h : NoAngle s) (d : Nat) : walk d s = some d := by
  induction s generalizing d with
  | nil => rfl
  | cons c s ih =>
    obtain ⟨h1, h2⟩ := h
    simp only [List.mem_cons, not_or] at h1 h2
    simp only [walk, if_neg (Ne.symm h1.1), if_neg (Ne.symm h2.1)]
    exact ih ⟨h1.2, h2.2⟩ d

theorem walk_shift {s : Str} {a b : Nat} (h : walk a s = some b) (d : Nat) :
    walk (a + d) s = some (b + d) := by
  induction s generalizing a with
  | nil => simp only [walk, Option.some.injEq] at h ⊢; omega
  | cons c s ih =>
    simp only [walk] at h ⊢
    split
    · next hc =>
      rw [if_pos hc] at h
      have := ih h
      rw [show a + 1 + d = a + d + 1 by omega] at this
      exact this
    · next hc =>
      rw [if_neg hc] at h
      split
      · next hc' =>
        rw [if_pos hc'] at h
        cases a with
        | zero => simp at h
        | succ a =>
          simp only at h
          rw [show a + 1 + d = (a + d) + 1 by omega]
          exact ih h
      · next hc' =>
        rw [if_neg hc'] at h
        exact ih h

/-- The pieces take the depth from `a` to `b`, whatever is in the texts. -/
def Net (l : List Piece) (a b : Nat) : Prop := walk a (flat l) = some b

theorem Net.append {l m : List Piece} {a b c : Nat} (h : Net l a b) (h' : Net m b c) :
    Net (l ++ m) a c := by
  unfold Net flat at *
  rw [List.flatMap_append, walk_append, h]
  exact h'

theorem Net.nil {a : Nat} : Net [] a a := rfl

theorem Net.cons {p : Piece} {l : List Piece} {a b c : Nat} (h : walk a p.str = some b)
    (h' : Net l b c) : Net (p :: l) a c := by
  unfold Net flat at *
  rw [List.flatMap_cons, walk_append, h]
  exact h'

theorem Net.text {s : Str} {l : List Piece} {a c : Nat} (h : NoAngle s) (h' : Net l a c) :
    Net (.text s :: l) a c := Net.cons (walk_noAngle h a) h'

theorem noAngle_dec (n : Nat) : NoAngle (dec n) := by
  constructor <;> intro h <;> have := Current.Persist.dec_isDigit h <;> simp at this

theorem NoAngle.take {s : Str} (h : NoAngle s) (n : Nat) : NoAngle (s.take n) :=
  ⟨fun hc => h.1 (List.mem_of_mem_take hc), fun hc => h.2 (List.mem_of_mem_take hc)⟩

/-- One piece after the other. -/
macro "net" : tactic => `(tactic| repeat' (first
  | exact Net.nil
  | refine Net.text (by assumption) ?_
  | refine Net.cons (by rfl) ?_))

theorem net_widthMarker : Net widthMarker 0 0 := by
  unfold widthMarker; net

theorem net_cells {s : Service} (h : Clean s) : ∀ c ∈ upDownCells s, Net c 0 0 := by
  have h1 := h.codename
  have h2 := h.since
  have h3 := h.seen
  intro c hc
  unfold upDownCells at hc
  split at hc
  all_goals
    simp only [List.mem_cons, List.not_mem_nil, or_false] at hc
    rcases hc with rfl | rfl <;> net

theorem net_cell {u : Option (List Piece)} {body : List Piece} (hu : ∀ l, u = some l → Net l 1 1)
    (hb : Net body 0 0) : Net (cell u body) 0 0 := by
  unfold cell
  cases u with
  | none =>
    exact Net.append (Net.append (b := 0) (by net) hb) (by net)
  | some l =>
    refine Net.append (Net.append (Net.append (Net.append (b := 1) (by net) (hu l rfl)) (b := 1)
      (c := 0) (by net)) hb) (by net)

theorem net_buildCells {repo : Str} (hr : NoAngle repo) {s : Service} (h : Clean s) :
    ∀ c ∈ buildCells repo s, Net c 0 0 := by
  intro c hc
  unfold buildCells at hc
  rcases List.mem_append.1 hc with hc | hc
  · cases hb : s.built with
    | none => rw [hb] at hc; simp at hc
    | some p =>
      obtain ⟨date, ago⟩ := p
      rw [hb] at hc
      obtain ⟨g1, g2⟩ := h.built _ hb
      simp only [List.mem_cons, List.not_mem_nil, or_false] at hc
      rcases hc with rfl | rfl
      · exact net_cell (by simp) (by net)
      · refine net_cell ?_ (by net)
        intro l hl
        cases hcm : s.commit with
        | none => rw [hcm] at hl; simp at hl
        | some c =>
          have := h.commit c hcm
          rw [hcm] at hl
          simp only at hl
          split at hl
          · contradiction
          · simp only [Option.some.injEq] at hl; subst hl; net
  · cases hb : s.branch with
    | none => rw [hb] at hc; simp at hc
    | some b =>
      cases hd : s.dirty with
      | none => rw [hb, hd] at hc; simp at hc
      | some d =>
        have := h.branch b hb
        rw [hb, hd] at hc
        simp only [List.mem_cons, List.not_mem_nil, or_false] at hc
        subst hc
        refine net_cell ?_ (by cases d <;> net)
        intro l hl
        split at hl
        · contradiction
        · simp only [Option.some.injEq] at hl; subst hl; net

theorem net_rows {href body : List Piece} (hh : Net href 1 1) (hb : Net body 0 0) :
    ∀ {cs : List (List Piece)}, (∀ c ∈ cs, Net c 0 0) → Net (rows href body cs) 0 0 := by
  intro cs hc
  cases cs with
  | nil => exact Net.nil
  | cons c cs =>
    unfold rows
    have hrest : ∀ l : List (List Piece), (∀ c ∈ l, Net c 0 0) →
        Net (l.flatMap (fun x => [.lit "<TR>"] ++ x ++ [.lit "</TR>"])) 0 0 := by
      intro l
      induction l with
      | nil => intro _; exact Net.nil
      | cons x l ih =>
        intro hx
        rw [List.flatMap_cons]
        exact Net.append (Net.append (Net.append (b := 0) (by net) (hx x (by simp))) (b := 0) (by net))
          (ih (fun c hc => hx c (by simp [hc])))
    have hd := noAngle_dec (cs.length + 1 + 1)
    have s1 := Net.append (show Net [.lit "<TR><TD ROWSPAN='", .text (dec (cs.length + 1 + 1)),
      .lit "' HREF='"] 0 1 by net) hh
    have s2 := s1.append (show Net [.lit "'>"] 1 0 by net)
    have s3 := (s2.append hb).append (show Net [.lit "</TD>"] 0 0 by net)
    have s4 := (s3.append (hc c (by simp))).append (show Net [.lit "</TR>"] 0 0 by net)
    exact s4.append (hrest cs (fun c h => hc c (by simp [h])))

/-- C145: the table of a service has balanced brackets if the texts in it have none. -/
theorem body_balanced {repo : Str} (hr : NoAngle repo) {s : Service} (h : Clean s) :
    balanced 0 (flat (bodyOf repo s)) = true := by
  have h1 := h.codename
  have h2 := h.service
  have key : Net (bodyOf repo s) 0 0 := by
    unfold bodyOf
    refine Net.append (b := 0) (Net.append (b := 0) (Net.append (b := 0) (Net.append (b := 0)
      (Net.append (b := 0) (Net.append (b := 0) (by net) ?_) (by net)) ?_) (by net)) ?_) (by net)
    · exact net_rows (by net) (Net.append (b := 0) (by net) net_widthMarker) (net_cells h)
    · refine net_rows (by net) (Net.append (b := 0) ?_ net_widthMarker) (net_buildCells hr h)
      cases hc : s.commit with
      | none => net
      | some c => have := (h.commit c hc).take 6; net
    · cases hc : s.runtime with
      | none => exact Net.nil
      | some r =>
        refine Net.cons (b := 0) ?_ Net.nil
        have := h.runtime r hc
        rw [balanced_walk] at this
        simpa [Piece.str] using this
  unfold Net at key
  rw [balanced_walk, key]
  rfl

/-! ## The graph -/

theorem find_cons (c d : Str) (a : Nat) (m : List (Str × Nat)) :
    find ((c, a) :: m) d = if c = d then some a else find m d := by
  unfold find
  by_cases h : c = d
  · simp [h]
  · have : (c == d) = false := by simpa using h
    simp [List.find?_cons, this, h]

theorem built (repo : Str) : ∀ (l : List Service) (b : Build), (l.map (·.codename)).Nodup →
    (l.foldl (addService repo) b).heap = b.heap ++ l.map (nodeOf repo) ∧
    (l.foldl (addService repo) b).nodes = b.nodes ++ List.range' b.heap.length l.length ∧
    ∀ c, find (l.foldl (addService repo) b).services c =
      if c ∈ l.map (·.codename) then some (b.heap.length + (l.map (·.codename)).idxOf c)
      else find b.services c := by
  intro l
  induction l with
  | nil => intro b _; simp
  | cons s l ih =>
    intro b hn
    rw [List.map_cons, List.nodup_cons] at hn
    obtain ⟨h1, h2, h3⟩ := ih (addService repo b s) hn.2
    rw [List.foldl_cons]
    refine ⟨?_, ?_, ?_⟩
    · rw [h1]; simp [addService]
    · rw [h2]; simp [addService, List.range'_succ]
    · intro c
      rw [h3 c]
      simp only [addService, List.map_cons, List.length_append, List.length_cons, List.length_nil]
      by_cases hc : c ∈ l.map (·.codename)
      · have hne : s.codename ≠ c := fun h => hn.1 (h ▸ hc)
        have hb : (s.codename == c) = false := by simpa using hne
        rw [if_pos hc, if_pos (List.mem_cons_of_mem _ hc), List.idxOf_cons, hb]
        simp only [cond_false]
        congr 1; omega
      · rw [if_neg hc, find_cons]
        by_cases hs : s.codename = c
        · rw [if_pos hs, if_pos (by rw [hs]; simp), hs]; simp
        · rw [if_neg hs, if_neg (by simp only [List.mem_cons, not_or]; exact ⟨fun h => hs h.symm, hc⟩)]

theorem addAll_eq (repo : Str) (st : Status) :
    addAll repo st = (shownServices st).foldl (addService repo) {} := by
  unfold addAll shownServices
  generalize ({} : Build) = b
  induction st.machines generalizing b with
  | nil => rfl
  | cons m ms ih => rw [List.foldl_cons, List.flatMap_cons, List.foldl_append]; exact ih _

theorem addAll_built (repo : Str) (st : Status) (hd : (codenames st).Nodup) :
    (addAll repo st).heap = (shownServices st).map (nodeOf repo) ∧
    (addAll repo st).nodes = List.range (shownServices st).length ∧
    ∀ c, find (addAll repo st).services c =
      if c ∈ codenames st then some ((codenames st).idxOf c) else none := by
  rw [addAll_eq]
  obtain ⟨h1, h2, h3⟩ := built repo (shownServices st) {} hd
  refine ⟨by simpa using h1, by simpa [List.range_eq_range'] using h2, ?_⟩
  intro c
  have := h3 c
  rw [this]
  simp only [codenames, List.length_nil, Nat.zero_add]
  rfl

theorem idxOf_lt {st : Status} {c : Str} (h : c ∈ codenames st) :
    (codenames st).idxOf c < (shownServices st).length := by
  have := List.idxOf_lt_length_of_mem h
  simpa [codenames] using this

theorem idxOf_range {n a : Nat} (h : a < n) : (List.range n).idxOf a = a := by
  have hm : a ∈ List.range n := List.mem_range.2 h
  have h1 := List.idxOf_lt_length_of_mem hm
  have h2 := List.getElem_idxOf h1
  rw [List.getElem_range] at h2
  exact h2

theorem called_eq {st : Status} {c : Str} (h : c ∈ codenames st) :
    called (List.range (shownServices st).length) ((codenames st).idxOf c) = nodeName st c := by
  unfold called place nodeName
  rw [idxOf_range (idxOf_lt h)]

theorem mem_codenames {st : Status} {s : Service} (h : s ∈ shownServices st) :
    s.codename ∈ codenames st := List.mem_map_of_mem h

theorem mem_shown {st : Status} {m : Machine} (hm : m ∈ st.machines) {s : Service}
    (hs : s ∈ m.services) : s ∈ shownServices st := List.mem_flatMap.2 ⟨m, hm, hs⟩

/-- The edges are between the places of the codenames. -/
theorem edges_eq (repo : Str) (st : Status) (hd : (codenames st).Nodup) :
    edgesOf (addAll repo st).services st =
      (shownServices st).flatMap (fun s =>
        (s.dependencies.filter (fun d => (codenames st).contains d)).map
          (fun d => ((codenames st).idxOf s.codename, (codenames st).idxOf d))) := by
  obtain ⟨_, _, h3⟩ := addAll_built repo st hd
  have inner : ∀ (c : Str) (l : List Str),
      l.filterMap (fun d => (find (addAll repo st).services d).map (fun b => ((codenames st).idxOf c, b))) =
      (l.filter (fun d => (codenames st).contains d)).map
        (fun d => ((codenames st).idxOf c, (codenames st).idxOf d)) := by
    intro c l
    induction l with
    | nil => rfl
    | cons d l ih =>
      by_cases hc : d ∈ codenames st
      · rw [List.filterMap_cons, h3 d, if_pos hc, List.filter_cons_of_pos (by simpa using hc)]
        simp [ih]
      · rw [List.filterMap_cons, h3 d, if_neg hc, List.filter_cons_of_neg (by simpa using hc)]
        simp [ih]
  have outer : ∀ (ms : List Machine), (∀ m ∈ ms, m ∈ st.machines) →
      edgesOf (addAll repo st).services { st with machines := ms } =
      (ms.flatMap (·.services)).flatMap (fun s =>
        (s.dependencies.filter (fun d => (codenames st).contains d)).map
          (fun d => ((codenames st).idxOf s.codename, (codenames st).idxOf d))) := by
    intro ms hms
    unfold edgesOf
    rw [List.flatMap_assoc]
    simp only [List.flatMap]
    congr 1
    apply List.map_congr_left
    intro m hm
    congr 1
    apply List.map_congr_left
    intro s hs
    have hc := mem_codenames (mem_shown (hms m hm) hs)
    rw [h3, if_pos hc]
    exact inner _ _
  exact outer st.machines (fun _ h => h)

theorem members_eq (repo : Str) (st : Status) (hd : (codenames st).Nodup) {l : List Service}
    (hl : ∀ s ∈ l, s ∈ shownServices st) :
    l.filterMap (fun s => find (addAll repo st).services s.codename) =
      l.map (fun s => (codenames st).idxOf s.codename) := by
  obtain ⟨_, _, h3⟩ := addAll_built repo st hd
  induction l with
  | nil => rfl
  | cons s l ih =>
    rw [List.filterMap_cons, h3, if_pos (mem_codenames (hl s (by simp)))]
    simp only [List.map_cons]
    rw [ih (fun x hx => hl x (by simp [hx]))]

theorem heap_at (repo : Str) (st : Status) (hd : (codenames st).Nodup) {a : Nat}
    (ha : a < (shownServices st).length) :
    (render repo st).1 a = nodeOf repo ((shownServices st)[a]) := by
  obtain ⟨h1, _, _⟩ := addAll_built repo st hd
  simp only [render, h1, List.getD_eq_getElem?_getD, List.getElem?_map,
    List.getElem?_eq_getElem ha, Option.map_some, Option.getD_some]

theorem render_ok {repo : Str} (hr : NoAngle repo) {st : Status} (hd : (codenames st).Nodup)
    (hc : ∀ s ∈ shownServices st, Clean s) : Ok (render repo st).1 (render repo st).2 := by
  obtain ⟨h1, h2, h3⟩ := addAll_built repo st hd
  have hnodes : (render repo st).2.nodes = List.range (shownServices st).length := h2
  have plain : ∀ {k : Str}, (!k.isEmpty && k.all idChar) = true → Plain k := plain_of
  refine ⟨?_, ?_, ?_, ?_, ?_, ?_, ?_⟩
  · rw [hnodes]; exact List.nodup_range
  · intro e he
    have he : e ∈ edgesOf (addAll repo st).services st := he
    rw [edges_eq repo st hd, List.mem_flatMap] at he
    obtain ⟨s, hs, he⟩ := he
    obtain ⟨d, hdm, rfl⟩ := List.mem_map.1 he
    rw [hnodes]
    have := (List.mem_filter.1 hdm).2
    exact ⟨List.mem_range.2 (idxOf_lt (mem_codenames hs)),
      List.mem_range.2 (idxOf_lt (by simpa using this))⟩
  · intro p hp a ha
    obtain ⟨m, hm, rfl⟩ := List.mem_map.1 hp
    simp only at ha
    rw [members_eq repo st hd (fun s hs => mem_shown hm hs)] at ha
    obtain ⟨s, hs, rfl⟩ := List.mem_map.1 ha
    rw [hnodes]
    exact List.mem_range.2 (idxOf_lt (mem_codenames (mem_shown hm hs)))
  · intro p hp
    have hp : p ∈ params st := hp
    simp only [params, List.mem_cons, List.not_mem_nil, or_false] at hp
    rcases hp with rfl | rfl | rfl | rfl | rfl <;> simp only <;> exact plain (by decide)
  · intro a ha p hp
    rw [hnodes, List.mem_range] at ha
    rw [heap_at repo st hd ha] at hp
    have : p = ("shape".toList, some "none".toList) := by simpa [nodeOf] using hp
    subst this
    exact plain (by decide)
  · intro p hp
    obtain ⟨m, hm, rfl⟩ := List.mem_map.1 hp
    constructor
    · intro q hq
      simp only [List.mem_cons, List.not_mem_nil, or_false] at hq
      rcases hq with rfl | rfl | rfl | rfl <;> simp only <;> exact plain (by decide)
    · intro q hq
      simp only [List.mem_cons, List.not_mem_nil, or_false] at hq
      subst hq
      exact plain (by decide)
  · intro a ha _
    rw [hnodes, List.mem_range] at ha
    rw [heap_at repo st hd ha]
    exact body_balanced hr (hc _ (List.getElem_mem ha))

theorem doubled_courier : doubled "Courier".toList = "Courier".toList := by decide
theorem doubled_24 : doubled "24".toList = "24".toList := by decide
theorem doubled_32 : doubled "32".toList = "32".toList := by decide
theorem doubled_b : doubled "b".toList = "b".toList := by decide
theorem doubled_t : doubled "t".toList = "t".toList := by decide
theorem doubled_rl : doubled "RL".toList = "RL".toList := by decide
theorem doubled_none : doubled "none".toList = "none".toList := by decide
theorem doubled_dashed : doubled "dashed".toList = "dashed".toList := by decide

theorem groups_eq (repo : Str) (st : Status) (hd : (codenames st).Nodup) :
    ∀ (ms : List Machine) (i : Nat), (∀ m ∈ ms, m ∈ st.machines) →
    describeGroups (List.range (shownServices st).length) i
      (groupsOf (addAll repo st).services { st with machines := ms }) = machinesStmts st i ms := by
  intro ms
  induction ms with
  | nil => intro i _; rfl
  | cons m ms ih =>
    intro i hms
    have h1 := ih (i + 1) (fun x hx => hms x (by simp [hx]))
    have h2 : groupsOf (addAll repo st).services { st with machines := m :: ms } =
      { nodes := m.services.map (fun s => (codenames st).idxOf s.codename)
        params := [("fontname".toList, "Courier".toList), ("fontsize".toList, "32".toList),
          ("label".toList, labelOf m), ("labelloc".toList, "t".toList)]
        graph := [("style".toList, "dashed".toList)] } ::
      groupsOf (addAll repo st).services { st with machines := ms } := by
      simp only [groupsOf, List.map_cons]
      rw [members_eq repo st hd (fun s hs => mem_shown (hms m (by simp)) hs)]
    rw [h2]
    simp only [describeGroups, machinesStmts]
    rw [h1]
    congr 1
    simp only [describeGroup, machineStmts, List.map_map, List.map_cons, List.map_nil,
      reduceCtorEq, if_false]
    have h3 : m.services.map ((fun a => Stmt.mention (called (List.range (shownServices st).length) a)) ∘
        fun s => (codenames st).idxOf s.codename) =
        m.services.map (fun s => Stmt.mention (nodeName st s.codename)) := by
      apply List.map_congr_left
      intro s hs
      simp only [Function.comp]
      rw [called_eq (mem_codenames (mem_shown (hms m (by simp)) hs))]
    rw [h3, doubled_courier, doubled_32, doubled_t, doubled_dashed]
    simp only [List.append_assoc, List.cons_append, List.nil_append]

theorem describe_eq (repo : Str) (st : Status) (hd : (codenames st).Nodup) :
    describe (render repo st).1 (render repo st).2 = picture repo st := by
  obtain ⟨h1, h2, h3⟩ := addAll_built repo st hd
  have hnodes : (render repo st).2.nodes = List.range (shownServices st).length := h2
  have e1 : (present (render repo st).2.params).map (fun p => Stmt.set p.1 p.2) =
      [.set "fontname".toList (.text "Courier".toList), .set "fontsize".toList (.text "24".toList),
       .set "label".toList (.text (doubled st.label)), .set "labelloc".toList (.text "b".toList),
       .set "rankdir".toList (.text "RL".toList)] := by
    show (present (params st)).map (fun p => Stmt.set p.1 p.2) = _
    simp only [params, present, List.filterMap_cons, List.filterMap_nil, Option.map_some,
      List.map_cons, List.map_nil, doubled_courier, doubled_24, doubled_b, doubled_rl]
  have e2 : (render repo st).2.nodes.map (fun a => Stmt.item (called (render repo st).2.nodes a)
      (("label".toList, if ((render repo st).1 a).html then .html ((render repo st).1 a).label
        else .text (doubled ((render repo st).1 a).label)) ::
        present ((render repo st).1 a).params)) =
      (shownServices st).map (fun s => .item (nodeName st s.codename)
        [("label".toList, .html (flat (bodyOf repo s))), ("shape".toList, .text "none".toList)]) := by
    rw [hnodes]
    apply List.ext_getElem
    · simp
    · intro k hk _
      simp only [List.getElem_map, List.getElem_range]
      have hk' : k < (shownServices st).length := by simpa using hk
      rw [heap_at repo st hd hk']
      have hidx : (codenames st).idxOf ((shownServices st)[k]).codename = k := by
        have hkc : k < (codenames st).length := by simpa [codenames] using hk'
        have : (codenames st)[k] = ((shownServices st)[k]).codename := by simp [codenames]
        rw [← this]
        exact hd.idxOf_getElem k hkc
      have hcall := called_eq (mem_codenames (List.getElem_mem hk'))
      rw [hidx] at hcall
      rw [hcall]
      simp only [nodeOf, if_true, present, List.filterMap_cons, List.filterMap_nil, Option.map_some,
        doubled_none]
  have e3 : describeGroups (render repo st).2.nodes 0 (render repo st).2.groups =
      machinesStmts st 0 st.machines := by
    rw [hnodes]
    exact groups_eq repo st hd st.machines 0 (fun _ h => h)
  have e4 : (render repo st).2.edges.map (fun e => Stmt.edge (called (render repo st).2.nodes e.1)
        (render repo st).2.directed (called (render repo st).2.nodes e.2)) =
      (shownServices st).flatMap (fun s =>
        (s.dependencies.filter (fun d => (codenames st).contains d)).map
          (fun d => .edge (nodeName st s.codename) true (nodeName st d))) := by
    rw [hnodes]
    show (edgesOf (addAll repo st).services st).map _ = _
    rw [edges_eq repo st hd, List.map_flatMap]
    simp only [List.flatMap]
    congr 1
    apply List.map_congr_left
    intro s hs
    rw [List.map_map]
    apply List.map_congr_left
    intro d hdm
    have := (List.mem_filter.1 hdm).2
    simp only [Function.comp]
    rw [called_eq (mem_codenames hs), called_eq (by simpa using this)]
    rfl
  unfold describe picture
  rw [e1, e2, e3, e4]

/-- C145: the text which Karl gives to `dot` is read, by the rules of DOT, as the picture of the
fleet: a node with its table for each service, a cluster for each machine with exactly its services,
and an arrow for each dependency on a service which is shown — if no codename is on two machines
(each has one location, karl.h 938-958) and the texts in the tables have no angle brackets. -/
theorem text_is_read_as_the_fleet {repo : Str} (hr : NoAngle repo) {st : Status}
    (hd : (codenames st).Nodup) (hc : ∀ s ∈ shownServices st, Clean s) (k : Keys) :
    ∃ text k', asDOT (render repo st).1 k (render repo st).2 = some (text, k') ∧
      readDot text = some (true, some (doubled st.name), picture repo st) := by
  obtain ⟨t, k', h1, h2⟩ := text_is_read_as_the_graph _ k _ (render_ok hr hd hc)
  refine ⟨t, k', h1, ?_⟩
  rw [h2, describe_eq repo st hd]
  rfl

/-! ## Cases -/

/-- Two machines with three services. -/
def sample : Status :=
  { name := "Karl".toList, label := "Generated".toList
    machines := [
      { ip := "10.0.0.1".toList, cloud := some "i-1".toList, zone := none, skew := "NTP OK".toList
        services := [
          { codename := "AAA".toList, service := "gen".toList, up := true, since := "5s".toList,
            seen := "1s ago".toList, built := some ("2016".toList, "1d ago".toList),
            commit := some "deadbeef".toList, branch := some "master".toList, dirty := some false,
            runtime := some "<TR><TD>ok</TD></TR>".toList,
            dependencies := ["BBB".toList, "ZZZ".toList] },
          { codename := "BBB".toList, service := "prime".toList, up := false, since := "5s".toList,
            seen := "1h ago".toList, built := none, commit := none, branch := none, dirty := none,
            runtime := none, dependencies := [] }] },
      { ip := "127.0.0.1".toList, cloud := none, zone := none, skew := "NTP OK".toList
        services := [
          { codename := "CCC".toList, service := "annotated".toList, up := true, since := "5s".toList,
            seen := "1s ago".toList, built := none, commit := none, branch := none, dirty := none,
            runtime := none, dependencies := ["AAA".toList, "CCC".toList] }] }] }

theorem noAngle_of {s : Str} (h : (s.all (fun c => c != '<' && c != '>')) = true) : NoAngle s := by
  rw [List.all_eq_true] at h
  constructor <;> intro hc <;> have := h _ hc <;> simp at this

theorem sample_ok : NoAngle "https://x".toList ∧ (codenames sample).Nodup ∧
    ∀ s ∈ shownServices sample, Clean s := by
  refine ⟨noAngle_of (by decide), by decide +kernel, ?_⟩
  intro s hs
  simp only [shownServices, sample, List.flatMap_cons, List.flatMap_nil, List.cons_append,
    List.nil_append, List.append_nil, List.mem_cons, List.not_mem_nil, or_false] at hs
  rcases hs with rfl | rfl | rfl
  · refine ⟨noAngle_of (by decide), noAngle_of (by decide), noAngle_of (by decide),
      noAngle_of (by decide), ?_, ?_, ?_, ?_⟩
    · rintro p ⟨⟩; exact ⟨noAngle_of (by decide), noAngle_of (by decide)⟩
    · rintro p ⟨⟩; exact noAngle_of (by decide)
    · rintro p ⟨⟩; exact noAngle_of (by decide)
    · rintro p ⟨⟩; decide
  · refine ⟨noAngle_of (by decide), noAngle_of (by decide), noAngle_of (by decide),
      noAngle_of (by decide), ?_, ?_, ?_, ?_⟩ <;> rintro p ⟨⟩
  · refine ⟨noAngle_of (by decide), noAngle_of (by decide), noAngle_of (by decide),
      noAngle_of (by decide), ?_, ?_, ?_, ?_⟩ <;> rintro p ⟨⟩

/-- The dependency on `ZZZ`, which is not shown, makes no arrow; `CCC` depends on itself. -/
theorem sample_edges : (render [] sample).2.edges = [(0, 1), (2, 0), (2, 2)] ∧
    (render [] sample).2.groups.map (·.nodes) = [[0, 1], [2]] := by
  decide +kernel

/-- One service, with the given name. -/
def single (name : String) : Status :=
  { name := [], label := []
    machines := [{ ip := "1.1.1.1".toList, cloud := none, zone := none, skew := []
                   services := [{ codename := "AAA".toList, service := name.toList, up := true,
                                  since := [], seen := [], built := none, commit := none,
                                  branch := none, dirty := none, runtime := none,
                                  dependencies := [] }] }] }

/-- The text, as it is read. -/
def readFleet (st : Status) : Option (Option (Bool × Option Str × List Stmt)) :=
  (asDOT (render [] st).1 (fun _ => 0) (render [] st).2).map (fun p => readDot p.1)

/-- Where the property is false of the code: nothing is escaped in the tables, so that one service
of which the name (or branch, …) has an angle bracket makes the whole picture unreadable. -/
theorem bracket_in_a_name_breaks_the_picture :
    (readFleet (single "a-b")).map Option.isSome = some true ∧
    (readFleet (single "a>b")).map Option.isSome = some false ∧
    (readFleet (single "a<b")).map Option.isSome = some false := by
  decide +kernel

end Current.Fleet
