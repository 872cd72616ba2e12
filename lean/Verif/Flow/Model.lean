import Verif.Persist.Codec
set_option linter.unusedSimpArgs false
set_option linter.unusedVariables false

/-! # The flow tool (`examples/flow_tool/flow_tool.h`, `schema.h`): a file system over HTTP, kept in a storage of nodes and blobs.

The model: the two dictionaries of the storage, the traversal, and the request handlers, transaction by transaction (the storage serialises transactions, see C06 and following). -/

namespace Current.Flow
open Current.Persist

/-- `db::Dir` and `db::File`, `schema.h:62-67`. -/
inductive Data
  | dir (kids : List Nat)
  | file (blob : Nat)

/-- `db::Node`, `schema.h:68-71`, without the key. -/
structure Node where
  name : Str
  data : Data

/-- The storage, `schema.h:84-90`: two dictionaries. -/
structure DB where
  node : Nat → Option Node
  blob : Nat → Option Str

/-- `node_key_t::RootNode`, `schema.h:61`. -/
def rootKey : Nat := 2 ^ 64 - 1

/-- `fields.node.Add(...)`: insert or overwrite. -/
def DB.setNode (db : DB) (k : Nat) (n : Node) : DB := { db with node := fun k' => if k' = k then some n else db.node k' }
/-- `fields.blob.Add(...)`. -/
def DB.setBlob (db : DB) (k : Nat) (b : Str) : DB := { db with blob := fun k' => if k' = k then some b else db.blob k' }

/-- The constructor of `FlowTool` on an empty storage, `flow_tool.h:69-81`. -/
def DB.init : DB := (⟨fun _ => none, fun _ => none⟩ : DB).setNode rootKey ⟨[], .dir []⟩

/-- The errors of the handlers, with the codes. -/
inductive Err
  | badRoot                                   -- 500
  | badEntry (i : Nat)                        -- 500
  | badBlob                                   -- 500
  | badDirNode                                -- 500
  | badListing                                -- 500
  | notFound (c : Str) (i : Nat)              -- 404
  | fileAsDir (c : Str) (i : Nat)             -- 400, while traversing
  | useFileAsDir                              -- 400, when creating
  | trailingSlash                             -- 400
  | overwriteRoot                             -- 400
  | badBody                                   -- 400
  | dirWithFile                               -- 400
  | fileWithDir                               -- 400
  | method                                    -- 405

/-- The HTTP codes of the errors. -/
def Err.code : Err → Nat
  | .badRoot | .badEntry _ | .badBlob | .badDirNode | .badListing => 500
  | .notFound _ _ => 404
  | .method => 405
  | _ => 400

/-- `NodeSearchResult`, `flow_tool.h:95-100`: a node (by its key), or an error. -/
abbrev Search := Except Err Nat

/-- What the `for` loop over the entries of one directory finds, `flow_tool.h:117-145`. -/
inductive Scan
  | bad
  | none
  | found (k : Nat) (n : Node)

/-- The `for` loop over the entries of one directory: an entry without a node is an error even if it is not the one sought. -/
def scan (db : DB) (c : Str) : List Nat → Scan
  | [] => .none
  | e :: es =>
    match db.node e with
    | none => .bad
    | some n => if n.name = c then .found e n else scan db c es

/-- The `while` loop, `flow_tool.h:115-150`: `rest` are the components from the `i`-th on. -/
def findLoop (db : DB) : List Nat → List Str → Nat → Search
  | _, [], _ => .error .badRoot  -- not reached: the path is not empty
  | kids, c :: rest, i =>
    match scan db c kids with
    | .bad => .error (.badEntry i)
    | .none => .error (.notFound c i)
    | .found k n =>
      if rest = [] then .ok k
      else match n.data with
        | .file _ => .error (.fileAsDir c i)
        | .dir kids' => findLoop db kids' rest (i + 1)

/-- `FindNodeFromWithinTransactionImpl`, `flow_tool.h:103-158`. -/
def find (db : DB) (path : List Str) : Search :=
  match db.node rootKey with
  | some ⟨_, .dir kids⟩ => if path = [] then .ok rootKey else findLoop db kids path 0
  | _ => .error .badRoot

/-- Responses. -/
inductive Resp
  | file (path : List Str) (data : Str)
  | dir (path : List Str) (names : List Str)
  | ok
  | dirExisted
  | dirCreated
  | err (e : Err)

/-- The body of a `PUT` request after parsing. -/
inductive Put
  | file (body : Str)
  | dir
  | malformed

/-- Requests to `/tree`. -/
inductive Req
  | get (path : List Str) (slash : Bool)
  | put (path : List Str) (slash : Bool) (b : Put)
  | other

/-- The listing of a directory, `flow_tool.h:224-236`. -/
def listing (db : DB) : List Nat → Option (List Str)
  | [] => some []
  | e :: es =>
    match db.node e with
    | none => none
    | some n => (listing db es).map (n.name :: ·)

/-- `GET`, `flow_tool.h:183-249`. -/
def get (db : DB) (path : List Str) (slash : Bool) : Resp :=
  match find db path with
  | .error e => .err e
  | .ok k =>
    match db.node k with
    | none => .err .badRoot  -- not reached: `find` returned a node
    | some ⟨_, .file b⟩ =>
      if slash then .err .trailingSlash
      else match db.blob b with
        | some body => .file path body
        | none => .err .badBlob
    | some ⟨_, .dir kids⟩ =>
      match listing db kids with
      | some names => .dir path names
      | none => .err .badListing

/-- Creating a file or a directory in the directory `dk`, `flow_tool.h:321-352` and `:390-417`; `kb` and `kn` are the random keys of the new blob and the new node. -/
def create (db : DB) (dk kb kn : Nat) (c : Str) : Option Str → DB × Resp
  | some body =>
    match db.node dk with
    | some ⟨dn, .dir kids⟩ => (((db.setBlob kb body).setNode kn ⟨c, .file kb⟩).setNode dk ⟨dn, .dir (kids ++ [kn])⟩, .ok)
    | some ⟨_, .file _⟩ => (db, .err .useFileAsDir)
    | none => (db, .err .badDirNode)
  | none =>
    match db.node dk with
    | some ⟨dn, .dir kids⟩ => ((db.setNode kn ⟨c, .dir []⟩).setNode dk ⟨dn, .dir (kids ++ [kn])⟩, .dirCreated)
    | some ⟨_, .file _⟩ => (db, .err .useFileAsDir)
    | none => (db, .err .badDirNode)

/-- `PUT` of a file, `flow_tool.h:283-362`. -/
def putFile (db : DB) (path : List Str) (slash : Bool) (body : Str) (kb kn : Nat) : DB × Resp :=
  if slash then (db, .err .trailingSlash)
  else match find db path with
    | .ok k =>
      match db.node k with
      | some ⟨_, .file b⟩ =>
        match db.blob b with
        | some _ => (db.setBlob b body, .ok)
        | none => (db, .err .badBlob)
      | _ => (db, .err .dirWithFile)
    | .error _ =>
      match find db path.dropLast with
      | .ok dk => create db dk kb kn (path.getLastD []) (some body)
      | .error e => (db, .err e)

/-- `PUT` of a directory, `flow_tool.h:363-427`. -/
def putDir (db : DB) (path : List Str) (kn : Nat) : DB × Resp :=
  match find db path with
  | .ok k =>
    match db.node k with
    | some ⟨_, .dir _⟩ => (db, .dirExisted)
    | _ => (db, .err .fileWithDir)
  | .error _ =>
    match find db path.dropLast with
    | .ok dk => create db dk 0 kn (path.getLastD []) none
    | .error e => (db, .err e)

/-- `ServeTree`, `flow_tool.h:178-441`. -/
def serve (db : DB) (kb kn : Nat) : Req → DB × Resp
  | .get path slash => (db, get db path slash)
  | .put path slash b =>
    if path = [] then (db, .err .overwriteRoot)
    else match b with
      | .malformed => (db, .err .badBody)
      | .file body => putFile db path slash body kb kn
      | .dir => putDir db path kn
  | .other => (db, .err .method)

/-- A request together with the random keys drawn while it is served. -/
structure Call where
  req : Req
  kb : Nat
  kn : Nat

/-- Serving a sequence of requests: the responses and the final storage. -/
def run (db : DB) : List Call → DB × List Resp
  | [] => (db, [])
  | c :: cs =>
    let (db', r) := serve db c.kb c.kn c.req
    let (db'', rs) := run db' cs
    (db'', r :: rs)

/-! ### Specification: a file system -/

/-- What is at a path. -/
inductive Entry
  | file (body : Str)
  | dir (names : List Str)

/-- A file system: what is at each path. -/
abbrev FS := List Str → Option Entry

/-- Only the root, empty. -/
def FS.empty : FS := fun p => if p = [] then some (.dir []) else none

/-- Changing what is at one path. -/
def FS.set (fs : FS) (p : List Str) (e : Entry) : FS := fun q => if q = p then some e else fs q

/-- The first component of a path which does not exist, or which is a file although more components follow. -/
def FS.trouble (fs : FS) : (pre rest : List Str) → Option Err
  | _, [] => none
  | pre, c :: rest =>
    match fs (pre ++ [c]) with
    | none => some (.notFound c pre.length)
    | some (.file _) => if rest = [] then none else some (.fileAsDir c pre.length)
    | some (.dir _) => fs.trouble (pre ++ [c]) rest

/-- Adding a name to a directory, with what is there. -/
def FS.add (fs : FS) (p : List Str) (names : List Str) (c : Str) (e : Entry) : FS :=
  (fs.set p (.dir (names ++ [c]))).set (p ++ [c]) e

/-- What the service should do. -/
def FS.serve (fs : FS) : Req → FS × Resp
  | .other => (fs, .err .method)
  | .get path slash =>
    match fs path with
    | some (.file body) => (fs, if slash then .err .trailingSlash else .file path body)
    | some (.dir names) => (fs, .dir path names)
    | none => (fs, .err ((fs.trouble [] path).getD .badRoot))
  | .put path slash b =>
    if path = [] then (fs, .err .overwriteRoot)
    else
      let parent := path.dropLast
      let c := path.getLastD []
      match b with
      | .malformed => (fs, .err .badBody)
      | .file body =>
        if slash then (fs, .err .trailingSlash)
        else match fs path, fs parent with
          | some (.file _), _ => (fs.set path (.file body), .ok)
          | some (.dir _), _ => (fs, .err .dirWithFile)
          | none, some (.dir names) => (fs.add parent names c (.file body), .ok)
          | none, some (.file _) => (fs, .err .useFileAsDir)
          | none, none => (fs, .err ((fs.trouble [] parent).getD .badRoot))
      | .dir =>
        match fs path, fs parent with
          | some (.dir _), _ => (fs, .dirExisted)
          | some (.file _), _ => (fs, .err .fileWithDir)
          | none, some (.dir names) => (fs.add parent names c (.dir []), .dirCreated)
          | none, some (.file _) => (fs, .err .useFileAsDir)
          | none, none => (fs, .err ((fs.trouble [] parent).getD .badRoot))

/-- The specified responses to a sequence of requests. -/
def FS.run (fs : FS) : List Req → FS × List Resp
  | [] => (fs, [])
  | r :: rs =>
    let (fs', a) := fs.serve r
    let (fs'', as) := fs'.run rs
    (fs'', a :: as)

end Current.Flow
