/-!
Generating HTML (C119): `blocks/html/html.h`, `tags.h`, `html_http.h`.

A program that generates HTML is a C++ block in which tags and scopes are objects: they are opened where they are declared and closed at the end of the block, in reverse order, also
when an exception is thrown. `Prog` is such a block; what follows a declaration in the same block is its last argument.

Simplified: one thread (the active scope is thread-local); `std::ostream` never fails; C++17 (a tag is constructed in place, and closed once).
-/

namespace Current.Html

abbrev Str := List Char

/-- A C++ block. -/
inductive Prog where
  /-- The end of the block. -/
  | done
  /-- An exception is thrown by the program itself. -/
  | throw_
  /-- `HTML(_) << text;` -/
  | text (t : Str) (rest : Prog)
  /-- `HTML(br);`, `HTML(input, type(…).value(…));`: a tag that is not closed. -/
  | void (name : Str) (attrs : List (Str × Str)) (rest : Prog)
  /-- `HTML(a, href(…));` -/
  | tag (name : Str) (attrs : List (Str × Str)) (rest : Prog)
  /-- `{ … }`, or a call of a function. -/
  | block (b rest : Prog)
  /-- `try { … } catch (...) {}` -/
  | try_ (b rest : Prog)
  /-- `HTMLGeneratorOStreamScope scope(os);` for the stream number `j`. -/
  | scope (j : Nat) (rest : Prog)
  /-- `HTMLGeneratorHTTPResponseScope scope(std::move(r));` for the request number `k`. -/
  | http (k : Nat) (rest : Prog)

/-- Where a scope writes. -/
inductive Target where
  | os (j : Nat)
  /-- `html_contents` of the scope `id`. -/
  | http (id : Nat)
  deriving DecidableEq, Repr

inductive Exn where
  | user
  /-- `HTMLGenerationNoActiveScopeException` -/
  | noScope
  /-- `HTMLGenerationIntersectingScopesException` -/
  | intersecting
  deriving DecidableEq, Repr

inductive Ev where
  /-- The request was moved into a scope. -/
  | took (k : Nat)
  /-- The request was answered. -/
  | answered (k : Nat) (code : Nat) (body : Str)
  deriving DecidableEq, Repr

structure St where
  /-- `scope_ptr_`: the scope (a number stands for its address) and where it writes. -/
  active : Option (Nat × Target) := none
  /-- The next scope. -/
  next : Nat := 0
  content : Target → Str := fun _ => []
  /-- "INTERNAL ERROR" was printed, `html.h:101`. -/
  internalError : Bool := false
  log : List Ev := []

def St.write (s : St) (g : Target) (t : Str) : St := { s with content := fun g' => if g' = g then s.content g ++ t else s.content g' }

/-- `os << " " #param "='" << value << "'"`, if the value is not empty, `tags.h:51-53`. -/
def attrText (a : Str × Str) : Str := if a.2 = [] then [] else ' ' :: a.1 ++ '=' :: '\'' :: a.2 ++ ['\'']

/-- The constructor of a tag, `tags.h:48-55, 91-97`. -/
def openTag (name : Str) (attrs : List (Str × Str)) : Str := '<' :: name ++ attrs.flatMap attrText ++ ['>']

/-- The destructor of a tag, `tags.h:56`. -/
def closeTag (name : Str) : Str := '<' :: '/' :: name ++ ['>']

/-- `UnregisterSelfAsScope`, `html.h:97-103`. -/
def St.unregister (s : St) (id : Nat) : St := if s.active.map Prod.fst = some id then { s with active := none } else { s with internalError := true }

/-- `RegisterSelfAsScope`, `html.h:89-95`, when there is no active scope. -/
def St.register (s : St) (g : Target) : St := { s with active := some (s.next, g), next := s.next + 1 }

def St.ev (s : St) (e : Ev) : St := { s with log := e :: s.log }

/-- Running a block, with the destructors of what it has declared: the exception, if one is thrown. -/
def exec : Prog → St → Option Exn × St
  | .done, s => (none, s)
  | .throw_, s => (some .user, s)
  | .text t rest, s =>  -- `html.h:117-125, 160-169`
      match s.active with
      | none => (some .noScope, s)
      | some (_, g) => exec rest (s.write g t)
  | .void n as rest, s =>
      match s.active with
      | none => (some .noScope, s)
      | some (_, g) => exec rest (s.write g (openTag n as))
  | .tag n as rest, s =>  -- the stream is remembered by the tag
      match s.active with
      | none => (some .noScope, s)
      | some (_, g) => let r := exec rest (s.write g (openTag n as)); (r.1, r.2.write g (closeTag n))
  | .block b rest, s =>
      let r := exec b s
      match r.1 with
      | none => exec rest r.2
      | some e => (some e, r.2)
  | .try_ b rest, s => exec rest (exec b s).2
  | .scope j rest, s =>  -- `html.h:106-114`
      match s.active with
      | some _ => (some .intersecting, s)
      | none => let r := exec rest (s.register (.os j)); (r.1, r.2.unregister s.next)
  | .http k rest, s =>  -- `html_http.h:36-51`; if the constructor throws, `~Request` answers
      match s.active with
      | some _ => (some .intersecting, (s.ev (.took k)).ev (.answered k 500 []))
      | none =>
          let r := exec rest ((s.ev (.took k)).register (.http s.next))
          (r.1, (r.2.unregister s.next).ev (.answered k 200 (r.2.content (.http s.next))))

end Current.Html
