import Verif.Persist.Codec

/-!
# Nginx configurations: utils/nginx/config.h

A configuration is built with `Add`, `CreateServer`, `CreateLocation`, `CreateProxyPassLocation`
and printed by `ConfigPrinter`.
-/

namespace Current.Nginx

open Current.Persist

/-- Which of the types of `directives_t` (config.h 57) a block directive is: a `BlockDirective`, a
`LocationDirective`, or a `ServerDirective` with its `port` (config.h 59-91, 104-119). -/
inductive Kind where
  | plain
  | location
  | server (port : Nat)
deriving DecidableEq, Repr

/-- A vector of directives (config.h 57, 64, 139), with everything inside: `SimpleDirective`
(config.h 42-51) or `BlockDirective` and its descendants. -/
inductive Conf where
  | nil
  | simple (name params : Str) (rest : Conf)
  | block (kind : Kind) (name params : Str) (kids rest : Conf)
deriving DecidableEq, Repr

/-- `directives.emplace_back` (config.h 77, 83, 146): what is added at the end. -/
def Conf.append : Conf → Conf → Conf
  | .nil, d => d
  | .simple n p rest, d => .simple n p (rest.append d)
  | .block k n p kids rest, d => .block k n p kids (rest.append d)

/-- `PrintIndent` (config.h 181-185). -/
def indent (n : Nat) : Str := (List.replicate n [' ', ' ']).flatten

/-- The name of a directive and its parameters (config.h 158-161, 167-170). -/
def header (name params : Str) : Str := if params = [] then name else name ++ ' ' :: params

/-- `DirectivesPrinter` on the elements of a vector of directives, one after another
(config.h 156-179). -/
def Conf.print : Conf → Nat → Str
  | .nil, _ => []
  | .simple n p rest, i => indent i ++ header n p ++ ';' :: '\n' :: rest.print i
  | .block _ n p kids rest, i =>
    indent i ++ header n p ++ ' ' :: '{' :: '\n' :: kids.print (i + 1) ++
      indent i ++ '}' :: '\n' :: rest.print i

/-- `LocationDirective(location)` (config.h 89-90). -/
def location (path : Str) (kids : Conf) : Conf := .block .location "location".toList path kids .nil

/-- `ProxyPassLocationDirective` (config.h 94-101). -/
def proxyPass (path to : Str) : Conf :=
  location path
    (.simple "proxy_pass".toList to
    (.simple "proxy_set_header".toList "X-Real-IP $remote_addr".toList
    (.simple "proxy_set_header".toList "X-Forwarded-For $proxy_add_x_forwarded_for".toList
    (.simple "proxy_pass_request_headers".toList "on".toList .nil))))

/-- `ServerDirective(port)` (config.h 108-110). -/
def server (port : Nat) : Conf :=
  .block (.server port) "server".toList [] (.simple "listen".toList (dec port) .nil) .nil

/-- The loop of `HttpDirective::CreateServer` (config.h 125-129). -/
def Conf.hasServer : Conf → Nat → Bool
  | .nil, _ => false
  | .simple _ _ rest, p => rest.hasServer p
  | .block k _ _ _ rest, p => k = .server p || rest.hasServer p

/-- `HttpDirective::CreateServer` (config.h 124-131); `none`: `PortAlreadyUsedException`. -/
def createServer (http : Conf) (p : Nat) : Option Conf :=
  if http.hasServer p then none else some (http.append (server p))

/-- `Add` and `Create…` on the block in position `i` of a vector, through the reference which
`Create` returned (config.h 75-86, 112-118). -/
def Conf.addInside : Conf → Nat → Conf → Conf
  | .nil, _, _ => .nil
  | .simple n p rest, 0, _ => .simple n p rest
  | .simple n p rest, i + 1, d => .simple n p (rest.addInside i d)
  | .block k n p kids rest, 0, d => .block k n p (kids.append d) rest
  | .block k n p kids rest, i + 1, d => .block k n p kids (rest.addInside i d)

/-- `FullConfig` (config.h 138-149): the directives and those inside `http`. -/
structure Full where
  directives : Conf
  http : Conf
deriving DecidableEq, Repr

/-- `ConfigPrinter::AsString` of a `FullConfig` (config.h 196-209). -/
def Full.print (f : Full) : Str :=
  f.directives.print 0 ++ (Conf.block .plain "http".toList [] f.http .nil).print 0

/-- What a program does with a `FullConfig`. -/
inductive Op where
  /-- `config.Add(…)` (config.h 144-148). -/
  | add (d : Conf)
  /-- `config.http.Add(…)` (config.h 75-79). -/
  | httpAdd (d : Conf)
  /-- `config.http.CreateServer(port)` (config.h 124-131). -/
  | createServer (port : Nat)
  /-- `Add` on the block in position `i` of `http`. -/
  | inside (i : Nat) (d : Conf)

/-- The effect, and whether `PortAlreadyUsedException` was thrown. -/
def Op.run (f : Full) : Op → Full × Bool
  | .add d => ({ f with directives := f.directives.append d }, false)
  | .httpAdd d => ({ f with http := f.http.append d }, false)
  | .createServer p =>
    match Nginx.createServer f.http p with
    | none => (f, true)
    | some h => ({ f with http := h }, false)
  | .inside i d => ({ f with http := f.http.addInside i d }, false)

/-- A sequence of operations, the first first. -/
def build (ops : List Op) : Full :=
  ops.foldl (fun f o => (o.run f).1) { directives := .nil, http := .nil }

end Current.Nginx
