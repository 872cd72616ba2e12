import Verif.Url.Model
import Mathlib.Data.Nat.Bitwise
/-!
Routing of the HTTP server: `blocks/http/impl/posix_server.h`, `URLPathArgs` of `blocks/url/url.h` (C59, C60).

The table `std::map<std::string, std::map<size_t, Owned<handler>>>` is an association list of association lists; the order
of the keys, which no operation looks at, is left out. Handlers are values of a type `H`. Every function here runs under
`mutex_`, so that an execution of the server is a sequence of them.
-/
namespace Current.Routes
open Current.Persist Current.Url

/-! ### `URLPathArgs` -/

/-- `URLPathArgs`, `url.h:496-553`: the arguments are kept in the reverse order. -/
structure PathArgs where
  base : Str := []
  args : List Str := []
deriving DecidableEq, Repr

/-- `add`, `url.h:519`: `push_back`. -/
def PathArgs.add (a : PathArgs) (s : Str) : PathArgs := { a with args := a.args ++ [s] }

/-- `size`, `url.h:517`. -/
def PathArgs.size (a : PathArgs) : Nat := a.args.length

/-- `operator[]`, `url.h:509`: `args_.at(args_.size() - 1 - index)`. `none`: `at` throws (the subtraction wraps around to an
index beyond the end). -/
def PathArgs.get (a : PathArgs) (i : Nat) : Option Str :=
  if i < a.args.length then a.args[a.args.length - 1 - i]? else none

/-- The range `begin()` … `end()`, `url.h:511-514`: `crbegin`, `crend`. -/
def PathArgs.iter (a : PathArgs) : List Str := a.args.reverse

/-- `ComposeURLPathFromArgs`, `url.h:521-527`. -/
def PathArgs.composeArgs (a : PathArgs) : Str :=
  let result := a.iter.foldl (fun r component => r ++ (['/'] ++ component)) []
  if result = [] then ['/'] else result

/-- `ComposeURLPath`, `url.h:529-536`. -/
def PathArgs.compose (a : PathArgs) : Str :=
  if a.base = [] ∨ a.base = ['/'] then a.composeArgs
  else if a.composeArgs = ['/'] then a.base else a.base ++ a.composeArgs

/-- `MaxArgsCount`, `url.h:499`. -/
def maxArgsCount : Nat := 15

/-- `(path_args_count_mask & mask) == mask` where `mask` is `None` shifted `i` times, `posix_server.h:260-262`. For `i ≤ 15` the
bit is within `uint16_t`. -/
def inMask (m i : Nat) : Bool := m &&& (1 <<< i) == 1 <<< i

/-- The values of `i` the loops `posix_server.h:261`, `:505`, `:527` act upon, in their order. -/
def counts (m : Nat) : List Nat := (List.range (maxArgsCount + 1)).filter (inMask m)

/-! ### The table -/

/-- `std::map<size_t, Owned<handler>>`. -/
abbrev Inner (H : Type) := List (Nat × H)
/-- `handlers_`, `posix_server.h:550`. -/
abbrev Table (H : Type) := List (Str × Inner H)

/-- `std::map::find`. -/
def assocFind {K V : Type} [DecidableEq K] (m : List (K × V)) (k : K) : Option V := (m.find? fun e => e.1 = k).map Prod.snd

/-- `std::map::erase` of a key. -/
def assocErase {K V : Type} [DecidableEq K] (m : List (K × V)) (k : K) : List (K × V) := m.filter fun e => e.1 ≠ k

/-- `m[k] = v`. -/
def assocSet {K V : Type} [DecidableEq K] (m : List (K × V)) (k : K) (v : V) : List (K × V) :=
  if (assocFind m k).isSome then m.map fun e => if e.1 = k then (k, v) else e else m ++ [(k, v)]

variable {H : Type}

/-- `PathHandlersCount`, `posix_server.h:356-361`. -/
def Table.count (t : Table H) : Nat := t.length

/-- What the constructor of an exception says, `blocks/http/impl/posix_server.h` and `blocks/http/types.h`. -/
inductive Err where
  | noSlash | endsWithSlash | badCharacters | exists_ | missing
deriving DecidableEq, Repr

/-- The body of the loop of `UnRegister`, `posix_server.h:263-276`, for one count. -/
def unregisterOne (t : Table H) (path : Str) (i : Nat) : Except Err (Table H) :=
  match assocFind t path with
  | none => .error .missing
  | some inner =>
    match assocFind inner i with
    | none => .error .missing
    | some _ =>
      let inner' := assocErase inner i
      if inner' = [] then .ok (assocErase t path) else .ok (assocSet t path inner')

/-- The loop of `UnRegister`: the table it leaves and whether it threw. -/
def unregisterLoop (t : Table H) (path : Str) : List Nat → Table H × Option Err
  | [] => (t, none)
  | i :: rest =>
    match unregisterOne t path i with
    | .error e => (t, some e)
    | .ok t' => unregisterLoop t' path rest

/-- `UnRegister`, `posix_server.h:257-279`. -/
def unregister (t : Table H) (path : Str) (mask : Nat) : Table H × Option Err := unregisterLoop t path (counts mask)

/-- `ValidateRoute`, `posix_server.h:477-487`. -/
def validateRoute (path : Str) : Option Err :=
  if path = [] ∨ path.head? ≠ some '/' then some .noSlash
  else if path ≠ ['/'] ∧ path.getLast? = some '/' then some .endsWithSlash
  else if !isPathValid path then some .badCharacters
  else none

/-- `ReRegisterRoute`, `blocks/http/types.h`. -/
inductive Policy where
  | throwOnAttempt | silentlyUpdate
deriving DecidableEq, Repr

/-- Step 1 of `DoRegisterHandler`, `posix_server.h:501-520`. -/
def checkLoop (t : Table H) (path : Str) (policy : Policy) : List Nat → Option Err
  | [] => none
  | i :: rest =>
    if ((assocFind t path).bind fun inner => assocFind inner i).isNone then
      if policy = .silentlyUpdate then some .missing else checkLoop t path policy rest
    else
      if policy ≠ .silentlyUpdate then some .exists_ else checkLoop t path policy rest

/-- Step 2 of `DoRegisterHandler`, `posix_server.h:522-532`: `handlers_[path]` creates an empty map if need be. -/
def setLoop (inner : Inner H) (h : H) : List Nat → Inner H
  | [] => inner
  | i :: rest => setLoop (assocSet inner i h) h rest

/-- What a scope object will do when it goes away: nothing, or `UnRegister(path, mask)`. -/
abbrev Scope := List (Str × Nat)

/-- `DoRegisterHandler`, `posix_server.h:489-539`. -/
def register (t : Table H) (path : Str) (h : H) (mask : Nat) (policy : Policy) : Except Err (Table H × Scope) :=
  if mask = 0 then .ok (t, []) else
  match validateRoute path with
  | some e => .error e
  | none =>
    match checkLoop t path policy (counts mask) with
    | some e => .error e
    | none =>
      let t' := assocSet t path (setLoop ((assocFind t path).getD []) h (counts mask))
      .ok (t', if policy = .silentlyUpdate then [] else [(path, mask)])

/-- `ReleaseCaptured`, `accumulative_scoped_deleter.h:89-97`: last in, first out. An exception thrown by `UnRegister` leaves
a destructor: the program terminates; `none`. -/
def releaseLoop (t : Table H) : Scope → Option (Table H)
  | [] => some t
  | (path, mask) :: rest =>
    match unregister t path mask with
    | (t', none) => releaseLoop t' rest
    | (_, some _) => none

/-- The destructor of an `AccumulativeScopedDeleter`, `accumulative_scoped_deleter.h:62`. -/
def release (t : Table H) (s : Scope) : Option (Table H) := releaseLoop t s.reverse

/-! ### `FindHandler` -/

/-- The inner loop, `posix_server.h:392-394`: removes trailing slashes from a path of more than one character. -/
def strip (s : Str) : Str :=
  if h : 1 < s.length ∧ s.getLast? = some '/' then strip s.dropLast else s
termination_by s.length
decreasing_by simp; omega

/-- `rfind('/') + 1`: `npos + 1` is 0. -/
def afterLastSlash (s : Str) : Nat :=
  match s.reverse.findIdx? (· = '/') with
  | some k => s.length - k
  | none => 0

/-- The outer loop, `posix_server.h:391-412`. `fuel` bounds the number of rounds; the caller gives the length of the path, and
`find_enough` shows that this is enough. `none` in the first component: no handler. -/
def findLoop (t : Table H) : Nat → PathArgs → Option H × PathArgs
  | 0, a => (none, a)
  | fuel + 1, a =>
    let a := { a with base := strip a.base }
    match (assocFind t a.base).bind fun inner => assocFind inner a.size with
    | some h => (some h, a)
    | none =>
      if a.base = ['/'] then (none, a)
      else
        let k := afterLastSlash a.base
        let a := a.add (decodeURI (a.base.drop k))
        findLoop t fuel { a with base := a.base.take k }

/-- `FindHandler`, `posix_server.h:369-415`. -/
def findHandler (t : Table H) (path : Str) : Option (H × PathArgs) :=
  if path = [] then none
  else if path.head? ≠ some '/' then none
  else match findLoop t path.length { base := path } with
    | (some h, a) => some (h, a)
    | (none, _) => none

/-- The path the handler sees, `request.h:82`: `url.path.resize(url_path_args.base_path.length())`. `resize` to a larger size
would append zero bytes. -/
def requestPath (path : Str) (a : PathArgs) : Str := path.take a.base.length ++ List.replicate (a.base.length - path.length) '\x00'

/-- `url_path_had_trailing_slash`, `request.h:72`. -/
def hadTrailingSlash (path : Str) : Bool := path.getLast? == some '/'

end Current.Routes
