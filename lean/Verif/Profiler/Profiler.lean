/-!
# The profiler of profiler/profiler.h

Threads enter and leave scopes (`CURRENT_PROFILER_SCOPE`), anybody may ask for a report or reset
the numbers over HTTP.  Every operation runs under one mutex, so the operations of all the threads
are interleaved one at a time; what an operation reads off the clock is a parameter of the
operation, constrained by the fact that `current::time::Now()` is strictly increasing across
threads (property C52).
-/

namespace Current.Profiler

/-- A scope is identified by the address of its name: `std::map<const char*, Trie>`
(profiler.h 91).  `0` is the address of the empty name of the root (profiler.h 117). -/
abbrev Key := Nat
/-- `std::thread::id` (profiler.h 120). -/
abbrev Tid := Nat

/-- The data of a `Trie` node (profiler.h 83-89). -/
structure Node where
  entered : Nat
  total : Nat
  entries : Nat
deriving DecidableEq, Repr

/-- The children of a `Trie` (profiler.h 91) with everything below them, as first child / next
sibling.  `std::map` iterates in the order of the addresses; here in the order of insertion: the
order shows nowhere, since the report is sorted by time. -/
inductive Forest where
  | nil
  | cons (k : Key) (n : Node) (kids rest : Forest)
deriving DecidableEq, Repr

/-- `Trie::ComputeTotalMicroseconds` (profiler.h 93-100). -/
def Node.compute (n : Node) (now : Nat) : Nat :=
  if n.entered ≠ 0 then n.total + (now - n.entered) else n.total

/-- One node of `Trie::RecursiveReset` (profiler.h 101-106). -/
def Node.reset (n : Node) (now : Nat) : Node :=
  { entered := if n.entered ≠ 0 then now else n.entered, total := 0, entries := 1 }

/-- `Trie::RecursiveReset` (profiler.h 101-110). -/
def Forest.reset : Forest → Nat → Forest
  | .nil, _ => .nil
  | .cons k n kids rest, now => .cons k (n.reset now) (kids.reset now) (rest.reset now)

/-- `children[scope]`, then `us_entered = now; ++entries` (profiler.h 193-195). -/
def Forest.enterChild : Forest → Key → Nat → Forest
  | .nil, k, now => .cons k { entered := now, total := 0, entries := 1 } .nil .nil
  | .cons k' n kids rest, k, now =>
    if k' = k then .cons k' { n with entered := now, entries := n.entries + 1 } kids rest
    else .cons k' n kids (rest.enterChild k now)

/-- The same below the node that a `Trie*` points to; a pointer is modelled by the path from the
root to the node (nodes of a `std::map` do not move). -/
def Forest.enter : Forest → List Key → Key → Nat → Forest
  | f, [], k, now => f.enterChild k now
  | .nil, _ :: _, _, _ => .nil
  | .cons k' n kids rest, p :: ps, k, now =>
    if k' = p then .cons k' n (kids.enter ps k now) rest
    else .cons k' n kids (rest.enter (p :: ps) k now)

/-- `us_total += now - us_entered; us_entered = 0` (profiler.h 209-210). -/
def Node.leave (n : Node) (now : Nat) : Node :=
  { n with total := n.total + (now - n.entered), entered := 0 }

/-- The same on the node that a pointer points to. -/
def Forest.leave : Forest → List Key → Nat → Forest
  | f, [], _ => f
  | .nil, _ :: _, _ => .nil
  | .cons k' n kids rest, p :: ps, now =>
    if k' = p then
      match ps with
      | [] => .cons k' (n.leave now) kids rest
      | _ :: _ => .cons k' n (kids.leave ps now) rest
    else .cons k' n kids (rest.leave (p :: ps) now)

/-- The node that a pointer below the root points to. -/
def Forest.find : Forest → List Key → Option Node
  | .nil, _ => none
  | .cons _ _ _ _, [] => none
  | .cons k n kids rest, p :: ps =>
    if k = p then
      match ps with
      | [] => some n
      | _ :: _ => kids.find ps
    else rest.find (p :: ps)

/-- `PerThread` (profiler.h 79-119): the root of the trie and the stack (top first). -/
structure PerThread where
  root : Node
  kids : Forest
  stack : List (Key × List Key)
deriving DecidableEq, Repr

/-- `PerThread::PerThread()` (profiler.h 114-118); `now` is what `Now()` returns there. -/
def PerThread.new (now : Nat) : PerThread :=
  { root := { entered := now, total := 0, entries := 1 }, kids := .nil, stack := [(0, [])] }

/-- The node a `Trie*` points to. -/
def PerThread.node (pt : PerThread) : List Key → Option Node
  | [] => some pt.root
  | p :: ps => pt.kids.find (p :: ps)

/-- What `EnterScope` does under the lock (profiler.h 190-197). -/
def PerThread.enter (pt : PerThread) (k : Key) (now : Nat) : PerThread :=
  match pt.stack with
  | [] => pt
  | (_, ptr) :: _ =>
    { pt with kids := pt.kids.enter ptr k now, stack := (k, ptr ++ [k]) :: pt.stack }

/-- What `LeaveScope` does under the lock (profiler.h 203-213). -/
def PerThread.leave (pt : PerThread) (now : Nat) : PerThread :=
  match pt.stack with
  | [] => pt
  | (_, []) :: st => { pt with root := pt.root.leave now, stack := st }
  | (_, ptr) :: st => { pt with kids := pt.kids.leave ptr now, stack := st }

/-- The assertions of `EnterScope` (profiler.h 187-192). -/
def PerThread.enterOK (pt : PerThread) (k : Key) (now : Nat) : Bool :=
  k ≠ 0 && now ≠ 0 && pt.stack ≠ []

/-- The assertions of `LeaveScope` (profiler.h 201-212). -/
def PerThread.leaveOK (pt : PerThread) (k : Key) (now : Nat) : Bool :=
  k ≠ 0 && now ≠ 0 &&
  match pt.stack with
  | [] => false
  | (k', ptr) :: st =>
    k = k' && st ≠ [] &&
    match pt.node ptr with
    | none => false
    | some n => n.entered ≤ now

/-- `trie.RecursiveReset(Now())` on the root (profiler.h 101-110, 129). -/
def PerThread.reset (pt : PerThread) (now : Nat) : PerThread :=
  { pt with root := pt.root.reset now, kids := pt.kids.reset now }

/-! ## The report -/

/-- `PerThreadReporting::subscope` (profiler.h 64) with everything below: siblings in the order in
which they are reported.  The fields which are quotients of the numbers here (`us_per_entry`,
`absolute_best_possible_qps`, `ratio_of_parent`, `subscope_total_ratio_of_parent`) are left out. -/
inductive Report where
  | nil
  | cons (k : Key) (entries us : Nat) (sub rest : Report)
deriving DecidableEq, Repr

/-- Insertion into a list sorted by `operator<` (profiler.h 66-68). -/
def Report.insert : Report → Key → Nat → Nat → Report → Report
  | .nil, k, e, us, sub => .cons k e us sub .nil
  | .cons k' e' us' sub' rest, k, e, us, sub =>
    if us ≥ us' then .cons k e us sub (.cons k' e' us' sub' rest)
    else .cons k' e' us' sub' (rest.insert k e us sub)

/-- `recursive_fill` over the children of a node, then `std::sort` (profiler.h 158-171).  The sort
is an insertion sort; in which order `std::sort` leaves scopes with equal times is unspecified and
no theorem depends on it. -/
def Forest.fill : Forest → Nat → Report
  | .nil, _ => .nil
  | .cons k n kids rest, now => (rest.fill now).insert k n.entries (n.compute now) (kids.fill now)

/-- `subscope_total` (profiler.h 163-166). -/
def Forest.sum : Forest → Nat → Nat
  | .nil, _ => 0
  | .cons _ n _ rest, now => n.compute now + rest.sum now

/-- The assertions of `recursive_fill` for the children of a node (profiler.h 95, 152, 167). -/
def Forest.fillOK : Forest → Nat → Bool
  | .nil, _ => true
  | .cons _ n kids rest, now =>
    n.entries ≠ 0 && (n.entered = 0 || n.entered ≤ now) && kids.sum now ≤ n.compute now &&
    kids.fillOK now && rest.fillOK now

/-- The report on one thread (profiler.h 172-180). -/
structure ThreadReport where
  entries : Nat
  us : Nat
  sub : Report
deriving DecidableEq, Repr

/-- `recursive_fill` on the root (profiler.h 147-171, 177-180). -/
def PerThread.report (pt : PerThread) (now : Nat) : ThreadReport :=
  { entries := pt.root.entries, us := pt.root.compute now, sub := pt.kids.fill now }

/-- The assertions of `recursive_fill` on the root, the one about the time of the children apart
(profiler.h 95, 152). -/
def PerThread.reportOK (pt : PerThread) (now : Nat) : Bool :=
  pt.root.entries ≠ 0 && pt.root.entered ≤ now && pt.kids.fillOK now

/-- The assertion of `recursive_fill` that the children of the root spent no more time than the
root (profiler.h 167). -/
def PerThread.rootSumOK (pt : PerThread) (now : Nat) : Bool :=
  pt.kids.sum now ≤ pt.root.compute now

/-! ## The whole profiler -/

/-- `ProfilingReport` (profiler.h 71-76); the vector of threads as a map from thread ids. -/
structure ProfilingReport where
  thread : Tid → Option ThreadReport
  profilingOverhead : Int
  mutexOverhead : Int
  reportingOverhead : Int

/-- `State` (profiler.h 78-125), with `scopes`, the scopes which the code of each thread is in
(innermost first: the `ScopedStateMaintainer` objects alive in that thread), `clock`, the last value
of `Now()` under the mutex, and `failed`, whether an assertion of `EnterScope` or `LeaveScope` has
failed. -/
structure State where
  th : Tid → Option PerThread
  total : Nat
  reporting : Nat
  mutex : Nat
  scopes : Tid → List Key
  clock : Nat
  failed : Bool

/-- The profiler before its first use. -/
def State.init : State :=
  { th := fun _ => none, total := 0, reporting := 0, mutex := 0, scopes := fun _ => [], clock := 0,
    failed := false }

/-- One call.  `pre`, `post` and `fin` are the three clock readings of `Guarded` (profiler.h
236-242), `crt` is the reading of the constructor of `PerThread` (profiler.h 115), not used when
the thread is known already. -/
inductive Act where
  /-- A `ScopedStateMaintainer` is constructed (profiler.h 255-259). -/
  | enter (t : Tid) (k : Key) (pre post crt fin : Nat)
  /-- The innermost `ScopedStateMaintainer` of the thread is destroyed (profiler.h 260). -/
  | leave (t : Tid) (pre post crt fin : Nat)
  /-- `Report` with `?reset` (profiler.h 220-222); each thread is reset at its own reading of the
  clock (profiler.h 128-130). -/
  | reset (t : Tid) (pre post crt : Nat) (at_ : Tid → Nat) (fin : Nat)
  /-- `Report` (profiler.h 223-228): `a` and `b` are `pre_report` and `post_report`, `now` is the
  clock in `GenerateReport` (profiler.h 133). -/
  | report (t : Tid) (pre post crt a now b fin : Nat)

/-- `state_.per_thread[std::this_thread::get_id()]` (profiler.h 240). -/
def touch (th : Tid → Option PerThread) (t : Tid) (crt : Nat) : PerThread :=
  (th t).getD (PerThread.new crt)

/-- The reading of the clock at which a thread is reset, some time between `crt` and `fin`:
`at_ t`, if that is between them (so every choice of readings is possible). -/
def resetTime (crt fin : Nat) (at_ : Tid → Nat) (t : Tid) : Nat :=
  max (crt + 1) (min (at_ t) (fin - 1))

/-- Update of a finite map. -/
def put {β : Type} (f : Tid → β) (t : Tid) (v : β) : Tid → β := fun t' => if t' = t then v else f t'

/-- The bookkeeping after the guarded code (profiler.h 241-243). -/
def State.account (s : State) (pre post fin : Nat) : State :=
  { s with total := s.total + (fin - pre), mutex := s.mutex + (post - pre), clock := fin }

/-- `GenerateReport` (profiler.h 132-185). -/
def State.generate (s : State) (now : Nat) : ProfilingReport :=
  { thread := fun t => (s.th t).map (·.report now)
    profilingOverhead := (s.total : Int) - s.reporting
    mutexOverhead := s.mutex
    reportingOverhead := s.reporting }

/-- One call under the mutex, `Guarded` (profiler.h 234-243).  `none`: the clock readings are
impossible, or there is no scope to leave. -/
def step (s : State) : Act → Option State
  | .enter t k pre post crt fin =>
    if pre < post ∧ s.clock < post ∧ post < crt ∧ crt < fin ∧ k ≠ 0 then
      let pt := touch s.th t crt
      some (({ s with
        th := put s.th t (some (pt.enter k post))
        scopes := put s.scopes t (k :: s.scopes t)
        failed := s.failed || !pt.enterOK k post } : State).account pre post fin)
    else none
  | .leave t pre post crt fin =>
    match s.scopes t with
    | [] => none
    | k :: rest =>
      if pre < post ∧ s.clock < post ∧ post < crt ∧ crt < fin then
        let pt := touch s.th t crt
        some (({ s with
          th := put s.th t (some (pt.leave post))
          scopes := put s.scopes t rest
          failed := s.failed || !pt.leaveOK k post } : State).account pre post fin)
      else none
  | .reset t pre post crt at_ fin =>
    if pre < post ∧ s.clock < post ∧ post < crt ∧ crt + 1 < fin then
      let th := put s.th t (some (touch s.th t crt))
      some (({ s with
        th := fun t' => (th t').map (·.reset (resetTime crt fin at_ t'))
        total := 0, reporting := 0, mutex := 0 } : State).account pre post fin)
    else none
  | .report t pre post crt a now b fin =>
    if pre < post ∧ s.clock < post ∧ post < crt ∧ crt < a ∧ a < now ∧ now < b ∧ b < fin then
      let th := put s.th t (some (touch s.th t crt))
      some (({ s with th := th, reporting := s.reporting + (b - a) } : State).account pre post fin)
    else none

/-- The response to a request for a report (profiler.h 223-225). -/
def response (s : State) : Act → Option ProfilingReport
  | .report t _ _ crt _ now _ _ =>
    some (({ s with th := put s.th t (some (touch s.th t crt)) } : State).generate now)
  | _ => none

end Current.Profiler
