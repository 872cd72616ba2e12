import Verif.Rip.Model
/-! What a flow should do, without threads, queues or clocks: each stage is a function from the list of messages it receives to
the list of calls it makes, and it receives what the previous stage sends. -/
namespace Current.Rip
variable {S M : Type}

/-- The object after the constructor and the calls `f(m)` for `m` in `ms`, and the calls made so far. -/
def ran (nd : Node S M) (ms : List M) : S × List (Cmd M) :=
  ms.foldl (fun p m => ((nd.f p.1 m).1, p.2 ++ (nd.f p.1 m).2)) nd.init

/-- All the calls of a stage, destructor included. -/
def outs (nd : Node S M) (ms : List M) : List (Cmd M) := (ran nd ms).2 ++ nd.fin (ran nd ms).1

/-- The message of a call. -/
def msgOf : Cmd M → Option M
  | .emit m => some m
  | .post _ m => some m
  | .schedule _ m => some m
  | .head _ => none

def msgs (cs : List (Cmd M)) : List M := cs.filterMap msgOf

/-- What stage `k` should receive. -/
def input (nodes : Nat → Node S M) : Nat → List M
  | 0 => []
  | k + 1 => msgs (outs (nodes k) (input nodes k))

def isEmit : Cmd M → Bool
  | .emit _ => true
  | _ => false

def isPost : Cmd M → Bool
  | .post _ _ => true
  | _ => false

def pairOf : Cmd M → Option (Int × M)
  | .post t m => some (t, m)
  | _ => none

def pairs (cs : List (Cmd M)) : List (Int × M) := cs.filterMap pairOf

/-- A stage that only calls `emit`. -/
def Clocked (nd : Node S M) : Prop := ∀ ms, ∀ c ∈ outs nd ms, isEmit c = true

/-- A stage that only calls `post`, with timestamps that are not negative and grow. -/
def Timed (nd : Node S M) : Prop :=
  ∀ ms, (∀ c ∈ outs nd ms, isPost c = true) ∧ (∀ p ∈ pairs (outs nd ms), 0 ≤ p.1) ∧
    (pairs (outs nd ms)).Pairwise (fun a b => a.1 < b.1)

/-- The flows the theorems are about: all the stages but the last only `emit`, or only `post` at growing times; the last one
has nowhere to send to (`RHSTypes<>`, enforced by the compiler). -/
structure Proper (nodes : Nat → Node S M) (n : Nat) : Prop where
  pos : 0 < n
  mode : ∀ i, i + 1 < n → Clocked (nodes i) ∨ Timed (nodes i)
  sink : ∀ ms, outs (nodes (n - 1)) ms = []

end Current.Rip
