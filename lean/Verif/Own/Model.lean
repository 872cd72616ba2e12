/-!
Model of `Owned<T>` / `Borrowed<T>`: `bricks/sync/owned_borrowed.h`.

One `UniqueInstance<T>` (lines 80-153), the `Owned` object holding it and any number of borrower objects ("handles"),
created, copied, moved and destroyed by any number of threads. Every section under `mutex_` is one action, and so is
every access to the instance outside of the lock. The destructor of the instance (lines 88-113) is a program counter of its own.

A handle's key `0` stands for "not registered", as in the code (line 277).

Not modelled: the contents of `T`; the bodies of the callbacks (whatever they do is further actions of the scheduler);
`ExclusiveUse` (it is `use` under the lock); moves of the `Owned` object itself (they move a `unique_ptr` and leave the instance alone).
Misuse that C++ already makes undefined (two threads acting on one handle at the same time, borrowing from an `Owned` whose
destructor has begun) is not an action of the model.
-/
namespace Current.Own

/-- A borrower object. -/
inductive HSt where
  | none                   -- no such object
  | live (key : Nat)       -- `p_actual_instance_` is set
  | null                   -- `p_actual_instance_ == nullptr`: moved away, or assigned `nullptr`
  | notifying              -- inside `UnRegisterBorrower`, between the unlock (line 137) and `notify_one` (line 139)
  deriving DecidableEq, Repr

/-- Where the destructor of the instance is. -/
inductive DPc where
  | idle                         -- not begun
  | marked                       -- `destructing_ = true` done (line 90)
  | calling (cbs : List Nat)     -- callbacks collected (lines 93-99), these are still to be called (lines 102-104)
  | check                        -- about to evaluate the predicate under the lock (lines 108-109)
  | sleeping                     -- blocked in the condition variable
  | freed                        -- destructor returned, memory gone
  deriving DecidableEq, Repr

/-- What touched the instance after it was destroyed. -/
inductive Bad where
  | use | borrow | move | unregister | notify
  | nullDeref       -- an access through a null `p_actual_instance_`
  | assertion       -- `CURRENT_ASSERT(it != borrowers_.end())`, line 133
  deriving DecidableEq, Repr

structure St where
  destructing : Bool
  regs : List (Nat × Nat)      -- `borrowers_`: key → callback
  total : Nat                  -- `total_borrowers_spawned_throughout_lifetime_`
  h : Nat → HSt
  owner : Bool                 -- the `Owned` object still holds its pointer
  d : DPc
  called : List Nat            -- callbacks called by the destructor, in order
  bad : List Bad

def St.init : St :=
  { destructing := false, regs := [], total := 0, h := fun _ => .none, owner := true, d := .idle, called := [], bad := [] }

def upd (f : Nat → HSt) (i : Nat) (v : HSt) : Nat → HSt := fun j => if j = i then v else f j

/-- `borrowers_[key] = callback`. -/
def setReg : List (Nat × Nat) → Nat → Nat → List (Nat × Nat)
  | [], k, c => [(k, c)]
  | (k', c') :: r, k, c => if k' = k then (k, c) :: r else if k < k' then (k, c) :: (k', c') :: r else (k', c') :: setReg r k c

def St.hurt (s : St) (b : Bad) : St := { s with bad := s.bad ++ [b] }

inductive Act where
  | borrowOwner (dst cb : Nat)         -- `Borrowed<T> b(owned)`, lines 183-187
  | borrow (src dst cb : Nat)          -- `Borrowed<T> b(another_borrower)`, lines 183-187
  | move (src dst cb : Nat)            -- `Borrowed<T> b(std::move(a))`, lines 189-207
  | moveOwner (dst cb : Nat)           -- `Borrowed<T> b(std::move(owned))`, lines 189-207
  | moveAssign (src dst cb : Nat)      -- `b = std::move(a)`, lines 401-404, 200-207
  | use (src : Nat)                    -- `*b`, `b->`
  | release (src : Nat)                -- `~WeakBorrowed` or `b = nullptr`: lines 262-275 up to line 137
  | notify (src : Nat)                 -- line 139
  | destroy                            -- one action of the destructor of the instance
  | spurious                           -- a spurious wake-up
  deriving DecidableEq, Repr

/-- Register a borrower as `dst`: lines 118-121, 183-187. -/
def St.register (s : St) (dst cb : Nat) : St :=
  { s with total := s.total + 1, regs := setReg s.regs (s.total + 1) cb, h := upd s.h dst (.live (s.total + 1)) }

/-- Key `k` goes from `src` to `dst`: `MoveFrom`, lines 200-207. -/
def St.moveKey (s : St) (src dst k cb : Nat) : St :=
  { s with regs := setReg s.regs k cb, h := upd (upd s.h dst (.live k)) src .null }

/-- One action of the destructor, lines 88-113. -/
def St.destroy (s : St) : Option St :=
  match s.d with
  | .idle => some { s with destructing := true, d := .marked, owner := false }
  | .marked => some { s with d := .calling (s.regs.map (·.2)) }
  | .calling [] => some { s with d := .check }
  | .calling (c :: cs) => some { s with d := .calling cs, called := s.called ++ [c] }
  | .check => if s.regs = [] then some { s with d := .freed } else some { s with d := .sleeping }
  | .sleeping => none
  | .freed => none

def step (s : St) : Act → Option St
  | .borrowOwner dst cb =>
    if s.owner = true ∧ s.h dst = .none then some (s.register dst cb) else none
  | .borrow src dst cb =>
    if s.h dst ≠ .none then none else
    match s.h src with
    | .live _ => if s.d = .freed then some (s.hurt .borrow) else some (s.register dst cb)
    | .null => some (s.hurt .nullDeref)
    | _ => none
  | .move src dst cb =>
    if s.h dst ≠ .none then none else
    match s.h src with
    | .live k => if s.d = .freed then some (s.hurt .move) else some (s.moveKey src dst k cb)
    | .null => some (s.hurt .nullDeref)
    | _ => none
  | .moveOwner dst cb =>
    if s.owner = true ∧ s.h dst = .none then
      some { s with regs := setReg s.regs 0 cb, h := upd s.h dst (.live 0), owner := false }
    else none
  | .moveAssign src dst cb =>
    if s.h dst = .none ∨ s.h dst = .notifying then none else
    match s.h src with
    | .live k => if s.d = .freed then some (s.hurt .move) else some (s.moveKey src dst k cb)
    | .null => some (s.hurt .nullDeref)
    | _ => none
  | .use src =>
    match s.h src with
    | .live _ => if s.d = .freed then some (s.hurt .use) else some s
    | .null => some (s.hurt .nullDeref)
    | _ => none
  | .release src =>
    match s.h src with
    | .live k =>
      if k = 0 then some { s with h := upd s.h src .null }
      else if s.d = .freed then some (s.hurt .unregister)
      else if k ∉ s.regs.map (·.1) then some (s.hurt .assertion)
      else
        let regs := s.regs.filter (·.1 ≠ k)
        some { s with regs := regs, h := upd s.h src (if regs = [] then .notifying else .null) }
    | .null => some { s with h := upd s.h src .none }
    | _ => none
  | .notify src =>
    match s.h src with
    | .notifying =>
      if s.d = .freed then some ({ s with h := upd s.h src .null }.hurt .notify)
      else some { s with h := upd s.h src .null, d := if s.d = .sleeping then .check else s.d }
    | _ => none
  | .destroy => s.destroy
  | .spurious => if s.d = .sleeping then some { s with d := .check } else none

def run : St → List Act → Option St
  | s, [] => some s
  | s, a :: as =>
    match step s a with
    | some s' => run s' as
    | none => none

/-- `IsValid()` / `operator bool`, line 219. -/
def St.isValid (s : St) (i : Nat) : Bool :=
  match s.h i with
  | .live _ => !s.destructing
  | _ => false

/-- `NumberOfActiveBorrowers()`, lines 250-253. -/
def St.numBorrowers (s : St) : Nat := s.regs.length

def Reachable (s : St) : Prop := ∃ as, run St.init as = some s

end Current.Own
