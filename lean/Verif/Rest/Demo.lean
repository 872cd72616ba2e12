import Verif.Rest.Cond
/-!
Concrete requests, and what they find (C78, C79, C80).
-/
namespace Current.Rest
open Current.Persist Current.Url Current.Strings Current.Storage

abbrev DemoSt := Storage Bool Nat Nat Nat (Nat × Nat × Nat) Nat

def digit (c : Char) : Nat := c.toNat - 48

def digitsOf : Str → Nat
  | [] => 0
  | c :: _ => digit c

/-- Keys and entries are written in digits. -/
def demoApi (fl : Flavor) : Api Nat Nat Nat (Nat × Nat × Nat) where
  flavor := fl
  parseKey := fun
    | .one k => .one (digitsOf k)
    | .cell r c => .cell (digitsOf r) (digitsOf c)
  parseJSON := fun
    | [a, b, c] => some (digit a, digit b, digit c)
    | _ => none
  patchJSON := fun e => fun
    | [c] => some (e.1, e.2.1, digit c)
    | [a, b, c] => some (digit a, digit b, digit c)
    | _ => none
  parseDate := fun _ => none
  initializes := true
  fits := fun n => decide (n ≤ 1000)
  json := fun e => dec e.1
  jsonDetailed := fun _ _ e => dec e.1
  hash := fun
    | .one k => k
    | .cell r c => r + c

def demoEnv (n : Int) : Env (Nat × Nat × Nat) where
  clock := ⟨n, n + 1, n + 2⟩
  ticks := ⟨n, n, n⟩
  init := id

def header (t : Str) : Str → Option Str := fun h => if h = hCurrentIus then some t else none

/-- Serving one after another, collecting the codes. -/
def demoServe (fl : Flavor) : DemoSt → List (Bool × Int × Req) → Option (DemoSt × List Nat)
  | st, [] => some (st, [])
  | st, (f, n, req) :: l =>
    match serve (demoApi fl) demoSchema f st (demoEnv n) req with
    | none => none
    | some (st', r) => (demoServe fl st' l).map fun x => (x.1, r.code :: x.2)

structure DemoSeen where
  at1 : Option (Nat × Nat × Nat)
  lm1 : Option Time
  at4 : Option (Nat × Nat × Nat)
  codes : List Nat
  deriving DecidableEq

/-- The entry under the key 1, the time of its modification, the entry under the key 4, the codes. -/
def demoShow (l : List (Bool × Int × Req)) : Option DemoSeen :=
  (demoServe .hypermedia (Storage.fresh demoKinds) l).map fun x =>
    ⟨entryAt (x.1.fields false) (.one 1), lastMod (x.1.fields false) (.one 1), entryAt (x.1.fields false) (.one 4), x.2⟩

/-- **C78.** All the methods on a dictionary. -/
theorem demo_dictionary :
    demoShow [
      (false, 10, { method := .get, args := [['1']] }),
      (false, 20, { method := .put, args := [['1']], body := ['1', '1', '7'] }),
      (false, 30, { method := .put, args := [['1']], body := ['1', '1', '8'] }),
      (false, 40, { method := .put, args := [['1']], body := ['2', '1', '8'] }),
      (false, 50, { method := .get, args := [['1']] }),
      (false, 60, { method := .patch, args := [['1']], body := ['9'] }),
      (false, 70, { method := .patch, args := [['3']], body := ['9'] }),
      (false, 80, { method := .post, body := ['4', '1', '5'] }),
      (false, 90, { method := .post, body := ['4', '1', '6'] }),
      (false, 100, { method := .delete, args := [['1']] }),
      (false, 110, { method := .delete, args := [['1']] }),
      (false, 120, { method := .put, body := ['1', '1', '8'] }),
      (false, 130, { method := .other })] =
    some ⟨none, some 100, some (4, 1, 5), [404, 201, 200, 400, 200, 200, 404, 201, 409, 200, 200, 400, 405]⟩ := by
  decide +kernel

/-- **C79.** A conditional PUT is refused after the entry was modified, and accepted if it was not. -/
theorem demo_conditional :
    demoShow [
      (false, 10, { method := .put, args := [['1']], body := ['1', '1', '7'] }),
      (false, 20, { method := .put, args := [['1']], body := ['1', '1', '8'], headers := header ['1', '0'] }),
      (false, 30, { method := .put, args := [['1']], body := ['1', '1', '9'], headers := header ['1', '0'] }),
      (false, 40, { method := .patch, args := [['1']], body := ['9'], headers := header ['1', '9'] }),
      (false, 50, { method := .delete, args := [['1']], headers := header ['1', '9'] }),
      (false, 60, { method := .delete, args := [['1']], headers := header ['0'] }),
      (false, 70, { method := .delete, args := [['1']], headers := header ['2', '0'] })] =
    some ⟨none, some 70, none, [201, 200, 412, 412, 412, 400, 200]⟩ := by
  decide +kernel

/-- **C79, what is not promised.** The client saw the entry; it was deleted since; the conditional PUT of the client brings it back, and the response is that of a new entry. -/
theorem put_after_delete :
    demoShow [
      (false, 10, { method := .put, args := [['1']], body := ['1', '1', '7'] }),
      (false, 20, { method := .delete, args := [['1']] }),
      (false, 30, { method := .put, args := [['1']], body := ['1', '1', '8'], headers := header ['1', '0'] })] =
    some ⟨some (1, 1, 8), some 30, none, [201, 200, 201]⟩ := by
  decide +kernel

/-- **C79, what is not promised.** In a one-to-one container a PUT of a new entry erases those in its row and its column: the times in the header are not compared with theirs, and
the response does not tell. -/
theorem put_erases_others : ∃ st st' : DemoSt, ∃ codes codes',
    demoServe .hypermedia (Storage.fresh demoKinds) [
      (true, 10, { method := .put, args := [['1'], ['1']], body := ['1', '1', '7'] }),
      (true, 20, { method := .put, args := [['2'], ['2']], body := ['2', '2', '7'] })] = some (st, codes) ∧
    demoServe .hypermedia st [(true, 30, { method := .put, args := [['1'], ['2']], body := ['1', '2', '8'], headers := header ['5'] })] = some (st', codes') ∧
    codes = [201, 201] ∧ codes' = [201] ∧
    entryAt (st.fields true) (.cell 1 1) = some (1, 1, 7) ∧ entryAt (st.fields true) (.cell 2 2) = some (2, 2, 7) ∧
    entryAt (st'.fields true) (.cell 1 1) = none ∧ entryAt (st'.fields true) (.cell 2 2) = none ∧ entryAt (st'.fields true) (.cell 1 2) = some (1, 2, 8) :=
  ⟨_, _, _, _, rfl, rfl, by decide +kernel⟩

/-- What a follower has after three entries. -/
def demoFollower : DemoSt :=
  { fields := fun f => if f then .matrix Matrix.oneToOne else .dict ⟨[(1, (1, 1, 1)), (2, (2, 1, 1)), (3, (3, 1, 1)), (4, (4, 1, 1))], [(1, 1), (2, 2), (3, 3), (4, 4)]⟩
    master := false }

def ask (n s : Str) : Query := fun k => if k = sExport then some sDetailed else if k = sNShards then some n else if k = sShard then some s else none

/-- **C80.** Shards of an export: each entry is in one of them. The third has none. -/
theorem demo_export :
    ([(['0'], ['0']), (['2'], ['0']), (['2'], ['1']), (['2'], ['2'])].map fun p =>
      (serve (demoApi .hypermedia) demoSchema false demoFollower (demoEnv 5) { method := .get, query := ask p.1 p.2 }).map fun x => x.2.body) =
    [some (.text ['[', '1', ',', '2', ',', '3', ',', '4', ']', '\n']), some (.text ['[', '2', ',', '4', ']', '\n']), some (.text ['[', '1', ',', '3', ']', '\n']),
     some (.text ['[', ']', '\n'])] := by
  decide +kernel

end Current.Rest
