import Verif.Rip.Model
import Mathlib.Data.List.Perm.Basic
/-!
Several threads emitting into the same queue. It happens when a user's class has threads of its own, and in a flow such as
`((A | B) + (C | D)) | E`, where `B` and `D` run in different threads and both send to `E`'s queue (`PassOnToNextA`/`B`, `ripcurrent.h:896-917`).
The receiving interface is meant for it: it "ASSUMES ALL USER CALLS ARE THREAD-UNSAFE" (`ripcurrent.h:220-226`).

Model of `emit<T>` (`ripcurrent.h:492-497`) and `OnThreadUnsafeEmitted` (`ripcurrent.h:715-725`) by any number of threads, with the consumer of the queue; the counters
are in `Verif/Rip/Model.lean`. `lost`: messages for which `HandleError` was called (the mocked one; the default one terminates the program).
-/
namespace Current.Rip
variable {M : Type}

structure EState (M : Type) where
  clock : Int
  hd : Int
  q : List (Int × M)
  pend : Nat → List M       -- messages thread `i` has yet to emit
  pc : Nat → Pc M
  delivered : List (Int × M)
  lost : List M

inductive EAct where
  | begin (i : Nat) (t : Int) | update (i : Nat) | publish (i : Nat) | take
  deriving DecidableEq

def estep (n : Nat) (s : EState M) : EAct → Option (EState M)
  -- `time::Now()`
  | .begin i t =>
    match s.pc i, s.pend i with
    | .idle, m :: rest =>
      if i < n ∧ s.clock < t then some { s with clock := t, pc := upd s.pc i (.stamped t m), pend := upd s.pend i rest } else none
    | _, _ => none
  -- `mmpq_.UpdateHead(t)`
  | .update i =>
    match s.pc i with
    | .stamped t m =>
      if s.hd < t then some { s with hd := t, pc := upd s.pc i (.due t m) }
      else some { s with pc := upd s.pc i .idle, lost := s.lost ++ [m] }
    | _ => none
  -- `mmpq_.Publish(std::move(x), t)`
  | .publish i =>
    match s.pc i with
    | .due t m => some { s with q := emplace (t, m) s.q, pc := upd s.pc i .idle }
    | _ => none
  -- the queue's thread
  | .take =>
    match s.q with
    | e :: rest => if e.1 ≤ s.hd then some { s with q := rest, delivered := s.delivered ++ [e] } else none
    | [] => none

def erun (n : Nat) : EState M → List EAct → Option (EState M)
  | s, [] => some s
  | s, a :: as =>
    match estep n s a with
    | some s' => erun n s' as
    | none => none

def einit (pend : Nat → List M) : EState M where
  clock := 0
  hd := -1
  q := []
  pend := pend
  pc := fun _ => .idle
  delivered := []
  lost := []

def inFlight : Pc M → List M
  | .stamped _ m => [m]
  | .due _ m => [m]
  | _ => []

/-- What the threads have yet to get through `emit`. -/
def owed (n : Nat) (s : EState M) : List M := (List.range n).flatMap (fun i => inFlight (s.pc i) ++ s.pend i)

def stampOf : Pc M → Option Int
  | .stamped t _ => some t
  | .due t _ => some t
  | _ => none

structure EInv (n : Nat) (pend : Nat → List M) (s : EState M) : Prop where
  all : ((List.range n).flatMap pend).Perm (s.delivered.map (·.2) ++ s.q.map (·.2) ++ s.lost ++ owed n s)
  small : ∀ i t, stampOf (s.pc i) = some t → t ≤ s.clock
  distinct : ∀ i j t, i ≠ j → stampOf (s.pc i) = some t → stampOf (s.pc j) ≠ some t
  notIn : ∀ i t, stampOf (s.pc i) = some t → ∀ e ∈ s.q, e.1 ≠ t
  qsmall : ∀ e ∈ s.q, e.1 ≤ s.clock
  due : ∀ i t m, s.pc i = .due t m → t ≤ s.hd
  qdue : ∀ e ∈ s.q, e.1 ≤ s.hd
  kinds : ∀ i t m, s.pc i ≠ .called t m ∧ s.pc i ≠ .sched t m
  noHead : ∀ i t, s.pc i ≠ .headOnly t
  bound : ∀ i, s.pc i ≠ .idle → i < n

theorem flatMap_move {f g : Nat → List M} {i : Nat} {x : List M} (hi : (f i).Perm (x ++ g i)) (hj : ∀ j, j ≠ i → f j = g j) :
    ∀ {n : Nat}, i < n → ((List.range n).flatMap f).Perm (x ++ (List.range n).flatMap g)
  | n + 1, h => by
    rw [List.range_succ, List.flatMap_append, List.flatMap_append]
    simp only [List.flatMap_cons, List.flatMap_nil, List.append_nil]
    by_cases hin : i = n
    · subst hin
      have e : (List.range i).flatMap f = (List.range i).flatMap g := by
        apply List.flatMap_congr
        intro j hj'
        exact hj j (by have := List.mem_range.mp hj'; omega)
      rw [e]
      refine (List.Perm.append_left _ hi).trans ?_
      rw [← List.append_assoc, ← List.append_assoc]
      exact List.perm_append_comm.append_right _
    · rw [hj n (by omega), ← List.append_assoc]
      exact (flatMap_move hi hj (n := n) (by omega)).append_right _

theorem emplace_perm {e : Int × M} : ∀ {q : List (Int × M)}, (∀ x ∈ q, x.1 ≠ e.1) → (emplace e q).Perm (q ++ [e])
  | [], _ => List.Perm.refl _
  | x :: xs, h => by
    have hx := h x (by simp)
    rw [emplace]
    split
    · exact (List.perm_append_singleton e (x :: xs)).symm
    · rw [if_pos (by omega)]
      exact (emplace_perm (fun y hy => h y (by simp [hy]))).cons x

theorem mem_emplace {e x : Int × M} : ∀ {q : List (Int × M)}, x ∈ emplace e q → x = e ∨ x ∈ q
  | [], h => by simp [emplace] at h; exact .inl h
  | y :: ys, h => by
    rw [emplace] at h
    split at h
    · grind
    · split at h
      · have := @mem_emplace e x ys
        grind
      · exact .inr h

theorem einv_init (n : Nat) (pend : Nat → List M) : EInv n pend (einit pend) := by
  constructor <;> simp [einit, stampOf, owed, inFlight]

theorem einv_step {n : Nat} {pend : Nat → List M} {s s' : EState M} {a : EAct} (hi : EInv n pend s)
    (h : estep n s a = some s') : EInv n pend s' := by
  obtain ⟨h1, h2, h3, h4, h5, h6, h7, h8, h8b, h9⟩ := hi
  cases a with
  | begin i t =>
    simp only [estep] at h
    split at h
    · rename_i m rest hpc hpd
      split at h
      · rename_i hc
        injection h with h; subst h
        refine ⟨?_, ?_, ?_, ?_, ?_, ?_, ?_, ?_, ?_, ?_⟩
        · refine h1.trans (List.Perm.append_left _ ?_)
          have : owed n s = owed n { s with clock := t, pc := upd s.pc i (.stamped t m), pend := upd s.pend i rest } := by
            unfold owed
            congr 1
            funext j
            by_cases hij : j = i
            · subst hij; simp [upd, hpc, hpd, inFlight]
            · simp [upd, hij]
          rw [this]
        all_goals clear h1
        all_goals grind [upd, stampOf]
      · simp at h
    · simp at h
  | update i =>
    simp only [estep] at h
    split at h
    · rename_i t m hpc
      have hin := h9 i (by simp [hpc])
      split at h
      · injection h with h; subst h
        refine ⟨?_, ?_, ?_, ?_, ?_, ?_, ?_, ?_, ?_, ?_⟩
        · refine h1.trans (List.Perm.append_left _ ?_)
          have : owed n s = owed n { s with hd := t, pc := upd s.pc i (.due t m) } := by
            unfold owed
            congr 1
            funext j
            by_cases hij : j = i
            · subst hij; simp [upd, hpc, inFlight]
            · simp [upd, hij]
          rw [this]
        all_goals clear h1
        all_goals grind [upd, stampOf]
      · injection h with h; subst h
        refine ⟨?_, ?_, ?_, ?_, ?_, ?_, ?_, ?_, ?_, ?_⟩
        · refine h1.trans ?_
          rw [← List.append_assoc (_ ++ _) s.lost [m], List.append_assoc (_ ++ _ ++ _) [m] _]
          refine List.Perm.append_left _ ?_
          unfold owed
          refine flatMap_move (i := i) (x := [m]) ?_ ?_ hin
          · simp [upd, hpc, inFlight]
          · intro j hj; simp [upd, hj]
        all_goals clear h1
        all_goals grind [upd, stampOf]
    · simp at h
  | publish i =>
    simp only [estep] at h
    split at h
    · rename_i t m hpc
      have hin := h9 i (by simp [hpc])
      injection h with h; subst h
      have hnot := h4 i t (by simp [hpc, stampOf])
      refine ⟨?_, ?_, ?_, ?_, ?_, ?_, ?_, ?_, ?_, ?_⟩
      · refine h1.trans ?_
        have e1 : (owed n s).Perm ([m] ++ owed n { s with q := emplace (t, m) s.q, pc := upd s.pc i .idle }) := by
          unfold owed
          refine flatMap_move (i := i) (x := [m]) ?_ ?_ hin
          · simp [upd, hpc, inFlight]
          · intro j hj; simp [upd, hj]
        refine (List.Perm.append_left _ e1).trans ?_
        have e2 : ((emplace (t, m) s.q).map (·.2)).Perm (s.q.map (·.2) ++ [m]) := by
          have := (emplace_perm (e := (t, m)) hnot).map (·.2)
          simpa using this
        rw [← List.append_assoc]
        refine List.Perm.append_right _ ?_
        refine List.Perm.trans ?_ ((List.Perm.append_left _ e2.symm).append_right _)
        rw [List.append_assoc, List.append_assoc, List.append_assoc, List.append_assoc]
        refine List.Perm.append_left _ (List.Perm.append_left _ List.perm_append_comm)
      all_goals clear h1
      · grind [upd, stampOf]
      · grind [upd, stampOf]
      · intro j t' hj e he
        by_cases hij : j = i
        · subst hij; simp [upd, stampOf] at hj
        · simp only [upd, hij, if_false] at hj
          rcases mem_emplace he with rfl | he
          · have := h3 i j t (by omega) (by simp [hpc, stampOf])
            intro hh
            simp only at hh
            subst hh
            exact this hj
          · exact h4 j t' hj e he
      · intro e he
        rcases mem_emplace he with rfl | he
        · exact h2 i t (by simp [hpc, stampOf])
        · exact h5 e he
      · grind [upd]
      · intro e he
        rcases mem_emplace he with rfl | he
        · exact h6 i t m hpc
        · exact h7 e he
      · grind [upd]
      · grind [upd]
      · grind [upd]
    · simp at h
  | take =>
    simp only [estep] at h
    split at h
    · rename_i e rest hq
      split at h
      · injection h with h; subst h
        refine ⟨?_, ?_, ?_, ?_, ?_, ?_, ?_, ?_, ?_, ?_⟩
        · rw [hq] at h1
          simpa [owed] using h1
        all_goals clear h1
        all_goals grind
      · simp at h
    · simp at h

theorem einv_run {n : Nat} {pend : Nat → List M} : ∀ (as : List EAct) {s s' : EState M}, EInv n pend s → erun n s as = some s' →
    EInv n pend s'
  | [], s, s', hi, h => by simp only [erun] at h; injection h with h; subst h; exact hi
  | a :: as, s, s', hi, h => by
    simp only [erun] at h
    cases hs : estep n s a with
    | none => rw [hs] at h; simp at h
    | some s1 => rw [hs] at h; exact einv_run as (einv_step hi hs) h

/-- **Delivered or reported.** Threads `0 … n-1` emit the messages `pend 0`, …, `pend (n-1)`, in any interleaving. When nothing more can happen, each
message has been delivered exactly once or lost with a call of the error handler, never both, never neither. (Full property: all are delivered, those of each
thread in order. It is false: `concurrent_emit_is_lost`, `concurrent_emits_swap`.) -/
theorem delivered_or_reported_partial {n : Nat} {pend : Nat → List M} {as : List EAct} {s : EState M}
    (h : erun n (einit pend) as = some s) (hq : ∀ a, estep n s a = none) :
    ((List.range n).flatMap pend).Perm (s.delivered.map (·.2) ++ s.lost) := by
  have hi := einv_run as (einv_init n pend) h
  have hqe : s.q = [] := by
    cases hs : s.q with
    | nil => rfl
    | cons e rest =>
      have := hq .take
      simp [estep, hs, hi.qdue e (by simp [hs])] at this
  have hpc : ∀ i, s.pc i = .idle := by
    intro i
    cases hc : s.pc i with
    | idle => rfl
    | stamped t m =>
      have := hq (.update i)
      simp only [estep, hc] at this
      split at this <;> simp at this
    | due t m => have := hq (.publish i); simp [estep, hc] at this
    | called t m => exact absurd hc (hi.kinds i t m).1
    | sched t m => exact absurd hc (hi.kinds i t m).2
    | headOnly t => exact absurd hc (hi.noHead i t)
  have how : owed n s = [] := by
    unfold owed
    rw [List.flatMap_eq_nil_iff]
    intro i hin
    rw [hpc i]
    cases hp : s.pend i with
    | nil => rfl
    | cons m rest =>
      have := hq (.begin i (s.clock + 1))
      have hlt : i < n := List.mem_range.mp hin
      simp [estep, hpc i, hp, hlt] at this
      omega
  have h1 := hi.all
  rw [hqe, how] at h1
  simpa using h1

/-- **A message emitted while another thread emits may be lost**: thread 0 takes the time first, thread 1 moves the head first. -/
theorem concurrent_emit_is_lost : ∃ s, erun 2 (einit (fun i => [i])) [.begin 0 1, .begin 1 2, .update 1, .publish 1, .take, .update 0] = some s ∧
    s.delivered = [(2, 1)] ∧ s.lost = [0] := by
  refine ⟨_, rfl, ?_, ?_⟩ <;> decide +kernel

/-- **Messages of two threads may be delivered against their timestamps**: between `UpdateHead` and `Publish` of one thread, the other one does both, and its message
is delivered. -/
theorem concurrent_emits_swap :
    ∃ s, erun 2 (einit (fun i => [i])) [.begin 0 1, .update 0, .begin 1 2, .update 1, .publish 1, .take, .publish 0, .take] = some s ∧
    s.delivered = [(2, 1), (1, 0)] ∧ s.lost = [] := by
  refine ⟨_, rfl, ?_, ?_⟩ <;> decide +kernel

end Current.Rip
