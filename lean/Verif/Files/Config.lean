import Verif.Time.DateText
/-!
`SelfModifyingConfig` (`blocks/self_modifying_config/config.h`): C88.

`JSON` and `ParseJSON` of the config are parameters; that a config written is read back is C62.
-/
namespace Current.Config
open Current.Persist (Str)
open Current.HttpDate (format FitsUs)

/-! ### Model -/

/-- The files, by name. -/
abbrev Files := Str → Option Str

def put (fs : Files) (name contents : Str) : Files := fun n => if n = name then some contents else fs n

/-- How a call of `WriteStringToFile` (`bricks/file/file.h:117-126`) goes. What does not fit into the buffer of the stream is written by
`<<`, and a failure is an exception; the rest is written by the destructor of the stream, which reports nothing. -/
inductive Write where
  /-- all is written -/
  | done
  /-- the file cannot be opened: an exception -/
  | refused
  /-- the file has been truncated, and the first `k` characters are written, no more; `loud`: an exception -/
  | short (k : Nat) (loud : Bool)
deriving DecidableEq, Repr

/-- `WriteStringToFile`: the files after it, and whether it returned without an exception. -/
def write (w : Write) (fs : Files) (name contents : Str) : Files × Bool :=
  match w with
  | .done => (put fs name contents, true)
  | .refused => (fs, false)
  | .short k loud => (put fs name (contents.take k), !loud)

section
variable {C : Type}

/-- What the config is read and written with. -/
structure Codec (C : Type) where
  json : C → Str
  parse : Str → Option C

/-- The files, and `config_`. -/
structure St (C : Type) where
  files : Files
  config : C

/-- `config.h:54` -/
def fmtHistory : Str := ['.', '%', 'Y', '%', 'm', '%', 'd', '-', '%', 'H', '%', 'M', '%', 'S']

/-- `HistoricalFilename` (`config.h:52-55`). -/
def historical (filename : Str) (now : Int) : Str := filename ++ format now fmtHistory

/-- `Reload` (`config.h:73-93`), from the files alone; `none`: an exception. -/
def reload (c : Codec C) (filename : Str) (fs : Files) : Option C := (fs filename).bind c.parse

/-- `Update` (`config.h:96-113`), with the fates of its two writes: the state after it, and whether it returned without an
exception. -/
def update (c : Codec C) (filename : Str) (w1 w2 : Write) (new : C) (now : Int) (st : St C) : St C × Bool :=
  let r := write w1 st.files (historical filename now) (c.json st.config)
  if r.2 then
    let q := write w2 r.1 filename (c.json new)
    (⟨q.1, new⟩, q.2)
  else (⟨r.1, st.config⟩, false)

/-- The constructor (`config.h:67-70`). `none`: an exception. -/
def construct (c : Codec C) (filename : Str) (w1 w2 : Write) (now : Int) (fs : Files) : Option (St C) :=
  match reload c filename fs with
  | none => none
  | some cfg =>
    let r := update c filename w1 w2 cfg now ⟨fs, cfg⟩
    if r.2 then some r.1 else none

/-- What can be found in the files if the process is killed during a call of `WriteStringToFile`. -/
def Killed (fs : Files) (name contents : Str) (fs' : Files) : Prop := fs' = fs ∨ ∃ k, fs' = put fs name (contents.take k)

/-- … and during `Update`, all its writes succeeding: in the first one, or in the second one. -/
def KilledInUpdate (c : Codec C) (filename : Str) (new : C) (now : Int) (st : St C) (fs' : Files) : Prop :=
  Killed st.files (historical filename now) (c.json st.config) fs' ∨
    Killed (put st.files (historical filename now) (c.json st.config)) filename (c.json new) fs'

/-- A sequence of updates, all writes succeeding. -/
def updates (c : Codec C) (filename : Str) : St C → List (C × Int) → St C
  | st, [] => st
  | st, (new, now) :: l => updates c filename (update c filename .done .done new now st).1 l

/-! ### The names of the history -/

open Current.HttpDate in
/-- `.YYYYMMDD-HHMMSS`. -/
theorem format_history {t : Int} {d : Day} {h m s : Nat} (ht : FitsUs t) (hmo : IsMoment (Int.tdiv t 1000000) d h m s) :
    format t fmtHistory = '.' :: (d4 d.year ++ (d2 d.month ++ (d2 d.day ++ '-' :: (d2 h ++ (d2 m ++ d2 s))))) := by
  have hf := fits_sec ht
  obtain ⟨y1, y2⟩ := moment_year hmo hf
  obtain ⟨m1, m2, d1, d2', w⟩ := moment_day hmo
  have hg := gmtime_moment hmo hf
  obtain ⟨-, a1, a2, a3, -⟩ := hmo
  have hi : items fmtHistory = [.lit '.', .year, .monthNo, .mday, .lit '-', .hour, .minute, .second] := by decide
  unfold format strftime
  rw [toTimeT_fits ht, hg, hi]
  simp only [List.flatMap_cons, List.flatMap_nil, printItem, two_eq _ (show d.day < 100 by omega), two_eq h (by omega), two_eq m (by omega),
    two_eq s (by omega), dec_four d.year (by omega) (by omega), show d.month - 1 + 1 = d.month from by omega, two_eq d.month (by omega),
    List.cons_append, List.nil_append, List.append_nil]

open Current.HttpDate in
/-- Two times have the same name exactly if they are in the same second. -/
theorem historical_inj (filename : Str) {t u : Int} (ht : FitsUs t) (hu : FitsUs u) (h0 : 0 ≤ t) (h1 : 0 ≤ u) :
    historical filename t = historical filename u ↔ t / 1000000 = u / 1000000 := by
  have et : Int.tdiv t 1000000 = t / 1000000 := Int.tdiv_eq_ediv_of_nonneg h0
  have eu : Int.tdiv u 1000000 = u / 1000000 := Int.tdiv_eq_ediv_of_nonneg h1
  constructor
  · intro h
    have h := List.append_cancel_left h
    obtain ⟨d, a, b, c, hmo⟩ := moment_exists (fits_sec ht)
    obtain ⟨d', a', b', c', hmo'⟩ := moment_exists (fits_sec hu)
    rw [format_history ht hmo, format_history hu hmo'] at h
    have e : defaultText d a b c = defaultText d' a' b' c' := by
      simp only [d4, d2, List.cons_append, List.nil_append, List.cons.injEq, true_and, and_true] at h
      simp only [defaultText, hms, d4, d2, List.cons_append, List.nil_append, h]
    have r1 := default_round_trip ht []
    have r2 := default_round_trip hu []
    rw [(format_text ht hmo).2.2, e, ← (format_text hu hmo').2.2, r2] at r1
    omega
  · intro h
    unfold historical format
    rw [toTimeT_fits ht, toTimeT_fits hu, et, eu, h]

open Current.HttpDate in
/-- The names of the history are not that of the config. -/
theorem historical_ne (filename : Str) {t : Int} (ht : FitsUs t) : historical filename t ≠ filename := by
  obtain ⟨d, a, b, c, hmo⟩ := moment_exists (fits_sec ht)
  intro h
  unfold historical at h
  rw [format_history ht hmo] at h
  have := congrArg List.length h
  simp at this

/-! ### Updates -/

theorem put_same (fs : Files) (n c : Str) : put fs n c n = some c := by simp [put]

theorem put_other (fs : Files) {n m : Str} (c : Str) (h : m ≠ n) : put fs n c m = fs m := by simp [put, h]

/-- **An update without errors**: the new config is in memory and in its file, the old one is in the file of the history, and all other
files are as they were. -/
theorem update_done (c : Codec C) (filename : Str) (new : C) (now : Int) (ht : FitsUs now) (st : St C) :
    (update c filename .done .done new now st).2 = true ∧ (update c filename .done .done new now st).1.config = new ∧
    (update c filename .done .done new now st).1.files filename = some (c.json new) ∧
    (update c filename .done .done new now st).1.files (historical filename now) = some (c.json st.config) ∧
    ∀ n, n ≠ filename → n ≠ historical filename now → (update c filename .done .done new now st).1.files n = st.files n := by
  have hne := historical_ne filename ht
  simp only [update, write, if_true]
  refine ⟨trivial, trivial, put_same _ _ _, ?_, fun n h1 h2 => ?_⟩
  · rw [put_other _ _ hne, put_same]
  · rw [put_other _ _ h1, put_other _ _ h2]

/-- **An update which fails to keep the old config** changes nothing: not what is in memory, and not the file. -/
theorem update_first_fails (c : Codec C) (filename : Str) (w1 w2 : Write) (new : C) (now : Int) (ht : FitsUs now) (st : St C)
    (h : (write w1 st.files (historical filename now) (c.json st.config)).2 = false) :
    (update c filename w1 w2 new now st).2 = false ∧ (update c filename w1 w2 new now st).1.config = st.config ∧
    ∀ n, n ≠ historical filename now → (update c filename w1 w2 new now st).1.files n = st.files n := by
  simp only [update]
  rw [if_neg (by rw [h]; decide)]
  refine ⟨rfl, rfl, fun n hn => ?_⟩
  cases w1 with
  | done => exact put_other _ _ hn
  | refused => rfl
  | short k loud => exact put_other _ _ hn

/-- **Killed during an update**: the old config is still there, whole, in the file of the config or in that of the history;
and all other files are as they were. -/
theorem update_killed (c : Codec C) (filename : Str) (new : C) (now : Int) (ht : FitsUs now) (st : St C)
    (hs : st.files filename = some (c.json st.config)) (fs' : Files) (h : KilledInUpdate c filename new now st fs') :
    (fs' filename = some (c.json st.config) ∨ fs' (historical filename now) = some (c.json st.config)) ∧
    ∀ n, n ≠ filename → n ≠ historical filename now → fs' n = st.files n := by
  have hne := historical_ne filename ht
  rcases h with (rfl | ⟨k, rfl⟩) | (rfl | ⟨k, rfl⟩)
  · exact ⟨.inl hs, fun _ _ _ => rfl⟩
  · exact ⟨.inl (by rw [put_other _ _ (Ne.symm hne)]; exact hs), fun n _ h2 => put_other _ _ h2⟩
  · exact ⟨.inr (put_same _ _ _), fun n _ h2 => put_other _ _ h2⟩
  · exact ⟨.inr (by rw [put_other _ _ hne, put_same]), fun n h1 h2 => by rw [put_other _ _ h1, put_other _ _ h2]⟩

/-- All times are in different seconds, and within the range of the clock. -/
def Seconds (ts : List Int) : Prop :=
  (∀ t ∈ ts, FitsUs t ∧ 0 ≤ t) ∧ ts.Pairwise fun t u => t / 1000000 ≠ u / 1000000

/-- **The history is complete** if no two updates are in the same second: at the end the config is the last one, in memory and in its
file, and for every update the file named after its time has the config it replaced. -/
theorem history (c : Codec C) (filename : Str) : ∀ (l : List (C × Int)) (st : St C), Seconds (l.map (·.2)) →
    st.files filename = some (c.json st.config) →
    (updates c filename st l).files filename = some (c.json (updates c filename st l).config) ∧
    (updates c filename st l).config = ((st.config :: l.map (·.1)).getLast (by simp)) ∧
    (∀ i (h : i < l.length), (updates c filename st l).files (historical filename (l[i]).2) =
      some (c.json ((st.config :: l.map (·.1))[i]'(by simp; omega)))) ∧
    ∀ n, n ≠ filename → (∀ t ∈ l.map (·.2), n ≠ historical filename t) → (updates c filename st l).files n = st.files n
  | [], st, _, hf => by
    refine ⟨hf, rfl, fun i h => (by simp at h), fun n _ _ => rfl⟩
  | (new, now) :: l, st, hs, hf => by
    obtain ⟨hr, hp⟩ := hs
    simp only [List.map_cons, List.pairwise_cons] at hp
    obtain ⟨ht, h0⟩ := hr now (by simp)
    obtain ⟨_, u2, u3, u4, u5⟩ := update_done c filename new now ht st
    obtain ⟨i1, i2, i3, i4⟩ := history c filename l (update c filename .done .done new now st).1
      ⟨fun t h => hr t (List.mem_cons_of_mem _ h), hp.2⟩ (by rw [u3, u2])
    have hnow : ∀ t ∈ l.map (·.2), historical filename now ≠ historical filename t := by
      intro t h e
      obtain ⟨a, b⟩ := hr t (List.mem_cons_of_mem _ h)
      exact hp.1 t h ((historical_inj filename ht a h0 b).1 e)
    simp only [updates]
    refine ⟨i1, ?_, fun i h => ?_, fun n h1 h2 => ?_⟩
    · rw [i2]
      simp only [u2]
      rfl
    · cases i with
      | zero =>
        rw [show ((new, now) :: l)[0].2 = now from rfl, i4 _ (historical_ne filename ht) hnow, u4]
        rfl
      | succ i =>
        have := i3 i (by simpa using h)
        simp only [List.getElem_cons_succ, u2] at this ⊢
        exact this
    · rw [i4 n h1 fun t h => h2 t (List.mem_cons_of_mem _ h), u5 n h1 (h2 now (by simp))]

/-- **Starting again**: a config which was written is read back, by the constructor as well as by `Reload`. -/
theorem restart (c : Codec C) (hc : ∀ x, c.parse (c.json x) = some x) (filename : Str) (fs : Files) (cfg : C) (now : Int) (ht : FitsUs now)
    (h : fs filename = some (c.json cfg)) : reload c filename fs = some cfg ∧
    ∃ st, construct c filename .done .done now fs = some st ∧ st.config = cfg ∧ st.files filename = some (c.json cfg) := by
  have hr : reload c filename fs = some cfg := by
    unfold reload
    rw [h]
    exact hc cfg
  obtain ⟨u1, u2, u3, _⟩ := update_done c filename cfg now ht ⟨fs, cfg⟩
  refine ⟨hr, _, ?_, u2, u3⟩
  unfold construct
  rw [hr]
  simp only
  rw [if_pos u1]

/-! ### What goes wrong -/

/-- A process killed while it writes the config leaves a file which cannot be read: the constructor fails from then on, until someone
copies the file of the history. -/
theorem killed_unreadable (c : Codec C) (hc : c.parse [] = none) (filename : Str) (new : C) (now : Int) (st : St C) :
    ∃ fs', KilledInUpdate c filename new now st fs' ∧ ∀ w1 w2 t, construct c filename w1 w2 t fs' = none := by
  refine ⟨_, .inr (.inr ⟨0, rfl⟩), fun w1 w2 t => ?_⟩
  unfold construct reload
  rw [put_same]
  simp [hc]

/-- If the disk is full, an update of a config smaller than the buffer of a stream returns as if nothing had happened, with both files
empty. -/
theorem full_disk_unnoticed (c : Codec C) (filename : Str) (new : C) (now : Int) (ht : FitsUs now) (st : St C) :
    (update c filename (.short 0 false) (.short 0 false) new now st).2 = true ∧
    (update c filename (.short 0 false) (.short 0 false) new now st).1.files filename = some [] ∧
    (update c filename (.short 0 false) (.short 0 false) new now st).1.files (historical filename now) = some [] := by
  have hne := historical_ne filename ht
  simp only [update, write, Bool.not_false, if_true, List.take_zero]
  exact ⟨trivial, put_same _ _ _, by rw [put_other _ _ hne, put_same]⟩

/-- If the config cannot be written, an exception is thrown, but what is in memory is the new config. -/
theorem failed_update_kept (c : Codec C) (filename : Str) (new : C) (now : Int) (st : St C) :
    (update c filename .done .refused new now st).2 = false ∧ (update c filename .done .refused new now st).1.config = new := by
  simp only [update, write, if_true]
  exact ⟨trivial, trivial⟩

/-- Of two updates within a second, the first one leaves no trace: the config between them is what is kept, instead of the one
before. -/
theorem same_second (c : Codec C) (filename : Str) (a b : C) (now : Int) (ht : FitsUs now) (st : St C) :
    (updates c filename st [(a, now), (b, now)]).files (historical filename now) = some (c.json a) := by
  obtain ⟨_, u2, _, _, _⟩ := update_done c filename a now ht st
  obtain ⟨_, _, _, v4, _⟩ := update_done c filename b now ht (update c filename .done .done a now st).1
  simp only [updates]
  rw [v4, u2]

/-- The conditions of `history` are met: three updates, a second apart. -/
theorem example_seconds : Seconds [0, 1000000, 1700000000123456] := by
  refine ⟨?_, by decide⟩
  intro t h
  simp only [List.mem_cons, List.not_mem_nil, or_false] at h
  unfold FitsUs
  omega

end

end Current.Config
