import Verif.Http.Props
import Verif.Persist.FileInv
/-! The body of an HTTP response (C27), and the exact effect of `n`, `nowait`, `stop_after_bytes` (C26). -/
namespace Current.Http
open Current.Persist

/-! ### C27: arrays -/

/-- Specification: the texts as a JSON array, one item after another, separated by a comma and a newline. -/
def arrayBody (texts : List Str) : Str :=
  match texts with
  | [] => ['[', ']', '\n']
  | t :: ts => ['[', '\n'] ++ t ++ (ts.map fun x => [',', '\n'] ++ x).flatten ++ [']', '\n']

/-- An array still being sent: like `arrayBody`, without the closing bracket. -/
def openArray (texts : List Str) : Str :=
  match texts with
  | [] => []
  | t :: ts => ['[', '\n'] ++ t ++ (ts.map fun x => [',', '\n'] ++ x).flatten

theorem openArray_snoc (ts : List Str) (x : Str) :
    openArray (ts ++ [x]) = openArray ts ++ (if ts = [] then openBracket else comma) ++ x := by
  cases ts with
  | nil => simp [openArray, openBracket]
  | cons t ts => simp [openArray, comma]

theorem arrayBody_eq (ts : List Str) : arrayBody ts = if ts = [] then emptyArray else openArray ts ++ closeBracket := by
  cases ts with
  | nil => rfl
  | cons t ts => simp [arrayBody, openArray, closeBracket]

structure Arr (e : Ep) : Prop where
  started : e.started = decide (e.sent ≠ [])
  body : e.body = openArray (e.sent.map (·.2))

theorem Arr.send {e : Ep} (ha : e.p.array = true) (h : Arr e) (x : IdxTs) (t : Str) : Arr (e.send x t) := by
  constructor
  · simp [Ep.send, ha]
  · have hb := h.body
    have hs := h.started
    unfold Ep.body at *
    simp only [Ep.send, ha, if_true, List.map_append, List.map_cons, List.map_nil, openArray_snoc, List.flatten_append, hb, hs]
    by_cases h0 : e.sent = []
    · simp [h0]
    · simp [h0]

theorem Arr.serve2 {e : Ep} (ha : e.p.array = true) (h : Arr e) (x : IdxTs) (last : Nat) (t : Str) :
    Arr (e.serve2 x last t).1 ∧ (e.serve2 x last t).1.p = e.p := by
  unfold Ep.serve2
  split
  · exact ⟨h, rfl⟩
  · have := h.send ha x t
    dsimp only
    split
    · exact ⟨this, rfl⟩
    · split
      · exact ⟨⟨this.started, this.body⟩, rfl⟩
      · split
        · exact ⟨⟨this.started, this.body⟩, rfl⟩
        · exact ⟨⟨this.started, this.body⟩, rfl⟩

theorem Arr.entry {e : Ep} (ha : e.p.array = true) (h : Arr e) (x : IdxTs) (last : Nat) (t : Str) (tt : Bool) :
    Arr (e.entry x last t tt).1 ∧ (e.entry x last t tt).1.p = e.p := by
  unfold Ep.entry
  split
  · exact ⟨h, rfl⟩
  · dsimp only
    generalize (e.serving || e.qualifies x last) = sv
    have h' : Arr { e with serving := sv } := ⟨h.started, h.body⟩
    split
    · rw [serve_eq]
      have h'' : Arr (({ e with serving := sv } : Ep).setTo x.us) := ⟨h.started, h.body⟩
      exact h''.serve2 (e := ({ e with serving := sv } : Ep).setTo x.us) ha x last t
    · exact ⟨h', rfl⟩

theorem Arr.head {e : Ep} (ha : e.p.array = true) (h : Arr e) (us : Int) (t : Str) (tt : Bool) :
    Arr (e.head us t tt).1 ∧ (e.head us t tt).1.p = e.p := by
  rw [head_eq]
  split
  · exact ⟨h, rfl⟩
  · split
    · have h'' : ∀ sv, Arr (({ e with serving := sv } : Ep).setTo us) := fun sv => ⟨h.started, h.body⟩
      generalize (e.serving || (decide (e.from_ > 0) && decide (us ≥ e.from_))) = sv
      have hE := h'' sv
      have hp : (({ e with serving := sv } : Ep).setTo us).p = e.p := rfl
      generalize ({ e with serving := sv } : Ep).setTo us = E at *
      unfold Ep.head2
      split
      · exact ⟨hE, hp⟩
      · rw [hp, ha]
        simp only [Bool.not_true, Bool.false_and, Bool.false_eq_true, if_false]
        exact ⟨hE, hp⟩
    · exact ⟨⟨h.started, h.body⟩, rfl⟩

theorem feed_arr (w : Texts) (ins : List In) (e : Ep) (ha : e.p.array = true) (h : Arr e) (hnd : (e.feed w ins).2 = false) :
    Arr (e.feed w ins).1 ∧ (e.feed w ins).1.p = e.p := by
  induction ins generalizing e with
  | nil => exact ⟨h, rfl⟩
  | cons x ins ih =>
    simp only [Ep.feed] at hnd ⊢
    split at hnd
    · rename_i hd; rw [hd] at hnd; cases hnd
    · rename_i hd
      rw [if_neg hd]
      have key : Arr (e.step w x).1 ∧ (e.step w x).1.p = e.p := by
        cases x with
        | entry x last text tt =>
          have := h.entry ha x last text tt
          simp only [Ep.step] at hd ⊢
          split
          · rename_i hc; rw [if_pos hc] at hd; simp at hd
          · exact this
        | head us tt => exact h.head ha us (w.head us) tt
        | terminate => simp [Ep.step] at hd
      obtain ⟨h1, h2⟩ := ih _ (by rw [key.2]; exact ha) key.1 hnd
      exact ⟨h1, h2.trans key.2⟩

theorem arr_init (q : Query) (now : Int) (size : Nat) : Arr (Ep.init (parse q) now size) := ⟨rfl, rfl⟩

/-- C27: when an `array` response ends with an entry (because of `n`, `period`, `stop_after_bytes`, `nowait` or termination), its whole body is
the JSON array of the entries sent, whatever entries and head updates came before, and however few were sent. -/
theorem array_is_well_formed_partial (w : Texts) (q : Query) (now : Int) (size : Nat) (pre : List In) (x : IdxTs) (last : Nat) (text : Str) (tt : Bool)
    (hq : q.array = true)
    (hpre : ((Ep.init (parse q) now size).feed w pre).2 = false)
    (hend : ((Ep.init (parse q) now size).feed w (pre ++ [.entry x last text tt])).2 = true) :
    let e := ((Ep.init (parse q) now size).feed w (pre ++ [.entry x last text tt])).1
    e.body = arrayBody (e.sent.map (·.2)) := by
  have ha : (Ep.init (parse q) now size).p.array = true := hq
  have hI := arr_init q now size
  generalize Ep.init (parse q) now size = e0 at *
  have happ : ∀ (l : List In) (e : Ep), (e.feed w l).2 = false → ∀ y, e.feed w (l ++ [y]) = (e.feed w l).1.step w y := by
    intro l
    induction l with
    | nil =>
      intro e _ y
      simp only [List.nil_append, Ep.feed]
      split
      · rfl
      · rename_i hh; simp only [Bool.not_eq_true] at hh; rw [← hh]
    | cons z l ih =>
      intro e h y
      simp only [List.cons_append, Ep.feed] at h ⊢
      split at h
      · rename_i hd; rw [hd] at h; cases h
      · rename_i hd; rw [if_neg hd, if_neg hd]; exact ih _ h y
  rw [happ _ _ hpre] at hend
  dsimp only
  rw [happ _ _ hpre]
  obtain ⟨h1, h2⟩ := feed_arr w pre e0 ha hI hpre
  generalize (e0.feed w pre).1 = e at *
  have ha' : e.p.array = true := by rw [h2]; exact ha
  obtain ⟨h3, h4⟩ := h1.entry ha' x last text tt
  simp only [Ep.step] at hend ⊢
  generalize e.entry x last text tt = r at *
  split at hend
  · rename_i hd
    rw [if_pos hd]
    have hb := h3.body
    have hs := h3.started
    unfold Ep.body at *
    have har : r.1.p.array = true := by rw [h4]; exact ha'
    simp only [Ep.close, har, if_true, hs, List.flatten_append, hb, arrayBody_eq]
    by_cases h0 : r.1.sent = []
    · simp [h0, openArray]
    · simp [h0]
  · cases hend

/-- Two entries of three, then the end. -/
example :
    let e0 := Ep.init (parse { array := true, n := some 2 }) 100 3
    let ins : List In := [.entry ⟨0, 10⟩ 2 ['a', '\n'] false, .head 15 false, .entry ⟨1, 20⟩ 2 ['b', '\n'] false]
    (e0.feed ⟨fun _ => [], []⟩ ins).2 = true ∧ (e0.feed ⟨fun _ => [], []⟩ (ins.take 2)).2 = false ∧
    (e0.feed ⟨fun _ => [], []⟩ ins).1.body = ['[', '\n', 'a', '\n', ',', '\n', 'b', '\n', ']', '\n'] := by
  decide +kernel

/-- C27: terminated while an array is being sent: the message is its last item. -/
theorem terminated_array (w : Texts) (q : Query) (now : Int) (size : Nat) (pre : List In) (hq : q.array = true)
    (hpre : ((Ep.init (parse q) now size).feed w pre).2 = false)
    (hs : ((Ep.init (parse q) now size).feed w pre).1.sent ≠ []) :
    let e := ((Ep.init (parse q) now size).feed w pre).1
    (e.step w .terminate).1.body = arrayBody (e.sent.map (·.2) ++ [w.msg]) := by
  obtain ⟨h1, h2⟩ := feed_arr w pre _ (show (Ep.init (parse q) now size).p.array = true from hq) (arr_init q now size) hpre
  generalize ((Ep.init (parse q) now size).feed w pre).1 = e at *
  dsimp only
  have ha : e.p.array = true := by rw [h2]; exact hq
  have hb := h1.body
  have hst := h1.started
  unfold Ep.body at *
  simp only [Ep.step, Ep.terminate, ha, hst, List.flatten_append, hb, arrayBody_eq, openArray_snoc]
  simp [hs]

/-- Not as C27 says: terminated before any entry was sent, an `array` response is the message alone, not an array. -/
theorem terminated_empty_array (w : Texts) (q : Query) (now : Int) (size : Nat) (pre : List In) (hq : q.array = true)
    (hpre : ((Ep.init (parse q) now size).feed w pre).2 = false)
    (hs : ((Ep.init (parse q) now size).feed w pre).1.sent = []) :
    ((((Ep.init (parse q) now size).feed w pre).1).step w .terminate).1.body = w.msg := by
  obtain ⟨h1, h2⟩ := feed_arr w pre _ (show (Ep.init (parse q) now size).p.array = true from hq) (arr_init q now size) hpre
  generalize ((Ep.init (parse q) now size).feed w pre).1 = e at *
  have hb := h1.body
  have hst := h1.started
  unfold Ep.body at *
  simp only [Ep.step, Ep.terminate, hst, List.flatten_append, hb, hs]
  simp [openArray]

/-- Not as C27 says: a head update beyond `period`, or one that finds the endpoint told to terminate, ends the response and leaves the array open. -/
theorem head_leaves_array_open (w : Texts) (q : Query) (now : Int) (size : Nat) (pre : List In) (us : Int) (tt : Bool) (hq : q.array = true)
    (hpre : ((Ep.init (parse q) now size).feed w pre).2 = false) :
    let e := ((Ep.init (parse q) now size).feed w pre).1
    (e.step w (.head us tt)).1.body = openArray (e.sent.map (·.2)) := by
  obtain ⟨h1, h2⟩ := feed_arr w pre _ (show (Ep.init (parse q) now size).p.array = true from hq) (arr_init q now size) hpre
  generalize ((Ep.init (parse q) now size).feed w pre).1 = e at *
  have ha : e.p.array = true := by rw [h2]; exact hq
  have := (h1.head ha us (w.head us) tt).1.body
  dsimp only
  have hs : (e.head us (w.head us) tt).1.sent = e.sent := by
    rw [head_eq]
    split
    · rfl
    · split
      · unfold Ep.head2; split
        · rfl
        · split <;> rfl
      · rfl
  rw [hs] at this
  exact this

/-- … and this happens. -/
example :
    let e0 := Ep.init (parse { array := true, period := some 5 }) 100 3
    let r := e0.feed ⟨fun _ => [], []⟩ [.entry ⟨0, 10⟩ 0 ['a', '\n'] false, .head 16 false]
    r.2 = true ∧ r.1.body = ['[', '\n', 'a', '\n'] := by
  decide +kernel

/-! ### The text of entries -/

/-- C27: served from raw log lines, an entry has the same text as when it is serialized again, as the log line of an entry is its index and
timestamp, a tab, and its JSON (C07). -/
theorem raw_text_same (p : Params) (idxts json : Str) (h : '\t' ∉ idxts) :
    uncheckedText p (idxts ++ '\t' :: json) = checkedText p idxts json := by
  have hs : splitTab (idxts ++ '\t' :: json) = some (idxts, json) := splitTab_append idxts json h
  unfold uncheckedText checkedText
  rw [hs]
  cases p.entriesOnly <;> simp

example : '\t' ∉ (['{', '}'] : Str) := by decide

/-- C27: without `array` and without head updates, the body is the texts of the entries sent, one after another. -/
theorem plain_body (w : Texts) (q : Query) (now : Int) (size : Nat) (l : List ((IdxTs × Nat) × Str)) (hq : q.array = false) :
    let e := ((Ep.init (parse q) now size).feed w (passes l)).1
    e.body = (e.sent.map (·.2)).flatten := by
  have key : ∀ (l : List ((IdxTs × Nat) × Str)) (e : Ep), e.p.array = false → e.body = (e.sent.map (·.2)).flatten →
      (e.feed w (passes l)).1.body = ((e.feed w (passes l)).1.sent.map (·.2)).flatten := by
    intro l
    induction l with
    | nil => intro e _ h; exact h
    | cons t l ih =>
      intro e ha h
      obtain ⟨⟨x, last⟩, text⟩ := t
      have hentry : (e.entry x last text false).1.p.array = false ∧
          (e.entry x last text false).1.body = ((e.entry x last text false).1.sent.map (·.2)).flatten := by
        unfold Ep.entry
        simp only [Bool.false_eq_true, if_false]
        split
        · rw [serve_eq]
          generalize hE : ({ e with serving := e.serving || e.qualifies x last } : Ep).setTo x.us = E
          have hp : E.p.array = false := by subst hE; exact ha
          have hb : E.body = (E.sent.map (·.2)).flatten := by subst hE; exact h
          have hsend : (E.send x text).body = ((E.send x text).sent.map (·.2)).flatten := by
            unfold Ep.body at *
            simp [Ep.send, hp, hb]
          unfold Ep.serve2
          split
          · exact ⟨hp, hb⟩
          · dsimp only
            split
            · exact ⟨hp, hsend⟩
            · split
              · exact ⟨hp, hsend⟩
              · split <;> exact ⟨hp, hsend⟩
        · exact ⟨ha, h⟩
      have hstep : (e.step w (.entry x last text false)).1.p.array = false ∧
          (e.step w (.entry x last text false)).1.body = ((e.step w (.entry x last text false)).1.sent.map (·.2)).flatten := by
        simp only [Ep.step]
        split
        · refine ⟨hentry.1, ?_⟩
          have := hentry.2
          unfold Ep.body at *
          simpa [Ep.close, hentry.1] using this
        · exact hentry
      simp only [passes, List.map_cons, Ep.feed]
      split
      · exact hstep.2
      · exact ih _ hstep.1 hstep.2
  exact key l _ hq rfl

/-! ### C26, continued -/

/-- C26: while the response goes on, no limit has been reached: fewer than `n` entries, fewer than `stop_after_bytes` bytes. -/
theorem goes_on_below_limits (w : Texts) (q : Query) (now : Int) (size : Nat) (ins : List In)
    (hinc : (ins.filterMap In.us).Pairwise (· ≤ ·)) (hpos : ∀ u ∈ ins.filterMap In.us, 0 ≤ u)
    (hnd : ((Ep.init (parse q) now size).feed w ins).2 = false) :
    let sent := ((Ep.init (parse q) now size).feed w ins).1.sent
    (∀ n, q.n = some n → n ≠ 0 → sent.length < n) ∧ (∀ b, q.stopAfterBytes = some b → b ≠ 0 → bytesOf sent < b) := by
  obtain ⟨h, hp⟩ := feed_lim w ins (Ep.init (parse q) now size) (Lim.init q now size) ⟨hinc, hpos, by simp [Ep.init]⟩
  rw [hnd] at h
  generalize ((Ep.init (parse q) now size).feed w ins).1 = e at *
  dsimp only
  refine ⟨?_, ?_⟩
  · intro n hn h0
    have hpn : e.p.n = n := by rw [hp]; simp [Ep.init, parse, hn]
    have := h.n2 (by omega) rfl
    rcases h.n1 (by omega) with h | h
    · omega
    · simp at h
  · intro b hb h0
    have hpn : e.p.stopAfterBytes = b := by rw [hp]; simp [Ep.init, parse, hb]
    rcases h.stop (by omega) with h | h
    · omega
    · simp at h

/-- C26: with `nowait` the response ends with the entry that is the last one at that moment, sent or not. -/
theorem nowait_ends_at_last (w : Texts) (q : Query) (now : Int) (size : Nat) (pre : List In) (x : IdxTs) (text : Str) (tt : Bool)
    (hq : q.noWait = true) :
    ((Ep.init (parse q) now size).feed w (pre ++ [.entry x x.index text tt])).2 = true := by
  have key : ∀ (l : List In) (e : Ep), e.p.noWait = true → (e.feed w (l ++ [.entry x x.index text tt])).2 = true := by
    have hp : ∀ (e : Ep) (i : In), (e.step w i).1.p = e.p := by
      intro e i
      have hserve : ∀ (e : Ep) (x : IdxTs) (last : Nat) (text : Str), (e.serve2 x last text).1.p = e.p := by
        
        intro e x last text; unfold Ep.serve2; split
        · rfl
        · dsimp only; split
          · rfl
          · split
            · rfl
            · split <;> rfl
      cases i with
      | entry x last text tt =>
        have he : (e.entry x last text tt).1.p = e.p := by
          unfold Ep.entry
          split
          · rfl
          · dsimp only; split
            · rw [serve_eq, hserve]; rfl
            · rfl
        simp only [Ep.step]; split <;> exact he
      | head us tt =>
        simp only [Ep.step, head_eq]
        split
        · rfl
        · split
          · unfold Ep.head2; split
            · rfl
            · split <;> rfl
          · rfl
      | terminate => rfl
    intro l
    induction l with
    | nil =>
      intro e h
      have hst : (e.step w (.entry x x.index text tt)).2 = true := by
        have he : (e.entry x x.index text tt).2 = true := by
          unfold Ep.entry
          split
          · rfl
          · dsimp only
            split
            · rw [serve_eq]
              have hp : (({ e with serving := e.serving || e.qualifies x x.index } : Ep).setTo x.us).p.noWait = true := h
              generalize ({ e with serving := e.serving || e.qualifies x x.index } : Ep).setTo x.us = E at *
              unfold Ep.serve2
              split
              · rfl
              · dsimp only
                split
                · rfl
                · split
                  · rfl
                  · rw [if_pos ⟨rfl, by exact hp⟩]
            · simp [h]
        simp only [Ep.step, he, if_true]
      simp only [List.nil_append, Ep.feed, hst, if_true]
    | cons y l ih =>
      intro e h
      simp only [List.cons_append, Ep.feed]
      split
      · assumption
      · exact ih _ (by rw [hp]; exact h)
  exact key pre _ hq

/-- C26: with `n` and nothing else, exactly the first `n` of the entries passed are served, or all of them if there are fewer, and the response ends exactly
when the `n`-th is. -/
theorem exactly_n (w : Texts) (q : Query) (now : Int) (size : Nat) (l : List ((IdxTs × Nat) × Str)) (n : Nat)
    (hn : q.n = some n) (h0 : n ≠ 0) (hp : q.period.getD 0 = 0) (hs : q.stopAfterBytes.getD 0 = 0) (hnw : q.noWait = false)
    (hr : q.recent = none) (hsi : q.since = none) :
    let r := (Ep.init (parse q) now size).feed w (passes l)
    r.1.sent = (l.take n).map (fun t => (t.1.1, t.2)) ∧ (r.2 = true ↔ n ≤ l.length) := by
  have key : ∀ (l : List ((IdxTs × Nat) × Str)) (e : Ep), e.serving = true → e.n ≠ 0 → e.p.period = 0 → e.to_ = 0 → e.p.stopAfterBytes = 0 →
      e.p.noWait = false →
      (e.feed w (passes l)).1.sent = e.sent ++ (l.take e.n).map (fun t => (t.1.1, t.2)) ∧ ((e.feed w (passes l)).2 = true ↔ e.n ≤ l.length) := by
    intro l
    induction l with
    | nil => intro e _ h _ _ _ _; simp [passes, Ep.feed]; exact h
    | cons t l ih =>
      intro e hsv hn hp ht hst hnw
      obtain ⟨⟨x, last⟩, text⟩ := t
      have hsend : (e.serve x last text) = ({ e.send x text with n := e.n - 1 }, decide (e.n - 1 = 0)) := by
        have hset : e.setTo x.us = e := by cases e; simp only [Ep.setTo] at *; simp [hp]
        rw [serve_eq, hset]
        unfold Ep.serve2
        rw [if_neg (by simp [ht])]
        dsimp only
        rw [if_neg (by simp [Ep.send, hst])]
        have hEn : (e.send x text).n = e.n := rfl
        rw [hEn]
        by_cases h1 : e.n - 1 = 0
        · rw [if_pos ⟨hn, h1⟩]; simp [h1]
        · rw [if_neg (by simp [h1]), if_neg (by simp [Ep.send, hnw])]; simp [h1]
      have hstep : e.step w (.entry x last text false) =
          if e.n - 1 = 0 then (({ e.send x text with n := e.n - 1 } : Ep).close, true) else ({ e.send x text with n := e.n - 1 }, false) := by
        simp only [Ep.step, entry_serving e x last text hsv, hsend, decide_eq_true_eq]
      simp only [passes, List.map_cons, Ep.feed]
      rw [hstep]
      by_cases h1 : e.n - 1 = 0
      · have : e.n = 1 := by omega
        simp [h1, this, Ep.close, Ep.send]
      · obtain ⟨i1, i2⟩ := ih { e.send x text with n := e.n - 1 } hsv h1 hp ht hst hnw
        simp only [passes] at i1 i2
        rw [if_neg h1]
        simp only [Bool.false_eq_true, if_false]
        obtain ⟨m, hm⟩ : ∃ m, e.n = m + 1 := ⟨e.n - 1, by omega⟩
        refine ⟨?_, ?_⟩
        · rw [i1]; simp [Ep.send, hm]
        · rw [i2]; simp only [List.length_cons]; omega
  have hinit : (Ep.init (parse q) now size).n = n := by simp [Ep.init, parse, hn]
  obtain ⟨a, b⟩ := key l (Ep.init (parse q) now size) (by simp [Ep.init, parse, hr, hsi]) (by rw [hinit]; exact h0)
    (by simp [Ep.init, parse, hp]) rfl (by simp [Ep.init, parse, hs]) (by simp [Ep.init, parse, hnw])
  rw [hinit] at a b
  exact ⟨a, b⟩

/-- C26: with `period` only, exactly the entries passed until the first one later than the first timestamp plus `period`. -/
theorem exactly_period (w : Texts) (q : Query) (now : Int) (size : Nat) (t : (IdxTs × Nat) × Str) (l : List ((IdxTs × Nat) × Str)) (d : Nat)
    (hn : q.n.getD 0 = 0) (hd : q.period = some d) (h0 : d ≠ 0) (hs : q.stopAfterBytes.getD 0 = 0) (hnw : q.noWait = false)
    (hr : q.recent = none) (hsi : q.since = none) (hpos : 0 ≤ t.1.1.us) :
    ((Ep.init (parse q) now size).feed w (passes (t :: l))).1.sent =
      ((t :: l).takeWhile (fun y => decide (y.1.1.us ≤ t.1.1.us + d))).map (fun t => (t.1.1, t.2)) := by
  have key : ∀ (l : List ((IdxTs × Nat) × Str)) (e : Ep), e.serving = true → e.n = 0 → e.to_ ≠ 0 → e.p.stopAfterBytes = 0 →
      e.p.noWait = false →
      (e.feed w (passes l)).1.sent = e.sent ++ (l.takeWhile (fun y => decide (y.1.1.us ≤ e.to_))).map (fun t => (t.1.1, t.2)) := by
    intro l
    induction l with
    | nil => intro e _ _ _ _ _; simp [passes, Ep.feed]
    | cons t l ih =>
      intro e hsv hn hto hst hnw
      obtain ⟨⟨x, last⟩, text⟩ := t
      have hset : e.setTo x.us = e := by cases e; simp only [Ep.setTo] at *; simp [hto]
      have hserve : e.serve x last text = if x.us > e.to_ then (e, true) else ({ e.send x text with n := 0 }, false) := by
        rw [serve_eq, hset]
        unfold Ep.serve2
        by_cases h : x.us > e.to_
        · rw [if_pos ⟨hto, h⟩, if_pos h]
        · rw [if_neg (by simp [h]), if_neg h]
          dsimp only
          have hEn : (e.send x text).n = 0 := hn
          rw [if_neg (by simp [Ep.send, hst]), if_neg (by simp [hEn]), if_neg (by simp [Ep.send, hnw]), hEn]
      have hstep : e.step w (.entry x last text false) = if x.us > e.to_ then (e.close, true) else ({ e.send x text with n := 0 }, false) := by
        simp only [Ep.step, entry_serving e x last text hsv, hserve]
        by_cases h : x.us > e.to_
        · simp [h]
        · simp [h]
      simp only [passes, List.map_cons, Ep.feed]
      rw [hstep]
      by_cases h : x.us > e.to_
      · have : ¬ x.us ≤ e.to_ := by omega
        simp [h, this, Ep.close, List.takeWhile]
      · have h' : x.us ≤ e.to_ := by omega
        have := ih { e.send x text with n := 0 } hsv rfl hto hst hnw
        simp only [passes] at this
        simp only [if_neg h, Bool.false_eq_true, if_false, this]
        simp [Ep.send, List.takeWhile, h']
  obtain ⟨⟨x, last⟩, text⟩ := t
  have hfirst : (Ep.init (parse q) now size).feed w (passes (((x, last), text) :: l)) =
      (({ Ep.init (parse q) now size with to_ := x.us + d } : Ep)).feed w (passes (((x, last), text) :: l)) := by
    have hpd : (Ep.init (parse q) now size).p.period = d := by simp [Ep.init, parse, hd]
    have hsv : (Ep.init (parse q) now size).serving = true := by simp [Ep.init, parse, hr, hsi]
    have hto : (Ep.init (parse q) now size).to_ = 0 := rfl
    generalize Ep.init (parse q) now size = e at *
    have hst : e.step w (.entry x last text false) = ({ e with to_ := x.us + d } : Ep).step w (.entry x last text false) := by
      have e1 : e.entry x last text false = ({ e with to_ := x.us + d } : Ep).entry x last text false := by
        rw [entry_serving _ _ _ _ hsv, entry_serving ({ e with to_ := x.us + d } : Ep) _ _ _ hsv, serve_eq, serve_eq]
        congr 1
        cases e; simp only [Ep.setTo] at *
        simp only [hpd, hto]
        have hdi : (d : Int) ≠ 0 := by omega
        rw [if_pos ⟨hdi, trivial⟩, if_neg (by rintro ⟨_, h⟩; have hpos' : 0 ≤ x.us := hpos; omega)]
      simp only [Ep.step, e1]
    simp only [passes, List.map_cons, Ep.feed]
    rw [hst]
  rw [hfirst, key _ { Ep.init (parse q) now size with to_ := x.us + d } (by simp [Ep.init, parse, hr, hsi]) (by simp [Ep.init, parse, hn])
    (by dsimp only at hpos ⊢; omega) (by simp [Ep.init, parse, hs]) (by simp [Ep.init, parse, hnw])]
  rfl

/-- The hypotheses of the theorems of C26, on one concrete feed. -/
example :
    let q : Query := { n := some 2, period := some 15, stopAfterBytes := some 100 }
    let ins := passes (demoEntries.map fun x => ((x.1, 2), x.2))
    (ins.filterMap In.us).Pairwise (· ≤ ·) ∧ (∀ u ∈ ins.filterMap In.us, 0 ≤ u) ∧
    ((Ep.init (parse q) 100 3).feed ⟨fun _ => [], []⟩ (ins.take 1)).2 = false ∧
    ((Ep.init (parse q) 100 3).feed ⟨fun _ => [], []⟩ ins).2 = true ∧
    ((Ep.init (parse q) 100 3).feed ⟨fun _ => [], []⟩ ins).1.sent = demoEntries.take 2 := by
  decide +kernel

example : ((Ep.init (parse { period := some 15 }) 100 3).feed ⟨fun _ => [], []⟩ (passes (demoEntries.map fun x => ((x.1, 2), x.2)))).1.sent =
    demoEntries.take 2 := by
  decide +kernel

end Current.Http
