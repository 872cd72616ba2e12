import Verif.Persist.FileInv
/-!
Properties C07–C12: the file persister.
-/
namespace Current.Persist

variable {E : Type}

/-! ## Specification -/

/-- The calls of a session, reopenings left out. -/
def callsOf : List (FOp E) → List (Call E)
  | [] => []
  | .call c :: ops => c :: callsOf ops
  | .reopen :: ops => callsOf ops

/-- Every call of the session is plain (see `Call.Plain`). -/
def PlainOps (k : Codec E) (ops : List (FOp E)) : Prop := ∀ c ∈ callsOf ops, c.Plain k

/-- Two persisters that no reading call can tell apart. -/
def SameAnswers (k : Codec E) (f : FileP) (m : Mem E) : Prop :=
  f.size = m.size ∧ f.empty = m.empty ∧ f.currentHead = m.currentHead ∧ f.lastPublished = m.lastPublished ∧
  f.headAndLast = m.headAndLast ∧ (∀ b e, f.iterate k b e = m.iterate b e) ∧
  (∀ a b, f.iterateTime k a b = m.iterateTime a b)

/-- The lines accepted calls wrote, in order. -/
def writtenLines (k : Codec E) : List (Call E) → List Reply → List Str
  | c :: cs, r :: rs => c.text k r ++ writtenLines k cs rs
  | _, _ => []

theorem FInv.answers {k : Codec E} {sig : Str} {f : FileP} {m : Mem E} {texts : List Str}
    (h : FInv k sig f m texts) : SameAnswers k f m := by
  obtain ⟨ls, st, h, _⟩ := h
  refine ⟨h.nextLen, ?_, by simp [FileP.currentHead, Mem.currentHead, h.head, h.mhead], h.lastPublished.1,
    h.lastPublished.2, h.iterate, h.iterateTime⟩
  have := h.nextLen
  simp only [FileP.empty, Mem.empty, this]
  cases m.entries <;> simp

theorem FInv.reopen {k : Codec E} {sig : Str} {f : FileP} {m : Mem E} {texts : List Str}
    (h : FInv k sig f m texts) : openFile k sig f.bytes = .ok f := by
  obtain ⟨ls, st, h, _⟩ := h; exact h.reopen

theorem run_sync {k : Codec E} (hk : k.Lawful) {sig : Str} (ops : List (FOp E)) (hp : PlainOps k ops)
    {f : FileP} {m : Mem E} {texts : List Str} (h : FInv k sig f m texts) :
    ∃ g, f.run k sig ops = (some g, (m.run k (callsOf ops)).2) ∧
      FInv k sig g (m.run k (callsOf ops)).1
        (texts ++ writtenLines k (callsOf ops) (m.run k (callsOf ops)).2) := by
  induction ops generalizing f m texts with
  | nil => exact ⟨f, rfl, by simpa [callsOf, Mem.run, writtenLines] using h⟩
  | cons op ops ih =>
    cases op with
    | reopen =>
      obtain ⟨g, h1, h2⟩ := ih (fun c hc => hp c (by simpa [callsOf] using hc)) h
      refine ⟨g, ?_, by simpa [callsOf] using h2⟩
      simp only [FileP.run, FileP.step, h.reopen, callsOf]
      simp [h1]
    | call c =>
      obtain ⟨hr, hs⟩ := h.call hk c (hp c (by simp [callsOf]))
      obtain ⟨g, h1, h2⟩ := ih (fun d hd => hp d (by simp [callsOf, hd])) hs
      refine ⟨g, ?_, ?_⟩
      · simp only [FileP.run, FileP.step, callsOf, Mem.run]
        simp [h1, hr]
      · simp only [callsOf, Mem.run, writtenLines]
        rw [hr, List.append_assoc] at h2
        exact h2

/-- A session on a new file: the persister it leaves and all replies. -/
def Session (k : Codec E) (sig : Str) (ops : List (FOp E)) (f : FileP) (rs : List Reply) : Prop :=
  ∃ f₀, openFile k sig [] = .ok f₀ ∧ f₀.run k sig ops = (some f, rs)

theorem Session.sync {k : Codec E} (hk : k.Lawful) {sig : Str} (hs : SigOk sig) {ops : List (FOp E)}
    (hp : PlainOps k ops) {f : FileP} {rs : List Reply} (h : Session k sig ops f rs) :
    rs = (Mem.init.run k (callsOf ops)).2 ∧
    FInv k sig f (Mem.init.run k (callsOf ops)).1 (writtenLines k (callsOf ops) rs) := by
  obtain ⟨f₀, h1, h2⟩ := h
  obtain ⟨f₁, h3, h4⟩ := FSim.fresh k sig hs
  rw [h3] at h1; injection h1 with h1; subst h1
  obtain ⟨g, h5, h6⟩ := run_sync hk ops hp h4
  rw [h5] at h2
  simp only [Prod.mk.injEq, Option.some.injEq] at h2
  obtain ⟨rfl, rfl⟩ := h2
  exact ⟨rfl, by simpa using h6⟩

/-! ## C07, C08 -/

/-- **C08.** Any session of plain calls on a new file, with reopenings anywhere, runs to its end; every reply is the
memory persister's, no assertion fails, and afterwards every reading call answers as the memory persister does. -/
theorem file_persister_refines_memory (k : Codec E) (hk : k.Lawful) (sig : Str) (hs : SigOk sig)
    (ops : List (FOp E)) (hp : PlainOps k ops) :
    ∃ f, Session k sig ops f (Mem.init.run k (callsOf ops)).2 ∧
      SameAnswers k f (Mem.init.run k (callsOf ops)).1 ∧ f.assertsOk := by
  obtain ⟨f₁, h3, h4⟩ := FSim.fresh k sig hs
  obtain ⟨g, h5, h6⟩ := run_sync hk ops hp h4
  obtain ⟨ls, st, h7, _⟩ := id h6
  exact ⟨g, ⟨f₁, h3, h5⟩, h6.answers, h7.asserts⟩

/-- **C07.** After any session, closing and reopening succeeds and restores exactly the same persister — entries,
indexes, timestamps, size, head, and also all offsets that later calls rely on — without changing the file. -/
theorem reopen_restores_everything (k : Codec E) (hk : k.Lawful) (sig : Str) (hs : SigOk sig)
    (ops : List (FOp E)) (hp : PlainOps k ops) (f : FileP) (rs : List Reply) (h : Session k sig ops f rs) :
    openFile k sig f.bytes = .ok f := by
  obtain ⟨_, h⟩ := h.sync hk hs hp
  exact h.reopen

/-- **C07 (contents).** After any session and a reopening, the log read back from the file is exactly what the caller
was acknowledged, and it is well formed. -/
theorem acknowledged_survives_reopen (k : Codec E) (hk : k.Lawful) (sig : Str) (hs : SigOk sig)
    (ops : List (FOp E)) (hp : PlainOps k ops) (f : FileP) (rs : List Reply) (h : Session k sig ops f rs) :
    ∃ g, openFile k sig f.bytes = .ok g ∧
      g.iterate k 0 none = .ok (acknowledged k (callsOf ops) rs) ∧
      WellFormedLog (acknowledged k (callsOf ops) rs) := by
  obtain ⟨hr, hf⟩ := h.sync hk hs hp
  refine ⟨f, hf.reopen, ?_, ?_⟩
  · rw [hf.answers.2.2.2.2.2.1]
    have := log_is_acknowledged_and_ordered k (callsOf ops)
    simp only at this
    rw [this.1, hr]
  · have := log_is_acknowledged_and_ordered k (callsOf ops)
    simp only at this
    rw [hr]; exact this.2.1

/-- A signature for the examples. -/
def demoSig : Str := ['{', '}']
theorem demoSig_ok : SigOk demoSig := ⟨⟨_, rfl⟩, by decide⟩

/-- A session for the examples: publications, head updates (appended, then rewritten in place, also after reopening), a
rejected call, raw line, reopenings. -/
def demoOps : List (FOp Nat) :=
  [.call (.publish 7 10), .call (.updateHead 12), .call (.updateHead 15), .reopen, .call (.updateHead 17),
   .call (.publish 8 17), .call (.publishUnsafe (entryLine natCodec ⟨1, 20⟩ 8)), .reopen, .call (.publish 9 21)]

theorem demoOps_plain : PlainOps natCodec demoOps := by
  intro c hc
  simp only [demoOps, callsOf, List.mem_cons, List.not_mem_nil, or_false] at hc
  have : ∀ a b, splitTab (entryLine natCodec ⟨1, 20⟩ 8) = some (a, b) →
      (natCodec.getIdx a).isSome → (natCodec.get b).isSome := by
    intro a b h _
    rw [(entryLine_facts natCodec_lawful _ _).2.2] at h
    simp only [Option.some.injEq, Prod.mk.injEq] at h
    rw [← h.2, natCodec_lawful.get_put]; rfl
  rcases hc with rfl | rfl | rfl | rfl | rfl | rfl | rfl
  · trivial
  · show (12 : Int) < 2 ^ 63; decide
  · show (15 : Int) < 2 ^ 63; decide
  · show (17 : Int) < 2 ^ 63; decide
  · trivial
  · exact ⟨(entryLine_facts natCodec_lawful _ _).1, this⟩
  · trivial

/-- Non-vacuity: the session exists, with these replies. -/
example : ∃ f, Session natCodec demoSig demoOps f
    [.published ⟨0, 10⟩, .headUpdated, .headUpdated, .headUpdated, .thrown (.inconsistentTimestamp 18 17),
     .published ⟨1, 20⟩, .published ⟨2, 21⟩] := by
  obtain ⟨f, h, _⟩ := file_persister_refines_memory natCodec natCodec_lawful demoSig demoSig_ok demoOps demoOps_plain
  have : (Mem.init.run natCodec (callsOf demoOps)).2 =
      [.published ⟨0, 10⟩, .headUpdated, .headUpdated, .headUpdated, .thrown (.inconsistentTimestamp 18 17),
       .published ⟨1, 20⟩, .published ⟨2, 21⟩] := by decide +kernel
  rw [this] at h
  exact ⟨f, h⟩

/-! ## C09 -/

/-- **C09 (entries).** After any session, an accepted `UpdateHead` leaves every stored line where it is and every
reading of entries unchanged. -/
theorem updateHead_keeps_entries (k : Codec E) (hk : k.Lawful) (sig : Str) (hs : SigOk sig)
    (ops : List (FOp E)) (hp : PlainOps k ops) (f : FileP) (rs : List Reply) (h : Session k sig ops f rs)
    (ts : Int) (hmax : ts < 2 ^ 63) :
    let g := (f.call k (.updateHead ts)).1
    g.size = f.size ∧ g.recOffset = f.recOffset ∧ (∀ b e, g.iterate k b e = f.iterate k b e) ∧
    (∀ i, i < f.size → g.rawLine i = f.rawLine i) ∧ openFile k sig g.bytes = .ok g := by
  obtain ⟨_, hf⟩ := h.sync hk hs hp
  obtain ⟨_, hg⟩ := hf.call hk (.updateHead ts) hmax
  have ha := hf.answers
  have hb := hg.answers
  generalize (Mem.init.run k (callsOf ops)).1 = m at *
  have hmem : (m.call k (.updateHead ts)).1.entries = m.entries := by
    simp only [Mem.call, Mem.updateHead]; split <;> rfl
  have hall : ∀ b e, (m.call k (.updateHead ts)).1.iterate b e = m.iterate b e := by
    intro b e
    generalize (m.call k (.updateHead ts)).1 = m' at hmem
    obtain ⟨es, hd⟩ := m; obtain ⟨es', hd'⟩ := m'
    simp at hmem; subst hmem
    have hr : ∀ (i n : Nat), (⟨es', hd'⟩ : Mem E).readFrom i n = (⟨es', hd⟩ : Mem E).readFrom i n := by
      intro i n
      induction n generalizing i with
      | zero => rfl
      | succ n ih => simp only [Mem.readFrom, ih]; rfl
    simp only [Mem.iterate, Mem.iterateRange, Mem.read, hr]
  refine ⟨?_, ?_, ?_, ?_, hg.reopen⟩
  · rw [hb.1, ha.1]; simp [Mem.size, hmem]
  · simp only [FileP.call, FileP.updateHead]
    split
    · split <;> rfl
    · rfl
  · intro b e
    rw [hb.2.2.2.2.2.1, ha.2.2.2.2.2.1, hall]
  · intro i hi
    obtain ⟨ls, st, h1, h2⟩ := hf
    obtain ⟨ls', st', h3, h4⟩ := hg
    have hnone : Call.text k (.updateHead ts : Call E) (f.call k (.updateHead ts)).2 = [] := by
      simp [Call.text]
    rw [hnone, List.append_nil] at h4
    have hlen : (writtenLines k (callsOf ops) rs).length = f.size := by
      have inv := scan_inv h1.scan
      have hfl : ∀ l : List Str, (l.filter (isEntry k)).length = (entryLines k l).length := by
        intro l
        induction l with
        | nil => rfl
        | cons a l ih =>
          cases he : entryOf k a with
          | none =>
            have : isEntry k a = false := by simp [isEntry, he]
            simpa [entryLines, he, this] using ih
          | some x =>
            have : isEntry k a = true := by simp [isEntry, he]
            simpa [entryLines, he, this] using ih
      rw [h2, hfl, ← inv.nextIndex, ← h1.nextIndex]; rfl
    have hex : ∃ t, (writtenLines k (callsOf ops) rs)[i]? = some t := by
      have : i < (writtenLines k (callsOf ops) rs).length := by omega
      exact ⟨_, List.getElem?_eq_getElem this⟩
    obtain ⟨t, ht⟩ := hex
    rw [h1.rawLine i t (by rw [← h2]; exact ht), h3.rawLine i t (by rw [← h4]; exact ht)]

/-- Only head updates (and reopenings). -/
def HeadOnly : List (FOp E) → Prop
  | [] => True
  | .call (.updateHead ts) :: ops => ts < 2 ^ 63 ∧ HeadOnly ops
  | .reopen :: ops => HeadOnly ops
  | _ :: _ => False

/-- **C09 (size).** Once a head line has been written, any number of further head updates, with reopenings in between,
leaves the file at the same length. -/
theorem head_updates_do_not_grow_file (k : Codec E) (hk : k.Lawful) (sig : Str) (hs : SigOk sig)
    (ops : List (FOp E)) (hp : PlainOps k ops) (f : FileP) (rs : List Reply) (h : Session k sig ops f rs)
    (ts : Int) (hmax : ts < 2 ^ 63) (hacc : (f.call k (.updateHead ts)).2 = .headUpdated)
    (more : List (FOp E)) (hm : HeadOnly more) :
    ∃ g rs', (f.call k (.updateHead ts)).1.run k sig more = (some g, rs') ∧
      g.bytes.length = (f.call k (.updateHead ts)).1.bytes.length := by
  obtain ⟨_, ls, st, hf, ht⟩ := h.sync hk hs hp
  have hts : ts > f.head := by
    apply Classical.byContradiction; intro hc
    simp [FileP.call, FileP.updateHead, hc] at hacc
  obtain ⟨ls', st', h1, h2, h3, _⟩ := hf.setHead ts hts hmax
  have key : ∀ (more : List (FOp E)), HeadOnly more → ∀ (f : FileP) (m : Mem E) ls st, FSim k sig f m ls st →
      f.headOffset ≠ 0 → ∃ g rs', f.run k sig more = (some g, rs') ∧ g.bytes.length = f.bytes.length := by
    intro more
    induction more with
    | nil => intro _ f m ls st _ _; exact ⟨f, [], rfl, rfl⟩
    | cons op more ih =>
      intro hho f m ls st hsim hoff
      cases op with
      | reopen =>
        obtain ⟨g, rs', e1, e2⟩ := ih (by simpa [HeadOnly] using hho) f m ls st hsim hoff
        refine ⟨g, rs', ?_, e2⟩
        simp only [FileP.run, FileP.step, hsim.reopen]
        simp [e1]
      | call c =>
        cases c with
        | publish _ _ => simp [HeadOnly] at hho
        | publishUnsafe _ => simp [HeadOnly] at hho
        | updateHead t =>
          simp only [HeadOnly] at hho
          by_cases htt : t > f.head
          · obtain ⟨ls', st', s1, s2, s3, s4⟩ := hsim.setHead t htt hho.1
            obtain ⟨g, rs', e1, e2⟩ := ih hho.2 _ _ _ _ s1 s3
            refine ⟨g, (f.updateHead t).2 :: rs', ?_, by rw [e2, s4 hoff]⟩
            simp only [FileP.run, FileP.step, FileP.call]
            simp [e1]
          · obtain ⟨g, rs', e1, e2⟩ := ih hho.2 f m ls st hsim hoff
            refine ⟨g, (f.updateHead t).2 :: rs', ?_, e2⟩
            have : (f.updateHead t).1 = f := by simp [FileP.updateHead, htt]
            simp only [FileP.run, FileP.step, FileP.call]
            simp [this, e1]
  exact key more hm _ _ _ _ h1 h3

example : HeadOnly ([.call (.updateHead 5), .reopen, .call (.updateHead 9)] : List (FOp Nat)) := by
  simp [HeadOnly]

/-! ## C11 -/

/-- The timestamp a line of the file states: that of an entry, or that of a head directive. -/
def lineTime (k : Codec E) (line : Str) : Option Int :=
  if line.head? = some '#' then
    if kHead.isPrefixOf line then some (fromStringInt64 ((line.drop kHead.length).dropWhile isSpace)) else none
  else (entryOf k line).map (·.1.us)

theorem scanLine_time {k : Codec E} {sig : Str} {st st' : Scan} {line : Str}
    (h : scanLine k sig st line = .ok st') :
    (lineTime k line = none ∧ st'.head = st.head) ∨
    (∃ t, lineTime k line = some t ∧ st.head < t ∧ st'.head = t) := by
  have h0 := scanLine_ok h
  simp only [scanLine] at h
  split at h
  · rename_i t
    split at h
    · rename_i hp
      split at h
      · rename_i hgt
        injection h with h
        right
        refine ⟨_, by simp only [lineTime, hp]; rfl, hgt, by rw [← h]⟩
      · simp at h
    · rename_i hp
      left
      refine ⟨by simp [lineTime, hp], ?_⟩
      split at h
      · split at h
        · simp at h
        · split at h
          · injection h with h; rw [← h]
          · simp at h
      · injection h with h; rw [← h]
  · right
    rename_i hne
    have hne' : line.head? ≠ some '#' := by
      intro hc
      cases line with
      | nil => simp at hc
      | cons c t => simp at hc; subst hc; exact hne t rfl
    rcases h0 with h0 | ⟨x, b, _, he, _, _, h3, h4⟩
    · exact absurd h0.1 hne'
    · exact ⟨x.us, by simp [lineTime, hne', he], h3, by rw [h4]⟩

theorem scan_times {k : Codec E} {sig : Str} {ls : List Str} {st st' : Scan}
    (h : scanLines k sig st ls = .ok st') :
    (ls.filterMap (lineTime k)).Pairwise (· < ·) ∧ (∀ t ∈ ls.filterMap (lineTime k), st.head < t ∧ t ≤ st'.head) ∧
    st.head ≤ st'.head ∧
    (st'.head = st.head ∨ (ls.filterMap (lineTime k)).getLast? = some st'.head) := by
  induction ls generalizing st with
  | nil => simp [scanLines] at h; subst h; simp
  | cons l ls ih =>
    simp only [scanLines] at h
    cases hl : scanLine k sig st l with
    | error e => simp [hl] at h
    | ok st₁ =>
      simp only [hl] at h
      obtain ⟨i1, i2, i3, i4⟩ := ih h
      rcases scanLine_time hl with ⟨h1, h2⟩ | ⟨t, h1, h2, h3⟩
      · simp only [List.filterMap_cons, h1]
        rw [h2] at i2 i3 i4
        exact ⟨i1, i2, i3, i4⟩
      · simp only [List.filterMap_cons, h1]
        rw [h3] at i2 i3 i4
        refine ⟨List.pairwise_cons.2 ⟨fun a ha => (i2 a ha).1, i1⟩, ?_, by omega, ?_⟩
        · intro a ha
          simp only [List.mem_cons] at ha
          rcases ha with rfl | ha
          · exact ⟨h2, i3⟩
          · have := i2 a ha; exact ⟨by omega, this.2⟩
        · right
          rcases i4 with i4 | i4
          · cases hf : ls.filterMap (lineTime k) with
            | nil => simp [i4]
            | cons a r =>
              have := i2 a (by rw [hf]; simp)
              omega
          · rw [List.getLast?_cons, i4]; rfl

theorem scan_signature {k : Codec E} {sig : Str} {ls : List Str} {st st' : Scan}
    (h : scanLines k sig st ls = .ok st') (i : Nat) (l : Str) (hl : ls[i]? = some l)
    (hp : kSignature.isPrefixOf l = true) :
    i = 0 ∧ st.offset = 0 ∧ sig <+: (l.drop kSignature.length).dropWhile isSpace := by
  induction ls generalizing st i with
  | nil => simp at hl
  | cons a ls ih =>
    simp only [scanLines] at h
    cases hs : scanLine k sig st a with
    | error e => simp [hs] at h
    | ok st₁ =>
      simp only [hs] at h
      cases i with
      | succ i =>
        obtain ⟨_, h2, _⟩ := ih h i (by simpa using hl)
        have : st₁.offset ≠ 0 := by
          rcases scanLine_ok hs with h0 | ⟨x, b, _, _, _, _, _, h4⟩
          · have := h0.2.2.2.2.2.2; omega
          · rw [h4]; simp
        exact absurd h2 this
      | zero =>
        simp at hl; subst hl
        refine ⟨rfl, ?_⟩
        -- `a` starts with "#s…", so it is neither an entry nor a head line
        cases a with
        | nil => simp [kSignature] at hp
        | cons c t =>
          have hc : c = '#' := by
            simp [kSignature, List.isPrefixOf] at hp; exact hp.1.symm
          subst hc
          have hnh : kHead.isPrefixOf ('#' :: t) = false := by
            cases t with
            | nil => simp [kHead, List.isPrefixOf]
            | cons d t =>
              simp [kSignature, List.isPrefixOf] at hp
              simp [kHead, List.isPrefixOf, ← hp.1]
          simp only [scanLine, hnh, hp] at hs
          simp only [if_true] at hs
          split at hs
          · rename_i hc; simp at hc
          · split at hs
            · simp at hs
            · rename_i h0
              split at hs
              · rename_i htk
                refine ⟨by omega, ?_⟩
                rw [← htk]; exact List.take_prefix _ _
              · simp at hs

/-- **C11.** Whatever bytes the file holds: if opening succeeds, the entry lines are numbered 0, 1, 2, …; all timestamps
stated by entry and head lines strictly increase along the file and are non-negative; the persister's size and head are
those of the file; every other line is a directive; and a signature line can only be the first line, and it starts with the
expected signature. -/
theorem open_accepts_only_consistent_files (k : Codec E) (sig bytes : Str) (f : FileP)
    (h : openFile k sig bytes = .ok f) :
    (((getLines bytes).filterMap (entryOf k)).map (·.1.index) = List.range f.size) ∧
    ((getLines bytes).filterMap (lineTime k)).Pairwise (· < ·) ∧
    (∀ t ∈ (getLines bytes).filterMap (lineTime k), 0 ≤ t ∧ t ≤ f.currentHead) ∧
    (f.currentHead = -1 ∨ ((getLines bytes).filterMap (lineTime k)).getLast? = some f.currentHead) ∧
    (∀ l ∈ getLines bytes, l.head? = some '#' ∨ (entryOf k l).isSome) ∧
    (∀ i l, (getLines bytes)[i]? = some l → kSignature.isPrefixOf l = true →
      i = 0 ∧ sig <+: (l.drop kSignature.length).dropWhile isSpace) := by
  simp only [openFile] at h
  cases hs : scanLines k sig .init (getLines bytes) with
  | error e => simp [hs] at h
  | ok st =>
    simp only [hs] at h
    injection h with h
    have inv := scan_inv hs
    obtain ⟨t1, t2, t3, t4⟩ := scan_times hs
    have hsz : f.size = st.next.index := by rw [← h]; rfl
    have hhd : f.currentHead = st.head := by rw [← h]; rfl
    refine ⟨?_, t1, ?_, ?_, inv.dirs, ?_⟩
    · have := inv.indexes
      rw [hsz, inv.nextIndex]; exact this
    · intro t ht
      have := t2 t ht
      simp only [Scan.init] at this
      rw [hhd]; omega
    · rw [hhd]; simpa [Scan.init] using t4
    · intro i l hl hp
      obtain ⟨h1, _, h3⟩ := scan_signature hs i l hl hp
      exact ⟨h1, h3⟩

/-- Non-vacuity: a two-entry file (with a foreign directive and a head line) that opens; and three corrupt ones that do not. -/
example :
    (openFile natCodec demoSig (unlines [sigText demoSig, entryLine natCodec ⟨0, 5⟩ 1, ['#', 'x'], headText 7,
        entryLine natCodec ⟨1, 8⟩ 2])).map (fun f => (f.size, f.currentHead)) = .ok (2, 8) ∧
    openFile natCodec demoSig (unlines [entryLine natCodec ⟨0, 5⟩ 1, entryLine natCodec ⟨2, 8⟩ 2]) =
      .error (.inconsistentIndex 1 2) ∧
    openFile natCodec demoSig (unlines [entryLine natCodec ⟨0, 5⟩ 1, headText 9, entryLine natCodec ⟨1, 8⟩ 2]) =
      .error (.inconsistentTimestamp 10 8) ∧
    openFile natCodec demoSig (unlines [headText 9, sigText demoSig]) = .error .invalidSignatureLocation := by
  decide +kernel

/-! ## C12 -/

/-- **C12 (memory).** `PublishUnsafe` on the memory persister accepts exactly the lines `idxts TAB body` with the next
index, a timestamp above the head, and a body that parses. -/
theorem memory_publishUnsafe_decision (k : Codec E) (m : Mem E) (line : Str) (x : IdxTs) :
    (m.call k (.publishUnsafe line)).2 = .published x ↔
      ∃ a b, splitTab line = some (a, b) ∧ k.getIdx a = some x ∧ x.index = m.size ∧ m.currentHead < x.us ∧
        (k.get b).isSome := by
  simp only [Mem.call, Mem.publishUnsafe, Mem.size, Mem.currentHead]
  cases splitTab line with
  | none => simp
  | some ab =>
    obtain ⟨a, b⟩ := ab
    cases hx : k.getIdx a with
    | none => simp [hx]
    | some y =>
      by_cases h1 : y.index = m.entries.length <;> by_cases h2 : y.us > m.head <;> cases hg : k.get b
      all_goals
        simp only [hx, hg, h1, h2, ne_eq, not_true_eq_false, not_false_eq_true, if_true, if_false]
        constructor
        · intro h
          injection h
          all_goals subst_vars
          all_goals exact ⟨a, b, rfl, hx, by simp_all, by omega, by simp [hg]⟩
        · rintro ⟨a', b', hab, h3, h4, h5, h6⟩
          simp only [Option.some.injEq, Prod.mk.injEq] at hab
          obtain ⟨rfl, rfl⟩ := hab
          rw [hx] at h3
          simp only [Option.some.injEq] at h3
          subst h3
          first | rfl | (exfalso; simp_all; done) | (exfalso; omega)

/-- **C12 (file).** The file persister's acceptance rule is the same except that the body is not looked at. -/
theorem file_publishUnsafe_decision (k : Codec E) (f : FileP) (line : Str) (x : IdxTs) :
    (f.call k (.publishUnsafe line)).2 = .published x ↔
      ∃ a b, splitTab line = some (a, b) ∧ k.getIdx a = some x ∧ x.index = f.size ∧ f.currentHead < x.us := by
  simp only [FileP.call, FileP.publishUnsafe, FileP.size, FileP.currentHead]
  cases splitTab line with
  | none => simp
  | some ab =>
    obtain ⟨a, b⟩ := ab
    cases hx : k.getIdx a with
    | none => simp [hx]
    | some y =>
      by_cases h1 : y.index = f.nextIndex <;> by_cases h2 : y.us > f.head
      all_goals
        simp only [hx, h1, h2, ne_eq, not_true_eq_false, not_false_eq_true, if_true, if_false]
        constructor
        · intro h
          injection h
          all_goals subst_vars
          all_goals exact ⟨a, b, rfl, hx, by simp_all, by omega⟩
        · rintro ⟨a', b', hab, h3, h4, h5⟩
          simp only [Option.some.injEq, Prod.mk.injEq] at hab
          obtain ⟨rfl, rfl⟩ := hab
          rw [hx] at h3
          simp only [Option.some.injEq] at h3
          subst h3
          first | rfl | (exfalso; simp_all; done) | (exfalso; omega)

/-- **C12 (raw lines are kept verbatim), partial.** In any session of plain calls, the raw line read at index `i` is,
also after reopening, the text the `i`-th accepted call wrote: the given line for `PublishUnsafe`, `idxts TAB json` for `Publish`.
Missing: raw lines with a line break or an unparsable body, for which the claim is false, see the two theorems below. -/
theorem raw_lines_are_verbatim_partial (k : Codec E) (hk : k.Lawful) (sig : Str) (hs : SigOk sig)
    (ops : List (FOp E)) (hp : PlainOps k ops) (f : FileP) (rs : List Reply) (h : Session k sig ops f rs) :
    (writtenLines k (callsOf ops) rs).length = f.size ∧
    ∀ i t, (writtenLines k (callsOf ops) rs)[i]? = some t →
      f.rawLine i = .ok t ∧ ∃ g, openFile k sig f.bytes = .ok g ∧ g.rawLine i = .ok t := by
  obtain ⟨hr, ls, st, hf, ht⟩ := h.sync hk hs hp
  constructor
  · have inv := scan_inv hf.scan
    have hfl : ∀ l : List Str, (l.filter (isEntry k)).length = (entryLines k l).length := by
      intro l
      induction l with
      | nil => rfl
      | cons a l ih =>
        cases he : entryOf k a with
        | none =>
          have : isEntry k a = false := by simp [isEntry, he]
          simpa [entryLines, he, this] using ih
        | some x =>
          have : isEntry k a = true := by simp [isEntry, he]
          simpa [entryLines, he, this] using ih
    rw [ht, hfl, ← inv.nextIndex, ← hf.nextIndex]; rfl
  · intro i t hit
    rw [ht] at hit
    exact ⟨hf.rawLine i t hit, f, hf.reopen, hf.rawLine i t hit⟩

/-- **C12, violation 1.** `PublishUnsafe` accepts a raw line holding a line break; the file can then not be opened
any more, although the call was acknowledged. -/
theorem raw_line_with_newline_breaks_the_file :
    ∃ (f : FileP) (line : Str), openFile natCodec demoSig [] = .ok f ∧
      (f.call natCodec (.publishUnsafe line)).2 = .published ⟨0, 5⟩ ∧
      openFile natCodec demoSig (f.call natCodec (.publishUnsafe line)).1.bytes = .error .malformedEntry := by
  refine ⟨_, entryLine natCodec ⟨0, 5⟩ 1 ++ ['\n', 'z'], rfl, ?_, ?_⟩ <;> decide +kernel

/-- **C12, violation 2 (and a difference between the persisters).** The file persister acknowledges a raw line whose
body does not parse, and then every iteration over it throws; the memory persister rejects the line. -/
theorem raw_line_with_bad_body_is_acknowledged :
    ∃ (f : FileP) (line : Str), openFile natCodec demoSig [] = .ok f ∧
      (f.call natCodec (.publishUnsafe line)).2 = .published ⟨0, 5⟩ ∧
      (f.call natCodec (.publishUnsafe line)).1.iterate natCodec 0 none = .thrown .parseError ∧
      (Mem.init.call natCodec (.publishUnsafe line)).2 = .thrown .parseError := by
  refine ⟨_, natCodec.putIdx ⟨0, 5⟩ ++ ['\t', 'z'], rfl, ?_, ?_, ?_⟩ <;> decide +kernel

end Current.Persist
