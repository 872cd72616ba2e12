import Verif.Persist.FileProps
/-!
Property C10: crashes while the file is being written. A crash is a truncation of what the last call writes:
only a prefix of its bytes reaches the file (for the in-place head rewrite, a prefix of the new digits over the old ones).
-/
namespace Current.Persist

variable {E : Type}

/-! ### Lemmas -/

theorem fetch_extra {k : Codec E} {i : Nat} {next : IdxTs} {ls extra : List Str} {r : (IdxTs × E) × IdxTs × List Str}
    (h : fetch k i next ls = .ok r) : fetch k i next (ls ++ extra) = .ok (r.1, r.2.1, r.2.2 ++ extra) := by
  induction ls generalizing next with
  | nil => simp [fetch] at h
  | cons l ls ih =>
    rw [List.cons_append]
    unfold fetch at h ⊢
    split at h
    · exact ih h
    · cases hs : splitTab l with
      | none => simp [hs] at h
      | some ab =>
        obtain ⟨a, b⟩ := ab
        simp only [hs] at h ⊢
        cases hx : k.getIdx a with
        | none => simp [hx] at h
        | some cur =>
          simp only [hx] at h ⊢
          split at h
          · simp at h
          · split at h
            · simp at h
            · split at h
              · rename_i h1 h2 h3
                rw [if_neg h1, if_neg h2, if_pos h3]
                cases hg : k.get b with
                | none => simp [hg] at h
                | some e =>
                  simp only [hg] at h ⊢
                  injection h with h
                  rw [← h]
              · split at h
                · simp at h
                · rename_i h1 h2 h3 h4
                  rw [if_neg h1, if_neg h2, if_neg h3, if_neg h4]
                  exact ih h

theorem fetchMany_extra {k : Codec E} {i n : Nat} {next : IdxTs} {ls extra : List Str} {r : List (IdxTs × E)}
    (h : fetchMany k i n next ls = .ok r) : fetchMany k i n next (ls ++ extra) = .ok r := by
  induction n generalizing i next ls r with
  | zero => simpa [fetchMany] using h
  | succ n ih =>
    simp only [fetchMany] at h ⊢
    cases hf : fetch k i next ls with
    | error e => simp [hf] at h
    | ok p =>
      obtain ⟨x, next', ls'⟩ := p
      simp only [hf] at h
      rw [fetch_extra hf]
      simp only
      cases hm : fetchMany k (i + 1) n next' ls' with
      | error e => simp [hm] at h
      | ok xs => simp only [hm] at h; rw [ih hm]; exact h

/-- Opening a healthy file with an unterminated line after it. -/
theorem FSim.openTail {k : Codec E} {sig : Str} {f : FileP} {m : Mem E} {ls : List Str} {st : Scan}
    (h : FSim k sig f m ls st) (p : Str) (hp : p ≠ []) (hn : '\n' ∉ p) :
    openFile k sig (f.bytes ++ p) =
      match scanLine k sig st p with
      | .error e => .error e
      | .ok s => .ok { bytes := f.bytes ++ p, appPos := (f.bytes ++ p).length, recOffset := s.recOffset, recTs := s.recTs
                       headOffset := s.headOffset, nextIndex := s.next.index, lastUs := s.next.us - 1, head := s.head } := by
  unfold openFile
  rw [h.bytes, getLines_unlines_append _ _ h.noNl, getLines_last p hn hp, scanLines_snoc h.scan]
  cases hs : scanLine k sig st p with
  | error e => rfl
  | ok s =>
    have inv := scan_inv h.scan
    have : s.offset ≠ 0 := by
      rcases scanLine_ok hs with h0 | ⟨x, b, _, _, _, _, _, h4⟩
      · have := h0.2.2.2.2.2.2; omega
      · rw [h4]; simp
    simp only [this, if_false]

/-- Entries of the healthy part read the same from any file that extends it, as long as the offsets are kept. -/
theorem FSim.iterate_ext {k : Codec E} {sig : Str} {f : FileP} {m : Mem E} {ls : List Str} {st : Scan}
    (h : FSim k sig f m ls st) (g : FileP) (p : Str) (offs : List Nat) (hb : g.bytes = f.bytes ++ p)
    (ho : g.recOffset = f.recOffset ++ offs) (hs : f.size ≤ g.size) (hl : g.recOffset.length = g.size)
    (b e : Nat) (he : e ≤ f.size) : g.iterate k b (some e) = f.iterate k b (some e) := by
  have inv := scan_inv h.scan
  have hro : f.recOffset.length = f.size := by
    rw [h.recOffset, inv.offLen, ← inv.nextIndex, ← h.nextIndex]; rfl
  simp only [FileP.size] at he hs hl hro
  simp only [FileP.iterate, FileP.iterateRange, Option.getD_some]
  have c1 : ¬ e > g.nextIndex := by omega
  have c2 : ¬ e > f.nextIndex := by omega
  have c3 : ¬ g.recOffset.length < g.nextIndex := by omega
  have c4 : ¬ f.recOffset.length < f.nextIndex := by omega
  simp only [c1, c2, c3, c4, if_false]
  by_cases hbe : b = e
  · simp [hbe, FileP.read]
  · by_cases hlt : e < b
    · simp only [hbe, hlt, if_true, if_false]
    · simp only [hbe, hlt, if_false]
      have hbf : b < st.recOffset.length := by rw [← h.recOffset]; omega
      have hget : f.recOffset[b]? = some (st.recOffset[b]) := by rw [h.recOffset]; simp [hbf]
      have hget' : g.recOffset[b]? = some (st.recOffset[b]) := by
        rw [ho, List.getElem?_append_left (by rw [hro]; omega), hget]
      simp only [hget, hget', FileP.read, hbe, if_false]
      obtain ⟨ls₁, l, ls₂, e1, e2, e3, e4⟩ := inv.offs b hbf
      have hn : NoNl (l :: ls₂) := fun x hx => h.noNl x (by rw [e1]; simp at hx ⊢; right; exact hx)
      have d1 : f.bytes.drop st.recOffset[b] = unlines (l :: ls₂) := by
        rw [e2, h.bytes, e1, unlines_append, List.drop_left]
      have d2 : g.bytes.drop st.recOffset[b] = unlines (l :: ls₂) ++ p := by
        rw [e2, hb, h.bytes, e1, unlines_append, List.append_assoc, List.drop_left]
      rw [d1, d2, getLines_unlines _ hn, getLines_unlines_append _ _ hn]
      have hcl := h.clean
      rw [e1] at hcl
      obtain ⟨u, hu, hcl⟩ := hcl.drop
      rw [e3] at hcl
      simp only [Nat.zero_add] at hcl
      have hcl := hcl.weaken (next' := ⟨b, 0⟩) rfl (by simp at hu ⊢; omega)
      have hml := h.nextLen
      have := fetchMany_clean hcl (e - b) (by simp [Mem.all_length]; omega)
      simp only at this
      rw [this, fetchMany_extra this]

theorem splitTab_none {l : Str} (h : '\t' ∉ l) : splitTab l = none := by
  induction l with
  | nil => rfl
  | cons c l ih =>
    simp only [List.mem_cons, not_or] at h
    simp [splitTab, Ne.symm h.1, ih h.2]

theorem not_mem_take {l : Str} {c : Char} (n : Nat) (h : c ∉ l) : c ∉ l.take n :=
  fun hc => h (List.mem_of_mem_take hc)

theorem scanLine_entry {k : Codec E} {sig : Str} {st : Scan} {line a b : Str} {x : IdxTs}
    (hh : line.head? ≠ some '#') (hsp : splitTab line = some (a, b)) (hx : k.getIdx a = some x)
    (hi : x.index = st.next.index) (hu : st.next.us ≤ x.us) (hg : st.head < x.us) :
    scanLine k sig st line = .ok
      { offset := st.offset + line.length + 1, next := ⟨x.index + 1, x.us + 1⟩, head := x.us, headOffset := 0
        recOffset := st.recOffset ++ [st.offset], recTs := st.recTs ++ [x.us] } := by
  unfold scanLine
  split
  · simp at hh
  · rw [hsp]; simp only [hx]
    rw [if_neg (by simp [hi]), if_neg (by omega), if_neg (by simp; omega)]

/-! ## C10: crash while an entry is appended -/

/-- What `Publish` writes for entry `e` at timestamp `ts`. -/
def publishText (k : Codec E) (f : FileP) (e : E) (ts : Int) : Str := entryLine k ⟨f.size, ts⟩ e ++ ['\n']

theorem take_entryLine_tab {k : Codec E} (x : IdxTs) (e : E) (n : Nat)
    (h1 : (k.putIdx x).length < n) (h2 : n ≤ (entryLine k x e).length) :
    (entryLine k x e ++ ['\n']).take n = k.putIdx x ++ '\t' :: (k.put e).take (n - (k.putIdx x).length - 1) := by
  have e1 : entryLine k x e ++ ['\n'] = k.putIdx x ++ ('\t' :: (k.put e ++ ['\n'])) := by simp [entryLine]
  rw [e1, List.take_append]
  have e2 : List.take n (k.putIdx x) = k.putIdx x := List.take_of_length_le (by omega)
  rw [e2]
  obtain ⟨d, hd⟩ : ∃ d, n - (k.putIdx x).length = d + 1 := ⟨n - (k.putIdx x).length - 1, by omega⟩
  rw [hd, List.take_succ_cons, Nat.add_sub_cancel, List.take_append]
  have : d - (k.put e).length = 0 := by simp [entryLine] at h2; omega
  rw [this]; simp

/-- **C10 (crash in `Publish`), partial.** After any session, the process dies while `Publish` writes its line,
so that only the first `n` bytes of it reach the file. Then, exactly:
nothing written – the persister reopens as it was; the tab not reached – reopening throws `MalformedEntry` (the file needs repair); the
tab reached but not the line break – reopening succeeds, with one more entry, and all earlier entries read as before; everything
written – the publication is there. In no case is an earlier entry damaged.
Missing: "entries published after the reopening survive": false, see `publication_after_torn_line_is_lost`. -/
theorem crash_in_publish_partial (k : Codec E) (hk : k.Lawful) (sig : Str) (hs : SigOk sig)
    (ops : List (FOp E)) (hp : PlainOps k ops) (f : FileP) (rs : List Reply) (h : Session k sig ops f rs)
    (e : E) (ts : Int) (hts : f.currentHead < ts) (n : Nat) :
    let text := publishText k f e ts
    let tab := (k.putIdx ⟨f.size, ts⟩).length
    let r := openFile k sig (f.bytes ++ text.take n)
    (n = 0 → r = .ok f) ∧
    (0 < n ∧ n ≤ tab → r = .error .malformedEntry) ∧
    (tab < n ∧ n < text.length → ∃ g, r = .ok g ∧ g.size = f.size + 1 ∧ g.currentHead = ts ∧
      ∀ b e, e ≤ f.size → g.iterate k b (some e) = f.iterate k b (some e)) ∧
    (text.length ≤ n → r = .ok (f.call k (.publish e ts)).1) := by
  obtain ⟨hr, hinv⟩ := h.sync hk hs hp
  obtain ⟨ls, st, hf, ht⟩ := id hinv
  obtain ⟨f1, f2, f3⟩ := entryLine_facts hk ⟨f.size, ts⟩ e
  have inv := scan_inv hf.scan
  refine ⟨?_, ?_, ?_, ?_⟩
  · intro hn; simp only [hn, List.take_zero, List.append_nil]; exact hf.reopen
  · intro ⟨hn0, hn⟩
    have htake : (publishText k f e ts).take n = (k.putIdx ⟨f.size, ts⟩).take n := by
      rw [publishText, entryLine, List.append_assoc, List.append_assoc, List.take_append_of_le_length hn]
    obtain ⟨t, htt⟩ := hk.putIdx_head ⟨f.size, ts⟩
    have hne : (k.putIdx ⟨f.size, ts⟩).take n ≠ [] := by
      rw [htt]; cases n with
      | zero => omega
      | succ n => simp
    simp only [htake]
    rw [hf.openTail _ hne (not_mem_take n (hk.putIdx_nl _))]
    have : scanLine k sig st ((k.putIdx ⟨f.size, ts⟩).take n) = .error .malformedEntry := by
      unfold scanLine
      split
      · rename_i t' hc
        rw [htt] at hc
        cases n with
        | zero => omega
        | succ n => simp at hc
      · rw [splitTab_none (not_mem_take n (hk.putIdx_tab _))]
    rw [this]
  · intro ⟨hn1, hn2⟩
    have hle : n ≤ (entryLine k ⟨f.size, ts⟩ e).length := by simp [publishText] at hn2; omega
    have htake : (publishText k f e ts).take n =
        k.putIdx ⟨f.size, ts⟩ ++ '\t' :: (k.put e).take (n - (k.putIdx ⟨f.size, ts⟩).length - 1) :=
      take_entryLine_tab ⟨f.size, ts⟩ e n hn1 hle
    generalize (k.put e).take (n - (k.putIdx ⟨f.size, ts⟩).length - 1) = body at htake
    have hpn : (publishText k f e ts).take n = (entryLine k ⟨f.size, ts⟩ e).take n := by
      rw [publishText, List.take_append_of_le_length hle]
    have hnl : '\n' ∉ (publishText k f e ts).take n := by rw [hpn]; exact not_mem_take n f1
    obtain ⟨t, htt⟩ := hk.putIdx_head ⟨f.size, ts⟩
    have hhead : ((publishText k f e ts).take n).head? ≠ some '#' := by rw [htake, htt]; simp
    have hne : (publishText k f e ts).take n ≠ [] := by rw [htake]; simp
    have hsp : splitTab ((publishText k f e ts).take n) = some (k.putIdx ⟨f.size, ts⟩, body) := by
      rw [htake]; exact splitTab_append _ _ (hk.putIdx_tab _)
    have hhd : st.head < ts := by rw [← hf.head]; exact hts
    have hsc := scanLine_entry (sig := sig) hhead hsp (hk.getIdx_putIdx _) (st := st)
      (by simp only [FileP.size]; exact hf.nextIndex) (by have := inv.next_le; simp only; omega) hhd
    refine ⟨_, by rw [hf.openTail _ hne hnl, hsc], rfl, rfl, ?_⟩
    intro b e' he'
    refine hf.iterate_ext _ _ [st.offset] rfl ?_ ?_ ?_ b e' he'
    · simp [hf.recOffset]
    · simp [FileP.size]
    · simp [FileP.size, inv.offLen, hf.nextIndex, inv.nextIndex]
  · intro hn
    rw [List.take_of_length_le hn]
    obtain ⟨_, hg⟩ := hinv.call hk (.publish e ts) trivial
    have hb : (f.call k (.publish e ts)).1.bytes = f.bytes ++ publishText k f e ts := by
      have : ts > f.head := hts
      simp [FileP.call, FileP.publish, this, FileP.append, publishText, FileP.size]
    rw [← hb]; exact hg.reopen

/-- **C10, the violation.** Whenever the crash left a line whose tab was written but not its line break, the *next*
publication, although acknowledged after the reopening, is gone at the reopening after that: its line is glued to the torn one.
This holds after every session, for every entry and every such crash point. -/
theorem publication_after_torn_line_is_lost (k : Codec E) (hk : k.Lawful) (sig : Str) (hs : SigOk sig)
    (ops : List (FOp E)) (hp : PlainOps k ops) (f : FileP) (rs : List Reply) (h : Session k sig ops f rs)
    (e e' : E) (ts ts' : Int) (hts : f.currentHead < ts) (hts' : ts < ts') (n : Nat)
    (hn1 : (k.putIdx ⟨f.size, ts⟩).length < n) (hn2 : n < (publishText k f e ts).length) :
    ∃ g, openFile k sig (f.bytes ++ (publishText k f e ts).take n) = .ok g ∧
      (g.call k (.publish e' ts')).2 = .published ⟨f.size + 1, ts'⟩ ∧
      ∃ g', openFile k sig (g.call k (.publish e' ts')).1.bytes = .ok g' ∧ g'.size = f.size + 1 := by
  obtain ⟨hr, hinv⟩ := h.sync hk hs hp
  obtain ⟨ls, st, hf, ht⟩ := id hinv
  obtain ⟨f1, f2, f3⟩ := entryLine_facts hk ⟨f.size, ts⟩ e
  have inv := scan_inv hf.scan
  have hle : n ≤ (entryLine k ⟨f.size, ts⟩ e).length := by simp [publishText] at hn2; omega
  have htake : (publishText k f e ts).take n =
      k.putIdx ⟨f.size, ts⟩ ++ '\t' :: (k.put e).take (n - (k.putIdx ⟨f.size, ts⟩).length - 1) :=
    take_entryLine_tab ⟨f.size, ts⟩ e n hn1 hle
  generalize (k.put e).take (n - (k.putIdx ⟨f.size, ts⟩).length - 1) = body at htake
  have hpn : (publishText k f e ts).take n = (entryLine k ⟨f.size, ts⟩ e).take n := by
    rw [publishText, List.take_append_of_le_length hle]
  have hnl : '\n' ∉ (publishText k f e ts).take n := by rw [hpn]; exact not_mem_take n f1
  obtain ⟨t, htt⟩ := hk.putIdx_head ⟨f.size, ts⟩
  have hhead : ((publishText k f e ts).take n).head? ≠ some '#' := by rw [htake, htt]; simp
  have hne : (publishText k f e ts).take n ≠ [] := by rw [htake]; simp
  have hsp : splitTab ((publishText k f e ts).take n) = some (k.putIdx ⟨f.size, ts⟩, body) := by
    rw [htake]; exact splitTab_append _ _ (hk.putIdx_tab _)
  have hhd : st.head < ts := by rw [← hf.head]; exact hts
  have hni : st.next.index = f.size := hf.nextIndex.symm
  have hsc := scanLine_entry (sig := sig) hhead hsp (hk.getIdx_putIdx _) (st := st)
    hni.symm (by have := inv.next_le; simp only; omega) hhd
  refine ⟨_, by rw [hf.openTail _ hne hnl, hsc], ?_, ?_⟩
  · simp only [FileP.call, FileP.publish]
    rw [if_pos (by simpa using hts')]
  · obtain ⟨q1, q2, q3⟩ := entryLine_facts hk ⟨f.size + 1, ts'⟩ e'
    -- the glued line
    have hbytes : (FileP.call k
        { bytes := f.bytes ++ (publishText k f e ts).take n
          appPos := (f.bytes ++ (publishText k f e ts).take n).length
          recOffset := st.recOffset ++ [st.offset], recTs := st.recTs ++ [ts], headOffset := 0
          nextIndex := f.size + 1, lastUs := ts + 1 - 1, head := ts } (.publish e' ts')).1.bytes =
        unlines (ls ++ [(publishText k f e ts).take n ++ entryLine k ⟨f.size + 1, ts'⟩ e']) := by
      simp only [FileP.call, FileP.publish]
      rw [if_pos (by simpa using hts')]
      simp [FileP.append, hf.bytes]
    have hglue := scanLine_entry (sig := sig) (line := (publishText k f e ts).take n ++ entryLine k ⟨f.size + 1, ts'⟩ e')
      (a := k.putIdx ⟨f.size, ts⟩) (b := body ++ entryLine k ⟨f.size + 1, ts'⟩ e') (x := ⟨f.size, ts⟩)
      (st := st) (by rw [htake, htt]; simp)
      (by
        rw [htake]
        have := splitTab_append (k.putIdx ⟨f.size, ts⟩) (body ++ entryLine k ⟨f.size + 1, ts'⟩ e') (hk.putIdx_tab _)
        simpa using this)
      (hk.getIdx_putIdx _) hni.symm (by have := inv.next_le; simp only; omega) hhd
    have hnl' : NoNl (ls ++ [(publishText k f e ts).take n ++ entryLine k ⟨f.size + 1, ts'⟩ e']) := by
      refine hf.noNl.append (NoNl.single ?_)
      intro hc
      simp only [List.mem_append] at hc
      rcases hc with hc | hc
      · exact hnl hc
      · exact q1 hc
    have hopen : ∃ g', openFile k sig (unlines (ls ++ [(publishText k f e ts).take n ++ entryLine k ⟨f.size + 1, ts'⟩ e'])) =
        .ok g' ∧ g'.size = f.size + 1 := by
      rw [openFile, getLines_unlines _ hnl', scanLines_snoc hf.scan, hglue]
      simp only
      rw [if_neg (by omega)]
      exact ⟨_, rfl, rfl⟩
    obtain ⟨g', w1, w2⟩ := hopen
    exact ⟨g', (congrArg (openFile k sig) hbytes).trans w1, w2⟩

/-- Non-vacuity of the above two, on a concrete file: one entry, then a publication cut before its line break. -/
example : ∃ f rs, Session natCodec demoSig [.call (.publish 7 10)] f rs ∧ f.currentHead < 20 ∧
    (natCodec.putIdx ⟨f.size, 20⟩).length < 20 ∧ 20 < (publishText natCodec f 123 20).length := by
  refine ⟨_, _, ⟨_, rfl, rfl⟩, ?_, ?_, ?_⟩ <;> decide +kernel

/-! ## C10: crash while a head line is appended or rewritten -/

/-- Opening a healthy file with an unterminated directive after it keeps all entries. -/
theorem FSim.openDirective {k : Codec E} {sig : Str} {f : FileP} {m : Mem E} {ls : List Str} {st : Scan}
    (h : FSim k sig f m ls st) (p : Str) (hn : '\n' ∉ p) (hd : p.head? = some '#') (s : Scan)
    (hs : scanLine k sig st p = .ok s) :
    ∃ g, openFile k sig (f.bytes ++ p) = .ok g ∧ g.size = f.size ∧ g.currentHead = s.head ∧
      ∀ b e, e ≤ f.size → g.iterate k b (some e) = f.iterate k b (some e) := by
  have hne : p ≠ [] := by intro hc; subst hc; simp at hd
  have inv := scan_inv h.scan
  rcases scanLine_ok hs with ⟨_, _, h1, h2, h3, _, _⟩ | ⟨x, b, hh, _⟩
  · refine ⟨_, by rw [h.openTail p hne hn, hs], ?_, rfl, ?_⟩
    · simp only [FileP.size, h1, h.nextIndex]
    · intro b e he
      refine h.iterate_ext _ p [] rfl ?_ ?_ ?_ b e he
      · simp [h2, h.recOffset]
      · simp [FileP.size, h1, h.nextIndex]
      · simp [FileP.size, h1, h2, inv.offLen, inv.nextIndex]
  · exact absurd hd hh

/-- **C10 (crash while `UpdateHead` appends its line).** The first `n` bytes of the new head line reached the file.
Then reopening either throws `InconsistentTimestamp`, or succeeds with all entries as before and a head that is not
below the old one and not above the requested one. -/
theorem crash_in_updateHead_append (k : Codec E) (hk : k.Lawful) (sig : Str) (hs : SigOk sig)
    (ops : List (FOp E)) (hp : PlainOps k ops) (f : FileP) (rs : List Reply) (h : Session k sig ops f rs)
    (ts : Int) (hts : f.currentHead < ts) (hmax : ts < 2 ^ 63) (n : Nat) :
    let r := openFile k sig (f.bytes ++ (headText ts ++ ['\n']).take n)
    (∃ a b, r = .error (.inconsistentTimestamp a b)) ∨
    (∃ g, r = .ok g ∧ g.size = f.size ∧ f.currentHead ≤ g.currentHead ∧ g.currentHead ≤ ts ∧
      ∀ b e, e ≤ f.size → g.iterate k b (some e) = f.iterate k b (some e)) := by
  obtain ⟨hr, hinv⟩ := h.sync hk hs hp
  obtain ⟨ls, st, hf, ht⟩ := id hinv
  have inv := scan_inv hf.scan
  have hhd : f.currentHead = st.head := hf.head
  have hts0 : 0 ≤ ts := by have := hf.minv.head_ge; have := hf.mhead; have := hf.head; simp [FileP.currentHead] at hts; omega
  have hlen := headFmt_length hmax
  have step : ∀ p : Str, '\n' ∉ p → p.head? = some '#' →
      ((∃ s, scanLine k sig st p = .ok s ∧ st.head ≤ s.head ∧ s.head ≤ ts) ∨
        ∃ a b, scanLine k sig st p = .error (.inconsistentTimestamp a b)) →
      (∃ a b, openFile k sig (f.bytes ++ p) = .error (.inconsistentTimestamp a b)) ∨
      (∃ g, openFile k sig (f.bytes ++ p) = .ok g ∧ g.size = f.size ∧ f.currentHead ≤ g.currentHead ∧
        g.currentHead ≤ ts ∧ ∀ b e, e ≤ f.size → g.iterate k b (some e) = f.iterate k b (some e)) := by
    intro p hn hd hc
    rcases hc with ⟨s, h1, h2, h3⟩ | ⟨a, b, h1⟩
    · obtain ⟨g, g1, g2, g3, g4⟩ := hf.openDirective p hn hd s h1
      exact .inr ⟨g, g1, g2, by rw [hhd, g3]; exact h2, by rw [g3]; exact h3, g4⟩
    · left
      refine ⟨a, b, ?_⟩
      rw [hf.openTail p (by intro hc; subst hc; simp at hd) hn, h1]
  simp only
  -- a cut inside the digits
  have digits : ∀ d, d ≤ 20 →
      ((∃ s, scanLine k sig st (kHead ++ [' '] ++ (headFmt ts).take d) = .ok s ∧ st.head ≤ s.head ∧ s.head ≤ ts) ∨
        ∃ a b, scanLine k sig st (kHead ++ [' '] ++ (headFmt ts).take d) = .error (.inconsistentTimestamp a b)) := by
    intro d hd
    have hdig : ∀ c ∈ (headFmt ts).take d, c.isDigit = true := fun c hc => headFmt_digits (List.mem_of_mem_take hc)
    rw [scanLine_digits k sig st _ hdig]
    have hv : fromStringInt64 ((headFmt ts).take d) ≤ ts := by
      by_cases hnil : (headFmt ts).take d = []
      · rw [hnil]; simpa [fromStringInt64] using hts0
      · rw [fromString_digits _ hdig hnil]
        have hval : Nat.ofDigitChars 10 ((headFmt ts).take d) 0 ≤ ts.toNat := by
          have := headFmt_value ts
          rw [← List.take_append_drop d (headFmt ts), Nat.ofDigitChars_append, Nat.ofDigitChars_eq_ofDigitChars_zero] at this
          have hpos : 0 < 10 ^ (List.drop d (headFmt ts)).length := Nat.pow_pos (by decide)
          have : Nat.ofDigitChars 10 ((headFmt ts).take d) 0 ≤
              10 ^ (List.drop d (headFmt ts)).length * Nat.ofDigitChars 10 ((headFmt ts).take d) 0 :=
            Nat.le_mul_of_pos_left _ hpos
          omega
        split <;> omega
    split
    · rename_i hgt
      left; exact ⟨_, rfl, by simp; omega, hv⟩
    · right; exact ⟨_, _, rfl⟩
  by_cases h0 : n = 0
  · subst h0
    right
    refine ⟨f, by simpa using hf.reopen, rfl, by omega, by omega, fun b e _ => rfl⟩
  by_cases h5 : n ≤ 4
  · have hp' : (headText ts ++ ['\n']).take n = kHead.take n := by
      rw [headText, List.append_assoc, List.append_assoc, List.take_append_of_le_length (by simp [kHead]; omega)]
    rw [hp']
    have : n = 1 ∨ n = 2 ∨ n = 3 ∨ n = 4 := by omega
    rcases this with rfl | rfl | rfl | rfl
    all_goals
      refine step _ (by decide) (by decide) (.inl ⟨_, rfl, ?_, ?_⟩) <;> simp only <;> omega
  by_cases h6 : n = 5
  · subst h6
    have hp' : (headText ts ++ ['\n']).take 5 = kHead := by
      rw [headText, List.append_assoc, List.append_assoc, List.take_append_of_le_length (by simp [kHead])]
      rfl
    rw [hp']
    refine step _ (by decide) (by decide) ?_
    have : scanLine k sig st kHead = if (0 : Int) > st.head then
        .ok { st with offset := st.offset + kHead.length + 1, head := 0, headOffset := st.offset + kHead.length }
        else .error (.inconsistentTimestamp (st.head + 1) 0) := rfl
    rw [this]
    split
    · left; exact ⟨_, rfl, by simp; omega, hts0⟩
    · right; exact ⟨_, _, rfl⟩
  by_cases h27 : n ≤ 26
  · have hp' : (headText ts ++ ['\n']).take n = kHead ++ [' '] ++ (headFmt ts).take (n - 6) := by
      have e1 : headText ts ++ ['\n'] = (kHead ++ [' ']) ++ (headFmt ts ++ ['\n']) := by simp [headText]
      rw [e1, List.take_append, List.take_of_length_le (by simp [kHead]; omega)]
      congr 1
      rw [List.take_append_of_le_length (by simp [kHead, hlen]; omega)]
      simp [kHead]
    rw [hp']
    refine step _ ?_ rfl (digits _ (by omega))
    intro hc
    simp only [List.mem_append] at hc
    rcases hc with (hc | hc) | hc
    · revert hc; decide
    · revert hc; decide
    · have := headFmt_digits (List.mem_of_mem_take hc); revert this; decide
  · right
    have hp' : (headText ts ++ ['\n']).take n = headText ts ++ ['\n'] :=
      List.take_of_length_le (by simp [headText, kHead, hlen]; omega)
    rw [hp']
    have hb : f.bytes ++ (headText ts ++ ['\n']) = unlines (ls ++ [headText ts]) := by simp [hf.bytes]
    refine ⟨_, by
      rw [hb, openFile, getLines_unlines _ (hf.noNl.append (NoNl.single (headText_nl ts))), scanLines_snoc hf.scan,
        scanLine_head k sig st hts0 hmax (by omega)], ?_, ?_, ?_, ?_⟩
    · simp only [FileP.size, hf.nextIndex]
    · simp only [FileP.currentHead]; simp only [FileP.currentHead] at hts; omega
    · simp only [FileP.currentHead]; omega
    · intro b e he
      refine hf.iterate_ext _ (headText ts ++ ['\n']) [] ?_ ?_ ?_ ?_ b e he
      · simp [hf.bytes]
      · simp [hf.recOffset]
      · simp [FileP.size, hf.nextIndex]
      · simp [FileP.size, inv.offLen, inv.nextIndex]

/-- The bytes after a crash in the middle of an in-place head rewrite: `n` of the new characters over the old ones. -/
def tornRewrite (f : FileP) (ts : Int) (n : Nat) : Str :=
  overwrite f.bytes f.headOffset ((headFmt ts ++ ['\n']).take n)

theorem ofDigitChars_lt : ∀ l : Str, (∀ c ∈ l, c.isDigit = true) → Nat.ofDigitChars 10 l 0 < 10 ^ l.length := by
  intro l
  induction l with
  | nil => simp
  | cons c l ih =>
    intro h
    rw [Nat.ofDigitChars_cons, Nat.ofDigitChars_eq_ofDigitChars_zero]
    have h1 := ih (fun x hx => h x (by simp [hx]))
    have h2 : c.toNat - '0'.toNat ≤ 9 := by
      have := h c (by simp)
      simp only [Char.isDigit, Bool.and_eq_true, decide_eq_true_eq, ge_iff_le] at this
      have h9 : c.toNat ≤ 57 := this.2
      have : '0'.toNat = 48 := by decide
      omega
    have : 10 ^ l.length * (10 * 0 + (c.toNat - '0'.toNat)) ≤ 10 ^ l.length * 9 := Nat.mul_le_mul_left _ (by omega)
    simp only [List.length_cons, Nat.pow_succ]
    omega

theorem digits_mix (old new : Str) (n : Nat) (hl : old.length = new.length) (hn : n ≤ new.length)
    (hdo : ∀ c ∈ old, c.isDigit = true)
    (hle : Nat.ofDigitChars 10 old 0 ≤ Nat.ofDigitChars 10 new 0)
    (hdn : ∀ c ∈ new, c.isDigit = true) :
    Nat.ofDigitChars 10 old 0 ≤ Nat.ofDigitChars 10 (new.take n ++ old.drop n) 0 := by
  have bound := ofDigitChars_lt
  have app : ∀ a b : Str, Nat.ofDigitChars 10 (a ++ b) 0 =
      10 ^ b.length * Nat.ofDigitChars 10 a 0 + Nat.ofDigitChars 10 b 0 := by
    intro a b
    rw [Nat.ofDigitChars_append]
    exact Nat.ofDigitChars_eq_ofDigitChars_zero
  have h1 := app (old.take n) (old.drop n)
  rw [List.take_append_drop] at h1
  have h2 := app (new.take n) (new.drop n)
  rw [List.take_append_drop] at h2
  have h3 := app (new.take n) (old.drop n)
  have hdl : (new.drop n).length = (old.drop n).length := by simp [hl]
  have hb := bound (new.drop n) (fun c hc => hdn c (List.mem_of_mem_drop hc))
  rw [hdl] at hb h2
  have : Nat.ofDigitChars 10 (old.take n) 0 ≤ Nat.ofDigitChars 10 (new.take n) 0 := by
    apply Classical.byContradiction
    intro hc
    have hc : Nat.ofDigitChars 10 (new.take n) 0 + 1 ≤ Nat.ofDigitChars 10 (old.take n) 0 := by omega
    have := Nat.mul_le_mul_left (10 ^ (old.drop n).length) hc
    rw [Nat.mul_add] at this
    omega
  have := Nat.mul_le_mul_left (10 ^ (old.drop n).length) this
  omega

/-- **C10 (crash while `UpdateHead` rewrites the head in place).** For every session that ends with a head line, every
new head, and every crash point `n` within the new digits, if the timestamps are below 10^18 (year 33658): reopening
succeeds, all entries are as before and the head has not moved backwards. -/
theorem crash_in_head_rewrite_partial (k : Codec E) (hk : k.Lawful) (sig : Str) (hs : SigOk sig)
    (ops : List (FOp E)) (hp : PlainOps k ops) (f : FileP) (rs : List Reply) (h : Session k sig ops f rs)
    (hho : f.headOffset ≠ 0) (ts : Int) (hts : f.currentHead < ts) (hmax : ts < 10 ^ 18) (n : Nat) (hn : n ≤ 21) :
    ∃ g, openFile k sig (tornRewrite f ts n) = .ok g ∧ g.size = f.size ∧ f.currentHead ≤ g.currentHead ∧
      g.iterate k 0 none = f.iterate k 0 none := by
  obtain ⟨hr, hinv⟩ := h.sync hk hs hp
  obtain ⟨ls, st, hf, ht⟩ := id hinv
  have hho' : st.headOffset ≠ 0 := by rw [← hf.headOffset]; exact hho
  obtain ⟨ls₀, st₀, h₀, hls, hsc, hoff, hh0, hhm, hhst⟩ := hf.headTail hho'
  have inv := scan_inv hf.scan
  have inv₀ := scan_inv hsc
  have hst := hf.scan
  rw [hls, scanLines_snoc hsc, scanLine_head k sig st₀ hh0 hhm hhst] at hst
  injection hst with hst
  have hsth : st.head = h₀ := by rw [← hst]
  have hcur : f.currentHead = h₀ := by rw [← hsth]; exact hf.head
  have hmax' : ts < 2 ^ 63 := by omega
  have hl1 := headFmt_length hmax'
  have hl2 := headFmt_length hhm
  -- the digits after the crash
  let mix := (headFmt ts).take n ++ (headFmt h₀).drop n
  have hmixd : ∀ c ∈ mix, c.isDigit = true := by
    intro c hc
    simp only [mix, List.mem_append] at hc
    rcases hc with hc | hc
    · exact headFmt_digits (List.mem_of_mem_take hc)
    · exact headFmt_digits (List.mem_of_mem_drop hc)
  have hmixl : mix.length = 20 := by
    simp only [mix, List.length_append, List.length_take, List.length_drop]; omega
  have hbytes : tornRewrite f ts n = unlines (ls₀ ++ [kHead ++ [' '] ++ mix]) := by
    have hb : f.bytes = (unlines ls₀ ++ kHead ++ [' ']) ++ (headFmt h₀ ++ ['\n']) := by
      rw [hf.bytes, hls]; simp [headText]
    have hl : f.headOffset = (unlines ls₀ ++ kHead ++ [' ']).length := by
      rw [hf.headOffset, hoff]; simp; omega
    rw [tornRewrite, overwrite, hb, hl, List.take_left, List.drop_append]
    have e1 : List.drop ((unlines ls₀ ++ kHead ++ [' ']).length + (List.take n (headFmt ts ++ ['\n'])).length)
        (unlines ls₀ ++ kHead ++ [' ']) = [] := List.drop_of_length_le (by omega)
    rw [e1, Nat.add_sub_cancel_left]
    have e2 : (List.take n (headFmt ts ++ ['\n'])).length = n := by simp [hl1]; omega
    rw [e2]
    by_cases h21 : n = 21
    · subst h21
      simp only [mix]
      rw [List.take_of_length_le (l := headFmt ts ++ ['\n']) (by simp [hl1]),
        List.take_of_length_le (l := headFmt ts) (by omega),
        List.drop_of_length_le (l := headFmt h₀ ++ ['\n']) (by simp [hl2]),
        List.drop_of_length_le (l := headFmt h₀) (by omega)]
      simp
    · rw [List.take_append_of_le_length (by omega), List.drop_append_of_le_length (by omega)]
      simp [mix]
  have hnl : '\n' ∉ kHead ++ [' '] ++ mix := by
    intro hc
    simp only [List.mem_append (s := kHead ++ [' ']), List.mem_append (s := kHead)] at hc
    rcases hc with (hc | hc) | hc
    · revert hc; decide
    · revert hc; decide
    · have := hmixd _ hc; revert this; decide
  have hn0 : NoNl ls₀ := fun l hl => hf.noNl l (by rw [hls]; simp [hl])
  -- its value
  have hge : h₀.toNat ≤ Nat.ofDigitChars 10 mix 0 := by
    by_cases h20 : n ≤ 20
    · have := digits_mix (headFmt h₀) (headFmt ts) n (by omega) (by omega) (fun c hc => headFmt_digits hc)
        (by rw [headFmt_value, headFmt_value]; omega) (fun c hc => headFmt_digits hc)
      rw [headFmt_value] at this
      exact this
    · have : mix = headFmt ts := by
        simp only [mix]
        rw [List.take_of_length_le (by omega), List.drop_of_length_le (by omega)]; simp
      rw [this, headFmt_value]; omega
  have hlt : Nat.ofDigitChars 10 mix 0 < 2 ^ 63 := by
    -- both numbers start with two zeros
    have lead : ∀ u : Int, u < 10 ^ 18 → ∃ t, headFmt u = '0' :: '0' :: t := by
      intro u hu
      have : (Nat.toDigits 10 u.toNat).length ≤ 18 := by
        rw [Nat.length_toDigits_le_iff (by decide) (by decide)]; omega
      obtain ⟨d, hd⟩ : ∃ d, 20 - (Nat.toDigits 10 u.toNat).length = d + 2 :=
        ⟨18 - (Nat.toDigits 10 u.toNat).length, by omega⟩
      exact ⟨List.replicate d '0' ++ Nat.toDigits 10 u.toNat, by simp only [headFmt, hd, List.replicate_succ, List.cons_append]⟩
    obtain ⟨a, ha⟩ := lead ts hmax
    obtain ⟨b, hb⟩ := lead h₀ (by omega)
    have hm : ∃ c, mix = '0' :: '0' :: c := by
      simp only [mix, ha, hb]
      match n with
      | 0 => exact ⟨b, rfl⟩
      | 1 => exact ⟨b, rfl⟩
      | n + 2 => exact ⟨a.take n ++ b.drop n, by simp⟩
    obtain ⟨c, hc⟩ := hm
    have hbound := ofDigitChars_lt
    have hcd := hbound c (fun x hx => hmixd x (by rw [hc]; simp [hx]))
    have hcl : c.length = 18 := by rw [hc] at hmixl; simp at hmixl; omega
    rw [hcl] at hcd
    rw [hc, Nat.ofDigitChars_cons, Nat.ofDigitChars_cons]
    have h48 : '0'.toNat = 48 := by decide
    simp only [Nat.mul_zero, Nat.sub_self, Nat.add_zero]
    omega
  have hval : fromStringInt64 mix = (Nat.ofDigitChars 10 mix 0 : Int) := by
    rw [fromString_digits mix hmixd (by intro hc; rw [hc] at hmixl; simp at hmixl), if_pos hlt]
  have hgt : fromStringInt64 mix > st₀.head := by rw [hval]; omega
  have hscan : scanLines k sig .init (ls₀ ++ [kHead ++ [' '] ++ mix]) = .ok
      { st₀ with offset := st₀.offset + (kHead ++ [' '] ++ mix).length + 1, head := fromStringInt64 mix,
                 headOffset := st₀.offset + kHead.length + 1 } := by
    rw [scanLines_snoc hsc, scanLine_digits k sig st₀ mix hmixd, if_pos hgt]
  have hg1 : openFile k sig (tornRewrite f ts n) = .ok
      { bytes := tornRewrite f ts n, appPos := (tornRewrite f ts n).length, recOffset := st₀.recOffset
        recTs := st₀.recTs, headOffset := st₀.offset + kHead.length + 1, nextIndex := st₀.next.index
        lastUs := st₀.next.us - 1, head := fromStringInt64 mix } := by
    rw [openFile, hbytes, getLines_unlines _ (hn0.append (NoNl.single hnl)), hscan]
    simp only
    rw [if_neg (by omega)]
  refine ⟨_, hg1, ?_, ?_, ?_⟩
  · simp only [FileP.size, hf.nextIndex, ← hst]
  · rw [hcur]; simp only [FileP.currentHead]; rw [hval]; omega
  · -- both read the lines of `ls₀`
    have hcl₀ : Clean k ⟨0, 0⟩ ls₀ (Mem.init.run k (callsOf ops)).1.all := by
      have hc := hf.clean
      rw [hls] at hc
      have key : ∀ (next : IdxTs) (l₀ : List Str) (es : List (IdxTs × E)) (u : Str), u.head? = some '#' →
          Clean k next (l₀ ++ [u]) es → Clean k next l₀ es := by
        intro next l₀ es u hu
        induction l₀ generalizing next es with
        | nil =>
          intro hcl
          cases hcl with
          | dir _ hcl => exact hcl
          | entry hl _ _ _ _ _ => exact absurd hu hl
        | cons l l₀ ih =>
          intro hcl
          cases hcl with
          | dir hd hcl => exact .dir hd (ih _ _ hcl)
          | entry hl he hi hu' hg hcl => exact .entry hl he hi hu' hg (ih _ _ hcl)
      exact key _ _ _ _ (headText_head _) hc
    have hsim : FSim k sig
        { bytes := tornRewrite f ts n, appPos := (tornRewrite f ts n).length, recOffset := st₀.recOffset
          recTs := st₀.recTs, headOffset := st₀.offset + kHead.length + 1, nextIndex := st₀.next.index
          lastUs := st₀.next.us - 1, head := fromStringInt64 mix }
        { (Mem.init.run k (callsOf ops)).1 with head := fromStringInt64 mix }
        (ls₀ ++ [kHead ++ [' '] ++ mix])
        { st₀ with offset := st₀.offset + (kHead ++ [' '] ++ mix).length + 1, head := fromStringInt64 mix,
                   headOffset := st₀.offset + kHead.length + 1 } := by
      have hmh := hf.mhead
      have hmi := hf.minv
      refine ⟨hbytes, hn0.append (NoNl.single hnl), by simp, hscan, rfl, rfl, rfl, rfl, rfl, rfl, rfl, ?_, rfl, ?_, ?_, ?_⟩
      · refine ⟨hmi.sorted, ?_, hmi.nonneg, ?_⟩
        · intro p hp; have := hmi.le_head p hp; simp only; rw [hval]; omega
        · simp only; rw [hval]; omega
      · simp only; rw [hf.mts, ← hst]
      · exact hcl₀.append_dir rfl
      · intro _
        refine ⟨ls₀, st₀, (Nat.ofDigitChars 10 mix 0 : Int), ?_, hsc, by simp [inv₀.offset], by omega, by omega, by omega⟩
        -- the mixed digits are the canonical rendering of their value
        have canon : ∀ l : Str, (∀ c ∈ l, c.isDigit = true) → ∀ w : Str, (∀ c ∈ w, c.isDigit = true) →
            l.length = w.length → Nat.ofDigitChars 10 l 0 = Nat.ofDigitChars 10 w 0 → l = w := by
          intro l
          induction l with
          | nil => intro _ w _ hlw _; exact (List.eq_nil_of_length_eq_zero hlw.symm).symm
          | cons c l ih =>
            intro hl w hw hlw heq
            cases w with
            | nil => simp at hlw
            | cons d w =>
              have hbound := ofDigitChars_lt
              have hlw' : l.length = w.length := by simpa using hlw
              rw [Nat.ofDigitChars_cons, Nat.ofDigitChars_eq_ofDigitChars_zero, Nat.ofDigitChars_cons,
                Nat.ofDigitChars_eq_ofDigitChars_zero (l := w), hlw'] at heq
              have b1 := hbound l (fun x hx => hl x (by simp [hx]))
              have b2 := hbound w (fun x hx => hw x (by simp [hx]))
              rw [hlw'] at b1
              have hpos : 0 < 10 ^ w.length := Nat.pow_pos (by decide)
              have dl : ∀ c : Char, c.isDigit = true → 48 ≤ c.toNat := by
                intro c hc
                simp only [Char.isDigit, Bool.and_eq_true, decide_eq_true_eq, ge_iff_le] at hc
                exact hc.1
              have h48 : '0'.toNat = 48 := by decide
              simp only [Nat.mul_zero, Nat.zero_add, h48] at heq
              have hq : c.toNat - 48 = d.toNat - 48 := by
                have q1 := congrArg (· / 10 ^ w.length) heq
                rw [Nat.mul_add_div hpos, Nat.mul_add_div hpos, Nat.div_eq_of_lt b1, Nat.div_eq_of_lt b2] at q1
                omega
              have hcd : c = d := by
                have := dl c (hl c (by simp)); have := dl d (hw d (by simp))
                apply Char.ext
                apply UInt32.toNat_inj.1
                change c.toNat = d.toNat
                omega
              subst hcd
              have := ih (fun x hx => hl x (by simp [hx])) w (fun x hx => hw x (by simp [hx])) hlw' (by omega)
              rw [this]
        have : mix = headFmt (Nat.ofDigitChars 10 mix 0 : Int) := by
          apply canon mix hmixd _ (fun c hc => headFmt_digits hc)
          · rw [hmixl, headFmt_length (by omega)]
          · rw [headFmt_value]; rfl
        rw [headText, ← this]
    rw [hsim.iterate, hf.iterate, iterate_all, iterate_all]
    rfl

/-- **C10, what does not hold of a torn head rewrite.** The head after the crash can be above every head ever requested: rewriting
99 by 100 and dying after 18 of the 20 digits leaves 199. -/
theorem torn_head_rewrite_may_overshoot :
    ∃ (f : FileP) (rs : List Reply),
      Session natCodec demoSig [.call (.updateHead 99)] f rs ∧
      (openFile natCodec demoSig (tornRewrite f 100 18)).map (·.currentHead) = .ok 199 := by
  refine ⟨_, _, ⟨_, rfl, rfl⟩, ?_⟩
  decide +kernel

/-- **C10, a torn head line later hides an entry.** The head line reached the file except for its line break. After
reopening, `UpdateHead` rewrites the head in place and thereby adds the missing line break, behind the appender's back: the offset
it then records for the next publication is one too small. Iterating over that publication throws, although it was acknowledged
(it is readable again after another reopening). -/
theorem torn_head_line_then_rewrite_hides_entry :
    ∃ (f g : FileP) (rs rs' : List Reply) (g' : FileP),
      Session natCodec demoSig [.call (.publish 7 10)] f rs ∧
      openFile natCodec demoSig (f.bytes ++ headText 20) = .ok g ∧
      g.run natCodec demoSig [.call (.updateHead 30), .call (.publish 8 40)] = (some g', rs') ∧
      rs' = [.headUpdated, .published ⟨1, 40⟩] ∧
      g'.iterate natCodec 1 (some 2) = .thrown .malformedEntry ∧
      (openFile natCodec demoSig g'.bytes).map (fun h => h.iterate natCodec 1 (some 2)) =
        .ok (.ok [(⟨1, 40⟩, 8)]) := by
  refine ⟨_, _, _, _, _, ⟨_, rfl, rfl⟩, rfl, rfl, ?_, ?_, ?_⟩ <;> decide +kernel

end Current.Persist
