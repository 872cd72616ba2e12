import Verif.Persist.FileLemmas
import Verif.Persist.Props
/-! The simulation between the file persister and the memory persister. -/
namespace Current.Persist

variable {E : Type}

/-- The arguments for which the two persisters are interchangeable: raw lines are one line and their body parses if
their index part does; head timestamps are `int64_t`. -/
def Call.Plain (k : Codec E) : Call E → Prop
  | .publish _ _ => True
  | .publishUnsafe line => '\n' ∉ line ∧
      ∀ a b, splitTab line = some (a, b) → (k.getIdx a).isSome → (k.get b).isSome
  | .updateHead ts => ts < 2 ^ 63

/-- File `f` is in sync with memory persister `m`; `ls` are its lines and `st` what validating them yields. -/
structure FSim (k : Codec E) (sig : Str) (f : FileP) (m : Mem E) (ls : List Str) (st : Scan) : Prop where
  bytes : f.bytes = unlines ls
  noNl : NoNl ls
  ne : ls ≠ []
  scan : scanLines k sig .init ls = .ok st
  appPos : f.appPos = f.bytes.length
  recOffset : f.recOffset = st.recOffset
  recTs : f.recTs = st.recTs
  headOffset : f.headOffset = st.headOffset
  nextIndex : f.nextIndex = st.next.index
  lastUs : f.lastUs = st.next.us - 1
  head : f.head = st.head
  minv : m.Inv
  mhead : m.head = st.head
  mts : m.entries.map (·.1) = st.recTs
  clean : Clean k ⟨0, 0⟩ ls m.all
  headTail : st.headOffset ≠ 0 → ∃ ls₀ st₀ h, ls = ls₀ ++ [headText h] ∧ scanLines k sig .init ls₀ = .ok st₀ ∧
    st.headOffset = (unlines ls₀).length + kHead.length + 1 ∧ 0 ≤ h ∧ h < 2 ^ 63 ∧ st₀.head < h

/-- The lines of a file that hold entries. -/
def isEntry (k : Codec E) (l : Str) : Bool := (entryOf k l).isSome

/-- `f` and `m` are in sync and `texts` are the entry lines of the file. -/
def FInv (k : Codec E) (sig : Str) (f : FileP) (m : Mem E) (texts : List Str) : Prop :=
  ∃ ls st, FSim k sig f m ls st ∧ texts = ls.filter (isEntry k)

/-- The line an accepted call adds to the file. -/
def Call.text (k : Codec E) : Call E → Reply → List Str
  | .publish e _, .published x => [entryLine k x e]
  | .publishUnsafe line, .published _ => [line]
  | _, _ => []

theorem unlines_ne_nil {ls : List Str} (h : ls ≠ []) : (unlines ls).length ≠ 0 := by
  cases ls with
  | nil => exact absurd rfl h
  | cons l ls => simp

/-- Reopening gives back the very same in-memory state. -/
theorem FSim.reopen {k : Codec E} {sig : Str} {f : FileP} {m : Mem E} {ls : List Str} {st : Scan}
    (h : FSim k sig f m ls st) : openFile k sig f.bytes = .ok f := by
  have hi := scan_inv h.scan
  have hoff : st.offset ≠ 0 := by rw [hi.offset]; exact unlines_ne_nil h.ne
  unfold openFile
  rw [h.bytes, getLines_unlines _ h.noNl, h.scan]
  simp only [hoff, if_false]
  rw [← h.bytes, ← h.appPos, ← h.recOffset, ← h.recTs, ← h.headOffset, ← h.nextIndex, ← h.lastUs, ← h.head]

theorem FSim.fresh (k : Codec E) (sig : Str) (hs : SigOk sig) :
    ∃ f, openFile k sig [] = .ok f ∧ FInv k sig f (Mem.init : Mem E) [] := by
  have hb : signatureLine sig = unlines [sigText sig] := by
    simp [signatureLine, sigText]
  refine ⟨_, rfl, [sigText sig], ?_, ?_, rfl⟩
  · exact { Scan.init with offset := (sigText sig).length + 1 }
  · refine ⟨?_, NoNl.single (sigText_nl hs), by simp, ?_, ?_, rfl, rfl, rfl, rfl, rfl, rfl, Mem.Inv.init, rfl, rfl, ?_, ?_⟩
    · rw [← hb]; rfl
    · rw [scanLines, scanLine_sig k sig hs]; rfl
    · rfl
    · exact .dir rfl (.nil _)
    · intro h; exact absurd rfl h

theorem FSim.nextLen {k : Codec E} {sig : Str} {f : FileP} {m : Mem E} {ls : List Str} {st : Scan}
    (h : FSim k sig f m ls st) : f.nextIndex = m.entries.length := by
  have hi := scan_inv h.scan
  have := congrArg List.length h.mts
  rw [hi.recTs] at this
  simp at this
  rw [h.nextIndex, hi.nextIndex]; omega

/-- Adding an entry line to both. -/
theorem FSim.addEntry {k : Codec E} {sig : Str} {f : FileP} {m : Mem E} {ls : List Str} {st : Scan}
    (h : FSim k sig f m ls st) (line a b : Str) (x : IdxTs) (e : E) (hnl : '\n' ∉ line)
    (hh : line.head? ≠ some '#') (hsp : splitTab line = some (a, b)) (hx : k.getIdx a = some x)
    (hi : x.index = f.nextIndex) (hu : x.us > f.head) (hg : k.get b = some e) :
    ∃ st', FSim k sig
      { f.append (line ++ ['\n']) with
        recOffset := f.recOffset ++ [f.appPos], recTs := f.recTs ++ [x.us], headOffset := 0
        nextIndex := f.nextIndex + 1, lastUs := x.us, head := x.us }
      { entries := m.entries ++ [(x.us, e)], head := x.us } (ls ++ [line]) st' := by
  have inv := scan_inv h.scan
  have hlen := h.nextLen
  have he : entryOf k line = some (x, b) := by simp [entryOf, hh, hsp, hx]
  have hul : st.next.us ≤ x.us := by have := inv.next_le; rw [h.head] at hu; omega
  refine ⟨?_, ?_⟩
  · exact { offset := st.offset + line.length + 1, next := ⟨x.index + 1, x.us + 1⟩, head := x.us, headOffset := 0
            recOffset := st.recOffset ++ [st.offset], recTs := st.recTs ++ [x.us] }
  · refine ⟨?_, h.noNl.append (NoNl.single hnl), by simp, ?_, rfl, ?_, ?_, rfl, ?_, ?_, rfl, ?_, rfl, ?_, ?_, ?_⟩
    · simp [FileP.append, h.bytes]
    · rw [scanLines_snoc h.scan]
      unfold scanLine
      split
      · simp at hh
      · rw [hsp]; simp only [hx]
        rw [if_neg (by simp [hi, h.nextIndex]), if_neg (by omega), if_neg (by rw [← h.head]; simp; omega)]
    · simp [h.recOffset, h.appPos, h.bytes, inv.offset]
    · simp [h.recTs]
    · simp [hi]
    · simp
    · exact h.minv.append x.us e (by rw [h.mhead, ← h.head]; exact hu)
    · simp [h.mts]
    · have hall : ({ entries := m.entries ++ [(x.us, e)], head := x.us } : Mem E).all = m.all ++ [(x, e)] := by
        have hxx : (⟨m.entries.length, x.us⟩ : IdxTs) = x := by rw [← hlen, ← hi]
        simp [Mem.all, List.mapIdx_append, hxx]
      rw [hall]
      refine h.clean.append_entry hh he ?_ ?_ ?_ hg
      · simp [Mem.all_length, hi, hlen]
      · have := inv.next_nonneg; simp; omega
      · intro y hy
        obtain ⟨hl, hy⟩ := Mem.all_mem.1 hy
        have := h.minv.le_head (y.1.us, y.2) (by rw [← hy]; exact List.getElem_mem _)
        rw [h.mhead, ← h.head] at this
        simp at this; omega
    · intro hc; simp at hc

theorem splitTab_append (a b : Str) (h : '\t' ∉ a) : splitTab (a ++ '\t' :: b) = some (a, b) := by
  induction a with
  | nil => simp [splitTab]
  | cons c a ih =>
    simp only [List.mem_cons, not_or] at h
    simp [splitTab, Ne.symm h.1, ih h.2]

theorem splitTab_some {l a b : Str} (h : splitTab l = some (a, b)) : l = a ++ '\t' :: b ∧ '\t' ∉ a := by
  induction l generalizing a with
  | nil => simp [splitTab] at h
  | cons c l ih =>
    simp only [splitTab] at h
    split at h
    · rename_i hc; simp at h; obtain ⟨rfl, rfl⟩ := h; simp [hc]
    · rename_i hc
      cases hs : splitTab l with
      | none => simp [hs] at h
      | some p =>
        obtain ⟨a', b'⟩ := p
        simp only [hs, Option.some.injEq, Prod.mk.injEq] at h
        obtain ⟨rfl, rfl⟩ := h
        obtain ⟨h1, h2⟩ := ih hs
        refine ⟨by simp [h1], ?_⟩
        simp [h2, Ne.symm hc]

theorem entryLine_facts {k : Codec E} (hk : k.Lawful) (x : IdxTs) (e : E) :
    '\n' ∉ entryLine k x e ∧ (entryLine k x e).head? ≠ some '#' ∧
    splitTab (entryLine k x e) = some (k.putIdx x, k.put e) := by
  refine ⟨?_, ?_, ?_⟩
  · intro h
    simp only [entryLine, List.mem_append] at h
    rcases h with (h | h) | h
    · exact hk.putIdx_nl x h
    · simp at h
    · exact hk.put_nl e h
  · obtain ⟨t, ht⟩ := hk.putIdx_head x
    simp [entryLine, ht]
  · have := splitTab_append (k.putIdx x) (k.put e) (hk.putIdx_tab x)
    simpa [entryLine] using this

/-- Adding or rewriting the head line. -/
theorem FSim.setHead {k : Codec E} {sig : Str} {f : FileP} {m : Mem E} {ls : List Str} {st : Scan}
    (h : FSim k sig f m ls st) (ts : Int) (hts : ts > f.head) (hmax : ts < 2 ^ 63) :
    ∃ ls' st', FSim k sig (f.updateHead ts).1 { m with head := ts } ls' st' ∧
      ls'.filter (isEntry k) = ls.filter (isEntry k) ∧ (f.updateHead ts).1.headOffset ≠ 0 ∧
      (f.headOffset ≠ 0 → (f.updateHead ts).1.bytes.length = f.bytes.length) := by
  have hde : ∀ t, isEntry k (headText t) = false := by
    intro t; simp [isEntry, entryOf, headText_head]
  have inv := scan_inv h.scan
  have hmi : ({ m with head := ts } : Mem E).Inv := by
    obtain ⟨h1, h2, h3, h4⟩ := h.minv
    have := h.mhead; have := h.head
    refine ⟨h1, ?_, h3, ?_⟩
    · intro p hp; have := h2 p hp; simp; omega
    · simp; omega
  have hts0 : 0 ≤ ts := by have := h.minv.head_ge; have := h.mhead; have := h.head; omega
  have hall : ({ m with head := ts } : Mem E).all = m.all := rfl
  unfold FileP.updateHead
  rw [if_pos hts]
  by_cases hho : f.headOffset = 0
  · simp only [hho, ne_eq, not_true_eq_false, if_false]
    refine ⟨ls ++ [headText ts], ?_, ?_, by simp [hde], by simp, by simp⟩
    · exact { st with offset := st.offset + (headText ts).length + 1, head := ts,
                      headOffset := st.offset + kHead.length + 1 }
    · refine ⟨?_, h.noNl.append (NoNl.single (headText_nl _)), by simp, ?_, rfl, h.recOffset, h.recTs, ?_,
        h.nextIndex, h.lastUs, rfl, hmi, rfl, h.mts, ?_, ?_⟩
      · simp [FileP.append, h.bytes, headText]
      · rw [scanLines_snoc h.scan, scanLine_head k sig st hts0 hmax (by rw [← h.head]; exact hts)]
      · simp [h.appPos, h.bytes, inv.offset]
      · rw [hall]; exact h.clean.append_dir (headText_head _)
      · intro _
        exact ⟨ls, st, ts, rfl, h.scan, by simp [inv.offset], hts0, hmax, by rw [← h.head]; exact hts⟩
  · have hho' : st.headOffset ≠ 0 := by rw [← h.headOffset]; exact hho
    simp only [hho, ne_eq, not_false_eq_true, if_true]
    obtain ⟨ls₀, st₀, h₀, hls, hsc, hoff, hh0, hhm, hhst⟩ := h.headTail hho'
    have inv₀ := scan_inv hsc
    have hst := h.scan
    rw [hls, scanLines_snoc hsc, scanLine_head k sig st₀ hh0 hhm hhst] at hst
    injection hst with hst
    have hsth : st.head = h₀ := by rw [← hst]
    have hlt : h₀ < ts := by rw [← hsth, ← h.head]; exact hts
    have hbytes : overwrite f.bytes f.headOffset (headFmt ts ++ ['\n']) = unlines (ls₀ ++ [headText ts]) := by
      have hb : f.bytes = (unlines ls₀ ++ kHead ++ [' ']) ++ (headFmt h₀ ++ ['\n']) := by
        rw [h.bytes, hls]; simp [headText]
      have hl : f.headOffset = (unlines ls₀ ++ kHead ++ [' ']).length := by
        rw [h.headOffset, hoff]; simp; omega
      have hlen : (headFmt ts ++ ['\n']).length = (headFmt h₀ ++ ['\n']).length := by
        simp [headFmt_length hmax, headFmt_length hhm]
      rw [overwrite, hb, hl, hlen, List.take_left, ← List.length_append, List.drop_length]
      simp [headText]
    refine ⟨ls₀ ++ [headText ts], ?_, ?_, by simp [hde, hls], trivial, ?_⟩
    rotate_left 2
    · intro _
      rw [hbytes, h.bytes, hls]; simp [headText, headFmt_length hmax, headFmt_length hhm]
    · exact { st₀ with offset := st₀.offset + (headText ts).length + 1, head := ts,
                       headOffset := st₀.offset + kHead.length + 1 }
    · have hn : NoNl ls₀ := fun l hl => h.noNl l (by rw [hls]; simp [hl])
      refine ⟨hbytes, hn.append (NoNl.single (headText_nl _)), by simp, ?_, ?_, ?_, ?_, ?_, ?_, ?_, rfl, hmi, rfl,
        ?_, ?_, ?_⟩
      · rw [scanLines_snoc hsc, scanLine_head k sig st₀ hts0 hmax (by omega)]
      · simp only [hbytes]
        rw [h.appPos, h.bytes, hls]
        simp [headText, headFmt_length hmax, headFmt_length hhm]
      · simp only; rw [h.recOffset, ← hst]
      · simp only; rw [h.recTs, ← hst]
      · simp only; rw [h.headOffset, ← hst]
      · simp only; rw [h.nextIndex, ← hst]
      · simp only; rw [h.lastUs, ← hst]
      · simp only; rw [h.mts, ← hst]
      · rw [hall]
        have hc := h.clean
        rw [hls] at hc
        -- replace the last directive
        have key : ∀ (next : IdxTs) (l₀ : List Str) (es : List (IdxTs × E)) (u v : Str), u.head? = some '#' →
            v.head? = some '#' → Clean k next (l₀ ++ [u]) es → Clean k next (l₀ ++ [v]) es := by
          intro next l₀ es u v hu hv
          induction l₀ generalizing next es with
          | nil =>
            intro hcl
            cases hcl with
            | dir _ hcl => exact .dir hv hcl
            | entry hl _ _ _ _ _ => exact absurd hu hl
          | cons l l₀ ih =>
            intro hcl
            cases hcl with
            | dir hd hcl => exact .dir hd (ih _ _ hcl)
            | entry hl he hi hu' hg hcl => exact .entry hl he hi hu' hg (ih _ _ hcl)
        exact key _ _ _ _ _ (headText_head _) (headText_head _) hc
      · intro _
        exact ⟨ls₀, st₀, ts, rfl, hsc, by simp [inv₀.offset], hts0, hmax, by omega⟩

/-- One call on both persisters: same reply, still in sync. -/
theorem FInv.call {k : Codec E} (hk : k.Lawful) {sig : Str} {f : FileP} {m : Mem E} {texts : List Str}
    (h : FInv k sig f m texts) (c : Call E) (hc : c.Plain k) :
    (f.call k c).2 = (m.call k c).2 ∧
    FInv k sig (f.call k c).1 (m.call k c).1 (texts ++ c.text k (f.call k c).2) := by
  obtain ⟨ls, st, h, ht⟩ := h
  have hlen := h.nextLen
  have hhead : m.head = f.head := by rw [h.mhead, h.head]
  have same : FInv k sig f m (texts ++ []) := ⟨ls, st, h, by simpa using ht⟩
  cases c with
  | publish e ts =>
    simp only [FileP.call, Mem.call, FileP.publish, Mem.publish, hhead, hlen]
    split
    · rename_i hts
      refine ⟨rfl, ?_⟩
      obtain ⟨f1, f2, f3⟩ := entryLine_facts hk ⟨f.nextIndex, ts⟩ e
      obtain ⟨st', this⟩ := h.addEntry (entryLine k ⟨f.nextIndex, ts⟩ e) _ _ ⟨f.nextIndex, ts⟩ e f1 f2 f3
        (hk.getIdx_putIdx _) rfl hts (hk.get_put e)
      have hie : isEntry k (entryLine k ⟨f.nextIndex, ts⟩ e) = true := by
        simp [isEntry, entryOf, f2, f3, hk.getIdx_putIdx]
      rw [hlen] at this hie
      exact ⟨_, _, this, by simp [Call.text, ht, hie]⟩
    · exact ⟨rfl, same⟩
  | publishUnsafe line =>
    simp only [FileP.call, Mem.call, FileP.publishUnsafe, Mem.publishUnsafe, hhead]
    cases hs : splitTab line with
    | none => exact ⟨rfl, same⟩
    | some ab =>
      obtain ⟨a, b⟩ := ab
      simp only
      cases hx : k.getIdx a with
      | none => exact ⟨rfl, same⟩
      | some x =>
        simp only [hlen]
        by_cases hi : x.index = m.entries.length
        · by_cases hu : x.us > f.head
          · have hg := hc.2 a b hs (by simp [hx])
            obtain ⟨e, hg⟩ := Option.isSome_iff_exists.1 hg
            have hh : line.head? ≠ some '#' := by
              intro hl
              obtain ⟨h1, h2⟩ := splitTab_some hs
              cases a with
              | nil => subst h1; simp at hl
              | cons d a =>
                subst h1
                simp at hl
                subst hl
                rw [hk.getIdx_hash] at hx
                simp at hx
            obtain ⟨st', this⟩ := h.addEntry line a b x e hc.1 hh hs hx (by omega) hu hg
            have hie : isEntry k line = true := by simp [isEntry, entryOf, hh, hs, hx]
            simp only [hi, hu, hg, ne_eq, not_true_eq_false, if_false, true_and]
            rw [hlen] at this
            exact ⟨_, _, this, by simp [Call.text, ht, hie]⟩
          · simp only [hi, hu, ne_eq, not_true_eq_false, if_false, not_false_eq_true, if_true]
            exact ⟨trivial, same⟩
        · simp only [hi, ne_eq, not_false_eq_true, if_true]
          exact ⟨trivial, same⟩
  | updateHead ts =>
    by_cases hts : ts > f.head
    · obtain ⟨ls', st', this, he, _⟩ := h.setHead ts hts hc
      have hm : (m.call k (.updateHead ts)).1 = { m with head := ts } := by
        simp only [Mem.call, Mem.updateHead, hhead, hts, if_true]
      rw [hm]
      refine ⟨?_, ls', st', this, ?_⟩
      · simp only [FileP.call, Mem.call, FileP.updateHead, Mem.updateHead, hhead, hts, if_true]
        split <;> rfl
      · simp [Call.text, ht, he]
    · simp only [FileP.call, Mem.call, FileP.updateHead, Mem.updateHead, hhead, hts, if_false]
      exact ⟨trivial, same⟩

/-- The raw line read at index `i` is the `i`-th entry line of the file. -/
theorem FSim.rawLine {k : Codec E} {sig : Str} {f : FileP} {m : Mem E} {ls : List Str} {st : Scan}
    (h : FSim k sig f m ls st) (i : Nat) (t : Str) (ht : (ls.filter (isEntry k))[i]? = some t) :
    f.rawLine i = .ok t := by
  have inv := scan_inv h.scan
  have hfl : ∀ l : List Str, (l.filter (isEntry k)).length = (entryLines k l).length := by
    intro l
    induction l with
    | nil => rfl
    | cons a l ih =>
      cases he : entryOf k a with
      | none =>
        have : isEntry k a = false := by simp [isEntry, he]
        simpa [entryLines, he, this] using ih
      | some x =>
        have : isEntry k a = true := by simp [isEntry, he]
        simpa [entryLines, he, this] using ih
  have hi : i < st.recOffset.length := by
    rw [inv.offLen, ← hfl]
    apply Classical.byContradiction; intro hc
    simp [hc] at ht
  obtain ⟨ls₁, l, ls₂, e1, e2, e3, e4⟩ := inv.offs i hi
  have hget : f.recOffset[i]? = some (st.recOffset[i]) := by rw [h.recOffset]; simp [hi]
  have hl : t = l := by
    rw [e1, List.filter_append, List.filter_cons] at ht
    have : isEntry k l = true := e4
    rw [this, if_pos rfl, List.getElem?_append_right (by rw [hfl, e3]; omega), hfl, e3] at ht
    simp at ht; exact ht.symm
  subst hl
  have hn : NoNl (t :: ls₂) := fun x hx => h.noNl x (by rw [e1]; simp at hx ⊢; right; exact hx)
  simp only [FileP.rawLine, hget, e2]
  rw [h.bytes, e1, unlines_append, List.drop_left, getLines_unlines _ hn]
  have : ¬ t.head? = some '#' := by
    intro hc; simp [entryOf, hc] at e4
  simp [this]

/-- Index-range iteration of the file gives what the memory persister gives. -/
theorem FSim.iterate {k : Codec E} {sig : Str} {f : FileP} {m : Mem E} {ls : List Str} {st : Scan}
    (h : FSim k sig f m ls st) (b : Nat) (e? : Option Nat) : f.iterate k b e? = m.iterate b e? := by
  have inv := scan_inv h.scan
  have hlen := h.nextLen
  have hro : f.recOffset.length = m.entries.length := by
    rw [h.recOffset, inv.offLen, ← inv.nextIndex, ← h.nextIndex, hlen]
  have hm := iterate_exact m b e? m.all (iterate_all m)
  change (b ≤ e?.getD m.entries.length ∧ e?.getD m.entries.length ≤ m.entries.length →
      m.iterate b e? = .ok (m.all.filter fun x => decide (b ≤ x.1.index ∧ x.1.index < e?.getD m.entries.length))) ∧
    (¬ (b ≤ e?.getD m.entries.length ∧ e?.getD m.entries.length ≤ m.entries.length) →
      m.iterate b e? = .thrown .invalidRange) at hm
  by_cases hv : b ≤ e?.getD m.entries.length ∧ e?.getD m.entries.length ≤ m.entries.length
  · rw [hm.1 hv, ← m.slice_eq_filter]
    simp only [FileP.iterate, FileP.iterateRange, hlen]
    rw [if_neg (by omega)]
    by_cases hbe : b = e?.getD m.entries.length
    · rw [if_pos hbe, ← hbe]; simp [FileP.read]
    · rw [if_neg hbe, if_neg (by omega), if_neg (by omega)]
      have hb : b < st.recOffset.length := by rw [← h.recOffset]; omega
      have hget : f.recOffset[b]? = some (st.recOffset[b]) := by rw [h.recOffset]; simp [hb]
      simp only [hget, FileP.read, hbe, if_false]
      obtain ⟨ls₁, l, ls₂, e1, e2, e3, e4⟩ := inv.offs b hb
      rw [e2, h.bytes, e1, unlines_append, List.drop_left]
      have hn : NoNl (l :: ls₂) := fun x hx => h.noNl x (by rw [e1]; simp at hx ⊢; right; exact hx)
      rw [getLines_unlines _ hn]
      have hcl := h.clean
      rw [e1] at hcl
      obtain ⟨u, hu, hcl⟩ := hcl.drop
      rw [e3] at hcl
      simp only [Nat.zero_add] at hcl
      have hcl := hcl.weaken (next' := ⟨b, 0⟩) rfl (by simp at hu ⊢; omega)
      have := fetchMany_clean hcl (e?.getD m.entries.length - b)
        (by simp [Mem.all_length]; omega)
      simp only at this
      rw [this]
      rfl
  · rw [hm.2 hv]
    simp only [FileP.iterate, FileP.iterateRange, hlen]
    by_cases h2 : e?.getD m.entries.length > m.entries.length
    · rw [if_pos h2]
    · rw [if_neg h2, if_neg (by omega), if_pos (by omega)]

theorem FSim.iterateTime {k : Codec E} {sig : Str} {f : FileP} {m : Mem E} {ls : List Str} {st : Scan}
    (h : FSim k sig f m ls st) (a b : Int) : f.iterateTime k a b = m.iterateTime a b := by
  have hts : f.recTs = m.entries.map (·.1) := by rw [h.recTs, h.mts]
  simp only [FileP.iterateTime, Mem.iterateTime, iterateTimeRacing, Mem.iterateTime₁, hts]
  by_cases hc : b > 0 ∧ b < a
  · simp only [if_pos hc]
  · simp only [if_neg hc]
    cases h1 : (indexRange (m.entries.map (·.1)) a b).1 with
    | none => simp [Mem.iterateTime₂, h1, Mem.read, Mem.readFrom]
    | some i =>
      simp only [Mem.iterateTime₂, h1]
      rw [h.iterate]
      rfl

theorem FSim.lastPublished {k : Codec E} {sig : Str} {f : FileP} {m : Mem E} {ls : List Str} {st : Scan}
    (h : FSim k sig f m ls st) : f.lastPublished = m.lastPublished ∧ f.headAndLast = m.headAndLast := by
  have inv := scan_inv h.scan
  have hlen := h.nextLen
  have hhead : f.head = m.head := by rw [h.mhead, h.head]
  simp only [FileP.lastPublished, FileP.headAndLast, Mem.lastPublished, Mem.headAndLast, hlen, hhead]
  cases hl : m.entries.getLast? with
  | none =>
    have : m.entries = [] := by simpa using hl
    simp [this]
  | some p =>
    obtain ⟨us, e⟩ := p
    have hne : m.entries.length ≠ 0 := by
      intro hc; rw [List.eq_nil_of_length_eq_zero hc] at hl; simp at hl
    have hlast : st.recTs.getLast? = some us := by
      rw [← h.mts, List.getLast?_map, hl]; rfl
    have hu := inv.lastUs us hlast
    have hfu : f.lastUs = us := by rw [h.lastUs, hu]; omega
    have hge : m.head ≥ us := h.minv.le_head (us, e) (List.mem_of_getLast? hl)
    simp [hne, hfu, hge]

theorem FSim.asserts {k : Codec E} {sig : Str} {f : FileP} {m : Mem E} {ls : List Str} {st : Scan}
    (h : FSim k sig f m ls st) : f.assertsOk := by
  have inv := scan_inv h.scan
  constructor
  · rw [h.recOffset, inv.offLen, h.nextIndex, inv.nextIndex]
  · rw [h.recTs, inv.recTs, h.nextIndex, inv.nextIndex]; simp

end Current.Persist
