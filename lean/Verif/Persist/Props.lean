import Verif.Persist.Lemmas
import Verif.Persist.Codec
/-!
Properties C01–C06 and the memory part of C12, for the in-memory persister.
-/
namespace Current.Persist

variable {E : Type}

/-! ## Specification -/

/-- The entry a call asks to store: the argument of `Publish`, or what the text after the tab of a raw line parses to. -/
def Call.payload (k : Codec E) : Call E → Option E
  | .publish e _ => some e
  | .publishUnsafe line => (splitTab line).bind fun p => k.get p.2
  | .updateHead _ => none

/-- The log according to the caller: every acknowledged publication, in order, under the index and the timestamp that
the call returned. -/
def acknowledged (k : Codec E) : List (Call E) → List Reply → List (IdxTs × E)
  | c :: cs, .published i :: rs =>
    match c.payload k with
    | some e => (i, e) :: acknowledged k cs rs
    | none => acknowledged k cs rs
  | _ :: cs, _ :: rs => acknowledged k cs rs
  | _, _ => []

/-- A log is well formed: indexes 0, 1, 2, … and strictly increasing timestamps. -/
def WellFormedLog (es : List (IdxTs × E)) : Prop :=
  es.map (·.1.index) = List.range es.length ∧ es.Pairwise (fun a b => a.1.us < b.1.us)

/-- A persister state reachable from a fresh one by some history of calls. -/
def Reachable (k : Codec E) (s : Mem E) : Prop := ∃ cs, s = (Mem.init.run k cs).1

theorem Reachable.inv {k : Codec E} {s : Mem E} (h : Reachable k s) : s.Inv := by
  obtain ⟨cs, rfl⟩ := h; exact Mem.run_inv Mem.Inv.init cs

theorem iterate_all (s : Mem E) : s.iterate 0 none = .ok s.all := by
  have h := s.read_eq 0 s.entries.length (by omega) (by omega)
  have hl : List.take s.entries.length s.all = s.all := by
    rw [← s.all_length]; exact List.take_length
  simp only [Nat.sub_zero, List.drop_zero, hl] at h
  by_cases h0 : s.entries.length = 0
  · have : s.entries = [] := List.eq_nil_of_length_eq_zero h0
    simp [Mem.iterate, Mem.iterateRange, this, Mem.read, Mem.readFrom, Mem.all]
  · simp only [Mem.iterate, Mem.iterateRange, Option.getD_none]
    rw [if_neg (by omega), if_neg (by omega), if_neg (by omega), if_neg (by omega)]
    exact h

theorem call_all (k : Codec E) (s : Mem E) (c : Call E) :
    (s.call k c).1.all = s.all ++ acknowledged k [c] [(s.call k c).2] := by
  have happ : ∀ ts e, ({ entries := s.entries ++ [(ts, e)], head := ts } : Mem E).all =
      s.all ++ [(⟨s.entries.length, ts⟩, e)] := by
    intro ts e; simp [Mem.all, List.mapIdx_append]
  cases c with
  | publish e ts =>
    simp only [Mem.call, Mem.publish]
    split
    · simp [happ, acknowledged, Call.payload]
    · simp [acknowledged]
  | publishUnsafe line =>
    simp only [Mem.call, Mem.publishUnsafe]
    split
    · simp [acknowledged]
    · rename_i a b hab
      split
      · simp [acknowledged]
      · rename_i x hx
        split
        · simp [acknowledged]
        · rename_i hne
          split
          · simp [acknowledged]
          · split
            · simp [acknowledged]
            · rename_i e he
              have hne : x.index = s.entries.length := by simpa using hne
              have hx : (⟨s.entries.length, x.us⟩ : IdxTs) = x := by rw [← hne]
              simp [happ, acknowledged, Call.payload, hab, he, hx]
  | updateHead ts =>
    simp only [Mem.call, Mem.updateHead]
    split
    · simp [acknowledged, Mem.all]
    · simp [acknowledged]

theorem acknowledged_cons (k : Codec E) (c : Call E) (r : Reply) (cs : List (Call E)) (rs : List Reply) :
    acknowledged k (c :: cs) (r :: rs) = acknowledged k [c] [r] ++ acknowledged k cs rs := by
  cases r <;> simp only [acknowledged, List.nil_append]
  cases c.payload k <;> simp

theorem run_all (k : Codec E) (s : Mem E) (cs : List (Call E)) :
    (s.run k cs).1.all = s.all ++ acknowledged k cs (s.run k cs).2 := by
  induction cs generalizing s with
  | nil => simp [Mem.run, acknowledged]
  | cons c cs ih =>
    simp only [Mem.run]
    rw [ih, call_all, acknowledged_cons k c _ cs, List.append_assoc]

/-! ## C01 -/

/-- **C01.** After any history, iterating over the whole log succeeds and yields exactly the acknowledged
publications in order; that log is well formed, and the head is at or above every timestamp in it. -/
theorem log_is_acknowledged_and_ordered (k : Codec E) (cs : List (Call E)) :
    let (s, rs) := Mem.init.run k cs
    s.iterate 0 none = .ok (acknowledged k cs rs) ∧
    WellFormedLog (acknowledged k cs rs) ∧
    (∀ x ∈ acknowledged k cs rs, 0 ≤ x.1.us ∧ x.1.us ≤ s.currentHead) ∧
    s.size = (acknowledged k cs rs).length := by
  have h := run_all k (Mem.init : Mem E) cs
  have hinv : (Mem.init.run k cs).1.Inv := Mem.run_inv Mem.Inv.init cs
  generalize Mem.init.run k cs = r at *
  obtain ⟨s, rs⟩ := r
  simp only [Mem.init, Mem.all, List.mapIdx_nil, List.nil_append] at h
  change s.all = _ at h
  simp only
  rw [← h]
  refine ⟨iterate_all s, ⟨?_, ?_⟩, ?_, ?_⟩
  · apply List.ext_getElem?
    intro i
    by_cases hi : i < s.entries.length
    · simp [Mem.all, hi]
    · simp [Mem.all, hi]
  · have := hinv.sorted
    rw [List.pairwise_iff_getElem] at this ⊢
    intro i j hi hj hij
    simp only [Mem.all, List.length_mapIdx] at hi hj
    simpa [Mem.all] using this i j hi hj hij
  · intro x hx
    obtain ⟨hl, hx⟩ := Mem.all_mem.1 hx
    have h1 := hinv.nonneg (x.1.us, x.2) (by rw [← hx]; exact List.getElem_mem _)
    have h2 := hinv.le_head (x.1.us, x.2) (by rw [← hx]; exact List.getElem_mem _)
    exact ⟨h1, h2⟩
  · simp [Mem.size, Mem.all]

/-- Non-vacuity: a history with two accepted publications, a rejected one, a rejected raw line and a head update. -/
example :
    let r := (Mem.init : Mem Nat).run natCodec
      [.publish 7 10, .publish 8 10, .updateHead 15, .publish 8 15, .publishUnsafe ['x'], .publish 9 16]
    r.2 = [.published ⟨0, 10⟩, .thrown (.inconsistentTimestamp 11 10), .headUpdated,
           .thrown (.inconsistentTimestamp 16 15), .thrown .malformedEntry, .published ⟨1, 16⟩] ∧
    r.1.all = [(⟨0, 10⟩, 7), (⟨1, 16⟩, 9)] := by decide

/-! ## C02 -/

/-- **C02 (append-only).** What can be read at an index can be read there after any further calls. -/
theorem published_entry_is_immutable (k : Codec E) (s : Mem E) (cs : List (Call E)) (i : Nat) (x : IdxTs × E)
    (h : s.iterate i (some (i + 1)) = .ok [x]) :
    (s.run k cs).1.iterate i (some (i + 1)) = .ok [x] := by
  have key : ∀ t : Mem E, t.iterate i (some (i + 1)) = .ok [x] ↔ t.deref i = some x := by
    intro t
    simp only [Mem.iterate, Mem.iterateRange, Option.getD_some]
    by_cases hi : i < t.entries.length
    · rw [if_neg (by omega), if_neg (by omega), if_neg (by omega), if_neg (by omega)]
      simp only [Mem.read, Nat.add_sub_cancel_left, Mem.readFrom]
      cases t.deref i <;> simp
    · rw [if_pos (by omega)]
      simp [Mem.deref, hi]
  rw [key] at h ⊢
  obtain ⟨t, ht⟩ := s.run_prefix k cs
  simp only [Mem.deref, ← ht] at h ⊢
  have hi : i < s.entries.length := by
    apply Classical.byContradiction; intro hc
    simp [hc] at h
  rw [List.getElem?_append_left hi]
  exact h

/-- **C02 (acknowledged means readable).** Right after `Publish` (or `PublishUnsafe`) returned, the entry is
readable under the returned index and timestamp. -/
theorem acknowledged_is_readable (k : Codec E) (s : Mem E) (c : Call E) (i : IdxTs)
    (h : (s.call k c).2 = .published i) :
    ∃ e, c.payload k = some e ∧ (s.call k c).1.iterate i.index (some (i.index + 1)) = .ok [(i, e)] := by
  have hall := call_all k s c
  rw [h] at hall
  have hi : i.index = s.entries.length ∧ (s.call k c).1.entries.length = s.entries.length + 1 := by
    cases c with
    | publish e ts =>
      simp only [Mem.call, Mem.publish] at h ⊢
      split at h
      · simp at h; subst h; simp [*]
      · simp at h
    | publishUnsafe line =>
      simp only [Mem.call, Mem.publishUnsafe] at h ⊢
      split at h <;> try simp at h
      split at h <;> try simp at h
      split at h <;> try simp at h
      split at h <;> try simp at h
      split at h <;> try simp at h
      subst h
      rename_i h1 h2 _ _
      simp_all
    | updateHead ts =>
      simp only [Mem.call, Mem.updateHead] at h
      split at h <;> simp at h
  cases hp : c.payload k with
  | none =>
    exfalso
    simp only [acknowledged, hp, List.append_nil] at hall
    have := congrArg List.length hall
    simp only [Mem.all_length] at this
    omega
  | some e =>
    refine ⟨e, rfl, ?_⟩
    simp only [acknowledged, hp] at hall
    simp only [Mem.iterate, Mem.iterateRange, Option.getD_some, hi.1, hi.2]
    rw [if_neg (by omega), if_neg (by omega), if_neg (by omega), if_neg (by omega)]
    simp only
    rw [Mem.read_eq _ _ _ (by omega) (by omega), hall, ← s.all_length]
    simp

/-- **C02 (failed calls).** A call that throws leaves the persister exactly as it was. -/
theorem failed_call_changes_nothing (k : Codec E) (s : Mem E) (c : Call E) (e : Err)
    (h : (s.call k c).2 = .thrown e) : (s.call k c).1 = s := Mem.call_thrown h

example : ((⟨[(5, 1)], 5⟩ : Mem Nat).iterate 0 (some 1) = .ok [(⟨0, 5⟩, 1)]) ∧
    ((⟨[(5, 1)], 5⟩ : Mem Nat).call natCodec (.publish 3 5)).2 = .thrown (.inconsistentTimestamp 6 5) ∧
    ((⟨[(5, 1)], 5⟩ : Mem Nat).call natCodec (.publish 3 6)).2 = .published ⟨1, 6⟩ := by decide

/-! ## C03 -/

/-- **C03 (Publish).** Accepted exactly above the head; the result, the new size, the new head, and the error. -/
theorem publish_decision (k : Codec E) (s : Mem E) (e : E) (ts : Int) :
    (s.currentHead < ts →
      (s.call k (.publish e ts)).2 = .published ⟨s.size, ts⟩ ∧
      (s.call k (.publish e ts)).1.size = s.size + 1 ∧
      (s.call k (.publish e ts)).1.currentHead = ts) ∧
    (ts ≤ s.currentHead →
      (s.call k (.publish e ts)).2 = .thrown (.inconsistentTimestamp (s.currentHead + 1) ts)) := by
  constructor
  · intro h
    simp only [Mem.currentHead] at h
    simp [Mem.call, Mem.publish, Mem.size, Mem.currentHead, h]
  · intro h
    simp only [Mem.currentHead] at h
    simp [Mem.call, Mem.publish, Mem.currentHead, Int.not_lt.2 h]

/-- **C03 (UpdateHead).** Same acceptance rule; no entry is added or changed. -/
theorem updateHead_decision (k : Codec E) (s : Mem E) (ts : Int) :
    (s.currentHead < ts →
      (s.call k (.updateHead ts)).2 = .headUpdated ∧
      (s.call k (.updateHead ts)).1.currentHead = ts ∧
      (s.call k (.updateHead ts)).1.iterate 0 none = s.iterate 0 none) ∧
    (ts ≤ s.currentHead →
      (s.call k (.updateHead ts)).2 = .thrown (.inconsistentTimestamp (s.currentHead + 1) ts)) := by
  constructor
  · intro h
    simp only [Mem.currentHead] at h
    simp only [iterate_all]
    simp [Mem.call, Mem.updateHead, Mem.currentHead, h, Mem.all]
  · intro h
    simp only [Mem.currentHead] at h
    simp [Mem.call, Mem.updateHead, Mem.currentHead, Int.not_lt.2 h]

/-- **C03 (fresh persister).** The least acceptable timestamp of an empty persister is 0. -/
theorem publish_on_fresh (k : Codec E) (e : E) (ts : Int) :
    ((Mem.init.call k (.publish e ts)).2 = .published ⟨0, ts⟩) ↔ 0 ≤ ts := by
  simp only [Mem.call, Mem.publish]
  split <;> rename_i h <;> simp [Mem.init] at h ⊢ <;> omega

/-- **C03 (queries).** `LastPublishedIndexAndTimestamp` and `HeadAndLastPublishedIndexAndTimestamp` never trip their
assertions in a reachable state, and agree with the log. -/
theorem last_published_agrees (k : Codec E) (s : Mem E) (h : Reachable k s) :
    (s.size = 0 → s.lastPublished = .thrown .noEntries ∧ s.headAndLast = .ok (s.currentHead, none)) ∧
    (∀ es x, s.iterate 0 none = .ok es → es.getLast? = some x →
      s.lastPublished = .ok x.1 ∧ s.headAndLast = .ok (s.currentHead, some x.1)) := by
  constructor
  · intro h0
    have : s.entries = [] := List.eq_nil_of_length_eq_zero h0
    simp [Mem.lastPublished, Mem.headAndLast, this, Mem.currentHead]
  · intro es x hes hx
    rw [iterate_all] at hes
    injection hes with hes
    subst hes
    have hl : s.all.getLast? = s.deref (s.entries.length - 1) := by
      rw [List.getLast?_eq_getElem?, s.all_getElem?, s.all_length]
    rw [hl] at hx
    simp only [Mem.deref, Option.map_eq_some_iff] at hx
    obtain ⟨p, hp, rfl⟩ := hx
    have hlast : s.entries.getLast? = some p := by rw [List.getLast?_eq_getElem?]; exact hp
    have hh := h.inv.le_head p (List.mem_of_getLast? hlast)
    have hh' : s.head ≥ p.1 := hh
    obtain ⟨us, e⟩ := p
    simp only [Mem.lastPublished, Mem.headAndLast, hlast, Mem.currentHead]
    simp only [ge_iff_le] at hh'
    simp [hh']

example : Reachable natCodec (⟨[(5, 1), (7, 2)], 9⟩ : Mem Nat) :=
  ⟨[.publish 1 5, .publish 2 7, .updateHead 9], by decide⟩

/-! ## C04 -/

/-- **C04.** `Iterate(begin, end)` with the end resolved (`none` = `-1` = current size): it yields exactly the entries whose
index is in `[begin, end)`, in order, or throws, and it throws exactly on the listed ranges. -/
theorem iterate_exact (s : Mem E) (b : Nat) (e? : Option Nat) (es : List (IdxTs × E))
    (hall : s.iterate 0 none = .ok es) :
    let e := e?.getD s.size
    (b ≤ e ∧ e ≤ s.size →
      s.iterate b e? = .ok (es.filter fun x => decide (b ≤ x.1.index ∧ x.1.index < e))) ∧
    (¬ (b ≤ e ∧ e ≤ s.size) → s.iterate b e? = .thrown .invalidRange) := by
  rw [iterate_all] at hall
  injection hall with hall
  subst hall
  change (b ≤ e?.getD s.entries.length ∧ e?.getD s.entries.length ≤ s.entries.length →
      s.iterate b e? = .ok (s.all.filter fun x => decide (b ≤ x.1.index ∧ x.1.index < e?.getD s.entries.length))) ∧
    (¬ (b ≤ e?.getD s.entries.length ∧ e?.getD s.entries.length ≤ s.entries.length) →
      s.iterate b e? = .thrown .invalidRange)
  constructor
  · intro ⟨h1, h2⟩
    rw [← s.slice_eq_filter]
    by_cases hbe : b = e?.getD s.entries.length
    · simp only [Mem.iterate, Mem.iterateRange]
      rw [if_neg (by omega), if_pos hbe]
      rw [← hbe]
      simp [Mem.read, Mem.readFrom]
    · simp only [Mem.iterate, Mem.iterateRange]
      rw [if_neg (by omega), if_neg hbe, if_neg (by omega), if_neg (by omega)]
      exact s.read_eq _ _ h1 h2
  · intro h
    simp only [Mem.iterate, Mem.iterateRange]
    by_cases h2 : e?.getD s.entries.length > s.entries.length
    · rw [if_pos h2]
    · rw [if_neg h2, if_neg (by omega)]
      by_cases h3 : b ≥ s.entries.length
      · rw [if_pos h3]
      · rw [if_neg h3, if_pos (by omega)]

example : (⟨[(5, 1), (7, 2), (8, 3)], 9⟩ : Mem Nat).iterate 1 (some 3) = .ok [(⟨1, 7⟩, 2), (⟨2, 8⟩, 3)] ∧
    (⟨[(5, 1), (7, 2), (8, 3)], 9⟩ : Mem Nat).iterate 3 none = .ok [] ∧
    (⟨[(5, 1), (7, 2), (8, 3)], 9⟩ : Mem Nat).iterate 4 none = .thrown .invalidRange ∧
    (⟨[(5, 1), (7, 2), (8, 3)], 9⟩ : Mem Nat).iterate 2 (some 1) = .thrown .invalidRange := by decide

/-! ## C05 -/

/-- The time window a caller asks for: `till <= 0` means unbounded. -/
def InWindow (from_ till us : Int) : Prop := from_ ≤ us ∧ (0 < till → us ≤ till)

instance (f t u : Int) : Decidable (InWindow f t u) := by unfold InWindow; infer_instance

theorem iterateTimeRacing_eq (s₁ s₂ : Mem E) (h₁ : s₁.Inv)
    (hp : s₁.entries <+: s₂.entries) (f t : Int) (hft : ¬ (0 < t ∧ t < f)) :
    ∃ b e, iterateTimeRacing s₁ s₂ f t =
        .ok (s₂.all.filter fun x => decide (b ≤ x.1.index ∧ x.1.index < e)) ∧ e ≤ s₂.entries.length ∧
      (∀ i (hi : i < s₁.entries.length),
        (b ≤ i ∧ i < e ↔ InWindow f t s₁.entries[i].1)) ∧
      (s₁.entries.length ≤ s₂.entries.length) ∧
      (∀ i (_ : s₁.entries.length ≤ i) (_ : i < s₂.entries.length), b ≤ i → i < e →
        ∃ j, ∃ hj : j < s₁.entries.length, f ≤ s₁.entries[j].1) := by
  have hlen : s₁.entries.length ≤ s₂.entries.length := hp.length_le
  obtain ⟨hb1, hb2⟩ := lowerBound_spec _ h₁.sorted_ts f
  obtain ⟨he1, he2⟩ := upperBound_spec _ h₁.sorted_ts t
  simp only [List.length_map, List.getElem_map] at hb1 hb2 he1 he2
  by_cases hbn : lowerBound (s₁.entries.map (·.1)) f = s₁.entries.length
  · -- nothing at or after `from`
    refine ⟨0, 0, ?_, by omega, ?_, hlen, ?_⟩
    · have : iterateTimeRacing s₁ s₂ f t = .ok [] := by
        simp only [iterateTimeRacing, Mem.iterateTime₁]
        rw [if_neg (by omega)]
        simp [indexRange, hbn, Mem.iterateTime₂, Mem.read, Mem.readFrom]
      rw [this]
      simp
    · intro i hi
      have := hb2 i hi
      simp only [InWindow]
      constructor
      · intro h; omega
      · intro h; omega
    · intro i _ _ _ h; omega
  · have hfirst : (indexRange (s₁.entries.map (·.1)) f t).1 = some (lowerBound (s₁.entries.map (·.1)) f) := by
      simp [indexRange, hbn]
    generalize hbdef : lowerBound (s₁.entries.map (·.1)) f = b at *
    have hex : ∃ j, ∃ hj : j < s₁.entries.length, f ≤ s₁.entries[j].1 := by
      refine ⟨b, by omega, ?_⟩
      have := hb2 b (by omega)
      omega
    have main : ∀ e, ((indexRange (s₁.entries.map (·.1)) f t).2.getD s₂.entries.length = e) →
        b ≤ e → e ≤ s₂.entries.length →
        iterateTimeRacing s₁ s₂ f t =
          .ok (s₂.all.filter fun x => decide (b ≤ x.1.index ∧ x.1.index < e)) := by
      intro e hee hbe hel
      have hit := (iterate_exact s₂ b (indexRange (s₁.entries.map (·.1)) f t).2 s₂.all (iterate_all s₂)).1
        (by simp only [Mem.size, hee]; omega)
      simp only [Mem.size, hee] at hit
      simp only [iterateTimeRacing, Mem.iterateTime₁]
      rw [if_neg (by omega)]
      simp only [Mem.iterateTime₂, hfirst]
      exact hit
    by_cases ht : 0 < t
    · by_cases hue : upperBound (s₁.entries.map (·.1)) t = s₁.entries.length
      · have h2 : (indexRange (s₁.entries.map (·.1)) f t).2 = none := by
          simp [indexRange, ht, hue]
        refine ⟨b, s₂.entries.length, main _ (by simp [h2]) (by omega) (by omega), by omega, ?_, hlen, ?_⟩
        · intro i hi
          have a1 := hb2 i hi
          have a2 := he2 i hi
          simp only [InWindow]
          constructor
          · intro h; refine ⟨by omega, fun _ => a2.2 (by omega)⟩
          · intro h; refine ⟨by omega, by omega⟩
        · intro _ _ _ _ _; exact hex
      · have h2 : (indexRange (s₁.entries.map (·.1)) f t).2 = some (upperBound (s₁.entries.map (·.1)) t) := by
          simp [indexRange, ht, hue]
        have hbu : b ≤ upperBound (s₁.entries.map (·.1)) t := by
          apply Classical.byContradiction; intro hc
          have a1 := hb2 (upperBound (s₁.entries.map (·.1)) t) (by omega)
          have a2 := he2 (upperBound (s₁.entries.map (·.1)) t) (by omega)
          omega
        refine ⟨b, upperBound (s₁.entries.map (·.1)) t, main _ (by simp [h2]) hbu (by omega), by omega, ?_, hlen, ?_⟩
        · intro i hi
          have a1 := hb2 i hi
          have a2 := he2 i hi
          simp only [InWindow]
          constructor
          · intro h; exact ⟨by omega, fun _ => a2.2 h.2⟩
          · intro h; exact ⟨by omega, a2.1 (h.2 ht)⟩
        · intro i h1 h2' h3 h4; exact hex
    · have h2 : (indexRange (s₁.entries.map (·.1)) f t).2 = none := by simp [indexRange, ht]
      refine ⟨b, s₂.entries.length, main _ (by simp [h2]) (by omega) (by omega), by omega, ?_, hlen, ?_⟩
      · intro i hi
        have a1 := hb2 i hi
        simp only [InWindow]
        constructor
        · intro h; exact ⟨by omega, fun h => absurd h ht⟩
        · intro h; refine ⟨by omega, by omega⟩
      · intro _ _ _ _ _; exact hex

/-- **C05.** With no concurrent publisher, `Iterate(from, till)` yields exactly the entries in the window, in order;
it throws exactly when `0 < till < from`. -/
theorem iterate_time_exact (k : Codec E) (s : Mem E) (h : Reachable k s) (f t : Int) (es : List (IdxTs × E))
    (hall : s.iterate 0 none = .ok es) :
    (¬ (0 < t ∧ t < f) → s.iterateTime f t = .ok (es.filter fun x => decide (InWindow f t x.1.us))) ∧
    ((0 < t ∧ t < f) → s.iterateTime f t = .thrown .invalidRange) := by
  rw [iterate_all] at hall
  injection hall with hall
  subst hall
  constructor
  · intro hft
    obtain ⟨b, e, heq, hel, hw, _, _⟩ := iterateTimeRacing_eq s s h.inv (List.prefix_rfl) f t hft
    rw [Mem.iterateTime, heq]
    congr 1
    apply List.filter_congr
    intro x hx
    obtain ⟨hl, hx⟩ := Mem.all_mem.1 hx
    have := hw x.1.index hl
    rw [hx] at this
    exact decide_eq_decide.2 this
  · intro hft
    simp only [Mem.iterateTime, iterateTimeRacing, Mem.iterateTime₁]
    rw [if_pos hft]

example : (⟨[(5, 1), (7, 2), (8, 3)], 9⟩ : Mem Nat).iterateTime 6 7 = .ok [(⟨1, 7⟩, 2)] ∧
    (⟨[(5, 1), (7, 2), (8, 3)], 9⟩ : Mem Nat).iterateTime 6 0 = .ok [(⟨1, 7⟩, 2), (⟨2, 8⟩, 3)] ∧
    (⟨[(5, 1), (7, 2), (8, 3)], 9⟩ : Mem Nat).iterateTime 6 5 = .thrown .invalidRange := by
  decide +kernel

/-! ## C06 -/

/-- **C06, what holds.** When publishers run between the two critical sections, the result still contains exactly the
in-window entries among those present when the call started, all of it is at or after `from`, and anything beyond
was published during the call. The missing part is the upper bound for the latter: see `time_range_race_violates_window`. -/
theorem iterate_time_racing_partial (k : Codec E) (s₁ : Mem E) (h : Reachable k s₁) (cs : List (Call E)) (f t : Int)
    (hft : ¬ (0 < t ∧ t < f)) (es : List (IdxTs × E)) (hall : s₁.iterate 0 none = .ok es) :
    ∃ res, iterateTimeRacing s₁ (s₁.run k cs).1 f t = .ok res ∧
      res.Pairwise (fun a b => a.1.us < b.1.us) ∧
      (∀ x ∈ res, f ≤ x.1.us) ∧
      (∀ x, x.1.index < s₁.size → (x ∈ res ↔ x ∈ es ∧ InWindow f t x.1.us)) := by
  rw [iterate_all] at hall
  injection hall with hall
  subst hall
  have h₂ : (s₁.run k cs).1.Inv := Mem.run_inv h.inv cs
  have hp := s₁.run_prefix k cs
  generalize (s₁.run k cs).1 = s₂ at *
  obtain ⟨b, e, heq, hel, hw, hlen, hext⟩ := iterateTimeRacing_eq s₁ s₂ h.inv hp f t hft
  have hget : ∀ i (hi : i < s₁.entries.length), s₂.entries[i]'(by omega) = s₁.entries[i] := by
    intro i hi
    obtain ⟨u, hu⟩ := hp
    simp only [← hu]
    rw [List.getElem_append_left hi]
  refine ⟨_, heq, ?_, ?_, ?_⟩
  · apply List.Pairwise.filter
    have := h₂.sorted
    rw [List.pairwise_iff_getElem] at this ⊢
    intro i j hi hj hij
    simp only [Mem.all, List.length_mapIdx] at hi hj
    simpa [Mem.all] using this i j hi hj hij
  · intro x hx
    simp only [List.mem_filter, decide_eq_true_eq] at hx
    obtain ⟨hxm, hxb, hxe⟩ := hx
    obtain ⟨hl, hx⟩ := Mem.all_mem.1 hxm
    by_cases hlt : x.1.index < s₁.entries.length
    · have := (hw _ hlt).1 ⟨hxb, hxe⟩
      rw [← hget _ hlt, hx] at this
      exact this.1
    · obtain ⟨j, hj, hfj⟩ := hext x.1.index (by omega) hl hxb hxe
      have hs := List.pairwise_iff_getElem.1 h₂.sorted j x.1.index (by omega) hl (by omega)
      rw [hget j hj, hx] at hs
      simp at hs; omega
  · intro x hxi
    simp only [Mem.size] at hxi
    simp only [List.mem_filter, decide_eq_true_eq, Mem.all_mem, hw _ hxi]
    constructor
    · rintro ⟨⟨hl, hx⟩, hb⟩
      rw [hget _ hxi] at hx
      rw [hx] at hb
      exact ⟨⟨hxi, hx⟩, hb⟩
    · rintro ⟨⟨hl, hx⟩, hb⟩
      refine ⟨⟨by omega, by rw [hget _ hxi]; exact hx⟩, ?_⟩
      rw [hx]; exact hb

/-- **C06, the violation.** `Iterate(from=5us, till=10us)` on a log with one entry at 6us; between the two critical
sections another thread publishes an entry at 20us; the result contains it although 20 > till. -/
theorem time_range_race_violates_window :
    ∃ (s₁ : Mem Nat) (cs : List (Call Nat)) (f t : Int) (res : List (IdxTs × Nat)) (x : IdxTs × Nat),
      Reachable natCodec s₁ ∧ iterateTimeRacing s₁ (s₁.run natCodec cs).1 f t = .ok res ∧
      x ∈ res ∧ ¬ InWindow f t x.1.us := by
  refine ⟨⟨[(6, 1)], 6⟩, [.publish 2 20], 5, 10, [(⟨0, 6⟩, 1), (⟨1, 20⟩, 2)], (⟨1, 20⟩, 2),
    ⟨[.publish 1 6], by decide⟩, by decide +kernel, by decide, by decide⟩

end Current.Persist
