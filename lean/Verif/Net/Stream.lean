import Verif.Net.Model

/-!
The parser does what a parser of the whole stream does, however TCP cuts the stream and whatever the sizes of
the buffer are.
-/
namespace Current.Net
open Current.Persist Current.Strings Current.Url

/-! ### Specification: the message read off the whole stream -/

theorem crlf_lt : ∀ {s l a : Str}, crlf s = some (l, a) → a.length < s.length
  | [], _, _, h => by simp [crlf] at h
  | [_], _, _, h => by simp [crlf] at h
  | c :: d :: r, l, a, h => by
    simp only [crlf] at h
    split at h
    · simp at h; obtain ⟨_, rfl⟩ := h; simp; omega
    · split at h
      · simp at h
      · simp only [Option.map_eq_some_iff] at h
        obtain ⟨⟨l', a'⟩, h1, h2⟩ := h
        simp at h2
        have := crlf_lt h1
        simp at this ⊢
        rw [h2.2] at this
        omega

/-- The stream, line by line; a chunk or a body is cut out where it is announced. No buffer, no pieces. -/
def parse (m : M) (rest : Str) : Final Req :=
  match h : crlf rest with
  | none => .reset
  | some (line, after) =>
    match handle m line with
    | .more m' => parse m' after
    | .chunk m' n =>
      if n ≤ after.length then parse (addChunk m' (after.take n)) (after.drop n) else .reset
    | .negative _ => .lengthError
    | .body m' n => if n ≤ after.length then .done { m'.req with body := after.take n } else .reset
    | .fin o => o
  termination_by rest.length
  decreasing_by
    · exact crlf_lt h
    · have := crlf_lt h
      simp only [List.length_drop]
      omega

theorem parse_none {m : M} {rest : Str} (h : crlf rest = none) : parse m rest = .reset := by
  rw [parse]; split
  · rfl
  · rename_i h'; rw [h] at h'; simp at h'

theorem parse_some {m : M} {rest line after : Str} (h : crlf rest = some (line, after)) : parse m rest =
    match handle m line with
    | .more m' => parse m' after
    | .chunk m' n =>
      if n ≤ after.length then parse (addChunk m' (after.take n)) (after.drop n) else .reset
    | .negative _ => .lengthError
    | .body m' n => if n ≤ after.length then .done { m'.req with body := after.take n } else .reset
    | .fin o => o := by
  rw [parse]; split
  · rename_i h'; rw [h] at h'; simp at h'
  · rename_i l a h'
    rw [h] at h'
    simp only [Option.some.injEq, Prod.mk.injEq] at h'
    obtain ⟨rfl, rfl⟩ := h'
    rfl

/-- A negative chunk size ends in an exception or in a buffer overrun, depending on the position in the
buffer; this is the only thing that depends on it. -/
def forget : Final Req → Final Req
  | .overrun => .lengthError
  | o => o

/-! ### The simulation -/

theorem crlf_append : ∀ {s l a : Str} (t : Str), crlf s = some (l, a) → crlf (s ++ t) = some (l, a ++ t)
  | [], _, _, _, h => by simp [crlf] at h
  | [_], _, _, _, h => by simp [crlf] at h
  | c :: d :: r, l, a, t, h => by
    simp only [crlf, List.cons_append] at h ⊢
    split at h
    · rename_i hc
      simp at h
      obtain ⟨rfl, rfl⟩ := h
      simp [hc]
    · rename_i hc
      rw [if_neg hc]
      split at h
      · simp at h
      · rename_i hz
        rw [if_neg hz]
        simp only [Option.map_eq_some_iff] at h ⊢
        obtain ⟨⟨l', a'⟩, h1, h2⟩ := h
        have := crlf_append t h1
        simp at h2
        obtain ⟨rfl, rfl⟩ := h2
        exact ⟨_, this, rfl⟩

theorem crlf_eq : ∀ {s l a : Str}, crlf s = some (l, a) → s = l ++ '\r' :: '\n' :: a
  | [], _, _, h => by simp [crlf] at h
  | [_], _, _, h => by simp [crlf] at h
  | c :: d :: r, l, a, h => by
    simp only [crlf] at h
    split at h
    · rename_i hc
      simp at h
      obtain ⟨rfl, rfl⟩ := h
      simp [hc]
    · split at h
      · simp at h
      · simp only [Option.map_eq_some_iff] at h
        obtain ⟨⟨l', a'⟩, h1, h2⟩ := h
        simp at h2
        obtain ⟨rfl, rfl⟩ := h2
        rw [crlf_eq h1]
        simp

/-- What is left to parse, and what it gives. -/
def meaning : Cfg → Final Req
  | .top s net => parse s.m (s.buf.drop s.cur ++ net)
  | .lines s net => parse s.m (s.buf.drop s.cur ++ net)
  | .tail s net => parse s.m (s.buf.drop s.cur ++ net)
  | .fin o => forget o

/-- Room in the buffer, or an empty rest that is about to be moved to its beginning. -/
def Roomy (s : PSt) : Prop :=
  s.buf.length + 1 < s.cap ∨ (s.m.inChunks = true ∧ s.cur = s.buf.length ∧ 0 < s.cur)

def Inv : Cfg → Prop
  | .top s _ => 2 ≤ s.cap ∧ s.cur ≤ s.buf.length ∧ s.buf.length + 1 < s.cap ∧ crlf (s.buf.drop s.cur) = none
  | .lines s _ => 2 ≤ s.cap ∧ s.cur ≤ s.buf.length ∧ s.buf.length < s.cap ∧ Roomy s
  | .tail s _ => 2 ≤ s.cap ∧ s.cur ≤ s.buf.length ∧ s.buf.length < s.cap ∧ Roomy s ∧ crlf (s.buf.drop s.cur) = none
  | .fin o => o ≠ .assertFailed ∧ o ≠ .outOfBounds

theorem handle_chunk {m m' : M} {line : Str} {n : Nat} (h : handle m line = .chunk m' n) :
    0 < n ∧ m'.inChunks = true ∧ m'.firstLineParsed = true := by
  unfold handle at h
  split at h
  · unfold handleFirst at h; split at h <;> (try split at h) <;> simp at h
  · rename_i hf
    split at h
    · rename_i hc
      unfold handleChunkLine at h
      split at h
      · simp at h
      · split at h <;> try simp at h
        split at h
        · simp at h
        · split at h
          · simp at h
          · simp at h
            obtain ⟨rfl, rfl⟩ := h
            exact ⟨by omega, hc, by simpa using hf⟩
    · split at h
      · unfold handleHeader at h
        repeat' (split at h)
        all_goals (try (simp at h; done))
        all_goals (dsimp only at h; repeat' (split at h))
        all_goals (simp at h)
      · unfold handleBlank at h
        repeat' (split at h)
        all_goals (simp at h)

theorem handle_fin {m : M} {line : Str} {o : Final Req} (h : handle m line = .fin o) :
    o ≠ .assertFailed ∧ o ≠ .outOfBounds ∧ o ≠ .overrun := by
  unfold handle at h
  split at h
  · unfold handleFirst at h; split at h <;> (try split at h) <;> simp at h
  · split at h
    · unfold handleChunkLine at h
      repeat' (split at h)
      all_goals (try (simp at h; done))
      all_goals (simp at h; subst h; simp)
    · split at h
      · unfold handleHeader at h
        repeat' (split at h)
        all_goals (try (simp at h; done))
        all_goals (dsimp only at h; repeat' (split at h))
        all_goals (simp at h)
        all_goals (subst h; simp)
      · unfold handleBlank at h
        repeat' (split at h)
        all_goals (simp at h)
        all_goals (subst h; simp)

theorem forget_of_ne {o : Final Req} (h : o ≠ .overrun) : forget o = o := by
  cases o <;> simp_all [forget]

/-- the unread part of the buffer after a line of it -/
theorem drop_line {buf line after : Str} {cur : Nat} (h : crlf (buf.drop cur) = some (line, after)) :
    buf.drop (cur + line.length + 2) = after ∧ cur + line.length + 2 + after.length = buf.length ∧
      cur + line.length + 2 ≤ buf.length := by
  have e := crlf_eq h
  have hl := congrArg List.length e
  simp at hl
  have hd : buf.drop (cur + line.length + 2) = after := by
    have : buf.drop (cur + line.length + 2) = (buf.drop cur).drop (line.length + 2) := by
      rw [List.drop_drop]; congr 1
    rw [this, e]
    have : line ++ '\r' :: '\n' :: after = (line ++ ['\r', '\n']) ++ after := by simp
    rw [this, List.drop_append]
    simp
  refine ⟨hd, ?_, ?_⟩ <;> omega

theorem chunkStep_ok (g : Nat → Nat) {s : PSt} {net : Str} {m : M} {off n : Nat} (h2 : 2 ≤ s.cap)
    (hoff : off ≤ s.buf.length) (h0 : 0 < off) (hn : 0 < n) (hm : m.inChunks = true) (hcap : s.buf.length < s.cap)
    (hr : Roomy s ∨ off + n ≤ s.buf.length) (hr2 : off + n ≤ s.buf.length → s.buf.length + 1 < s.cap) :
    Inv (chunkStep g s net m off n) ∧ meaning (chunkStep g s net m off n) =
      (if n ≤ (s.buf.drop off ++ net).length then
        parse (addChunk m ((s.buf.drop off ++ net).take n)) ((s.buf.drop off ++ net).drop n) else .reset) := by
  have hadd : ∀ c, (addChunk m c).inChunks = true := fun c => hm
  by_cases hlt : s.buf.length < off + n
  · by_cases hnet : net.length < off + n - s.buf.length
    · have : chunkStep g s net m off n = .fin .reset := by
        simp only [chunkStep, hlt, hnet, if_true]
      rw [this, if_neg (by simp; omega)]
      exact ⟨by simp [Inv], rfl⟩
    · have hlen : n ≤ (s.buf.drop off ++ net).length := by simp; omega
      rw [if_pos hlen]
      -- where the chunk is, after making room
      have main : ∀ (cap : Nat) (buf : Str) (o : Nat), 2 ≤ cap → o + n < cap → buf.drop o = s.buf.drop off →
          buf.length = o + (s.buf.length - off) →
          Inv (if o + n < cap then
            Cfg.lines ⟨cap, buf ++ net.take (off + n - s.buf.length), o + n,
              addChunk m (((buf ++ net.take (off + n - s.buf.length)).drop o).take n)⟩
              (net.drop (off + n - s.buf.length)) else .fin .outOfBounds) ∧
          meaning (if o + n < cap then
            Cfg.lines ⟨cap, buf ++ net.take (off + n - s.buf.length), o + n,
              addChunk m (((buf ++ net.take (off + n - s.buf.length)).drop o).take n)⟩
              (net.drop (off + n - s.buf.length)) else .fin .outOfBounds) =
            parse (addChunk m ((s.buf.drop off ++ net).take n)) ((s.buf.drop off ++ net).drop n) := by
        intro cap buf o hc2 hlt2 hdrop hblen
        rw [if_pos hlt2]
        have hbl : (buf ++ net.take (off + n - s.buf.length)).length = o + n := by
          simp; omega
        have e1 : (buf ++ net.take (off + n - s.buf.length)).drop o = (s.buf.drop off ++ net).take n := by
          rw [List.drop_append, hdrop]
          have : o - buf.length = 0 := by omega
          rw [this, List.drop_zero, List.take_append]
          have : (s.buf.drop off).take n = s.buf.drop off := List.take_of_length_le (by simp; omega)
          rw [this]
          congr 2
          simp; omega
        have e2 : (buf ++ net.take (off + n - s.buf.length)).drop (o + n) = [] := by
          rw [List.drop_eq_nil_iff]; omega
        have e3 : net.drop (off + n - s.buf.length) = (s.buf.drop off ++ net).drop n := by
          rw [List.drop_append]
          have : (s.buf.drop off).drop n = [] := by rw [List.drop_eq_nil_iff]; simp; omega
          rw [this, List.nil_append]
          congr 1
          simp; omega
        refine ⟨⟨hc2, by dsimp only; omega, by dsimp only; omega, .inr ⟨hadd _, by dsimp only; omega, ?_⟩⟩, ?_⟩
        · dsimp only; omega
        · simp only [meaning]
          rw [e2, e1, List.nil_append, e3, List.take_take, Nat.min_self]
      simp only [chunkStep, hlt, hnet, if_true, if_false]
      by_cases hc : s.cap < off + n + 1
      · rw [if_pos hc]
        by_cases hmv : off ≥ off + n + 1 - s.cap
        · rw [if_pos hmv]
          exact main s.cap (s.buf.drop off) 0 h2 (by omega) (by simp) (by simp)
        · rw [if_neg hmv]
          exact main (max (g s.cap) (off + n + 1)) s.buf off (by omega) (by omega) rfl (by omega)
      · rw [if_neg hc]
        exact main s.cap s.buf off h2 (by omega) rfl (by omega)
  · have hge : off + n ≤ s.buf.length := by omega
    have : chunkStep g s net m off n =
        .lines { s with cur := off + n, m := addChunk m ((s.buf.drop off).take n) } net := by
      simp only [chunkStep, hlt, if_false]
    rw [this, if_pos (by simp; omega)]
    refine ⟨⟨h2, hge, hcap, .inl (hr2 hge)⟩, ?_⟩
    simp only [meaning]
    have e1 : (s.buf.drop off ++ net).take n = (s.buf.drop off).take n := by
      rw [List.take_append_of_le_length]; simp; omega
    have e2 : (s.buf.drop off ++ net).drop n = s.buf.drop (off + n) ++ net := by
      rw [List.drop_append_of_le_length (by simp; omega), List.drop_drop]
    rw [e1, e2]

theorem bodyStep_ok {s : PSt} {net : Str} {m : M} {off n : Nat} (hoff : off ≤ s.buf.length) :
    bodyStep s net m off n =
      (if n ≤ (s.buf.drop off ++ net).length then
        .done { m.req with body := (s.buf.drop off ++ net).take n } else .reset) := by
  unfold bodyStep
  dsimp only
  by_cases hlt : off + n > s.buf.length
  · rw [if_pos hlt]
    by_cases hnet : net.length < off + n - s.buf.length
    · rw [if_pos hnet, if_neg (by simp; omega)]
    · rw [if_neg hnet, if_pos (by omega), if_pos (by simp; omega)]
      congr 2
      rw [List.drop_append]
      have : off - s.buf.length = 0 := by omega
      rw [this, List.drop_zero, List.take_append, List.take_append, List.take_take]
      congr 2
      simp; omega
  · rw [if_neg hlt, if_pos (by simp; omega)]
    congr 2
    rw [List.take_append_of_le_length]; simp; omega

theorem negativeStep_ok (s : PSt) (off k : Nat) : forget (negativeStep s off k) = .lengthError ∧
    negativeStep s off k ≠ .assertFailed ∧ negativeStep s off k ≠ .outOfBounds := by
  unfold negativeStep
  dsimp only
  repeat' split
  all_goals simp [forget]

theorem step_ok (g : Nat → Nat) (k : Nat) {c : Cfg} (hi : Inv c) :
    Inv (step g k c) ∧ meaning (step g k c) = meaning c := by
  cases c with
  | fin o => exact ⟨hi, rfl⟩
  | top s net =>
    obtain ⟨h2, hcur, hroom, hno⟩ := hi
    simp only [step, readStep]
    rw [if_neg (by simp; omega)]
    by_cases hnet : net = []
    · rw [if_pos hnet]
      refine ⟨by simp [Inv], ?_⟩
      simp only [meaning]
      rw [hnet, List.append_nil, parse_none hno]
      rfl
    · rw [if_neg hnet]
      have hpos : 0 < net.length := List.length_pos_iff.2 hnet
      have hcut : s.buf.drop s.cur ++ net.take (min (max 1 k) (min (s.cap - s.buf.length - 1) net.length)) ++
          net.drop (min (max 1 k) (min (s.cap - s.buf.length - 1) net.length)) = s.buf.drop s.cur ++ net := by
        simp
      generalize hn : min (max 1 k) (min (s.cap - s.buf.length - 1) net.length) = n at *
      have hb : (s.buf ++ net.take n).length = s.buf.length + n := by simp; omega
      have hcap : s.buf.length + n + 1 < (if n = s.cap - s.buf.length - 1 then max (g s.cap) (s.cap + 1) else s.cap) := by
        split <;> omega
      rw [if_pos (by rw [hb]; omega)]
      refine ⟨⟨?_, ?_, ?_, ?_⟩, ?_⟩
      · dsimp only; omega
      · dsimp only; omega
      · dsimp only; omega
      · left; dsimp only; omega
      · simp only [meaning]
        congr 1
        rw [List.drop_append_of_le_length hcur]
        exact hcut
  | tail s net =>
    obtain ⟨h2, hcur, hcap, hroom, hno⟩ := hi
    simp only [step]
    by_cases hc : (s.m.inChunks && decide (s.cur ≠ 0)) = true
    · rw [if_pos hc]
      simp at hc
      by_cases hl : s.buf.length > s.cur
      · rw [if_pos hl]
        refine ⟨⟨h2, by simp, ?_, ?_⟩, ?_⟩
        · simp; omega
        · simpa using hno
        · simp [meaning]
      · rw [if_neg hl]
        refine ⟨⟨h2, by simp, ?_, ?_⟩, ?_⟩
        · simp; omega
        · simp [crlf]
        · simp only [meaning]
          have e : s.buf.drop s.cur = [] := List.drop_eq_nil_of_le (by omega)
          simp [e]
    · rw [if_neg hc]
      refine ⟨⟨h2, hcur, ?_, hno⟩, rfl⟩
      rcases hroom with h | ⟨h1, _, h3⟩
      · exact h
      · exact absurd (by simp [h1]; omega) hc
  | lines s net =>
    obtain ⟨h2, hcur, hcap, hroom⟩ := hi
    simp only [step]
    cases hcr : crlf (s.buf.drop s.cur) with
    | none => exact ⟨⟨h2, hcur, hcap, hroom, hcr⟩, rfl⟩
    | some la =>
      obtain ⟨line, after⟩ := la
      obtain ⟨hd, hlen, hle⟩ := drop_line hcr
      have hroom' : s.buf.length + 1 < s.cap := by
        rcases hroom with h | ⟨_, h, _⟩
        · exact h
        · omega
      have hp : meaning (.lines s net) = _ := parse_some (m := s.m) (crlf_append net hcr)
      rw [hp]
      dsimp only
      cases hv : handle s.m line with
      | more m =>
        dsimp only
        refine ⟨⟨h2, hle, hcap, .inl hroom'⟩, ?_⟩
        simp only [meaning]
        rw [hd]
      | chunk m n =>
        dsimp only
        obtain ⟨hn, hm, _⟩ := handle_chunk hv
        have := chunkStep_ok g (net := net) h2 hle (by omega) hn hm hcap (.inl (.inl hroom')) (fun _ => hroom')
        rw [hd] at this
        exact this
      | negative k =>
        dsimp only
        obtain ⟨a, b, c⟩ := negativeStep_ok s (s.cur + line.length + 2) k
        exact ⟨⟨b, c⟩, a⟩
      | body m n =>
        dsimp only
        rw [bodyStep_ok hle, hd]
        constructor
        · split <;> simp [Inv]
        · split <;> rfl
      | fin o =>
        dsimp only
        obtain ⟨a, b, c⟩ := handle_fin hv
        exact ⟨⟨a, b⟩, forget_of_ne c⟩

/-! ### Termination -/

def measure : Cfg → Nat
  | .top s net => 5 * net.length + 2 * (s.buf.length - s.cur) + 1
  | .lines s net => 5 * net.length + 2 * (s.buf.length - s.cur) + 3
  | .tail s net => 5 * net.length + 2 * (s.buf.length - s.cur) + 2
  | .fin _ => 0

theorem chunkStep_measure (g : Nat → Nat) {s : PSt} {net : Str} {m : M} {off n : Nat} (hoff : off ≤ s.buf.length)
    (h : s.cur + 2 ≤ off) : measure (chunkStep g s net m off n) < measure (.lines s net) := by
  unfold chunkStep
  dsimp only
  by_cases hlt : s.buf.length < off + n
  · rw [if_pos hlt]
    by_cases hnet : net.length < off + n - s.buf.length
    · rw [if_pos hnet]; simp [measure]
    · rw [if_neg hnet]
      have key : ∀ (r : Nat × Str × Nat), r.2.1.length ≤ r.2.2 + (s.buf.length - off) →
          measure (if r.2.2 + n < r.1 then
            Cfg.lines ⟨r.1, r.2.1 ++ net.take (off + n - s.buf.length), r.2.2 + n,
              addChunk m (((r.2.1 ++ net.take (off + n - s.buf.length)).drop r.2.2).take n)⟩
              (net.drop (off + n - s.buf.length)) else .fin .outOfBounds) < measure (.lines s net) := by
        intro r hr
        split
        · simp [measure]; omega
        · simp [measure]
      apply key
      repeat' split
      all_goals simp
      all_goals omega
  · rw [if_neg hlt]
    simp only [measure]
    omega

theorem step_measure (g : Nat → Nat) (k : Nat) {c : Cfg} (hi : Inv c) (hf : ∀ o, c ≠ .fin o) :
    measure (step g k c) < measure c := by
  cases c with
  | fin o => exact absurd rfl (hf o)
  | top s net =>
    obtain ⟨h2, hcur, hroom, hno⟩ := hi
    simp only [step, readStep]
    rw [if_neg (by simp; omega)]
    by_cases hnet : net = []
    · rw [if_pos hnet]; simp [measure]
    · rw [if_neg hnet]
      have hpos : 0 < net.length := List.length_pos_iff.2 hnet
      generalize hn : min (max 1 k) (min (s.cap - s.buf.length - 1) net.length) = n at *
      split
      · split
        · simp [measure]; omega
        · simp [measure]
      · split
        · simp [measure]; omega
        · simp [measure]
  | tail s net =>
    simp only [step]
    repeat' split
    all_goals simp [measure]
    all_goals omega
  | lines s net =>
    simp only [step]
    cases hcr : crlf (s.buf.drop s.cur) with
    | none => simp [measure]
    | some la =>
      obtain ⟨line, after⟩ := la
      obtain ⟨hd, hlen, hle⟩ := drop_line hcr
      dsimp only
      cases hv : handle s.m line with
      | more m => simp only [measure]; omega
      | chunk m n => exact chunkStep_measure g hle (by omega)
      | negative k => simp [measure]
      | body m n => simp [measure]
      | fin o => simp [measure]

theorem run_fin (g : Nat → Nat) : ∀ (n : Nat) (ks : Nat → Nat) (o : Final Req), run g ks n (.fin o) = .fin o := by
  intro n
  induction n with
  | zero => intro ks o; rfl
  | succ n ih => intro ks o; exact ih _ _

theorem run_ends (g : Nat → Nat) : ∀ (n : Nat) (ks : Nat → Nat) (c : Cfg), Inv c → measure c ≤ n →
    ∃ o, run g ks n c = .fin o ∧ forget o = meaning c ∧ o ≠ .assertFailed ∧ o ≠ .outOfBounds := by
  intro n
  induction n with
  | zero =>
    intro ks c hi hm
    cases c with
    | fin o => exact ⟨o, rfl, rfl, hi.1, hi.2⟩
    | top s net => simp [measure] at hm
    | lines s net => simp [measure] at hm
    | tail s net => simp [measure] at hm
  | succ n ih =>
    intro ks c hi hm
    by_cases hf : ∃ o, c = .fin o
    · obtain ⟨o, rfl⟩ := hf
      exact ⟨o, run_fin g _ _ _, rfl, hi.1, hi.2⟩
    · have hs := step_ok g (ks 0) hi
      have hlt := step_measure g (ks 0) hi (fun o h => hf ⟨o, h⟩)
      obtain ⟨o, h1, h2, h3⟩ := ih (fun i => ks (i + 1)) _ hs.1 (by omega)
      exact ⟨o, h1, h2.trans hs.2, h3⟩

theorem run_add (g : Nat → Nat) : ∀ (a b : Nat) (ks : Nat → Nat) (c : Cfg),
    run g ks (a + b) c = run g (fun i => ks (i + a)) b (run g ks a c) := by
  intro a
  induction a with
  | zero => intro b ks c; simp [run]
  | succ a ih =>
    intro b ks c
    have : a + 1 + b = (a + b) + 1 := by omega
    rw [this]
    simp only [run]
    rw [ih]
    have e : (fun i => ks (i + a + 1)) = fun i => ks (i + (a + 1)) := rfl
    first | rfl | rw [e]

theorem Ends.unique {g : Nat → Nat} {ks : Nat → Nat} {cap : Nat} {stream : Str} {o o' : Final Req}
    (h : Ends g ks cap stream o) (h' : Ends g ks cap stream o') : o = o' := by
  obtain ⟨n, h⟩ := h
  obtain ⟨n', h'⟩ := h'
  have e1 := run_add g n n' ks (start cap stream)
  have e2 := run_add g n' n ks (start cap stream)
  rw [h, run_fin] at e1
  rw [h', run_fin] at e2
  rw [Nat.add_comm, e2] at e1
  injection e1 with e1
  exact e1.symm

/-! ### The claims -/

/-- **C55** Parsing always ends (once the peer has sent what it sends, and closed), with the outcome read off
the whole stream, whatever the initial size of the buffer, its growth and the sizes of the pieces in which the
stream arrives; no assertion fails and no access is outside of the buffer, other than after a negative chunk
size. -/
theorem parser_is_stream_parser (g : Nat → Nat) (ks : Nat → Nat) {cap : Nat} (hcap : 2 ≤ cap) (stream : Str) :
    ∃ o, Ends g ks cap stream o ∧ forget o = parse {} stream ∧ o ≠ .assertFailed ∧ o ≠ .outOfBounds := by
  have hi : Inv (start cap stream) := ⟨hcap, by simp, by simp; omega, by simp [crlf]⟩
  obtain ⟨o, h1, h2, h3⟩ := run_ends g _ ks _ hi (Nat.le_refl _)
  exact ⟨o, ⟨_, h1⟩, by simpa [start, meaning] using h2, h3⟩

/-- **C55** The same stream in other pieces, into another buffer, gives the same request, or the same refusal. -/
theorem pieces_do_not_matter (g g' : Nat → Nat) (ks ks' : Nat → Nat) {cap cap' : Nat} (h2 : 2 ≤ cap)
    (h2' : 2 ≤ cap') (stream : Str) {o o' : Final Req} (h : Ends g ks cap stream o)
    (h' : Ends g' ks' cap' stream o') : forget o = forget o' := by
  obtain ⟨p, hp1, hp2, _⟩ := parser_is_stream_parser g ks h2 stream
  obtain ⟨p', hp1', hp2', _⟩ := parser_is_stream_parser g' ks' h2' stream
  rw [h.unique hp1, h'.unique hp1', hp2, hp2']

/-- **C55** A request is accepted exactly if the whole stream has it. -/
theorem accepted_iff (g : Nat → Nat) (ks : Nat → Nat) {cap : Nat} (h2 : 2 ≤ cap) (stream : Str) (r : Req) :
    Ends g ks cap stream (.done r) ↔ parse {} stream = .done r := by
  obtain ⟨p, hp1, hp2, _⟩ := parser_is_stream_parser g ks h2 stream
  constructor
  · intro h
    rw [← hp2, ← h.unique hp1]
    rfl
  · intro h
    rw [h] at hp2
    have : p = .done r := by cases p <;> simp_all [forget]
    rw [← this]; exact hp1

end Current.Net
