import Verif.Jit.Props
/-!
C97, C98: the functions that the native JIT compiler makes.
-/
namespace Current.Jit
open Current.Fncas

variable {N : Num UInt64} {env : Env} {L : Layout} {X : Nat → UInt64} {s0 : State} {S : Store UInt64} {dim : Nat}

/-- What the calling convention promises to the caller: control goes back to the return address with that address popped, the registers which belong to the caller are as they were,
and memory has not been touched outside the heap and the free part of the stack. -/
structure Returned (env : Env) (L : Layout) (s s' : State) : Prop where
  stack : s'.regs rsp = L.sp + 8
  registers : ∀ r, calleeSaved r = true → r ≠ rsp → s'.regs r = s.regs r
  memory : ∀ a, ¬ InHeap L a → ¬ InStack env L a → s'.mem a = s.mem a

/-- `push rbx; mov rbx, rsi`. -/
theorem run_prologue {s : State} (hP : Provided N env L X s.mem) (hsp : s.regs rsp = L.sp) :
    ∃ t, Runs N env (pushRbx ++ movRsiRbx) (entry L.xp L.hp L.tp s) t ∧ Body env L (entry L.xp L.hp L.tp s) t := by
  have hP' : Provided N env L X (entry L.xp L.hp L.tp s).mem := hP
  generalize hs0 : entry L.xp L.hp L.tp s = s0 at *
  have r1 : s0.regs rsp = L.sp := by rw [← hs0]; exact hsp
  have r2 : s0.regs rsi = L.hp - 128 := by rw [← hs0]; rfl
  have r3 : s0.regs rdi = L.xp - 128 := by rw [← hs0]; rfl
  have r4 : s0.regs rdx = L.tp - 8 := by rw [← hs0]; rfl
  have i8 := sp8_stack hP' 8 (by decide) (by decide)
  have t8 := sp_sub hP' 8 (by decide)
  simp only [show UInt64.ofNat 8 = 8 from rfl] at i8 t8
  have hal := hP.spAligned
  have hroom := hP.room
  have a8 : aligned (L.sp - 8) = true := by unfold aligned; rw [decide_eq_true_eq, t8]; omega
  let s1 : State := (s0.setMem (L.sp - 8) (s0.regs rbx)).setReg rsp (L.sp - 8)
  have e1 : Runs N env pushRbx s0 s1 := by
    refine .one (by simp [pushRbx]) (fun _ => rfl) (i := .push rbx) ?_
    simp only [step, store, r1, a8, hP.stackWritable _ i8, Bool.and_self, if_true]
    rfl
  let s2 : State := s1.setReg rbx (L.hp - 128)
  have e2 : Runs N env movRsiRbx s1 s2 := by
    refine .one (by simp [movRsiRbx]) (fun _ => rfl) (i := .mov (.reg rbx) rsi) ?_
    have : s1.regs rsi = L.hp - 128 := r2
    simp only [step, this]
    rfl
  refine ⟨s2, e1.append e2, ?_⟩
  refine ⟨rfl, r3, r4, rfl, ?_, ?_, ?_⟩
  · simp [s2, s1, State.setMem, State.setReg]
  · intro r _ h1 h2
    simp only [s2, s1, State.setReg, State.setMem]
    rw [if_neg h1, if_neg h2]
  · intro a _ h2
    have : a ≠ L.sp - 8 := fun hc => h2 (hc ▸ i8)
    simp [s2, s1, State.setMem, State.setReg, this]

/-- `pop rbx; ret`. -/
theorem run_epilogue {s t : State} (hP : Provided N env L X s.mem) (hsp : s.regs rsp = L.sp) (hb : Body env L (entry L.xp L.hp L.tp s) t) :
    ∃ s', (∀ fuel, 2 ≤ fuel → exec N env fuel (popRbx ++ retCode) t = .returned (s.mem L.sp) s') ∧ s'.xmm = t.xmm ∧ s'.mem = t.mem ∧ Returned env L s s' := by
  have hP' : Provided N env L X (entry L.xp L.hp L.tp s).mem := hP
  have i8 := sp8_stack hP' 8 (by decide) (by decide)
  have t8 := sp_sub hP' 8 (by decide)
  simp only [show UInt64.ofNat 8 = 8 from rfl] at i8 t8
  have hal := hP.spAligned
  have hroom := hP.room
  have a8 : aligned (L.sp - 8) = true := by unfold aligned; rw [decide_eq_true_eq, t8]; omega
  have a0 : aligned L.sp = true := by unfold aligned; rw [decide_eq_true_eq]; omega
  let t1 : State := (t.setReg rsp L.sp).setReg rbx (s.regs rbx)
  let t2 : State := t1.setReg rsp (L.sp + 8)
  have hsp8 : L.sp - 8 + 8 = L.sp := by grind
  have hsaved : t.mem (L.sp - 8) = s.regs rbx := hb.saved
  have htop : t.mem L.sp = s.mem L.sp := by
    have := hb.frame L.sp (fun ⟨j, hj, hc⟩ => (hP.hApart j hj).2 hc.symm) (fun h => absurd h.2 (Nat.lt_irrefl _))
    exact this
  have s1 : step N env (.pop rbx) t = .next t1 := by
    simp only [step, load, hb.rsp, a8, hP.stackReadable _ i8.1 (Nat.le_of_lt i8.2), Bool.and_self, if_true, hsp8, hsaved]
    rfl
  have s2 : step N env .ret t1 = .returned (s.mem L.sp) t2 := by
    have h1 : t1.regs rsp = L.sp := rfl
    have h2 : t1.mem L.sp = s.mem L.sp := htop
    simp only [step, load, h1, a0, hP.stackReadable L.sp (by omega) (Nat.le_refl _), Bool.and_self, if_true, h2]
    rfl
  refine ⟨t2, ?_, rfl, rfl, rfl, ?_, ?_⟩
  · intro fuel hf
    obtain ⟨k, rfl⟩ : ∃ k, fuel = k + 1 + 1 := ⟨fuel - 2, by omega⟩
    have d1 : decode (popRbx ++ retCode) = some (.pop rbx, retCode) := rfl
    have d2 : decode retCode = some (.ret, []) := rfl
    simp only [exec, d1, s1, d2, s2]
  · intro r hr hne
    simp only [t2, t1, State.setReg]
    rw [if_neg hne]
    by_cases h : r = rbx
    · subst h; rfl
    · rw [if_neg h, if_neg hne]
      have := hb.others r hr h hne
      rw [this]
      have q1 : r ≠ rdi := by rintro rfl; cases hr
      have q2 : r ≠ rdx := by rintro rfl; cases hr
      have q3 : r ≠ rsi := by rintro rfl; cases hr
      simp [entry, State.setReg, q1, q2, q3]
  · intro a h1 h2
    exact hb.frame a h1 h2

theorem genLoop_more : ∀ n (g : Gen) st r, genLoop S dim n g st = some r → ∀ m, n ≤ m → genLoop S dim m g st = some r := by
  intro n
  induction n with
  | zero =>
    intro g st r h m _
    cases st with
    | nil => cases m <;> exact h
    | cons _ _ => cases h
  | succ n ih =>
    intro g st r h m hm
    obtain ⟨m, rfl⟩ : ∃ k, m = k + 1 := ⟨m - 1, by omega⟩
    cases st with
    | nil => exact h
    | cons e rest =>
      simp only [genLoop] at h ⊢
      cases hs : genStep S dim g e with
      | none => rw [hs] at h; exact h
      | some p =>
        rw [hs] at h
        exact ih _ _ _ h m (by omega)

theorem Compiled.loop {i : Nat} {e : Expr UInt64} {D : Nat → Prop} {g g' : Gen} {D' : Nat → Prop} {code : List UInt8} {k fuel : Nat}
    (h : Compiled N env S L X s0 dim i e D g g' D' code k) (hf : 3 * S.nodes.length + 1 ≤ fuel) : genLoop S dim fuel g [.visit i] = some (some g') := by
  have h1 := h.cost
  have h2 := left_le S g
  obtain ⟨f, rfl⟩ : ∃ f, fuel = k + f := ⟨fuel - k, by omega⟩
  rw [h.run]
  cases f <;> rfl

theorem varsBelow_mono : ∀ {e : Expr UInt64} {n m : Nat}, e.VarsBelow n → n ≤ m → e.VarsBelow m
  | .var _, _, _, h, hm => Nat.lt_of_lt_of_le h hm
  | .val _, _, _, _, _ => trivial
  | .op _ _ _, _, _, h, hm => ⟨varsBelow_mono h.1 hm, varsBelow_mono h.2 hm⟩
  | .fn _ a, _, _, h, hm => varsBelow_mono (e := a) h hm

theorem varsBelow_some : ∀ e : Expr UInt64, ∃ n, e.VarsBelow n
  | .var v => ⟨v + 1, Nat.lt_succ_self v⟩
  | .val _ => ⟨0, trivial⟩
  | .op _ a b => by
    obtain ⟨n, hn⟩ := varsBelow_some a
    obtain ⟨m, hm⟩ := varsBelow_some b
    exact ⟨max n m, varsBelow_mono hn (Nat.le_max_left _ _), varsBelow_mono hm (Nat.le_max_right _ _)⟩
  | .fn _ a => varsBelow_some a

/-- The code between the prologue and the epilogue decides what is returned. -/
theorem run_whole {s t : State} {body : List UInt8} (hP : Provided N env L X s.mem) (hsp : s.regs rsp = L.sp)
    (hr : Runs N env (pushRbx ++ movRsiRbx ++ body) (entry L.xp L.hp L.tp s) t)
    (hb : Body env L (entry L.xp L.hp L.tp s) t) {code : List UInt8} (hcode : code = (pushRbx ++ movRsiRbx ++ body) ++ (popRbx ++ retCode)) :
    ∃ s', exec N env code.length code (entry L.xp L.hp L.tp s) = .returned (s.mem L.sp) s' ∧ s'.xmm = t.xmm ∧ s'.mem = t.mem ∧ Returned env L s s' := by
  obtain ⟨s', q1, q2, q3, q4⟩ := run_epilogue (N := N) hP hsp hb
  refine ⟨s', ?_, q2, q3, q4⟩
  obtain ⟨m, hm, hr⟩ := hr
  have hlen : code.length = (pushRbx ++ movRsiRbx ++ body).length + 2 := by
    rw [hcode, List.length_append]; rfl
  obtain ⟨f, hf⟩ : ∃ f, code.length = (f + 2) + m := ⟨code.length - 2 - m, by omega⟩
  rw [hf, hcode, hr, q1 _ (by omega)]

/-- Numbers, a machine and a place, to speak of the code alone. -/
def anyNum : Num UInt64 := ⟨fun _ a _ => a, fun _ a => a, fun _ => 0, 0, fun _ _ => false⟩
def anyEnv : Env := ⟨fun _ => false, fun _ => false, 0, fun _ => none, fun _ _ => 0, fun _ _ => 0, fun _ _ => 0⟩
def anyState : State := ⟨fun _ => 0, fun _ => 0, fun _ => 0⟩

/-- **C97.** Compiling a recorded function always succeeds, and then, wherever the code, the inputs, the heap and the stack are, whatever is in the heap and the registers, and whatever the library functions
leave in the registers and the stack they may use: calling the code returns to the caller, with the value of the expression at the inputs in `xmm0` — each operation and function applied in the order in which the user applied them —, and as the calling convention demands. -/
theorem compiled_function {i : Nat} {e : Expr UInt64} (hd : Denotes S i e) (fuel : Nat) (hf : 3 * S.nodes.length + 1 ≤ fuel) :
    ∃ code h, genF S fuel i = some (some (code, h)) ∧
      ∀ (N : Num UInt64) (env : Env) (L : Layout) (X : Nat → UInt64) (s : State),
        L.h = h → e.VarsBelow L.n → Provided N env L X s.mem → s.regs rsp = L.sp →
        ∃ s', exec N env code.length code (entry L.xp L.hp L.tp s) = .returned (s.mem L.sp) s' ∧ s'.xmm 0 = e.eval N X ∧ Returned env L s s' := by
  have key : ∀ (N : Num UInt64) (env : Env) (L : Layout) (X : Nat → UInt64) (s0 : State), e.VarsBelow L.n →
      ∃ g' c, genLoop S 0 fuel Gen.start [.visit i] = some (some g') ∧ g'.code = Gen.start.code ++ c ∧
        ∃ D', Computes N env S L X s0 0 (fun _ => False) D' g'.maxDim c ∧ D' i ∧ i ≤ g'.maxDim := by
    intro N env L X s0 hv
    obtain ⟨k, g', D', c, h, _⟩ := compile_ok (N := N) (env := env) (S := S) (L := L) (X := X) (s0 := s0) (dim := 0) e i Gen.start (fun _ => False) hd hv
      (by intro j hj; cases hj) (by intro j hj; exact hj.elim)
    exact ⟨g', c, h.loop hf, h.emitted, D', h.computes, h.here, h.max2⟩
  obtain ⟨n, hn⟩ := varsBelow_some e
  obtain ⟨g', c, hg, hc, -⟩ := key anyNum anyEnv ⟨0, 0, 0, 0, n, 0⟩ (fun _ => 0) anyState hn
  refine ⟨(g'.emit (loadRbx i)).finish, g'.maxDim + 1, by simp only [genF, hg], ?_⟩
  intro N env L X s hh hv hP hsp
  obtain ⟨g'', c', hg', hc', D', hcomp, hD, hmax⟩ := key N env L X (entry L.xp L.hp L.tp s) hv
  rw [hg] at hg'
  obtain rfl : g' = g'' := by simpa using hg'
  obtain ⟨t0, p0, b0⟩ := run_prologue (N := N) hP hsp
  obtain ⟨t1, p1, b1, h1, -⟩ := hcomp hP (by omega) t0 b0 (by intro j hj; exact hj.elim)
  have p2 := run_load (N := N) (s0 := entry L.xp L.hp L.tp s) hP b1.rbx (j := i) (by omega)
  have ecode : (g'.emit (loadRbx i)).finish = (pushRbx ++ movRsiRbx ++ (c' ++ loadRbx i)) ++ (popRbx ++ retCode) := by
    simp only [Gen.finish, Gen.emit, hc', Gen.start, List.append_assoc]
  obtain ⟨s', q1, q2, q3, q4⟩ := run_whole (N := N) hP hsp (p0.append (p1.append p2)) (b1.setXmm (t1.mem (word L.hp i))) ecode
  refine ⟨s', q1, ?_, q4⟩
  rw [q2]
  simp only [State.setXmm, if_true]
  exact h1 i hD e hd

/-- The code for the components of the gradient from number `k` on. -/
theorem genGs_ok {fuel : Nat} (hf : 3 * S.nodes.length + 1 ≤ fuel) : ∀ (ps : List (Nat × Expr UInt64)) (k : Nat) (g : Gen) (D : Nat → Prop),
    (∀ p ∈ ps, Denotes S p.1 p.2 ∧ p.2.VarsBelow L.n) → (∀ j, g.computed j = true → D j) → (∀ j, D j → j ≤ g.maxDim ∧ g.computed j = true) → k + ps.length ≤ dim →
    ∃ g' c, genGs S dim fuel (ps.map Prod.fst) k g = some (some g') ∧ g'.code = g.code ++ c ∧ g.maxDim ≤ g'.maxDim ∧ (∀ p ∈ ps, p.1 ≤ g'.maxDim) ∧
      (Provided N env L X s0.mem → g'.maxDim + dim < L.h → ∀ s, Body env L s0 s → Holds N S L X dim D s →
        ∃ s', Runs N env c s s' ∧ Body env L s0 s' ∧ (∀ q < k, s'.mem (word L.hp q) = s.mem (word L.hp q)) ∧
          ∀ q p, ps[q]? = some p → s'.mem (word L.hp (k + q)) = p.2.eval N X) := by
  intro ps
  induction ps with
  | nil =>
    intro k g D _ _ _ _
    refine ⟨g, [], rfl, by simp, Nat.le_refl _, by simp, fun _ _ s hb _ => ⟨s, .nil s, hb, fun _ _ => rfl, by simp⟩⟩
  | cons p ps ih =>
    intro k g D hps hm hD hk
    obtain ⟨i, e⟩ := p
    obtain ⟨hd, hv⟩ := hps (i, e) (by simp)
    rw [List.length_cons] at hk
    obtain ⟨n, g1, D1, c1, h1, b1⟩ := compile_ok (N := N) (env := env) (S := S) (L := L) (X := X) (s0 := s0) (dim := dim) e i g D hd hv
      (fun j hj => .inl (hm j hj)) hD
    have hloop := h1.loop hf
    obtain ⟨g', c, r1, r2, r3, r4, r5⟩ := ih (k + 1) (g1.emit (loadRbx (i + dim) ++ storeRbx k)) D1 (fun p hp => hps p (by simp [hp]))
      (by
        intro j hj
        rcases h1.marked j hj with h | h
        · exact h1.mono j (hm j h)
        · exact h) b1 (by omega)
    have r3' : g1.maxDim ≤ g'.maxDim := r3
    refine ⟨g', c1 ++ (loadRbx (i + dim) ++ storeRbx k) ++ c, ?_, ?_, Nat.le_trans h1.max1 r3', ?_, ?_⟩
    · simp only [List.map_cons, genGs, hloop]
      exact r1
    · rw [r2]; simp only [Gen.emit, h1.emitted, List.append_assoc]
    · intro p hp
      rcases List.mem_cons.1 hp with rfl | hp
      · exact Nat.le_trans h1.max2 r3'
      · exact r4 p hp
    · intro hP hlt s hb hh
      have hsm := hP.hSmall
      have hi : i + dim < L.h := by have := h1.max2; omega
      obtain ⟨s1, p1, q1, w1, f1⟩ := h1.computes hP (by omega) s hb hh
      have p2 := run_load (N := N) hP q1.rbx hi
      have q2 := q1.setXmm (s1.mem (word L.hp (i + dim)))
      have p3 := run_store (N := N) hP q2.rbx (j := k) (by omega)
      have q3 := q2.put hP (j := k) (by omega) (s1.mem (word L.hp (i + dim)))
      have hval : s1.mem (word L.hp (i + dim)) = e.eval N X := w1 i h1.here e hd
      generalize hs3 : (s1.setXmm 0 (s1.mem (word L.hp (i + dim)))).setMem (word L.hp k) (s1.mem (word L.hp (i + dim))) = s3 at q3
      have p3' : Runs N env (storeRbx k) (s1.setXmm 0 (s1.mem (word L.hp (i + dim)))) s3 := by
        rw [← hs3]; exact p3
      have hother : ∀ j, j < L.h → j ≠ k → s3.mem (word L.hp j) = s1.mem (word L.hp j) := by
        intro j hj hne
        have : word L.hp j ≠ word L.hp k := fun hc => hne (word_inj (by omega) (by omega) hc)
        rw [← hs3]
        simp [State.setMem, State.setXmm, this]
      have hk3 : s3.mem (word L.hp k) = e.eval N X := by
        rw [← hs3, ← hval]; simp [State.setMem]
      obtain ⟨s', p4, q4, f4, w4⟩ := r5 hP hlt s3 q3 (by
        intro j hj e' he'
        have := (b1 j hj).1
        rw [hother (j + dim) (by omega) (by omega)]
        exact w1 j hj e' he')
      refine ⟨s', (p1.append (p2.append p3')).append p4, q4, ?_, ?_⟩
      · intro q hq
        rw [f4 q (by omega), hother q (by omega) (by omega), f1 q (by omega)]
      · intro q p hp
        cases q with
        | zero =>
          obtain rfl : (i, e) = p := by simpa using hp
          rw [Nat.add_zero, f4 k (by omega)]
          exact hk3
        | succ q =>
          rw [show k + (q + 1) = k + 1 + q by omega]
          exact w4 q p (by simpa using hp)

/-- **C98.** Compiling the gradient, given by the numbers of the nodes of its components: unless all the nodes have smaller numbers than there are variables (which does not happen, as the variables come first),
it succeeds, and then calling the code as above leaves the values of all the components at the beginning of the heap, in order. -/
theorem compiled_gradient (ps : List (Nat × Expr UInt64)) (hd : ∀ p ∈ ps, Denotes S p.1 p.2) (hmany : ∀ p ∈ ps, ps.length ≤ p.1) (fuel : Nat) (hf : 3 * S.nodes.length + 1 ≤ fuel) :
    ∃ code h, genG S fuel (ps.map Prod.fst) = some (some (code, h)) ∧ ps.length ≤ h ∧
      ∀ (N : Num UInt64) (env : Env) (L : Layout) (X : Nat → UInt64) (s : State),
        L.h = h → (∀ p ∈ ps, p.2.VarsBelow L.n) → Provided N env L X s.mem → s.regs rsp = L.sp →
        ∃ s', exec N env code.length code (entry L.xp L.hp L.tp s) = .returned (s.mem L.sp) s' ∧
          (List.range ps.length).map (fun k => s'.mem (word L.hp k)) = ps.map (fun p => p.2.eval N X) ∧ Returned env L s s' := by
  have hv : ∃ n, ∀ p ∈ ps, p.2.VarsBelow n := by
    clear hd hmany
    induction ps with
    | nil => exact ⟨0, by simp⟩
    | cons p ps ih =>
      obtain ⟨n, hn⟩ := ih
      obtain ⟨m, hm⟩ := varsBelow_some p.2
      refine ⟨max n m, fun q hq => ?_⟩
      rcases List.mem_cons.1 hq with rfl | hq
      · exact varsBelow_mono hm (Nat.le_max_right _ _)
      · exact varsBelow_mono (hn q hq) (Nat.le_max_left _ _)
  obtain ⟨n, hn⟩ := hv
  have key := fun (N : Num UInt64) (env : Env) (L : Layout) (X : Nat → UInt64) (s0 : State) (hv : ∀ p ∈ ps, p.2.VarsBelow L.n) =>
    genGs_ok (N := N) (env := env) (S := S) (L := L) (X := X) (s0 := s0) (dim := ps.length) hf ps 0 Gen.start (fun _ => False)
      (fun p hp => ⟨hd p hp, hv p hp⟩) (by intro j hj; cases hj) (by intro j hj; exact hj.elim) (by omega)
  obtain ⟨g', c, hg, -, -, hmax, -⟩ := key anyNum anyEnv ⟨0, 0, 0, 0, n, 0⟩ (fun _ => 0) anyState hn
  have hlen : (ps.map Prod.fst).length = ps.length := List.length_map _
  have hassert : ps.length ≤ g'.maxDim + 1 := by
    cases ps with
    | nil => exact Nat.zero_le _
    | cons p ps =>
      have h1 := hmany p (by simp)
      have h2 := hmax p (by simp)
      omega
  refine ⟨g'.finish, ps.length + g'.maxDim + 1, by simp only [genG, hlen, hg, if_pos hassert], by omega, ?_⟩
  intro N env L X s hh hv hP hsp
  obtain ⟨g'', c', hg', hc', -, -, hcomp⟩ := key N env L X (entry L.xp L.hp L.tp s) hv
  rw [hg] at hg'
  obtain rfl : g' = g'' := by simpa using hg'
  obtain ⟨t0, p0, b0⟩ := run_prologue (N := N) hP hsp
  obtain ⟨t1, p1, b1, -, h1⟩ := hcomp hP (by omega) t0 b0 (by intro j hj; exact hj.elim)
  have ecode : g'.finish = (pushRbx ++ movRsiRbx ++ c') ++ (popRbx ++ retCode) := by
    simp only [Gen.finish, hc', Gen.start, List.append_assoc]
  obtain ⟨s', q1, q2, q3, q4⟩ := run_whole (N := N) hP hsp (p0.append p1) b1 ecode
  refine ⟨s', q1, ?_, q4⟩
  rw [q3]
  apply List.ext_getElem (by simp)
  intro k hk _
  simp only [List.length_map, List.length_range] at hk
  simp only [List.getElem_map, List.getElem_range]
  have := h1 k ps[k] (by simp [List.getElem?_eq_getElem hk])
  rw [Nat.zero_add] at this
  exact this

end Current.Jit
