import Verif.Schema.TypeIds
/-!
C93: what changes a type id and what does not; the ids of the types in `typesystem/reflection/test.cc`, as checked there.
-/
namespace Current.Schema
open Current.Persist

/-! ### Renaming -/

theorem hashFields_xor (i : Nat) (fs : List (Str × UInt64)) (h x : UInt64) : hashFields i fs (h ^^^ x) = hashFields i fs h ^^^ x := by
  induction fs generalizing i h x with
  | nil => rfl
  | cons f fs ih =>
    obtain ⟨n, id⟩ := f
    simp only [hashFields]
    rw [UInt64.xor_assoc, UInt64.xor_comm x, ← UInt64.xor_assoc, ih]

/-- Two names of printable characters that differ in exactly one character. -/
def OneCharApart (a b : Str) : Prop :=
  ∃ pre x y suf, a = pre ++ x :: suf ∧ b = pre ++ y :: suf ∧ x ≠ y ∧ x.toNat < 128 ∧ y.toNat < 128

theorem crcName_ne {a b : Str} (h : OneCharApart a b) : crcName a ≠ crcName b := by
  obtain ⟨pre, x, y, suf, rfl, rfl, hne, hx, hy⟩ := h
  intro hc
  have hb : UInt8.ofNat x.toNat ≠ UInt8.ofNat y.toNat := by
    intro he
    have := congrArg UInt8.toNat he
    rw [UInt8.toNat_ofNat', UInt8.toNat_ofNat', Nat.mod_eq_of_lt (by omega), Nat.mod_eq_of_lt (by omega)] at this
    exact hne (Char.toNat_inj.1 this)
  refine crc32_notices_a_byte (bytesOf pre) (bytesOf suf) _ _ hb ?_
  unfold crcName at hc
  have := congrArg UInt64.toNat hc
  rw [UInt32.toNat_toUInt64, UInt32.toNat_toUInt64] at this
  have := UInt32.toNat_inj.1 this
  simpa [bytesOf] using this

/-- C94: an enum renamed by one character has another id. -/
theorem renamed_enum (a b : Str) (u v : UInt64) (h : OneCharApart a b) : calcId a (.enum u) ≠ calcId b (.enum v) := by
  intro hc
  simp only [calcId] at hc
  have := congrArg UInt64.toNat hc
  have ha := crcName_lt a
  have hb := crcName_lt b
  rw [base_toNat 901 (by decide) _ (by omega), base_toNat 901 (by decide) _ (by omega)] at this
  exact crcName_ne h (UInt64.toNat_inj.1 (by omega))

/-- C94: a struct (not a template) renamed by one character has another id, whatever its fields and base. -/
theorem renamed_struct (a b : Str) (s : Option UInt64) (fs : List (Str × UInt64)) (h : OneCharApart a b) :
    calcId a (.struct s none fs) ≠ calcId b (.struct s none fs) := by
  intro hc
  simp only [calcId, expandedName] at hc
  -- the hash is a constant, changed in its low 32 bits only
  have hx : ∀ n : Str, hashFields 0 fs (crcName n ^^^ rol64 (s.getD 1 ^^^ 1) 7) = hashFields 0 fs (rol64 (s.getD 1 ^^^ 1) 7) ^^^ crcName n := by
    intro n; rw [UInt64.xor_comm, hashFields_xor]
  rw [hx, hx] at hc
  generalize hashFields 0 fs (rol64 (s.getD 1 ^^^ 1) 7) = K at hc
  have e := congrArg UInt64.toNat hc
  rw [base_toNat 920 (by decide) _ (mod_range _), base_toNat 920 (by decide) _ (mod_range _)] at e
  have hr : range.toNat = 10000000000000000 := by decide
  rw [UInt64.toNat_mod, UInt64.toNat_mod, hr] at e
  have htop : ∀ n : Str, (K ^^^ crcName n).toNat / 2 ^ 32 = K.toNat / 2 ^ 32 := by
    intro n
    rw [UInt64.toNat_xor, ← Nat.shiftRight_eq_div_pow, Nat.shiftRight_xor_distrib, Nat.shiftRight_eq_div_pow, Nat.shiftRight_eq_div_pow,
      Nat.div_eq_of_lt (crcName_lt n), Nat.xor_zero]
  have h1 := htop a
  have h2 := htop b
  have heq : (K ^^^ crcName a).toNat = (K ^^^ crcName b).toNat := by omega
  have := UInt64.toNat_inj.1 heq
  apply crcName_ne h
  have hcancel := congrArg (K ^^^ ·) this
  simp only [← UInt64.xor_assoc, UInt64.xor_self, UInt64.zero_xor] at hcancel
  exact hcancel

/-- Nothing of an enum but its name counts: an enum with another underlying type has the same id. -/
theorem enum_underlying_type_does_not_count (a : Str) (u v : UInt64) : calcId a (.enum u) = calcId a (.enum v) := rfl

/-! ### Fields sixty-four apart -/

theorem rol64_period (v : UInt64) (n : Nat) : rol64 v (n + 64) = rol64 v n := by
  unfold rol64
  rw [Nat.add_mod_right]

theorem hashFields_append (i : Nat) (a b : List (Str × UInt64)) (h : UInt64) : hashFields i (a ++ b) h = hashFields (i + a.length) b (hashFields i a h) := by
  induction a generalizing i h with
  | nil => rfl
  | cons f a ih =>
    obtain ⟨n, id⟩ := f
    simp only [List.cons_append, hashFields, List.length_cons]
    rw [ih]
    congr 1
    omega

/-- Not as one would wish: exchanging two fields that are 64 apart does not change the id. -/
theorem fields_64_apart (name : Str) (s i : Option UInt64) (a b c : List (Str × UInt64)) (x y : Str × UInt64) (hb : b.length = 63) :
    calcId name (.struct s i (a ++ x :: b ++ y :: c)) = calcId name (.struct s i (a ++ y :: b ++ x :: c)) := by
  simp only [calcId]
  generalize crcName (expandedName name i) ^^^ rol64 (s.getD 1 ^^^ 1) 7 = h
  have key : ∀ x y : Str × UInt64, hashFields 0 (a ++ x :: b ++ y :: c) h =
      hashFields (a.length + 65) c (hashFields (a.length + 1) b (hashFields 0 a h) ^^^
        ((rol64 x.2 (a.length + 17) ^^^ rol64 (crcName x.1) (a.length + 29)) ^^^ (rol64 y.2 (a.length + 17) ^^^ rol64 (crcName y.1) (a.length + 29)))) := by
    intro x y
    obtain ⟨nx, ix⟩ := x
    obtain ⟨ny, iy⟩ := y
    rw [List.append_assoc, hashFields_append]
    simp only [List.cons_append, hashFields, Nat.zero_add]
    rw [hashFields_append, hb]
    simp only [hashFields]
    rw [show a.length + 1 + 63 + 17 = (a.length + 17) + 64 by omega, show a.length + 1 + 63 + 29 = (a.length + 29) + 64 by omega, rol64_period, rol64_period,
      hashFields_xor (a.length + 1) b, UInt64.xor_assoc (hashFields (a.length + 1) b (hashFields 0 a h)), show a.length + 1 + 63 + 1 = a.length + 65 by omega]
  rw [key x y, key y x, UInt64.xor_comm (rol64 x.2 (a.length + 17) ^^^ rol64 (crcName x.1) (a.length + 29))]

/-! ### The types of the test -/

/-- `typesystem/reflection/test.cc:42-79`: 0 `uint64_t`, 1 `std::string`, 2 `Foo`, 3-6 the fields of 7 `Bar`, 8-12 the recursive structs and their fields, 13 `Templated<Foo>`. -/
def testTypes : Types
  | 0 => ⟨"uint64_t".toList, .prim 24⟩
  | 1 => ⟨"std::string".toList, .prim 42⟩
  | 2 => ⟨"Foo".toList, .struct none none [("i".toList, 0)]⟩
  | 3 => ⟨"std::vector<uint64_t>".toList, .vector 0⟩
  | 4 => ⟨"std::vector<Foo>".toList, .vector 2⟩
  | 5 => ⟨"std::vector<std::vector<Foo>>".toList, .vector 4⟩
  | 6 => ⟨"std::map<std::string, std::string>".toList, .map 1 1⟩
  | 7 => ⟨"Bar".toList, .struct none none [("v1".toList, 3), ("v2".toList, 4), ("v3".toList, 5), ("v4".toList, 6)]⟩
  | 8 => ⟨"SelfContainingA".toList, .struct none none [("v".toList, 9)]⟩
  | 9 => ⟨"std::vector<SelfContainingA>".toList, .vector 8⟩
  | 10 => ⟨"SelfContainingB".toList, .struct none none [("v".toList, 11)]⟩
  | 11 => ⟨"std::vector<SelfContainingB>".toList, .vector 10⟩
  | 12 => ⟨"SelfContainingC".toList, .struct (some 8) none [("v".toList, 11), ("m".toList, 14)]⟩
  | 13 => ⟨"Templated_Z".toList, .struct none (some 2) [("base".toList, 1), ("extension".toList, 2)]⟩
  | 14 => ⟨"std::map<std::string, SelfContainingC>".toList, .map 1 12⟩
  | _ => ⟨"bool".toList, .prim 11⟩

theorem testTypes_sound : Sound testTypes := by
  constructor
  · intro t e n h
    unfold testTypes at h
    split at h <;> cases h
  · intro t i h
    unfold testTypes at h
    split at h <;> cases h <;> decide

theorem testTypes_closed : Closed testTypes 15 := by
  intro t ht k hk
  unfold Part at hk
  have : ∀ t < 15, ∀ k ∈ (testTypes t).d.parts, k < 15 := by decide +kernel
  exact this t ht k hk

/-- The ids the test expects, `test.cc:294-297, 331-336, 407-415`, with both orders of evaluation. -/
example (o : ArgOrder) : [2, 7, 3, 4, 5, 6, 8, 9, 10, 11, 12, 14, 13].map (freshId o testTypes 16) =
    [9203762249085213197, 9206387322237345681, 9319767778871345347, 9319865771553050731, 9311949877586199388, 9349351407460177576,
     9203459442620113853, 9316106052119012411, 9205833655400624647, 9316451506340571627, 9208493534322203273, 9346663043140503218,
     9204032299541411163] := by
  cases o <;> decide +kernel

/-- `Bar` has no cycle below it; `SelfContainingA` has. -/
example : (∃ id, HasId testTypes 7 id) ∧ ¬ ∃ id, HasId testTypes 8 id := by
  have h0 : ∀ t, (testTypes t).d.parts = [] → ∃ id, HasId testTypes t id := by
    intro t ht
    exact ⟨_, HasId.mk t (fun _ => 0) (by rw [ht]; simp)⟩
  have hstep : ∀ t, (∀ k ∈ (testTypes t).d.parts, ∃ id, HasId testTypes k id) → ∃ id, HasId testTypes t id := by
    intro t h
    rw [hasId_iff]
    exact Acc.intro t fun k hk => hasId_iff.1 (h k hk)
  have a0 := h0 0 (by decide +kernel)
  have a1 := h0 1 (by decide +kernel)
  have a2 := hstep 2 (by
    rw [show (testTypes 2).d.parts = [0] by decide +kernel]
    intro k hk
    have : k = 0 := by simpa using hk
    subst this; exact a0)
  have a3 := hstep 3 (by
    rw [show (testTypes 3).d.parts = [0] by decide +kernel]
    intro k hk
    have : k = 0 := by simpa using hk
    subst this; exact a0)
  have a4 := hstep 4 (by
    rw [show (testTypes 4).d.parts = [2] by decide +kernel]
    intro k hk
    have : k = 2 := by simpa using hk
    subst this; exact a2)
  have a5 := hstep 5 (by
    rw [show (testTypes 5).d.parts = [4] by decide +kernel]
    intro k hk
    have : k = 4 := by simpa using hk
    subst this; exact a4)
  have a6 := hstep 6 (by
    rw [show (testTypes 6).d.parts = [1, 1] by decide +kernel]
    intro k hk
    have : k = 1 := by simpa using hk
    subst this; exact a1)
  refine ⟨hstep 7 (by
    rw [show (testTypes 7).d.parts = [3, 4, 5, 6] by decide +kernel]
    intro k hk
    have : k = 3 ∨ k = 4 ∨ k = 5 ∨ k = 6 := by simpa using hk
    rcases this with rfl | rfl | rfl | rfl
    · exact a3
    · exact a4
    · exact a5
    · exact a6), ?_⟩
  rintro ⟨id, h⟩
  have h9 : 9 ∈ (testTypes 8).d.parts := by decide +kernel
  refine h.no_cycle 9 h9 (Relation.ReflTransGen.single ?_)
  show 8 ∈ (testTypes 9).d.parts
  decide +kernel

/-! ### Recursive types and the order of evaluation -/

/-- `struct A { vector<B> v; }`, `struct B { vector<A> v; }`, `struct T { pair<A, B> p; }`. -/
def pairTypes : Types
  | 0 => ⟨['T'], .struct none none [(['p'], 1)]⟩
  | 1 => ⟨"std::pair<A, B>".toList, .pair 2 3⟩
  | 2 => ⟨['A'], .struct none none [(['v'], 4)]⟩
  | 3 => ⟨['B'], .struct none none [(['v'], 5)]⟩
  | 4 => ⟨"std::vector<B>".toList, .vector 3⟩
  | 5 => ⟨"std::vector<A>".toList, .vector 2⟩
  | _ => ⟨"bool".toList, .prim 11⟩

/-- Not as one would wish: the id of `T` depends on the order in which the compiler evaluates the arguments of a call. -/
theorem recursive_id_depends_on_the_compiler : freshId .left pairTypes 7 0 ≠ freshId .right pairTypes 7 0 := by
  decide +kernel

end Current.Schema
