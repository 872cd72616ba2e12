import Verif.Json.Spec
namespace Current.Json
open Current.Persist (Str dec readNat)

variable {e : Env} {fs fp : Fmt} {pa : Bool}

/-! ### Loops -/

theorem desEach_ok {α : Type} (dfl : α) (f : J → α → Except Err α) (g : α → J) (l : List α)
    (h : ∀ x ∈ l, ∀ d, f (g x) d = .ok x) : ∀ d, desEach dfl f (l.map g) d = .ok l := by
  induction l with
  | nil => intro d; cases d <;> rfl
  | cons a l ih =>
    have ih := ih (fun x hx => h x (List.mem_cons_of_mem _ hx))
    intro d
    cases d with
    | nil => simp only [List.map_cons, desEach, h a (List.mem_cons_self ..), ih]
    | cons b d => simp only [List.map_cons, desEach, h a (List.mem_cons_self ..), ih]

theorem desFin_ok {α : Type} (f : J → α → Except Err α) (g : α → J) (n : Nat) : ∀ (v d : Fin n → α),
    (∀ i, ∀ d, f (g (v i)) d = .ok (v i)) → desFin f n ((List.ofFn v).map g) d = .ok v := by
  induction n with
  | zero => intro v d _; simp only [desFin]; congr 1; funext i; exact i.elim0
  | succ n ih =>
    intro v d h
    rw [List.ofFn_succ, List.map_cons]
    simp only [desFin, h 0]
    rw [ih (fun i => v i.succ) _ (fun i d => h i.succ d)]
    refine congrArg Except.ok (funext fun i => ?_)
    refine Fin.cases rfl (fun j => rfl) i

theorem insertOrd_last {α : Type} (lt : α → α → Bool) (x : α) (l : List α) (h : ∀ y ∈ l, lt y x = true) :
    insertOrd lt x l = l ++ [x] := by
  induction l with
  | nil => rfl
  | cons a l ih =>
    rw [insertOrd, if_pos (h a (List.mem_cons_self ..)), ih (fun y hy => h y (List.mem_cons_of_mem _ hy))]
    rfl

theorem desSet_ok {α : Type} (lt : α → α → Bool) (f : J → Except Err α) (g : α → J) (l : List α)
    (h : ∀ x ∈ l, f (g x) = .ok x) : ∀ acc : List α, (acc ++ l).Pairwise (fun a b => lt a b = true) →
    desSet lt f (l.map g) acc = .ok (acc ++ l) := by
  induction l with
  | nil => intro acc _; simp [desSet]
  | cons a l ih =>
    intro acc hp
    simp only [List.map_cons, desSet, h a (List.mem_cons_self ..)]
    rw [insertOrd_last lt a acc (fun y hy => (List.pairwise_append.1 hp).2.2 y hy a (List.mem_cons_self ..))]
    rw [ih (fun x hx => h x (List.mem_cons_of_mem _ hx)) (acc ++ [a]) (by simpa using hp)]
    simp

theorem desSMap_ok {α : Type} (lt : Str → Str → Bool) (mv : α → α) (f : J → α → Except Err α) (g : α → J)
    (l : List (Str × α)) (h : ∀ x ∈ l, ∀ d, f (g x.2) d = .ok x.2) : ∀ (v : α) (acc : List (Str × α)),
    (acc ++ l).Pairwise (fun a b => lt a.1 b.1 = true) →
    desSMap lt mv f (l.map fun kv => (kv.1, g kv.2)) v acc = .ok (acc ++ l) := by
  induction l with
  | nil => intro v acc _; simp [desSMap]
  | cons a l ih =>
    intro v acc hp
    simp only [List.map_cons, desSMap, h a (List.mem_cons_self ..)]
    rw [insertOrd_last _ (a.1, a.2) acc (fun y hy => (List.pairwise_append.1 hp).2.2 y hy a (List.mem_cons_self ..))]
    rw [ih (fun x hx => h x (List.mem_cons_of_mem _ hx)) _ (acc ++ [a]) (by simpa using hp)]
    simp

theorem desMap_ok {α β : Type} (lt : α → α → Bool) (fk : J → Except Err α) (fv : J → Except Err β) (gk : α → J)
    (gv : β → J) (l : List (α × β)) (h : ∀ x ∈ l, fk (gk x.1) = .ok x.1 ∧ fv (gv x.2) = .ok x.2) :
    ∀ (acc : List (α × β)), (acc ++ l).Pairwise (fun a b => lt a.1 b.1 = true) →
    desMap lt fk fv (l.map fun kv => .arr [gk kv.1, gv kv.2]) acc = .ok (acc ++ l) := by
  induction l with
  | nil => intro acc _; simp [desMap]
  | cons a l ih =>
    intro acc hp
    simp only [List.map_cons, desMap, (h a (List.mem_cons_self ..)).1, (h a (List.mem_cons_self ..)).2]
    rw [insertOrd_last _ (a.1, a.2) acc (fun y hy => (List.pairwise_append.1 hp).2.2 y hy a (List.mem_cons_self ..))]
    rw [ih (fun x hx => h x (List.mem_cons_of_mem _ hx)) (acc ++ [a]) (by simpa using hp)]
    simp

/-! ### Members -/

theorem find_append (k : Str) (a b : List (Str × J)) :
    find k (a ++ b) = (find k a).or (find k b) := by
  induction a with
  | nil => simp [find]
  | cons x a ih =>
    obtain ⟨k', j⟩ := x
    simp only [List.cons_append, find]
    split
    · rfl
    · exact ih

theorem find_none {k : Str} {m : List (Str × J)} (h : k ∉ m.map Prod.fst) : find k m = none := by
  induction m with
  | nil => rfl
  | cons x m ih =>
    obtain ⟨k', j⟩ := x
    simp only [List.map_cons, List.mem_cons, not_or] at h
    rw [find, if_neg (fun hh => h.1 hh.symm), ih h.2]

theorem serFields_keys (r : Row) (x : r.prod) : ∀ k ∈ (serFields e fs r x).map Prod.fst, k ∈ r.labels := by
  match r, x with
  | .nil, _ => simp [serFields]
  | .cons l i t r, x =>
    have ih := serFields_keys r x.2
    intro k hk
    simp only [serFields] at hk
    cases hj : ser e fs t x.1 with
    | none =>
      rw [hj] at hk
      exact List.mem_cons_of_mem _ (ih k hk)
    | some j =>
      rw [hj] at hk
      simp only [List.map_cons, List.mem_cons] at hk
      rcases hk with hk | hk
      · exact hk ▸ List.mem_cons_self ..
      · exact List.mem_cons_of_mem _ (ih k hk)

/-- Each member of a struct is found under its name. -/
def FieldsIn (e : Env) (fs : Fmt) : (r : Row) → r.prod → List (Str × J) → Prop
  | .nil, _, _ => True
  | .cons l _ t r, (x : t.den × r.prod), ms => find l ms = ser e fs t x.1 ∧ FieldsIn e fs r x.2 ms

theorem fieldsIn_ext (r : Row) (x : r.prod) (ms ms' : List (Str × J)) (h : ∀ k ∈ r.labels, find k ms = find k ms')
    (hf : FieldsIn e fs r x ms) : FieldsIn e fs r x ms' := by
  match r, x with
  | .nil, _ => trivial
  | .cons l i t r, x =>
    refine ⟨(h l (List.mem_cons_self ..)).symm.trans hf.1, ?_⟩
    exact fieldsIn_ext r x.2 ms ms' (fun k hk => h k (List.mem_cons_of_mem _ hk)) hf.2

theorem fieldsIn_self (r : Row) (x : r.prod) (hn : r.labels.Nodup) : FieldsIn e fs r x (serFields e fs r x) := by
  match r, x with
  | .nil, _ => trivial
  | .cons l i t r, x =>
    have hn' := List.nodup_cons.1 hn
    have ih := fieldsIn_self r x.2 hn'.2
    have hl : find l (serFields e fs r x.2) = none := find_none (fun h => hn'.1 (serFields_keys r x.2 l h))
    simp only [FieldsIn, serFields]
    cases hj : ser e fs t x.1 with
    | none => exact ⟨hl, ih⟩
    | some j =>
      refine ⟨by simp [find], fieldsIn_ext r x.2 _ _ ?_ ih⟩
      intro k hk
      rw [find, if_neg]
      rintro rfl
      exact hn'.1 hk

theorem fieldsIn_struct (s o : Row) (x : s.prod × o.prod) (hn : (s.labels ++ o.labels).Nodup) :
    FieldsIn e fs s x.1 (serFields e fs s x.1 ++ serFields e fs o x.2) ∧
    FieldsIn e fs o x.2 (serFields e fs s x.1 ++ serFields e fs o x.2) := by
  obtain ⟨h1, h2, h3⟩ := List.nodup_append.1 hn
  constructor
  · refine fieldsIn_ext s x.1 _ _ ?_ (fieldsIn_self s x.1 h1)
    intro k hk
    rw [find_append, find_none (m := serFields e fs o x.2) (fun h => h3 k hk k (serFields_keys o x.2 k h) rfl)]
    simp
  · refine fieldsIn_ext o x.2 _ _ ?_ (fieldsIn_self o x.2 h2)
    intro k hk
    rw [find_append, find_none (m := serFields e fs s x.1) (fun h => h3 k (serFields_keys s x.1 k h) k hk rfl)]
    simp

/-! ### Variant cases -/

def caseLabel : (r : Row) → r.sum → Str
  | .nil, _ => []
  | .cons l _ t r, (x : t.den ⊕ r.sum) =>
    match x with
    | .inl _ => l
    | .inr z => caseLabel r z

def caseId : (r : Row) → r.sum → Nat
  | .nil, _ => 0
  | .cons _ i t r, (x : t.den ⊕ r.sum) =>
    match x with
    | .inl _ => i
    | .inr z => caseId r z

def caseObj (e : Env) (fs : Fmt) : (r : Row) → r.sum → J
  | .nil, _ => .null
  | .cons _ _ t r, (x : t.den ⊕ r.sum) =>
    match x with
    | .inl y => (ser e fs t y).getD .null
    | .inr z => caseObj e fs r z

def caseEmpty : (r : Row) → r.sum → Bool
  | .nil, _ => false
  | .cons _ _ t r, (x : t.den ⊕ r.sum) =>
    match x with
    | .inl _ => t.isEmptyStruct
    | .inr z => caseEmpty r z

theorem caseLabel_mem (r : Row) (y : r.sum) : caseLabel r y ∈ r.labels := by
  match r, y with
  | .nil, (z : Empty) => exact nomatch z
  | .cons l i t r, .inl y => exact List.mem_cons_self ..
  | .cons l i t r, .inr z => exact List.mem_cons_of_mem _ (caseLabel_mem r z)

theorem caseId_mem (r : Row) (y : r.sum) : caseId r y ∈ r.ids := by
  match r, y with
  | .nil, (z : Empty) => exact nomatch z
  | .cons l i t r, .inl y => exact List.mem_cons_self ..
  | .cons l i t r, .inr z => exact List.mem_cons_of_mem _ (caseId_mem r z)

/-- The members a case is written as. -/
def caseMembers (fs : Fmt) (l : Str) (i : Nat) (empty : Bool) (object : J) : List (Str × J) :=
  match fs with
  | .current => [(l, object), ([], .str (tidText i))]
  | .minimalistic => [(l, object)]
  | .javaScript => [(l, object), (kDollar, .str l)]
  | .fSharp => if empty then [(kCase, .str l)] else [(kCase, .str l), (kFields, .arr [object])]

theorem serCase_eq (r : Row) (y : r.sum) :
    serCase e fs r y = caseMembers fs (caseLabel r y) (caseId r y) (caseEmpty r y) (caseObj e fs r y) := by
  match r, y with
  | .nil, (z : Empty) => exact nomatch z
  | .cons l i t r, .inl y =>
    cases fs <;> rfl
  | .cons l i t r, .inr z =>
    simp only [serCase, caseLabel, caseId, caseEmpty, caseObj]
    exact serCase_eq r z

theorem desCase_miss {m : Mode} (r : Row) (key : Key) (ms : List (Str × J))
    (h : match key with | .id n => n ∉ r.ids | .name s => s ∉ r.labels) : desCase e m r key ms = none := by
  match r with
  | .nil => rfl
  | .cons l i t r =>
    have ih : desCase e m r key ms = none := by
      apply desCase_miss
      cases key with
      | id n => exact fun hh => h (List.mem_cons_of_mem _ hh)
      | name n => exact fun hh => h (List.mem_cons_of_mem _ hh)
    have : key.hits l i = false := by
      cases key with
      | id n =>
        simp only [Key.hits, decide_eq_false_iff_not]
        rintro rfl
        exact h (List.mem_cons_self ..)
      | name n =>
        simp only [Key.hits, decide_eq_false_iff_not]
        rintro rfl
        exact h (List.mem_cons_self ..)
    simp only [desCase, ih, this]
    simp

theorem soleKey_case (l : Str) (h1 : l ≠ []) (h2 : l ≠ ['$']) (object j' : J) (k' : Str)
    (hk : k' = [] ∨ k' = kDollar) :
    soleKey [(l, object)] none = .ok (some l) ∧ soleKey [(l, object), (k', j')] none = .ok (some l) := by
  have hl : ¬(l = [] ∨ l = kDollar) := by
    rintro (h | h)
    · exact h1 h
    · exact h2 h
  constructor
  · simp [soleKey, hl]
  · simp [soleKey, hl, hk]

theorem readU64_dec (n : Nat) (h : n < 2 ^ 64) : readU64 (dec n) = n := by
  have := Current.Persist.readNat_dec n [] (by simp)
  rw [List.append_nil] at this
  rw [readU64, this]
  exact Nat.min_eq_left (by omega)

theorem asTypeID_text (n : Nat) (h : n < 2 ^ 64) : asTypeID (.str (tidText n)) = some n := by
  simp only [asTypeID, tidText, readU64_dec n h]

/-- How the parser of a format looks up the case that was written. -/
def keyOf (fp : Fmt) (r : Row) (y : r.sum) : Key :=
  if fp = .current then .id (caseId r y) else .name (caseLabel r y)

/-- What the parser of a format needs to find among the members. -/
def BodyIn (e : Env) (fs fp : Fmt) (r : Row) (y : r.sum) (ms : List (Str × J)) : Prop :=
  if fp = .fSharp then
    (caseEmpty r y = true ∧ find kFields ms = none) ∨
      (caseEmpty r y = false ∧ find kFields ms = some (.arr [caseObj e fs r y]))
  else find (caseLabel r y) ms = some (caseObj e fs r y)

/-- When patching, what is written must be written in full: no member is left out. -/
def Whole (fs : Fmt) (pa : Bool) : Prop := pa = true → fs = .current ∨ fs = .javaScript

theorem Whole.not_patch (h : Whole fs pa) (hf : fs = .fSharp) : pa = false := by
  cases pa with
  | false => rfl
  | true => rcases h rfl with h | h <;> rw [h] at hf <;> cases hf

theorem Whole.not_patch' (h : Whole fs pa) (hf : fs = .minimalistic) : pa = false := by
  cases pa with
  | false => rfl
  | true => rcases h rfl with h | h <;> rw [h] at hf <;> cases hf

/-- Parsing inverts serialization for a type, whatever the destination held. -/
def Inv (e : Env) (fs fp : Fmt) (pa : Bool) (t : Ty) (x : t.den) : Prop :=
  (∀ d, des e ⟨fp, pa⟩ t (ser e fs t x) d = .ok x) ∧
  (∀ d, des e ⟨fp, pa⟩ t (some ((ser e fs t x).getD .null)) d = .ok x) ∧
  (t.isOpt = false → ∃ j, ser e fs t x = some j ∧ j.isNull = false)

theorem inv_of {t : Ty} {x : t.den} {j : J} (h : ser e fs t x = some j) (hn : j.isNull = false)
    (hd : ∀ d, des e ⟨fp, pa⟩ t (some j) d = .ok x) : Inv e fs fp pa t x := by
  refine ⟨?_, ?_, fun _ => ⟨j, h, hn⟩⟩
  · intro d; rw [h]; exact hd d
  · intro d; rw [h]; exact hd d

theorem dflt_empty (t : Ty) (h1 : t.isEmptyStruct = true) (h2 : t.onlyInherits = false) (x y : t.den) : x = y := by
  match t, h1, h2, x, y with
  | .struct _ .nil .nil, _, _, ((), ()), ((), ()) => rfl
  | .struct _ (.cons _ _ _ _) .nil, _, h, _, _ => simp [Ty.onlyInherits] at h

theorem asUint64_toNat {w : Nat} (h : w ≤ 64) (v : BitVec w) : asUint64 (.int v.toNat) = some v.toNat := by
  have h1 : v.toNat < 2 ^ 64 := Nat.lt_of_lt_of_le v.isLt (Nat.pow_le_pow_right (by omega) h)
  simp only [asUint64]
  rw [if_pos (by omega)]
  simp

theorem asInt64_toInt {w : Nat} (h : w ≤ 64) (v : BitVec w) : asInt64 (.int v.toInt) = some v.toInt := by
  have h2 : v.signExtend 64 = v.signExtend 64 := rfl
  have h3 : (v.signExtend 64).toInt = v.toInt := BitVec.toInt_signExtend_of_le h
  have h4 := BitVec.toInt_lt (x := v.signExtend 64)
  have h5 := BitVec.le_toInt (x := v.signExtend 64)
  rw [h3] at h4 h5
  simp only [asInt64]
  rw [if_pos ⟨h5, h4⟩]

theorem ofNat_toNat' {w : Nat} (x : BitVec w) : BitVec.ofNat w x.toNat = x :=
  BitVec.eq_of_toNat_eq (by rw [BitVec.toNat_ofNat]; exact Nat.mod_eq_of_lt x.isLt)

theorem onValue_some {α β : Type} (patch : Bool) {j : J} (is : J → Option β) (d : α) (k : β → Except Err α) {b : β}
    (h : is j = some b) : onValue patch (some j) is d k = k b := by
  simp only [onValue, h]

theorem inv_bool (x : Bool) : Inv e fs fp pa .bool x :=
  inv_of (t := .bool) (j := .bool x) (by rw [ser]) rfl (fun d => by simp only [des]; rfl)

theorem inv_uint {w : Nat} (h : w ≤ 64) (x : BitVec w) : Inv e fs fp pa (.uint w) x :=
  inv_of (t := .uint w) (j := .int x.toNat) (by rw [ser]) rfl (fun d => by
    
    simp only [des]
    exact (onValue_some (α := BitVec w) pa asUint64 d _ (asUint64_toNat h x)).trans (congrArg _ (ofNat_toNat' x)))

theorem inv_int {w : Nat} (h : w ≤ 64) (x : BitVec w) : Inv e fs fp pa (.int w) x :=
  inv_of (t := .int w) (j := .int x.toInt) (by rw [ser]) rfl (fun d => by
    simp only [des]; simp only [onValue, asInt64_toInt h, BitVec.ofInt_toInt])

theorem inv_enumU {w : Nat} (h : w ≤ 64) (x : BitVec w) : Inv e fs fp pa (.enumU w) x :=
  inv_of (t := .enumU w) (j := .int x.toNat) (by rw [ser]) rfl (fun d => by
    
    simp only [des]
    exact (onValue_some (α := BitVec w) pa asUint64 d _ (asUint64_toNat h x)).trans (congrArg _ (ofNat_toNat' x)))

theorem inv_enumI {w : Nat} (h : w ≤ 64) (x : BitVec w) : Inv e fs fp pa (.enumI w) x :=
  inv_of (t := .enumI w) (j := .int x.toInt) (by rw [ser]) rfl (fun d => by
    simp only [des]; simp only [onValue, asInt64_toInt h, BitVec.ofInt_toInt])

theorem inv_chrono (x : BitVec 64) : Inv e fs fp pa .chrono x :=
  inv_of (t := .chrono) (j := .int x.toInt) (by rw [ser]) rfl (fun d => by
    simp only [des]; simp only [onValue, asInt64_toInt (Nat.le_refl 64), BitVec.ofInt_toInt])

theorem inv_tid (x : BitVec 64) : Inv e fs fp pa .tid x :=
  inv_of (t := .tid) (j := .str (tidText x.toNat)) (by rw [ser]) rfl (fun d => by
    simp only [des]; simp only [onValue, asTypeID_text _ x.isLt, BitVec.ofNat_toNat, BitVec.setWidth_eq])

theorem inv_flt (he : FloatOk e) (x : Flt) : Inv e fs fp pa .flt x :=
  inv_of (t := .flt) (j := .dbl (e.f2d x)) (by rw [ser]) rfl (fun d => by
    simp only [des]; simp only [onValue, asDouble, he x])

theorem inv_dbl (x : Dbl) : Inv e fs fp pa .dbl x :=
  inv_of (t := .dbl) (j := .dbl x) (by rw [ser]) rfl (fun d => by simp only [des]; rfl)

theorem inv_str (x : Str) : Inv e fs fp pa .str x :=
  inv_of (t := .str) (j := .str x) (by rw [ser]) rfl (fun d => by simp only [des]; rfl)

theorem inv_pair (hr : Reads fs fp) (hq : Whole fs pa) (a b : Ty) (x : a.den) (y : b.den) (ha : Inv e fs fp pa a x) (hb : Inv e fs fp pa b y) :
    Inv e fs fp pa (.pair a b) (x, y) := by
  by_cases hf : fs = .fSharp
  · have hp : fp = .fSharp := by
      rcases hr with h | h
      · rw [h, hf]
      · exact absurd hf h.2
    obtain rfl := hq.not_patch hf
    subst hf hp
    refine inv_of (t := .pair a b) (j := .obj [(kItem1, _), (kItem2, _)]) (by rw [ser]; rfl) rfl (fun d => ?_)
    have h1 : fSharpItems (some (.obj [(kItem1, (ser e .fSharp a x).getD .null), (kItem2, (ser e .fSharp b y).getD .null)])) =
        some ((ser e .fSharp a x).getD .null, (ser e .fSharp b y).getD .null) := by
      simp [fSharpItems, find, kItem1, kItem2]
    simp only [des]
    simp only [and_self, if_true, h1, ha.2.1, hb.2.1]
  · have hp : fp ≠ .fSharp := by
      rintro rfl
      rcases hr with h | h
      · exact hf h.symm
      · rcases h.1 with h | h <;> exact absurd h (by decide)
    refine inv_of (t := .pair a b) (j := .arr [_, _]) (by rw [ser]; simp only [hf, if_false]; rfl) rfl (fun d => ?_)
    simp only [des]
    simp only [hp, false_and, if_false, onValue, asTwo, ha.2.1, hb.2.1]

theorem inv_opt (hr : Reads fs fp) (hq : Whole fs pa) (t : Ty) (x : Option t.den) (hx : ∀ y, x = some y → Inv e fs fp pa t y)
    (ok : fs ≠ .fSharp → t.isOpt = false) : Inv e fs fp pa (.opt t) x := by
  by_cases hf : fs = .fSharp
  · have hp : fp = .fSharp := by
      rcases hr with h | h
      · rw [h, hf]
      · exact absurd hf h.2
    obtain rfl := hq.not_patch hf
    subst hf hp
    cases x with
    | none =>
      refine ⟨fun d => ?_, fun d => ?_, fun h => ?_⟩
      · rw [ser]; simp only [or_true, if_true]; simp only [des]; simp
      · rw [ser]; simp only [or_true, if_true]; simp only [des]; simp [J.isNull]
      · simp [Ty.isOpt] at h
    | some y =>
      have hy := (hx y rfl).2.1 (e.dflt t)
      refine inv_of (t := .opt t) (j := .obj [(kCase, .str kSome), (kFields, .arr [(ser e .fSharp t y).getD .null])])
        (by rw [ser]; simp) rfl (fun d => ?_)
      have h1 : fSharpOption (.obj [(kCase, .str kSome), (kFields, .arr [(ser e .fSharp t y).getD .null])]) =
          some (some ((ser e .fSharp t y).getD .null)) := by
        simp [fSharpOption, find, kCase, kFields, kSome, kNone]
      simp only [des]
      simp only [and_self, if_true, J.isNull, Bool.false_eq_true, if_false, h1, hy]
  · have hp : fp ≠ .fSharp := by
      rintro rfl
      rcases hr with h | h
      · exact hf h.symm
      · rcases h.1 with h | h <;> exact absurd h (by decide)
    cases x with
    | none =>
      have h1 : ∀ p : Option J, (p = none ∧ pa = false) ∨ p = some .null →
          ∀ d, des e ⟨fp, pa⟩ (.opt t) p d = .ok none := by
        rintro p (⟨rfl, rfl⟩ | rfl) d <;> simp only [des] <;> simp [hp, J.isNull]
      refine ⟨h1 _ ?_, h1 _ ?_, fun h => ?_⟩
      · rw [ser]
        by_cases c : fs = .minimalistic
        · simp [c, hq.not_patch' c]
        · simp [c, hf]
      · rw [ser]; by_cases c : fs = .minimalistic <;> simp [c, hf]
      · simp [Ty.isOpt] at h
    | some y =>
      have hy := hx y rfl
      obtain ⟨j, hj, hjn⟩ := hy.2.2 (ok hf)
      have hs : ser e fs (.opt t) (some y) = some j := by rw [ser]; simp only [hf, if_false, hj]
      refine inv_of (t := .opt t) hs hjn (fun d => ?_)
      have h1 := hy.1 (e.dflt t)
      rw [hj] at h1
      simp only [des]
      simp only [hp, false_and, if_false, hjn, Bool.false_eq_true, h1]

theorem inv_variant (hr : Reads fs fp) (hq : Whole fs pa) (cs : Row) (y : cs.sum)
    (ok : (fp = .current → cs.ids.Nodup ∧ ∀ i ∈ cs.ids, i < 2 ^ 64) ∧
      (fp ≠ .current → cs.labels.Nodup) ∧ (fp ≠ .fSharp → [] ∉ cs.labels ∧ ['$'] ∉ cs.labels) ∧
      (fp = .fSharp → cs.noneOnlyInherits))
    (hc : ∀ ms, BodyIn e fs fp cs y ms → desCase e ⟨fp, pa⟩ cs (keyOf fp cs y) ms = some (.ok (some y))) :
    Inv e fs fp pa (.variant cs) (some y) := by
  obtain ⟨ok1, ok2, ok3, ok4⟩ := ok
  refine inv_of (t := .variant cs) (j := .obj (serCase e fs cs y)) (by rw [ser]) rfl (fun d => ?_)
  have hmem := caseLabel_mem cs y
  simp only [des]
  simp only [J.isNull, Bool.false_eq_true, if_false, asObject]
  rw [serCase_eq]
  have hbody : BodyIn e fs fp cs y (caseMembers fs (caseLabel cs y) (caseId cs y) (caseEmpty cs y) (caseObj e fs cs y)) := by
    by_cases hp : fp = .fSharp
    · have hf : fs = .fSharp := by
        rcases hr with h | h
        · rw [← h, hp]
        · rcases h.1 with h | h <;> exact absurd (h.symm.trans hp) (by decide)
      subst hp hf
      cases he : caseEmpty cs y
      · right; simp [caseMembers, find, kCase, kFields, he]
      · left; simp [caseMembers, find, kCase, kFields, he]
    · have hf : fs ≠ .fSharp := by
        rintro rfl
        rcases hr with h | h
        · exact hp h
        · exact h.2 rfl
      simp only [BodyIn, hp, if_false]
      cases fs <;> simp_all [caseMembers, find]
  have hk := hc _ hbody
  cases fp with
  | current =>
    have hf : fs = .current := by
      rcases hr with h | h
      · exact h.symm
      · rcases h.1 with h | h <;> exact absurd h (by decide)
    subst hf
    have hne : caseLabel cs y ≠ [] := fun h => (ok3 (by decide)).1 (h ▸ hmem)
    have hid := (ok1 rfl).2 _ (caseId_mem cs y)
    have h1 : find [] (caseMembers .current (caseLabel cs y) (caseId cs y) (caseEmpty cs y) (caseObj e .current cs y)) =
        some (.str (tidText (caseId cs y))) := by
      simp [caseMembers, find, hne]
    simp only [h1, asTypeID_text _ hid, Nat.mod_eq_of_lt hid]
    simp only [keyOf, if_true] at hk
    simp only [hk]
  | fSharp =>
    have hf : fs = .fSharp := by
      rcases hr with h | h
      · exact h.symm
      · rcases h.1 with h | h <;> exact absurd h (by decide)
    subst hf
    have h1 : find kCase (caseMembers .fSharp (caseLabel cs y) (caseId cs y) (caseEmpty cs y) (caseObj e .fSharp cs y)) =
        some (.str (caseLabel cs y)) := by
      cases he : caseEmpty cs y <;> simp [caseMembers, find]
    simp only [h1, asString]
    simp only [keyOf, reduceCtorEq, if_false] at hk
    simp only [hk]
  | minimalistic =>
    have hs := soleKey_case (caseLabel cs y) (fun h => (ok3 (by decide)).1 (h ▸ hmem)) (fun h => (ok3 (by decide)).2 (h ▸ hmem))
    have h1 : soleKey (caseMembers fs (caseLabel cs y) (caseId cs y) (caseEmpty cs y) (caseObj e fs cs y)) none =
        .ok (some (caseLabel cs y)) := by
      cases fs with
      | current => exact (hs _ _ [] (.inl rfl)).2
      | minimalistic => exact (hs _ .null [] (.inl rfl)).1
      | javaScript => exact (hs _ _ kDollar (.inr rfl)).2
      | fSharp =>
        rcases hr with h | h
        · cases h
        · exact absurd rfl h.2
    simp only [h1]
    simp only [keyOf, reduceCtorEq, if_false] at hk
    simp only [hk]
  | javaScript =>
    have hs := soleKey_case (caseLabel cs y) (fun h => (ok3 (by decide)).1 (h ▸ hmem)) (fun h => (ok3 (by decide)).2 (h ▸ hmem))
    have h1 : soleKey (caseMembers fs (caseLabel cs y) (caseId cs y) (caseEmpty cs y) (caseObj e fs cs y)) none =
        .ok (some (caseLabel cs y)) := by
      cases fs with
      | current => exact (hs _ _ [] (.inl rfl)).2
      | minimalistic => exact (hs _ .null [] (.inl rfl)).1
      | javaScript => exact (hs _ _ kDollar (.inr rfl)).2
      | fSharp =>
        rcases hr with h | h
        · cases h
        · exact absurd rfl h.2
    simp only [h1]
    simp only [keyOf, reduceCtorEq, if_false] at hk
    simp only [hk]

mutual
theorem rt (hr : Reads fs fp) (hq : Whole fs pa) (he : FloatOk e) (t : Ty) (x : t.den) (ok : TyOk fs fp t) (g : Good e t x) :
    Inv e fs fp pa t x := by
  match t, x with
  | .bool, x => exact inv_bool x
  | .uint w, x => exact inv_uint ok x
  | .int w, x => exact inv_int ok x
  | .enumU w, x => exact inv_enumU ok x
  | .enumI w, x => exact inv_enumI ok x
  | .chrono, x => exact inv_chrono x
  | .flt, x => exact inv_flt he x
  | .dbl, x => exact inv_dbl x
  | .str, x => exact inv_str x
  | .tid, x => exact inv_tid x
  | .vec t, x =>
    refine inv_of (j := .arr _) rfl rfl (fun d => ?_)
    simp only [des]
    exact desEach_ok _ _ _ _ (fun y hy d => (rt hr hq he t y ok (g y hy)).2.1 d) d
  | .arr n t, x =>
    refine inv_of (j := .arr _) rfl rfl (fun d => ?_)
    simp only [des]
    exact desFin_ok _ _ _ _ _ (fun i d => (rt hr hq he t (x i) ok (g i)).2.1 d)
  | .pair a b, x => exact inv_pair hr hq a b x.1 x.2 (rt hr hq he a x.1 ok.1 g.1) (rt hr hq he b x.2 ok.2 g.2)
  | .tup r, x =>
    refine inv_of (j := .arr _) rfl rfl (fun d => ?_)
    simp only [des]
    exact rtTuple hr hq he r x ok g d
  | .set t, x =>
    refine inv_of (j := .arr _) rfl rfl (fun d => ?_)
    simp only [des]
    exact desSet_ok _ _ _ _ (fun y hy => (rt hr hq he t y ok (g.2 y hy)).2.1 _) [] g.1
  | .smap v, x =>
    refine inv_of (j := .obj _) rfl rfl (fun d => ?_)
    simp only [des]
    exact desSMap_ok _ _ (fun j x => des e ⟨fp, pa⟩ v (some j) x) (fun x => (ser e fs v x).getD .null) _
      (fun y hy d => (rt hr hq he v y.2 ok (g.2 y hy)).2.1 d) _ [] g.1
  | .map k v, x =>
    refine inv_of (j := .arr _) rfl rfl (fun d => ?_)
    simp only [des]
    exact desMap_ok _ _ _ (fun x => (ser e fs k x).getD .null) (fun x => (ser e fs v x).getD .null) _
      (fun y hy => ⟨(rt hr hq he k y.1 ok.1 (g.2 y hy).1).2.1 _, (rt hr hq he v y.2 ok.2 (g.2 y hy).2).2.1 _⟩) [] g.1
  | .opt t, x => exact inv_opt hr hq t x (fun y hy => rt hr hq he t y ok.1 (g y hy)) ok.2
  | .struct n s o, x =>
    refine inv_of (j := .obj _) rfl rfl (fun d => ?_)
    have hf := fieldsIn_struct (e := e) (fs := fs) s o x ok.2.2
    have h1 := rtFields hr hq he s x.1 ok.1 g.1 _ d.1 hf.1
    have h2 := rtFields hr hq he o x.2 ok.2.1 g.2 _ d.2 hf.2
    simp only [des]
    simp only [onValue, asObject, h1, h2]
    rfl
  | .variant cs, some y =>
    have g' : GoodCase e cs y := by
      obtain ⟨z, hz, hg⟩ := g
      cases hz
      exact hg
    exact inv_variant hr hq cs y ok.2 (fun ms hb =>
      rtCase hr hq he cs y ok.1 g' ms (fun h => (ok.2.1 h).1) ok.2.2.1 ok.2.2.2.2 hb)
  | .variant cs, none =>
    obtain ⟨z, hz, hg⟩ := g
    cases hz
theorem rtTuple (hr : Reads fs fp) (hq : Whole fs pa) (he : FloatOk e) (r : Row) (x : r.prod) (ok : RowOk fs fp r) (g : GoodRow e r x)
    (d : r.prod) : desTuple e ⟨fp, pa⟩ r (serTuple e fs r x) d = .ok x := by
  match r, x, d with
  | .nil, _, _ => rfl
  | .cons l i t r, x, d =>
    have h1 := (rt hr hq he t x.1 ok.1 g.1).2.1 d.1
    have h2 := rtTuple hr hq he r x.2 ok.2 g.2 d.2
    simp only [serTuple, desTuple, h1, h2]
    rfl
theorem rtFields (hr : Reads fs fp) (hq : Whole fs pa) (he : FloatOk e) (r : Row) (x : r.prod) (ok : RowOk fs fp r) (g : GoodRow e r x)
    (ms : List (Str × J)) (d : r.prod) (hf : FieldsIn e fs r x ms) : desFields e ⟨fp, pa⟩ r ms d = .ok x := by
  match r, x, d with
  | .nil, _, _ => rfl
  | .cons l i t r, x, d =>
    have h1 := (rt hr hq he t x.1 ok.1 g.1).1 d.1
    have h2 := rtFields hr hq he r x.2 ok.2 g.2 ms d.2 hf.2
    simp only [desFields, hf.1, h1, h2]
    rfl
theorem rtCase (hr : Reads fs fp) (hq : Whole fs pa) (he : FloatOk e) (r : Row) (y : r.sum) (ok : RowOk fs fp r) (g : GoodCase e r y)
    (ms : List (Str × J)) (hi : fp = .current → r.ids.Nodup) (hl : fp ≠ .current → r.labels.Nodup)
    (hn : fp = .fSharp → r.noneOnlyInherits) (hb : BodyIn e fs fp r y ms) :
    desCase e ⟨fp, pa⟩ r (keyOf fp r y) ms = some (.ok (some y)) := by
  match r, y with
  | .nil, (z : Empty) => exact nomatch z
  | .cons l i t r, .inl y =>
    have hmiss : desCase e ⟨fp, pa⟩ r (keyOf fp (.cons l i t r) (.inl y)) ms = none := by
      apply desCase_miss
      by_cases hc : fp = .current
      · simp only [keyOf, hc, if_true, caseId]
        exact (List.nodup_cons.1 (hi hc)).1
      · simp only [keyOf, hc, if_false, caseLabel]
        exact (List.nodup_cons.1 (hl hc)).1
    have hhit : (keyOf fp (.cons l i t r) (.inl y)).hits l i = true := by
      by_cases hc : fp = .current
      · simp [keyOf, hc, caseId, Key.hits]
      · simp [keyOf, hc, caseLabel, Key.hits]
    have ih := (rt hr hq he t y ok.1 g).2.1 (e.dflt t)
    simp only [desCase, hmiss, hhit, if_true]
    cases fp with
    | current => 
      simp only [BodyIn, caseLabel, caseObj, reduceCtorEq, if_false] at hb
      simp only [hb, ih]
    | minimalistic => 
      simp only [BodyIn, caseLabel, caseObj, reduceCtorEq, if_false] at hb
      simp only [hb, ih]
    | javaScript => 
      simp only [BodyIn, caseLabel, caseObj, reduceCtorEq, if_false] at hb
      simp only [hb, ih]
    | fSharp => 
      simp only [BodyIn, caseEmpty, caseObj, if_true] at hb
      rcases hb with hb | hb
      · simp only [hb.2, hb.1, if_true]
        rw [dflt_empty t hb.1 (hn rfl).1 (e.dflt t) y]
      · simp only [hb.2, ih]
  | .cons l i t r, .inr z =>
    have ih := rtCase hr hq he r z ok.2 g ms (fun h => (List.nodup_cons.1 (hi h)).2)
      (fun h => (List.nodup_cons.1 (hl h)).2) (fun h => (hn h).2) hb
    have hk : keyOf fp (.cons l i t r) (.inr z) = keyOf fp r z := rfl
    simp only [desCase, hk, ih]
end

end Current.Json
