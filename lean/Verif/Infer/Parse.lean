import Verif.Infer.Infer
/-! The generated structs parse the documents they were generated from. -/
namespace Current.Infer
open Current.Persist (Str dec)
open Current.Json (J Ty Row Fmt find des desFields desEach onValue asInt64 asUint64)

/-! ### Specification -/

/-- A step down into a document: a field, or an element of an array. -/
inductive Seg where
  | field (k : Str)
  | element
deriving DecidableEq, Repr

/-- The values one step down, empty arrays included. -/
def rawStep : Seg → List J → List J
  | .field k, vs => vs.filterMap fun
    | .obj m => find k m
    | _ => none
  | .element, vs => vs.flatMap fun
    | .arr l => l
    | _ => []

/-- All the values at a place. -/
def rawAt : List Seg → List J → List J
  | [], vs => vs
  | g :: q, vs => rawAt q (rawStep g vs)

/-- Where there is an empty array, there are only arrays (and nulls). -/
def EmptyArraysAgree (vs : List J) : Prop :=
  ∀ q, J.arr [] ∈ rawAt q vs → ∀ v ∈ rawAt q vs, v = .null ∨ ∃ l, v = .arr l

/-! ### Environments -/

/-- Everything declared stays declared. -/
def Ext (a b : Env) : Prop := ∀ n t, Env.find n a = some t → Env.find n b = some t

theorem Ext.refl (a : Env) : Ext a a := fun _ _ h => h
theorem Ext.trans {a b c : Env} (h : Ext a b) (g : Ext b c) : Ext a c := fun n t x => g n t (h n t x)

theorem evalDecls_append (ds es : List Decl) : ∀ env, evalDecls env (ds ++ es) =
    match evalDecls env ds with
    | some env' => evalDecls env' es
    | none => none := by
  induction ds with
  | nil => intro env; rfl
  | cons d ds ih =>
    intro env
    simp only [List.cons_append, evalDecls]
    split
    · rfl
    · cases evalFields env d.fields with
      | none => rfl
      | some row => exact ih _

theorem evalDecls_ext (ds : List Decl) : ∀ env env', evalDecls env ds = some env' → Ext env env' := by
  induction ds with
  | nil =>
    intro env env' h
    simp only [evalDecls, Option.some.injEq] at h
    rw [h]
    exact Ext.refl _
  | cons d ds ih =>
    intro env env' h
    simp only [evalDecls] at h
    split at h
    · exact nomatch h
    · rename_i hf
      cases hr : evalFields env d.fields with
      | none =>
        rw [hr] at h
        exact nomatch h
      | some row =>
        rw [hr] at h
        refine Ext.trans (fun n t hn => ?_) (ih _ _ h)
        simp only [Env.find]
        rw [if_neg, hn]
        intro e
        rw [e, hn] at hf
        exact hf rfl

/-! ### Parsing -/

/-- The value can be parsed, whatever the destination held. -/
def Parses (e : Current.Json.Env) (f : Fmt) (t : Ty) (v : Option J) : Prop := ∀ d, ∃ x, des e ⟨f, false⟩ t v d = .ok x

theorem parses_opt_null (e : Current.Json.Env) (f : Fmt) (hf : f ≠ .fSharp) (t : Ty) : Parses e f (.opt t) (some .null) := by
  intro d
  refine ⟨none, ?_⟩
  simp only [des]
  rw [if_neg (fun h => hf h.1)]
  rfl

theorem parses_opt_none (e : Current.Json.Env) (f : Fmt) (hf : f ≠ .fSharp) (t : Ty) : Parses e f (.opt t) none := by
  intro d
  refine ⟨none, ?_⟩
  simp only [des]
  rw [if_neg (fun h => hf h.1)]
  rfl

theorem parses_opt_some (e : Current.Json.Env) (f : Fmt) (hf : f ≠ .fSharp) (t : Ty) (v : J) (h : Parses e f t (some v)) :
    Parses e f (.opt t) (some v) := by
  intro d
  simp only [des]
  rw [if_neg (fun h => hf h.1)]
  cases hn : v.isNull with
  | true => exact ⟨none, rfl⟩
  | false =>
    obtain ⟨x, hx⟩ := h (e.dflt t)
    refine ⟨some x, ?_⟩
    simp only [Bool.false_eq_true, if_false]
    rw [hx]

theorem parses_str (e : Current.Json.Env) (f : Fmt) (v : J) (h : isStr v = true) : Parses e f .str (some v) := by
  intro d
  cases v with
  | str s => exact ⟨s, by simp only [des]; rfl⟩
  | _ => exact nomatch h

theorem parses_bool (e : Current.Json.Env) (f : Fmt) (v : J) (h : isBool v = true) : Parses e f .bool (some v) := by
  intro d
  cases v with
  | bool b => exact ⟨b, by simp only [des]; rfl⟩
  | _ => exact nomatch h

theorem parses_dbl (e : Current.Json.Env) (f : Fmt) (v : J) (h : isNum v = true) : Parses e f .dbl (some v) := by
  intro d
  cases v with
  | int i => exact ⟨e.i2d i, by simp only [des]; rfl⟩
  | dbl x => exact ⟨x, by simp only [des]; rfl⟩
  | _ => exact nomatch h

theorem asInt64_of (i : Int) (h : isInt (.int i) = true) : asInt64 (.int i) = some i := by
  simp only [isInt, decide_eq_true_eq] at h
  simp only [asInt64]
  rw [if_pos (by omega)]

theorem asUint64_of (i : Int) (h : isInt (.int i) = true) (h0 : 0 ≤ i) : asUint64 (.int i) = some i.toNat := by
  simp only [isInt, decide_eq_true_eq] at h
  simp only [asUint64]
  rw [if_pos (by omega)]

theorem parses_int (e : Current.Json.Env) (f : Fmt) (u c : Bool) (v : J) (h : isInt v = true)
    (h0 : u = true → ∀ i, v = .int i → 0 ≤ i) : Parses e f (cppType u c) (some v) := by
  intro d
  cases v with
  | int i =>
    cases c with
    | true =>
      show ∃ x, des e ⟨f, false⟩ .chrono (some (.int i)) d = .ok x
      exact ⟨BitVec.ofInt 64 i, by simp only [des, onValue, asInt64_of i h]⟩
    | false =>
      cases u with
      | true =>
        show ∃ x, des e ⟨f, false⟩ (.uint 64) (some (.int i)) d = .ok x
        exact ⟨BitVec.ofNat 64 i.toNat, by simp only [des, onValue, asUint64_of i h (h0 rfl i rfl)]⟩
      | false =>
        show ∃ x, des e ⟨f, false⟩ (.int 64) (some (.int i)) d = .ok x
        exact ⟨BitVec.ofInt 64 i, by simp only [des, onValue, asInt64_of i h]⟩
  | _ => exact nomatch h

theorem desEach_ok {α : Type} (dflt : α) (g : J → α → Except Current.Json.Err α) : ∀ (js : List J),
    (∀ j ∈ js, ∀ x, ∃ y, g j x = .ok y) → ∀ ds, ∃ ys, desEach dflt g js ds = .ok ys
  | [], _, ds => ⟨[], by simp only [desEach]⟩
  | j :: js, h, ds => by
    have ih := desEach_ok dflt g js (fun j hj => h j (List.mem_cons_of_mem _ hj))
    cases ds with
    | nil =>
      obtain ⟨y, hy⟩ := h j (by simp) dflt
      obtain ⟨ys, hys⟩ := ih []
      exact ⟨y :: ys, by simp only [desEach, hy, hys]⟩
    | cons d ds =>
      obtain ⟨y, hy⟩ := h j (by simp) d
      obtain ⟨ys, hys⟩ := ih ds
      exact ⟨y :: ys, by simp only [desEach, hy, hys]⟩

theorem parses_vec (e : Current.Json.Env) (f : Fmt) (t : Ty) (l : List J) (h : ∀ v ∈ l, Parses e f t (some v)) :
    Parses e f (.vec t) (some (.arr l)) := by
  intro d
  obtain ⟨ys, hys⟩ := desEach_ok (e.dflt t) (fun j x => des e ⟨f, false⟩ t (some j) x) l (fun j hj => h j hj) d
  exact ⟨ys, by simp only [des]; exact hys⟩

/-! ### Optional -/

/-- The type of a place where nulls were counted is an `Optional`. -/
theorem nullable_opt (env : Env) (n : Nat) (hn : 0 < n) (t : TExpr) (T : Ty) (h : evalType env (maybeOpt n t) = some T) :
    ∃ T', evalType env t = some T' ∧ T = .opt T' := by
  rw [maybeOpt, if_neg (by omega)] at h
  simp only [evalType] at h
  cases ht : evalType env t with
  | none =>
    rw [ht] at h
    exact nomatch h
  | some T' =>
    rw [ht] at h
    simp only [Option.map_some, Option.some.injEq] at h
    exact ⟨T', rfl, h.symm⟩

theorem maybeOpt_parses (e : Current.Json.Env) (f : Fmt) (hf : f ≠ .fSharp) (env : Env) (n : Nat) (t : TExpr) (T : Ty)
    (h : evalType env (maybeOpt n t) = some T) (ws : List J) (hn : J.null ∈ ws → 0 < n)
    (hp : ∀ T', evalType env t = some T' → ∀ v ∈ ws, v ≠ .null → Parses e f T' (some v)) :
    ∀ v ∈ ws, Parses e f T (some v) := by
  intro v hv
  by_cases h0 : 0 < n
  · obtain ⟨T', hT', rfl⟩ := nullable_opt env n h0 t T h
    by_cases hv0 : v = .null
    · rw [hv0]
      exact parses_opt_null e f hf T'
    · exact parses_opt_some e f hf T' v (hp T' hT' v hv hv0)
  · rw [maybeOpt, if_pos (by omega)] at h
    exact hp T h v hv (fun hv0 => h0 (hn (hv0 ▸ hv)))

/-- The lists of described values and of raw values at a place. -/
def Agree (vs ws : List J) : Prop := (∀ v ∈ vs, v = .null ∨ v ∈ ws) ∧ (∀ v ∈ ws, v ∈ vs ∨ v = .arr [])

theorem agree_field (k : Str) (vs ws : List J) (h : Agree vs ws) : Agree (fieldValues k vs) (rawStep (.field k) ws) := by
  constructor
  · intro v hv
    obtain ⟨w, hw, hf⟩ := List.mem_filterMap.1 hv
    cases w with
    | obj m =>
      have hm : J.obj m ∈ ws := (h.1 _ hw).resolve_left (fun e => nomatch e)
      simp only [fieldOf] at hf
      split at hf
      · simp only [Option.some.injEq] at hf
        exact .inl hf.symm
      · rename_i x _ hx
        simp only [Option.some.injEq] at hf
        exact .inr (List.mem_filterMap.2 ⟨_, hm, by rw [← hf]; exact hx⟩)
      · simp only [Option.some.injEq] at hf
        exact .inl hf.symm
    | _ => exact nomatch hf
  · intro v hv
    obtain ⟨w, hw, hf⟩ := List.mem_filterMap.1 hv
    cases w with
    | obj m =>
      have hm : J.obj m ∈ vs := (h.2 _ hw).resolve_right (fun e => nomatch e)
      cases he : isEmptyArray v with
      | true => exact .inr (isEmptyArray_eq v he)
      | false => exact .inl (List.mem_filterMap.2 ⟨_, hm, fieldOf_some k m v hf he⟩)
    | _ => exact nomatch hf

theorem agree_element (vs ws : List J) (h : Agree vs ws) : Agree (elementValues vs) (rawStep .element ws) := by
  constructor
  · intro v hv
    obtain ⟨w, hw, hf⟩ := List.mem_flatMap.1 hv
    cases w with
    | arr l =>
      have hm : J.arr l ∈ ws := (h.1 _ hw).resolve_left (fun e => nomatch e)
      exact .inr (List.mem_flatMap.2 ⟨_, hm, (List.mem_filter.1 hf).1⟩)
    | _ => exact nomatch hf
  · intro v hv
    obtain ⟨w, hw, hf⟩ := List.mem_flatMap.1 hv
    cases w with
    | arr l =>
      cases he : isEmptyArray v with
      | true => exact .inr (isEmptyArray_eq v he)
      | false =>
        rcases h.2 _ hw with hm | hm
        · exact .inl (List.mem_flatMap.2 ⟨_, hm, List.mem_filter.2 ⟨hf, by rw [he]; rfl⟩⟩)
        · simp only [J.arr.injEq] at hm
          rw [hm] at hf
          exact nomatch hf
    | _ => exact nomatch hf

theorem agree_step (g : Seg) {ws : List J} (h : EmptyArraysAgree ws) : EmptyArraysAgree (rawStep g ws) :=
  fun q => h (g :: q)

/-- Where values of a kind which is not that of arrays were found, there are no empty arrays. -/
theorem kind_of_raw {kind : J → Bool} {i n : Nat} {vs ws : List J} (hc : Common kind i n vs) (ha : Agree vs ws)
    (he : EmptyArraysAgree ws) (hk : kind .null = false ∧ ∀ l, kind (.arr l) = false) :
    ∀ v ∈ ws, v ≠ .null → kind v = true := by
  obtain ⟨c1, c2, c3, c4⟩ := hc
  intro v hv hv0
  rcases ha.2 v hv with h | h
  · exact (c1 v h).resolve_left hv0
  · exfalso
    rw [c2] at c3
    obtain ⟨w, hw, hkw⟩ := List.countP_pos_iff.1 c3
    have hw' : w ∈ ws := (ha.1 w hw).resolve_left (fun e => by rw [e, hk.1] at hkw; exact nomatch hkw)
    rcases he [] (h ▸ hv) w hw' with e | ⟨l, e⟩
    · rw [e, hk.1] at hkw
      exact nomatch hkw
    · rw [e, hk.2] at hkw
      exact nomatch hkw

theorem null_counted {kind : J → Bool} {i n : Nat} {vs ws : List J} (hc : Common kind i n vs) (ha : Agree vs ws) :
    J.null ∈ ws → 0 < n := fun h => hc.2.2.2.2 ((ha.2 _ h).resolve_right (fun e => nomatch e))

theorem evalFields_name (env : Env) (pre : Str) (fs : Fs) (row : Row) (h : evalFields env (fieldTypes pre fs) = some row) :
    ∀ k s r, fs = .cons k s r → (typeOf (pre ++ '_' :: k) s).isEmpty = false →
      ∃ T row', evalType env (typeOf (pre ++ '_' :: k) s) = some T ∧ evalFields env (fieldTypes pre r) = some row' ∧
        row = .cons k 0 T row' := by
  intro k s r e ht
  rw [e] at h
  simp only [fieldTypes] at h
  rw [if_neg (by rw [ht]; exact Bool.false_ne_true)] at h
  simp only [evalFields] at h
  split at h
  · exact nomatch h
  · split at h
    · rename_i T row' hT hrow
      simp only [Option.some.injEq] at h
      exact ⟨T, row', hT, hrow, h.symm⟩
    · exact nomatch h

/-- A place where a null was seen gets an `Optional` type, or none at all. -/
theorem null_opt (keep : Str → Bool) (p pre : Str) (s : S) (vs : List J) (h : Describes keep p s vs) (hn : J.null ∈ vs)
    (env : Env) (T : Ty) (hT : evalType env (typeOf pre s) = some T) : ∃ T', T = .opt T' := by
  cases s with
  | uninit => exact nomatch hT
  | null n => exact nomatch hT
  | str v i n =>
    simp only [Describes] at h
    obtain ⟨T', _, e⟩ := nullable_opt env n (h.1.2.2.2.2 hn) _ T hT
    exact ⟨T', e⟩
  | int su u c i n =>
    simp only [Describes] at h
    obtain ⟨T', _, e⟩ := nullable_opt env n (h.1.2.2.2.2 hn) _ T hT
    exact ⟨T', e⟩
  | dbl i n =>
    simp only [Describes] at h
    obtain ⟨T', _, e⟩ := nullable_opt env n (h.1.2.2.2.2 hn) _ T hT
    exact ⟨T', e⟩
  | bool b t n =>
    simp only [Describes] at h
    obtain ⟨T', _, e⟩ := nullable_opt env n (h.1.2.2.2.2 hn) _ T hT
    exact ⟨T', e⟩
  | arr e i n =>
    simp only [Describes] at h
    simp only [typeOf] at hT
    obtain ⟨T', _, e⟩ := nullable_opt env n (h.1.2.2.2.2 hn) _ T hT
    exact ⟨T', e⟩
  | obj fs i n =>
    simp only [Describes] at h
    obtain ⟨T', _, e⟩ := nullable_opt env n (h.1.2.2.2.2 hn) _ T hT
    exact ⟨T', e⟩

mutual
theorem describes_parses (keep : Str → Bool) (e : Current.Json.Env) (f : Fmt) (hf : f ≠ .fSharp) : ∀ (s : S) (p pre : Str)
    (env env' env'' : Env) (T : Ty) (vs ws : List J), Describes keep p s vs → evalDecls env (declsOf pre s) = some env' →
    Ext env' env'' → evalType env'' (typeOf pre s) = some T → EmptyArraysAgree ws → Agree vs ws →
    ∀ v ∈ ws, Parses e f T (some v)
  | .uninit, _, _, _, _, _, _, _, _, _, _, _, h, _, _ => nomatch h
  | .null _, _, _, _, _, _, _, _, _, _, _, _, h, _, _ => nomatch h
  | .str h i n, p, pre, env, env', env'', T, vs, ws, hd, _, _, hT, he, ha => by
    simp only [Describes] at hd
    simp only [typeOf] at hT
    refine maybeOpt_parses e f hf env'' n _ T hT ws (null_counted hd.1 ha) fun T' hT' v hv hv0 => ?_
    simp only [evalType, Option.some.injEq] at hT'
    rw [← hT']
    exact parses_str e f v (kind_of_raw hd.1 ha he ⟨rfl, fun _ => rfl⟩ v hv hv0)
  | .int su u c i n, p, pre, env, env', env'', T, vs, ws, hd, _, _, hT, he, ha => by
    simp only [Describes] at hd
    simp only [typeOf] at hT
    refine maybeOpt_parses e f hf env'' n _ T hT ws (null_counted hd.1 ha) fun T' hT' v hv hv0 => ?_
    simp only [evalType, Option.some.injEq] at hT'
    rw [← hT']
    have hk := kind_of_raw hd.1 ha he ⟨rfl, fun _ => rfl⟩ v hv hv0
    refine parses_int e f u c v hk fun hu j hj => ?_
    have hvs : v ∈ vs := (ha.2 v hv).resolve_right (fun h => by rw [h] at hk; exact nomatch hk)
    exact hd.2.2.1.1 hu j (List.mem_filterMap.2 ⟨v, hvs, by rw [hj]⟩)
  | .dbl i n, p, pre, env, env', env'', T, vs, ws, hd, _, _, hT, he, ha => by
    simp only [Describes] at hd
    simp only [typeOf] at hT
    refine maybeOpt_parses e f hf env'' n _ T hT ws (null_counted hd.1 ha) fun T' hT' v hv hv0 => ?_
    simp only [evalType, Option.some.injEq] at hT'
    rw [← hT']
    exact parses_dbl e f v (kind_of_raw hd.1 ha he ⟨rfl, fun _ => rfl⟩ v hv hv0)
  | .bool b t n, p, pre, env, env', env'', T, vs, ws, hd, _, _, hT, he, ha => by
    simp only [Describes] at hd
    simp only [typeOf] at hT
    refine maybeOpt_parses e f hf env'' n _ T hT ws (null_counted hd.1 ha) fun T' hT' v hv hv0 => ?_
    simp only [evalType, Option.some.injEq] at hT'
    rw [← hT']
    exact parses_bool e f v (kind_of_raw hd.1 ha he ⟨rfl, fun _ => rfl⟩ v hv hv0)
  | .arr el i n, p, pre, env, env', env'', T, vs, ws, hd, hD, hX, hT, he, ha => by
    simp only [Describes] at hd
    simp only [typeOf] at hT
    simp only [declsOf] at hD
    refine maybeOpt_parses e f hf env'' n _ T hT ws (null_counted hd.1 ha) fun T' hT' v hv hv0 => ?_
    simp only [evalType] at hT'
    cases hE : evalType env'' (typeOf (pre ++ kElement) el) with
    | none =>
      rw [hE] at hT'
      exact nomatch hT'
    | some E =>
      rw [hE] at hT'
      simp only [Option.map_some, Option.some.injEq] at hT'
      rw [← hT']
      have hl : ∃ l, v = .arr l := by
        rcases ha.2 v hv with h | h
        · rcases hd.1.1 v h with h | h
          · exact absurd h hv0
          · cases v with
            | arr l => exact ⟨l, rfl⟩
            | _ => exact nomatch h
        · exact ⟨[], h⟩
      obtain ⟨l, rfl⟩ := hl
      refine parses_vec e f E l fun w hw => ?_
      exact describes_parses keep e f hf el _ _ env env' env'' E _ _ hd.2.2 hD hX hE (agree_step .element he)
        (agree_element vs ws ha) w (List.mem_flatMap.2 ⟨_, hv, hw⟩)
  | .obj fs i n, p, pre, env, env', env'', T, vs, ws, hd, hD, hX, hT, he, ha => by
    simp only [Describes] at hd
    simp only [typeOf] at hT
    simp only [declsOf] at hD
    refine maybeOpt_parses e f hf env'' n _ T hT ws (null_counted hd.1 ha) fun T' hT' v hv hv0 => ?_
    rw [evalDecls_append] at hD
    cases hF : evalDecls env (declsOfFields pre fs) with
    | none =>
      rw [hF] at hD
      exact nomatch hD
    | some env₁ =>
      rw [hF] at hD
      simp only [evalDecls] at hD
      split at hD
      · exact nomatch hD
      · rename_i hfresh
        cases hR : evalFields env₁ (fieldTypes pre fs) with
        | none =>
          rw [hR] at hD
          exact nomatch hD
        | some row =>
          rw [hR] at hD
          simp only [Option.some.injEq] at hD
          have hfind : Env.find (pre ++ kObject) env'' = some (.struct (pre ++ kObject) .nil row) := by
            apply hX
            rw [← hD]
            simp only [Env.find, if_true]
          simp only [evalType] at hT'
          rw [hfind] at hT'
          simp only [Option.some.injEq] at hT'
          rw [← hT']
          have hk := kind_of_raw hd.1 ha he ⟨rfl, fun _ => rfl⟩ v hv hv0
          cases v with
          | obj m =>
            intro d
            have hfields := fields_parses keep e f hf fs p pre env env₁ env₁ row vs ws m hd.2.2.2.2 hF (Ext.refl _) hR he ha hv
            obtain ⟨y, hy⟩ := hfields d.2
            refine ⟨((), y), ?_⟩
            simp only [des, onValue, Current.Json.asObject, desFields]
            rw [hy]
            rfl
          | _ => exact nomatch hk
theorem fields_parses (keep : Str → Bool) (e : Current.Json.Env) (f : Fmt) (hf : f ≠ .fSharp) : ∀ (fs : Fs) (p pre : Str)
    (env env' env'' : Env) (row : Row) (vs ws : List J) (m : List (Str × J)), DescribesFields keep p fs vs →
    evalDecls env (declsOfFields pre fs) = some env' → Ext env' env'' → evalFields env'' (fieldTypes pre fs) = some row →
    EmptyArraysAgree ws → Agree vs ws → J.obj m ∈ ws → ∀ d, ∃ x, desFields e ⟨f, false⟩ row m d = .ok x
  | .nil, p, pre, env, env', env'', row, vs, ws, m, _, _, _, hR, _, _, _ => by
    intro d
    simp only [fieldTypes, evalFields, Option.some.injEq] at hR
    subst hR
    exact ⟨d, by simp only [desFields]⟩
  | .cons k s r, p, pre, env, env', env'', row, vs, ws, m, hd, hD, hX, hR, he, ha, hm => by
    simp only [DescribesFields] at hd
    simp only [declsOfFields] at hD
    rw [evalDecls_append] at hD
    cases h1 : evalDecls env (declsOf (pre ++ '_' :: k) s) with
    | none =>
      rw [h1] at hD
      exact nomatch hD
    | some env₁ =>
      rw [h1] at hD
      simp only at hD
      have hX1 : Ext env₁ env'' := (evalDecls_ext _ _ _ hD).trans hX
      cases ht : (typeOf (pre ++ '_' :: k) s).isEmpty with
      | true =>
        simp only [fieldTypes] at hR
        rw [if_pos ht] at hR
        exact fields_parses keep e f hf r p pre env₁ env' env'' row vs ws m hd.2 hD hX hR he ha hm
      | false =>
        obtain ⟨T, row', hT, hrow, rfl⟩ := evalFields_name env'' pre _ row hR k s r rfl ht
        intro d
        have hp : Parses e f T (find k m) := by
          have hmv : J.obj m ∈ vs := (ha.2 _ hm).resolve_right (fun e => nomatch e)
          cases hfk : find k m with
          | none =>
            have hnull : J.null ∈ fieldValues k vs :=
              List.mem_filterMap.2 ⟨_, hmv, by simp only [fieldOf, hfk]⟩
            obtain ⟨T', rfl⟩ := null_opt keep _ _ s _ hd.1 hnull env'' T hT
            exact parses_opt_none e f hf T'
          | some v =>
            exact describes_parses keep e f hf s _ _ env env₁ env'' T _ _ hd.1 h1 hX1 hT (agree_step (.field k) he)
              (agree_field k vs ws ha) v (List.mem_filterMap.2 ⟨_, hm, hfk⟩)
        obtain ⟨x, hx⟩ := hp d.1
        obtain ⟨y, hy⟩ := fields_parses keep e f hf r p pre env₁ env' env'' row' vs ws m hd.2 hD hX hrow he ha hm d.2
        refine ⟨(x, y), ?_⟩
        simp only [desFields, hx, hy]
end

/-- **The inferred structs parse the documents they were inferred from**: if the generated header compiles, every document of
the file is parsed by the top-level type, whatever the destination held and in any format with plain `Optional`s —
provided that no object has a duplicate key and that where an empty array was seen there are only arrays. -/
theorem inferred_type_parses (keep : Str → Bool) (hb : Blind keep) (js : List J) (s : S) (top : Str) (T : Ty)
    (e : Current.Json.Env) (f : Fmt) (hf : f ≠ .fSharp) (hd : ∀ j ∈ js, DistinctKeys j) (he : EmptyArraysAgree js)
    (h : inferFile keep js = .ok (some s)) (hT : compile top s = some T) :
    ∀ j ∈ js, ∀ d, ∃ x, Current.Json.parseDoc e f T j d = .ok x := by
  have hD := file_describes keep hb js s hd h
  simp only [compile] at hT
  cases hE : evalDecls [] (declsOf top s) with
  | none =>
    rw [hE] at hT
    exact nomatch hT
  | some env =>
    rw [hE] at hT
    exact describes_parses keep e f hf s [] top [] env env T js js hD hE (Ext.refl _) hT he
      ⟨fun v hv => .inr hv, fun v hv => .inl hv⟩

end Current.Infer
