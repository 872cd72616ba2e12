import Verif.Infer.File
/-! The generated header compiles: structs are declared before they are used, and once. -/
namespace Current.Infer
open Current.Persist (Str dec)
open Current.Json (J Ty Row find)

/-! ### Specification -/

/-- No key of any object has an underscore in it. -/
def NoUnderscores (vs : List J) : Prop := ∀ q m, J.obj m ∈ valuesAt q vs → ∀ kv ∈ m, '_' ∉ kv.1

/-- Wherever there are arrays with elements, there is an element which is not null. -/
def ElementsKnown (vs : List J) : Prop :=
  ∀ q, elementValues (valuesAt q vs) ≠ [] → ∃ v ∈ elementValues (valuesAt q vs), v ≠ .null

theorem noUnderscores_step {vs : List J} (h : NoUnderscores vs) (g : Seg) : NoUnderscores (step g vs) := fun q => h (g :: q)
theorem elementsKnown_step {vs : List J} (h : ElementsKnown vs) (g : Seg) : ElementsKnown (step g vs) := fun q => h (g :: q)

/-! ### Environments -/

theorem evalType_ext {a b : Env} (h : Ext a b) : ∀ (t : TExpr) (T : Ty), evalType a t = some T → evalType b t = some T
  | .empty, _, ht => nomatch ht
  | .prim _, _, ht => ht
  | .vec t, T, ht => by
    simp only [evalType] at ht ⊢
    cases hE : evalType a t with
    | none =>
      rw [hE] at ht
      exact nomatch ht
    | some E =>
      rw [hE] at ht
      rw [evalType_ext h t E hE]
      exact ht
  | .opt t, T, ht => by
    simp only [evalType] at ht ⊢
    cases hE : evalType a t with
    | none =>
      rw [hE] at ht
      exact nomatch ht
    | some E =>
      rw [hE] at ht
      rw [evalType_ext h t E hE]
      exact ht
  | .name n, T, ht => h n T ht

theorem maybeOpt_eval (env : Env) (n : Nat) (t : TExpr) (h : ∃ T, evalType env t = some T) : ∃ T, evalType env (maybeOpt n t) = some T := by
  obtain ⟨T, hT⟩ := h
  rw [maybeOpt]
  split
  · exact ⟨T, hT⟩
  · exact ⟨.opt T, by simp only [evalType, hT, Option.map_some]⟩

theorem maybeOpt_empty (n : Nat) (t : TExpr) (h : t.isEmpty = false) : (maybeOpt n t).isEmpty = false := by
  rw [maybeOpt]
  split
  · exact h
  · rfl

theorem typeOf_empty (pre : Str) (s : S) : (typeOf pre s).isEmpty = true ↔ kindS s = 0 := by
  cases s with
  | uninit => exact ⟨fun _ => rfl, fun _ => rfl⟩
  | null n => exact ⟨fun _ => rfl, fun _ => rfl⟩
  | _ =>
    simp only [typeOf, kindS]
    rw [maybeOpt_empty _ _ rfl]
    simp

theorem kindJ_pos (v : J) (h : v ≠ .null) : 0 < kindJ v := by
  cases v with
  | null => exact absurd rfl h
  | _ => simp [kindJ]

theorem fieldTypes_names (pre : Str) : ∀ fs : Fs, ∀ k ∈ (fieldTypes pre fs).map (·.1), k ∈ fs.names
  | .nil, k, h => by simp [fieldTypes] at h
  | .cons k' s r, k, h => by
    simp only [fieldTypes] at h
    simp only [Fs.names, List.mem_cons]
    split at h
    · exact .inr (fieldTypes_names pre r k h)
    · simp only [List.map_cons, List.mem_cons] at h
      rcases h with h | h
      · exact .inl h
      · exact .inr (fieldTypes_names pre r k h)

/-- The first underscore separates. -/
theorem underscore_split : ∀ (k k' r r' : Str), '_' ∉ k → '_' ∉ k' → k ++ '_' :: r = k' ++ '_' :: r' → k = k'
  | [], [], _, _, _, _, _ => rfl
  | [], c :: k', r, r', _, h', e => by
    simp only [List.nil_append, List.cons_append, List.cons.injEq] at e
    rw [← e.1] at h'
    exact absurd (List.mem_cons_self ..) h'
  | c :: k, [], r, r', h, _, e => by
    simp only [List.nil_append, List.cons_append, List.cons.injEq] at e
    rw [e.1] at h
    exact absurd (List.mem_cons_self ..) h
  | c :: k, c' :: k', r, r', h, h', e => by
    simp only [List.cons_append, List.cons.injEq] at e
    rw [e.1, underscore_split k k' r r' (fun hh => h (List.mem_cons_of_mem _ hh)) (fun hh => h' (List.mem_cons_of_mem _ hh)) e.2]

theorem object_split (k r : Str) : k ++ '_' :: r ≠ ['O', 'b', 'j', 'e', 'c', 't'] := by
  intro e
  have h : '_' ∈ k ++ '_' :: r := by simp
  rw [e] at h
  revert h
  decide

mutual
theorem decls_ok (keep : Str → Bool) : ∀ (s : S) (p pre : Str) (vs : List J) (env : Env), Describes keep p s vs → NoUnderscores vs →
    ElementsKnown vs → (∀ n, (Env.find n env).isSome → ∀ r, n ≠ pre ++ '_' :: r) →
    ∃ env', evalDecls env (declsOf pre s) = some env' ∧
      (∀ n, (Env.find n env').isSome → (Env.find n env).isSome ∨ ∃ r, n = pre ++ '_' :: r) ∧
      (0 < kindS s → ∃ T, evalType env' (typeOf pre s) = some T)
  | .uninit, p, pre, vs, env, _, _, _, _ => ⟨env, by simp only [declsOf, evalDecls], fun n h => .inl h, by simp [kindS]⟩
  | .null _, p, pre, vs, env, _, _, _, _ => ⟨env, by simp only [declsOf, evalDecls], fun n h => .inl h, by simp [kindS]⟩
  | .str _ _ _, p, pre, vs, env, _, _, _, _ =>
    ⟨env, by simp only [declsOf, evalDecls], fun n h => .inl h, fun _ => maybeOpt_eval env _ _ ⟨_, rfl⟩⟩
  | .int _ _ _ _ _, p, pre, vs, env, _, _, _, _ =>
    ⟨env, by simp only [declsOf, evalDecls], fun n h => .inl h, fun _ => maybeOpt_eval env _ _ ⟨_, rfl⟩⟩
  | .dbl _ _, p, pre, vs, env, _, _, _, _ =>
    ⟨env, by simp only [declsOf, evalDecls], fun n h => .inl h, fun _ => maybeOpt_eval env _ _ ⟨_, rfl⟩⟩
  | .bool _ _ _, p, pre, vs, env, _, _, _, _ =>
    ⟨env, by simp only [declsOf, evalDecls], fun n h => .inl h, fun _ => maybeOpt_eval env _ _ ⟨_, rfl⟩⟩
  | .arr e i n, p, pre, vs, env, hd, hu, hk, hf => by
    simp only [Describes] at hd
    have hpre : ∀ r : Str, pre ++ kElement ++ '_' :: r = pre ++ '_' :: (['E', 'l', 'e', 'm', 'e', 'n', 't'] ++ '_' :: r) := by
      intro r
      simp [kElement]
    obtain ⟨env', h1, h2, h3⟩ := decls_ok keep e (element p 0) (pre ++ kElement) (elementValues vs) env hd.2.2
      (noUnderscores_step hu .element) (elementsKnown_step hk .element) (fun n hn r => by rw [hpre]; exact hf n hn _)
    refine ⟨env', by simp only [declsOf, h1], fun n hn => ?_, fun _ => ?_⟩
    · rcases h2 n hn with h | ⟨r, h⟩
      · exact .inl h
      · exact .inr ⟨_, h.trans (hpre r)⟩
    · simp only [typeOf]
      refine maybeOpt_eval env' _ _ ?_
      have hke : 0 < kindS e := by
        obtain ⟨v, hv, hv0⟩ := hk [] hd.2.1
        have := (describes_kind keep _ e _ hd.2.2).1 v hv hv0
        rw [← this]
        exact kindJ_pos v hv0
      obtain ⟨T, hT⟩ := h3 hke
      exact ⟨.vec T, by simp only [evalType, hT, Option.map_some]⟩
  | .obj fs i n, p, pre, vs, env, hd, hu, hk, hf => by
    simp only [Describes] at hd
    obtain ⟨_, hnd, hnames, _, hfields⟩ := hd
    have hun : ∀ k ∈ fs.names, '_' ∉ k := by
      intro k hkn
      obtain ⟨_, v, hv, m, x, rfl, hx, _⟩ := (hnames k).1 hkn
      exact hu [] m hv (k, x) (find_mem m k x hx)
    obtain ⟨env₁, h1, h2, row, h3⟩ := fieldDecls_ok keep fs p pre vs env hfields hnd hun hu hk
      (fun n hn k _ r => by
        have := hf n hn (k ++ '_' :: r)
        exact this)
    have hobj : pre ++ kObject = pre ++ '_' :: ['O', 'b', 'j', 'e', 'c', 't'] := rfl
    have hfresh : Env.find (pre ++ kObject) env₁ = none := by
      cases hx : Env.find (pre ++ kObject) env₁ with
      | none => rfl
      | some t =>
        exfalso
        rcases h2 (pre ++ kObject) (by rw [hx]; rfl) with h | ⟨k, _, r, h⟩
        · exact hf _ h _ hobj
        · rw [hobj] at h
          have := List.append_cancel_left h
          simp only [List.cons.injEq, true_and] at this
          exact object_split k r this.symm
    refine ⟨(pre ++ kObject, .struct (pre ++ kObject) .nil row) :: env₁, ?_, fun n hn => ?_, fun _ => ?_⟩
    · simp only [declsOf]
      rw [evalDecls_append, h1]
      simp only [evalDecls]
      rw [if_neg (by rw [hfresh]; simp), h3]
    · simp only [Env.find] at hn
      split at hn
      · rename_i e
        exact .inr ⟨_, e.symm.trans hobj⟩
      · rcases h2 n hn with h | ⟨k, _, r, h⟩
        · exact .inl h
        · exact .inr ⟨_, h⟩
    · simp only [typeOf]
      refine maybeOpt_eval _ _ _ ⟨.struct (pre ++ kObject) .nil row, ?_⟩
      simp only [evalType, Env.find, if_true]
theorem fieldDecls_ok (keep : Str → Bool) : ∀ (fs : Fs) (p pre : Str) (vs : List J) (env : Env), DescribesFields keep p fs vs →
    fs.names.Nodup → (∀ k ∈ fs.names, '_' ∉ k) → NoUnderscores vs → ElementsKnown vs →
    (∀ n, (Env.find n env).isSome → ∀ k ∈ fs.names, ∀ r, n ≠ pre ++ '_' :: (k ++ '_' :: r)) →
    ∃ env', evalDecls env (declsOfFields pre fs) = some env' ∧
      (∀ n, (Env.find n env').isSome → (Env.find n env).isSome ∨ ∃ k ∈ fs.names, ∃ r, n = pre ++ '_' :: (k ++ '_' :: r)) ∧
      ∃ row, evalFields env' (fieldTypes pre fs) = some row
  | .nil, p, pre, vs, env, _, _, _, _, _, _ =>
    ⟨env, by simp only [declsOfFields, evalDecls], fun n h => .inl h, .nil, by simp only [fieldTypes, evalFields]⟩
  | .cons k s r, p, pre, vs, env, hd, hnd, hun, hu, hk, hf => by
    simp only [DescribesFields] at hd
    simp only [Fs.names, List.nodup_cons] at hnd
    simp only [Fs.names, List.mem_cons, forall_eq_or_imp] at hun
    have hpre : ∀ r : Str, pre ++ '_' :: k ++ '_' :: r = pre ++ '_' :: (k ++ '_' :: r) := by
      intro r
      simp
    obtain ⟨env₁, h1, h2, h3⟩ := decls_ok keep s (member p k) (pre ++ '_' :: k) (fieldValues k vs) env hd.1
      (noUnderscores_step hu (.field k)) (elementsKnown_step hk (.field k))
      (fun n hn r' => by rw [hpre]; exact hf n hn k (by simp [Fs.names]) r')
    obtain ⟨env₂, g1, g2, row, g3⟩ := fieldDecls_ok keep r p pre vs env₁ hd.2 hnd.2 hun.2 hu hk (fun n hn k' hk' r' => by
      rcases h2 n hn with h | ⟨r'', h⟩
      · exact hf n h k' (by simp [Fs.names, hk']) r'
      · rw [h, hpre]
        intro e
        have := List.append_cancel_left e
        simp only [List.cons.injEq, true_and] at this
        exact hnd.1 (underscore_split k k' _ _ hun.1 (hun.2 k' hk') this ▸ hk'))
    refine ⟨env₂, ?_, fun n hn => ?_, ?_⟩
    · simp only [declsOfFields]
      rw [evalDecls_append, h1]
      exact g1
    · rcases g2 n hn with h | ⟨k', hk', r', h⟩
      · rcases h2 n h with h | ⟨r', h⟩
        · exact .inl h
        · exact .inr ⟨k, by simp [Fs.names], r', h.trans (hpre r')⟩
      · exact .inr ⟨k', by simp [Fs.names, hk'], r', h⟩
    · simp only [fieldTypes]
      by_cases he : (typeOf (pre ++ '_' :: k) s).isEmpty = true
      · rw [if_pos he]
        exact ⟨row, g3⟩
      · rw [if_neg he]
        have hks : 0 < kindS s := by
          rw [typeOf_empty] at he
          omega
        obtain ⟨T, hT⟩ := h3 hks
        have hT' := evalType_ext (evalDecls_ext _ _ _ g1) _ _ hT
        refine ⟨.cons k 0 T row, ?_⟩
        simp only [evalFields]
        rw [if_neg (fun h => hnd.1 (fieldTypes_names pre r k h)), hT', g3]
end

/-- **The generated header compiles**: every struct is declared before it is used, no two structs have the same name and no struct
has two fields of the same name — if no key has an underscore in it, every array place has an element which is not null, and
not every line is null. -/
theorem header_compiles (keep : Str → Bool) (hb : Blind keep) (js : List J) (s : S) (top : Str) (hd : ∀ j ∈ js, DistinctKeys j)
    (h : inferFile keep js = .ok (some s)) (hu : NoUnderscores js) (hk : ElementsKnown js) (hn : ∃ j ∈ js, j ≠ .null) :
    ∃ T, compile top s = some T := by
  have hD := file_describes keep hb js s hd h
  obtain ⟨env, h1, _, h3⟩ := decls_ok keep s [] top js [] hD hu hk (fun n hn => by simp [Env.find] at hn)
  obtain ⟨j, hj, hj0⟩ := hn
  have hks : 0 < kindS s := by
    have := (describes_kind keep [] s js hD).1 j hj hj0
    rw [← this]
    exact kindJ_pos j hj0
  obtain ⟨T, hT⟩ := h3 hks
  exact ⟨T, by simp only [compile, h1, hT]⟩

end Current.Infer
