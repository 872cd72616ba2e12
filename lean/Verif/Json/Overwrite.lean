import Verif.Json.RoundTrip
/-!
`ParseJSON(text, object)` does not depend on what the object held before (formats `Current` and `NewtonsoftFSharp`), for every
document, well-formed for the type or not.
-/
namespace Current.Json
open Current.Persist (Str)

variable {e : Env} {fp : Fmt}

theorem onValue_indep {α β : Type} {p : Option J} {is : J → Option β} {d d' : α} {k k' : β → Except Err α}
    (h : ∀ b, k b = k' b) : onValue false p is d k = onValue false p is d' k' := by
  cases p with
  | none => rfl
  | some j =>
    simp only [onValue]
    cases is j with
    | none => rfl
    | some b => exact h b

theorem desEach_indep {α : Type} (dfl : α) (f : J → α → Except Err α) (h : ∀ j a b, f j a = f j b) (js : List J) :
    ∀ d d' : List α, desEach dfl f js d = desEach dfl f js d' := by
  induction js with
  | nil => intro d d'; cases d <;> cases d' <;> rfl
  | cons j js ih =>
    have key : ∀ d : List α, desEach dfl f (j :: js) d = desEach dfl f (j :: js) [] := by
      intro d
      cases d with
      | nil => rfl
      | cons a d => simp only [desEach, h j a dfl, ih d []]
    intro d d'
    rw [key d, key d']

theorem desFin_indep {α : Type} (f : J → α → Except Err α) (h : ∀ j a b, f j a = f j b) (n : Nat) :
    ∀ (js : List J) (d d' : Fin n → α), desFin f n js d = desFin f n js d' := by
  induction n with
  | zero => intro js d d'; simp only [desFin]; exact congrArg _ (funext fun i => i.elim0)
  | succ n ih =>
    intro js d d'
    cases js with
    | nil => rfl
    | cons j js => simp only [desFin, h j (d 0) (d' 0), ih js (fun i => d i.succ) (fun i => d' i.succ)]

theorem desCase_not_noop (hf : fp = .current ∨ fp = .fSharp) (r : Row) (key : Key) (ms : List (Str × J)) :
    desCase e ⟨fp, false⟩ r key ms ≠ some (.ok none) := by
  match r with
  | .nil => simp [desCase]
  | .cons l i t r =>
    have ih := desCase_not_noop hf r key ms
    simp only [desCase]
    cases hc : desCase e ⟨fp, false⟩ r key ms with
    | some q =>
      cases q with
      | error er => simp
      | ok o =>
        cases o with
        | none => exact absurd hc ih
        | some z => simp
    | none =>
      simp only
      split
      · rcases hf with rfl | rfl
        · simp only
          split
          · simp
          · split <;> simp
        · simp only
          split
          · split <;> simp
          · simp
          · split <;> simp
      · simp

mutual
theorem des_indep (hf : fp = .current ∨ fp = .fSharp) (t : Ty) (p : Option J) (d d' : t.den) :
    des e ⟨fp, false⟩ t p d = des e ⟨fp, false⟩ t p d' := by
  match t, d, d' with
  | .bool, d, d' => simp only [des]; exact onValue_indep (fun b => rfl)
  | .uint w, d, d' => simp only [des]; exact onValue_indep (fun b => rfl)
  | .int w, d, d' => simp only [des]; exact onValue_indep (fun b => rfl)
  | .enumU w, d, d' => simp only [des]; exact onValue_indep (fun b => rfl)
  | .enumI w, d, d' => simp only [des]; exact onValue_indep (fun b => rfl)
  | .chrono, d, d' => simp only [des]; exact onValue_indep (fun b => rfl)
  | .flt, d, d' => simp only [des]; exact onValue_indep (fun b => rfl)
  | .dbl, d, d' => simp only [des]; exact onValue_indep (fun b => rfl)
  | .str, d, d' => simp only [des]; exact onValue_indep (fun b => rfl)
  | .tid, d, d' => simp only [des]; exact onValue_indep (fun b => rfl)
  | .vec t, d, d' =>
    simp only [des]
    exact onValue_indep (fun js => desEach_indep _ _ (fun j a b => des_indep hf t (some j) a b) js d d')
  | .arr n t, d, d' =>
    simp only [des]
    exact onValue_indep (fun js => desFin_indep _ (fun j a b => des_indep hf t (some j) a b) n js d d')
  | .pair a b, d, d' =>
    simp only [des]
    split
    · cases fSharpItems p with
      | none => rfl
      | some jj => simp only [des_indep hf a (some jj.1) d.1 d'.1, des_indep hf b (some jj.2) d.2 d'.2]
    · exact onValue_indep (fun jj => by
        simp only [des_indep hf a (some jj.1) d.1 d'.1, des_indep hf b (some jj.2) d.2 d'.2])
  | .tup r, d, d' => simp only [des]; exact onValue_indep (fun js => desTuple_indep hf r js d d')
  | .set t, d, d' => simp only [des]
  | .smap v, d, d' => simp only [des]; exact onValue_indep (fun b => rfl)
  | .map k v, d, d' => simp only [des]; exact onValue_indep (fun b => rfl)
  | .opt t, d, d' => simp only [des]; cases p <;> rfl
  | .struct n s o, d, d' =>
    simp only [des]
    exact onValue_indep (fun ms => by simp only [desFields_indep hf s ms d.1 d'.1, desFields_indep hf o ms d.2 d'.2])
  | .variant cs, d, d' =>
    have hn : fp.useNulls = true := by rcases hf with rfl | rfl <;> rfl
    simp only [des]
    cases p with
    | none => simp [hn]
    | some j =>
      simp only [hn, if_true]
      split
      · rfl
      · cases asObject j with
        | none => rfl
        | some ms =>
          rcases hf with rfl | rfl
          · simp only
            cases find [] ms with
            | none => rfl
            | some jt =>
              simp only
              cases asTypeID jt with
              | none => rfl
              | some n =>
                simp only
                have hno := desCase_not_noop (e := e) (.inl rfl) cs (.id (n % 2 ^ 64)) ms
                cases hc : desCase e ⟨.current, false⟩ cs (.id (n % 2 ^ 64)) ms with
                | none => rfl
                | some q =>
                  cases q with
                  | error er => rfl
                  | ok o =>
                    cases o with
                    | none => exact absurd hc hno
                    | some z => rfl
          · simp only
            cases find kCase ms with
            | none => rfl
            | some jt =>
              simp only
              cases asString jt with
              | none => rfl
              | some n =>
                simp only
                have hno := desCase_not_noop (e := e) (.inr rfl) cs (.name n) ms
                cases hc : desCase e ⟨.fSharp, false⟩ cs (.name n) ms with
                | none => rfl
                | some q =>
                  cases q with
                  | error er => rfl
                  | ok o =>
                    cases o with
                    | none => exact absurd hc hno
                    | some z => rfl
theorem desFields_indep (hf : fp = .current ∨ fp = .fSharp) (r : Row) (ms : List (Str × J)) (d d' : r.prod) :
    desFields e ⟨fp, false⟩ r ms d = desFields e ⟨fp, false⟩ r ms d' := by
  match r, d, d' with
  | .nil, _, _ => rfl
  | .cons l i t r, d, d' =>
    simp only [desFields, des_indep hf t (find l ms) d.1 d'.1, desFields_indep hf r ms d.2 d'.2]
theorem desTuple_indep (hf : fp = .current ∨ fp = .fSharp) (r : Row) (js : List J) (d d' : r.prod) :
    desTuple e ⟨fp, false⟩ r js d = desTuple e ⟨fp, false⟩ r js d' := by
  match r, js, d, d' with
  | .nil, _, _, _ => rfl
  | .cons l i t r, [], d, d' => rfl
  | .cons l i t r, j :: js, d, d' =>
    simp only [desTuple, des_indep hf t (some j) d.1 d'.1, desTuple_indep hf r js d.2 d'.2]
end

end Current.Json
