import Verif.Json.Chars
/-!
The reader recognizes exactly the texts of the grammar.
-/
namespace Current.Json
open Current.Persist (Str)

/-- A character of white space. -/
def isWs (c : Char) : Prop := c = ' ' ∨ c = '\n' ∨ c = '\r' ∨ c = '\t'
instance (c : Char) : Decidable (isWs c) := inferInstanceAs (Decidable (_ ∨ _))

def NoWs (s : Str) : Prop := ∀ c t, s = c :: t → ¬ isWs c

theorem ws_iff (w : Str) : Ws w ↔ ∀ c ∈ w, isWs c := by
  unfold Ws isWs
  constructor <;> intro h c hc <;> rcases h c hc with h | h | h | h <;> simp [h]

theorem skipWs_cons_ws {c : Char} (h : isWs c) (s : Str) : skipWs (c :: s) = skipWs s := by
  rw [skipWs]; exact if_pos h

theorem skipWs_cons {c : Char} (h : ¬ isWs c) (s : Str) : skipWs (c :: s) = c :: s := by
  rw [skipWs]; exact if_neg h

theorem skipWs_append {w : Str} (hw : Ws w) (s : Str) : skipWs (w ++ s) = skipWs s := by
  rw [ws_iff] at hw
  induction w with
  | nil => rfl
  | cons c w ih =>
    rw [List.cons_append, skipWs_cons_ws (hw c (by simp)), ih (fun x hx => hw x (by simp [hx]))]

theorem skipWs_of_noWs {s : Str} (h : NoWs s) : skipWs s = s := by
  cases s with
  | nil => rfl
  | cons c s => exact skipWs_cons (h c s rfl) s

theorem skipWs_spec (s : Str) : ∃ w, s = w ++ skipWs s ∧ Ws w ∧ NoWs (skipWs s) := by
  induction s with
  | nil => exact ⟨[], rfl, (fun _ h => nomatch h), by intro c t h; cases h⟩
  | cons c s ih =>
    obtain ⟨w, h1, h2, h3⟩ := ih
    by_cases hc : isWs c
    · rw [skipWs_cons_ws hc]
      refine ⟨c :: w, by rw [List.cons_append, ← h1], ?_, h3⟩
      rw [ws_iff] at h2 ⊢
      intro x hx
      rcases List.mem_cons.1 hx with rfl | hx
      · exact hc
      · exact h2 x hx
    · rw [skipWs_cons hc]
      refine ⟨[], rfl, (fun _ h => nomatch h), ?_⟩
      intro x t h
      simp only [List.cons.injEq] at h
      rw [← h.1]; exact hc

/-- The characters a number begins with. -/
def numStart (c : Char) : Prop := c = '-' ∨ c.isDigit = true

theorem number_head {fp : Fp} {s : Str} {j : J} (h : IsNumber fp s j) : ∃ c t, s = c :: t ∧ numStart c := by
  have key : ∀ (neg : Bool) (ds : Str), IntText ds → ∀ r, ∃ c t, minusText neg ++ (ds ++ r) = c :: t ∧ numStart c := by
    intro neg ds hi r
    cases neg with
    | true => exact ⟨'-', _, rfl, .inl rfl⟩
    | false =>
      obtain ⟨hd, hne, -⟩ := hi
      cases ds with
      | nil => exact absurd rfl hne
      | cons c ds => exact ⟨c, ds ++ r, rfl, .inr (hd c (by simp))⟩
  cases h with
  | int neg ds hi _ => simpa using key neg ds hi []
  | real neg ds fr ex d hi _ _ _ _ => simpa using key neg ds hi (fr ++ ex)

theorem numStart_ne {c x : Char} (h : numStart c) (hx : x ≠ '-') (hd : x.isDigit = false) : c ≠ x := by
  rintro rfl
  rcases h with h | h
  · exact hx h
  · rw [h] at hd; cases hd

/-- The characters a value begins with: none is white space, or ends an array or an object. -/
theorem value_head {fp : Fp} {s : Str} {j : J} (h : IsValue fp s j) : ∃ c t, s = c :: t ∧ ¬ isWs c ∧ c ≠ ']' ∧ c ≠ '}' := by
  cases h with
  | null => exact ⟨_, _, rfl, by decide, by decide, by decide⟩
  | true => exact ⟨_, _, rfl, by decide, by decide, by decide⟩
  | false => exact ⟨_, _, rfl, by decide, by decide, by decide⟩
  | number s j h =>
    obtain ⟨c, t, rfl, hc⟩ := number_head h
    refine ⟨c, t, rfl, ?_, numStart_ne hc (by decide) (by decide), numStart_ne hc (by decide) (by decide)⟩
    rintro (h | h | h | h) <;> exact numStart_ne hc (by decide) (by decide) h
  | string s v h =>
    cases h
    exact ⟨_, _, rfl, by decide, by decide, by decide⟩
  | emptyArray w _ => exact ⟨_, _, rfl, by decide, by decide, by decide⟩
  | array s l _ => exact ⟨_, _, rfl, by decide, by decide, by decide⟩
  | emptyObject w _ => exact ⟨_, _, rfl, by decide, by decide, by decide⟩
  | object s l _ => exact ⟨_, _, rfl, by decide, by decide, by decide⟩

theorem parseValue_number (fp : Fp) (n : Nat) {c : Char} (t : Str) (hc : numStart c) :
    parseValue fp (n + 1) (c :: t) = parseNumber fp (c :: t) := by
  have h1 : c ≠ 'n' := numStart_ne hc (by decide) (by decide)
  have h2 : c ≠ 't' := numStart_ne hc (by decide) (by decide)
  have h3 : c ≠ 'f' := numStart_ne hc (by decide) (by decide)
  have h4 : c ≠ '"' := numStart_ne hc (by decide) (by decide)
  have h5 : c ≠ '{' := numStart_ne hc (by decide) (by decide)
  have h6 : c ≠ '[' := numStart_ne hc (by decide) (by decide)
  simp only [parseValue, h1, h2, h3, h4, h5, h6, if_false]

theorem parseValue_string (fp : Fp) (n : Nat) (t : Str) :
    parseValue fp (n + 1) ('"' :: t) = (parseString t).map fun p => (.str p.1, p.2) := by
  simp [parseValue]

theorem parseValue_array (fp : Fp) (n : Nat) (t : Str) : parseValue fp (n + 1) ('[' :: t) =
    match skipWs t with
    | ']' :: r => some (.arr [], r)
    | r => (parseElements fp n r).map fun p => (.arr p.1, p.2) := by
  simp [parseValue]
  rfl

theorem parseValue_object (fp : Fp) (n : Nat) (t : Str) : parseValue fp (n + 1) ('{' :: t) =
    match skipWs t with
    | '}' :: r => some (.obj [], r)
    | r => (parseMembers fp n r).map fun p => (.obj p.1, p.2) := by
  simp [parseValue]
  rfl

theorem sep_ws {w r : Str} (hw : Ws w) (hr : Sep r) : Sep (w ++ r) := by
  cases w with
  | nil => exact hr
  | cons c w =>
    intro x t h
    simp only [List.cons_append, List.cons.injEq] at h
    have := hw c (by simp)
    rw [h.1] at this
    rcases this with rfl | rfl | rfl | rfl <;> decide

theorem sep_cons {c : Char} {s : Str} (h1 : c.isDigit = false) (h2 : c ≠ '.') (h3 : c ≠ 'e') (h4 : c ≠ 'E') : Sep (c :: s) := by
  intro x t h
  simp only [List.cons.injEq] at h
  rw [← h.1]
  exact ⟨h1, h2, h3, h4⟩

/-! ### Every text of the grammar is read -/

theorem elements_head {fp : Fp} {s : Str} {l : List J} (h : IsElements fp s l) (r : Str) :
    ∃ c t, skipWs (s ++ r) = c :: t ∧ c ≠ ']' := by
  cases h with
  | last w v w' j hw hv hw' =>
    obtain ⟨c, t, rfl, h1, h2, -⟩ := value_head hv
    refine ⟨c, t ++ w' ++ r, ?_, h2⟩
    rw [List.append_assoc, skipWs_append hw, List.append_assoc, List.cons_append, skipWs_cons h1]
    simp
  | more w v w' s j l hw hv hw' _ =>
    obtain ⟨c, t, rfl, h1, h2, -⟩ := value_head hv
    refine ⟨c, t ++ (w' ++ ',' :: s) ++ r, ?_, h2⟩
    rw [List.append_assoc, skipWs_append hw, List.append_assoc, List.cons_append, skipWs_cons h1]
    simp

theorem members_head {fp : Fp} {s : Str} {m : List (Str × J)} (h : IsMembers fp s m) (r : Str) :
    ∃ c t, skipWs (s ++ r) = c :: t ∧ c ≠ '}' := by
  cases h with
  | last w k w1 w2 v w' name j hw hk =>
    cases hk
    rw [List.append_assoc, skipWs_append hw]
    exact ⟨'"', _, skipWs_cons (by decide) _, by decide⟩
  | more w k w1 w2 v w' s name j m hw hk =>
    cases hk
    rw [List.append_assoc, skipWs_append hw]
    exact ⟨'"', _, skipWs_cons (by decide) _, by decide⟩

theorem skip_value {fp : Fp} {v : Str} {j : J} (hv : IsValue fp v j) {w : Str} (hw : Ws w) (r : Str) :
    skipWs (w ++ (v ++ r)) = v ++ r := by
  obtain ⟨c, t, rfl, h1, -⟩ := value_head hv
  rw [skipWs_append hw, List.cons_append, skipWs_cons h1]

mutual
theorem value_complete {fp : Fp} {v : Str} {j : J} (h : IsValue fp v j) (r : Str) (hr : Sep r) (n : Nat)
    (hn : 2 * v.length + 1 ≤ n) : parseValue fp n (v ++ r) = some (j, r) := by
  match n, h with
  | 0, _ => omega
  | n + 1, .null => simp [parseValue, consume]
  | n + 1, .true => simp [parseValue, consume]
  | n + 1, .false => simp [parseValue, consume]
  | n + 1, .number s j h =>
    obtain ⟨c, t, e, hc⟩ := number_head h
    have := parseNumber_complete h hr
    rw [e, List.cons_append] at this ⊢
    rw [parseValue_number fp n _ hc, this]
  | n + 1, .string s v h =>
    cases h with
    | mk s _ h =>
      have e : '"' :: (s ++ ['"']) ++ r = '"' :: (s ++ '"' :: r) := by simp
      rw [e, parseValue_string, parseString_complete h]
      rfl
  | n + 1, .emptyArray w hw =>
    have e : '[' :: (w ++ [']']) ++ r = '[' :: (w ++ ']' :: r) := by simp
    rw [e, parseValue_array, skipWs_append hw, skipWs_cons (by decide)]
    rfl
  | n + 1, .array s l h =>
    have e : '[' :: (s ++ [']']) ++ r = '[' :: (s ++ ']' :: r) := by simp
    have hk := elements_complete h r n (by simp at hn; omega)
    obtain ⟨c, t, h1, h2⟩ := elements_head h (']' :: r)
    rw [e, parseValue_array]
    rw [h1] at hk ⊢
    split
    · rename_i t' h3
      simp only [List.cons.injEq] at h3
      exact absurd h3.1 h2
    · rw [hk]; rfl
  | n + 1, .emptyObject w hw =>
    have e : '{' :: (w ++ ['}']) ++ r = '{' :: (w ++ '}' :: r) := by simp
    rw [e, parseValue_object, skipWs_append hw, skipWs_cons (by decide)]
    rfl
  | n + 1, .object s m h =>
    have e : '{' :: (s ++ ['}']) ++ r = '{' :: (s ++ '}' :: r) := by simp
    have hk := members_complete h r n (by simp at hn; omega)
    obtain ⟨c, t, h1, h2⟩ := members_head h ('}' :: r)
    rw [e, parseValue_object]
    rw [h1] at hk ⊢
    split
    · rename_i t' h3
      simp only [List.cons.injEq] at h3
      exact absurd h3.1 h2
    · rw [hk]; rfl
theorem elements_complete {fp : Fp} {s : Str} {l : List J} (h : IsElements fp s l) (r : Str) (n : Nat)
    (hn : 2 * s.length + 2 ≤ n) : parseElements fp n (skipWs (s ++ ']' :: r)) = some (l, r) := by
  match n, h with
  | 0, _ => omega
  | n + 1, .last w v w' j hw hv hw' =>
    have e : w ++ (v ++ w') ++ ']' :: r = w ++ (v ++ (w' ++ ']' :: r)) := by simp
    rw [e, skip_value hv hw, parseElements, value_complete hv (w' ++ ']' :: r)
      (sep_ws hw' (sep_cons (by decide) (by decide) (by decide) (by decide))) n (by simp at hn; omega)]
    simp only [skipWs_append hw', skipWs_cons (show ¬ isWs ']' by decide)]
  | n + 1, .more w v w' s j l hw hv hw' hs =>
    have e : w ++ (v ++ (w' ++ ',' :: s)) ++ ']' :: r = w ++ (v ++ (w' ++ ',' :: (s ++ ']' :: r))) := by simp
    rw [e, skip_value hv hw, parseElements, value_complete hv (w' ++ ',' :: (s ++ ']' :: r))
      (sep_ws hw' (sep_cons (by decide) (by decide) (by decide) (by decide))) n (by simp at hn; omega)]
    simp only [skipWs_append hw', skipWs_cons (show ¬ isWs ',' by decide)]
    rw [elements_complete hs r n (by simp at hn; omega)]
    rfl
theorem members_complete {fp : Fp} {s : Str} {m : List (Str × J)} (h : IsMembers fp s m) (r : Str) (n : Nat)
    (hn : 2 * s.length + 2 ≤ n) : parseMembers fp n (skipWs (s ++ '}' :: r)) = some (m, r) := by
  match n, h with
  | 0, _ => omega
  | n + 1, .last w k w1 w2 v w' name j hw hk hw1 hw2 hv hw' =>
    cases hk with
    | mk k _ hk =>
      have e : w ++ ('"' :: (k ++ ['"']) ++ (w1 ++ ':' :: (w2 ++ (v ++ w')))) ++ '}' :: r =
          w ++ ('"' :: (k ++ '"' :: (w1 ++ ':' :: (w2 ++ (v ++ (w' ++ '}' :: r)))))) := by simp
      rw [e, skipWs_append hw, skipWs_cons (by decide), parseMembers, if_pos rfl, parseString_complete hk]
      simp only [skipWs_append hw1, skipWs_cons (show ¬ isWs ':' by decide), skip_value hv hw2]
      rw [value_complete hv (w' ++ '}' :: r)
        (sep_ws hw' (sep_cons (by decide) (by decide) (by decide) (by decide))) n (by simp at hn; omega)]
      simp only [skipWs_append hw', skipWs_cons (show ¬ isWs '}' by decide)]
  | n + 1, .more w k w1 w2 v w' s name j m hw hk hw1 hw2 hv hw' hs =>
    cases hk with
    | mk k _ hk =>
      have e : w ++ ('"' :: (k ++ ['"']) ++ (w1 ++ ':' :: (w2 ++ (v ++ (w' ++ ',' :: s))))) ++ '}' :: r =
          w ++ ('"' :: (k ++ '"' :: (w1 ++ ':' :: (w2 ++ (v ++ (w' ++ ',' :: (s ++ '}' :: r))))))) := by simp
      rw [e, skipWs_append hw, skipWs_cons (by decide), parseMembers, if_pos rfl, parseString_complete hk]
      simp only [skipWs_append hw1, skipWs_cons (show ¬ isWs ':' by decide), skip_value hv hw2]
      rw [value_complete hv (w' ++ ',' :: (s ++ '}' :: r))
        (sep_ws hw' (sep_cons (by decide) (by decide) (by decide) (by decide))) n (by simp at hn; omega)]
      simp only [skipWs_append hw', skipWs_cons (show ¬ isWs ',' by decide)]
      rw [members_complete hs r n (by simp at hn; omega)]
      rfl
end

/-! ### Everything that is read is a text of the grammar -/

theorem consume_sound {p s r : Str} (h : consume p s = some r) : s = p ++ r := by
  induction p generalizing s with
  | nil => simp only [consume, Option.some.injEq] at h; exact h
  | cons a p ih =>
    cases s with
    | nil => cases h
    | cons c s =>
      simp only [consume] at h
      by_cases hc : c = a
      · rw [if_pos hc] at h
        rw [hc, ih h, List.cons_append]
      · rw [if_neg hc] at h; cases h

theorem sound_aux (fp : Fp) (n : Nat) :
    (∀ s j r, parseValue fp n s = some (j, r) → ∃ p, s = p ++ r ∧ IsValue fp p j) ∧
    (∀ s l r, parseElements fp n s = some (l, r) → ∃ p, s = p ++ ']' :: r ∧ IsElements fp p l) ∧
    (∀ s m r, parseMembers fp n s = some (m, r) → ∃ p, s = p ++ '}' :: r ∧ IsMembers fp p m) := by
  have nilWs : Ws [] := fun _ h => nomatch h
  induction n with
  | zero =>
    refine ⟨?_, ?_, ?_⟩ <;> intro s x r h
    · simp [parseValue] at h
    · simp [parseElements] at h
    · simp [parseMembers] at h
  | succ n ih =>
    obtain ⟨ihv, ihe, ihm⟩ := ih
    refine ⟨?_, ?_, ?_⟩
    · intro s j r h
      cases s with
      | nil => simp [parseValue] at h
      | cons c s =>
        simp only [parseValue] at h
        by_cases h1 : c = 'n'
        · rw [if_pos h1, Option.map_eq_some_iff] at h
          obtain ⟨r', h2, h3⟩ := h
          cases h3
          exact ⟨['n', 'u', 'l', 'l'], by rw [h1, consume_sound h2]; rfl, .null⟩
        rw [if_neg h1] at h
        by_cases h1 : c = 't'
        · rw [if_pos h1, Option.map_eq_some_iff] at h
          obtain ⟨r', h2, h3⟩ := h
          cases h3
          exact ⟨['t', 'r', 'u', 'e'], by rw [h1, consume_sound h2]; rfl, .true⟩
        rw [if_neg h1] at h
        by_cases h1 : c = 'f'
        · rw [if_pos h1, Option.map_eq_some_iff] at h
          obtain ⟨r', h2, h3⟩ := h
          cases h3
          exact ⟨['f', 'a', 'l', 's', 'e'], by rw [h1, consume_sound h2]; rfl, .false⟩
        rw [if_neg h1] at h
        by_cases h1 : c = '"'
        · rw [if_pos h1, Option.map_eq_some_iff] at h
          obtain ⟨⟨v, r'⟩, h2, h3⟩ := h
          cases h3
          obtain ⟨p, rfl, hp⟩ := parseString_sound h2
          exact ⟨'"' :: (p ++ ['"']), by simp [h1], .string _ _ (.mk p v hp)⟩
        rw [if_neg h1] at h
        by_cases h1 : c = '{'
        · rw [if_pos h1] at h
          obtain ⟨w, e1, e2, e3⟩ := skipWs_spec s
          split at h
          · rename_i r' e
            cases h
            exact ⟨'{' :: (w ++ ['}']), by rw [h1, e1, e]; simp, .emptyObject w e2⟩
          · rw [Option.map_eq_some_iff] at h
            obtain ⟨⟨m, r'⟩, h2, h3⟩ := h
            cases h3
            obtain ⟨p, e4, hp⟩ := ihm _ _ _ h2
            refine ⟨'{' :: ((w ++ p) ++ ['}']), by rw [h1, e1, e4]; simp, .object _ _ ?_⟩
            cases hp with
            | last w0 k w1 w2 v w' name j g1 g2 g3 g4 g5 g6 =>
              rw [← List.append_assoc]
              refine .last (w ++ w0) k w1 w2 v w' name j ?_ g2 g3 g4 g5 g6
              intro x hx
              rcases List.mem_append.1 hx with hx | hx
              · exact e2 x hx
              · exact g1 x hx
            | more w0 k w1 w2 v w' s name j m g1 g2 g3 g4 g5 g6 g7 =>
              rw [← List.append_assoc]
              refine .more (w ++ w0) k w1 w2 v w' s name j m ?_ g2 g3 g4 g5 g6 g7
              intro x hx
              rcases List.mem_append.1 hx with hx | hx
              · exact e2 x hx
              · exact g1 x hx
        rw [if_neg h1] at h
        by_cases h1 : c = '['
        · rw [if_pos h1] at h
          obtain ⟨w, e1, e2, e3⟩ := skipWs_spec s
          split at h
          · rename_i r' e
            cases h
            exact ⟨'[' :: (w ++ [']']), by rw [h1, e1, e]; simp, .emptyArray w e2⟩
          · rw [Option.map_eq_some_iff] at h
            obtain ⟨⟨m, r'⟩, h2, h3⟩ := h
            cases h3
            obtain ⟨p, e4, hp⟩ := ihe _ _ _ h2
            refine ⟨'[' :: ((w ++ p) ++ [']']), by rw [h1, e1, e4]; simp, .array _ _ ?_⟩
            cases hp with
            | last w0 v w' j g1 g2 g3 =>
              rw [← List.append_assoc]
              refine .last (w ++ w0) v w' j ?_ g2 g3
              intro x hx
              rcases List.mem_append.1 hx with hx | hx
              · exact e2 x hx
              · exact g1 x hx
            | more w0 v w' s j l g1 g2 g3 g4 =>
              rw [← List.append_assoc]
              refine .more (w ++ w0) v w' s j l ?_ g2 g3 g4
              intro x hx
              rcases List.mem_append.1 hx with hx | hx
              · exact e2 x hx
              · exact g1 x hx
        rw [if_neg h1] at h
        obtain ⟨p, e, hp⟩ := parseNumber_sound h
        exact ⟨p, e, .number p j hp⟩
    · intro s l r h
      simp only [parseElements] at h
      cases hv : parseValue fp n s with
      | none => rw [hv] at h; cases h
      | some q =>
        obtain ⟨j, r1⟩ := q
        rw [hv] at h
        simp only at h
        obtain ⟨p, rfl, hp⟩ := ihv _ _ _ hv
        obtain ⟨w, e1, e2, -⟩ := skipWs_spec r1
        split at h
        · rename_i r2 e
          rw [Option.map_eq_some_iff] at h
          obtain ⟨⟨l', r'⟩, h2, h3⟩ := h
          cases h3
          obtain ⟨w3, e3, e4, -⟩ := skipWs_spec r2
          obtain ⟨p', e5, hp'⟩ := ihe _ _ _ h2
          refine ⟨[] ++ (p ++ (w ++ ',' :: (w3 ++ p'))), by rw [e1, e, e3, e5]; simp, .more [] p w (w3 ++ p') j l' nilWs hp e2 ?_⟩
          cases hp' with
          | last w0 v w' j g1 g2 g3 =>
            rw [← List.append_assoc]
            refine .last (w3 ++ w0) v w' j ?_ g2 g3
            intro x hx
            rcases List.mem_append.1 hx with hx | hx
            · exact e4 x hx
            · exact g1 x hx
          | more w0 v w' s j l g1 g2 g3 g4 =>
            rw [← List.append_assoc]
            refine .more (w3 ++ w0) v w' s j l ?_ g2 g3 g4
            intro x hx
            rcases List.mem_append.1 hx with hx | hx
            · exact e4 x hx
            · exact g1 x hx
        · rename_i r2 e
          cases h
          exact ⟨[] ++ (p ++ w), by rw [e1, e]; simp, .last [] p w j nilWs hp e2⟩
        · cases h
    · intro s m r h
      cases s with
      | nil => simp [parseMembers] at h
      | cons c s =>
        simp only [parseMembers] at h
        by_cases h1 : c = '"'
        · rw [if_pos h1] at h
          cases hk : parseString s with
          | none => rw [hk] at h; cases h
          | some q0 =>
            obtain ⟨k, r0⟩ := q0
            rw [hk] at h
            simp only at h
            obtain ⟨pk, rfl, hpk⟩ := parseString_sound hk
            obtain ⟨w1, f1, f2, -⟩ := skipWs_spec r0
            split at h
            · rename_i r1 f3
              obtain ⟨w2, f4, f5, -⟩ := skipWs_spec r1
              cases hv : parseValue fp n (skipWs r1) with
              | none => rw [hv] at h; cases h
              | some q =>
                obtain ⟨j, r2⟩ := q
                rw [hv] at h
                simp only at h
                obtain ⟨p, hp0, hp⟩ := ihv _ _ _ hv
                obtain ⟨w, e1, e2, -⟩ := skipWs_spec r2
                split at h
                · rename_i r3 e
                  rw [Option.map_eq_some_iff] at h
                  obtain ⟨⟨m', r'⟩, h2, h3⟩ := h
                  cases h3
                  obtain ⟨w3, e3, e4, -⟩ := skipWs_spec r3
                  obtain ⟨p', e5, hp'⟩ := ihm _ _ _ h2
                  refine ⟨[] ++ ('"' :: (pk ++ ['"']) ++ (w1 ++ ':' :: (w2 ++ (p ++ (w ++ ',' :: (w3 ++ p')))))),
                    by rw [h1, f1, f3, f4, hp0, e1, e, e3, e5]; simp,
                    .more [] _ w1 w2 p w (w3 ++ p') k j m' nilWs (.mk pk k hpk) f2 f5 hp e2 ?_⟩
                  cases hp' with
                  | last w0 k w1 w2 v w' name j g1 g2 g3 g4 g5 g6 =>
                    rw [← List.append_assoc]
                    refine .last (w3 ++ w0) k w1 w2 v w' name j ?_ g2 g3 g4 g5 g6
                    intro x hx
                    rcases List.mem_append.1 hx with hx | hx
                    · exact e4 x hx
                    · exact g1 x hx
                  | more w0 k w1 w2 v w' s name j m g1 g2 g3 g4 g5 g6 g7 =>
                    rw [← List.append_assoc]
                    refine .more (w3 ++ w0) k w1 w2 v w' s name j m ?_ g2 g3 g4 g5 g6 g7
                    intro x hx
                    rcases List.mem_append.1 hx with hx | hx
                    · exact e4 x hx
                    · exact g1 x hx
                · rename_i r3 e
                  cases h
                  exact ⟨[] ++ ('"' :: (pk ++ ['"']) ++ (w1 ++ ':' :: (w2 ++ (p ++ w)))),
                    by rw [h1, f1, f3, f4, hp0, e1, e]; simp,
                    .last [] _ w1 w2 p w k j nilWs (.mk pk k hpk) f2 f5 hp e2⟩
                · cases h
            · cases h
        · rw [if_neg h1] at h; cases h

/-- **The reader recognizes exactly the texts of the grammar**, and gives the documents they stand for. -/
theorem parseText_iff (fp : Fp) (s : Str) (j : J) : parseText fp s = some j ↔ IsText fp (cString s) j := by
  unfold parseText
  simp only
  generalize cString s = s
  constructor
  · intro h
    obtain ⟨w, e1, e2, -⟩ := skipWs_spec s
    split at h
    · cases h
    · rename_i t
      cases hv : parseValue fp (2 * (skipWs s).length + 1) (skipWs s) with
      | none => rw [hv] at h; cases h
      | some q =>
        obtain ⟨j', r⟩ := q
        rw [hv] at h
        simp only at h
        obtain ⟨p, e3, hp⟩ := (sound_aux fp _).1 _ _ _ hv
        obtain ⟨w', e4, e5, -⟩ := skipWs_spec r
        split at h
        · rename_i e6
          cases h
          rw [e6, List.append_nil] at e4
          exact ⟨w, p, r, by rw [e1, e3], e2, by rw [e4]; exact e5, hp⟩
        · cases h
  · rintro ⟨w, v, w', rfl, hw, hw', hv⟩
    rw [skip_value hv hw]
    obtain ⟨c, t, e, -⟩ := value_head hv
    have hp := value_complete hv w' (by have := sep_ws hw' sep_nil; rwa [List.append_nil] at this) (2 * (v ++ w').length + 1)
      (by rw [List.length_append]; omega)
    have hs : skipWs w' = [] := by have := skipWs_append hw' []; rwa [List.append_nil] at this
    rw [e] at hp ⊢
    simp only [List.cons_append] at hp ⊢
    rw [hp]
    simp only [hs]

theorem cString_eq {s : Str} (hs : '\x00' ∉ s) : cString s = s := by
  unfold cString
  induction s with
  | nil => rfl
  | cons c s ih =>
    have hc : c ≠ '\x00' := fun h => hs (by simp [h])
    rw [List.takeWhile_cons_of_pos (by simpa using hc), ih (fun h => hs (by simp [h]))]

/-- The grammar is not ambiguous. -/
theorem isText_unique {fp : Fp} {s : Str} {j j' : J} (hs : '\x00' ∉ s) (h : IsText fp s j) (h' : IsText fp s j') : j = j' := by
  have e := cString_eq hs
  have a := (parseText_iff fp s j).2 (by rw [e]; exact h)
  have b := (parseText_iff fp s j').2 (by rw [e]; exact h')
  rw [a] at b
  exact Option.some.inj b

end Current.Json
