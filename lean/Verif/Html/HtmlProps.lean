import Verif.Html.Html
/-!
What holds for the HTML that is generated (C119).
-/

set_option linter.unusedSimpArgs false

namespace Current.Html

/-! ### Specification: balanced HTML, character by character -/

inductive Mode where
  | text
  /-- After `<`. -/
  | lt
  /-- In the name of a tag that is opened. -/
  | name (n : Str)
  /-- After the name. -/
  | attrs (n : Str)
  /-- Between quotes. -/
  | quoted (n : Str)
  /-- In the name of a tag that is closed. -/
  | close (n : Str)
  deriving DecidableEq, Repr

/-- Elements that have no closing tag. -/
def isVoid (n : Str) : Bool := ["area", "base", "br", "col", "embed", "hr", "img", "input", "link", "meta", "source", "track", "wbr"].map String.toList |>.contains n

/-- The tags that are open, the innermost first. -/
def opened (n : Str) (stack : List Str) : List Str := if isVoid n then stack else n :: stack

/-- One character. `none`: a tag is closed that is not the innermost one. -/
def scan1 : Option (Mode × List Str) → Char → Option (Mode × List Str)
  | none, _ => none
  | some (.text, st), c => if c = '<' then some (.lt, st) else some (.text, st)
  | some (.lt, st), c => if c = '/' then some (.close [], st) else some (.name [c], st)
  | some (.name n, st), c => if c = '>' then some (.text, opened n st) else if c = ' ' then some (.attrs n, st) else some (.name (n ++ [c]), st)
  | some (.attrs n, st), c => if c = '>' then some (.text, opened n st) else if c = '\'' then some (.quoted n, st) else some (.attrs n, st)
  | some (.quoted n, st), c => if c = '\'' then some (.attrs n, st) else some (.quoted n, st)
  | some (.close n, st), c => if c = '>' then (match st with | m :: st => if m = n then some (.text, st) else none | [] => none) else some (.close (n ++ [c]), st)

def scan (a : Option (Mode × List Str)) (s : Str) : Option (Mode × List Str) := s.foldl scan1 a

/-- Every tag that is opened is closed, in the right order. -/
def Balanced (s : Str) : Prop := scan (some (.text, [])) s = some (.text, [])

/-! ### Which programs -/

structure NameOk (n : Str) : Prop where
  ne : n ≠ []
  first : n.head? ≠ some '/'
  chars : ∀ c ∈ n, c ≠ '>' ∧ c ≠ ' '

/-- Attribute names and values without quotes (values are not escaped). -/
def AttrsOk (as : List (Str × Str)) : Prop := ∀ a ∈ as, (∀ c ∈ a.1, c ≠ '\'' ∧ c ≠ '>') ∧ ∀ c ∈ a.2, c ≠ '\''

/-- Texts without tags, tags with proper names. -/
def Clean : Prog → Prop
  | .done | .throw_ => True
  | .text t rest => (∀ c ∈ t, c ≠ '<') ∧ Clean rest
  | .void n as rest => NameOk n ∧ isVoid n = true ∧ AttrsOk as ∧ Clean rest
  | .tag n as rest => NameOk n ∧ isVoid n = false ∧ AttrsOk as ∧ Clean rest
  | .block b rest | .try_ b rest => Clean b ∧ Clean rest
  | .scope _ rest | .http _ rest => Clean rest

/-! ### Scanning what is written -/

theorem scan_append (a : Option (Mode × List Str)) (s t : Str) : scan a (s ++ t) = scan (scan a s) t := by simp [scan, List.foldl_append]
theorem scan_cons (a : Option (Mode × List Str)) (c : Char) (t : Str) : scan a (c :: t) = scan (scan1 a c) t := rfl
theorem scan_nil (a : Option (Mode × List Str)) : scan a [] = a := rfl

theorem scan_text {t : Str} {st : List Str} (h : ∀ c ∈ t, c ≠ '<') : scan (some (.text, st)) t = some (.text, st) := by
  induction t with
  | nil => rfl
  | cons c t ih => rw [scan_cons, scan1, if_neg (h c (by simp)), ih fun d hd => h d (by simp [hd])]

theorem scan_name {n m : Str} {st : List Str} (h : ∀ c ∈ n, c ≠ '>' ∧ c ≠ ' ') : scan (some (.name m, st)) n = some (.name (m ++ n), st) := by
  induction n generalizing m with
  | nil => simp [scan_nil]
  | cons c n ih =>
    obtain ⟨h1, h2⟩ := h c (by simp)
    rw [scan_cons, scan1, if_neg h1, if_neg h2, ih fun d hd => h d (by simp [hd])]
    simp

theorem scan_close {n m : Str} {st : List Str} (h : ∀ c ∈ n, c ≠ '>' ∧ c ≠ ' ') : scan (some (.close m, st)) n = some (.close (m ++ n), st) := by
  induction n generalizing m with
  | nil => simp [scan_nil]
  | cons c n ih =>
    obtain ⟨h1, h2⟩ := h c (by simp)
    have e : scan1 (some (.close m, st)) c = some (.close (m ++ [c]), st) := by simp [scan1, h1]
    rw [scan_cons, e, ih fun d hd => h d (by simp [hd])]
    simp

theorem scan_quoted {t n : Str} {st : List Str} (h : ∀ c ∈ t, c ≠ '\'') : scan (some (.quoted n, st)) t = some (.quoted n, st) := by
  induction t with
  | nil => rfl
  | cons c t ih => rw [scan_cons, scan1, if_neg (h c (by simp)), ih fun d hd => h d (by simp [hd])]

theorem scan_attrName {t n : Str} {st : List Str} (h : ∀ c ∈ t, c ≠ '\'' ∧ c ≠ '>') : scan (some (.attrs n, st)) t = some (.attrs n, st) := by
  induction t with
  | nil => rfl
  | cons c t ih =>
    obtain ⟨h1, h2⟩ := h c (by simp)
    have e : scan1 (some (.attrs n, st)) c = some (.attrs n, st) := by simp [scan1, h1, h2]
    rw [scan_cons, e, ih fun d hd => h d (by simp [hd])]

/-- After the name of a tag, or after attributes of it. -/
def InTag (n : Str) (a : Mode) : Prop := a = .name n ∨ a = .attrs n

theorem scan_attr {a : Str × Str} {n : Str} {st : List Str} {md : Mode} (hm : InTag n md) (h : (∀ c ∈ a.1, c ≠ '\'' ∧ c ≠ '>') ∧ ∀ c ∈ a.2, c ≠ '\'') :
    ∃ md', InTag n md' ∧ scan (some (md, st)) (attrText a) = some (md', st) := by
  simp only [attrText]
  split
  · exact ⟨md, hm, rfl⟩
  · refine ⟨.attrs n, Or.inr rfl, ?_⟩
    have h1 : scan1 (some (md, st)) ' ' = some (.attrs n, st) := by
      have e1 : (' ' : Char) ≠ '>' := by decide
      have e2 : (' ' : Char) ≠ '\'' := by decide
      rcases hm with rfl | rfl <;> simp [scan1, e1, e2]
    have h2 : scan1 (some (.attrs n, st)) '=' = some (.attrs n, st) := by
      have e1 : ('=' : Char) ≠ '>' := by decide
      have e2 : ('=' : Char) ≠ '\'' := by decide
      simp [scan1, e1, e2]
    have h3 : scan1 (some (.attrs n, st)) '\'' = some (.quoted n, st) := by
      have e1 : ('\'' : Char) ≠ '>' := by decide
      simp [scan1, e1]
    have h4 : scan1 (some (.quoted n, st)) '\'' = some (.attrs n, st) := by simp [scan1]
    have e : (' ' :: a.1 ++ '=' :: '\'' :: a.2 ++ ['\'']) = ' ' :: (a.1 ++ ('=' :: '\'' :: (a.2 ++ ['\'']))) := by simp
    rw [e, scan_cons, h1, scan_append, scan_attrName h.1, scan_cons, h2, scan_cons, h3, scan_append, scan_quoted h.2, scan_cons, h4, scan_nil]

theorem scan_attrs {as : List (Str × Str)} {n : Str} {st : List Str} : ∀ {md : Mode}, InTag n md → AttrsOk as →
    ∃ md', InTag n md' ∧ scan (some (md, st)) (as.flatMap attrText) = some (md', st) := by
  induction as with
  | nil => intro md hm _; exact ⟨md, hm, rfl⟩
  | cons a as ih =>
    intro md hm h
    obtain ⟨m1, h1, h2⟩ := scan_attr (st := st) hm (h a (by simp))
    obtain ⟨m2, h3, h4⟩ := ih h1 fun b hb => h b (by simp [hb])
    exact ⟨m2, h3, by rw [List.flatMap_cons, scan_append, h2, h4]⟩

theorem scan_openTag {n : Str} {as : List (Str × Str)} {st : List Str} (hn : NameOk n) (ha : AttrsOk as) : scan (some (.text, st)) (openTag n as) = some (.text, opened n st) := by
  obtain ⟨h1, h2, h3⟩ := hn
  obtain ⟨c, n, rfl⟩ := List.exists_cons_of_ne_nil h1
  have hc : c ≠ '/' := by simpa using h2
  have e : openTag (c :: n) as = '<' :: c :: (n ++ (as.flatMap attrText ++ ['>'])) := by simp [openTag]
  have s1 : scan1 (some (.text, st)) '<' = some (.lt, st) := by simp [scan1]
  have s2 : scan1 (some (.lt, st)) c = some (.name [c], st) := by simp [scan1, hc]
  obtain ⟨md, m1, m2⟩ := scan_attrs (st := st) (n := c :: n) (md := .name (c :: n)) (Or.inl rfl) ha
  have s3 : scan1 (some (md, st)) '>' = some (.text, opened (c :: n) st) := by rcases m1 with rfl | rfl <;> simp [scan1]
  rw [e, scan_cons, s1, scan_cons, s2, scan_append, scan_name fun d hd => h3 d (by simp [hd]), List.singleton_append, scan_append, m2, scan_cons, s3, scan_nil]

theorem scan_closeTag {n : Str} {st : List Str} (hn : NameOk n) : scan (some (.text, n :: st)) (closeTag n) = some (.text, st) := by
  have e : closeTag n = '<' :: '/' :: (n ++ ['>']) := by simp [closeTag]
  have s1 : scan1 (some (.text, n :: st)) '<' = some (.lt, n :: st) := by simp [scan1]
  have s2 : scan1 (some (.lt, n :: st)) '/' = some (.close [], n :: st) := by simp [scan1]
  have s3 : scan1 (some (.close n, n :: st)) '>' = some (.text, st) := by simp [scan1]
  rw [e, scan_cons, s1, scan_cons, s2, scan_append, scan_close hn.chars, List.nil_append, scan_cons, s3, scan_nil]

/-! ### The active scope -/

/-- C119. Whatever a block does and however it ends, the active scope is the one before, and no scope finds another one in its place. -/
theorem scope_restored (p : Prog) : ∀ s, (exec p s).2.active = s.active ∧ (exec p s).2.internalError = s.internalError ∧ s.next ≤ (exec p s).2.next := by
  induction p with
  | done | throw_ => intro s; simp [exec]
  | text t rest ih | void n as rest ih =>
    intro s
    simp only [exec]
    split
    · simp
    · exact ih _
  | tag n as rest ih =>
    intro s
    simp only [exec]
    split
    · simp
    · rename_i g h; exact ih (s.write g (openTag n as))
  | block b rest ihb ihr =>
    intro s
    obtain ⟨b1, b2, b3⟩ := ihb s
    simp only [exec]
    split
    · obtain ⟨r1, r2, r3⟩ := ihr (exec b s).2
      exact ⟨r1.trans b1, r2.trans b2, Nat.le_trans b3 r3⟩
    · exact ⟨b1, b2, b3⟩
  | try_ b rest ihb ihr =>
    intro s
    obtain ⟨b1, b2, b3⟩ := ihb s
    obtain ⟨r1, r2, r3⟩ := ihr (exec b s).2
    exact ⟨r1.trans b1, r2.trans b2, Nat.le_trans b3 r3⟩
  | scope j rest ih =>
    intro s
    simp only [exec]
    split
    · simp
    · rename_i h
      obtain ⟨r1, r2, r3⟩ := ih (s.register (.os j))
      have hr : (exec rest (s.register (.os j))).2.active.map Prod.fst = some s.next := by rw [r1]; rfl
      refine ⟨?_, ?_, ?_⟩ <;> simp only [St.unregister, hr, if_true]
      · exact h.symm
      · exact r2
      · simp only [St.register] at r3 ⊢; omega
  | http k rest ih =>
    intro s
    simp only [exec]
    split
    · simp [St.ev]
    · rename_i h
      obtain ⟨r1, r2, r3⟩ := ih ((s.ev (.took k)).register (.http s.next))
      have hr : (exec rest ((s.ev (.took k)).register (.http s.next))).2.active.map Prod.fst = some s.next := by rw [r1]; rfl
      refine ⟨?_, ?_, ?_⟩ <;> simp only [St.unregister, hr, if_true]
      · exact h.symm
      · exact r2
      · simp only [St.register, St.ev] at r3 ⊢; omega

/-! ### The requests -/

def tookOf (k : Nat) (l : List Ev) : Nat := l.countP fun | .took j => decide (j = k) | _ => false
def answersOf (k : Nat) (l : List Ev) : Nat := l.countP fun | .answered j _ _ => decide (j = k) | _ => false

/-- C119. A request that is given to a scope is answered exactly once, whatever happens. -/
theorem answered_once (k : Nat) (p : Prog) : ∀ s, tookOf k s.log = answersOf k s.log → tookOf k (exec p s).2.log = answersOf k (exec p s).2.log := by
  have key : ∀ s, tookOf k (exec p s).2.log + answersOf k s.log = answersOf k (exec p s).2.log + tookOf k s.log := by
    induction p with
    | done | throw_ => intro s; simp only [exec]; omega
    | text t rest ih | void n as rest ih =>
      intro s
      simp only [exec]
      split
      · dsimp only; omega
      · exact ih _
    | tag n as rest ih =>
      intro s
      simp only [exec]
      split
      · dsimp only; omega
      · rename_i g h; exact ih (s.write g (openTag n as))
    | block b rest ihb ihr =>
      intro s
      have hb := ihb s
      simp only [exec]
      split
      · have hr := ihr (exec b s).2; omega
      · exact hb
    | try_ b rest ihb ihr =>
      intro s
      have hb := ihb s
      have hr := ihr (exec b s).2
      simp only [exec]; omega
    | scope j rest ih =>
      intro s
      simp only [exec]
      split
      · dsimp only; omega
      · have := ih (s.register (.os j))
        simp only [St.unregister]
        split <;> exact this
    | http j rest ih =>
      intro s
      simp only [exec]
      split
      · simp only [St.ev, tookOf, answersOf, List.countP_cons]; split <;> split <;> simp_all <;> omega
      · have := ih ((s.ev (.took j)).register (.http s.next))
        simp only [St.unregister]
        split <;> simp only [St.ev, St.register, tookOf, answersOf, List.countP_cons] at this ⊢ <;> split <;> simp_all <;> omega
  intro s h
  have := key s
  omega

/-! ### What is written -/

/-- The buffers of scopes that do not exist yet are empty; the active scope exists; complete answers are balanced. -/
structure Inv (s : St) : Prop where
  fresh : ∀ id, s.next ≤ id → s.content (.http id) = []
  act : ∀ id k, s.active = some (id, .http k) → k < s.next
  sent : ∀ k body, Ev.answered k 200 body ∈ s.log → Balanced body

/-- Not the buffer of a scope that does not exist yet. -/
def Live (s : St) : Target → Prop
  | .os _ => True
  | .http id => id < s.next

def scanOf (s : St) (g : Target) : Option (Mode × List Str) := scan (some (.text, [])) (s.content g)

theorem scanOf_write_same (s : St) (g : Target) (t : Str) : scanOf (s.write g t) g = scan (scanOf s g) t := by
  simp [scanOf, St.write, scan_append]

theorem scanOf_write_other (s : St) {g g' : Target} (t : Str) (h : g' ≠ g) : scanOf (s.write g t) g' = scanOf s g' := by
  simp [scanOf, St.write, h]

theorem live_mono {s s' : St} {g : Target} (h : s.next ≤ s'.next) (hl : Live s g) : Live s' g := by
  cases g with
  | os j => trivial
  | http id => exact Nat.lt_of_lt_of_le hl h

theorem inv_write {s : St} {g : Target} {t : Str} (hi : Inv s) (hg : Live s g) : Inv (s.write g t) := by
  obtain ⟨i1, i2, i3⟩ := hi
  refine ⟨fun id h => ?_, i2, i3⟩
  have h : s.next ≤ id := h
  have : Target.http id ≠ g := by rintro rfl; simp only [Live] at hg; omega
  simp only [St.write, this, if_false]
  exact i1 id h

theorem Inv.live {s : St} (hi : Inv s) {id : Nat} {g : Target} (h : s.active = some (id, g)) : Live s g := by
  cases g with
  | os j => trivial
  | http k => exact hi.act id k h

/-- Every stream is left with the tags open that were open before. -/
def Keeps (s s' : St) : Prop := ∀ g st, Live s g → scanOf s g = some (.text, st) → scanOf s' g = some (.text, st)

theorem keeps_write {s : St} {g : Target} {t : Str} (h : ∀ st, scan (some (.text, st)) t = some (.text, st)) : Keeps s (s.write g t) := by
  intro g' st _ hs
  by_cases hg : g' = g
  · subst hg; rw [scanOf_write_same, hs, h]
  · rw [scanOf_write_other _ _ hg, hs]

theorem Keeps.trans {a b c : St} (hn : a.next ≤ b.next) (h1 : Keeps a b) (h2 : Keeps b c) : Keeps a c := fun g st hl hs => h2 g st (live_mono hn hl) (h1 g st hl hs)

/-- A block leaves every stream with the tags open that were open before it. -/
theorem exec_keeps (p : Prog) (hc : Clean p) : ∀ s, Inv s → Inv (exec p s).2 ∧ Keeps s (exec p s).2 := by
  induction p with
  | done | throw_ => intro s hi; exact ⟨hi, fun _ _ _ h => h⟩
  | text t rest ih =>
    intro s hi
    simp only [exec]
    split
    · exact ⟨hi, fun _ _ _ h => h⟩
    · rename_i id g h
      obtain ⟨r1, r2⟩ := ih hc.2 _ (inv_write (t := t) hi (hi.live h))
      exact ⟨r1, Keeps.trans (b := s.write g t) (Nat.le_refl _) (keeps_write fun st => scan_text hc.1) r2⟩
  | void n as rest ih =>
    intro s hi
    simp only [exec]
    split
    · exact ⟨hi, fun _ _ _ h => h⟩
    · rename_i id g h
      obtain ⟨r1, r2⟩ := ih hc.2.2.2 _ (inv_write (t := openTag n as) hi (hi.live h))
      refine ⟨r1, Keeps.trans (b := s.write g (openTag n as)) (Nat.le_refl _) (keeps_write fun st => ?_) r2⟩
      rw [scan_openTag hc.1 hc.2.2.1, opened, if_pos hc.2.1]
  | tag n as rest ih =>
    intro s hi
    simp only [exec]
    split
    · exact ⟨hi, fun _ _ _ h => h⟩
    · rename_i id g h
      have hl := hi.live h
      obtain ⟨r1, r2⟩ := ih hc.2.2.2 _ (inv_write (t := openTag n as) hi hl)
      have hn := (scope_restored rest (s.write g (openTag n as))).2.2
      refine ⟨inv_write r1 (live_mono hn hl), ?_⟩
      intro g' st hl' hs
      by_cases hg : g' = g
      · subst hg
        have h1 : scanOf (s.write g' (openTag n as)) g' = some (.text, n :: st) := by
          rw [scanOf_write_same, hs, scan_openTag hc.1 hc.2.2.1, opened, if_neg (by simp [hc.2.1])]
        rw [scanOf_write_same, r2 g' _ hl' h1, scan_closeTag hc.1]
      · rw [scanOf_write_other _ _ hg]
        exact r2 g' st hl' (by rw [scanOf_write_other _ _ hg]; exact hs)
  | block b rest ihb ihr =>
    intro s hi
    obtain ⟨b1, b2⟩ := ihb hc.1 s hi
    simp only [exec]
    split
    · obtain ⟨r1, r2⟩ := ihr hc.2 _ b1
      exact ⟨r1, b2.trans (scope_restored b s).2.2 r2⟩
    · exact ⟨b1, b2⟩
  | try_ b rest ihb ihr =>
    intro s hi
    obtain ⟨b1, b2⟩ := ihb hc.1 s hi
    obtain ⟨r1, r2⟩ := ihr hc.2 _ b1
    exact ⟨r1, b2.trans (scope_restored b s).2.2 r2⟩
  | scope j rest ih =>
    intro s hi
    simp only [exec]
    split
    · exact ⟨hi, fun _ _ _ h => h⟩
    · rename_i h
      have hi' : Inv (s.register (.os j)) := ⟨fun id h => hi.fresh id (by simp only [St.register] at h; omega), fun id k h => by simp [St.register] at h, hi.sent⟩
      obtain ⟨⟨a1, a2, a3⟩, r2⟩ := ih hc _ hi'
      have hr := (scope_restored rest (s.register (.os j))).1
      have hr : (exec rest (s.register (.os j))).2.active.map Prod.fst = some s.next := by rw [hr]; rfl
      simp only [St.unregister, hr, if_true]
      refine ⟨⟨a1, fun id k h => by simp at h, a3⟩, fun g st hl hs => r2 g st (live_mono (by simp [St.register]) hl) hs⟩
  | http k rest ih =>
    intro s hi
    simp only [exec]
    split
    · refine ⟨⟨hi.fresh, hi.act, ?_⟩, fun _ _ _ h => h⟩
      intro j body h
      simp [St.ev] at h
      exact hi.sent j body h
    · rename_i h
      have hi' : Inv ((s.ev (.took k)).register (.http s.next)) := by
        refine ⟨fun id h => hi.fresh id (by simp only [St.register, St.ev] at h; omega), fun id j h => ?_, fun j body h => ?_⟩
        · simp [St.register, St.ev] at h; simp only [St.register, St.ev]; omega
        · simp [St.ev, St.register] at h; exact hi.sent j body h
      obtain ⟨⟨a1, a2, a3⟩, r2⟩ := ih hc _ hi'
      have hr := (scope_restored rest ((s.ev (.took k)).register (.http s.next))).1
      have hr : (exec rest ((s.ev (.took k)).register (.http s.next))).2.active.map Prod.fst = some s.next := by rw [hr]; rfl
      have hb : scanOf (exec rest ((s.ev (.took k)).register (.http s.next))).2 (.http s.next) = some (.text, []) := by
        refine r2 _ _ (by simp [Live, St.register, St.ev]) ?_
        have : ((s.ev (.took k)).register (.http s.next)).content (.http s.next) = [] := hi.fresh s.next (Nat.le_refl _)
        simp [scanOf, this, scan_nil]
      simp only [St.unregister, hr, if_true]
      refine ⟨⟨a1, fun id k h => by simp [St.ev] at h, ?_⟩, fun g st hl hs => r2 g st (live_mono (by simp [St.register, St.ev]) hl) hs⟩
      intro j body h
      simp only [St.ev, List.mem_cons, Ev.answered.injEq, true_and] at h
      rcases h with ⟨rfl, rfl⟩ | h
      · exact hb
      · exact a3 j body h

/-- C119. Whatever a program does, with any exceptions, caught or not: every stream that held balanced HTML holds balanced HTML at the end, and every page sent is balanced. -/
theorem html_balanced (p : Prog) (hc : Clean p) (s : St) (hi : Inv s) :
    (∀ j, Balanced (s.content (.os j)) → Balanced ((exec p s).2.content (.os j))) ∧ (∀ k body, Ev.answered k 200 body ∈ (exec p s).2.log → Balanced body) := by
  obtain ⟨h1, h2⟩ := exec_keeps p hc s hi
  exact ⟨fun j h => h2 (.os j) [] trivial h, h1.sent⟩

theorem inv_start : Inv {} := ⟨fun _ _ => rfl, fun _ _ h => by simp at h, fun _ _ h => by simp at h⟩

/-! ### Exactly what is written -/

/-- No scopes. -/
def Calm : Prog → Prop
  | .done | .throw_ => True
  | .text _ rest | .void _ _ rest | .tag _ _ rest => Calm rest
  | .block b rest | .try_ b rest => Calm b ∧ Calm rest
  | .scope _ _ | .http _ _ => False

/-- The page, and whether an exception is thrown: a tag contains what follows in the same block, and is closed in any case; nothing is written between an exception and its handler. -/
def page : Prog → Str × Bool
  | .done => ([], false)
  | .throw_ => ([], true)
  | .text t rest => (t ++ (page rest).1, (page rest).2)
  | .void n as rest => (openTag n as ++ (page rest).1, (page rest).2)
  | .tag n as rest => (openTag n as ++ (page rest).1 ++ closeTag n, (page rest).2)
  | .block b rest => if (page b).2 then page b else ((page b).1 ++ (page rest).1, (page rest).2)
  | .try_ b rest => ((page b).1 ++ (page rest).1, (page rest).2)
  | .scope _ _ | .http _ _ => ([], false)

/-- C119. A block that declares no scopes writes its page into the active scope, and nothing else; an exception that is thrown and not caught leaves it. -/
theorem writes_page (p : Prog) (hp : Calm p) : ∀ s id g, s.active = some (id, g) → exec p s = (if (page p).2 then some .user else none, s.write g (page p).1) := by
  have w0 : ∀ (s : St) g, s.write g [] = s := by
    intro s g
    have : (fun g' => if g' = g then s.content g ++ [] else s.content g') = s.content := by
      funext g'; split <;> simp_all
    simp only [St.write, this]
  have ww : ∀ (s : St) g a b, (s.write g a).write g b = s.write g (a ++ b) := by
    intro s g a b
    simp only [St.write]
    congr 1
    funext g'; split <;> simp_all
  induction p with
  | done => intro s id g h; simp [exec, page, w0]
  | throw_ => intro s id g h; simp [exec, page, w0]
  | text t rest ih => intro s id g h; simp only [exec, h]; rw [ih hp _ id g (by exact h), ww]; rfl
  | void n as rest ih => intro s id g h; simp only [exec, h]; rw [ih hp _ id g (by exact h), ww]; rfl
  | tag n as rest ih => intro s id g h; simp only [exec, h]; rw [ih hp _ id g (by exact h), ww, ww]; simp [page]
  | block b rest ihb ihr =>
    intro s id g h
    simp only [exec]
    rw [ihb hp.1 s id g h]
    cases hb : (page b).2 with
    | true => simp [page, hb]
    | false =>
      simp only [page, hb, Bool.false_eq_true, if_false]
      rw [ihr hp.2 _ id g (by exact h), ww]
  | try_ b rest ihb ihr => intro s id g h; simp only [exec]; rw [ihb hp.1 s id g h]; dsimp only; rw [ihr hp.2 _ id g (by exact h), ww]; rfl
  | scope | http => exact hp.elim

/-- C119. And in a scope of its own: the page goes to the stream, or is the answer to the request; the exception leaves the scope. -/
theorem scope_writes_page (p : Prog) (hp : Calm p) (s : St) (h : s.active = none) :
    (∀ j, (exec (.scope j p) s).1 = (if (page p).2 then some .user else none) ∧ (exec (.scope j p) s).2.content (.os j) = s.content (.os j) ++ (page p).1) ∧
    (∀ k, s.content (.http s.next) = [] → (exec (.http k p) s).1 = (if (page p).2 then some .user else none) ∧
      (exec (.http k p) s).2.log = .answered k 200 (page p).1 :: .took k :: s.log) := by
  constructor
  · intro j
    simp only [exec, h]
    rw [writes_page p hp (s.register (.os j)) s.next (.os j) rfl]
    refine ⟨rfl, ?_⟩
    simp only [St.unregister]
    split <;> simp [St.write, St.register]
  · intro k hk
    simp only [exec, h]
    rw [writes_page p hp ((s.ev (.took k)).register (.http s.next)) s.next (.http s.next) rfl]
    refine ⟨rfl, ?_⟩
    simp only [St.unregister]
    split <;> simp [St.write, St.register, St.ev, hk]

/-- C119. Without a scope nothing can be written; inside a scope no other can be opened: the attempt throws, and changes nothing. -/
theorem misuse_throws (s : St) (rest : Prog) :
    (s.active = none → (∀ t, exec (.text t rest) s = (some .noScope, s)) ∧ (∀ n as, exec (.tag n as rest) s = (some .noScope, s)) ∧ ∀ n as, exec (.void n as rest) s = (some .noScope, s)) ∧
    (s.active ≠ none → (∀ j, exec (.scope j rest) s = (some .intersecting, s)) ∧
      ∀ k, (exec (.http k rest) s).1 = some .intersecting ∧ (exec (.http k rest) s).2.content = s.content ∧ (exec (.http k rest) s).2.log = .answered k 500 [] :: .took k :: s.log) := by
  constructor
  · intro h; simp [exec, h]
  · intro h
    cases ha : s.active with
    | none => exact absurd ha h
    | some x => simp [exec, ha, St.ev]

/-! ### Examples -/

def s2l (s : String) : Str := s.toList

/-- A page, whose generation fails in the middle: the request is answered with what there is, and the tags are closed. -/
def demo : Prog :=
  .try_ (.http 7 (.tag (s2l "html") [] (.block (.tag (s2l "p") [] (.text (s2l "hi") (.void (s2l "br") [] .done))) (.tag (s2l "a") [(s2l "href", s2l "/x")] (.try_ (.http 8 .done) .throw_)))))
  (.scope 0 (.tag (s2l "b") [] (.text (s2l "done") .done)))

example : (exec demo {}).1 = none ∧ (exec demo {}).2.content (.os 0) = s2l "<b>done</b>" ∧
    (exec demo {}).2.log.reverse = [.took 7, .took 8, .answered 8 500 [], .answered 7 200 (s2l "<html><p>hi<br></p><a href='/x'></a></html>")] := by decide +kernel

theorem demo_clean : Clean demo := by
  have n1 : ∀ n : String, (n.toList ≠ [] ∧ n.toList.head? ≠ some '/' ∧ n.toList.all (fun c => c ≠ '>' ∧ c ≠ ' ') = true) → NameOk (s2l n) := by
    rintro n ⟨a, b, c⟩
    exact ⟨a, b, fun d hd => by simpa using List.all_eq_true.mp c d hd⟩
  refine ⟨⟨n1 "html" (by decide), by decide, by simp [AttrsOk], ⟨n1 "p" (by decide), by decide, by simp [AttrsOk], by decide, n1 "br" (by decide), by decide, by simp [AttrsOk], trivial⟩,
    n1 "a" (by decide), by decide, ?_, trivial, trivial⟩, n1 "b" (by decide), by decide, by simp [AttrsOk], by decide, trivial⟩
  intro a ha
  simp only [List.mem_singleton] at ha
  subst ha
  decide

/-- Attribute values are not escaped: a quote in one breaks out of the tag. -/
theorem attributes_not_escaped : let p := Prog.scope 0 (.tag (s2l "a") [(s2l "href", s2l "'><b>")] .done)
    (exec p {}).2.content (.os 0) = s2l "<a href=''><b>'></a>" ∧ ¬ Balanced ((exec p {}).2.content (.os 0)) := by
  constructor
  · decide +kernel
  · unfold Balanced; decide +kernel

end Current.Html
