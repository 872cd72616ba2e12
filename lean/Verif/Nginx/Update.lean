import Verif.Nginx.ConfigBuild

/-!
# `NginxManager::UpdateConfig` (utils/nginx/nginx.h 101-167), C122

The call adds a location with a secret path and a secret answer to the server, writes the file,
tells nginx to reload, and polls the secret location until nginx gives the secret answer.

What nginx, the file system and the network do is a parameter (`Env`): any behaviour at all.
-/

set_option linter.unusedSimpArgs false

namespace Current.Nginx

open Current.Persist

/-- `NginxManagerMagicNumbers` (nginx.h 93-101). -/
structure Magic where
  endpoint : Str
  answer : Str
deriving DecidableEq, Repr

/-- The `ServerDirective` given to `UpdateConfig`: its port, and what is inside. -/
structure Server where
  port : Nat
  kids : Conf
deriving DecidableEq, Repr

/-- `directive.CreateLocation("/" + endpoint).Add(SimpleDirective("return", "200 \"…\""))`
(nginx.h 120-121). -/
def Server.withMagic (d : Server) (m : Magic) : Server :=
  { d with kids := d.kids.append (location ('/' :: m.endpoint)
      (.simple "return".toList ("200 \"".toList ++ m.answer ++ ['"']) .nil)) }

/-- `ConfigPrinter::AsString(directive)` (nginx.h 123). -/
def Server.text (d : Server) : Str :=
  (Conf.block (.server d.port) "server".toList [] d.kids .nil).print 0

/-- One poll: the configuration nginx is running when it answers, and the answer: code and body, or
a `NetworkException`. -/
structure Poll where
  live : List Item
  answer : Option (Nat × Str)

/-- What happens around a call: whether the file can be written, whether `nginx -s reload` succeeds,
and what each poll gives. -/
structure Env where
  writeOK : Bool
  reloadOK : Bool
  poll : Nat → Poll

/-- How a call ends: it returns after so many failed polls, throws, or ends the process. -/
inductive Outcome where
  | returned (failed : Nat)
  | cannotWrite
  | reloadFailed
  | exited
deriving DecidableEq, Repr

/-- The number of polls: `update_retries` (nginx.h 134; with mock time it is 10, nginx.h 136). -/
def retries : Nat := 100

/-- The loop (nginx.h 144-155), with `left` attempts left, the next one being number `i`. -/
def pollLoop (env : Env) (m : Magic) : Nat → Nat → Outcome
  | 0, _ => .exited
  | left + 1, i =>
    match (env.poll i).answer with
    | some (code, body) => if code = 200 ∧ body = m.answer then .returned i else pollLoop env m left (i + 1)
    | none => pollLoop env m left (i + 1)

/-- What a call leaves behind. -/
structure After where
  outcome : Outcome
  /-- The text of the file, if this call has written it. -/
  file : Option Str
  /-- `magic_numbers_`. -/
  magic : Magic
  /-- The directive as the caller sees it afterwards. -/
  directive : Server
  /-- The text that was to be written. -/
  text : Str

/-- `UpdateConfig` (nginx.h 115-160).  `lvalue`: the argument is an lvalue, in which case
`SERVER_DIRECTIVE` is a reference and `directive` is the caller's object (nginx.h 118). -/
def update (env : Env) (d : Server) (lvalue : Bool) (m : Magic) : After :=
  let d' := d.withMagic m
  let seen := if lvalue then d' else d
  if env.writeOK = false then
    { outcome := .cannotWrite, file := none, magic := m, directive := seen, text := d'.text }
  else if env.reloadOK = false then
    { outcome := .reloadFailed, file := some d'.text, magic := m, directive := seen, text := d'.text }
  else
    { outcome := pollLoop env m retries 0, file := some d'.text, magic := m, directive := seen,
      text := d'.text }

/-! ## Words come from the text -/

/-- A word occurs in a list of directives. -/
inductive HasWord (w : Str) : List Item → Prop where
  | simple {ws is} : w ∈ ws → HasWord w (.simple ws :: is)
  | head {ws ks is} : w ∈ ws → HasWord w (.block ws ks :: is)
  | kids {ws ks is} : HasWord w ks → HasWord w (.block ws ks :: is)
  | rest {i is} : HasWord w is → HasWord w (i :: is)

/-- The characters of the word being read. -/
def Mode.pending : Mode → Str
  | .word acc => acc.reverse
  | .dq acc => acc.reverse
  | .sq acc => acc.reverse
  | _ => []

theorem infix_cons_of {w r : Str} (c : Char) (h : w <:+: r) : w <:+: c :: r :=
  h.trans (List.infix_cons (List.infix_refl r))

theorem lex_infix (m : Mode) (r : Str) (ts : List Tok) (w : Str) (h : lex m r = some ts)
    (hw : Tok.word w ∈ ts) : w <:+: m.pending ++ r := by
  induction r generalizing m ts with
  | nil =>
    cases m <;> simp [lex] at h <;> subst h <;> simp at hw
  | cons c r ih =>
    have key : ∀ (m' : Mode) (pre : List Tok), (∀ v, Tok.word v ∈ pre → v = m.pending) →
        m'.pending = [] → (lex m' r).map (pre ++ ·) = some ts → w <:+: m.pending ++ c :: r := by
      intro m' pre hpre hm' hl
      rw [Option.map_eq_some_iff] at hl
      obtain ⟨ts', ht, rfl⟩ := hl
      rcases List.mem_append.1 hw with h1 | h1
      · rw [hpre w h1]; exact (List.prefix_append _ _).isInfix
      · have := ih m' ts' ht h1
        rw [hm', List.nil_append] at this
        exact (infix_cons_of c this).trans (List.suffix_append _ _).isInfix
    have same : ∀ m' : Mode, (m'.pending ++ r) <:+: m.pending ++ c :: r → lex m' r = some ts →
        w <:+: m.pending ++ c :: r := fun m' hm' hl => (ih m' ts hl hw).trans hm'
    have tail : (r : Str) <:+: m.pending ++ c :: r :=
      (infix_cons_of c (List.infix_refl r)).trans (List.suffix_append _ _).isInfix
    cases m with
    | gap =>
      simp only [lex] at h
      repeat' split at h
      · exact same .gap (by simpa [Mode.pending] using tail) h
      · exact key .gap [.semicolon] (by simp) rfl h
      · exact key .gap [.opening] (by simp) rfl h
      · exact key .gap [.closing] (by simp) rfl h
      · exact same .comment (by simpa [Mode.pending] using tail) h
      · exact same (.dq []) (by simpa [Mode.pending] using tail) h
      · exact same (.sq []) (by simpa [Mode.pending] using tail) h
      · cases h
      · exact same (.word [c]) (by simp [Mode.pending]) h
    | word acc =>
      simp only [lex] at h
      repeat' split at h
      · exact key .gap [.word acc.reverse] (by simp [Mode.pending]) rfl h
      · exact key .gap [.word acc.reverse, .semicolon] (by simp [Mode.pending]) rfl h
      · exact key .gap [.word acc.reverse, .opening] (by simp [Mode.pending]) rfl h
      · cases h
      · exact same (.word (c :: acc)) (by simp [Mode.pending]) h
    | dq acc =>
      simp only [lex] at h
      repeat' split at h
      · exact key .quoted [.word acc.reverse] (by simp [Mode.pending]) rfl h
      · cases h
      · exact same (.dq (c :: acc)) (by simp [Mode.pending]) h
    | sq acc =>
      simp only [lex] at h
      repeat' split at h
      · exact key .quoted [.word acc.reverse] (by simp [Mode.pending]) rfl h
      · cases h
      · exact same (.sq (c :: acc)) (by simp [Mode.pending]) h
    | quoted =>
      simp only [lex] at h
      repeat' split at h
      · exact same .gap (by simpa [Mode.pending] using tail) h
      · exact key .gap [.semicolon] (by simp) rfl h
      · exact key .gap [.opening] (by simp) rfl h
      · cases h
    | comment =>
      simp only [lex] at h
      split at h
      · exact same .gap (by simpa [Mode.pending] using tail) h
      · exact same .comment (by simpa [Mode.pending] using tail) h

theorem hasWord_reverse {w : Str} {is : List Item} (h : HasWord w is) (pre : List Item) :
    HasWord w (is.reverse ++ pre) := by
  induction h generalizing pre with
  | @simple ws is hw =>
    rw [List.reverse_cons, List.append_assoc]
    induction is.reverse with
    | nil => exact .simple hw
    | cons a l ih => exact .rest ih
  | @head ws ks is hw =>
    rw [List.reverse_cons, List.append_assoc]
    induction is.reverse with
    | nil => exact .head hw
    | cons a l ih => exact .rest ih
  | @kids ws ks is hk _ =>
    rw [List.reverse_cons, List.append_assoc]
    induction is.reverse with
    | nil => exact .kids hk
    | cons a l ih => exact .rest ih
  | @rest i is _ ih =>
    rw [List.reverse_cons, List.append_assoc]
    exact ih _

theorem hasWord_of_reverse {w : Str} {is : List Item} (h : HasWord w is.reverse) : HasWord w is := by
  have := hasWord_reverse h []
  simpa using this

theorem parse_words_of (w : Str) (ts : List Tok) (ws : List Str) (items : List Item)
    (st : List (List Str × List Item)) (out : List Item) (h : parse ts ws items st = some out)
    (hw : HasWord w out) :
    Tok.word w ∈ ts ∨ w ∈ ws ∨ HasWord w items ∨ ∃ x ∈ st, w ∈ x.1 ∨ HasWord w x.2 := by
  induction ts generalizing ws items st with
  | nil =>
    simp only [parse] at h
    split at h
    · injection h with h
      subst h
      exact Or.inr (Or.inr (Or.inl (hasWord_of_reverse hw)))
    · cases h
  | cons t ts ih =>
    cases t with
    | word v =>
      simp only [parse] at h
      rcases ih _ _ _ h with h1 | h1 | h1 | h1
      · exact Or.inl (List.mem_cons_of_mem _ h1)
      · rcases List.mem_cons.1 h1 with rfl | h1
        · exact Or.inl List.mem_cons_self
        · exact Or.inr (Or.inl h1)
      · exact Or.inr (Or.inr (Or.inl h1))
      · exact Or.inr (Or.inr (Or.inr h1))
    | semicolon =>
      simp only [parse] at h
      split at h
      · cases h
      · rcases ih _ _ _ h with h1 | h1 | h1 | h1
        · exact Or.inl (List.mem_cons_of_mem _ h1)
        · simp at h1
        · cases h1 with
          | simple h2 => exact Or.inr (Or.inl (by simpa using h2))
          | rest h2 => exact Or.inr (Or.inr (Or.inl h2))
        · exact Or.inr (Or.inr (Or.inr h1))
    | opening =>
      simp only [parse] at h
      split at h
      · cases h
      · rcases ih _ _ _ h with h1 | h1 | h1 | ⟨x, hx, h1⟩
        · exact Or.inl (List.mem_cons_of_mem _ h1)
        · simp at h1
        · cases h1
        · rcases List.mem_cons.1 hx with rfl | hx
          · rcases h1 with h1 | h1
            · exact Or.inr (Or.inl (by simpa using h1))
            · exact Or.inr (Or.inr (Or.inl h1))
          · exact Or.inr (Or.inr (Or.inr ⟨x, hx, h1⟩))
    | closing =>
      simp only [parse] at h
      split at h
      case isFalse => cases h
      rename_i hws
      subst hws
      cases st with
      | nil => cases h
      | cons x st =>
        obtain ⟨bw, outer⟩ := x
        simp only at h
        rcases ih _ _ _ h with h1 | h1 | h1 | ⟨y, hy, h1⟩
        · exact Or.inl (List.mem_cons_of_mem _ h1)
        · simp at h1
        · cases h1 with
          | head h2 => exact Or.inr (Or.inr (Or.inr ⟨(bw, outer), by simp, Or.inl h2⟩))
          | kids h2 => exact Or.inr (Or.inr (Or.inl (hasWord_of_reverse h2)))
          | rest h2 => exact Or.inr (Or.inr (Or.inr ⟨(bw, outer), by simp, Or.inr h2⟩))
        · exact Or.inr (Or.inr (Or.inr ⟨y, List.mem_cons_of_mem _ hy, h1⟩))

/-- Every word nginx reads is in the text. -/
theorem read_infix {text : Str} {is : List Item} {w : Str} (h : read text = some is)
    (hw : HasWord w is) : w <:+: text := by
  simp only [read, Option.bind_eq_some_iff] at h
  obtain ⟨ts, h1, h2⟩ := h
  rcases parse_words_of w ts [] [] [] is h2 hw with h3 | h3 | h3 | ⟨x, hx, _⟩
  · simpa [Mode.pending] using lex_infix .gap text ts w h1 h3
  · simp at h3
  · cases h3
  · simp at hx

/-! ## Theorems -/

/-- The location that was added. -/
def magicItem (m : Magic) : Item :=
  .block ["location".toList, '/' :: m.endpoint]
    [.simple ["return".toList, "200".toList, m.answer]]

/-- Letters and digits only: SHA256 in hexadecimal. -/
def Alnum (s : Str) : Prop := s ≠ [] ∧ ∀ c ∈ s, c.isAlphanum = true

theorem alnum_plain (c : Char) (h : c.isAlphanum = true) :
    isSpace c = false ∧ c ≠ ';' ∧ c ≠ '{' ∧ c ≠ '\\' ∧ c ≠ '}' ∧ c ≠ '#' ∧ c ≠ '"' ∧ c ≠ '\'' := by
  refine ⟨?_, ?_, ?_, ?_, ?_, ?_, ?_, ?_⟩
  · rw [Bool.eq_false_iff]
    intro hs
    simp only [isSpace, Bool.or_eq_true, decide_eq_true_eq] at hs
    rcases hs with ((rfl | rfl) | rfl) | rfl <;> revert h <;> decide
  all_goals (rintro rfl; revert h; decide)

theorem means_withMagic {d : Server} {is : List Item} {m : Magic} (hd : Means d.kids is)
    (he : Alnum m.endpoint) (ha : Alnum m.answer) :
    Means (d.withMagic m).kids (is ++ [magicItem m]) := by
  refine means_append hd (.block (plain_of_all (by decide) (by decide)) (.plainEnd ?_)
    (.simple (plain_of_all (by decide) (by decide)) ?_ .nil) .nil)
  · refine plain_of_all (by simp) fun c hc => ?_
    rcases List.mem_cons.1 hc with rfl | hc
    · decide
    · exact alnum_plain c (he.2 c hc)
  · have e : "200 \"".toList ++ m.answer ++ ['"'] =
        "200".toList ++ ' ' :: ('"' :: m.answer ++ ['"']) := by simp
    rw [e]
    refine .plain (plain_of_all (by decide) (by decide)) rfl (.dqEnd fun c hc => ?_)
    have := alnum_plain c (ha.2 c hc)
    exact ⟨this.2.2.2.2.2.2.1, this.2.2.2.1⟩

/-- **The file written is the configuration given, plus the secret location**, as nginx reads
it. -/
theorem written_read {d : Server} {is : List Item} {m : Magic} (hd : Means d.kids is)
    (he : Alnum m.endpoint) (ha : Alnum m.answer) (env : Env) (lvalue : Bool) (text : Str)
    (hf : (update env d lvalue m).file = some text) :
    read text = some [.block ["server".toList] (is ++ [magicItem m])] := by
  have ht : text = (d.withMagic m).text := by
    simp only [update] at hf
    repeat' split at hf
    all_goals simp_all
  rw [ht]
  exact print_read (.block (plain_of_all (by decide) (by decide)) .nil
    (means_withMagic hd he ha) .nil) 0

theorem pollLoop_returned (env : Env) (m : Magic) (left i k : Nat)
    (h : pollLoop env m left i = .returned k) :
    i ≤ k ∧ k < i + left ∧ (env.poll k).answer = some (200, m.answer) ∧
      ∀ j, i ≤ j → j < k → (env.poll j).answer ≠ some (200, m.answer) := by
  induction left generalizing i with
  | zero => simp [pollLoop] at h
  | succ left ih =>
    have step : (env.poll i).answer ≠ some (200, m.answer) → pollLoop env m left (i + 1) = .returned k →
        i ≤ k ∧ k < i + (left + 1) ∧ (env.poll k).answer = some (200, m.answer) ∧
        ∀ j, i ≤ j → j < k → (env.poll j).answer ≠ some (200, m.answer) := by
      intro hne hl
      obtain ⟨a, b, c, d⟩ := ih _ hl
      refine ⟨by omega, by omega, c, fun j hj hk => ?_⟩
      by_cases hji : j = i
      · subst hji; exact hne
      · exact d j (by omega) hk
    simp only [pollLoop] at h
    split at h
    · rename_i code body ha
      split at h
      · rename_i hc
        injection h with h
        subst h
        refine ⟨Nat.le_refl _, by omega, by rw [ha, hc.1, hc.2], fun j hj hk => by omega⟩
      · rename_i hc
        exact step (by rw [ha]; simp; intro h1 h2; exact hc ⟨h1, h2⟩) h
    · rename_i ha
      exact step (by rw [ha]; simp) h

theorem pollLoop_exited (env : Env) (m : Magic) (left i : Nat) :
    pollLoop env m left i = .exited ↔
      ∀ j, i ≤ j → j < i + left → (env.poll j).answer ≠ some (200, m.answer) := by
  induction left generalizing i with
  | zero => simp [pollLoop]; intro j h1 h2; omega
  | succ left ih =>
    have step : (env.poll i).answer ≠ some (200, m.answer) →
        (pollLoop env m left (i + 1) = .exited ↔
          ∀ j, i ≤ j → j < i + (left + 1) → (env.poll j).answer ≠ some (200, m.answer)) := by
      intro hne
      rw [ih]
      constructor
      · intro h j h1 h2
        by_cases hji : j = i
        · subst hji; exact hne
        · exact h j (by omega) (by omega)
      · intro h j h1 h2; exact h j (by omega) (by omega)
    simp only [pollLoop]
    split
    · rename_i code body ha
      split
      · rename_i hc
        constructor
        · intro h; cases h
        · intro h; exact absurd (by rw [ha, hc.1, hc.2]) (h i (Nat.le_refl _) (by omega))
      · rename_i hc
        exact step (by rw [ha]; simp; intro h1 h2; exact hc ⟨h1, h2⟩)
    · rename_i ha
      exact step (by rw [ha]; simp)

/-- nginx answers a request from its configuration: the secret answer is in the configuration it
runs when it gives that answer. -/
def Honest (env : Env) (m : Magic) : Prop :=
  ∀ i, (env.poll i).answer = some (200, m.answer) → HasWord m.answer (env.poll i).live

/-- nginx runs a configuration it has read from the file: what the file holds now, or what it held
before. -/
def Loaded (env : Env) (now : Str) (before : List Str) : Prop :=
  ∀ i, ∃ text ∈ now :: before, read text = some (env.poll i).live

/-- **When `UpdateConfig` returns, nginx runs the new configuration**: whatever nginx, the network
and the file system do, if the call returns then at the poll which ended it nginx was running
exactly the configuration given to the call, plus the secret location — provided the secret answer
occurs in no text the file held before. -/
theorem returned_live {d : Server} {is : List Item} {m : Magic} (hd : Means d.kids is)
    (he : Alnum m.endpoint) (ha : Alnum m.answer) {env : Env} {lvalue : Bool} {before : List Str}
    {k : Nat} (hr : (update env d lvalue m).outcome = .returned k) (hh : Honest env m)
    (hl : Loaded env (update env d lvalue m).text before)
    (hfresh : ∀ text ∈ before, ¬ m.answer <:+: text) :
    (env.poll k).live = [.block ["server".toList] (is ++ [magicItem m])] := by
  have hp : (env.poll k).answer = some (200, m.answer) := by
    simp only [update] at hr
    repeat' split at hr
    all_goals first | (cases hr; done) | exact (pollLoop_returned _ _ _ _ _ hr).2.2.1
  have hfile : (update env d lvalue m).file = some (update env d lvalue m).text := by
    simp only [update] at hr ⊢
    repeat' split at hr
    all_goals first | (cases hr; done) | simp_all
  obtain ⟨text, ht, hread⟩ := hl k
  rcases List.mem_cons.1 ht with rfl | ht
  · have := written_read hd he ha env lvalue _ hfile
    rw [hread] at this
    injection this
  · exact absurd (read_infix hread (hh k hp)) (hfresh text ht)

/-- **The call returns, throws or ends the process exactly as promised**: it throws
`CannotWriteConfigFileException` exactly when the file cannot be written, and
`NginxReloadConfigFailedException` exactly when it was written and the reload failed; otherwise it
returns at the first poll with the secret answer if that is among the first 100, and ends the
process if there is none. -/
theorem outcome_exact (env : Env) (d : Server) (lvalue : Bool) (m : Magic) :
    ((update env d lvalue m).outcome = .cannotWrite ↔ env.writeOK = false) ∧
    ((update env d lvalue m).outcome = .reloadFailed ↔ env.writeOK = true ∧ env.reloadOK = false) ∧
    ((update env d lvalue m).outcome = .exited ↔ env.writeOK = true ∧ env.reloadOK = true ∧
      ∀ j, j < 100 → (env.poll j).answer ≠ some (200, m.answer)) ∧
    (∀ k, (update env d lvalue m).outcome = .returned k ↔ env.writeOK = true ∧ env.reloadOK = true ∧
      k < 100 ∧ (env.poll k).answer = some (200, m.answer) ∧
      ∀ j, j < k → (env.poll j).answer ≠ some (200, m.answer)) := by
  have hno : ∀ left i, pollLoop env m left i ≠ .cannotWrite ∧ pollLoop env m left i ≠ .reloadFailed := by
    intro left
    induction left with
    | zero => intro i; simp [pollLoop]
    | succ left ih => intro i; simp only [pollLoop]; repeat' split <;> simp [ih]
  have hex := pollLoop_exited env m retries 0
  have hret : ∀ k, pollLoop env m retries 0 = .returned k ↔ k < 100 ∧
      (env.poll k).answer = some (200, m.answer) ∧
      ∀ j, j < k → (env.poll j).answer ≠ some (200, m.answer) := by
    intro k
    constructor
    · intro h
      obtain ⟨a, b, c, d⟩ := pollLoop_returned _ _ _ _ _ h
      exact ⟨by simpa [retries] using b, c, fun j hj => d j (by omega) hj⟩
    · rintro ⟨a, b, c⟩
      cases ho : pollLoop env m retries 0 with
      | returned k' =>
        obtain ⟨a', b', c', d'⟩ := pollLoop_returned _ _ _ _ _ ho
        rcases Nat.lt_trichotomy k k' with h | h | h
        · exact absurd b (d' k (by omega) h)
        · rw [h]
        · exact absurd c' (c k' h)
      | cannotWrite => exact absurd ho (hno _ _).1
      | reloadFailed => exact absurd ho (hno _ _).2
      | exited => exact absurd b (hex.1 ho k (by omega) (by simpa [retries] using a))
  cases hw : env.writeOK <;> cases hl : env.reloadOK <;>
    simp only [update, hw, hl, if_true, if_false, reduceCtorEq, Bool.false_eq_true, false_and,
      and_false, true_and, false_iff, iff_true, iff_false, not_false_eq_true, implies_true, and_self,
      true_iff, Bool.true_eq_false]
  refine ⟨(hno _ _).1, (hno _ _).2, ?_, hret⟩
  rw [hex]
  constructor
  · intro h j hj; exact h j (by omega) (by simpa [retries] using hj)
  · intro h j _ hj; exact h j (by simpa [retries] using hj)

/-- An environment in which nginx picks up the new configuration at the third poll. -/
def demoEnv (d : Server) (m : Magic) : Env :=
  { writeOK := true, reloadOK := true
    poll := fun i => if i < 2 then ⟨[], if i = 0 then none else some (404, [])⟩
      else ⟨((read (d.withMagic m).text).getD []), some (200, m.answer)⟩ }

/-- The hypotheses are met: the call returns after two failed polls. -/
theorem demo_update :
    (update (demoEnv ⟨8910, .simple "listen".toList "8910".toList .nil⟩ ⟨"e1".toList, "a1".toList⟩)
      ⟨8910, .simple "listen".toList "8910".toList .nil⟩ false ⟨"e1".toList, "a1".toList⟩).outcome =
      .returned 2 ∧
    (update (demoEnv ⟨8910, .simple "listen".toList "8910".toList .nil⟩ ⟨"e1".toList, "a1".toList⟩)
      ⟨8910, .simple "listen".toList "8910".toList .nil⟩ false ⟨"e1".toList, "a1".toList⟩).text =
      "server {\n  listen 8910;\n  location /e1 {\n    return 200 \"a1\";\n  }\n}\n".toList := by
  decide +kernel

/-- **A failed reload leaves the new file behind**: the file on disk is the configuration which
nginx refused, and `GetMagicNumbers` gives numbers which nginx does not serve. -/
theorem failed_reload_keeps_file (env : Env) (d : Server) (lvalue : Bool) (m : Magic)
    (h : (update env d lvalue m).outcome = .reloadFailed) :
    (update env d lvalue m).file = some (update env d lvalue m).text ∧
    (update env d lvalue m).magic = m := by
  have := (outcome_exact env d lvalue m).2.1.1 h
  simp [update, this.1, this.2]

/-- **An lvalue argument is changed**: called with a variable, `UpdateConfig` leaves the secret
location in it, so that the second call with the same variable writes both. -/
theorem lvalue_changed (env : Env) (d : Server) (m1 m2 : Magic) :
    (update env d true m1).directive = d.withMagic m1 ∧
    (update env (update env d true m1).directive true m2).text = ((d.withMagic m1).withMagic m2).text ∧
    (update env d false m1).directive = d := by
  refine ⟨?_, ?_, ?_⟩ <;> simp only [update, if_true] <;> (repeat' split) <;> simp_all

end Current.Nginx
