set_option linter.unusedSimpArgs false
set_option linter.unusedVariables false

/-! # System calls and code compiled at run time (`bricks/system/syscalls.h`) -/

namespace Current.Syscalls

abbrev Str := List Char

/-! ### Reading the output of a command -/

/-- `fgets` of at most `n` characters. -/
def fgetsGo : Nat → Str → Str × Str
  | 0, r => ([], r)
  | _ + 1, [] => ([], [])
  | n + 1, c :: r => if c = '\n' then ([c], r) else let x := fgetsGo n r; (c :: x.1, x.2)

/-- `fgets` with a buffer of `size` characters, of which one is for the final zero; `none` at the end of the data. With room for nothing `glibc` returns an empty string. -/
def fgets (size : Nat) (rest : Str) : Option (Str × Str) :=
  if size ≤ 1 then some ([], rest) else if rest = [] then none else some (fgetsGo (size - 1) rest)

/-- `SystemCallReadPipe`, `syscalls.h:56-75`: what is still to be read, `none` for `f_ == nullptr`. -/
structure Pipe where
  size : Nat
  rest : Option Str

/-- `SystemCallReadPipe::ReadLine`, `syscalls.h:80-97`. -/
def Pipe.readLine (p : Pipe) : Str × Pipe :=
  match p.rest with
  | none => ([], p)
  | some rest =>
    match fgets p.size rest with
    | none => ([], { p with rest := none })
    | some (b, rest') =>
      let s := b.takeWhile (· ≠ '\x00')  -- `std::string s(p)`
      (if s.getLast? = some '\n' then s.dropLast else s, { p with rest := some rest' })

/-- `do { … pipe.ReadLine() … } while (pipe)`, as in `syscalls.h:241-247`: all that is returned. The first number bounds the steps. -/
def Pipe.readAll : Nat → Pipe → Option (List Str)
  | 0, _ => none
  | n + 1, p =>
    let r := p.readLine
    match r.2.rest with
    | none => some [r.1]
    | some _ => (readAll n r.2).map (r.1 :: ·)

theorem fgetsGo_append (n : Nat) (r : Str) : (fgetsGo n r).1 ++ (fgetsGo n r).2 = r := by
  induction r generalizing n with
  | nil => cases n <;> simp [fgetsGo]
  | cons c r ih =>
    cases n with
    | zero => simp [fgetsGo]
    | succ n =>
      simp only [fgetsGo]
      split
      · simp
      · simp [ih n]

theorem fgetsGo_shorter (n : Nat) (hn : 0 < n) (r : Str) (hr : r ≠ []) : (fgetsGo n r).2.length < r.length := by
  have hl : ∀ m q, (fgetsGo m q).2.length ≤ q.length := by
    intro m q
    have := congrArg List.length (fgetsGo_append m q)
    simp only [List.length_append] at this
    omega
  cases n with
  | zero => omega
  | succ n =>
    cases r with
    | nil => exact absurd rfl hr
    | cons c r =>
      simp only [fgetsGo]
      split
      · simp
      · have := hl n r; simp; omega

/-- A newline is the last character only. -/
theorem fgetsGo_newline (n : Nat) (r : Str) : ∃ s, '\n' ∉ s ∧ ((fgetsGo n r).1 = s ∨ (fgetsGo n r).1 = s ++ ['\n']) := by
  induction r generalizing n with
  | nil => cases n <;> exact ⟨[], by simp, Or.inl (by simp [fgetsGo])⟩
  | cons c r ih =>
    cases n with
    | zero => exact ⟨[], by simp, Or.inl (by simp [fgetsGo])⟩
    | succ n =>
      simp only [fgetsGo]
      split
      · rename_i h; subst h; exact ⟨[], by simp, Or.inr rfl⟩
      · rename_i h
        obtain ⟨s, h1, h2⟩ := ih n
        refine ⟨c :: s, by simp [h1]; exact fun e => h e.symm, ?_⟩
        rcases h2 with h2 | h2
        · left; simp [h2]
        · right; simp [h2]

theorem takeWhile_nul (s : Str) (h : '\x00' ∉ s) : s.takeWhile (· ≠ '\x00') = s := by
  induction s with
  | nil => rfl
  | cons c s ih =>
    simp only [List.mem_cons, not_or] at h
    rw [List.takeWhile_cons, if_pos (by simpa using fun e => h.1 e.symm), ih h.2]

/-- One line read. -/
theorem readLine_eq (size : Nat) (hs : 2 ≤ size) (rest : Str) (hr : rest ≠ []) (h0 : '\x00' ∉ rest) :
    ((Pipe.mk size (some rest)).readLine).1 = (fgetsGo (size - 1) rest).1.filter (· ≠ '\n') ∧ ((Pipe.mk size (some rest)).readLine).2 = ⟨size, some (fgetsGo (size - 1) rest).2⟩ := by
  have hf : fgets size rest = some (fgetsGo (size - 1) rest) := by
    unfold fgets
    rw [if_neg (by omega), if_neg hr]
  simp only [Pipe.readLine, hf]
  have hn : '\x00' ∉ (fgetsGo (size - 1) rest).1 := by
    intro hc
    apply h0
    rw [← fgetsGo_append (size - 1) rest]
    exact List.mem_append_left _ hc
  rw [takeWhile_nul _ hn]
  refine ⟨?_, trivial⟩
  obtain ⟨s, h1, h2⟩ := fgetsGo_newline (size - 1) rest
  have hfs : s.filter (fun c => decide (c ≠ '\n')) = s := by
    rw [List.filter_eq_self]
    intro c hc
    simp only [ne_eq, decide_not, Bool.not_eq_eq_eq_not, Bool.not_true, decide_eq_false_iff_not]
    intro e; subst e; exact h1 hc
  rcases h2 with h2 | h2
  · rw [h2]
    rw [if_neg]
    · exact hfs.symm
    · intro e; exact h1 (List.mem_of_getLast? e)
  · rw [h2]
    rw [if_pos (by simp)]
    rw [List.filter_append, hfs]
    simp

theorem readAll_eof (size : Nat) (hs : 2 ≤ size) (fuel : Nat) : (Pipe.mk size (some [])).readAll (fuel + 1) = some [[]] := by
  have : (Pipe.mk size (some [])).readLine = ([], ⟨size, none⟩) := by
    simp only [Pipe.readLine, fgets]
    rw [if_neg (by omega)]; rfl
  simp only [Pipe.readAll, this]

/-- C136 (a): whatever the length of the lines and of the buffer, if there are no zero characters in the output: reading ends, and what has been read is the output with no newlines, all of it. -/
theorem nothing_is_lost (size : Nat) (hs : 2 ≤ size) (out : Str) (h0 : '\x00' ∉ out) : ∀ fuel, out.length < fuel → ∃ ls, (Pipe.mk size (some out)).readAll fuel = some ls ∧ ls.flatten = out.filter (· ≠ '\n') := by
  intro fuel
  induction fuel generalizing out with
  | zero => intro h; omega
  | succ fuel ih =>
    intro h
    by_cases hr : out = []
    · subst hr; exact ⟨_, readAll_eof size hs fuel, by simp⟩
    · obtain ⟨e1, e2⟩ := readLine_eq size hs out hr h0
      have happ := fgetsGo_append (size - 1) out
      have hlt := fgetsGo_shorter (size - 1) (by omega) out hr
      obtain ⟨ls, h1, h2⟩ := ih (fgetsGo (size - 1) out).2 (by intro hc; apply h0; rw [← happ]; exact List.mem_append_right _ hc) (by omega)
      refine ⟨(fgetsGo (size - 1) out).1.filter (· ≠ '\n') :: ls, ?_, ?_⟩
      · simp only [Pipe.readAll, e1, e2, h1, Option.map_some]
      · simp only [List.flatten_cons, h2]
        rw [← List.filter_append, happ]

/-- An empty string is what is read at the end, so the end is told from an empty line by the pipe only. -/
theorem last_is_empty (fuel : Nat) : ∀ (p : Pipe) ls, p.rest ≠ none → p.readAll fuel = some ls → ls.getLast? = some [] := by
  induction fuel with
  | zero => intro p ls _ h; simp [Pipe.readAll] at h
  | succ n ih =>
    intro p ls hp h
    obtain ⟨size, rest⟩ := p
    cases rest with
    | none => exact absurd rfl hp
    | some rest =>
    simp only [Pipe.readAll] at h
    cases hf : fgets size rest with
    | none =>
      have e : (Pipe.mk size (some rest)).readLine = ([], ⟨size, none⟩) := by simp only [Pipe.readLine, hf]
      rw [e] at h
      simp only [Option.some.injEq] at h
      subst h; rfl
    | some b =>
      have e : ((Pipe.mk size (some rest)).readLine).2 = ⟨size, some b.2⟩ := by simp only [Pipe.readLine, hf]
      rw [e] at h
      simp only [Option.map_eq_some_iff] at h
      obtain ⟨l, h1, h2⟩ := h
      have := ih _ l (by simp) h1
      subst h2
      rw [List.getLast?_cons, this]; rfl

/-- Lines which fit, each with its newline, and what there is after the last newline. -/
def text (lines : List Str) (last : Str) : Str := (lines.map (· ++ ['\n'])).flatten ++ last

theorem fgetsGo_line (l : Str) (hl : '\n' ∉ l) : ∀ (n : Nat) (r : Str), l.length + 1 ≤ n → fgetsGo n (l ++ '\n' :: r) = (l ++ ['\n'], r) := by
  induction l with
  | nil => intro n r h; obtain ⟨m, rfl⟩ : ∃ m, n = m + 1 := ⟨n - 1, by simp at h; omega⟩; simp [fgetsGo]
  | cons c l ih =>
    intro n r h
    obtain ⟨m, rfl⟩ : ∃ m, n = m + 1 := ⟨n - 1, by simp at h; omega⟩
    simp only [List.mem_cons, not_or] at hl
    simp only [List.cons_append, fgetsGo]
    rw [if_neg (fun e => hl.1 e.symm), ih hl.2 m r (by simp at h; omega)]

theorem fgetsGo_last (l : Str) (hl : '\n' ∉ l) : ∀ n, l.length ≤ n → fgetsGo n l = (l, []) := by
  induction l with
  | nil => intro n h; cases n <;> simp [fgetsGo]
  | cons c l ih =>
    intro n h
    obtain ⟨m, rfl⟩ : ∃ m, n = m + 1 := ⟨n - 1, by simp at h; omega⟩
    simp only [List.mem_cons, not_or] at hl
    simp only [fgetsGo]
    rw [if_neg (fun e => hl.1 e.symm), ih hl.2 m (by simp at h; omega)]

/-- C136 (b): lines which fit, that is have at most `size - 2` characters, are read one by one as they are, then the text after the last newline if there is any, then an empty string once. -/
theorem lines_are_read (size : Nat) (lines : List Str) (last : Str) (hl : ∀ l ∈ lines, '\n' ∉ l ∧ '\x00' ∉ l ∧ l.length + 2 ≤ size) (hlast : '\n' ∉ last ∧ '\x00' ∉ last ∧ last.length + 1 ≤ size) (hs : 2 ≤ size) :
    ∀ fuel, lines.length + 1 < fuel → (Pipe.mk size (some (text lines last))).readAll fuel = some (lines ++ (if last = [] then [] else [last]) ++ [[]]) := by
  have hnn : ∀ l : Str, '\n' ∉ l → l.filter (fun c => decide (c ≠ '\n')) = l := by
    intro l h
    rw [List.filter_eq_self]
    intro c hc
    simp only [ne_eq, decide_not, Bool.not_eq_eq_eq_not, Bool.not_true, decide_eq_false_iff_not]
    intro e; subst e; exact h hc
  induction lines with
  | nil =>
    intro fuel hf
    obtain ⟨m, rfl⟩ : ∃ m, fuel = m + 2 := ⟨fuel - 2, by simp at hf; omega⟩
    simp only [text, List.map_nil, List.flatten_nil, List.nil_append]
    by_cases he : last = []
    · subst he; simp only [if_true]; exact readAll_eof size hs _
    · rw [if_neg he]
      obtain ⟨e1, e2⟩ := readLine_eq size hs last he hlast.2.1
      rw [fgetsGo_last last hlast.1 _ (by omega)] at e1 e2
      simp only [Pipe.readAll, e1, e2]
      have := readAll_eof size hs m
      simp only [Pipe.readAll] at this
      rw [this, hnn last hlast.1]
      rfl
  | cons l lines ih =>
    intro fuel hf
    obtain ⟨m, rfl⟩ : ∃ m, fuel = m + 1 := ⟨fuel - 1, by omega⟩
    have ih := ih (fun x hx => hl x (by simp [hx])) m (by simp at hf; omega)
    obtain ⟨h1, h2, h3⟩ := hl l (by simp)
    have et : text (l :: lines) last = l ++ '\n' :: text lines last := by simp [text]
    have h0 : '\x00' ∉ text (l :: lines) last := by
      simp only [text, List.mem_append, List.mem_flatten, List.mem_map, not_or, not_exists, not_and]
      refine ⟨?_, hlast.2.1⟩
      rintro x ⟨y, hy, rfl⟩
      simp [(hl y hy).2.1]
    obtain ⟨e1, e2⟩ := readLine_eq size hs (text (l :: lines) last) (by rw [et]; simp) h0
    rw [et] at e1 e2 ⊢
    rw [fgetsGo_line l h1 _ _ (by omega)] at e1 e2
    simp only [Pipe.readAll, e1, e2, ih, Option.map_some, List.filter_append, hnn l h1]
    simp

example : (Pipe.mk 16384 (some "Hello\nWorld\n".toList)).readAll 20 = some ["Hello".toList, "World".toList, []] := by decide

/-- A line of exactly `size - 1` characters is read as two: itself and an empty one. -/
theorem full_buffer_gives_an_empty_line : (Pipe.mk 4 (some "abc\nd\n".toList)).readAll 20 = some ["abc".toList, [], "d".toList, []] := by decide

/-- Longer ones are broken. -/
example : (Pipe.mk 4 (some "abcdefg\n".toList)).readAll 20 = some ["abc".toList, "def".toList, "g".toList, []] := by decide

/-- After a zero character the rest of a line is lost. -/
theorem nul_hides : (Pipe.mk 100 (some ['a', '\x00', 'b', '\n', 'c'])).readAll 20 = some [['a'], ['c'], []] := by decide

/-- With a buffer of one character reading does not end. -/
theorem tiny_buffer_hangs (out : Str) : ∀ fuel, (Pipe.mk 1 (some out)).readAll fuel = none := by
  intro fuel
  induction fuel with
  | zero => rfl
  | succ n ih =>
    have : (Pipe.mk 1 (some out)).readLine = ([], ⟨1, some out⟩) := by simp [Pipe.readLine, fgets]
    simp only [Pipe.readAll, this, ih, Option.map_none]

/-! ### `SystemCall` -/

/-- How a command ends. -/
inductive Ended | exited (code : Fin 256) | killed (signal : Fin 126) | noProcess
deriving DecidableEq

/-- What `::system` returns on Linux: the status of the child as `wait` has it, `-1` if there is no child. A shell which can not be started is a child which has exited with 127. Signals are 1 to 126. -/
def Ended.status : Ended → Int
  | exited c => c.val * 256
  | killed s => s.val + 1
  | noProcess => -1

inductive SysErr | noShell | noChild | shellNotStarted
deriving DecidableEq

/-- `SystemCall`, `syscalls.h:104-117`; the second is how the empty command would end. -/
def systemCall (e empty : Ended) : Except SysErr Int :=
  let result := e.status
  if result = -1 ∨ result = 127 then
    if empty.status = 0 then .error .noShell
    else if result = -1 then .error .noChild
    else if result = 127 then .error .shellNotStarted
    else .ok result
  else .ok result

theorem status_ne (e : Ended) : e.status = 127 ∨ e.status = -1 → (∃ s, e = .killed s ∧ s.val = 126) ∨ e = .noProcess := by
  intro h
  cases e with
  | exited c => simp only [Ended.status] at h; omega
  | killed s => simp only [Ended.status] at h; have := s.isLt; omega
  | noProcess => right; rfl

/-- C136 (c): with a child the call returns its status, for each way to end: the exception for a shell which can not be started is never thrown. -/
theorem systemCall_returns (e empty : Ended) (h : e ≠ .noProcess) : systemCall e empty = .ok e.status := by
  unfold systemCall
  simp only
  rw [if_neg]
  intro hc
  rcases status_ne e (by omega) with ⟨s, rfl, hs⟩ | h'
  · have := s.isLt; omega
  · exact h h'

example : systemCall (.exited 127) (.exited 127) = .ok 32512 := by rw [systemCall_returns _ _ (by simp)]; rfl

/-- C136 (d): if the child could not be created but can be the next time, which shows that there is a shell, the exception says that there is none. -/
theorem wrong_exception : systemCall .noProcess (.exited 0) = .error .noShell := by simp [systemCall, Ended.status]

theorem no_shell_iff (e empty : Ended) : systemCall e empty = .error .noShell ↔ e = .noProcess ∧ empty = .exited 0 := by
  constructor
  · intro h
    by_cases he : e = .noProcess
    · subst he
      refine ⟨rfl, ?_⟩
      unfold systemCall at h
      simp only [Ended.status] at h
      cases empty with
      | exited c =>
        simp only [true_or, if_true] at h
        split at h
        · rename_i hc; congr 1; apply Fin.ext; show c.val = 0; omega
        · cases h
      | killed s =>
        simp only [true_or, if_true] at h
        split at h
        · omega
        · cases h
      | noProcess => simp at h
    · rw [systemCall_returns e empty he] at h; cases h
  · rintro ⟨rfl, rfl⟩; simp [systemCall, Ended.status]

/-! ### The file system -/

/-- The names in a directory: `code.cc`, `current.h`, `lib.so`, `current`, and others. -/
inductive Name | code | header | lib | current | other (name : Str)
deriving DecidableEq

/-- A directory of temporary files by name, or something in it. -/
structure Path where
  dir : Str
  file : Option Name
deriving DecidableEq

inductive Node | dir | file (content : Str) | link (to : Str)
deriving DecidableEq

abbrev FS := List (Path × Node)

def FS.exists_ (fs : FS) (p : Path) : Bool := fs.any (fun e => e.1 = p)
def FS.hasChildren (fs : FS) (d : Str) : Bool := fs.any (fun e => e.1.dir = d && e.1.file.isSome)

/-- `::remove`, `file.h:374`, with the result ignored: a directory which is not empty stays. -/
def FS.remove (fs : FS) (p : Path) : FS :=
  if p.file = none ∧ fs.hasChildren p.dir then fs else fs.filter (fun e => decide (e.1 ≠ p))

/-- `WriteStringToFile`, `file.h:117-126`. -/
def FS.write (fs : FS) (p : Path) (s : Str) : FS := fs.filter (fun e => decide (e.1 ≠ p)) ++ [(p, .file s)]

/-! ### `JITCompiledCPP` -/

inductive JitErr | mkdir | symlink | compilation | dlopen
deriving DecidableEq

/-- What there is outside: the compiler, from a source to what it prints and the library if it makes one; whether a symbolic link can be made; whether a library loads; the text of `current.h`, from `current.inl.h`. -/
structure World where
  compile : Str → Str × Option Str
  symlink : Str → Bool
  loads : Str → Bool
  header : Str

/-- The removers, `syscalls.h:193-196`, as they are constructed: each removes at once, and later in its destructor, in the reverse order. The header has none. -/
def removers (d : Str) (cur : Option Str) : List Path :=
  [⟨d, none⟩, ⟨d, some .code⟩, ⟨d, some .lib⟩] ++ (if cur.isSome then [⟨d, some .current⟩] else [])

def FS.removeAll (fs : FS) : List Path → FS
  | [] => fs
  | p :: ps => (fs.remove p).removeAll ps

/-- The destructors of the removers. -/
def cleanup (d : Str) (cur : Option Str) (fs : FS) : FS := fs.removeAll (removers d cur).reverse

/-- The constructor of `JITCompiledCPP`, `syscalls.h:198-252` and `258-260`, in a directory with a name which has been chosen; on an exception the removers are destructed. Other errors of the file system are not modelled. -/
def jit (w : World) (d : Str) (src : Str) (cur : Option Str) (fs : FS) : Except JitErr Unit × FS :=
  let fs : FS := fs.removeAll (removers d cur)
  if fs.exists_ ⟨d, none⟩ then (.error .mkdir, cleanup d cur fs) else
  let fs : FS := fs ++ [(⟨d, none⟩, .dir)]
  let linked : Option FS :=
    match cur with
    | none => some (fs.write ⟨d, some .header⟩ [])
    | some c => if w.symlink c then some (FS.write (fs ++ [(⟨d, some .current⟩, .link c)]) ⟨d, some .header⟩ w.header) else none
  match linked with
  | none => (.error .symlink, cleanup d cur fs)
  | some fs =>
    let fs := fs.write ⟨d, some .code⟩ src
    let r := w.compile src
    let fs : FS := match r.2 with | none => fs | some lib => fs.write ⟨d, some .lib⟩ lib
    match (Pipe.mk 16384 (some r.1)).readAll (r.1.length + 1) with
    | none => (.error .compilation, cleanup d cur fs)
    | some lines =>
      if lines.any (fun l => decide (l ≠ [])) then (.error .compilation, cleanup d cur fs)
      else
        match r.2 with
        | none => (.error .dlopen, cleanup d cur fs)
        | some lib => if w.loads lib then (.ok (), fs) else (.error .dlopen, cleanup d cur fs)

/-- Of an object which has been constructed: its destructor, then nothing of it is there. -/
def destroy (d : Str) (cur : Option Str) (fs : FS) : FS := cleanup d cur fs

/-- The files after the object is gone, whether the constructor has thrown or not. -/
def afterwards (w : World) (d : Str) (src : Str) (cur : Option Str) (fs : FS) : FS :=
  match jit w d src cur fs with
  | (.ok _, fs') => destroy d cur fs'
  | (.error _, fs') => fs'

/-- No file is in the directory, nor is it there. -/
def Fresh (d : Str) (fs : FS) : Prop := ∀ e ∈ fs, e.1.dir ≠ d

theorem remove_append {d : Str} {fs : FS} (h : Fresh d fs) (ys : FS) (p : Path) (hp : p.dir = d) : FS.remove (fs ++ ys) p = fs ++ FS.remove ys p := by
  have hc : FS.hasChildren (fs ++ ys) p.dir = FS.hasChildren ys p.dir := by
    unfold FS.hasChildren
    rw [List.any_append]
    have : fs.any (fun e => decide (e.1.dir = p.dir) && e.1.file.isSome) = false := by
      rw [List.any_eq_false]
      intro e he
      simp [hp, h e he]
    rw [this, Bool.false_or]
  have hf : fs.filter (fun e => decide (e.1 ≠ p)) = fs := by
    rw [List.filter_eq_self]
    intro e he
    have := h e he
    simp only [ne_eq, decide_not, Bool.not_eq_eq_eq_not, Bool.not_true, decide_eq_false_iff_not]
    intro e'; rw [e'] at this; exact this hp
  unfold FS.remove
  rw [hc]
  split
  · rfl
  · rw [List.filter_append, hf]

theorem write_append {d : Str} {fs : FS} (h : Fresh d fs) (ys : FS) (p : Path) (hp : p.dir = d) (c : Str) : FS.write (fs ++ ys) p c = fs ++ FS.write ys p c := by
  have hf : fs.filter (fun e => decide (e.1 ≠ p)) = fs := by
    rw [List.filter_eq_self]
    intro e he
    have := h e he
    simp only [ne_eq, decide_not, Bool.not_eq_eq_eq_not, Bool.not_true, decide_eq_false_iff_not]
    intro e'; rw [e'] at this; exact this hp
  unfold FS.write
  rw [List.filter_append, hf, List.append_assoc]

theorem removeAll_append {d : Str} {fs : FS} (h : Fresh d fs) (ps : List Path) (hp : ∀ p ∈ ps, p.dir = d) : ∀ ys, FS.removeAll (fs ++ ys) ps = fs ++ FS.removeAll ys ps := by
  induction ps with
  | nil => intro ys; rfl
  | cons p ps ih =>
    intro ys
    simp only [FS.removeAll]
    rw [remove_append h ys p (hp p (by simp)), ih (fun q hq => hp q (by simp [hq]))]

theorem removers_dir (d : Str) (cur : Option Str) : ∀ p ∈ removers d cur, p.dir = d := by
  intro p hp
  cases cur <;> simp [removers] at hp <;> rcases hp with rfl | rfl | rfl | rfl <;> rfl

theorem cleanup_append {d : Str} {fs : FS} (h : Fresh d fs) (cur : Option Str) (ys : FS) : cleanup d cur (fs ++ ys) = fs ++ cleanup d cur ys :=
  removeAll_append h _ (fun p hp => removers_dir d cur p (by simpa using hp)) ys

/-- What is made in the directory. -/
def made (d : Str) (cur : Option Str) (hd src : Str) (lib : Option Str) : FS :=
  [(⟨d, none⟩, .dir)] ++ (cur.map (fun c => ((⟨d, some .current⟩ : Path), Node.link c))).toList ++ [(⟨d, some .header⟩, .file hd), (⟨d, some .code⟩, .file src)] ++
    (lib.map (fun l => ((⟨d, some .lib⟩ : Path), Node.file l))).toList

theorem cleanup_leaves (d : Str) (cur : Option Str) (hd src : Str) (lib : Option Str) : cleanup d cur (made d cur hd src lib) = [(⟨d, none⟩, .dir), (⟨d, some .header⟩, .file hd)] := by
  cases cur <;> cases lib <;> simp [made, cleanup, removers, FS.removeAll, FS.remove, FS.hasChildren]

/-- The text of `current.h`. -/
def headerOf (w : World) (cur : Option Str) : Str := if cur.isSome then w.header else []

/-- What the constructor does in a fresh directory. -/
theorem jit_eq (w : World) (d src : Str) (cur : Option Str) (fs : FS) (h : Fresh d fs) :
    jit w d src cur fs = if (∃ c, cur = some c ∧ w.symlink c = false) then (.error .symlink, fs)
      else
        let all := fs ++ made d cur (headerOf w cur) src (w.compile src).2
        let left := fs ++ [(⟨d, none⟩, .dir), (⟨d, some .header⟩, .file (headerOf w cur))]
        match (Pipe.mk 16384 (some (w.compile src).1)).readAll ((w.compile src).1.length + 1) with
        | none => (.error .compilation, left)
        | some lines =>
          if lines.any (fun l => decide (l ≠ [])) then (.error .compilation, left)
          else
            match (w.compile src).2 with
            | none => (.error .dlopen, left)
            | some lib => if w.loads lib then (.ok (), all) else (.error .dlopen, left) := by
  have h0 : FS.removeAll fs (removers d cur) = fs := by
    have := removeAll_append h (removers d cur) (removers_dir d cur) []
    rw [List.append_nil] at this
    rw [this]
    have : FS.removeAll [] (removers d cur) = [] := by cases cur <;> simp [removers, FS.removeAll, FS.remove, FS.hasChildren]
    rw [this, List.append_nil]
  have h1 : FS.exists_ fs ⟨d, none⟩ = false := by
    unfold FS.exists_
    rw [List.any_eq_false]
    intro e he
    have := h e he
    simp only [decide_eq_true_eq]
    intro e'; rw [e'] at this; exact this rfl
  unfold jit
  simp only [h0, h1, Bool.false_eq_true, if_false]
  have hleft : ∀ lib, cleanup d cur (fs ++ made d cur (headerOf w cur) src lib) = fs ++ [(⟨d, none⟩, .dir), (⟨d, some .header⟩, .file (headerOf w cur))] := by
    intro lib; rw [cleanup_append h, cleanup_leaves]
  by_cases hlink : ∃ c, cur = some c ∧ w.symlink c = false
  · rw [if_pos hlink]
    obtain ⟨c, rfl, hc⟩ := hlink
    simp only [hc, Bool.false_eq_true, if_false]
    rw [cleanup_append h]
    simp [cleanup, removers, FS.removeAll, FS.remove, FS.hasChildren]
  · rw [if_neg hlink]
    have hmade : ∀ lib : Option Str,
        (match lib with
          | none => FS.write (match cur with
              | none => FS.write (fs ++ [(⟨d, none⟩, .dir)]) ⟨d, some .header⟩ []
              | some c => FS.write (fs ++ [(⟨d, none⟩, .dir)] ++ [(⟨d, some .current⟩, .link c)]) ⟨d, some .header⟩ w.header) ⟨d, some .code⟩ src
          | some l => FS.write (FS.write (match cur with
              | none => FS.write (fs ++ [(⟨d, none⟩, .dir)]) ⟨d, some .header⟩ []
              | some c => FS.write (fs ++ [(⟨d, none⟩, .dir)] ++ [(⟨d, some .current⟩, .link c)]) ⟨d, some .header⟩ w.header) ⟨d, some .code⟩ src) ⟨d, some .lib⟩ l) = fs ++ made d cur (headerOf w cur) src lib := by
      intro lib
      cases cur <;> cases lib <;> simp only [List.append_assoc, write_append h] <;> simp [FS.write, made, headerOf]
    cases cur with
    | none =>
      cases hlib : (w.compile src).2 with
      | none =>
        have e := hmade none
        have l := hleft none
        simp only at e l ⊢
        rw [e, l]
      | some lib =>
        have e := hmade (some lib)
        have l := hleft (some lib)
        simp only at e l ⊢
        rw [e, l]
    | some c =>
      have hc : w.symlink c = true := by
        cases hs : w.symlink c with
        | true => rfl
        | false => exact absurd ⟨c, rfl, hs⟩ hlink
      cases hlib : (w.compile src).2 with
      | none =>
        have e := hmade none
        have l := hleft none
        simp only [hc, if_true] at e l ⊢
        rw [e, l]
      | some lib =>
        have e := hmade (some lib)
        have l := hleft (some lib)
        simp only [hc, if_true] at e l ⊢
        rw [e, l]

/-- C136 (e): the files after the object is gone are not as they were before: the directory is there with `current.h` in it, unless the symbolic link could not be made. -/
theorem what_is_left (w : World) (d src : Str) (cur : Option Str) (fs : FS) (h : Fresh d fs) :
    afterwards w d src cur fs = if (∃ c, cur = some c ∧ w.symlink c = false) then fs
      else fs ++ [(⟨d, none⟩, .dir), (⟨d, some .header⟩, .file (headerOf w cur))] := by
  unfold afterwards
  rw [jit_eq w d src cur fs h]
  by_cases hlink : ∃ c, cur = some c ∧ w.symlink c = false
  · rw [if_pos hlink, if_pos hlink]
  · rw [if_neg hlink, if_neg hlink]
    simp only
    cases (Pipe.mk 16384 (some (w.compile src).1)).readAll ((w.compile src).1.length + 1) with
    | none => rfl
    | some lines =>
      simp only
      split
      · rename_i he; split at he
        · cases he
        · split at he
          · cases he
          · rename_i lib hl
            split at he
            · cases he
              unfold destroy
              rw [cleanup_append h, cleanup_leaves]
            · cases he
      · rename_i he; split at he
        · cases he; rfl
        · split at he
          · cases he; rfl
          · split at he
            · cases he
            · cases he; rfl

/-- While the object is there nothing else is touched, and the library is there. -/
theorem jit_ok (w : World) (d src : Str) (cur : Option Str) (fs fs' : FS) (h : Fresh d fs) (hok : jit w d src cur fs = (.ok (), fs')) :
    fs' = fs ++ made d cur (headerOf w cur) src (w.compile src).2 ∧ ∃ lib, (w.compile src).2 = some lib ∧ w.loads lib = true := by
  rw [jit_eq w d src cur fs h] at hok
  split at hok
  · cases hok
  · simp only at hok
    split at hok
    · cases hok
    · split at hok
      · cases hok
      · split at hok
        · cases hok
        · rename_i lib hl
          split at hok
          · rename_i hloads
            cases hok
            exact ⟨by rw [hl], lib, hl, hloads⟩
          · cases hok

theorem flatten_nil_iff (ls : List Str) : ls.any (fun l => decide (l ≠ [])) = false ↔ ls.flatten = [] := by
  rw [List.any_eq_false, List.flatten_eq_nil_iff]
  constructor
  · intro h l hl; have := h l hl; simpa using this
  · intro h l hl; simp [h l hl]

/-- C136 (f): the object is constructed if and only if the link could be made, the compiler has printed nothing but newlines, and it has made a library which loads. How the compiler has ended does not matter. -/
theorem jit_ok_iff (w : World) (d src : Str) (cur : Option Str) (fs : FS) (h : Fresh d fs) (h0 : '\x00' ∉ (w.compile src).1) :
    (∃ fs', jit w d src cur fs = (.ok (), fs')) ↔ (∀ c, cur = some c → w.symlink c = true) ∧ (∀ c ∈ (w.compile src).1, c = '\n') ∧ ∃ lib, (w.compile src).2 = some lib ∧ w.loads lib = true := by
  obtain ⟨ls, h1, h2⟩ := nothing_is_lost 16384 (by omega) (w.compile src).1 h0 ((w.compile src).1.length + 1) (by omega)
  have hany : ls.any (fun l => decide (l ≠ [])) = false ↔ ∀ c ∈ (w.compile src).1, c = '\n' := by
    rw [flatten_nil_iff, h2, List.filter_eq_nil_iff]
    constructor
    · intro h c hc; have := h c hc; simpa using this
    · intro h c hc; simp [h c hc]
  rw [jit_eq w d src cur fs h]
  by_cases hlink : ∃ c, cur = some c ∧ w.symlink c = false
  · rw [if_pos hlink]
    constructor
    · rintro ⟨fs', hc⟩; cases hc
    · rintro ⟨hl, _⟩
      obtain ⟨c, e, hc⟩ := hlink
      rw [hl c e] at hc; cases hc
  · rw [if_neg hlink]
    simp only [h1]
    cases ha : ls.any (fun l => decide (l ≠ [])) with
    | true =>
      simp only [if_true]
      constructor
      · rintro ⟨fs', hc⟩; cases hc
      · rintro ⟨_, hn, _⟩; rw [hany.2 hn] at ha; cases ha
    | false =>
      simp only [Bool.false_eq_true, if_false]
      constructor
      · rintro ⟨fs', hc⟩
        refine ⟨?_, hany.1 ha, ?_⟩
        · intro c e
          cases hs : w.symlink c with
          | true => rfl
          | false => exact absurd ⟨c, e, hs⟩ hlink
        · split at hc
          · cases hc
          · rename_i lib hl
            split at hc
            · rename_i hloads; exact ⟨lib, hl, hloads⟩
            · cases hc
      · rintro ⟨_, _, lib, hl, hloads⟩
        rw [hl]
        simp only [hloads, if_true]
        exact ⟨_, rfl⟩

/-- A compiler which prints a note on success: the code is taken for wrong. One which fails and prints nothing: the library is said not to load. -/
example : (jit ⟨fun _ => ("note: ok\n".toList, some []), fun _ => true, fun _ => true, []⟩ ['d'] [] none []).1 = .error .compilation := rfl
example : (jit ⟨fun _ => ([], none), fun _ => true, fun _ => true, []⟩ ['d'] [] none []).1 = .error .dlopen := rfl

/-- A zero character at the beginning of each line of the errors hides them. -/
theorem nul_hides_errors : ((jit ⟨fun _ => ('\x00' :: "error\n".toList, some []), fun _ => true, fun _ => true, []⟩ ['d'] [] none []).1) = .ok () := rfl

/-- A run: the header and the directory stay. -/
theorem jit_demo : afterwards ⟨fun _ => ([], some "ELF".toList), fun _ => true, fun _ => true, "h".toList⟩ "t1".toList "int x;".toList (some "/c".toList) [(⟨"t0".toList, some (.other [])⟩, .file [])] =
    [(⟨"t0".toList, some (.other [])⟩, .file []), (⟨"t1".toList, none⟩, .dir), (⟨"t1".toList, some .header⟩, .file "h".toList)] := by
  rw [what_is_left _ _ _ _ _ (by intro e he; simp at he; subst he; decide), if_neg (by simp)]; rfl

end Current.Syscalls
