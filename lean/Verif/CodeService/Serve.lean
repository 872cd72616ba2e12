import Verif.Strings.Split

set_option linter.unusedSimpArgs false
set_option linter.unusedVariables false

/-! # Services which compile and run the code they are sent (`examples/dynamic_dlopen/impl.h`, `examples/datafest_talk/tier5_online_tool/nyc_taxi_dataset_service.h`) -/

namespace Current.CodeService
open Current.Persist Current.Strings

/-- A function of a compiled library. -/
abbrev Fn := Nat

/-- What there is outside at the time of a request: the function `Run` of a source which compiles and loads. -/
abbrev World := Str → Option Fn

inductive Method | post | put | other
deriving DecidableEq

structure Req where
  method : Method
  args : List Str := []
  body : Str := []
  showsource : Bool := false
  code : Str := []                -- the `code` of the query, empty if not there
  overwrite : Bool := false       -- `X-Overwrite: true`
  sourceName : Str := "code.cc".toList
  accept : Option Str := none

inductive Reply
  | compiled (id : Str) | already (id : Str) | compileError | badPut | ran (f : Fn) | notFound | notAllowed (total : Nat)
  | source (s : Str) | form (code : Str) (id : Option Str) (result : Option Fn) (error : Bool) | undefined
deriving DecidableEq

/-- `handlers_`. -/
abbrev Map := List (Str × Fn)

def Map.find (m : Map) (k : Str) : Option Fn := (List.find? (fun e => decide (e.1 = k)) m).map (·.2)
/-- `handlers_[k] = f`. -/
def Map.set (m : Map) (k : Str) (f : Fn) : Map := List.filter (fun e => decide (e.1 ≠ k)) m ++ [(k, f)]

theorem find_filter (m : Map) (k j : Str) : Map.find (List.filter (fun e => decide (e.1 ≠ k)) m) j = if j = k then none else m.find j := by
  induction m with
  | nil => simp [Map.find]
  | cons a m ih =>
    unfold Map.find at ih ⊢
    rw [List.filter_cons]
    by_cases hk : a.1 = k
    · simp only [hk, ne_eq, not_true_eq_false, decide_false, Bool.false_eq_true, if_false]
      simp only [ne_eq] at ih
      rw [ih]
      by_cases hj : j = k
      · rw [if_pos hj, if_pos hj]
      · have : ¬ k = j := fun e => hj e.symm
        rw [if_neg hj, if_neg hj, List.find?_cons, hk]
        simp [this]
    · simp only [hk, ne_eq, not_false_eq_true, decide_true, if_true]
      simp only [ne_eq] at ih
      rw [List.find?_cons, List.find?_cons]
      by_cases hj : a.1 = j
      · have : ¬ j = k := fun e => hk (hj.trans e)
        simp [hj, this]
      · simp only [hj, decide_false]
        exact ih

theorem find_set (m : Map) (k : Str) (f : Fn) (j : Str) : (m.set k f).find j = if j = k then some f else m.find j := by
  have h := find_filter m k j
  unfold Map.set
  unfold Map.find at h ⊢
  rw [List.find?_append]
  by_cases hj : j = k
  · rw [if_pos hj] at h ⊢
    rw [Option.map_eq_none_iff] at h
    rw [h]
    simp [hj]
  · rw [if_neg hj] at h ⊢
    rw [← h]
    have : ¬ k = j := fun e => hj e.symm
    simp [List.find?_cons, this]

/-! ### `DynamicDLOpenIrisExampleImpl` -/

/-- What does not change: the hash function, the text before and after the code. -/
structure Conf where
  sha : Str → Str
  before : Str
  after : Str

def boilerplate : Str := "boilerplate".toList

/-- `Serve`, `impl.h:41-86`. `emplace` of a key which is there is not possible after the check. -/
def serveD (c : Conf) (w : World) (h : Map) (r : Req) : Reply × Map :=
  if r.method = .post then
    let id := c.sha r.body
    if (h.find id).isSome then (.already id, h)
    else
      match w (c.before ++ r.body ++ c.after) with
      | some f => (.compiled id, h.set id f)
      | none => (.compileError, h)
  else
    match r.args with
    | a :: _ =>
      if a = boilerplate then (.source (c.before ++ "### USER CODE ###".toList ++ c.after), h)
      else
        match h.find a with
        | some f => (.ran f, h)
        | none => (.notFound, h)
    | [] => (.notAllowed h.length, h)

/-- Requests with the world at the time, newest first. -/
abbrev History := List (World × Req)

def stateD (c : Conf) : History → Map
  | [] => []
  | e :: past => (serveD c e.1 (stateD c past) e.2).2

def replyD (c : Conf) (e : World × Req) (past : History) : Reply := (serveD c e.1 (stateD c past) e.2).1

/-- Among the requests there is one with this code which has been compiled into this function. -/
def Posted (c : Conf) (past : History) (body : Str) (f : Fn) : Prop := ∃ e ∈ past, e.2.method = .post ∧ e.2.body = body ∧ e.1 (c.before ++ body ++ c.after) = some f

theorem stateD_posted (c : Conf) (past : History) : ∀ k f, (stateD c past).find k = some f → ∃ body, c.sha body = k ∧ Posted c past body f := by
  induction past with
  | nil => intro k f h; simp [stateD, Map.find] at h
  | cons e past ih =>
    intro k f h
    have lift : (∃ body, c.sha body = k ∧ Posted c past body f) → ∃ body, c.sha body = k ∧ Posted c (e :: past) body f := by
      rintro ⟨b, h1, x, hx, h2⟩; exact ⟨b, h1, x, by simp [hx], h2⟩
    simp only [stateD, serveD] at h
    split at h
    · rename_i hp
      split at h
      · exact lift (ih k f h)
      · split at h
        · rename_i g hw
          simp only [find_set] at h
          split at h
          · rename_i hk
            cases h
            exact ⟨e.2.body, hk.symm, e, by simp, hp, rfl, hw⟩
          · exact lift (ih k f h)
        · exact lift (ih k f h)
    · split at h
      · split at h
        · exact lift (ih k f h)
        · split at h <;> exact lift (ih k f h)
      · exact lift (ih k f h)

/-- C137 (a): whatever the requests have been, a function which is run for an id has been compiled from code with this hash which has been posted. -/
theorem only_posted_code_runs (c : Conf) (past : History) (w : World) (r : Req) (f : Fn) (h : replyD c (w, r) past = .ran f) : ∃ k rest body, r.args = k :: rest ∧ c.sha body = k ∧ Posted c past body f := by
  simp only [replyD, serveD] at h
  split at h
  · split at h
    · cases h
    · split at h <;> cases h
  · split at h
    · rename_i a rest ha
      split at h
      · cases h
      · split at h
        · rename_i g hg
          cases h
          obtain ⟨body, h1, h2⟩ := stateD_posted c past a f hg
          exact ⟨a, rest, body, ha, h1, h2⟩
        · cases h
    · cases h

/-- What is there stays. -/
theorem stateD_stays (c : Conf) (e : World × Req) (past : History) (k : Str) (f : Fn) (h : (stateD c past).find k = some f) : (stateD c (e :: past)).find k = some f := by
  simp only [stateD, serveD]
  split
  · split
    · exact h
    · rename_i hn
      split
      · simp only [find_set]
        split
        · rename_i hk; subst hk; simp [h] at hn
        · exact h
      · exact h
  · split
    · split
      · exact h
      · split <;> exact h
    · exact h

/-- C137 (b): code which has been accepted can be run ever after, whatever else is requested: the id is its hash, and if no other code posted has this hash then the function is one compiled from it. -/
theorem accepted_code_runs (c : Conf) (w : World) (body : Str) (later past : History) (w' : World) (args : List Str)
    (hacc : replyD c (w, { method := .post, body := body }) past = .compiled (c.sha body) ∨ replyD c (w, { method := .post, body := body }) past = .already (c.sha body))
    (hb : c.sha body ≠ boilerplate) :
    ∃ f, replyD c (w', { method := .other, args := c.sha body :: args }) (later ++ (w, { method := .post, body := body }) :: past) = .ran f ∧
      ((∀ e ∈ later ++ past, e.2.method = .post → c.sha e.2.body = c.sha body → e.2.body = body) → Posted c (later ++ (w, { method := .post, body := body }) :: past) body f) := by
  have hnow : ∃ f, (stateD c ((w, { method := .post, body := body }) :: past)).find (c.sha body) = some f := by
    simp only [replyD, serveD, if_true] at hacc
    simp only [stateD, serveD, if_true]
    cases hf : (stateD c past).find (c.sha body) with
    | some f => exact ⟨f, by simp [hf]⟩
    | none =>
      simp only [hf, Option.isSome_none, Bool.false_eq_true, if_false] at hacc ⊢
      cases hw : w (c.before ++ body ++ c.after) with
      | none => rw [hw] at hacc; simp at hacc
      | some f => exact ⟨f, by simp [find_set]⟩
  obtain ⟨f, hf⟩ := hnow
  have hlater : (stateD c (later ++ (w, { method := .post, body := body }) :: past)).find (c.sha body) = some f := by
    induction later with
    | nil => exact hf
    | cons e later ih => exact stateD_stays c e _ _ _ ih
  refine ⟨f, ?_, ?_⟩
  · simp only [replyD, serveD, reduceCtorEq, if_false, hb, hlater]
  · intro huniq
    obtain ⟨b, h1, h2⟩ := stateD_posted c _ _ f hlater
    obtain ⟨e, he, hp, hbd, hw⟩ := h2
    have : b = body := by
      rw [List.mem_append, List.mem_cons] at he
      rcases he with he | rfl | he
      · rw [← hbd]; exact huniq e (by simp [he]) hp (by rw [hbd]; exact h1)
      · exact hbd.symm
      · rw [← hbd]; exact huniq e (by simp [he]) hp (by rw [hbd]; exact h1)
    subst this
    exact ⟨e, he, hp, hbd, hw⟩

/-- Code with one hash is compiled with success once. -/
theorem compiled_once (c : Conf) (w : World) (r : Req) (past : History) (id : Str) (h : replyD c (w, r) past = .compiled id) : (stateD c past).find id = none ∧ ((stateD c ((w, r) :: past)).find id).isSome := by
  simp only [replyD, serveD] at h
  simp only [stateD, serveD]
  split at h
  · rename_i hp
    rw [if_pos hp]
    split at h
    · cases h
    · rename_i hn
      rw [if_neg hn]
      split at h
      · rename_i f hw
        cases h
        simp only [hw, find_set, if_true, Option.isSome_some, and_true]
        simpa using hn
      · cases h
  · split at h
    · split at h
      · cases h
      · split at h <;> cases h
    · cases h

/-! ### `NYCTaxiDatasetServiceImpl` -/

/-- Whether HTML is asked for, `nyc_taxi_dataset_service.h:147-157`; `none`: `.front()` of an empty vector. -/
def wantsHtml : List Str → Option Bool
  | [] => some false
  | h :: hs =>
    match (split (matchChar ';') false h).1 with
    | [] => none
    | x :: _ => if x = "text/html".toList then some true else wantsHtml hs

def html (r : Req) : Option Bool :=
  match r.accept with
  | none => some false
  | some a => wantsHtml (split (matchChar ',') false a).1

/-- `ConstructSource`, `:117-123`. -/
def sourceOf (c : Conf) (name body : Str) : Str := c.before ++ "# line 1 \"".toList ++ name ++ "\"\n".toList ++ body

/-- `HandleUpload`, `:125-145`. The right side of the assignment is evaluated first, as C++17 has it: if it throws no handler is added. -/
def upload (c : Conf) (w : World) (h : Map) (r : Req) (id : Str) : Reply × Map :=
  if r.showsource then (.source (sourceOf c r.sourceName r.body), h)
  else if (h.find id).isSome ∧ r.overwrite = false then (.already id, h)
  else
    match w (sourceOf c r.sourceName r.body) with
    | some f => (.compiled id, h.set id f)
    | none => (.compileError, h)

/-- `Serve`, `:146-212`; `wrap` is `WrapID`. -/
def serveN (c : Conf) (wrap : Str → Str) (w : World) (h : Map) (r : Req) : Reply × Map :=
  match html r with
  | none => (.undefined, h)
  | some isHtml =>
    if r.method = .post then upload c w h r ((c.sha r.body).take 10)
    else if r.method = .put then
      match r.args with
      | [id] => upload c w h r id
      | _ => (.badPut, h)
    else
      match r.args with
      | a :: _ =>
        match h.find a with
        | some f => (.ran f, h)
        | none => (.notFound, h)
      | [] =>
        if isHtml = false then (.notAllowed h.length, h)
        else if r.code = [] then (.form r.code none none false, h)
        else
          let id := c.sha r.code
          match h.find id with
          | some f => (.form r.code (some (wrap id)) (some f) false, h)
          | none =>
            match w (sourceOf c "code.cc".toList r.code) with
            | some f => (.form r.code (some (wrap id)) (some f) false, h.set id f)
            | none => (.form r.code (some (wrap id)) none true, h)

def stateN (c : Conf) (wrap : Str → Str) : History → Map
  | [] => []
  | e :: past => (serveN c wrap e.1 (stateN c wrap past) e.2).2

def replyN (c : Conf) (wrap : Str → Str) (e : World × Req) (past : History) : Reply := (serveN c wrap e.1 (stateN c wrap past) e.2).1

/-- The id an upload is for. -/
def target (c : Conf) (r : Req) : Option Str :=
  match r.method, r.args with
  | .post, _ => some ((c.sha r.body).take 10)
  | .put, [id] => some id
  | _, _ => none

/-- What the replies say is done: an upload which is said to be compiled is for the function of its source; a form for code not known which has a result is for the function of this code. Everything else changes nothing. -/
def installs (c : Conf) (e : World × Req) (reply : Reply) (known : Str → Bool) (k : Str) : Option Fn :=
  match reply with
  | .compiled id => if id = k then e.1 (sourceOf c e.2.sourceName e.2.body) else none
  | .form code _ (some f) _ => if c.sha code = k ∧ known k = false then some f else none
  | _ => none

/-- C137 (c): each reply says what the request has done, exactly. -/
theorem reply_says (c : Conf) (wrap : Str → Str) (e : World × Req) (past : History) (k : Str) :
    (stateN c wrap (e :: past)).find k = (installs c e (replyN c wrap e past) (fun j => ((stateN c wrap past).find j).isSome) k).or ((stateN c wrap past).find k) := by
  obtain ⟨w, r⟩ := e
  simp only [stateN, replyN]
  generalize stateN c wrap past = h
  have hup : ∀ id, (upload c w h r id).2.find k = (installs c (w, r) (upload c w h r id).1 (fun j => (h.find j).isSome) k).or (h.find k) := by
    intro id
    unfold upload
    split
    · simp [installs]
    · split
      · simp [installs]
      · cases hw : w (sourceOf c r.sourceName r.body) with
        | none => simp [installs]
        | some f =>
          simp only [installs, find_set, hw]
          by_cases hk : k = id
          · subst hk; simp
          · have : ¬ id = k := fun e => hk e.symm
            simp [hk, this]
  unfold serveN
  split
  · simp [installs]
  · split
    · exact hup _
    · split
      · split
        · exact hup _
        · simp [installs]
      · split
        · split <;> simp [installs]
        · split
          · simp [installs]
          · split
            · simp [installs]
            · simp only
              cases hf : h.find (c.sha r.code) with
              | some f =>
                simp only [installs]
                rw [if_neg]
                · simp
                · rintro ⟨rfl, hn⟩; rw [hf] at hn; cases hn
              | none =>
                cases hw : w (sourceOf c "code.cc".toList r.code) with
                | none => simp [installs]
                | some f =>
                  simp only [installs, find_set]
                  by_cases hk : k = c.sha r.code
                  · subst hk; simp [hf]
                  · have : ¬ c.sha r.code = k := fun e => hk e.symm
                    simp [hk, this]

/-- C137 (d): and a request for an id runs the function which was last installed for it, whatever the method is but for POST and PUT. -/
theorem runs_what_is_there (c : Conf) (wrap : Str → Str) (w : World) (r : Req) (past : History) (k : Str) (rest : List Str) (hm : r.method = .other) (ha : r.args = k :: rest) (hh : html r ≠ none) :
    replyN c wrap (w, r) past = match (stateN c wrap past).find k with | some f => .ran f | none => .notFound := by
  simp only [replyN, serveN]
  cases hr : html r with
  | none => exact absurd hr hh
  | some b =>
    simp only [hm, ha, reduceCtorEq, if_false]
    cases (stateN c wrap past).find k <;> rfl

/-- C137 (e): an id which is there is not taken over by an upload without `X-Overwrite`, nor by a form, nor by an upload which does not compile. -/
theorem not_taken_over (c : Conf) (wrap : Str → Str) (w : World) (r : Req) (past : History) (k : Str) (f : Fn) (h : (stateN c wrap past).find k = some f)
    (hr : r.overwrite = false ∨ w (sourceOf c r.sourceName r.body) = none ∨ target c r ≠ some k) : (stateN c wrap ((w, r) :: past)).find k = some f := by
  have key := reply_says c wrap (w, r) past k
  rw [key, h]
  have : installs c (w, r) (replyN c wrap (w, r) past) (fun j => ((stateN c wrap past).find j).isSome) k = none := by
    have hup : ∀ id, (target c r = some id) → installs c (w, r) (upload c w (stateN c wrap past) r id).1 (fun j => ((stateN c wrap past).find j).isSome) k = none := by
      intro id hid
      unfold upload
      split
      · rfl
      · split
        · rfl
        · rename_i hn
          cases hw : w (sourceOf c r.sourceName r.body) with
          | none => rfl
          | some g =>
            simp only [installs]
            by_cases hk : id = k
            · subst hk
              rcases hr with hr | hr | hr
              · exact absurd ⟨by simp [h], hr⟩ hn
              · rw [hw] at hr; cases hr
              · exact absurd hid hr
            · rw [if_neg hk]
    simp only [replyN, serveN]
    split
    · rfl
    · split
      · rename_i hp; exact hup _ (by simp [target, hp])
      · split
        · rename_i hp
          split
          · rename_i id ha; exact hup _ (by simp [target, hp, ha])
          · rfl
        · split
          · split <;> rfl
          · split
            · rfl
            · split
              · rfl
              · cases hf : (stateN c wrap past).find (c.sha r.code) with
                | some g =>
                  simp only [installs]
                  rw [if_neg]
                  rintro ⟨rfl, hn⟩; rw [h] at hn; cases hn
                | none =>
                  cases hw : w (sourceOf c "code.cc".toList r.code) with
                  | none => rfl
                  | some g =>
                    simp only [installs]
                    rw [if_neg]
                    rintro ⟨rfl, hn⟩; rw [h] at hn; cases hn
  rw [this]; rfl

/-- C137 (f): code which has been posted is what its id runs, if the id was not there. -/
theorem posted_code_runs_partial (c : Conf) (wrap : Str → Str) (w w' : World) (r : Req) (past : History) (hp : r.method = .post) (hh : html r ≠ none) (hs : r.showsource = false)
    (hnew : (stateN c wrap past).find ((c.sha r.body).take 10) = none) (f : Fn) (hw : w (sourceOf c r.sourceName r.body) = some f) (args : List Str) :
    replyN c wrap (w', { method := .other, args := (c.sha r.body).take 10 :: args }) ((w, r) :: past) = .ran f := by
  rw [runs_what_is_there c wrap w' _ _ ((c.sha r.body).take 10) args rfl rfl (by simp [html])]
  have : (stateN c wrap ((w, r) :: past)).find ((c.sha r.body).take 10) = some f := by
    simp only [stateN, serveN]
    cases hr : html r with
    | none => exact absurd hr hh
    | some b =>
      simp only [hp, if_true, upload, hs, hnew, Bool.false_eq_true, if_false, Option.isSome_none, false_and, hw, find_set]
  rw [this]

theorem post_already (c : Conf) (wrap : Str → Str) (w : World) (h : Map) (r : Req) (f : Fn) (hp : r.method = .post) (ha : r.accept = none) (hs : r.showsource = false) (ho : r.overwrite = false)
    (hf : h.find ((c.sha r.body).take 10) = some f) : (serveN c wrap w h r).1 = .already ((c.sha r.body).take 10) := by
  simp only [serveN, html, ha, hp, upload, hs, ho, hf, if_true, Bool.false_eq_true, if_false, Option.isSome_some, and_self]

/-- C137 (g): but not otherwise. Any code can be put under an id, also under that of other code; then the other code is said to be available, and the id runs the first. The ids of POST have ten characters of the hash, and the same is true of any two codes which have those in common. -/
theorem other_code_runs (c : Conf) (wrap : Str → Str) (mine theirs : Str) (w : World) (f g : Fn) (hf : w (sourceOf c "code.cc".toList mine) = some f) :
    replyN c wrap (w, { method := .post, body := theirs }) [(w, { method := .put, args := [(c.sha theirs).take 10], body := mine })] = .already ((c.sha theirs).take 10) ∧
    replyN c wrap (w, { method := .other, args := [(c.sha theirs).take 10] }) [(w, { method := .post, body := theirs }), (w, { method := .put, args := [(c.sha theirs).take 10], body := mine })] = .ran f := by
  have h1 : stateN c wrap [(w, { method := .put, args := [(c.sha theirs).take 10], body := mine })] = [((c.sha theirs).take 10, f)] := by
    simp only [stateN, serveN, html, upload, reduceCtorEq, if_false, if_true, Bool.false_eq_true, hf]
    simp [Map.find, Map.set]
  have h2 : (stateN c wrap [(w, { method := .put, args := [(c.sha theirs).take 10], body := mine })]).find ((c.sha theirs).take 10) = some f := by rw [h1]; simp [Map.find]
  have h3 := not_taken_over c wrap w { method := .post, body := theirs } [(w, { method := .put, args := [(c.sha theirs).take 10], body := mine })] _ f h2 (Or.inl rfl)
  constructor
  · exact post_already c wrap w _ _ f rfl rfl rfl rfl h2
  · rw [runs_what_is_there c wrap w _ _ ((c.sha theirs).take 10) [] rfl rfl (by simp [html]), h3]

/-- The form and POST have different ids for the same code, so it is compiled for each. -/
theorem form_compiles_again (c : Conf) (wrap : Str → Str) (w w' : World) (code : Str) (f g : Fn) (hl : 10 < (c.sha code).length) (hf : w (sourceOf c "code.cc".toList code) = some f) (hg : w' (sourceOf c "code.cc".toList code) = some g) :
    replyN c wrap (w', { method := .other, code := code, accept := some "text/html".toList }) [(w, { method := .post, body := code })] = if code = [] then .form [] none none false else .form code (some (wrap (c.sha code))) (some g) false := by
  have h1 : stateN c wrap [(w, { method := .post, body := code })] = [((c.sha code).take 10, f)] := by
    simp only [stateN, serveN, html, upload, reduceCtorEq, if_false, if_true, Bool.false_eq_true, hf]
    simp [Map.find, Map.set]
  have hne : (c.sha code).take 10 ≠ c.sha code := by
    intro e
    have := congrArg List.length e
    rw [List.length_take] at this
    omega
  have h2 : (stateN c wrap [(w, { method := .post, body := code })]).find (c.sha code) = none := by rw [h1]; simp [Map.find, hne]
  have h3 : html { method := .other, code := code, accept := some "text/html".toList } = some true := by
    simp only [html]; rfl
  simp only [replyN, serveN, h3, reduceCtorEq, if_false, h2, hg, Bool.true_eq_false]
  split
  · rename_i e; subst e; rfl
  · rfl

/-- C137 (h): the `Accept` header is harmless if each of its parts has something but semicolons. -/
theorem accept_defined (hs : List Str) (h : ∀ x ∈ hs, ∃ ch ∈ x, ch ≠ ';') : wantsHtml hs ≠ none := by
  induction hs with
  | nil => simp [wantsHtml]
  | cons x hs ih =>
    unfold wantsHtml
    obtain ⟨ch, hc, hne⟩ := h x (by simp)
    split
    · rename_i he
      have h2 := (split_loses_only_separators (matchChar ';') false x).2
      rw [he] at h2
      have : ch ∈ x.filter (fun c => !matchChar ';' c) := List.mem_filter.2 ⟨hc, by simp [matchChar, hne]⟩
      rw [← h2] at this
      simp at this
    · split
      · simp
      · exact ih (fun y hy => h y (by simp [hy]))

/-- But `Accept: ;` is undefined behavior, for any method. -/
theorem accept_crash (c : Conf) (wrap : Str → Str) (w : World) (m : Method) (past : History) : replyN c wrap (w, { method := m, accept := some ";".toList }) past = .undefined := by
  have : html { method := m, accept := some ";".toList } = none := by simp only [html]; rfl
  simp only [replyN, serveN, this]

/-- A space before it, as browsers do not but others do send, and HTML is not seen. -/
example : html { method := .other, accept := some "text/plain, text/html".toList } = some false := by decide
example : html { method := .other, accept := some "text/plain,text/html;q=0.9".toList } = some true := by decide

/-- A history of the first service: code which does not compile, code, the same again, and requests for it. -/
def demoConf : Conf := ⟨fun s => 'h' :: s, [], []⟩
def demoWorld : World := fun s => if s = "good".toList then some 7 else none
def demoHist : History := [(demoWorld, { method := .post, body := "good".toList }), (demoWorld, { method := .post, body := "bad".toList })]
example : replyD demoConf (demoWorld, { method := .post, body := "good".toList }) demoHist = .already "hgood".toList := by decide
example : replyD demoConf (demoWorld, { method := .other, args := ["hgood".toList] }) demoHist = .ran 7 := by decide
example : replyD demoConf (demoWorld, { method := .other, args := ["hbad".toList] }) demoHist = .notFound := by decide
example : replyD demoConf (demoWorld, { method := .post, body := "bad".toList }) [] = .compileError := by decide

/-! ### When requests can come in -/

inductive Act | registerRoutes | constructHandlers | destroyHandlers | unregisterRoutes | request
deriving DecidableEq

structure Life where
  phase : Nat := 0
  served : Bool := false      -- the routes are registered
  alive : Bool := false       -- `handlers_` is there
  undefined : Bool := false   -- a request has used it when it was not

/-- The members are constructed in the order in which they are declared: `routes_`, then `handlers_` (`impl.h:26-34`, `nyc_taxi_dataset_service.h:101-110`), and destroyed in the reverse order. The server is another thread: requests come at any time they are served. -/
def Life.step (s : Life) : Act → Option Life
  | .registerRoutes => if s.phase = 0 then some { s with phase := 1, served := true } else none
  | .constructHandlers => if s.phase = 1 then some { s with phase := 2, alive := true } else none
  | .destroyHandlers => if s.phase = 2 then some { s with phase := 3, alive := false } else none
  | .unregisterRoutes => if s.phase = 3 then some { s with phase := 4, served := false } else none
  | .request => if s.served then some { s with undefined := s.undefined || !s.alive } else none

def Life.run (s : Life) : List Act → Option Life
  | [] => some s
  | a :: as => match s.step a with | none => none | some s' => s'.run as

/-- C137 (i): a request while the service is being constructed or destroyed uses a map which is not there. -/
theorem request_too_early : ∃ s, ({} : Life).run [.registerRoutes, .request] = some s ∧ s.undefined = true := ⟨_, rfl, rfl⟩
theorem request_too_late : ∃ s, ({} : Life).run [.registerRoutes, .constructHandlers, .request, .destroyHandlers, .request] = some s ∧ s.undefined = true := ⟨_, rfl, rfl⟩

/-- Requests in between are well. -/
theorem requests_in_between (n : Nat) : ∃ s, ({} : Life).run ([.registerRoutes, .constructHandlers] ++ List.replicate n .request ++ [.destroyHandlers, .unregisterRoutes]) = some s ∧ s.undefined = false ∧ s.served = false := by
  have h : ∀ n (s : Life), s.served = true → s.alive = true → s.undefined = false → s.phase = 2 → ∃ s', s.run (List.replicate n .request ++ [.destroyHandlers, .unregisterRoutes]) = some s' ∧ s'.undefined = false ∧ s'.served = false := by
    intro n
    induction n with
    | zero => intro s h1 h2 h3 h4; exact ⟨{ phase := 4, undefined := s.undefined }, by simp [Life.run, Life.step, h4], h3, rfl⟩
    | succ n ih =>
      intro s h1 h2 h3 h4
      have e : s.step .request = some { s with undefined := s.undefined || !s.alive } := by simp [Life.step, h1]
      rw [List.replicate_succ, List.cons_append]
      simp only [Life.run, e]
      exact ih _ h1 h2 (by simp [h2, h3]) h4
  obtain ⟨s, h1, h2⟩ := h n { phase := 2, served := true, alive := true } rfl rfl rfl rfl
  exact ⟨s, h1, h2⟩

end Current.CodeService
