import Verif.Rest.Cond
import Verif.Time.DateText
/-!
Conditional requests with HTTP dates (C81).
-/
namespace Current.Rest
open Current.Persist Current.Url Current.Strings Current.Storage

variable {F K R C E P V : Type} [DecidableEq F] [DecidableEq K] [DecidableEq R] [DecidableEq C]

/-- **C81.** A client that sends the text of `Last-Modified` (structured.h:159, 309, 369, 437, 493) as `If-Unmodified-Since`. -/
theorem header_date (api : Api K R C E) (ha : api.flavor = .hypermedia) (hp : api.parseDate = fun s => HttpDate.parseHTTPDate s) (req : Req) (t : Int)
    (ht : HttpDate.FitsUs t) (h0 : 0 ≤ t) (hh : req.headers hCurrentIus = none) (hd : req.headers hIus = some (HttpDate.formatIMF t)) :
    unmodifiedSince api req = some (some (t / 1000000 * 1000000 + 999999)) := by
  have := HttpDate.imf_round_trip ht h0 []
  rw [List.append_nil] at this
  simp only [unmodifiedSince, ha, hh, hd, hp, this]
  rfl

/-- **C81.** A text that is no date is refused with the code 400 (`serve_bad`). -/
theorem header_no_date (api : Api K R C E) (ha : api.flavor = .hypermedia) (hp : api.parseDate = fun s => HttpDate.parseHTTPDate s) (req : Req) (x : Str)
    (hx : ∀ n ∈ HttpDate.abDays, n.map HttpDate.lower ≠ (x.take 3).map HttpDate.lower) (hh : req.headers hCurrentIus = none) (hd : req.headers hIus = some x) :
    unmodifiedSince api req = none := by
  have := HttpDate.parse_bad x hx .upper
  simp only [unmodifiedSince, ha, hh, hd, hp, this]
  rfl

theorem same_second (t u : Int) (h1 : t < u) (h2 : u ≤ t / 1000000 * 1000000 + 999999) : u / 1000000 = t / 1000000 := by omega

/-- **C81.** No lost updates with HTTP dates, up to the second: as `no_lost_update`, with the text of the time `t` in `If-Unmodified-Since`. If the client's request replaced, changed
or removed an entry that is not the one it saw, then that one had been replaced later than `t`, but within the same second. -/
theorem no_lost_update_date (api : Api K R C E) (ha : api.flavor = .hypermedia) (hp : api.parseDate = fun s => HttpDate.parseHTTPDate s)
    {S : F → Schema K R C E P} (hS : ∀ f, (S f).KeepsKeys) {kinds : F → Kind}
    {st st₁ st₂ : Storage F K R C E P} (h : st.Good S kinds) (f : F) {env₀ env : Env E} {req₀ req : Req} {e : E} {t : Int} {kt : KeyText}
    (hget : req₀.method = .get) (hk₀ : keyOfUrl (isDict (st.fields f)) req₀.args req₀.query = some kt)
    (hseen : serve api S f st env₀ req₀ = some (st, { code := 200, body := .entry e, lastModified := some t }))
    {l : List (Step F K R C E P V)} (hl : Leads api S kinds st l st₁) (hlate : ∀ x ∈ l, After t x)
    (hm : req.method = .put ∨ req.method = .patch ∨ req.method = .delete) (hk : keyOfUrl (isDict (st₁.fields f)) req.args req.query = some kt)
    (ht : HttpDate.FitsUs t) (h0 : 0 ≤ t) (hh : req.headers hCurrentIus = none) (hd : req.headers hIus = some (HttpDate.formatIMF t))
    (hc : env.clock.Ok st₁) {r : Resp K R C E} (hres : serve api S f st₁ env req = some (st₂, r)) :
    (∃ u : Int, t < u ∧ u / 1000000 = t / 1000000 ∧ lastMod (st₁.fields f) (api.parseKey kt) = some u) ∨
    ((entryAt (st₁.fields f) (api.parseKey kt) = some e ∧ lastMod (st₁.fields f) (api.parseKey kt) = some t) ∨ st₂ = st₁ ∨
      (req.method = .put ∧ entryAt (st₁.fields f) (api.parseKey kt) = none)) ∧
    (r.code = 200 → req.method ≠ .delete → entryAt (st₁.fields f) (api.parseKey kt) = some e) := by
  rcases no_lost_update_since (V := V) api ha hS h f hget hk₀ hseen hl hlate hm hk (header_date api ha hp req t ht h0 hh hd) hc hres with ⟨u, h1, h2, h3⟩ | h'
  · exact .inl ⟨u, h1, same_second t u h1 h2, h3⟩
  · exact .inr h'

end Current.Rest
