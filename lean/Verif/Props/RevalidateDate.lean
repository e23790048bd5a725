import Verif.Props.Revalidate
/-! Property theorems C140: a client that keeps copies and asks by date whether they are still good,
over any number of requests. -/
namespace Verif.Props.Desc
open Verif Verif.Headers Verif.Spec Verif.Desc Verif.Date Verif.Response Verif.Props.Resp
  Verif.Spec.Calendar Verif.Props.DateP

/-! ### Both sides of the exchange -/

/-- A view that assigns `last_modified` and calls `make_conditional` on the response it has made
(responses.py:674-718, 899-911), and what is sent for it: status code, headers and body
(responses.py:496-601).  `none` means that a step raised. -/
def answerDated (cfg : Cfg) (iri absolute : Str → Except PyErr Str) (now : DateTime) (fuel : Nat)
    (ims : Option Str) (modified : DateTime) (r : Resp) : Option (Int × HList × List Item) :=
  match (dateProp s%"Last-Modified").set cfg.lower r.headers modified with
  | (_, .error _) => none
  | (h, .ok _) =>
    match makeConditional cfg now fuel s%"GET" none ims { r with headers := h } with
    | some (r2, .ok _) =>
      match wsgiHeaders cfg iri absolute r2, (appIter s%"GET" r2).yields cfg with
      | .ok h, .ok ys => some (r2.code, h, ys)
      | _, _ => none
    | _ => none

/-- One request: the response the view makes, the body it has, when it says the document was last
modified, and the time. -/
structure DatedVisit where
  page : Resp
  body : Bytes
  modified : DateTime
  now : DateTime

/-- The copy a client keeps: the text of Last-Modified it was given and the body. -/
structure DatedCopy where
  date : Str
  body : Bytes

/-- What a client sees of one request: the status code, the bytes that are transferred, and the
document it shows. -/
structure DatedSeen where
  code : Int
  sent : Bytes
  shown : Bytes
deriving DecidableEq

/-- A client that sends the date of its copy, if it has one, as If-Modified-Since, shows the copy when
it is told that it has not changed, and keeps what it receives otherwise. -/
def browseDated (cfg : Cfg) (iri absolute : Str → Except PyErr Str) (fuel : Nat) :
    Option DatedCopy → List DatedVisit → Option (List DatedSeen)
  | _, [] => some []
  | kept, v :: vs =>
    match answerDated cfg iri absolute v.now fuel (kept.map (·.date)) v.modified v.page with
    | none => none
    | some (code, h, ys) =>
      if code = 304 then
        (browseDated cfg iri absolute fuel kept vs).map (⟨code, octets ys, (kept.map (·.body)).getD []⟩ :: ·)
      else
        (browseDated cfg iri absolute fuel
            ((getItem cfg.lower h s%"Last-Modified").map fun t => ⟨t, octets ys⟩) vs).map
          (⟨code, octets ys, octets ys⟩ :: ·)

/-! ### What is expected -/

/-- The documents, each with the second it was last modified in, and what the client shows for them:
its copy as long as none is dated later, and a document that is dated later in full. -/
def expectedByDate : Option (Int × Bytes) → List (Int × Bytes) → List DatedSeen
  | _, [] => []
  | none, (m, b) :: rest => ⟨200, b, b⟩ :: expectedByDate (some (m, b)) rest
  | some (k, c), (m, b) :: rest =>
    if m ≤ k then ⟨304, [], c⟩ :: expectedByDate (some (k, c)) rest
    else ⟨200, b, b⟩ :: expectedByDate (some (m, b)) rest

/-- A response to a GET request as a view makes it: status 200, no tag, a body that can be encoded,
headers that can be sent as they are, and a date that can be written. -/
def DatedPage (cfg : Cfg) (v : DatedVisit) : Prop :=
  v.page.code = 200 ∧ v.page.direct = false ∧ getlist cfg.lower v.page.headers s%"etag" = [] ∧
  (∃ bs, encodeAll cfg v.page.body.items = .ok bs ∧ bs.flatten = v.body) ∧
  Plain cfg.lower v.page.headers ∧ Spec.Calendar.Valid v.modified ∧ 100 ≤ v.modified.year

/-! ### Proof -/

/-- One exchange. -/
theorem dated_spec (cfg : Cfg) (hn : Names cfg.lower) (hl : LowerNames cfg.lower)
    (hM : cfg.lower s%"Last-Modified" = s%"last-modified") (iri absolute : Str → Except PyErr Str) (n : Nat)
    (hpos : 0 < n) (v : DatedVisit) (hv : DatedPage cfg v) (kept : Option DateTime)
    (hk : ∀ t, kept = some t → Spec.Calendar.Valid t ∧ 100 ≤ t.year) :
    ∃ code h ys, answerDated cfg iri absolute v.now n (kept.map httpDate) v.modified v.page = some (code, h, ys) ∧
      ((∃ k, kept = some k ∧ epoch v.modified ≤ epoch k) → code = 304 ∧ octets ys = []) ∧
      ((∀ k, kept = some k → epoch k < epoch v.modified) →
        code = 200 ∧ octets ys = v.body ∧ getItem cfg.lower h s%"Last-Modified" = some (httpDate v.modified)) := by
  obtain ⟨hcode, hdir, htag, ⟨bs, hbs, hbody⟩, hplain, hval, hyear⟩ := hv
  have hleg := legal_httpDate v.modified
  have hset : (dateProp s%"Last-Modified").set cfg.lower v.page.headers v.modified =
      ((Headers.set cfg.lower v.page.headers s%"Last-Modified" (httpDate v.modified) []).1, .ok ()) := by
    simp only [HeaderProp.set, dateProp, Bool.false_eq_true, if_false]
    generalize httpDate v.modified = t at hleg ⊢
    exact Prod.ext rfl (set_ok _ _ _ _ hleg)
  have hp1 : Plain cfg.lower (Headers.set cfg.lower v.page.headers s%"Last-Modified" (httpDate v.modified) []).1 := by
    generalize httpDate v.modified = t at hleg ⊢
    exact plain_set _ _ _ _ hplain hleg (by rw [hM]; decide)
  have hg : ∀ x, getlist cfg.lower
      (Headers.set cfg.lower v.page.headers s%"Last-Modified" (httpDate v.modified) []).1 x =
      if cfg.lower x = s%"last-modified" then [httpDate v.modified] else getlist cfg.lower v.page.headers x := by
    intro x
    generalize httpDate v.modified = t at hleg ⊢
    rw [getlist_set _ _ _ _ _ hleg, hM]
  unfold answerDated
  rw [hset]
  simp only
  generalize (Headers.set cfg.lower v.page.headers s%"Last-Modified" (httpDate v.modified) []).1 = h1 at hp1 hg ⊢
  obtain ⟨r2, d1, d2, d3, d4, d5, -, -⟩ := C79_decision_partial cfg hn v.now s%"GET" (.inl rfl) none false kept
    (some v.modified) nofun hk (by intro t e; cases e; exact ⟨hval, hyear⟩) none nofun n nofun hpos
    { v.page with headers := h1 } bs hbs
    (by rw [getItem_eq, hg, if_neg (by rw [hn.etag']; decide), htag]; rfl)
    (by rw [getItem_eq, hg, if_pos hn.modified]; rfl)
  have d1' : makeConditional cfg v.now n s%"GET" none (kept.map httpDate) { v.page with headers := h1 } =
      some (r2, .ok ()) := d1
  rw [d1']
  simp only
  have hr2d := conditional_direct cfg v.now n _ _ _ r2 d1'
  have p2 := conditional_plain cfg hn v.now n _ _ { v.page with headers := h1 } r2 hp1 bs hbs d1'
  obtain ⟨h', e3⟩ := plain_wsgi cfg iri absolute r2 p2
  have hsg : StillGood none false kept none (some v.modified) ↔
      ∃ k, kept = some k ∧ epoch v.modified ≤ epoch k := by
    have ht : ∀ k, kept = some k → (v.modified.total ≤ k.total ↔ epoch v.modified ≤ epoch k) := by
      intro k e
      rw [epoch_total _ hval, epoch_total _ (hk k e).1]; omega
    constructor
    · rintro ⟨i, l, e1, e2, e3⟩
      cases e2
      exact ⟨i, e1, (ht i e1).mp e3⟩
    · rintro ⟨k, e1, e2⟩
      exact ⟨k, _, e1, rfl, (ht k e1).mpr e2⟩
  by_cases hs : ∃ k, kept = some k ∧ epoch v.modified ≤ epoch k
  · have h304 := (d2 (hsg.mpr hs)).1
    have hy := C51_no_body cfg s%"GET" r2 (.inr (.inr (.inr h304)))
    refine ⟨r2.code, h', _, by rw [e3, hy], fun _ => ⟨h304, rfl⟩, fun hno => ?_⟩
    obtain ⟨k, e1, e2⟩ := hs
    have := hno k e1
    omega
  · have hc2 : r2.code = 200 := by rw [(d3 fun x => hs (hsg.mp x)).1]; exact hcode
    have hy := C51_otherwise_body cfg s%"GET" r2 (by simp [Bodyless, hc2])
    rw [hr2d, d4] at hy
    simp only [hdir, Bool.false_eq_true, if_false, Except.map] at hy
    refine ⟨r2.code, h', _, by rw [e3, hy], fun x => absurd x hs, fun _ => ⟨hc2, ?_, ?_⟩⟩
    · simp only [octets_bytes, hbody]
    · rw [wsgi_keep cfg hl iri absolute _ (by rw [hM]; decide) r2 (fun e => by rw [hc2] at e; cases e) h' e3, getItem_eq,
        d5 _ (by rw [hM]; decide), hg, if_pos hM]
      rfl

theorem browseDated_spec (cfg : Cfg) (hn : Names cfg.lower) (hl : LowerNames cfg.lower)
    (hM : cfg.lower s%"Last-Modified" = s%"last-modified") (iri absolute : Str → Except PyErr Str) (n : Nat)
    (hpos : 0 < n) (visits : List DatedVisit) : ∀ (kept : Option (DateTime × Bytes)),
    (∀ t, kept = some t → Spec.Calendar.Valid t.1 ∧ 100 ≤ t.1.year) → (∀ v ∈ visits, DatedPage cfg v) →
    browseDated cfg iri absolute n (kept.map fun b => ⟨httpDate b.1, b.2⟩) visits =
      some (expectedByDate (kept.map fun b => (epoch b.1, b.2)) (visits.map fun v => (epoch v.modified, v.body))) := by
  induction visits with
  | nil => intro kept _ _; cases kept <;> rfl
  | cons v vs ih =>
    intro kept hk hp
    have hv := hp v (by simp)
    have hvs : ∀ w ∈ vs, DatedPage cfg w := fun w hw => hp w (by simp [hw])
    have hmap : (kept.map fun b => (⟨httpDate b.1, b.2⟩ : DatedCopy)).map (·.date) = (kept.map (·.1)).map httpDate := by
      cases kept <;> rfl
    obtain ⟨code, h, ys, e1, e2, e3⟩ := dated_spec cfg hn hl hM iri absolute n hpos v hv (kept.map (·.1)) (by
      intro t e
      cases kept with
      | none => simp at e
      | some p => simp at e; subst e; exact hk p rfl)
    have new := ih (some (v.modified, v.body)) (by intro t e; cases e; exact hv.2.2.2.2.2) hvs
    have old := ih kept hk hvs
    unfold browseDated
    rw [hmap, e1]
    simp only
    cases kept with
    | none =>
      obtain ⟨rfl, o1, o2⟩ := e3 nofun
      rw [if_neg (by decide), o2, o1]
      simp only [Option.map_some] at new
      simp only [Option.map_some]
      rw [new]; rfl
    | some p =>
      obtain ⟨k, c⟩ := p
      simp only [Option.map_some, List.map_cons, expectedByDate] at *
      by_cases hle : epoch v.modified ≤ epoch k
      · obtain ⟨rfl, o1⟩ := e2 ⟨k, rfl, hle⟩
        rw [if_pos rfl, if_pos hle, old, o1]; rfl
      · obtain ⟨rfl, o1, o2⟩ := e3 (by intro k' e; cases e; omega)
        rw [if_neg (by decide), if_neg hle, o2, o1]
        simp only [Option.map_some]
        rw [new]; rfl

/-- C140.  A client that keeps the documents it receives and asks by the date it was given: over any
number of requests, every request is answered; the client is told that nothing changed, and shows its
copy, exactly when the current document is not dated in a later second than the copy, and receives
the document in full otherwise. -/
theorem C140_exchange (cfg : Cfg) (hn : Names cfg.lower) (hl : LowerNames cfg.lower)
    (hM : cfg.lower s%"Last-Modified" = s%"last-modified") (iri absolute : Str → Except PyErr Str) (n : Nat)
    (hpos : 0 < n) (visits : List DatedVisit) (hp : ∀ v ∈ visits, DatedPage cfg v) :
    browseDated cfg iri absolute n none visits =
      some (expectedByDate none (visits.map fun v => (epoch v.modified, v.body))) :=
  browseDated_spec cfg hn hl hM iri absolute n hpos visits none nofun hp

theorem expected_current (docs : List (Int × Bytes)) : ∀ kept : Option (Int × Bytes),
    (∀ k, kept = some k → ∀ d ∈ docs, k.2 ≠ d.2 → k.1 < d.1) →
    docs.Pairwise (fun a b => a.2 ≠ b.2 → a.1 < b.1) →
    (expectedByDate kept docs).map (·.shown) = docs.map (·.2) := by
  induction docs with
  | nil => intro kept _ _; cases kept <;> rfl
  | cons d ds ih =>
    intro kept hk hd
    obtain ⟨m, b⟩ := d
    rw [List.pairwise_cons] at hd
    have new := ih (some (m, b)) (by intro k e d hd'; cases e; exact hd.1 d hd') hd.2
    cases kept with
    | none => simp only [expectedByDate, List.map_cons, new]
    | some p =>
      obtain ⟨k, c⟩ := p
      have old := ih (some (k, c)) (fun k' e d hd' => hk k' e d (by simp [hd'])) hd.2
      simp only [expectedByDate]
      split
      · rename_i hle
        have hcb : c = b := by
          by_cases e : c = b
          · exact e
          · have := hk (k, c) rfl (m, b) (by simp) e
            simp only at this; omega
        simp only [List.map_cons, old]
        rw [hcb]
      · simp only [List.map_cons, new]

/-- C140.  The client always shows the current document when every change of the document moves its
date to a later second than it has had.  What is missing: this is needed, see `C140_stale_false`. -/
theorem C140_current_partial (cfg : Cfg) (hn : Names cfg.lower) (hl : LowerNames cfg.lower)
    (hM : cfg.lower s%"Last-Modified" = s%"last-modified") (iri absolute : Str → Except PyErr Str) (n : Nat)
    (hpos : 0 < n) (visits : List DatedVisit) (hp : ∀ v ∈ visits, DatedPage cfg v)
    (hd : visits.Pairwise fun a b => a.body ≠ b.body → epoch a.modified < epoch b.modified) :
    ∃ seen, browseDated cfg iri absolute n none visits = some seen ∧
      seen.map (·.shown) = visits.map (·.body) := by
  refine ⟨_, C140_exchange cfg hn hl hM iri absolute n hpos visits hp, ?_⟩
  rw [expected_current _ none nofun (by rw [List.pairwise_map]; exact hd)]
  simp

/-- C140 (the claim without the condition is false).  Whenever a document replaces another without a
later date, in the same second, say, or because an older file is put back, a client that has the first
is told that nothing has changed and goes on showing it. -/
theorem C140_stale_false (cfg : Cfg) (hn : Names cfg.lower) (hl : LowerNames cfg.lower)
    (hM : cfg.lower s%"Last-Modified" = s%"last-modified") (iri absolute : Str → Except PyErr Str) (n : Nat)
    (hpos : 0 < n) (a b : DatedVisit) (ha : DatedPage cfg a) (hb : DatedPage cfg b)
    (hd : epoch b.modified ≤ epoch a.modified) :
    browseDated cfg iri absolute n none [a, b] = some [⟨200, a.body, a.body⟩, ⟨304, [], a.body⟩] := by
  rw [C140_exchange cfg hn hl hM iri absolute n hpos [a, b] (by simp [ha, hb])]
  simp [expectedByDate, hd]

/-! ### Cases -/

/-- A document that is asked for twice, and a later one. -/
def datedVisits : List DatedVisit :=
  let now : DateTime := ⟨2020, 1, 1, 0, 0, 0⟩
  let typ : HList := [(s%"Content-Type", s%"text/plain")]
  [⟨⟨typ, s%"200 OK", 200, .list [.bytes b%"ab"], [], false⟩, b%"ab", ⟨2019, 12, 31, 23, 59, 59⟩, now⟩,
   ⟨⟨typ, s%"200 OK", 200, .stream [.text s%"ab"] true, [], false⟩, b%"ab", ⟨2019, 12, 31, 23, 59, 59⟩, now⟩,
   ⟨⟨typ, s%"200 OK", 200, .tuple [.bytes b%"c"], [], false⟩, b%"c", ⟨2020, 1, 1, 0, 0, 0⟩, now⟩]

example : (∀ v ∈ datedVisits, DatedPage demo v) ∧
    datedVisits.Pairwise (fun a b => a.body ≠ b.body → epoch a.modified < epoch b.modified) := by
  refine ⟨?_, by decide +kernel⟩
  intro v hv
  simp only [datedVisits, List.mem_cons, List.not_mem_nil, or_false] at hv
  rcases hv with rfl | rfl | rfl
  all_goals exact ⟨rfl, rfl, by decide, ⟨_, rfl, by decide⟩, by unfold Plain LegalValue; decide,
    by unfold Spec.Calendar.Valid; decide, by decide⟩

example : browseDated demo .ok .ok 5 none datedVisits =
    some [⟨200, b%"ab", b%"ab"⟩, ⟨304, [], b%"ab"⟩, ⟨200, b%"c", b%"c"⟩] := by decide +kernel

/-- The date of the first document is kept for the third: the client does not see it. -/
example : browseDated demo .ok .ok 5 none (datedVisits.map fun v => { v with modified := ⟨2020, 1, 1, 0, 0, 0⟩ }) =
    some [⟨200, b%"ab", b%"ab"⟩, ⟨304, [], b%"ab"⟩, ⟨304, [], b%"ab"⟩] := by decide +kernel

end Verif.Props.Desc
