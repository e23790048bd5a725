import Verif.Props.Descriptors
/-! Property theorems C136: a client that keeps copies and asks whether they are still good, over
any number of requests. -/
namespace Verif.Props.Desc
open Verif Verif.Headers Verif.Spec Verif.Desc Verif.Date Verif.Response Verif.Props.Resp
  Verif.Spec.Calendar Verif.Props.DateP

/-! ### Both sides of the exchange -/

/-- A view that calls `add_etag` and `make_conditional` on the response it has made (responses.py:674-718),
and what is sent for it: status code, headers and body (responses.py:496-601).  `none` means that a step
raised. -/
def answerGet (cfg : Cfg) (md5 : Bytes → Str) (weak : Bool) (iri absolute : Str → Except PyErr Str)
    (now : DateTime) (fuel : Nat) (inm : Option Str) (r : Resp) : Option (Int × HList × List Item) :=
  match addEtag cfg md5 r false weak with
  | (_, .error _) => none
  | (r1, .ok _) =>
    match makeConditional cfg now fuel s%"GET" inm none r1 with
    | some (r2, .ok _) =>
      match wsgiHeaders cfg iri absolute r2, (appIter s%"GET" r2).yields cfg with
      | .ok h, .ok ys => some (r2.code, h, ys)
      | _, _ => none
    | _ => none

/-- The copy a client keeps: the tag it was given and the body. -/
structure Copy where
  tag : Str
  body : Bytes

/-- What a client sees of one request: the status code, the tag, the bytes that are transferred, and
the document it shows. -/
structure Seen where
  code : Int
  tag : Option Str
  sent : Bytes
  shown : Bytes
deriving DecidableEq

/-- The bytes of what the server passes on. -/
def octets (ys : List Item) : Bytes :=
  ys.flatMap fun | .bytes b => b | .text _ => []

/-- One request: the response the view makes, the body it has, and the time. -/
structure Visit where
  page : Resp
  body : Bytes
  now : DateTime

/-- A client that sends the tag of its copy, if it has one, shows the copy when it is told that it
has not changed, and keeps what it receives otherwise. -/
def browse (cfg : Cfg) (md5 : Bytes → Str) (weak : Bool) (iri absolute : Str → Except PyErr Str) (fuel : Nat) :
    Option Copy → List Visit → Option (List Seen)
  | _, [] => some []
  | kept, v :: vs =>
    match answerGet cfg md5 weak iri absolute v.now fuel (kept.map (·.tag)) v.page with
    | none => none
    | some (code, h, ys) =>
      let tag := getItem cfg.lower h s%"ETag"
      if code = 304 then
        (browse cfg md5 weak iri absolute fuel kept vs).map
          (⟨code, tag, octets ys, (kept.map (·.body)).getD []⟩ :: ·)
      else
        (browse cfg md5 weak iri absolute fuel (tag.map fun t => ⟨t, octets ys⟩) vs).map
          (⟨code, tag, octets ys, octets ys⟩ :: ·)

/-! ### What is expected -/

/-- The document is transferred when it is not the one of the request before, and only then; what is
shown is always the current one.  `tag` is the tag of a document. -/
def expected (tag : Bytes → Str) : Option Bytes → List Bytes → List Seen
  | _, [] => []
  | prev, b :: bs =>
    (if prev = some b then ⟨304, some (tag b), [], b⟩ else ⟨200, some (tag b), b, b⟩) ::
      expected tag (some b) bs

/-- The text of a tag as it is sent; see `C136_weak_limits`. -/
def tagOf (weak : Bool) (x : Str) : Str := (if weak then s%"w/" else []) ++ s%"\"" ++ x ++ s%"\""

/-- A response to a GET request as a view makes it: status 200, no tag yet, a body that can be
encoded, and no Last-Modified or a valid one. -/
def Page (cfg : Cfg) (v : Visit) : Prop :=
  v.page.code = 200 ∧ v.page.direct = false ∧ getlist cfg.lower v.page.headers s%"ETag" = [] ∧
  (∃ bs, encodeAll cfg v.page.body.items = .ok bs ∧ bs.flatten = v.body) ∧
  ∃ lm : Option DateTime, (∀ t, lm = some t → Spec.Calendar.Valid t ∧ 100 ≤ t.year) ∧
    getItem cfg.lower v.page.headers s%"last-modified" = lm.map httpDate

/-- What is needed of the hash: hexadecimal digits, say. -/
def Digest (md5 : Bytes → Str) : Prop :=
  ∀ b, md5 b ≠ [] ∧ '"' ∉ md5 b ∧ '\n' ∉ md5 b ∧ '\r' ∉ md5 b

/-! ### Proof -/

theorem octets_bytes (bs : List Bytes) : octets (bs.map .bytes) = bs.flatten := by
  induction bs with
  | nil => rfl
  | cons b bs ih => simpa [octets] using ih

theorem ensure_direct (cfg : Cfg) (r : Resp) : (ensureSequence cfg r false).1.direct = r.direct := by
  unfold ensureSequence makeSequence
  repeat' split
  all_goals rfl

theorem getData_direct (cfg : Cfg) (r r' : Resp) (b : Bytes) (h : getData cfg r = (r', .ok b)) :
    r'.direct = r.direct := by
  have := ensure_direct cfg r
  unfold getData at h
  repeat' split at h
  all_goals simp_all

theorem conditional_direct (cfg : Cfg) (now : DateTime) (n : Nat) (m : Str) (inm : Option Str) {ims : Option Str}
    (r r' : Resp) (h : makeConditional cfg now n m inm ims r = some (r', .ok ())) : r'.direct = r.direct := by
  have hd : (conditionalDate cfg now r).direct = r.direct := by unfold conditionalDate; split <;> rfl
  have hl : (conditionalLength cfg (conditionalDate cfg now r)).1.direct = r.direct := by
    rw [← hd]
    have he := ensure_direct cfg (conditionalDate cfg now r)
    have hc : (calcLength cfg (conditionalDate cfg now r)).1.direct = (conditionalDate cfg now r).direct := by
      rw [← he]
      unfold calcLength
      cases ensureSequence cfg (conditionalDate cfg now r) false with
      | mk a b => cases b with
        | ok _ => rfl
        | error e => cases e <;> rfl
    unfold conditionalLength
    split
    · cases hx : calcLength cfg (conditionalDate cfg now r) with
      | mk a b =>
        rw [hx] at hc
        cases b with
        | error e => exact hc
        | ok o => cases o <;> exact hc
    · rfl
  unfold makeConditional at h
  split at h
  · simp at h; rw [h]
  split at h
  · simp at h
  rename_i r1 _ he
  rw [he] at hl
  simp only at hl
  repeat' split at h
  all_goals simp at h
  · rw [← h]; exact hl
  · rw [← h]; exact hl

theorem addEtag_spec (cfg : Cfg) (hn : Names cfg.lower) (md5 : Bytes → Str) (hm : Digest md5) (weak : Bool) (r r1 : Resp)
    (bs : List Bytes) (hb : encodeAll cfg r.body.items = .ok bs)
    (ht : getlist cfg.lower r.headers s%"ETag" = [])
    (h : addEtag cfg md5 r false weak = (r1, .ok ())) :
    r1.code = r.code ∧ r1.direct = r.direct ∧ encodeAll cfg r1.body.items = .ok bs ∧
      (∀ x, cfg.lower x = s%"etag" → getlist cfg.lower r1.headers x = [tagOf weak (md5 bs.flatten)]) ∧
      (∀ x, cfg.lower x ≠ s%"etag" → getlist cfg.lower r1.headers x = getlist cfg.lower r.headers x) := by
  unfold addEtag at h
  have hc : contains cfg.lower r.headers s%"etag" = false := by
    have e := (C07_lookups cfg.lower r.headers s%"ETag" s%"etag" (by rw [hn.etag, hn.etag'])).2.2.2.2
    rw [← e]; unfold contains; rw [getItem_eq, ht]; rfl
  rw [if_pos (by simp [hc])] at h
  split at h
  · simp at h
  rename_i r' b hg
  obtain ⟨bs', e1, e2, e3, e4, e5, -⟩ := getData_eq cfg r r' b hg
  have hbs : bs' = bs := by rw [hb] at e1; exact (Except.ok.inj e1).symm
  subst hbs e2
  have hd := getData_direct cfg r r' _ hg
  obtain ⟨h1, hq, hl⟩ := hm bs'.flatten
  obtain ⟨q, q1, q2⟩ := quote_legal (md5 bs'.flatten) weak hq
  have hq' : q = tagOf weak (md5 bs'.flatten) := by
    have hc : ¬ ((md5 bs'.flatten).contains '"' = true) := by simpa using hq
    unfold Etag.quoteEtag at q1; rw [if_neg hc] at q1
    rw [← Except.ok.inj q1]
    cases weak <;> simp [tagOf]
  subst hq'
  have hs : setEtag cfg.lower r'.headers (md5 bs'.flatten) weak =
      Headers.set cfg.lower r'.headers s%"ETag" (tagOf weak (md5 bs'.flatten)) [] := by unfold setEtag; rw [q1]
  simp only [hs, Prod.mk.injEq] at h
  obtain ⟨rfl, -⟩ := h
  refine ⟨e5, hd, e3, ?_, ?_⟩
  · intro x hx
    rw [getlist_set _ _ _ _ _ (q2.mpr hl), if_pos (by rw [hx, hn.etag])]
  · intro x hx
    rw [getlist_set _ _ _ _ _ (q2.mpr hl), if_neg (by rw [hn.etag]; exact hx), e4]

/-- Sending the headers leaves those as they are that are not about length or place, and, for a 304,
not about the document. -/
theorem wsgi_getlist (cfg : Cfg) (hl : LowerNames cfg.lower) (iri absolute : Str → Except PyErr Str) (x : Str)
    (hpl : cfg.lower x ≠ s%"location" ∧ cfg.lower x ≠ s%"content-location" ∧ cfg.lower x ≠ s%"content-length")
    (r : Resp) (he304 : r.code = 304 → entityHeaders.contains (cfg.lower x) = false)
    (h : HList) (hh : wsgiHeaders cfg iri absolute r = .ok h) :
    getlist cfg.lower h x = getlist cfg.lower r.headers x := by
  have hset : ∀ (l : HList) (k v : Str), cfg.lower x ≠ cfg.lower k →
      getlist cfg.lower (Headers.set cfg.lower l k v []).1 x = getlist cfg.lower l x := by
    intro l k v hk
    exact sameOthers_get cfg.lower k _ (sameOthers_set cfg.lower l k v) hk
  unfold wsgiHeaders at hh
  split at hh
  · cases hh
  rename_i ha hea
  have h1 : getlist cfg.lower ha x = getlist cfg.lower r.headers x := by
    unfold fixLocation at hea
    repeat' split at hea
    all_goals first
      | (cases hea; done)
      | (rw [← Except.ok.inj hea]; done)
      | (rename_i hx
         rw [← Except.ok.inj hea, ← hset r.headers s%"Location" _ (by rw [hl.location]; exact hpl.1), hx])
  split at hh
  · cases hh
  rename_i hb heb
  have h2 : getlist cfg.lower hb x = getlist cfg.lower ha x := by
    unfold fixContentLocation at heb
    repeat' split at heb
    all_goals first
      | (cases heb; done)
      | (rw [← Except.ok.inj heb]; done)
      | (rename_i hx
         rw [← Except.ok.inj heb, ← hset ha s%"Content-Location" _ (by rw [hl.contentLocation]; exact hpl.2.1), hx])
  rw [← h1, ← h2]
  unfold fixLength at hh
  split at hh
  · rw [← Except.ok.inj hh]; exact hset _ _ _ (by rw [hl.length]; exact hpl.2.2)
  split at hh
  · rename_i h3
    unfold dropEntity setSlice at hh
    split at hh
    · cases hh
    rename_i h' _ he
    cases hh
    split at he
    · cases he
    cases he
    simp only [List.take_zero, List.nil_append, List.drop_length, List.append_nil,
      Nat.max_eq_right, Nat.zero_le]
    rw [getlist_eq, getlist_eq]
    congr 1
    unfold removeEntityHeaders isEntityHeader
    rw [List.filter_filter]
    apply List.filter_congr
    intro p _
    by_cases e : cfg.lower p.1 = cfg.lower x
    · have := he304 (by simpa using h3)
      simp [e]; left; simpa using this
    · simp [e]
  split at hh
  · rw [← Except.ok.inj hh]; exact hset _ _ _ (by rw [hl.length]; exact hpl.2.2)
  · rw [Except.ok.inj hh]

theorem wsgi_keep (cfg : Cfg) (hl : LowerNames cfg.lower) (iri absolute : Str → Except PyErr Str) (x : Str)
    (hpl : cfg.lower x ≠ s%"location" ∧ cfg.lower x ≠ s%"content-location" ∧ cfg.lower x ≠ s%"content-length")
    (r : Resp) (he304 : r.code = 304 → entityHeaders.contains (cfg.lower x) = false)
    (h : HList) (hh : wsgiHeaders cfg iri absolute r = .ok h) :
    getItem cfg.lower h x = getItem cfg.lower r.headers x := by
  rw [getItem_eq, getItem_eq, wsgi_getlist cfg hl iri absolute x hpl r he304 h hh]

/-- Sending the headers leaves the tag as it is. -/
theorem wsgi_tag (cfg : Cfg) (hn : Names cfg.lower) (hl : LowerNames cfg.lower) (iri absolute : Str → Except PyErr Str)
    (r : Resp) (h : HList) (hh : wsgiHeaders cfg iri absolute r = .ok h) :
    getItem cfg.lower h s%"ETag" = getItem cfg.lower r.headers s%"ETag" :=
  wsgi_keep cfg hl iri absolute s%"ETag" (by rw [hn.etag]; decide) r (fun _ => by rw [hn.etag]; decide) h hh

/-- One exchange. -/
theorem answer_spec (cfg : Cfg) (hn : Names cfg.lower) (hl : LowerNames cfg.lower) (md5 : Bytes → Str)
    (hm : Digest md5) (weak : Bool) (iri absolute : Str → Except PyErr Str) (n : Nat) (hpos : 1 < n)
    (v : Visit) (hv : Page cfg v) (kept : Option Bytes) (code : Int) (h : HList) (ys : List Item)
    (ha : answerGet cfg md5 weak iri absolute v.now n (kept.map fun b => tagOf weak (md5 b)) v.page =
      some (code, h, ys)) :
    getItem cfg.lower h s%"ETag" = some (tagOf weak (md5 v.body)) ∧
    (if kept.map md5 = some (md5 v.body) then code = 304 ∧ octets ys = []
      else code = 200 ∧ octets ys = v.body) := by
  obtain ⟨hcode, hdir, htag, ⟨bs, hbs, hbody⟩, lm, hlm, hgl⟩ := hv
  unfold answerGet at ha
  split at ha
  · cases ha
  rename_i r1 _ hadd
  obtain ⟨a1, a2, a3, a4, a5⟩ := addEtag_spec cfg hn md5 hm weak v.page r1 bs hbs htag hadd
  rw [hbody] at a4
  obtain ⟨hne, hq, hleg⟩ := hm v.body
  have hqu : ∀ b, (Etag.quoteEtag (md5 b) weak).toOption.getD [] = tagOf weak (md5 b) := by
    intro b
    have hc : ¬ ((md5 b).contains '"' = true) := by simpa using (hm b).2.1
    unfold Etag.quoteEtag; rw [if_neg hc]
    cases weak <;> simp [tagOf, Except.toOption]
  let inm : Option (List Str × List Str) := kept.map fun b => if weak then ([], [md5 b]) else ([md5 b], [])
  have hhead : EtagAux.header inm false = kept.map fun b => tagOf weak (md5 b) := by
    cases kept with
    | none => rfl
    | some b => cases weak <;> simp [inm, tagOf, EtagAux.header, Etag.mk, Etag.ETags.toHeader, Etag.tagText, Py.join]
  obtain ⟨r2, d1, d2, d3, d4, d5, -, -⟩ := C79_decision_partial cfg hn v.now s%"GET" (.inl rfl) inm false none lm
    (by
      intro S W e
      cases kept with
      | none => simp [inm] at e
      | some b =>
        obtain ⟨p1, p2, p3⟩ := hm b
        cases weak <;> simp [inm] at e <;> obtain ⟨rfl, rfl⟩ := e <;> simp [p1, p2, p3.1])
    (by simp) hlm (some (md5 v.body, weak)) (by intro t w e; simp at e; rw [← e.1]; exact hq) n
    (by
      intro S W e
      cases kept with
      | none => simp [inm] at e
      | some b => cases weak <;> simp [inm] at e <;> obtain ⟨rfl, rfl⟩ := e <;> simpa using hpos)
    (by omega) r1 bs a3
    (by rw [getItem_eq, a4 _ hn.etag']; simp [hqu])
    (by rw [getItem_eq, a5 _ (by rw [hn.modified]; decide), ← getItem_eq, hgl])
  rw [← hhead, show (none : Option Str) = (none : Option DateTime).map httpDate from rfl, d1] at ha
  simp only at ha
  have hr2d := conditional_direct cfg v.now n _ _ r1 r2 d1
  split at ha
  · rename_i h' ys' hw hy
    simp only [Option.some.injEq, Prod.mk.injEq] at ha
    obtain ⟨rfl, rfl, rfl⟩ := ha
    refine ⟨?_, ?_⟩
    · rw [wsgi_tag cfg hn hl iri absolute r2 h' hw, getItem_eq, d5 _ (by rw [hn.etag]; decide), a4 _ hn.etag]; rfl
    have hsg : StillGood inm false none (some (md5 v.body, weak)) lm ↔ kept.map md5 = some (md5 v.body) := by
      cases kept with
      | none => simp [StillGood, inm]
      | some b => cases weak <;> simp [StillGood, inm, eq_comm]
    split
    · rename_i he
      have := (d2 (hsg.mpr he)).1
      refine ⟨this, ?_⟩
      have e := C51_no_body cfg s%"GET" r2 (.inr (.inr (.inr this)))
      rw [e] at hy
      rw [← Except.ok.inj hy]; rfl
    · rename_i he
      have hc2 : r2.code = 200 := by rw [(d3 (fun x => he (hsg.mp x))).1, a1, hcode]
      refine ⟨hc2, ?_⟩
      rw [C51_otherwise_body cfg s%"GET" r2 (by simp [Bodyless, hc2]), hr2d, a2, hdir, d4] at hy
      rw [← Except.ok.inj hy]
      simp only [octets_bytes, hbody]
  · cases ha

theorem browse_spec (cfg : Cfg) (hn : Names cfg.lower) (hl : LowerNames cfg.lower) (md5 : Bytes → Str)
    (hm : Digest md5) (weak : Bool) (iri absolute : Str → Except PyErr Str) (n : Nat) (hpos : 1 < n)
    (visits : List Visit) : ∀ (kept : Option Bytes) (seen : List Seen), (∀ v ∈ visits, Page cfg v) →
    (∀ b ∈ kept.toList ++ visits.map (·.body), ∀ b' ∈ kept.toList ++ visits.map (·.body), md5 b = md5 b' → b = b') →
    browse cfg md5 weak iri absolute n (kept.map fun b => ⟨tagOf weak (md5 b), b⟩) visits = some seen →
    seen = expected (fun b => tagOf weak (md5 b)) kept (visits.map (·.body)) := by
  induction visits with
  | nil => intro kept seen _ _ h; simp [browse] at h; rw [h]; rfl
  | cons v vs ih =>
    intro kept seen hp hinj h
    unfold browse at h
    split at h
    · cases h
    rename_i code hs ys ha
    have hk : (kept.map fun b => (⟨tagOf weak (md5 b), b⟩ : Copy)).map (·.tag) =
        kept.map fun b => tagOf weak (md5 b) := by cases kept <;> rfl
    rw [hk] at ha
    obtain ⟨htag, hres⟩ := answer_spec cfg hn hl md5 hm weak iri absolute n hpos v (hp v (by simp)) kept code hs ys ha
    simp only [List.map_cons, expected]
    simp only [htag] at h
    have hiff : kept.map md5 = some (md5 v.body) ↔ kept = some v.body := by
      cases kept with
      | none => simp
      | some b =>
        simp only [Option.map_some, Option.some.injEq]
        exact ⟨fun e => hinj b (by simp) v.body (by simp) e, fun e => by rw [e]⟩
    have sub1 : ∀ b, b ∈ kept.toList ++ vs.map (·.body) → b ∈ kept.toList ++ (v :: vs).map (·.body) := by
      intro b hb
      rcases List.mem_append.mp hb with h | h
      · exact List.mem_append_left _ h
      · exact List.mem_append_right _ (List.mem_cons_of_mem _ h)
    have sub2 : ∀ b, b ∈ (some v.body).toList ++ vs.map (·.body) → b ∈ kept.toList ++ (v :: vs).map (·.body) :=
      fun b hb => List.mem_append_right _ hb
    by_cases he : kept = some v.body
    · rw [if_pos (hiff.mpr he)] at hres
      obtain ⟨rfl, ho⟩ := hres
      rw [if_pos rfl, Option.map_eq_some_iff] at h
      obtain ⟨rest, hr, rfl⟩ := h
      rw [if_pos he, ih kept rest (fun w hw => hp w (by simp [hw]))
        (fun b hb b' hb' => hinj b (sub1 b hb) b' (sub1 b' hb')) hr, ho, he]
      rfl
    · rw [if_neg (fun x => he (hiff.mp x))] at hres
      obtain ⟨rfl, ho⟩ := hres
      rw [if_neg (by decide), Option.map_eq_some_iff] at h
      obtain ⟨rest, hr, rfl⟩ := h
      rw [ho] at hr ⊢
      rw [if_neg he, ih (some v.body) rest (fun w hw => hp w (by simp [hw]))
        (fun b hb b' hb' => hinj b (sub2 b hb) b' (sub2 b' hb')) hr]

/-- C136.  A client that keeps the documents it receives and sends back the tag of its copy: over any
number of requests, whatever the view makes of the document at each, it always shows the current
document; the document is transferred when it is not that of the request before, and otherwise the
answer is a 304 with the same tag and without a body.  The hash must tell the documents apart. -/
theorem C136_current (cfg : Cfg) (hn : Names cfg.lower) (hl : LowerNames cfg.lower) (md5 : Bytes → Str)
    (hm : Digest md5) (weak : Bool) (iri absolute : Str → Except PyErr Str) (n : Nat) (hpos : 1 < n)
    (visits : List Visit) (hp : ∀ v ∈ visits, Page cfg v)
    (hinj : ∀ b ∈ visits.map (·.body), ∀ b' ∈ visits.map (·.body), md5 b = md5 b' → b = b')
    (seen : List Seen) (h : browse cfg md5 weak iri absolute n none visits = some seen) :
    seen = expected (fun b => tagOf weak (md5 b)) none (visits.map (·.body)) :=
  browse_spec cfg hn hl md5 hm weak iri absolute n hpos visits none seen hp (by simpa using hinj) h

/-- Headers that can be sent as they are: no line breaks and no addresses to rewrite. -/
def Plain (lower : Str → Str) (h : HList) : Prop :=
  ∀ p ∈ h, LegalValue p.2 ∧ lower p.1 ≠ s%"location" ∧ lower p.1 ≠ s%"content-location"

theorem plain_set (lower : Str → Str) (h : HList) (k v : Str) (hh : Plain lower h) (hv : LegalValue v)
    (hk : lower k ≠ s%"location" ∧ lower k ≠ s%"content-location") :
    Plain lower (Headers.set lower h k v []).1 := by
  rcases set_legal lower h k v [] (by simpa [effValue] using hv) with ⟨-, e⟩ | ⟨pre, p, post, e1, -, -, e⟩
  · rw [e]
    intro q hq
    simp only [List.mem_append, List.mem_singleton] at hq
    rcases hq with hq | rfl
    · exact hh q hq
    · exact ⟨by simpa [effValue] using hv, hk⟩
  · rw [e]
    subst e1
    intro q hq
    simp only [List.mem_append, List.mem_cons, List.mem_filter] at hq
    rcases hq with hq | rfl | hq
    · exact hh q (by simp [hq])
    · exact ⟨by simpa [effValue] using hv, hk⟩
    · exact hh q (by simp [hq.1])

theorem lastValue_absent (cfg : Cfg) (name : Str) (h : HList) (hh : ∀ p ∈ h, cfg.lower p.1 ≠ name) :
    lastValue cfg name h = none := by
  unfold lastValue
  induction h with
  | nil => rfl
  | cons p ps ih =>
    rw [List.foldl_cons, if_neg (hh p (by simp))]
    exact ih fun q hq => hh q (by simp [hq])

theorem plain_wsgi (cfg : Cfg) (iri absolute : Str → Except PyErr Str) (r : Resp) (h : Plain cfg.lower r.headers) :
    ∃ h', wsgiHeaders cfg iri absolute r = .ok h' := by
  unfold wsgiHeaders
  rw [lastValue_absent cfg _ _ fun p hp => (h p hp).2.1, lastValue_absent cfg _ _ fun p hp => (h p hp).2.2]
  simp only [fixLocation, fixContentLocation]
  unfold fixLength
  split
  · exact ⟨_, rfl⟩
  split
  · unfold dropEntity setSlice
    rw [(validateAll_iff (removeEntityHeaders _ _ _)).mpr (fun p hp => (h p (List.mem_filter.mp hp).1).1)]
    exact ⟨_, rfl⟩
  split <;> exact ⟨_, rfl⟩

theorem conditional_plain (cfg : Cfg) (hn : Names cfg.lower) (now : DateTime) (n : Nat) (m : Str) (inm : Option Str)
    {ims : Option Str} (r r' : Resp) (hr : Plain cfg.lower r.headers)
    (bs : List Bytes) (hb : encodeAll cfg r.body.items = .ok bs)
    (h : makeConditional cfg now n m inm ims r = some (r', .ok ())) : Plain cfg.lower r'.headers := by
  have hd : Plain cfg.lower (conditionalDate cfg now r).headers := by
    have h1 := plain_set cfg.lower r.headers s%"Date" (httpDate now) hr (legal_httpDate now) (by rw [hn.date]; decide)
    unfold conditionalDate
    generalize httpDate now = t at h1 ⊢
    split
    · exact hr
    · exact h1
  have hbd : encodeAll cfg (conditionalDate cfg now r).body.items = .ok bs := by
    unfold conditionalDate; split <;> exact hb
  have hl : Plain cfg.lower (conditionalLength cfg (conditionalDate cfg now r)).1.headers := by
    unfold conditionalLength
    split
    · obtain ⟨r1, o, e1, e2, -⟩ := calc_spec cfg (conditionalDate cfg now r) bs hbd
      rw [e1]
      cases o with
      | none => simp only; rw [e2]; exact hd
      | some k =>
        simp only [setLength]
        rw [e2]
        exact plain_set _ _ _ _ hd (legal_natStr k) (by rw [hn.length]; decide)
    · exact hd
  unfold makeConditional at h
  split at h
  · simp at h; rw [← h]; exact hr
  split at h
  · simp at h
  rename_i r1 _ he
  rw [he] at hl
  simp only at hl
  repeat' split at h
  all_goals simp at h
  · rw [← h]; exact hl
  · rw [← h]; exact hl

theorem addEtag_ok (cfg : Cfg) (hn : Names cfg.lower) (hi : cfg.implicitSeq = true) (md5 : Bytes → Str) (hm : Digest md5)
    (weak : Bool) (r : Resp) (hd : r.direct = false) (hr : Plain cfg.lower r.headers)
    (bs : List Bytes) (hb : encodeAll cfg r.body.items = .ok bs)  :
    ∃ r1, addEtag cfg md5 r false weak = (r1, .ok ()) ∧ Plain cfg.lower r1.headers := by
  unfold addEtag
  split
  · obtain ⟨e1, -, -, e4, -⟩ := ensure_spec cfg r bs hb
    have hens : (ensureSequence cfg r false).2 = .ok () := by
      unfold ensureSequence
      split
      · rfl
      rename_i hs
      simp only [hd, hi, Bool.not_true, Bool.false_eq_true, if_false]
      unfold makeSequence
      rw [if_neg hs, hb]
    have hg : getData cfg r = ((ensureSequence cfg r false).1, .ok bs.flatten) := by
      unfold getData
      cases hx : ensureSequence cfg r false with
      | mk a b =>
        rw [hx] at hens e4
        simp only at hens e4
        subst hens
        simp only [e4]
    rw [hg]
    simp only
    obtain ⟨-, hq, hleg⟩ := hm bs.flatten
    obtain ⟨q, q1, q2⟩ := quote_legal (md5 bs.flatten) weak hq
    have hs : setEtag cfg.lower (ensureSequence cfg r false).1.headers (md5 bs.flatten) weak =
        Headers.set cfg.lower r.headers s%"ETag" q [] := by unfold setEtag; rw [q1, e1]
    rw [hs]
    refine ⟨_, by rw [set_ok _ _ _ _ (q2.mpr hleg)], ?_⟩
    exact plain_set _ _ _ _ hr (q2.mpr hleg) (by rw [hn.etag]; decide)
  · exact ⟨r, rfl, hr⟩

theorem conditional_some (cfg : Cfg) (hn : Names cfg.lower) (md5 : Bytes → Str) (hm : Digest md5) (weak : Bool)
    (now : DateTime) (n : Nat) (hpos : 1 < n) (r : Resp) (kept : Option Bytes)
    (bs : List Bytes) (hb : encodeAll cfg r.body.items = .ok bs)
    (lm : Option DateTime) (hlm : ∀ t, lm = some t → Spec.Calendar.Valid t ∧ 100 ≤ t.year)
    (hgl : getItem cfg.lower r.headers s%"last-modified" = lm.map httpDate) (d : Bytes)
    (ht : getItem cfg.lower r.headers s%"etag" = some (tagOf weak (md5 d))) :
    ∃ r2, makeConditional cfg now n s%"GET" (kept.map fun b => tagOf weak (md5 b)) none r = some (r2, .ok ()) ∧
      encodeAll cfg r2.body.items = .ok bs := by
  have hqu : ∀ b, (Etag.quoteEtag (md5 b) weak).toOption.getD [] = tagOf weak (md5 b) := by
    intro b
    have hc : ¬ ((md5 b).contains '"' = true) := by simpa using (hm b).2.1
    unfold Etag.quoteEtag; rw [if_neg hc]
    cases weak <;> simp [tagOf, Except.toOption]
  let inm : Option (List Str × List Str) := kept.map fun b => if weak then ([], [md5 b]) else ([md5 b], [])
  have hhead : EtagAux.header inm false = kept.map fun b => tagOf weak (md5 b) := by
    cases kept with
    | none => rfl
    | some b => cases weak <;> simp [inm, tagOf, EtagAux.header, Etag.mk, Etag.ETags.toHeader, Etag.tagText, Py.join]
  obtain ⟨r2, d1, -, -, d4, -⟩ := C79_decision_partial cfg hn now s%"GET" (.inl rfl) inm false none lm
    (by
      intro S W e
      cases kept with
      | none => simp [inm] at e
      | some b =>
        obtain ⟨p1, p2, p3⟩ := hm b
        cases weak <;> simp [inm] at e <;> obtain ⟨rfl, rfl⟩ := e <;> simp [p1, p2, p3.1])
    (by simp) hlm (some (md5 d, weak)) (by intro t w e; simp at e; rw [← e.1]; exact (hm d).2.1) n
    (by
      intro S W e
      cases kept with
      | none => simp [inm] at e
      | some b => cases weak <;> simp [inm] at e <;> obtain ⟨rfl, rfl⟩ := e <;> simpa using hpos)
    (by omega) r bs hb (by rw [ht]; simp [hqu]) hgl
  exact ⟨r2, by rw [← hhead]; exact d1, d4⟩

theorem answer_some (cfg : Cfg) (hn : Names cfg.lower) (hi : cfg.implicitSeq = true) (md5 : Bytes → Str)
    (hm : Digest md5) (weak : Bool) (iri absolute : Str → Except PyErr Str) (n : Nat) (hpos : 1 < n)
    (v : Visit) (hv : Page cfg v) (hs : Plain cfg.lower v.page.headers) (kept : Option Bytes) :
    ∃ x, answerGet cfg md5 weak iri absolute v.now n (kept.map fun b => tagOf weak (md5 b)) v.page = some x := by
  obtain ⟨hcode, hdir, htag, ⟨bs, hbs, hbody⟩, lm, hlm, hgl⟩ := hv
  obtain ⟨r1, e1, p1⟩ := addEtag_ok cfg hn hi md5 hm weak v.page hdir hs bs hbs
  obtain ⟨a1, a2, a3, a4, a5⟩ := addEtag_spec cfg hn md5 hm weak v.page r1 bs hbs htag e1
  obtain ⟨r2, e2, b2⟩ := conditional_some cfg hn md5 hm weak v.now n hpos r1 kept bs a3 lm hlm
    (by rw [getItem_eq, a5 _ (by rw [hn.modified]; decide), ← getItem_eq, hgl]) bs.flatten
    (by rw [getItem_eq, a4 _ hn.etag']; rfl)
  have p2 := conditional_plain cfg hn v.now n _ _ r1 r2 p1 bs a3 e2
  obtain ⟨h', e3⟩ := plain_wsgi cfg iri absolute r2 p2
  have e4 : ∃ ys, (appIter s%"GET" r2).yields cfg = .ok ys := by
    by_cases hb : Bodyless s%"GET" r2.code
    · exact ⟨_, C51_no_body cfg _ r2 hb⟩
    · rw [C51_otherwise_body cfg _ r2 hb, b2]
      cases r2.direct
      · exact ⟨_, rfl⟩
      · exact ⟨_, rfl⟩
  obtain ⟨ys, e4⟩ := e4
  exact ⟨(r2.code, h', ys), by unfold answerGet; rw [e1]; simp only; rw [e2]; simp only; rw [e3, e4]⟩

theorem browse_some (cfg : Cfg) (hn : Names cfg.lower) (hl : LowerNames cfg.lower) (hi : cfg.implicitSeq = true)
    (md5 : Bytes → Str) (hm : Digest md5) (weak : Bool) (iri absolute : Str → Except PyErr Str) (n : Nat) (hpos : 1 < n)
    (visits : List Visit) (hp : ∀ v ∈ visits, Page cfg v) (hv : ∀ v ∈ visits, Plain cfg.lower v.page.headers) :
    ∀ kept : Option (Bytes × Bytes), ∃ seen,
      browse cfg md5 weak iri absolute n (kept.map fun b => ⟨tagOf weak (md5 b.1), b.2⟩) visits = some seen := by
  induction visits with
  | nil => intro kept; exact ⟨_, rfl⟩
  | cons v vs ih =>
    intro kept
    have ih := ih (fun w hw => hp w (by simp [hw])) (fun w hw => hv w (by simp [hw]))
    obtain ⟨⟨code, h, ys⟩, ha⟩ := answer_some cfg hn hi md5 hm weak iri absolute n hpos v (hp v (by simp)) (hv v (by simp))
      (kept.map (·.1))
    have hk : (kept.map fun b => (⟨tagOf weak (md5 b.1), b.2⟩ : Copy)).map (·.tag) =
        (kept.map (·.1)).map fun b => tagOf weak (md5 b) := by cases kept <;> rfl
    obtain ⟨htag, -⟩ := answer_spec cfg hn hl md5 hm weak iri absolute n hpos v (hp v (by simp)) _ code h ys ha
    unfold browse
    rw [hk, ha]
    simp only [htag]
    split
    · obtain ⟨seen, hs⟩ := ih kept
      exact ⟨_, by rw [hs]; rfl⟩
    · obtain ⟨seen, hs⟩ := ih (some (v.body, octets ys))
      exact ⟨_, by simp only [Option.map_some] at hs ⊢; rw [hs]; rfl⟩

/-- C136.  The exchange does not fail: when bodies may be made sequences, values have no line breaks
and there is no Location to rewrite, every request is answered. -/
theorem C136_answers (cfg : Cfg) (hn : Names cfg.lower) (hl : LowerNames cfg.lower) (hi : cfg.implicitSeq = true)
    (md5 : Bytes → Str) (hm : Digest md5) (weak : Bool) (iri absolute : Str → Except PyErr Str) (n : Nat)
    (hpos : 1 < n) (visits : List Visit) (hp : ∀ v ∈ visits, Page cfg v)
    (hv : ∀ v ∈ visits, Plain cfg.lower v.page.headers)
    (hinj : ∀ b ∈ visits.map (·.body), ∀ b' ∈ visits.map (·.body), md5 b = md5 b' → b = b') :
    browse cfg md5 weak iri absolute n none visits =
      some (expected (fun b => tagOf weak (md5 b)) none (visits.map (·.body))) := by
  obtain ⟨seen, hs⟩ := browse_some cfg hn hl hi md5 hm weak iri absolute n hpos visits hp hv none
  have := C136_current cfg hn hl md5 hm weak iri absolute n hpos visits hp hinj seen hs
  rw [← this]; exact hs

/-- An entity tag as RFC 7232 2.3 writes it: optionally `W/`, which is case sensitive, and quoted text. -/
def IsEntityTag (s : Str) : Prop := ∃ x : Str, '"' ∉ x ∧ (s = ['"'] ++ x ++ ['"'] ∨ s = ['W', '/', '"'] ++ x ++ ['"'])

/-- C136 (limit).  A strong tag is sent as RFC 7232 writes it, but no weak tag is, since it begins
with a small `w`: only a client that sends the text back unread can revalidate. -/
theorem C136_weak_limits (cfg : Cfg) (hn : Names cfg.lower) (hl : LowerNames cfg.lower) (md5 : Bytes → Str)
    (hm : Digest md5) (weak : Bool) (iri absolute : Str → Except PyErr Str) (n : Nat) (hpos : 1 < n)
    (v : Visit) (hv : Page cfg v) (x : Int × HList × List Item)
    (ha : answerGet cfg md5 weak iri absolute v.now n none v.page = some x) :
    ∃ t, getItem cfg.lower x.2.1 s%"ETag" = some t ∧ (IsEntityTag t ↔ weak = false) := by
  obtain ⟨code, h, ys⟩ := x
  obtain ⟨ht, -⟩ := answer_spec cfg hn hl md5 hm weak iri absolute n hpos v hv none code h ys ha
  refine ⟨_, ht, ?_⟩
  cases weak
  · exact ⟨fun _ => rfl, fun _ => ⟨_, (hm v.body).2.1, .inl (by simp [tagOf])⟩⟩
  · refine ⟨?_, nofun⟩
    rintro ⟨y, -, h | h⟩ <;> simp [tagOf] at h

/-! ### Cases -/

/-- A hash for the examples that tells bodies apart by their length. -/
def lengthHash (b : Bytes) : Str := s%"h" ++ List.replicate b.length 'x'

theorem digest_length : Digest lengthHash := by
  intro b
  refine ⟨by simp [lengthHash], ?_⟩
  simp [lengthHash, List.mem_replicate]

/-- Two documents; the first in two forms. -/
def threeVisits : List Visit :=
  let now : DateTime := ⟨2020, 1, 1, 0, 0, 0⟩
  let typ : HList := [(s%"Content-Type", s%"text/plain")]
  [⟨⟨typ, s%"200 OK", 200, .list [.bytes b%"ab", .text s%"é"], [], false⟩, b%"ab" ++ [195, 169], now⟩,
   ⟨⟨typ, s%"200 OK", 200, .stream [.text s%"abé"] true, [], false⟩, b%"ab" ++ [195, 169], now⟩,
   ⟨⟨typ, s%"200 OK", 200, .tuple [.bytes b%"ab"], [], false⟩, b%"ab", now⟩]

example : ∀ v ∈ threeVisits, Page demo v ∧ Plain demo.lower v.page.headers := by
  intro v hv
  simp only [threeVisits, List.mem_cons, List.not_mem_nil, or_false] at hv
  rcases hv with rfl | rfl | rfl
  · exact ⟨⟨rfl, rfl, by decide, ⟨_, rfl, by decide⟩, none, nofun, by decide⟩, by unfold Plain LegalValue; decide⟩
  · exact ⟨⟨rfl, rfl, by decide, ⟨_, rfl, by decide⟩, none, nofun, by decide⟩, by unfold Plain LegalValue; decide⟩
  · exact ⟨⟨rfl, rfl, by decide, ⟨_, rfl, by decide⟩, none, nofun, by decide⟩, by unfold Plain LegalValue; decide⟩

example : (browse demo lengthHash true .ok .ok 5 none threeVisits) =
    some [⟨200, some s%"w/\"hxxxx\"", b%"ab" ++ [195, 169], b%"ab" ++ [195, 169]⟩,
      ⟨304, some s%"w/\"hxxxx\"", [], b%"ab" ++ [195, 169]⟩, ⟨200, some s%"w/\"hxx\"", b%"ab", b%"ab"⟩] := by
  decide +kernel

/-- C136 (limit).  A hash that does not tell two documents apart makes the client show the old one. -/
theorem C136_collision_limits :
    ((browse demo (fun _ => s%"same") false .ok .ok 5 none threeVisits).map fun l => l.map (·.shown)) =
      some [b%"ab" ++ [195, 169], b%"ab" ++ [195, 169], b%"ab" ++ [195, 169]] := by decide +kernel

end Verif.Props.Desc
