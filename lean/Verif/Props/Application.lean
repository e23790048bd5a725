import Verif.Model.Application
import Verif.Props.Dispatch
import Verif.Props.Redirect
import Verif.Props.BuildUrl
/-!
Property theorems C106: applications from the environ of a request to what is sent
(`/repo/verktyg/application.py`, `/repo/verktyg/utils.py`).
-/
namespace Verif.Props.AppP
open Verif Verif.Py Verif.Routing
open Verif.Dispatch hiding Op run step log
open Verif.Iri Verif.Accept Verif.Application Verif.UrlJoin Verif.Spec
open Verif.Props.RoutingP Verif.Props.IriP Verif.Props.JoinP Verif.Props.BuildP

/-! ### Redirect responses -/

/-- A header whose name is new is appended. -/
theorem set_new {lower : Str → Str} {l : Headers.HList} {k v : Str} (h : ∀ p ∈ l, lower p.1 ≠ lower k) (hv : LegalValue v) :
    Headers.set lower l k v [] = (l ++ [(k, v)], .ok ()) := by
  rcases Headers.set_legal lower l k v [] (by simpa [Headers.effValue] using hv) with ⟨_, e⟩ | ⟨pre, p, post, e, _, h2, _⟩
  · rw [e]; simp [Headers.effValue]
  · exact absurd h2 (h p (by rw [e]; simp))

theorem low_names {lower : Str → Str} (hl : LowerOk lower) :
    lower s%"Location" = s%"location" ∧ lower s%"Content-Type" = s%"content-type" ∧
    lower s%"Content-Length" = s%"content-length" := by
  refine ⟨?_, ?_, ?_⟩ <;> (rw [hl.ascii _ (by unfold Ascii; decide)]; decide)

/-- The headers of a redirect. -/
def redirectHeaders (web : Response.Cfg) (n : Nat) (uri : Str) : Headers.HList :=
  [(s%"Content-Type", s%"text/html; charset=utf-8")] ++
    (if web.autoLength then [(s%"Content-Length", natStr n)] else []) ++ [(s%"Location", uri)]

/-- What `redirect` returns. -/
theorem redirect_ok {web : Response.Cfg} (hl : LowerOk web.lower) {iri : Str → Except PyErr Str} {location uri : Str} (code : Int)
    (hi : iri location = .ok uri) (hu : LegalValue uri) {b : Bytes} (hb : web.encode (Redirect.page location uri) = .ok b) :
    ∃ status, redirect web iri location code =
      .ok ⟨redirectHeaders web b.length uri, intStr code ++ s%" " ++ status, code, .list [.bytes b], [], false⟩ := by
  obtain ⟨l1, l2, l3⟩ := low_names hl
  unfold redirect Response.init
  rw [hi]
  simp only
  have e1 : Headers.set web.lower [] s%"Content-Type" s%"text/html; charset=utf-8" [] =
      ([(s%"Content-Type", s%"text/html; charset=utf-8")], .ok ()) := by
    rw [set_new (by intro p h; cases h) (by unfold LegalValue; decide)]; rfl
  rw [e1]
  simp only [Response.setData, Response.encodeItem, Response.setStatusCode, hb, Response.setLength]
  unfold Redirect.headers redirectHeaders
  refine ⟨match web.reason code with | some t => t | none => s%"UNKNOWN", ?_⟩
  cases hreason : web.reason code
  all_goals
    by_cases ha : web.autoLength = true
    · rw [if_pos ha, if_pos ha]
      rw [set_new (k := s%"Content-Length") (by
        intro p h; rw [List.mem_singleton.1 h, l2, l3]; decide) (Resp.natStr_legal _)]
      simp only
      rw [set_new (k := s%"Location") (by
        intro p h
        simp only [List.mem_append, List.mem_singleton] at h
        rcases h with h | h
        · rw [h, l2, l1]; decide
        · rw [h, l3, l1]; decide) hu]
      try simp
    · rw [if_neg ha, if_neg ha]
      rw [set_new (k := s%"Location") (by
        intro p h
        rw [List.mem_singleton.1 h, l2, l1]; decide) hu]
      try simp

theorem redirectHeaders_location {web : Response.Cfg} (hl : LowerOk web.lower) (n : Nat) (uri : Str) :
    Headers.getlist web.lower (redirectHeaders web n uri) s%"Location" = [uri] := by
  obtain ⟨l1, l2, l3⟩ := low_names hl
  unfold redirectHeaders
  by_cases ha : web.autoLength = true
  · rw [if_pos ha]
    simp only [Headers.getlist, List.cons_append, List.nil_append, l1, l2, l3]
    rfl
  · rw [if_neg ha]
    simp only [Headers.getlist, List.cons_append, List.nil_append, l1, l2, l3]
    rfl

/-- A redirect is sent whenever its location can be made absolute. -/
theorem redirect_sent {web : Response.Cfg} (hl : LowerOk web.lower) (iri absolute : Str → Except PyErr Str) (n : Nat) (uri l v : Str)
    (r : Response.Resp) (hr : r.headers = redirectHeaders web n uri) (hc : r.code = 301)
    (h1 : iri uri = .ok l) (h2 : absolute l = .ok v) (hv : LegalValue v) :
    ∃ h, Response.wsgiHeaders web iri absolute r = .ok h := by
  obtain ⟨l1, l2, l3⟩ := low_names hl
  have hlast : Response.lastValue web s%"location" r.headers = some uri ∧
      Response.lastValue web s%"content-location" r.headers = none := by
    rw [hr]
    unfold redirectHeaders Response.lastValue
    by_cases ha : web.autoLength = true
    · rw [if_pos ha]
      simp only [List.cons_append, List.nil_append, List.foldl_cons, List.foldl_nil, l1, l2, l3]
      exact ⟨rfl, rfl⟩
    · rw [if_neg ha]
      simp only [List.cons_append, List.nil_append, List.foldl_cons, List.foldl_nil, l1, l2, l3]
      exact ⟨rfl, rfl⟩
  have hfix : ∃ h, Response.fixLocation web iri absolute (some uri) r.headers = .ok h := by
    unfold Response.fixLocation
    simp only [h1, h2]
    split
    · exact ⟨_, rfl⟩
    · have : (Headers.set web.lower r.headers s%"Location" v []).2 = .ok () := by
        rcases Headers.set_legal web.lower r.headers s%"Location" v [] (by simpa [Headers.effValue] using hv) with
          ⟨_, e⟩ | ⟨_, _, _, _, _, _, e⟩ <;> rw [e]
      split
      · rename_i e he
        rw [he] at this
        cases this
      · exact ⟨_, rfl⟩
  obtain ⟨h, hh⟩ := hfix
  unfold Response.wsgiHeaders
  rw [hlast.1, hh, hlast.2]
  simp only [Response.fixContentLocation, Response.fixLength, hc]
  have hinf : Response.informational 301 = false := by decide
  rw [hinf]
  simp only [Bool.false_or]
  rw [if_neg (by decide), if_neg (by decide)]
  split <;> exact ⟨_, rfl⟩

/-! ### Applications without a root of their own -/

/-- An application made with `app_root=''`: the map is that of its routes, without host matching,
bound to no host at all. -/
structure Rootless (a : Parts) (cfg : Config) (ops : List Op) : Prop where
  map : a.map = run (URLMap.new cfg) ops
  bound : ∃ other, bindRoot cfg a.web.lower other [] = .ok a.bound
  hosts : cfg.hostMatching = false
  subdomain : cfg.defaultSubdomain = []

theorem rootless_adapter {a : Parts} (hl : LowerOk a.web.lower) {cfg : Config} {ops : List Op} (h : Rootless a cfg ops) :
    a.bound = ⟨⟨[], s%"/", [], []⟩, none, none⟩ := by
  obtain ⟨other, h1⟩ := h.bound
  have h0 : a.web.lower [] = [] := hl.ascii [] ascii_nil
  have hp : UrlJoin.urlparse a.web.lower [] [] = .ok ⟨[], [], [], [], [], []⟩ := rfl
  unfold bindRoot at h1
  rw [hp] at h1
  simp only [Routing.bind, h.hosts, h.subdomain, Option.getD_none, h0, idnaName] at h1
  simp [Adapter.mk'] at h1
  exact h1.symm

/-- The handler for redirects is the only one for their class, and says nothing about what it
represents: as `ApplicationBuilder` registers it. -/
structure Redirecting (a : Parts) (mro : Exc → List Nat) : Prop where
  plain : a.redirects.contentType = none ∧ a.redirects.language = none
  registered : ∃ l, a.handlers = register l ∧ ∀ url, ∃ cls rest, mro (.redirect url) = cls :: rest ∧
    handlersFor l cls = [⟨cls, a.redirects⟩]

/-- The headers of a request by which representations are selected can be parsed. -/
structure Readable (float : Str → Option Flt) (environ : List (Str × Str)) : Prop where
  accept : ∃ l, parseAccept float .contentType ((Dict.get environ s%"HTTP_ACCEPT").getD s%"*/*") = .ok l
  language : ∃ l, parseAccept float .language ((Dict.get environ s%"HTTP_ACCEPT_LANGUAGE").getD s%"*") = .ok l
  charset : ∃ l, parseAccept float .charset ((Dict.get environ s%"HTTP_ACCEPT_CHARSET").getD s%"*") = .ok l

theorem select_one {a : Parts} {environ : List (Str × Str)} (h : Readable a.float environ)
    (hp : a.redirects.contentType = none ∧ a.redirects.language = none) : a.select environ [a.redirects] = .ok a.redirects := by
  obtain ⟨⟨_, h1⟩, ⟨_, h2⟩, ⟨_, h3⟩⟩ := h
  unfold Parts.select Accept.select
  rw [h1]; simp only
  rw [h2]; simp only
  rw [h3]; simp only
  simp [selectParsed, selectGo, repAcceptability, hp.1, hp.2]

/-- Where routing asks for a redirect there is one. -/
theorem response_redirect {a : Parts} {mro : Exc → List Nat} {environ : List (Str × Str)} (hr : Redirecting a mro)
    (hread : Readable a.float environ) {url : Str} (h : a.route environ = .error (.redirect url))
    {r : Response.Resp} (hred : redirect a.web a.iri url 301 = .ok r) : a.response mro environ = .ok r := by
  obtain ⟨l, h1, h2⟩ := hr.registered
  obtain ⟨cls, rest, h3, h4⟩ := h2 url
  unfold Parts.response getResponse
  simp only [Parts.app]
  rw [h]
  simp only [Exc.isException, if_true]
  rw [h3, h1, exLookup, get_register, h4]
  simp only [nonempty, List.isEmpty_cons, Bool.false_eq_true, if_false, List.map_cons, List.map_nil]
  rw [select_one hread hr.plain]
  simp only [Parts.call, if_true, hred]

/-! ### Paths -/

theorem dirText_cons (s : Str) (ps : List Str) : dirText (s :: ps) = '/' :: (s ++ dirText ps) := by
  simp [dirText]

theorem dirText_append (a b : List Str) : dirText (a ++ b) = dirText a ++ dirText b := by
  simp [dirText]

/-- A path of segments, without its first slash and with one at the end. -/
theorem segments_ref (s : Str) (ps : List Str) (h : ∀ t ∈ s :: ps, Segment t) (hc : ':' ∉ s) :
    Dotless (s ++ dirText ps ++ s%"/") ∧ Packed (s ++ dirText ps ++ s%"/") ∧ Schemeless (s ++ dirText ps ++ s%"/") ∧
    (s ++ dirText ps ++ s%"/").head? ≠ some '/' := by
  have hs := dir_slash (s :: ps) (fun t ht => (h t ht).2.1)
  rw [dirText_cons] at hs
  have e : splitOn '/' (s ++ dirText ps ++ s%"/") = s :: ps ++ [[]] := by
    have : splitOn '/' ([] ++ '/' :: (s ++ dirText ps ++ s%"/")) = [] :: splitOn '/' (s ++ dirText ps ++ s%"/") := by
      rw [splitOn_append_sep]; rfl
    simp only [List.nil_append] at this
    rw [List.cons_append, this] at hs
    simpa using hs
  refine ⟨?_, ?_, ?_, ?_⟩
  · intro t ht
    rw [e] at ht
    rcases List.mem_append.1 ht with ht | ht
    · exact (h t ht).2.2
    · rw [List.mem_singleton.1 ht]; decide
  · intro t ht
    rw [e, List.dropLast_concat] at ht
    exact (h t ht).1
  · right
    cases ps with
    | nil => exact ⟨s, [], by simp [dirText], hc⟩
    | cons t ps => exact ⟨s, t ++ dirText ps ++ s%"/", by simp [dirText], hc⟩
  · obtain ⟨h1, h2, _⟩ := h s (.head _)
    cases s with
    | nil => exact absurd rfl h1
    | cons c s =>
      intro e
      have : c = '/' := by simpa using e
      subst this
      exact h2 (.head _)

/-- The bytes that the router leaves alone in redirects for a slash. -/
theorem slashSafe_low : ∀ b ∈ b%"/:|+", b.toNat < 128 := by decide

theorem meaning_slash (s : Str) : Percent.meaning (Utf8.encode (quoteText b%"/:|+" s)) = Utf8.encode s := by
  have := (written_quote b%"/:|+" (by decide) (by decide) s).meaning
  rw [urlquote_eq, utf8_eq, utf8_eq] at this
  exact this

theorem path_plain {environ : List (Str × Str)} {p : Str} (h : ReqUrl.path environ = .ok p) :
    ∃ r, p = '/' :: r ∧ r.head? ≠ some '/' := by
  unfold ReqUrl.path at h
  split at h
  · cases h
  · rename_i raw _
    cases h
    refine ⟨_, rfl, ?_⟩
    intro h0
    have := List.head?_dropWhile_not (p := fun c : Char => decide (c = '/')) raw
    unfold lstripP at h0
    rw [h0] at this
    simp at this

/-- Routing where the best route wants a slash. -/
theorem route_slash {a : Parts} (hl : LowerOk a.web.lower) {cfg : Config} {ops : List Op} (h : Rootless a cfg ops)
    (hs : settled (URLMap.new cfg) true ops = true) {environ : List (Str × Str)} {r q : Str} (hr : r ≠ []) (hr' : r.head? ≠ some '/')
    (hp : ReqUrl.path environ = .ok ('/' :: r)) (hq : ReqUrl.queryString environ = .ok q) {b : Bound}
    (hb : Best cfg ops (s%"|/" ++ r) b) (hm : b.match_ cfg (s%"|/" ++ r) = .slash) :
    a.route environ = .error (.redirect (refText (quoteText b%"/:|+" (r ++ s%"/")) (optOf q) none)) := by
  have hstrip : lstripSlash ('/' :: r) = r := by
    unfold lstripSlash
    cases r with
    | nil => exact absurd rfl hr
    | cons c r =>
      have : c ≠ '/' := fun e => hr' (by rw [e]; rfl)
      simp [this]
  have hf : Routing.fullPath cfg ⟨[], s%"/", [], []⟩ ('/' :: r) = s%"|/" ++ r := by
    unfold Routing.fullPath
    rw [hstrip]
    simp
  have hmatch := match_best cfg ops hs ⟨[], s%"/", [], []⟩ ('/' :: r) q b (by rw [hf]; exact hb)
  rw [hf, hm, answer] at hmatch
  have hcu : ∀ m : URLMap, m.update.cfg = m.cfg := fun m => by unfold URLMap.update; split <;> rfl
  have hcf : (run (URLMap.new cfg) ops).update.cfg = cfg :=
    (hcu _).trans (listed_run ops (URLMap.new cfg) [] (fun e b hb => by cases hb)).2
  have hurl : makeRedirectUrl cfg ⟨[], s%"/", [], []⟩ (urlquote b%"/:|+" ('/' :: r) ++ s%"/") q none =
      refText (quoteText b%"/:|+" (r ++ s%"/")) (optOf q) none := by
    unfold makeRedirectUrl
    rw [lstrip_quote _ (by decide) _ _ (by rw [hstrip]; exact hr), hstrip, urlquote_eq]
    have e : quoteText b%"/:|+" r ++ s%"/" = quoteText b%"/:|+" (r ++ s%"/") := by
      rw [quoteText_append]; rfl
    have e0 : rstripSlash (lstripSlash s%"/") = [] := by decide
    have hh : (quoteText b%"/:|+" (r ++ s%"/")).head? ≠ some '/' := by
      intro h0
      have := quoteText_head_inv slashSafe_low h0
      cases r with
      | nil => exact hr rfl
      | cons c r => exact hr' (by simpa using this)
    simp only [e, e0, getHost, h.hosts]
    unfold unparse Routing.joinPath
    rw [if_neg hh]
    by_cases hq0 : q = []
    · simp [hq0, refText, optOf]
    · simp [hq0, refText, optOf]
  rw [hcf, hurl] at hmatch
  unfold Parts.route
  rw [hp]
  simp only
  rw [hq]
  simp only
  rw [rootless_adapter hl h]
  simp only [BoundMap.match_, Option.some_or, Option.getD_some]
  rw [h.map, hmatch]

/-- A request for the path of the segments `s :: ps` below the directories `segs` of an
application at `scheme://n`. -/
structure Asks (a : Parts) (label : Str → Str) (environ : List (Str × Str)) (scheme n : Str) (segs : List Str)
    (s : Str) (ps : List Str) (q : Str) : Prop where
  home : Home a.idna a.web.lower label environ scheme n segs
  legal : LegalValue n
  readable : Readable a.float environ
  path : ReqUrl.path environ = .ok (dirText (s :: ps))
  segments : ∀ t ∈ s :: ps, Segment t
  noScheme : ':' ∉ s
  query : ReqUrl.queryString environ = .ok q
  noFragment : '#' ∉ q

/-- What is sent for a redirect to a path below the application. -/
theorem redirect_goes {web : Response.Cfg} {idna : Str → Except PyErr Bytes} (hl : LowerOk web.lower)
    (henc : ∀ t, ∃ b, web.encode t = .ok b) {label : Str → Str} {environ : List (Str × Str)} {scheme n : Str}
    {segs : List Str} (home : Home idna web.lower label environ scheme n segs) (hn : LegalValue n)
    {p : Str} {q : Option Str} (hp : RefParts p q) (hs : p.head? ≠ some '/') (hc : Schemeless p) (hd : Dotless p) (hk : Packed p) :
    ∃ r h sent u, redirect web (Iri.iriToUri idna web.lower usesNetloc) (refText p q none) 301 = .ok r ∧ s%"301 " <+: r.status ∧
      sentHeaders web true idna label environ r = .ok h ∧
      Headers.getlist web.lower h s%"Location" = [sent] ∧ ReqUrl.urlsplit web.lower sent = .ok u ∧
      u.scheme = scheme ∧ u.netloc = n ∧
      Percent.meaning (Utf8.encode u.path) = Utf8.encode (dirText segs ++ s%"/") ++ Percent.meaning (Utf8.encode p) ∧
      Percent.meaning (Utf8.encode u.query) = Percent.meaning (Utf8.encode (q.getD [])) ∧
      Percent.meaning (Utf8.encode u.fragment) = [] := by
  have hloc : Local p := ⟨by
    intro h'
    apply hs
    obtain ⟨t, rfl⟩ := h'
    rfl, hc⟩
  have hi1 := iriToUri_ref (idna := idna) hl p q none hp hloc
  have hp1 := refParts_quote (p := p) (q.getD [])
  have hs1 : (quoteText Urls.pathSafe p).head? ≠ some '/' := fun h => hs (quoteText_head_inv pathSafe_low h)
  have hc1 := schemeless_quote pathSafe_low (by decide) hc
  have hd1 := dotless_quote pathSafe_low (by decide) hd
  have hk1 := packed_quote pathSafe_low (by decide) hk
  have hl1 : Local (quoteText Urls.pathSafe p) := local_quote pathSafe_low (by decide) hloc
  have hbreak : ∀ c, (c = '\n' ∨ c = '\r') → ∀ x : Str, c ∉ quoteText Urls.pathSafe x ∧ c ∉ quoteText Urls.querySafe x ∧
      c ∉ quoteText Urls.fragmentSafe x := by
    intro c hc x
    refine ⟨quoteText_no pathSafe_low ?_ ?_ (.inl ?_), quoteText_no querySafe_low ?_ ?_ (.inl ?_),
      quoteText_no fragmentSafe_low ?_ ?_ (.inl ?_)⟩ <;> rcases hc with rfl | rfl <;> decide
  have hopt : ∀ (c d : Char) (x : Str), c ≠ d → c ∉ x → c ∉ optText d x := by
    intro c d x h1 h2
    unfold optText
    split <;> simp [h1, h2]
  have hlegal : ∀ x y z : Str, LegalValue (refText (quoteText Urls.pathSafe x) (optOf (quoteText Urls.querySafe y))
      (optOf (quoteText Urls.fragmentSafe z))) := by
    intro x y z
    rw [refText_optOf]
    constructor
    · simp only [List.mem_append, not_or]
      exact ⟨⟨(hbreak _ (.inl rfl) x).1, hopt _ _ _ (by decide) (hbreak _ (.inl rfl) y).2.1⟩,
        hopt _ _ _ (by decide) (hbreak _ (.inl rfl) z).2.2⟩
    · simp only [List.mem_append, not_or]
      exact ⟨⟨(hbreak _ (.inr rfl) x).1, hopt _ _ _ (by decide) (hbreak _ (.inr rfl) y).2.1⟩,
        hopt _ _ _ (by decide) (hbreak _ (.inr rfl) z).2.2⟩
  obtain ⟨bs, hbs⟩ := henc (Redirect.page (refText p q none) (refText (quoteText Urls.pathSafe p)
    (optOf (quoteText Urls.querySafe (q.getD []))) (optOf (quoteText Urls.fragmentSafe ((none : Option Str).getD [])))))
  obtain ⟨status, hr⟩ := redirect_ok hl (iri := Iri.iriToUri idna web.lower usesNetloc) 301 hi1 (hlegal _ _ _) hbs
  obtain ⟨r, hr, hrh, hrc, hrs⟩ : ∃ r : Response.Resp, redirect web (Iri.iriToUri idna web.lower usesNetloc) (refText p q none) 301 = .ok r ∧
      r.headers = redirectHeaders web bs.length (refText (quoteText Urls.pathSafe p)
        (optOf (quoteText Urls.querySafe (q.getD []))) (optOf (quoteText Urls.fragmentSafe ((none : Option Str).getD [])))) ∧
      r.code = 301 ∧ s%"301 " <+: r.status :=
    ⟨_, hr, rfl, rfl, ⟨status, by rw [show intStr 301 = s%"301" from by decide +kernel]; simp⟩⟩
  have hi2 := iriToUri_ref (idna := idna) hl (quoteText Urls.pathSafe p) (optOf (quoteText Urls.querySafe (q.getD [])))
    (optOf (quoteText Urls.fragmentSafe ((none : Option Str).getD []))) hp1 hl1
  obtain ⟨e, root⟩ := home_root hl home
  have hseg : ∀ s ∈ segs.map sentSegment, Segment s := by
    intro s hs
    obtain ⟨t, ht, rfl⟩ := List.mem_map.1 hs
    exact sentSegment_ok (home.segments t ht).1
  have hjoin := urljoin_below web.lower (lower_https hl) hseg root _ _
    (optOf (quoteText Urls.fragmentSafe ((optOf (quoteText Urls.fragmentSafe ((none : Option Str).getD []))).getD [])))
    (refParts_quote (p := quoteText Urls.pathSafe p) ((optOf (quoteText Urls.querySafe (q.getD []))).getD []))
    (fun h => hs1 (quoteText_head_inv pathSafe_low h)) (schemeless_quote pathSafe_low (by decide) hc1)
    (quoteText_no pathSafe_low (by decide) (by decide) (Or.inl (by decide)))
    (dotless_quote pathSafe_low (by decide) hd1) (packed_quote pathSafe_low (by decide) hk1)
  have habs := fun l => (show absoluteLocation true idna web.lower label environ l = urljoin web.lower _ l from by
    unfold absoluteLocation
    rw [if_pos rfl, e])
  have habs := (habs _).trans hjoin
  have hdir : ∀ c, (c = '\n' ∨ c = '\r') → c ∉ dirText (segs.map sentSegment) := by
    intro c hc hm
    rcases dirText_mem hm with rfl | ⟨t, ht, hm⟩
    · revert hc; decide
    · obtain ⟨t', _, rfl⟩ := List.mem_map.1 ht
      exact (hbreak c hc _).1 hm
  have hscheme : ∀ c, (c = '\n' ∨ c = '\r') → c ∉ scheme := by
    intro c hc
    rcases root.web with h | h <;> subst h <;> rcases hc with rfl | rfl <;> decide
  have hv : ∀ c, (c = '\n' ∨ c = '\r') → c ∉ n → c ∉ scheme ++ s%"://" ++ (n ++ (dirText (segs.map sentSegment) ++ '/' ::
      quoteText Urls.pathSafe (quoteText Urls.pathSafe p) ++
      optText '?' ((optOf (quoteText Urls.querySafe ((optOf (quoteText Urls.querySafe (q.getD []))).getD []))).getD []) ++
      optText '#' ((optOf (quoteText Urls.fragmentSafe ((optOf (quoteText Urls.fragmentSafe ((none : Option Str).getD []))).getD []))).getD []))) := by
    intro c hc hcn
    simp only [optOf_getD, List.mem_append, List.mem_cons, not_or]
    have h1 : c ≠ '/' ∧ c ≠ ':' ∧ c ≠ '?' ∧ c ≠ '#' := by rcases hc with rfl | rfl <;> decide
    exact ⟨⟨hscheme c hc, by simp [h1]⟩, hcn, ⟨⟨hdir c hc, h1.1, (hbreak c hc _).1⟩,
      hopt _ _ _ h1.2.2.1 (hbreak c hc _).2.1⟩, hopt _ _ _ h1.2.2.2 (hbreak c hc _).2.2⟩
  obtain ⟨h, hh⟩ := redirect_sent hl (Iri.iriToUri idna web.lower usesNetloc)
    (absoluteLocation true idna web.lower label environ) bs.length _ _ _ r hrh hrc hi2 habs
    ⟨hv _ (.inl rfl) hn.1, hv _ (.inr rfl) hn.2⟩
  obtain ⟨sent, u, k1, k2, k3, k4, k5, k6, k7⟩ := C104_relative_partial web idna label hl environ scheme n segs home _
    _ _ _ hp1 hs1 hc1 hd1 hk1 (by rw [hrh]; exact redirectHeaders_location hl bs.length _) h hh
  refine ⟨r, h, sent, u, hr, hrs, hh, k1, k2, k3, k4, ?_, ?_, ?_⟩
  · rw [k5, quoteText_meaning pathSafe_low (by decide)]
  · rw [k6, optOf_getD, quoteText_meaning querySafe_low (by decide)]
  · rw [k7]; rfl

/-- What is sent where routing asks for a redirect to a path below the application. -/
theorem serve_redirect {a : Parts} (hl : LowerOk a.web.lower) (henc : ∀ t, ∃ b, a.web.encode t = .ok b)
    {mro : Exc → List Nat} (hred : Redirecting a mro) {label : Str → Str} {environ : List (Str × Str)} {scheme n : Str}
    {segs : List Str} (home : Home a.idna a.web.lower label environ scheme n segs) (hn : LegalValue n)
    (hread : Readable a.float environ) {p : Str} {q : Option Str} (hp : RefParts p q) (hs : p.head? ≠ some '/') (hc : Schemeless p)
    (hd : Dotless p) (hk : Packed p) (hroute : a.route environ = .error (.redirect (refText p q none))) :
    ∃ x sent u, a.serve mro true label environ = .ok x ∧ s%"301 " <+: x.status ∧
      Headers.getlist a.web.lower x.headers s%"Location" = [sent] ∧ ReqUrl.urlsplit a.web.lower sent = .ok u ∧
      u.scheme = scheme ∧ u.netloc = n ∧
      Percent.meaning (Utf8.encode u.path) = Utf8.encode (dirText segs ++ s%"/") ++ Percent.meaning (Utf8.encode p) ∧
      Percent.meaning (Utf8.encode u.query) = Percent.meaning (Utf8.encode (q.getD [])) ∧
      Percent.meaning (Utf8.encode u.fragment) = [] := by
  obtain ⟨r, h, sent, u, hr, hrs, hh, k1, k2, k3, k4, k5, k6, k7⟩ := redirect_goes hl henc home hn hp hs hc hd hk
  have hresp := response_redirect hred hread hroute hr
  refine ⟨⟨r.status, h, Response.appIter (method environ) r⟩, sent, u, ?_, hrs, k1, k2, k3, k4, k5, k6, k7⟩
  unfold Parts.serve
  rw [hresp]
  simp only
  unfold Parts.send
  rw [hh]

/-- **C106, slashes.**  A request for a path whose best route ends in a slash that the path lacks
is answered with status 301 and the address of the path with the slash: on the scheme and the
host of the request, below the directories of the application, with the query of the request. -/
theorem C106_slash_partial (a : Parts) (hl : LowerOk a.web.lower) (henc : ∀ t, ∃ b, a.web.encode t = .ok b)
    (cfg : Config) (ops : List Op) (hroot : Rootless a cfg ops) (hs : settled (URLMap.new cfg) true ops = true)
    (mro : Exc → List Nat) (hred : Redirecting a mro) (label : Str → Str) (environ : List (Str × Str)) (scheme n : Str)
    (segs : List Str) (s : Str) (ps : List Str) (q : Str) (asks : Asks a label environ scheme n segs s ps q)
    (b : Bound) (hb : Best cfg ops (s%"|" ++ dirText (s :: ps)) b) (hm : b.match_ cfg (s%"|" ++ dirText (s :: ps)) = .slash) :
    ∃ x sent u, a.serve mro true label environ = .ok x ∧ s%"301 " <+: x.status ∧
      Headers.getlist a.web.lower x.headers s%"Location" = [sent] ∧ ReqUrl.urlsplit a.web.lower sent = .ok u ∧
      u.scheme = scheme ∧ u.netloc = n ∧
      Percent.meaning (Utf8.encode u.path) = Utf8.encode (dirText (segs ++ s :: ps) ++ s%"/") ∧
      Percent.meaning (Utf8.encode u.query) = Percent.meaning (Utf8.encode q) ∧
      Percent.meaning (Utf8.encode u.fragment) = [] := by
  obtain ⟨h1, h2, h3, h4⟩ := segments_ref s ps asks.segments asks.noScheme
  have hne : s ++ dirText ps ≠ [] := by
    intro h0
    exact (asks.segments s (.head _)).1 (List.append_eq_nil_iff.1 h0).1
  have hne' : (s ++ dirText ps).head? ≠ some '/' := by
    intro h0
    apply h4
    rw [List.head?_append, h0]; rfl
  have e : s%"|" ++ dirText (s :: ps) = s%"|/" ++ (s ++ dirText ps) := by rw [dirText_cons]; rfl
  rw [e] at hb hm
  have hroute := route_slash hl hroot hs hne hne' (by rw [← dirText_cons]; exact asks.path) asks.query hb hm
  have hparts : RefParts (quoteText b%"/:|+" (s ++ dirText ps ++ s%"/")) (optOf q) :=
    ⟨quoteText_no slashSafe_low (by decide) (by decide) (Or.inl (by decide)),
     quoteText_no slashSafe_low (by decide) (by decide) (Or.inl (by decide)), by rw [optOf_getD]; exact asks.noFragment⟩
  obtain ⟨x, sent, u, k1, k2, k3, k4, k5, k6, k7, k8, k9⟩ := serve_redirect hl henc hred asks.home asks.legal asks.readable hparts
    (fun h => h4 (quoteText_head_inv slashSafe_low h)) (schemeless_quote slashSafe_low (by decide) h3)
    (dotless_quote slashSafe_low (by decide) h1) (packed_quote slashSafe_low (by decide) h2) hroute
  refine ⟨x, sent, u, k1, k2, k3, k4, k5, k6, ?_, by rw [k8, optOf_getD], k9⟩
  rw [k7, meaning_slash, ← Utf8.encode_append, dirText_append, dirText_cons]
  simp

/-- A request for an address whose path starts with the directories of the application: the
server leaves them out of the path, and decodes it. -/
structure Follows (environ : List (Str × Str)) (segs : List Str) (path : Str) : Prop where
  path : ∃ rest, ReqUrl.envText environ s%"PATH_INFO" = Utf8.latin1 rest ∧
    Percent.meaning (Utf8.encode path) = Utf8.encode (dirText segs) ++ rest
  query : ∃ q, ReqUrl.queryString environ = .ok q

/-- **C106, following.**  A request for the address of the redirect reaches the end point of the
route, with the arguments that the path has. -/
theorem C106_follow_partial (a : Parts) (hl : LowerOk a.web.lower) (henc : ∀ t, ∃ b, a.web.encode t = .ok b)
    (cfg : Config) (hcfg : PureConfig cfg) (ops : List Op) (hroot : Rootless a cfg ops)
    (hs : settled (URLMap.new cfg) true ops = true) (hcl : ∀ b, Registered cfg ops b → Closed b)
    (hd : cfg.redirectDefaults = false ∨ ∀ r ∈ registered cfg ops, r.defaults = [])
    (mro : Exc → List Nat) (hred : Redirecting a mro) (label : Str → Str) (environ : List (Str × Str)) (scheme n : Str)
    (segs : List Str) (s : Str) (ps : List Str) (q : Str) (asks : Asks a label environ scheme n segs s ps q)
    (hnl : (dirText (s :: ps)).getLast? ≠ some '\n')
    (b : Bound) (hb : Best cfg ops (s%"|" ++ dirText (s :: ps)) b) (hm : b.match_ cfg (s%"|" ++ dirText (s :: ps)) = .slash)
    (hto : b.route.redirectTo = none) (vs : Values)
    (hv : Bound.match_ cfg { b with strict := false } (s%"|" ++ dirText (s :: ps)) = .values vs) :
    ∃ x sent u, a.serve mro true label environ = .ok x ∧
      Headers.getlist a.web.lower x.headers s%"Location" = [sent] ∧ ReqUrl.urlsplit a.web.lower sent = .ok u ∧
      u.scheme = scheme ∧ u.netloc = n ∧
      ∀ environ', Follows environ' segs u.path → a.route environ' = .ok (b.route.endpoint, vs) := by
  obtain ⟨x, sent, u, k1, k2, k3, k4, k5, k6, k7, k8, k9⟩ := C106_slash_partial a hl henc cfg ops hroot hs mro hred label environ
    scheme n segs s ps q asks b hb hm
  refine ⟨x, sent, u, k1, k3, k4, k5, k6, ?_⟩
  intro environ' ⟨⟨rest, f1, f2⟩, ⟨q', f3⟩⟩
  have hrest : rest = Utf8.encode (dirText (s :: ps) ++ s%"/") := by
    rw [k7, dirText_append, List.append_assoc, Utf8.encode_append] at f2
    exact (List.append_cancel_left f2).symm
  have hsne := asks.segments s (.head _)
  have hpath : ReqUrl.path environ' = .ok (dirText (s :: ps) ++ s%"/") := by
    unfold ReqUrl.path ReqUrl.decodingDance
    rw [f1, Utf8.toLatin1_latin1, hrest]
    simp only [Except.map, Utf8.decode_encode]
    rw [dirText_cons]
    cases s with
    | nil => exact absurd rfl hsne.1
    | cons c s =>
      have : c ≠ '/' := fun h => hsne.2.1 (by rw [h]; exact .head _)
      simp [lstripP, this]
  have hlast : lstripSlash (dirText (s :: ps)) = s ++ dirText ps := by
    rw [dirText_cons]
    cases s with
    | nil => exact absurd rfl hsne.1
    | cons c s =>
      have : c ≠ '/' := fun h => hsne.2.1 (by rw [h]; exact .head _)
      simp [lstripSlash, this]
  have hf : Routing.fullPath cfg ⟨[], s%"/", [], []⟩ (dirText (s :: ps)) = s%"|" ++ dirText (s :: ps) := by
    unfold Routing.fullPath
    rw [hlast, dirText_cons]
    simp
  have hfound := C48_found_partial cfg hcfg ops hs hcl hd ⟨[], s%"/", [], []⟩ (dirText (s :: ps)) q' hnl b (by rw [hf]; exact hb)
    (by rw [hf]; exact hm) hto vs (by rw [hf]; exact hv)
  unfold Parts.route
  rw [hpath]
  simp only
  rw [f3]
  simp only
  rw [rootless_adapter hl hroot]
  simp only [BoundMap.match_, Option.some_or, Option.getD_some]
  rw [hroot.map, hfound]

/-! ### `append_slash_redirect` -/

/-- **C106, `append_slash_redirect`.**  For a path of segments in ASCII, without the characters
that mean something in addresses, the redirect goes to the path with a slash at the end and the
same query. -/
theorem C106_append_partial (web : Response.Cfg) (idna : Str → Except PyErr Bytes) (hl : LowerOk web.lower)
    (henc : ∀ t, ∃ b, web.encode t = .ok b) (label : Str → Str) (environ : List (Str × Str)) (scheme n : Str) (segs : List Str)
    (home : Home idna web.lower label environ scheme n segs) (hn : LegalValue n) (s : Str) (ps : List Str)
    (hseg : ∀ t ∈ s :: ps, Segment t) (hcolon : ':' ∉ s) (hplain : ∀ t ∈ s :: ps, ∀ c ∈ t, c.toNat < 128 ∧ c ∉ s%"%?#")
    (hp : Dict.get environ s%"PATH_INFO" = some (dirText (s :: ps))) (hq : '#' ∉ ReqUrl.envText environ s%"QUERY_STRING") :
    ∃ r h sent u, appendSlashRedirect web (Iri.iriToUri idna web.lower usesNetloc) environ 301 = .ok r ∧ s%"301 " <+: r.status ∧
      sentHeaders web true idna label environ r = .ok h ∧
      Headers.getlist web.lower h s%"Location" = [sent] ∧ ReqUrl.urlsplit web.lower sent = .ok u ∧
      u.scheme = scheme ∧ u.netloc = n ∧
      Percent.meaning (Utf8.encode u.path) = Utf8.encode (dirText (segs ++ s :: ps) ++ s%"/") ∧
      Percent.meaning (Utf8.encode u.query) = Percent.meaning (Utf8.encode (ReqUrl.envText environ s%"QUERY_STRING")) ∧
      Percent.meaning (Utf8.encode u.fragment) = [] := by
  obtain ⟨h1, h2, h3, h4⟩ := segments_ref s ps hseg hcolon
  have hmem : ∀ c ∈ s ++ dirText ps ++ s%"/", c.toNat < 128 ∧ c ∉ s%"%?#" := by
    intro c hc
    rcases List.mem_append.1 hc with hc | hc
    · rcases List.mem_append.1 hc with hc | hc
      · exact hplain s (.head _) c hc
      · rcases dirText_mem hc with rfl | ⟨t, ht, hc⟩
        · decide
        · exact hplain t (.tail _ ht) c hc
    · rw [List.mem_singleton.1 hc]; decide
  have hparts : RefParts (s ++ dirText ps ++ s%"/") (optOf (ReqUrl.envText environ s%"QUERY_STRING")) :=
    ⟨fun h => (hmem _ h).2 (by decide), fun h => (hmem _ h).2 (by decide), by rw [optOf_getD]; exact hq⟩
  have hstrip : Py.stripP (· = '/') (dirText (s :: ps)) = s ++ dirText ps := by
    have e := rstrip_dir (s :: ps) fun t ht => ⟨(hseg t ht).1, (hseg t ht).2.1⟩
    have hs0 := hseg s (.head _)
    have hl' : Py.lstripP (fun c => decide (c = '/')) (dirText (s :: ps)) = s ++ dirText ps := by
      rw [dirText_cons]
      cases s with
      | nil => exact absurd rfl hs0.1
      | cons c s =>
        have : c ≠ '/' := fun h => hs0.2.1 (by rw [h]; exact .head _)
        simp [Py.lstripP, this]
    unfold Py.stripP
    rw [hl']
    apply rstripP_of_last
    intro c hc
    refine rstripP_last (fun c => decide (c = '/')) (dirText (s :: ps)) c ?_
    rw [e, dirText_cons, List.getLast?_cons, hc]
    rfl
  have hloc : slashLocation environ = .ok (refText (s ++ dirText ps ++ s%"/") (optOf (ReqUrl.envText environ s%"QUERY_STRING")) none) := by
    unfold slashLocation ReqUrl.envText
    rw [hp]
    simp only [hstrip]
    cases hg : Dict.get environ s%"QUERY_STRING" with
    | none => simp [refText, optOf]
    | some q => by_cases h0 : q = [] <;> simp [refText, optOf, h0]
  obtain ⟨r, h, sent, u, k1, k2, k3, k4, k5, k6, k7, k8, k9, k10⟩ := redirect_goes hl henc home hn hparts h4 h3 h1 h2
  refine ⟨r, h, sent, u, ?_, k2, k3, k4, k5, k6, k7, ?_, by rw [k9, optOf_getD], k10⟩
  · unfold appendSlashRedirect
    rw [hloc]
    exact k1
  · have := (written_plain (s ++ dirText ps ++ s%"/") fun c hc => ⟨(hmem c hc).1, fun h0 => (hmem c hc).2 (by rw [h0]; decide)⟩).meaning
    rw [utf8_eq] at this
    rw [k8, this, ← Utf8.encode_append, dirText_append, dirText_cons]
    simp

/-! ### Answers of views -/

/-- **C106, views.**  Where the best route has the path and a representation of its end point is
acceptable, what is sent is what the code behind that representation answers, with the arguments
of the path. -/
theorem C106_view_partial (a : Parts) (mro : Exc → List Nat) (autocorrect : Bool) (label : Str → Str) (environ : List (Str × Str))
    (ops : List Dispatch.Op) (d : Nat) (hdisp : a.disp = Dispatch.run ops d)
    (b : Bound) (vs : Values) (path query : Str) (hp : ReqUrl.path environ = .ok path) (hq : ReqUrl.queryString environ = .ok query)
    (hm : match_ a.map a.bound.adapter path query = .ok (.found b vs))
    (rep : Rep) (hsel : specLookup (a.select environ) (Dispatch.log ops d) b.route.endpoint (method environ) = .ok rep)
    (r : Response.Resp) (hv : a.view rep environ vs = .ok r) (h : Headers.HList)
    (hh : sentHeaders a.web autocorrect a.idna label environ r = .ok h) :
    a.serve mro autocorrect label environ = .ok ⟨r.status, h, Response.appIter (method environ) r⟩ := by
  have hroute : a.route environ = .ok (b.route.endpoint, vs) := by
    unfold Parts.route
    rw [hp]; simp only
    rw [hq]; simp only
    simp only [BoundMap.match_, Option.some_or, Option.getD_some]
    rw [hm]
  unfold Parts.serve Parts.response getResponse
  simp only [Parts.app]
  rw [hroute]
  simp only
  rw [hdisp, C40_lookup, hsel]
  simp only
  rw [hv]
  simp only
  unfold Parts.send
  rw [hh]

/-- **C106, unknown paths.**  Where no route has the path, the handlers for `NotFound` decide, and
without any the exception is raised to the server. -/
theorem C106_unknown (a : Parts) (mro : Exc → List Nat) (autocorrect : Bool) (label : Str → Str) (environ : List (Str × Str))
    (cfg : Config) (ops : List Op) (hmap : a.map = run (URLMap.new cfg) ops) (hs : settled (URLMap.new cfg) true ops = true)
    (path query : Str) (hp : ReqUrl.path environ = .ok path) (hq : ReqUrl.queryString environ = .ok query)
    (hno : ∀ b, Registered cfg ops b → b.match_ cfg (Routing.fullPath cfg a.bound.adapter path) = .none)
    (l : List Handler) (hl : a.handlers = register l) (hnone : ∀ c ∈ mro (.lib .notFound), handlersFor l c = []) :
    a.serve mro autocorrect label environ = .error (.lib .notFound) := by
  have hroute : a.route environ = .error (.lib .notFound) := by
    unfold Parts.route
    rw [hp]; simp only
    rw [hq]; simp only
    simp only [BoundMap.match_, Option.some_or, Option.getD_some]
    rw [hmap]
    rcases C46_outcome_partial cfg ops hs a.bound.adapter path query with ⟨_, h1⟩ | ⟨c, h1, h2, _⟩
    · rw [h1]
    · exact absurd (hno c h1) h2
  have hlook : ∀ cs, (∀ c ∈ cs, handlersFor l c = []) → exLookup (a.select environ) (register l) cs = .ok none := by
    intro cs
    induction cs with
    | nil => intro _; rfl
    | cons c cs ih =>
      intro h
      rw [exLookup, get_register, h c (.head _)]
      exact ih fun x hx => h x (.tail _ hx)
  unfold Parts.serve Parts.response getResponse
  simp only [Parts.app]
  rw [hroute]
  simp only [Exc.isException, if_true]
  rw [hl, hlook _ hnone]

/-! ### Examples and limits -/

/-- The handler of redirects. -/
def appRedirects : Rep := ⟨99, none, none, none, .one⟩

/-- The classes of exceptions: 0 is that of redirects, 1 that of unknown paths. -/
def appMro : Exc → List Nat
  | .redirect _ => [0, 2]
  | .lib .notFound => [1, 2]
  | _ => [2]

/-- An application with the given routes, all of whose views answer with their representation. -/
def appOf (ops : List Op) : Parts where
  web := locCfg
  idna := demoIdna
  float := demoFloat
  mul := demoMul
  map := run (URLMap.new sampleCfg) ops
  bound := ⟨⟨[], s%"/", [], []⟩, none, none⟩
  disp := Dispatch.run [.add 0 [⟨s%"dir", s%"GET", offer 0 s%"text/html"⟩, ⟨s%"dir", s%"GET", offer 1 s%"application/json"⟩]] 0
  handlers := register [⟨0, appRedirects⟩]
  redirects := appRedirects
  view := fun rep _ _ => .ok ⟨[(s%"X-Rep", natStr rep.id)], s%"200 OK", 200, .list [], [], false⟩
  handle := fun _ _ e => .error e

/-- A request for the given path and query. -/
def appEnv (path query : Str) : List (Str × Str) :=
  [(s%"SCRIPT_NAME", ReqUrl.encodingDance s%"/my app"), (s%"PATH_INFO", ReqUrl.encodingDance path),
   (s%"QUERY_STRING", query), (s%"wsgi.url_scheme", s%"http"), (s%"HTTP_HOST", s%"example.org:8080"),
   (s%"REQUEST_METHOD", s%"GET"), (s%"HTTP_ACCEPT", s%"application/json, text/*;q=0.5")]

/-- Status and headers of an answer. -/
def appAnswer (ops : List Op) (environ : List (Str × Str)) : Except PyErr (Str × Headers.HList) :=
  match (appOf ops).serve appMro true id environ with
  | .error (.lib e) => .error e
  | .error _ => .error .runtimeError
  | .ok x => .ok (x.status, x.headers.filter fun p => p.1 ≠ s%"Content-Length")

/-- The text of an example for which everything is checked below. -/
def dirOps : List Op := [.add [dirRoute]]

set_option synthInstance.maxSize 1000 in
set_option maxRecDepth 8000 in
example : appAnswer dirOps (appEnv s%"/a b" s%"q=1") =
      .ok (s%"301 UNKNOWN", [(s%"Content-Type", s%"text/html; charset=utf-8"), (s%"Location", s%"http://example.org:8080/my%20app/a%20b/?q=1")]) ∧
    appAnswer dirOps (appEnv s%"/a b/" s%"q=1") = .ok (s%"200 OK", [(s%"X-Rep", s%"1")]) ∧
    appAnswer dirOps (appEnv s%"/a/b" []) = .error .notFound := by
  refine ⟨?_, ?_, ?_⟩ <;> decide +kernel

theorem app_home (path query : Str) (hq : ∃ q, query = ReqUrl.encodingDance q) :
    Home demoIdna demoLower id (appEnv path query) s%"http" s%"example.org:8080" [s%"my app"] where
  site := ⟨s%"example.org:8080", s%"example.org:8080",
    ⟨.inl rfl, rfl, rfl, by decide, by decide, by decide +kernel, by decide⟩,
    by decide, by decide, by decide +kernel, by decide +kernel, by decide +kernel, by decide +kernel, demoIdna_ok _⟩
  script := rfl
  path := ⟨path, rfl⟩
  query := hq
  segments := by
    intro s hs
    simp only [List.mem_singleton] at hs
    subst hs
    unfold Segment
    decide

theorem app_rootless (ops : List Op) : Rootless (appOf ops) sampleCfg ops where
  map := rfl
  bound := ⟨fun s => .ok s, rfl⟩
  hosts := rfl
  subdomain := rfl

theorem app_redirecting (ops : List Op) : Redirecting (appOf ops) appMro where
  plain := ⟨rfl, rfl⟩
  registered := ⟨_, rfl, fun _ => ⟨0, [2], rfl, rfl⟩⟩

/-- All of the hypotheses are met by the application above and the path `/a b`. -/
example : ∃ x sent u, (appOf dirOps).serve appMro true id (appEnv s%"/a b" s%"q=1") = .ok x ∧
    Headers.getlist demoLower x.headers s%"Location" = [sent] ∧ ReqUrl.urlsplit demoLower sent = .ok u ∧
    u.scheme = s%"http" ∧ u.netloc = s%"example.org:8080" ∧
    ∀ environ', Follows environ' [s%"my app"] u.path →
      (appOf dirOps).route environ' = .ok (s%"dir", [(s%"x", .str s%"a b")]) := by
  refine C106_follow_partial (appOf dirOps) demoLower_ok (fun t => ⟨_, rfl⟩) sampleCfg sample_pure dirOps (app_rootless _) rfl ?_
    (.inr ?_) appMro (app_redirecting _) id _ _ _ [s%"my app"] s%"a b" [] s%"q=1"
    ⟨app_home _ _ ⟨s%"q=1", by decide +kernel⟩, by decide, ⟨⟨_, rfl⟩, ⟨_, rfl⟩, ⟨_, rfl⟩⟩, by decide +kernel, ?_, by decide, by decide +kernel, by decide⟩
    (by decide) dirBound ⟨⟨dirRoute, rfl, rfl⟩, ?_, ?_⟩ rfl rfl _ rfl
  · intro b hb
    rw [dir_registered b hb]
    intro n c h t ht
    cases h
    obtain ⟨h3, h1, _⟩ := (RoutingP.lang_rep _ _ _ (by simp) _).1 ht
    refine ⟨by rintro rfl; exact absurd h1 (by decide), ?_⟩
    intro hl
    have := h3 _ (List.mem_of_getLast? hl)
    exact absurd this (by decide)
  · intro r hr
    have : registered sampleCfg dirOps = [dirRoute] := rfl
    rw [this] at hr
    rw [List.mem_singleton.1 hr]
    rfl
  · intro t ht
    rw [List.mem_singleton.1 ht]
    unfold Segment
    decide
  · have : Bound.match_ sampleCfg dirBound (s%"|" ++ dirText [s%"a b"]) = .slash := rfl
    rw [this]; intro h; cases h
  · intro c hc _ hne
    exact absurd (dir_registered c hc) hne

/-- The redirect is a reference without a host, in which a colon stays as it is: a request for the
path `/https:evil.org` is redirected to `https:///evil.org/`, which browsers take to be on the
host `evil.org`. -/
theorem C106_slash_false : ¬ ∀ p : Str, '/' ∉ p → '?' ∉ p → '#' ∉ p → p ≠ [] → p ≠ s%"." → p ≠ s%".." → ∀ x,
    appAnswer dirOps (appEnv ('/' :: p) []) = .ok x →
      ∃ v, Headers.getlist demoLower x.2 s%"Location" = [v] ∧ s%"http://example.org:8080/my%20app/" <+: v := by
  intro h
  obtain ⟨v, h1, h2⟩ := h s%"https:evil.org" (by decide) (by decide) (by decide) (by decide) (by decide) (by decide)
    (s%"301 UNKNOWN", [(s%"Content-Type", s%"text/html; charset=utf-8"), (s%"Location", s%"https:///evil.org/")]) (by decide +kernel)
  have : v = s%"https:///evil.org/" := by
    have e : Headers.getlist demoLower [(s%"Content-Type", s%"text/html; charset=utf-8"), (s%"Location", s%"https:///evil.org/")]
      s%"Location" = [s%"https:///evil.org/"] := by decide +kernel
    rw [e] at h1
    exact (List.cons.inj h1).1.symm
  subst this
  revert h2
  decide

/-- The location of `append_slash_redirect` for a path. -/
def appended (path : Str) : Except PyErr (List Str) :=
  match appendSlashRedirect locCfg (Iri.iriToUri demoIdna demoLower usesNetloc) (appEnv path []) 301 with
  | .error e => .error e
  | .ok r => .ok (Headers.getlist demoLower r.headers s%"Location")

/-- `append_slash_redirect` writes the path into an address as it is: a question mark starts the
query, a percent sign escapes, a colon ends a scheme, and letters outside of ASCII are encoded
twice. -/
theorem C106_append_false : appended s%"/a b" = .ok [s%"a%20b/"] ∧
    appended s%"/what?" = .ok [s%"what?/"] ∧ appended s%"/100%25" = .ok [s%"100%25/"] ∧
    appended s%"/https:evil.org" = .ok [s%"https:///evil.org/"] ∧ appended s%"/é" = .ok [s%"%C3%83%C2%A9/"] := by
  refine ⟨?_, ?_, ?_, ?_, ?_⟩ <;> decide +kernel

/-- Without a path there is no redirect but a `KeyError`. -/
theorem C106_append_missing (web : Response.Cfg) (iri : Str → Except PyErr Str) (environ : List (Str × Str)) (code : Int)
    (h : Dict.get environ s%"PATH_INFO" = none) : appendSlashRedirect web iri environ code = .error .keyError := by
  unfold appendSlashRedirect slashLocation
  rw [h]

example : ∃ r h sent u, appendSlashRedirect locCfg (Iri.iriToUri demoIdna demoLower usesNetloc) (appEnv s%"/a b/c" s%"q=1") 301 = .ok r ∧
    s%"301 " <+: r.status ∧ sentHeaders locCfg true demoIdna id (appEnv s%"/a b/c" s%"q=1") r = .ok h ∧
    Headers.getlist demoLower h s%"Location" = [sent] ∧ ReqUrl.urlsplit demoLower sent = .ok u ∧
    u.scheme = s%"http" ∧ u.netloc = s%"example.org:8080" ∧
    Percent.meaning (Utf8.encode u.path) = Utf8.encode s%"/my app/a b/c/" ∧
    Percent.meaning (Utf8.encode u.query) = Percent.meaning (Utf8.encode s%"q=1") ∧
    Percent.meaning (Utf8.encode u.fragment) = [] := by
  refine C106_append_partial locCfg demoIdna demoLower_ok (fun t => ⟨_, rfl⟩) id _ _ _ [s%"my app"]
    (app_home _ _ ⟨s%"q=1", by decide +kernel⟩) (by decide) s%"a b" [s%"c"] ?_ (by decide) (by decide) (by decide +kernel) (by decide +kernel)
  intro t ht
  unfold Segment
  revert t
  decide

/-- All of the hypotheses of the last two theorems are met: `/a b/` has a view, `/a/b` has no
route. -/
example : (appOf dirOps).serve appMro true id (appEnv s%"/a b/" []) =
    .ok ⟨s%"200 OK", [(s%"X-Rep", s%"1"), (s%"Content-Length", s%"0")], Response.appIter s%"GET"
      ⟨[(s%"X-Rep", s%"1")], s%"200 OK", 200, .list [], [], false⟩⟩ :=
  C106_view_partial (appOf dirOps) appMro true id _ _ 0 rfl dirBound [(s%"x", .str s%"a b")] s%"/a b/" [] (by decide +kernel)
    (by decide +kernel) rfl (offer 1 s%"application/json") (by decide +kernel) _ rfl _ (by decide +kernel)

example : (appOf dirOps).serve appMro true id (appEnv s%"/a/b" []) = .error (.lib .notFound) := by
  refine C106_unknown (appOf dirOps) appMro true id _ sampleCfg dirOps rfl rfl s%"/a/b" [] (by decide +kernel) (by decide +kernel) ?_
    _ rfl (by decide)
  intro b hb
  rw [dir_registered b hb]
  rfl

end Verif.Props.AppP
