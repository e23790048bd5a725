import Verif.Props.AppUrl
import Verif.Props.Wsgi
import Verif.Props.CookieText
/-!
Property theorems C139: applications mounted under paths, by `DispatcherMiddleware` within
`DispatcherMiddleware` to any depth, are reached at the addresses they give for their end points
(`/repo/verktyg/wsgi.py`, `/repo/verktyg/application.py`).
-/
namespace Verif.Props.AppUrlP
open Verif Verif.Py Verif.Routing
open Verif.Dispatch hiding Op run step log
open Verif.Iri Verif.Accept Verif.Application Verif.UrlJoin Verif.Spec
open Verif.Paths (Boundary)
open Verif.Props.RoutingP Verif.Props.IriP Verif.Props.JoinP Verif.Props.BuildP Verif.Props.AppP

/-! ### Sites -/

/-- What a server calls: an application, or a `DispatcherMiddleware` with the table of its mounts and
its default application (wsgi.py:523-536). -/
inductive Site where
  | app (a : Parts)
  | mounts (table : List (Str × Site)) (default : Site)

/-- Calling a site with an environ calls the application with another one: each `DispatcherMiddleware`
calls what it chooses (wsgi.py:538-552). -/
inductive Reaches : Site → List (Str × Str) → Parts → List (Str × Str) → Prop
  | app (a : Parts) (e : List (Str × Str)) : Reaches (.app a) e a e
  | mounts {table : List (Str × Site)} {default inner : Site} {e e' e'' : List (Str × Str)} {a : Parts}
      (h : Wsgi.mountCall (Dict.get table) default e = (inner, e')) (hr : Reaches inner e' a e'') :
      Reaches (.mounts table default) e a e''

/-- One application is called at most. -/
theorem Reaches.unique {s : Site} {e e1 e2 : List (Str × Str)} {a1 a2 : Parts} (h1 : Reaches s e a1 e1)
    (h2 : Reaches s e a2 e2) : a1 = a2 ∧ e1 = e2 := by
  induction h1 with
  | app a e => cases h2; exact ⟨rfl, rfl⟩
  | mounts h _ ih =>
    cases h2 with
    | mounts h' hr' =>
      rw [h] at h'
      injection h' with x y
      subst x y
      exact ih hr'

/-! ### What is expected -/

/-- The application that is responsible for a path, and the part of the path that leads to it: at each
table the longest mount that ends where a segment of the path ends, and the default where there is
none. -/
inductive Leads : Site → Str → Str → Parts → Prop
  | app (a : Parts) (path : Str) : Leads (.app a) path [] a
  | mount {table : List (Str × Site)} {default inner : Site} {a : Parts} (k rest s : Str) (hb : Boundary rest)
      (hk : Dict.get table k = some inner)
      (hmax : ∀ p r, k ++ rest = p ++ r → Boundary r → k.length < p.length → Dict.get table p = none)
      (hl : Leads inner rest s a) : Leads (.mounts table default) (k ++ rest) (k ++ s) a
  | default {table : List (Str × Site)} {default : Site} {a : Parts} (path s : Str)
      (hno : ∀ p r, path = p ++ r → Boundary r → Dict.get table p = none)
      (hl : Leads default path s a) : Leads (.mounts table default) path s a

theorem prefix_length {a b c d : Str} (h : a ++ b = c ++ d) (hl : a.length = c.length) : a = c ∧ b = d :=
  List.append_inj h hl

/-- **C139, mounts within mounts.**  A request whose path is empty or begins with a slash reaches the
application that is responsible for the path, and only that, with the part of the path that leads to it
moved to the end of SCRIPT_NAME, whatever the depth. -/
theorem C139_nested (site : Site) (path script : Str) (a : Parts) (h : Leads site path script a) (hb : Boundary path)
    (environ : List (Str × Str)) (hp : ReqUrl.envText environ s%"PATH_INFO" = path) :
    ∃ environ' info, Reaches site environ a environ' ∧ (∀ a' e', Reaches site environ a' e' → a' = a ∧ e' = environ') ∧
      path = script ++ info ∧ Boundary info ∧
      ReqUrl.envText environ' s%"SCRIPT_NAME" = ReqUrl.envText environ s%"SCRIPT_NAME" ++ script ∧
      ReqUrl.envText environ' s%"PATH_INFO" = info ∧
      ∀ k, k ≠ s%"SCRIPT_NAME" → k ≠ s%"PATH_INFO" → Dict.get environ' k = Dict.get environ k := by
  suffices hs : ∃ environ' info, Reaches site environ a environ' ∧ path = script ++ info ∧ Boundary info ∧
      ReqUrl.envText environ' s%"SCRIPT_NAME" = ReqUrl.envText environ s%"SCRIPT_NAME" ++ script ∧
      ReqUrl.envText environ' s%"PATH_INFO" = info ∧
      ∀ k, k ≠ s%"SCRIPT_NAME" → k ≠ s%"PATH_INFO" → Dict.get environ' k = Dict.get environ k by
    obtain ⟨e', info, h1, h2⟩ := hs
    exact ⟨e', info, h1, fun a' e'' h' => (Reaches.unique h1 h').imp Eq.symm Eq.symm, h2⟩
  induction h generalizing environ with
  | app a path => exact ⟨environ, path, .app a environ, rfl, hb, by simp, hp, fun _ _ _ => rfl⟩
  | @mount table default inner a k rest s hbr hk hmax hl ih =>
    obtain ⟨script, info, e1, e2, e3, e4, e5, e6⟩ := Wsgi.C35_mount (Dict.get table) default environ
    rw [show (Dict.get environ s%"PATH_INFO").getD [] = k ++ rest from hp] at e1 e6
    have hfound : Dict.get table script = some (Wsgi.mountCall (Dict.get table) default environ).1 ∧
        ∀ p r, k ++ rest = p ++ r → Boundary r → script.length < p.length → Dict.get table p = none := by
      rcases e6 with h6 | ⟨_, h6, _⟩
      · exact h6
      · rw [h6 k rest rfl hbr] at hk; cases hk
    have hlen : script.length = k.length := by
      rcases Nat.lt_trichotomy script.length k.length with h | h | h
      · rw [hfound.2 k rest rfl hbr h] at hk; cases hk
      · exact h
      · have := hmax script info e1 e2 h
        rw [hfound.1] at this; cases this
    obtain ⟨rfl, rfl⟩ := prefix_length e1.symm hlen
    have hin : (Wsgi.mountCall (Dict.get table) default environ).1 = inner := by
      have := hfound.1
      rw [hk] at this
      exact (Option.some.inj this).symm
    have h5 : ReqUrl.envText (Wsgi.mountCall (Dict.get table) default environ).2 s%"PATH_INFO" = info := by
      unfold ReqUrl.envText; rw [e4]; rfl
    obtain ⟨e', info', g1, g2, g3, g4, g5, g6⟩ := ih hbr (Wsgi.mountCall (Dict.get table) default environ).2 h5
    refine ⟨e', info', .mounts (inner := inner) (e' := (Wsgi.mountCall (Dict.get table) default environ).2) ?_ g1, ?_, g3, ?_, g5, ?_⟩
    · exact Prod.ext hin rfl
    · rw [g2]; simp
    · rw [g4]
      unfold ReqUrl.envText
      rw [e3]
      simp
    · intro x h1 h2
      rw [g6 x h1 h2, e5 x h1 h2]
  | @default table default a path s hno hl ih =>
    obtain ⟨script, info, e1, e2, e3, e4, e5, e6⟩ := Wsgi.C35_mount (Dict.get table) default environ
    rw [show (Dict.get environ s%"PATH_INFO").getD [] = path from hp] at e1 e6
    have hd : (Wsgi.mountCall (Dict.get table) default environ).1 = default ∧ script = [] := by
      rcases e6 with ⟨h6, _⟩ | ⟨h6, _, h7⟩
      · rw [hno script info e1 e2] at h6; cases h6
      · exact ⟨h6, h7 hb⟩
    obtain ⟨hd, rfl⟩ := hd
    have h5 : ReqUrl.envText (Wsgi.mountCall (Dict.get table) default environ).2 s%"PATH_INFO" = path := by
      unfold ReqUrl.envText; rw [e4, e1]; rfl
    obtain ⟨e', info', g1, g2, g3, g4, g5, g6⟩ := ih hb (Wsgi.mountCall (Dict.get table) default environ).2 h5
    refine ⟨e', info', .mounts (inner := default) (e' := (Wsgi.mountCall (Dict.get table) default environ).2) ?_ g1, g2, g3, ?_, g5, ?_⟩
    · exact Prod.ext hd rfl
    · rw [g4]
      unfold ReqUrl.envText
      rw [e3]
      simp
    · intro x h1 h2
      rw [g6 x h1 h2, e5 x h1 h2]

/-! ### Addresses -/

theorem decode_prefix (s t : Bytes) (h : (37 : UInt8) ∉ s) : Percent.decode [] (s ++ t) = s ++ Percent.decode [] t := by
  induction s with
  | nil => rfl
  | cons a s ih =>
    have h1 : a ≠ 37 := fun e => h (by simp [e])
    have h2 := ih fun hm => h (.tail _ hm)
    rw [List.cons_append, List.cons_append, ← h2]
    generalize s ++ t = u
    match u with
    | [] => rfl
    | [b] => rfl
    | b :: c :: r => rw [Percent.decode]; simp [h1]

theorem meaning_prefix (s t : Str) (h : '%' ∉ s) :
    Percent.meaning (utf8 (s ++ t)) = utf8 s ++ Percent.meaning (utf8 t) := by
  rw [utf8_eq, utf8_eq, utf8_eq, Utf8.encode_append]
  refine decode_prefix _ _ ?_
  intro hm
  obtain ⟨c, hc, e⟩ := CookieTextP.mem_encode hm (by decide)
  exact h (by
    have : c = '%' := by
      apply Char.ext
      apply UInt32.toNat_inj.1
      exact e
    rw [← this]; exact hc)

/-- Text without a question mark in front of a path and a query is in front of the path. -/
theorem ref_prefix (d t p : Str) (q : Option Str) (hd : '?' ∉ d) (hp : '?' ∉ p) (h : d ++ t = refText p q none) :
    ∃ p', p = d ++ p' := by
  have hr : refText p q none = p ++ q.elim [] ('?' :: ·) := by cases q <;> simp [refText]
  rw [hr] at h
  clear hr
  induction d generalizing p with
  | nil => exact ⟨p, rfl⟩
  | cons c d ih =>
    cases p with
    | nil =>
      cases q with
      | none => simp at h
      | some q =>
        simp only [List.cons_append, List.nil_append, Option.elim_some, List.cons.injEq] at h
        exact absurd (by rw [h.1]; simp) hd
    | cons x p =>
      simp only [List.cons_append, List.cons.injEq] at h
      obtain ⟨p', e⟩ := ih p (fun hm => hd (.tail _ hm)) (fun hm => hp (.tail _ hm)) h.2
      exact ⟨p', by rw [h.1, e]; rfl⟩

/-- **C139.**  An application that is mounted at a path in a site which a server has at `outer`, and
that has been given the address of that place as its root: a request for what it gives as the address
of an end point reaches that application and no other, and calls the code behind the end point with the
arguments the address was made for.  Missing: as for C109, and the directories of the mount have no
percent sign in them (C139_percent_false). -/
theorem C139_mounted_partial (dec : Char → Option Nat) (hdec : Decimal dec) (hsl : dec '/' = none)
    (cfg : Config) (hcfg : PureConfig cfg) (a : Parts)
    (hjoin : ∀ b u r, urljoin a.web.lower b u = .ok r → cfg.urljoin b u = r)
    (ops : List Op) (hs : settled (URLMap.new cfg) true ops = true)
    (hdef : cfg.redirectDefaults = false ∨ ∀ r ∈ registered cfg ops, r.defaults = [] ∧ r.alias = false)
    (scheme host : Str) (outer inner : List Str) (hscript : Script (outer ++ inner)) (hpct : '%' ∉ dirText inner)
    (hplace : Placed a cfg ops scheme host (outer ++ inner))
    (endpoint : Str) (values : Values)
    (hex : ∃ b, Registered cfg ops b ∧ b.route.endpoint = endpoint ∧ b.suitableFor values = true)
    (hall : ∀ b, Registered cfg ops b → b.route.endpoint = endpoint → b.suitableFor values = true →
      Usable dec cfg ⟨host, dirText (outer ++ inner) ++ s%"/", [], scheme⟩ values b) :
    ∃ b p path, Registered cfg ops b ∧ b.route.endpoint = endpoint ∧ b.suitableFor values = true ∧
      b.build values false = .ok (some (domainOf cfg b.route, p)) ∧ Percent.meaning (utf8 p) = utf8 path ∧
      ∀ r, path = '/' :: r → Dotless r → Packed r → r.getLast? ≠ some '\n' → Best cfg ops (s%"|" ++ path) b →
      ∃ url, a.urlFor endpoint values = .ok url ∧ dirText outer ++ dirText inner ++ p <+: url ∧
      ∀ (site : Site) (environ : List (Str × Str)), Fetches environ (dirText outer) url →
        Boundary (ReqUrl.envText environ s%"PATH_INFO") →
        Leads site (ReqUrl.envText environ s%"PATH_INFO") (ReqUrl.encodingDance (dirText inner)) a →
        ∃ environ', Reaches site environ a environ' ∧ (∀ a' e', Reaches site environ a' e' → a' = a ∧ e' = environ') ∧
          ReqUrl.envText environ' s%"SCRIPT_NAME" =
            ReqUrl.envText environ s%"SCRIPT_NAME" ++ ReqUrl.encodingDance (dirText inner) ∧
          (∀ k, k ≠ s%"SCRIPT_NAME" → k ≠ s%"PATH_INFO" → Dict.get environ' k = Dict.get environ k) ∧
          (∀ semi, ∃ args, ReqUrl.argPairs semi environ' = .ok args ∧ args.Perm ((extra b values).filter fun p => p.2 ≠ [])) ∧
          ∃ out, (∀ n, n ∉ Dict.keys b.route.defaults → Dict.get out n = if n ∈ b.vars.map (·.1) then Dict.get values n else none) ∧
            ∀ (dops : List Dispatch.Op) (d : Nat) (rep : Rep), a.disp = Dispatch.run dops d →
              specLookup (a.select environ') (Dispatch.log dops d) endpoint (method environ') = .ok rep →
              ∀ (mro : Exc → List Nat) (resp : Response.Resp), a.view rep environ' out = .ok resp →
                a.response mro environ' = .ok resp := by
  obtain ⟨b, p, path, h1, h2, h3, h4, h5, hrest⟩ := C109_request_partial dec hdec hsl cfg hcfg a hjoin ops hs hdef
    scheme host (outer ++ inner) hscript hplace endpoint values hex hall
  refine ⟨b, p, path, h1, h2, h3, h4, h5, ?_⟩
  intro r hr hdot hpack hnl hbest
  obtain ⟨url, hurl, ⟨t, ht⟩, hreq⟩ := hrest r hr hdot hpack hnl hbest
  rw [dirText_append, List.append_assoc, List.append_assoc] at ht
  refine ⟨url, hurl, ⟨t, by rw [← ht]; simp⟩, ?_⟩
  intro site environ ⟨p', q', f1, f2, f3, f4⟩ hb hlead
  have hd : '?' ∉ dirText inner := by
    have := script_no hscript (c := '?') (by decide)
    rw [dirText_append] at this
    exact fun hm => this (by simp [hm])
  rw [← ht] at f1
  obtain ⟨p'', rfl⟩ := ref_prefix (dirText inner) (p ++ t) p' q' hd f2 (List.append_cancel_left f1)
  rw [meaning_prefix _ _ hpct, ReqUrlP.latin1_append] at f3
  have hdance : Utf8.latin1 (utf8 (dirText inner)) = ReqUrl.encodingDance (dirText inner) := by
    rw [utf8_eq]; rfl
  rw [hdance] at f3
  obtain ⟨e', info, g1, g2, g3, g4, g5, g6, g7⟩ := C139_nested site _ _ a hlead hb environ rfl
  refine ⟨e', g1, g2, g5, g7, ?_⟩
  rw [f3] at g3
  have hinfo := List.append_cancel_left g3
  have hf : Fetches e' (dirText (outer ++ inner)) url := by
    refine ⟨p'', q', ?_, fun hm => f2 (by simp [hm]), ?_, ?_⟩
    · rw [← ht, f1, dirText_append]
      cases q' <;> simp [refText]
    · rw [g6, ← hinfo]
    · rw [g7 _ (by decide) (by decide), f4]
  exact hreq e' hf

/-! ### Cases and limits -/

/-- The application with the root `http://example.org/app/x`, mounted at `/x` of a site that is itself the
default of another one with a mount `/admin`; the server has the site at `/app`. -/
def mountApp : Parts := rootApp s%"http://example.org/app/x"

/-- Another application. -/
def otherApp : Parts := rootApp []

/-- The site. -/
def mountSite : Site :=
  .mounts [(s%"/admin", .app otherApp)] (.mounts [(s%"/x", .app mountApp), (s%"/x/deep", .app otherApp)] (.app otherApp))

/-- A request below `/app`. -/
def mountEnv (path query : Str) : List (Str × Str) := rootEnv path query

theorem no_mount {table : List (Str × Site)} {path : Str} (h : ∀ k ∈ Dict.keys table, ¬ k <+: path) :
    ∀ p r, path = p ++ r → Boundary r → Dict.get table p = none := by
  intro p r e _
  cases hg : Dict.get table p with
  | none => rfl
  | some v =>
    exact absurd ⟨r, e.symm⟩ (h p (by
      by_cases hm : p ∈ Dict.keys table
      · exact hm
      · rw [Dict.get_eq_none.2 hm] at hg; cases hg))

theorem mount_leads : Leads mountSite s%"/x/u/a b/7/" s%"/x" mountApp := by
  refine .default _ _ (no_mount (by decide)) ?_
  refine .mount s%"/x" s%"/u/a b/7/" [] (.inr rfl) rfl ?_ (.app _ _)
  intro p r e hb hl
  cases hg : Dict.get [(s%"/x", Site.app mountApp), (s%"/x/deep", .app otherApp)] p with
  | none => rfl
  | some v =>
    exfalso
    have hm : p ∈ Dict.keys [(s%"/x", Site.app mountApp), (s%"/x/deep", .app otherApp)] := by
      by_cases hm : p ∈ Dict.keys [(s%"/x", Site.app mountApp), (s%"/x/deep", .app otherApp)]
      · exact hm
      · rw [Dict.get_eq_none.2 hm] at hg; cases hg
    simp only [Dict.keys, List.map_cons, List.map_nil, List.mem_cons, List.not_mem_nil, or_false] at hm
    rcases hm with rfl | rfl
    · exact absurd hl (by decide)
    · have : s%"/x/deep" <+: s%"/x/u/a b/7/" := ⟨r, e.symm⟩
      exact absurd this (by decide)

theorem mount_rooted : Rooted mountApp rootCfg rootOps s%"http" s%"example.org" [s%"app", s%"x"] where
  map := rfl
  hosts := rfl
  subdomain := rfl
  bound := ⟨.ok, [], .inl ⟨rfl, by decide⟩, rfl⟩
  root := ⟨CanonP.canon_root.web, CanonP.canon_root.nonempty, CanonP.canon_root.plain, CanonP.canon_root.brackets, by decide, by decide, by decide⟩
  machine := root_rooted.machine
  segments := by unfold Segment; decide +kernel

set_option maxRecDepth 8000 in
set_option synthInstance.maxSize 1000 in
/-- The address of a user, and the request for it. -/
example : mountApp.urlFor s%"user" userArgs = .ok s%"/app/x/u/a%20b/7/?page=2" ∧
    Fetches (mountEnv s%"/x/u/a b/7/" s%"page=2") s%"/app" s%"/app/x/u/a%20b/7/?page=2" ∧
    (Wsgi.mountCall (Dict.get [(s%"/x", 1), (s%"/x/deep", 2)]) 0 (mountEnv s%"/x/u/a b/7/" s%"page=2")).1 = 1 ∧
    Dict.get (Wsgi.mountCall (Dict.get [(s%"/x", 1), (s%"/x/deep", 2)]) 0 (mountEnv s%"/x/u/a b/7/" s%"page=2")).2 s%"SCRIPT_NAME" =
      some s%"/app/x" ∧
    rootAnswer s%"http://example.org/app/x"
        (Wsgi.mountCall (Dict.get [(s%"/x", 1), (s%"/x/deep", 2)]) 0 (mountEnv s%"/x/u/a b/7/" s%"page=2")).2 =
      .ok [(s%"X-Rep", s%"1"), (s%"x", s%"a b"), (s%"n", s%"7")] := by
  refine ⟨by decide +kernel, ⟨s%"/x/u/a%20b/7/", some s%"page=2", rfl, by decide, by decide +kernel, by decide +kernel⟩, ?_, ?_, ?_⟩ <;>
    decide +kernel

/-- The hypotheses of the theorem are met. -/
example : ∃ b p path, Registered rootCfg rootOps b ∧ b.route.endpoint = s%"user" ∧ b.suitableFor userArgs = true ∧
    b.build userArgs false = .ok (some (domainOf rootCfg b.route, p)) ∧ Percent.meaning (utf8 p) = utf8 path := by
  obtain ⟨b, p, path, h1, h2, h3, h4, h5, _⟩ := C139_mounted_partial asciiDec asciiDec_ok rfl rootCfg sample_pure
    mountApp root_join rootOps rfl (.inr (by
      intro r hr
      have : registered rootCfg rootOps = [userRoute, dirRoute] := rfl
      rw [this] at hr
      simp only [List.mem_cons, List.not_mem_nil, or_false] at hr
      rcases hr with rfl | rfl <;> exact ⟨rfl, rfl⟩)) s%"http" s%"example.org" [s%"app"] [s%"x"]
    ⟨by unfold Segment; decide +kernel, by decide +kernel⟩ (by decide)
    (C109_root_partial _ demoLower_ok _ _ _ _ _ mount_rooted) s%"user" userArgs ⟨userBound, ⟨userRoute, rfl, rfl⟩, rfl, rfl⟩ (by
      intro c hc he _
      rcases root_registered c hc with rfl | rfl
      · exact user_usable _ rfl
      · exact absurd he (by decide))
  exact ⟨b, p, path, h1, h2, h3, h4, h5⟩

example : ∃ environ', Reaches mountSite (mountEnv s%"/x/u/a b/7/" []) mountApp environ' ∧
    ReqUrl.envText environ' s%"SCRIPT_NAME" = s%"/app/x" ∧ ReqUrl.envText environ' s%"PATH_INFO" = s%"/u/a b/7/" := by
  obtain ⟨e', info, h1, _, h3, _, h5, h6, _⟩ := C139_nested mountSite _ _ mountApp mount_leads (.inr rfl) (mountEnv s%"/x/u/a b/7/" [])
    (by decide +kernel)
  refine ⟨e', h1, h5, ?_⟩
  rw [h6]
  exact (List.append_cancel_left (as := s%"/x") h3).symm

set_option maxRecDepth 8000 in
set_option synthInstance.maxSize 1000 in
/-- **C139, limits.**  The root is written into addresses as it is: an application mounted at the path
`/100%41` gives an address that a server reads as one below `/100A`, where it is not. -/
theorem C139_percent_false : ∃ url p q, (rootApp s%"http://example.org/100%41").urlFor s%"user" userArgs = .ok url ∧
    url = refText p q none ∧ '?' ∉ p ∧ Percent.meaning (utf8 p) = utf8 s%"/100A/u/a b/7/" ∧
    (Wsgi.mountCall (Dict.get [(s%"/100%41", 1)]) 0 [(s%"PATH_INFO", Utf8.latin1 (Percent.meaning (utf8 p)))]).1 = 0 := by
  refine ⟨s%"/100%41/u/a%20b/7/?page=2", s%"/100%41/u/a%20b/7/", some s%"page=2", ?_, rfl, ?_, ?_, ?_⟩ <;> decide +kernel

set_option maxRecDepth 8000 in
set_option synthInstance.maxSize 1000 in
/-- **C139, limits.**  Mounting does not tell an application where it is: without a root it gives
addresses outside of its mount. -/
theorem C139_root_false : otherApp.urlFor s%"user" userArgs = .ok s%"/u/a%20b/7/?page=2" ∧
    (Wsgi.mountCall (Dict.get [(s%"/x", 1)]) 0 [(s%"PATH_INFO", s%"/u/a b/7/")]).1 = 0 := by
  refine ⟨?_, ?_⟩ <;> decide +kernel

end Verif.Props.AppUrlP
