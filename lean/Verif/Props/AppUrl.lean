import Verif.Props.Application
import Verif.Props.RouteBind
import Verif.Props.RoutingCanon
/-!
C109: the addresses that an application gives for its end points, and the requests for them
(`/repo/verktyg/application.py`).
-/
namespace Verif.Props.AppUrlP
open Verif Verif.Py Verif.Routing
open Verif.Dispatch hiding Op run step log
open Verif.Iri Verif.Accept Verif.Application Verif.UrlJoin Verif.Spec
open Verif.Props.RoutingP Verif.Props.IriP Verif.Props.JoinP Verif.Props.BuildP Verif.Props.AppP

/-! ### Roots -/

theorem urlparse_bare (lower : Str → Str) (hl : lower s%"https" = s%"https") {scheme host dir : Str} (h : Root scheme host dir)
    (hp : ';' ∉ dir) : urlparse lower (scheme ++ s%"://" ++ (host ++ dir)) [] = .ok ⟨scheme, host, dir, [], [], []⟩ := by
  have e : host ++ dir = host ++ (dir ++ optText '?' [] ++ optText '#' []) := by simp [optText]
  unfold urlparse
  rw [ReqUrlP.urlsplit_web lower hl h.web, e, splitRest_web scheme host dir [] [] h.plain h.brackets h.slash
    h.noQuery h.noFragment (by simp)]
  simp only
  rw [if_neg (web_ne h.web), if_pos (web_params h.web), splitParams_none hp]

/-- The name of a machine as it stands in addresses, with or without a port. -/
structure Machine (lower : Str → Str) (host : Str) : Prop where
  lower : lower host = host
  ascii : BindP.Ascii host
  short : BindP.Short host
  labels : BindP.NoEmpty host

/-- The address of an application is that of a machine, or none at all. -/
structure Placed (a : Parts) (cfg : Config) (ops : List Op) (scheme host : Str) (segs : List Str) : Prop where
  map : a.map = run (URLMap.new cfg) ops
  hosts : cfg.hostMatching = false
  subdomain : cfg.defaultSubdomain = []
  bound : a.bound = ⟨⟨host, dirText segs ++ s%"/", [], scheme⟩, none, none⟩

/-- An application is made with the root `scheme://host/dirs`, with or without a slash at
its end. -/
structure Rooted (a : Parts) (cfg : Config) (ops : List Op) (scheme host : Str) (segs : List Str) : Prop where
  map : a.map = run (URLMap.new cfg) ops
  hosts : cfg.hostMatching = false
  subdomain : cfg.defaultSubdomain = []
  bound : ∃ other tail, (tail = [] ∧ ';' ∉ dirText segs ∨ tail = s%"/") ∧
    bindRoot cfg a.web.lower other (scheme ++ s%"://" ++ host ++ dirText segs ++ tail) = .ok a.bound
  root : Root scheme host (dirText segs)
  machine : Machine a.web.lower host
  segments : ∀ s ∈ segs, Segment s

theorem rootless_placed {a : Parts} (hl : LowerOk a.web.lower) {cfg : Config} {ops : List Op} (h : Rootless a cfg ops) :
    Placed a cfg ops [] [] [] :=
  ⟨h.map, h.hosts, h.subdomain, rootless_adapter hl h⟩

theorem dir_last (segs : List Str) (h : ∀ s ∈ segs, Segment s) : (dirText segs).getLast? ≠ some '/' := by
  rcases List.eq_nil_or_concat segs with rfl | ⟨l, s, rfl⟩
  · decide
  · rw [List.concat_eq_append] at h ⊢
    have hs := h s (by simp)
    rw [dirText_append, dirText_cons]
    intro hx
    have e : dirText [] = [] := rfl
    rw [e, List.append_nil] at hx
    cases hr : s.reverse with
    | nil => exact hs.1 (by simpa using hr)
    | cons c t =>
      have : s = t.reverse ++ [c] := by rw [← List.reverse_reverse s, hr]; simp
      rw [this, show dirText l ++ '/' :: (t.reverse ++ [c]) = (dirText l ++ '/' :: t.reverse) ++ [c] by simp,
        List.getLast?_concat] at hx
      cases hx
      exact hs.2.1 (by rw [this]; simp)

/-- **C109, roots.**  An application with a root builds and redirects to addresses on the machine
and below the directories of its root. -/
theorem C109_root_partial (a : Parts) (hl : LowerOk a.web.lower) (cfg : Config) (ops : List Op) (scheme host : Str) (segs : List Str)
    (h : Rooted a cfg ops scheme host segs) : Placed a cfg ops scheme host segs := by
  refine ⟨h.map, h.hosts, h.subdomain, ?_⟩
  obtain ⟨other, tail, ht, hb⟩ := h.bound
  have h0 : a.web.lower [] = [] := hl.ascii [] ascii_nil
  have hp : ∃ d, urlparse a.web.lower (scheme ++ s%"://" ++ host ++ dirText segs ++ tail) [] = .ok ⟨scheme, host, d, [], [], []⟩ ∧
      (if d.getLast? = some '/' then d else d ++ s%"/") = dirText segs ++ s%"/" := by
    rcases ht with ⟨rfl, hsemi⟩ | rfl
    · refine ⟨dirText segs, ?_, if_neg (dir_last segs h.segments)⟩
      have := urlparse_bare a.web.lower (lower_https hl) h.root hsemi
      simpa [List.append_assoc] using this
    · refine ⟨dirText segs ++ s%"/", ?_, if_pos (List.getLast?_concat ..)⟩
      have := urlparse_root a.web.lower (lower_https hl) h.root
      simpa [List.append_assoc] using this
  obtain ⟨d, hp, hd⟩ := hp
  unfold bindRoot at hb
  rw [hp] at hb
  have hid : idnaName other host = .ok host :=
    BindP.idna_labels other host h.machine.ascii h.machine.short fun _ => h.machine.labels
  have he : idnaName other [] = .ok [] := rfl
  simp only [Routing.bind, h.hosts, h.subdomain, Option.getD_none, h0, he, h.machine.lower, hid, Option.getD_some] at hb
  simp only [Bool.false_eq_true, false_and, if_false, ne_eq, not_true_eq_false] at hb
  injection hb with hb
  rw [← hb]
  unfold Adapter.mk'
  rw [hd]

/-! ### Requests -/

/-- A request for an address below a script: the server leaves the script out of the path,
and decodes the rest. -/
structure Fetches (environ : List (Str × Str)) (script address : Str) : Prop where
  parts : ∃ p q, address = script ++ refText p q none ∧ '?' ∉ p ∧
    ReqUrl.envText environ s%"PATH_INFO" = Utf8.latin1 (Percent.meaning (utf8 p)) ∧
    Dict.get environ s%"QUERY_STRING" = some (ReqUrl.encodingDance (q.getD []))

theorem ref_inj {p p' : Str} {q q' : Option Str} (h1 : '?' ∉ p) (h2 : '?' ∉ p') (h : refText p q none = refText p' q' none) :
    p = p' ∧ q = q' := by
  have hr : ∀ (p : Str) (q : Option Str), refText p q none = p ++ q.elim [] ('?' :: ·) := by
    intro p q
    cases q <;> simp [refText]
  rw [hr, hr] at h
  have hs : ∀ (p : Str) (q : Option Str), '?' ∉ p → split1 '?' (p ++ q.elim [] ('?' :: ·)) = (p, q) := by
    intro p q hp
    cases q with
    | none => simpa using split1_none '?' p hp
    | some q => exact split1_some '?' p q hp
  have := congrArg (split1 '?') h
  rw [hs p q h1, hs p' q' h2] at this
  exact ⟨congrArg Prod.fst this, congrArg Prod.snd this⟩

/-- **C109, the round trip.**  What an application gives as the address of an end point is an
address below its root; a request for it, with a method for which the end point has a
representation, calls the code behind that representation, with the arguments the address was
made for; the other values are the arguments of the query. -/
theorem C109_request_partial (dec : Char → Option Nat) (hdec : Decimal dec) (hsl : dec '/' = none)
    (cfg : Config) (hcfg : PureConfig cfg) (a : Parts)
    (hjoin : ∀ b u r, urljoin a.web.lower b u = .ok r → cfg.urljoin b u = r)
    (ops : List Op) (hs : settled (URLMap.new cfg) true ops = true)
    (hdef : cfg.redirectDefaults = false ∨ ∀ r ∈ registered cfg ops, r.defaults = [] ∧ r.alias = false)
    (scheme host : Str) (segs : List Str) (hscript : Script segs) (hplace : Placed a cfg ops scheme host segs)
    (endpoint : Str) (values : Values)
    (hex : ∃ b, Registered cfg ops b ∧ b.route.endpoint = endpoint ∧ b.suitableFor values = true)
    (hall : ∀ b, Registered cfg ops b → b.route.endpoint = endpoint → b.suitableFor values = true →
      Usable dec cfg ⟨host, dirText segs ++ s%"/", [], scheme⟩ values b) :
    ∃ b p path, Registered cfg ops b ∧ b.route.endpoint = endpoint ∧ b.suitableFor values = true ∧
      b.build values false = .ok (some (domainOf cfg b.route, p)) ∧ Percent.meaning (utf8 p) = utf8 path ∧
      ∀ r, path = '/' :: r → Dotless r → Packed r → r.getLast? ≠ some '\n' → Best cfg ops (s%"|" ++ path) b →
      ∃ url, a.urlFor endpoint values = .ok url ∧ dirText segs ++ p <+: url ∧
      ∀ environ, Fetches environ (dirText segs) url →
        (∀ semi, ∃ args, ReqUrl.argPairs semi environ = .ok args ∧ args.Perm ((extra b values).filter fun p => p.2 ≠ [])) ∧
        ∃ out, (∀ n, n ∉ Dict.keys b.route.defaults → Dict.get out n = if n ∈ b.vars.map (·.1) then Dict.get values n else none) ∧
          ∀ (dops : List Dispatch.Op) (d : Nat) (rep : Rep), a.disp = Dispatch.run dops d →
            specLookup (a.select environ) (Dispatch.log dops d) endpoint (method environ) = .ok rep →
            ∀ (mro : Exc → List Nat) (resp : Response.Resp), a.view rep environ out = .ok resp →
              a.response mro environ = .ok resp := by
  obtain ⟨b, p, q, path, hb, he, hsu, hpath, hmean, hq, hrest⟩ := address dec hdec hsl cfg hcfg a.web.lower hjoin ops hs hdef
    ⟨host, dirText segs ++ s%"/", [], scheme⟩ segs hscript rfl endpoint values hex hall
  refine ⟨b, p, path, hb, he, hsu, hpath, hmean, ?_⟩
  intro r hr hdot hpack hnl hbest
  obtain ⟨hbuild, ⟨u, rfl, hut⟩, hmatch, hadr⟩ := hrest r hr hdot hpack
  have hurl : a.urlFor endpoint values = .ok (dirText segs ++ refText ('/' :: u) q none) := by
    unfold Parts.urlFor
    rw [hplace.map, hplace.bound]
    exact hbuild
  refine ⟨_, hurl, ⟨q.elim [] ('?' :: ·), by cases q <;> simp [refText]⟩, ?_⟩
  intro environ ⟨p', q', f1, f2, f3, f4⟩
  obtain ⟨rfl, rfl⟩ := ref_inj f2 (by simpa using hut.no (by decide)) (List.append_cancel_left f1).symm
  have hpi : ReqUrl.path environ = .ok path := by
    unfold ReqUrl.path ReqUrl.decodingDance
    rw [f3, Utf8.toLatin1_latin1, hmean, utf8_eq]
    simp only [Except.map, Utf8.decode_encode, hr]
    have := packed_head hpack
    cases r with
    | nil => rfl
    | cons x r =>
      have : x ≠ '/' := fun e => this (by rw [e]; rfl)
      simp [lstripP, this]
  have hqs : ReqUrl.queryString environ = .ok (q'.getD []) := by
    unfold ReqUrl.queryString ReqUrl.envText
    rw [f4, Option.getD_some, (ReqUrlP.C88_round_trip _).1]
  have hfull : fullPath cfg ⟨host, dirText segs ++ s%"/", [], scheme⟩ path = s%"|" ++ path := by
    unfold Routing.fullPath
    rw [hplace.hosts, hr]
    have := packed_head hpack
    cases r with
    | nil => rfl
    | cons x r =>
      have : x ≠ '/' := fun e => this (by rw [e]; rfl)
      simp [lstripSlash, this]
  obtain ⟨out, hfound, hout⟩ := hmatch hnl ⟨host, dirText segs ++ s%"/", [], scheme⟩ hadr (by rw [hfull]; exact hbest) (q'.getD [])
  refine ⟨?_, out, hout, ?_⟩
  · intro semi
    refine ⟨_, by unfold ReqUrl.argPairs ReqUrl.envText; rw [f4, Option.getD_some, (ReqUrlP.C88_round_trip _).1], ?_⟩
    rcases hq with ⟨h, rfl⟩ | ⟨s, rfl, _, _, h⟩
    · rw [h]
      have : ∀ b, ReqUrl.parseQsl b [] = [] := by decide +kernel
      simp [this]
    · exact h semi
  · intro dops d rep hdisp hsel mro resp hv
    have hroute : a.route environ = .ok (b.route.endpoint, out) := by
      unfold Parts.route
      rw [hpi]; simp only
      rw [hqs]; simp only
      rw [hplace.bound, hplace.map]
      simp only [BoundMap.match_, Option.some_or, Option.getD_some]
      rw [hfound]
    unfold Parts.response getResponse
    simp only [Parts.app]
    rw [hroute]
    simp only
    rw [he, hdisp, C40_lookup, hsel]
    simp only
    rw [hv]

/-! ### Redirects -/

/-- **C109, slashes.**  Where the best route for a path asks for a slash at its end, an
application with a root asks for a redirect to the address of the path with the slash below its
root, with the query, whatever the host of the request; a request for that address reaches the end
point of the route. -/
theorem C109_slash_partial (cfg : Config) (hcfg : PureConfig cfg) (ops : List Op) (hs : settled (URLMap.new cfg) true ops = true)
    (hcl : ∀ b, Registered cfg ops b → Closed b) (hd : cfg.redirectDefaults = false ∨ ∀ r ∈ registered cfg ops, r.defaults = [])
    (a : Parts) (scheme host : Str) (segs : List Str) (hseg : ∀ s ∈ segs, Segment s) (hplace : Placed a cfg ops scheme host segs)
    (hsch : scheme ≠ []) (hhost : host ≠ []) (environ : List (Str × Str)) (r q : Str) (hr : r ≠ []) (hr' : r.head? ≠ some '/')
    (hp : ReqUrl.path environ = .ok ('/' :: r)) (hq : ReqUrl.queryString environ = .ok q) (hnl : ('/' :: r).getLast? ≠ some '\n')
    (b : Bound) (hb : Best cfg ops (s%"|/" ++ r) b) (hm : b.match_ cfg (s%"|/" ++ r) = .slash) :
    ∃ u, Percent.meaning (utf8 u) = utf8 ('/' :: r ++ s%"/") ∧
      a.route environ = .error (.redirect (scheme ++ s%"://" ++ host ++ dirText segs ++ refText u (optOf q) none)) ∧
      (b.route.redirectTo = none → ∀ vs, Bound.match_ cfg { b with strict := false } (s%"|/" ++ r) = .values vs →
        ∀ environ', Fetches environ' (scheme ++ s%"://" ++ host ++ dirText segs)
            (scheme ++ s%"://" ++ host ++ dirText segs ++ refText u (optOf q) none) →
          a.route environ' = .ok (b.route.endpoint, vs)) := by
  have hstrip : lstripSlash ('/' :: r) = r := by
    unfold lstripSlash
    cases r with
    | nil => exact absurd rfl hr
    | cons c r =>
      have : c ≠ '/' := fun e => hr' (by rw [e]; rfl)
      simp [this]
  have hf : Routing.fullPath cfg ⟨host, dirText segs ++ s%"/", [], scheme⟩ ('/' :: r) = s%"|/" ++ r := by
    unfold Routing.fullPath
    rw [hstrip, hplace.hosts]
    simp
  have hmatch := match_best cfg ops hs ⟨host, dirText segs ++ s%"/", [], scheme⟩ ('/' :: r) q b (by rw [hf]; exact hb)
  rw [hf, hm, answer, CanonP.run_cfg] at hmatch
  have hne : (quoteText b%"/:|+" (r ++ s%"/")).head? ≠ some '/' := by
    intro h0
    have := quoteText_head_inv slashSafe_low h0
    cases r with
    | nil => exact hr rfl
    | cons c r => exact hr' (by simpa using this)
  have hnn : quoteText b%"/:|+" (r ++ s%"/") ≠ [] := by
    rw [quoteText_append]
    intro h0
    have := (List.append_eq_nil_iff.1 h0).2
    revert this; decide
  have hurl : makeRedirectUrl cfg ⟨host, dirText segs ++ s%"/", [], scheme⟩ (urlquote b%"/:|+" ('/' :: r) ++ s%"/") q none =
      scheme ++ s%"://" ++ host ++ dirText segs ++ refText ('/' :: quoteText b%"/:|+" (r ++ s%"/")) (optOf q) none := by
    have e1 : urlquote b%"/:|+" ('/' :: r) ++ s%"/" = '/' :: quoteText b%"/:|+" (r ++ s%"/") := by
      rw [urlquote_eq, quoteText_cons, quoteText_append]
      simp only [List.append_assoc]
      rfl
    have e2 : ∀ path, makeRedirectUrl cfg ⟨host, dirText segs ++ s%"/", [], scheme⟩ path q none =
        makeRedirectUrl cfg ⟨host, dirText segs ++ s%"/", [], scheme⟩ path q (some []) := by
      intro path
      unfold makeRedirectUrl getHost
      rw [hplace.hosts]
      simp
    have hmach : CanonP.machine cfg ⟨host, dirText segs ++ s%"/", [], scheme⟩ [] = host := by
      rw [← CanonP.getHost_machine]
      unfold getHost
      rw [hplace.hosts]
      simp
    rw [e1, e2, CanonP.redirect_place cfg _ segs hseg rfl hsch [] (by rw [hmach]; exact hhost) _ q hne, hmach,
      if_neg (fun h => hnn h.2)]
    by_cases hq0 : q = [] <;> simp [hq0, refText, optOf]
  have hmean : Percent.meaning (utf8 ('/' :: quoteText b%"/:|+" (r ++ s%"/"))) = utf8 ('/' :: r ++ s%"/") := by
    have e : '/' :: quoteText b%"/:|+" (r ++ s%"/") = quoteText b%"/:|+" ('/' :: r ++ s%"/") := by
      rw [List.cons_append, quoteText_cons]; rfl
    rw [e, utf8_eq, meaning_slash, utf8_eq]
  refine ⟨'/' :: quoteText b%"/:|+" (r ++ s%"/"), hmean, ?_, ?_⟩
  · unfold Parts.route
    rw [hp]; simp only
    rw [hq]; simp only
    rw [hplace.bound, hplace.map]
    simp only [BoundMap.match_, Option.some_or, Option.getD_some]
    rw [hmatch, hurl]
  · intro hto vs hv environ' ⟨p', q', f1, f2, f3, f4⟩
    obtain ⟨rfl, _⟩ := ref_inj f2 (by
      have : '?' ∉ quoteText b%"/:|+" (r ++ s%"/") := quoteText_no slashSafe_low (by decide) (by decide) (Or.inl (by decide))
      simpa using this) (List.append_cancel_left f1).symm
    have hpi : ReqUrl.path environ' = .ok ('/' :: r ++ s%"/") := by
      unfold ReqUrl.path ReqUrl.decodingDance
      rw [f3, Utf8.toLatin1_latin1, hmean, utf8_eq]
      simp only [Except.map, Utf8.decode_encode]
      cases r with
      | nil => exact absurd rfl hr
      | cons x r =>
        have : x ≠ '/' := fun e => hr' (by rw [e]; rfl)
        simp [lstripP, this]
    have hqs : ReqUrl.queryString environ' = .ok (q'.getD []) := by
      unfold ReqUrl.queryString ReqUrl.envText
      rw [f4, Option.getD_some, (ReqUrlP.C88_round_trip _).1]
    have hfound := C48_found_partial cfg hcfg ops hs hcl hd ⟨host, dirText segs ++ s%"/", [], scheme⟩ ('/' :: r) (q'.getD []) hnl b
      (by rw [hf]; exact hb) (by rw [hf]; exact hm) hto vs (by rw [hf]; exact hv)
    unfold Parts.route
    rw [hpi]; simp only
    rw [hqs]; simp only
    rw [hplace.bound, hplace.map]
    simp only [BoundMap.match_, Option.some_or, Option.getD_some]
    rw [hfound]

/-- **C109, hosts.**  Nothing but the path and the query of a request decides where it goes: an
application answers requests to other machines, and below other scripts, than those of its root. -/
theorem C109_host_limits (a : Parts) (environ environ' : List (Str × Str))
    (h1 : Dict.get environ s%"PATH_INFO" = Dict.get environ' s%"PATH_INFO")
    (h2 : Dict.get environ s%"QUERY_STRING" = Dict.get environ' s%"QUERY_STRING") : a.route environ = a.route environ' := by
  unfold Parts.route ReqUrl.path ReqUrl.queryString ReqUrl.envText
  rw [h1, h2]

/-! ### Cases -/

def rootCfg : Config := { sampleCfg with urljoin := fun b u => (urljoin demoLower b u).toOption.getD [] }

theorem root_join (b u r : Str) (h : urljoin demoLower b u = .ok r) : rootCfg.urljoin b u = r := by
  show ((urljoin demoLower b u).toOption).getD [] = r
  rw [h]; rfl

/-- Users, and directories. -/
def rootOps : List Op := [.add [userRoute, dirRoute]]

/-- An application with a root; its views answer with the arguments. -/
def rootApp (root : Str) : Parts where
  web := locCfg
  idna := demoIdna
  float := demoFloat
  mul := demoMul
  map := run (URLMap.new rootCfg) rootOps
  bound := (bindRoot rootCfg demoLower .ok root).toOption.getD ⟨⟨[], [], [], []⟩, none, none⟩
  disp := Dispatch.run [.add 0 [⟨s%"user", s%"GET", offer 0 s%"text/html"⟩, ⟨s%"user", s%"PUT", offer 1 s%"application/json"⟩]] 0
  handlers := register [⟨0, appRedirects⟩]
  redirects := appRedirects
  view := fun rep _ vs => .ok ⟨(s%"X-Rep", natStr rep.id) :: vs.map fun kv => (kv.1, kv.2.text), s%"200 OK", 200, .list [], [], false⟩
  handle := fun _ _ e => .error e

/-- Headers of the answer. -/
def rootAnswer (root : Str) (environ : List (Str × Str)) : Except PyErr Headers.HList :=
  match (rootApp root).response appMro environ with
  | .error (.lib e) => .error e
  | .error _ => .error .runtimeError
  | .ok x => .ok (x.headers.filter fun p => p.1 ≠ s%"Content-Length")

/-- A request to another machine. -/
def rootEnv (path query : Str) : List (Str × Str) :=
  [(s%"SCRIPT_NAME", s%"/app"), (s%"PATH_INFO", ReqUrl.encodingDance path),
   (s%"QUERY_STRING", ReqUrl.encodingDance query), (s%"wsgi.url_scheme", s%"http"), (s%"HTTP_HOST", s%"elsewhere.org"),
   (s%"REQUEST_METHOD", s%"PUT")]

set_option maxRecDepth 8000 in
set_option synthInstance.maxSize 1000 in
/-- Roots with and without a slash, without directories, and without a machine. -/
example : (rootApp s%"http://example.org/app").urlFor s%"user" userArgs = .ok s%"/app/u/a%20b/7/?page=2" ∧
    (rootApp s%"http://example.org/app/").urlFor s%"user" userArgs = .ok s%"/app/u/a%20b/7/?page=2" ∧
    (rootApp s%"http://example.org").urlFor s%"user" userArgs = .ok s%"/u/a%20b/7/?page=2" ∧
    (rootApp []).urlFor s%"user" userArgs = .ok s%"/u/a%20b/7/?page=2" ∧
    rootAnswer s%"http://example.org/app" (rootEnv s%"/u/a b/7/" s%"page=2") =
      .ok [(s%"X-Rep", s%"1"), (s%"x", s%"a b"), (s%"n", s%"7")] ∧
    rootAnswer s%"http://example.org/app" (rootEnv s%"/u/a b/7" s%"page=2") =
      .ok [(s%"Content-Type", s%"text/html; charset=utf-8"), (s%"Location", s%"http://example.org/app/u/a%20b/7/?page=2")] := by
  decide +kernel

theorem root_rooted : Rooted (rootApp s%"http://example.org/app") rootCfg rootOps s%"http" s%"example.org" [s%"app"] where
  map := rfl
  hosts := rfl
  subdomain := rfl
  bound := ⟨.ok, [], .inl ⟨rfl, by decide⟩, rfl⟩
  root := CanonP.canon_root
  machine := ⟨by decide +kernel, by unfold BindP.Ascii; decide, by unfold BindP.Short; decide +kernel, by unfold BindP.NoEmpty; decide +kernel⟩
  segments := by unfold Segment; decide +kernel

def dirBound1 : Bound := { dirBound with id := 1 }

theorem root_registered (c : Bound) (h : Registered rootCfg rootOps c) : c = userBound ∨ c = dirBound1 := by
  have := CanonP.registered_mem rootCfg rootOps [userBound, dirBound1] rfl (by
    intro b hb
    simp only [List.mem_cons, List.not_mem_nil, or_false] at hb
    rcases hb with rfl | rfl <;> rfl) rfl c h
  simpa using this

theorem root_fetches : Fetches (rootEnv s%"/u/a b/7/" s%"page=2") s%"/app" s%"/app/u/a%20b/7/?page=2" :=
  ⟨s%"/u/a%20b/7/", some s%"page=2", rfl, by decide, by decide +kernel, by decide +kernel⟩

theorem root_best : Best rootCfg rootOps s%"|/u/a b/7/" userBound := by
  refine ⟨⟨userRoute, rfl, rfl⟩, ?_, ?_⟩
  · have : Bound.match_ rootCfg userBound s%"|/u/a b/7/" = .values [(s%"x", .str s%"a b"), (s%"n", .int 7)] := rfl
    rw [this]; intro h; cases h
  · intro c hc hm hne
    rcases root_registered c hc with rfl | rfl
    · exact absurd rfl hne
    · exact absurd rfl hm

/-- The hypotheses of the round trip are met, and its conclusions are the ones above. -/
example : ∃ b p path, Registered rootCfg rootOps b ∧ b.route.endpoint = s%"user" ∧ b.suitableFor userArgs = true ∧
    b.build userArgs false = .ok (some (domainOf rootCfg b.route, p)) ∧ Percent.meaning (utf8 p) = utf8 path := by
  obtain ⟨b, p, path, h1, h2, h3, h4, h5, _⟩ := C109_request_partial asciiDec asciiDec_ok rfl rootCfg sample_pure
    (rootApp s%"http://example.org/app") root_join rootOps rfl (.inr (by
      intro r hr
      have : registered rootCfg rootOps = [userRoute, dirRoute] := rfl
      rw [this] at hr
      simp only [List.mem_cons, List.not_mem_nil, or_false] at hr
      rcases hr with rfl | rfl <;> exact ⟨rfl, rfl⟩)) s%"http" s%"example.org" [s%"app"]
    ⟨by unfold Segment; decide +kernel, by decide +kernel⟩
    (C109_root_partial _ demoLower_ok _ _ _ _ _ root_rooted) s%"user" userArgs ⟨userBound, ⟨userRoute, rfl, rfl⟩, rfl, rfl⟩ (by
      intro c hc he _
      rcases root_registered c hc with rfl | rfl
      · exact user_usable _ rfl
      · exact absurd he (by decide))
  exact ⟨b, p, path, h1, h2, h3, h4, h5⟩

theorem user_closed : Closed userBound := by
  intro n c h t ht
  cases h
  obtain ⟨h1, h2⟩ := (lang_plus _ _).1 ht
  refine ⟨by first | exact h1 | exact h2, ?_⟩
  intro hl
  have : '/' ∈ t := List.mem_of_getLast? hl
  have := (by first | exact h2 _ this | exact h1 _ this : (asciiDec '/').isSome = true)
  exact absurd this (by decide)

theorem dir_closed : Closed dirBound1 := by
  intro n c h t ht
  cases h
  obtain ⟨h3, h1, _⟩ := (lang_rep _ _ _ (by simp) _).1 ht
  refine ⟨by rintro rfl; exact absurd h1 (by decide), ?_⟩
  intro hl
  have := h3 _ (List.mem_of_getLast? hl)
  exact absurd this (by decide)

theorem root_slash : Best rootCfg rootOps s%"|/u/a b/7" userBound := by
  refine ⟨⟨userRoute, rfl, rfl⟩, ?_, ?_⟩
  · have : Bound.match_ rootCfg userBound s%"|/u/a b/7" = .slash := rfl
    rw [this]; intro h; cases h
  · intro c hc hm hne
    rcases root_registered c hc with rfl | rfl
    · exact absurd rfl hne
    · exact absurd rfl hm

example : ∃ u, Percent.meaning (utf8 u) = utf8 s%"/u/a b/7/" ∧
    (rootApp s%"http://example.org/app").route (rootEnv s%"/u/a b/7" s%"page=2") =
      .error (.redirect (s%"http://example.org/app" ++ refText u (some s%"page=2") none)) := by
  obtain ⟨u, h1, h2, _⟩ := C109_slash_partial rootCfg sample_pure rootOps rfl (by
      intro c hc
      rcases root_registered c hc with rfl | rfl
      · exact user_closed
      · exact dir_closed) (.inr (by
      intro r hr
      have : registered rootCfg rootOps = [userRoute, dirRoute] := rfl
      rw [this] at hr
      simp only [List.mem_cons, List.not_mem_nil, or_false] at hr
      rcases hr with rfl | rfl <;> rfl)) (rootApp s%"http://example.org/app") s%"http" s%"example.org" [s%"app"]
    (by unfold Segment; decide +kernel) (C109_root_partial _ demoLower_ok _ _ _ _ _ root_rooted) (by decide) (by decide)
    (rootEnv s%"/u/a b/7" s%"page=2") s%"u/a b/7" s%"page=2" (by decide) (by decide) (by decide +kernel) (by decide +kernel) (by decide)
    userBound root_slash rfl
  exact ⟨u, h1, h2⟩

set_option maxRecDepth 8000 in
set_option synthInstance.maxSize 1000 in
/-- As stated C109 is false: a root without a scheme gives addresses relative to the page they
stand on, and one with a query or parameters loses them. -/
theorem C109_root_false : (rootApp s%"example.org/app").urlFor s%"user" userArgs = .ok s%"example.org/app/u/a%20b/7/?page=2" ∧
    (rootApp s%"http://example.org/app;v=1").urlFor s%"user" userArgs = .ok s%"/app/u/a%20b/7/?page=2" := by
  decide +kernel

end Verif.Props.AppUrlP
