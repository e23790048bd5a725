import Verif.Model.RouteBind
import Verif.PyMore
import Verif.Props.RequestUrl
import Verif.Props.SubmountUrl
/-!
C103: binding a map to a request (`/repo/verktyg/routing.py`).
-/
namespace Verif.Props.BindP
open Verif Verif.Routing Verif.Props.RoutingP Verif.Props.MountP

/-! ### names of hosts -/

/-- Text in ASCII. -/
def Ascii (s : Str) : Prop := ∀ c ∈ s, c.toNat < 128

/-- The codec leaves names in ASCII alone, or refuses them. -/
theorem idna_ascii (other : Str → Except PyErr Str) (s : Str) (h : Ascii s) :
    idnaName other s = .ok s ∨ idnaName other s = .error .unicodeError := by
  unfold idnaName
  by_cases hs : s = []
  · exact .inl (by simp [hs])
  · rw [if_neg hs, if_pos (by simpa [Ascii] using h)]
    dsimp only
    split
    · exact .inl rfl
    · exact .inr rfl

theorem lower_ascii (s : Str) (h : Ascii s) : Ascii (asciiLower s) := by
  intro c hc
  obtain ⟨d, hd, rfl⟩ := List.mem_map.1 hc
  have := h d hd
  have key : ∀ m < 128, (Char.ofNat m).toLower.toNat < 128 := by decide +kernel
  have := key d.toNat this
  rwa [Utf8.ofNat_toNat] at this

theorem lower_lower (s : Str) (h : Ascii s) : asciiLower (asciiLower s) = asciiLower s := by
  unfold asciiLower
  rw [List.map_map]
  refine List.map_congr_left fun c hc => ?_
  have key : ∀ m < 128, (Char.ofNat m).toLower.toLower = (Char.ofNat m).toLower := by decide +kernel
  have := key c.toNat (h c hc)
  rwa [Utf8.ofNat_toNat] at this

/-- The labels of a name that are not empty, as a name. -/
def trimmed (pre : Str) : Str := Py.join s%"." ((Py.splitOn '.' pre).filter (· ≠ []))

theorem subdomain_same (s : Str) : subdomainIn s s = [] := by
  unfold subdomainIn
  simp [Py.join]

theorem subdomain_below (pre s : Str) : subdomainIn (pre ++ '.' :: s) s = trimmed pre := by
  unfold subdomainIn trimmed
  simp only [Py.splitOn_append_sep, List.length_append, Nat.add_sub_cancel, List.drop_left, List.take_left]
  simp

theorem subdomain_foreign (h s : Str) (h1 : h ≠ s) (h2 : ∀ pre, h ≠ pre ++ '.' :: s) :
    subdomainIn h s = s%"<invalid>" := by
  unfold subdomainIn
  dsimp only
  rw [if_pos]
  intro he
  have hcut := List.take_append_drop ((Py.splitOn '.' h).length - (Py.splitOn '.' s).length) (Py.splitOn '.' h)
  rw [he] at hcut
  generalize htk : List.take ((Py.splitOn '.' h).length - (Py.splitOn '.' s).length) (Py.splitOn '.' h) = l at hcut
  have hj : Py.join s%"." (l ++ Py.splitOn '.' s) = h := by rw [hcut]; exact Py.join_splitOn '.' h
  by_cases hl : l = []
  · rw [hl, List.nil_append, Py.join_splitOn] at hj
    exact h1 hj.symm
  · refine h2 (Py.join s%"." l) ?_
    rw [← hj]
    have hj2 : ∀ (l : List Str) (r : List Str), l ≠ [] → r ≠ [] →
        Py.join s%"." (l ++ r) = Py.join s%"." l ++ '.' :: Py.join s%"." r := by
      intro l r hl hr
      induction l with
      | nil => exact absurd rfl hl
      | cons x xs ih =>
        cases xs with
        | nil =>
          cases r with
          | nil => exact absurd rfl hr
          | cons y ys => simp [Py.join]
        | cons z zs =>
          have := ih (by simp)
          simp only [List.cons_append, Py.join] at this ⊢
          rw [this]
          simp
    rw [hj2 l _ hl (Py.splitOn_ne_nil '.' s), Py.join_splitOn]

/-! ### what is bound -/

/-- The text `v` of the environ, or none. -/
def Holds (env : List (Str × Str)) (k : Str) (v : Option Str) : Prop := Dict.get env k = v.map ReqUrl.encodingDance

theorem wsgi_holds (env : List (Str × Str)) (k : Str) (v : Option Str) (h : Holds env k v) : wsgiString env k = .ok v := by
  unfold wsgiString
  rw [h]
  cases v with
  | none => rfl
  | some v =>
    simp only [Option.map_some, (Props.ReqUrlP.C88_round_trip v).1]
    rfl

theorem bindStrings_holds (cfg : Config) (lower : Str → Str) (other : Str → Except PyErr Str) (env : List (Str × Str))
    (script path query : Option Str) (scheme : Str) (h1 : Holds env s%"SCRIPT_NAME" script)
    (h2 : Holds env s%"PATH_INFO" path) (h3 : Holds env s%"QUERY_STRING" query)
    (h4 : Dict.get env s%"wsgi.url_scheme" = some scheme) (server : Str) (sub : Option Str) :
    bindStrings cfg lower other env server sub = bind cfg lower other server script sub scheme path query := by
  unfold bindStrings
  rw [wsgi_holds env _ _ h1, wsgi_holds env _ _ h2, wsgi_holds env _ _ h3, h4]

/-- A request in terms of text: its host, its script, path and query, and its scheme. -/
structure Incoming (env : List (Str × Str)) (host : Str) (script path query : Option Str) (scheme : Str) : Prop where
  host : Dict.get env s%"HTTP_HOST" = some host
  script : Holds env s%"SCRIPT_NAME" script
  path : Holds env s%"PATH_INFO" path
  query : Holds env s%"QUERY_STRING" query
  scheme : Dict.get env s%"wsgi.url_scheme" = some scheme

/-- The adapter for a subdomain of a server. -/
def boundTo (server sub : Str) (script path query : Option Str) (scheme : Str) : BoundMap :=
  ⟨Adapter.mk' server (script.getD s%"/") sub scheme, path, query⟩

/-- Every label is shorter than 64 characters. -/
def Short (s : Str) : Prop := ∀ l ∈ Py.splitOn '.' s, l.length < 64

/-- No label is empty. -/
def NoEmpty (s : Str) : Prop := ∀ l ∈ Py.splitOn '.' s, l ≠ []

theorem idna_labels (other : Str → Except PyErr Str) (s : Str) (h : Ascii s) (hs : Short s) (hn : s ≠ [] → NoEmpty s) :
    idnaName other s = .ok s := by
  unfold idnaName
  by_cases he : s = []
  · simp [he]
  · rw [if_neg he, if_pos (by simpa [Ascii] using h)]
    dsimp only
    rw [if_pos]
    constructor
    · rw [List.all_eq_true]
      intro l hl
      have hm := List.dropLast_subset _ hl
      have h1 := hn he l hm
      have h2 := hs l hm
      have h3 := List.length_pos_iff.2 h1
      simp [h2, h3]
    · cases hl : (Py.splitOn '.' s).getLast? with
      | none => simp
      | some l => exact hs l (List.mem_of_getLast? hl)

theorem trimmed_labels (pre : Str) : trimmed pre = [] ∨
    Py.splitOn '.' (trimmed pre) = (Py.splitOn '.' pre).filter (· ≠ []) := by
  unfold trimmed
  by_cases h : (Py.splitOn '.' pre).filter (· ≠ []) = []
  · left; rw [h]; rfl
  · right
    refine Py.splitOn_join '.' _ h fun p hp => ?_
    exact Py.splitOn_no_sep '.' pre p (List.mem_filter.1 hp).1

theorem trimmed_full (pre : Str) (h : NoEmpty pre) : trimmed pre = pre := by
  unfold trimmed
  rw [List.filter_eq_self.2 (fun l hl => by simpa using h l hl), Py.join_splitOn]

theorem mem_join (c : Char) (ps : List Str) : c ∈ Py.join s%"." ps → c = '.' ∨ ∃ p ∈ ps, c ∈ p := by
  induction ps with
  | nil => intro h; cases h
  | cons x xs ih =>
    intro h
    cases xs with
    | nil => exact .inr ⟨x, .head _, by simpa [Py.join] using h⟩
    | cons y ys =>
      simp only [Py.join, List.mem_append, List.mem_singleton] at h
      rcases h with (h | h) | h
      · exact .inr ⟨x, .head _, h⟩
      · exact .inl h
      · rcases ih h with h | ⟨p, hp, h⟩
        · exact .inl h
        · exact .inr ⟨p, .tail _ hp, h⟩

theorem mem_split (c : Char) (s : Str) : ∀ p ∈ Py.splitOn '.' s, c ∈ p → c ∈ s := by
  intro p hp hc
  rw [← Py.join_splitOn '.' s]
  generalize Py.splitOn '.' s = ps at hp
  induction ps with
  | nil => cases hp
  | cons x xs ih =>
    cases xs with
    | nil =>
      rcases List.mem_cons.1 hp with rfl | hp
      · exact hc
      · cases hp
    | cons y ys =>
      simp only [Py.join, List.mem_append]
      rcases List.mem_cons.1 hp with rfl | hp
      · exact .inl (.inl hc)
      · exact .inr (ih hp)

/-- The subdomain in the adapter of a request. -/
theorem bound_known (cfg : Config) (hm : cfg.hostMatching = false) (lower : Str → Str)
    (hl : ∀ s, Ascii s → lower s = asciiLower s) (other : Str → Except PyErr Str) (env : List (Str × Str))
    (host server : Str) (script path query : Option Str) (scheme : Str)
    (he : Incoming env host script path query scheme) (hh : Ascii host) (hs : Ascii server) (hne : server ≠ [])
    (h1 : Short (asciiLower server)) (h2 : NoEmpty (asciiLower server)) (sub : Str)
    (hsub : subdomainIn (asciiLower host) (asciiLower server) = sub) (hsa : Ascii sub) (hsl : asciiLower sub = sub)
    (h3 : Short sub) (h4 : sub ≠ [] → NoEmpty sub) :
    bindToEnviron cfg lower other env (some server) none = .ok (boundTo (asciiLower server) sub script path query scheme) := by
  unfold bindToEnviron hostFull
  rw [he.host]
  dsimp only
  rw [if_pos ⟨rfl, hm⟩, bindStrings_holds cfg lower other env script path query scheme he.script he.path he.query he.scheme,
    hl host hh, hl server hs, hsub]
  unfold Routing.bind
  rw [if_neg (by simp [hm]), if_neg (by simp [hm])]
  simp only [Option.getD_some]
  rw [hl sub hsa, hsl, hl _ (lower_ascii server hs), lower_lower server hs, idna_labels other sub hsa h3 h4,
    idna_labels other _ (lower_ascii server hs) h1 fun _ => h2]
  dsimp only
  rw [if_neg (by simp [asciiLower, hne])]
  rfl

/-- C103: a map bound to a request and the name of a server gets the server, in lower case, and
as the subdomain what is in front of it in the host of the request (without empty labels); for
a host that is neither the server nor below it the subdomain is one no host has.  The path, the
script and the query are the text of the request. -/
theorem C103_subdomain_partial (cfg : Config) (hm : cfg.hostMatching = false) (lower : Str → Str)
    (hl : ∀ s, Ascii s → lower s = asciiLower s) (other : Str → Except PyErr Str) (env : List (Str × Str))
    (host server : Str) (script path query : Option Str) (scheme : Str)
    (he : Incoming env host script path query scheme) (hh : Ascii host) (hs : Ascii server) (hne : server ≠ [])
    (h0 : Short (asciiLower host)) (h1 : Short (asciiLower server)) (h2 : NoEmpty (asciiLower server)) :
    ∃ sub, bindToEnviron cfg lower other env (some server) none =
        .ok (boundTo (asciiLower server) sub script path query scheme) ∧
      (asciiLower host = asciiLower server → sub = []) ∧
      (∀ pre, asciiLower host = pre ++ s%"." ++ asciiLower server → sub = trimmed pre) ∧
      (asciiLower host ≠ asciiLower server → (∀ pre, asciiLower host ≠ pre ++ s%"." ++ asciiLower server) →
        sub = s%"<invalid>") := by
  have hconc := bound_known cfg hm lower hl other env host server script path query scheme he hh hs hne h1 h2
  have happ : ∀ pre : Str, pre ++ s%"." ++ asciiLower server = pre ++ '.' :: asciiLower server := fun pre => by simp
  have hlen : ∀ pre, asciiLower host = pre ++ '.' :: asciiLower server → asciiLower host ≠ asciiLower server := by
    intro pre e e'
    have := congrArg List.length (e'.symm.trans e)
    simp only [List.length_append, List.length_cons] at this
    omega
  by_cases hsame : asciiLower host = asciiLower server
  · refine ⟨[], hconc [] (by rw [hsame]; exact subdomain_same _) (fun c hc => by cases hc) rfl ?_ (fun h => absurd rfl h),
      fun _ => rfl, fun pre e => ?_, fun h => absurd hsame h⟩
    · intro l hl
      simp only [Py.splitOn, List.mem_singleton] at hl
      subst hl
      decide
    · rw [happ] at e
      exact absurd hsame (hlen pre e)
  · by_cases hex : ∃ pre, asciiLower host = pre ++ '.' :: asciiLower server
    · obtain ⟨pre, hpre⟩ := hex
      have hmemh : ∀ c ∈ trimmed pre, c ∈ asciiLower host := by
        intro c hc
        rw [hpre]
        unfold trimmed at hc
        rcases mem_join c _ hc with rfl | ⟨p, hp, hc⟩
        · simp
        · exact List.mem_append.2 (.inl (mem_split c pre p (List.mem_filter.1 hp).1 hc))
      have hspl : ∀ l ∈ Py.splitOn '.' (trimmed pre), (l ∈ Py.splitOn '.' (asciiLower host) ∧ l ≠ []) ∨
          (trimmed pre = [] ∧ l = []) := by
        intro l hl
        rcases trimmed_labels pre with h | h
        · rw [h] at hl
          exact .inr ⟨h, by simpa [Py.splitOn] using hl⟩
        · rw [h] at hl
          obtain ⟨h3, h4⟩ := List.mem_filter.1 hl
          left
          rw [hpre, Py.splitOn_append_sep]
          exact ⟨List.mem_append.2 (.inl h3), by simpa using h4⟩
      refine ⟨trimmed pre, hconc _ (by rw [hpre]; exact subdomain_below pre _) ?_ ?_ ?_ ?_, fun h => absurd h hsame,
        fun pre' e => ?_, fun _ h => absurd ((happ pre).symm ▸ hpre) (h pre)⟩
      · exact fun c hc => lower_ascii host hh c (hmemh c hc)
      · have hfix : ∀ c ∈ asciiLower host, c.toLower = c := by
          intro c hc
          obtain ⟨d, hd, rfl⟩ := List.mem_map.1 hc
          have key : ∀ m < 128, (Char.ofNat m).toLower.toLower = (Char.ofNat m).toLower := by decide +kernel
          have := key d.toNat (hh d hd)
          rwa [Utf8.ofNat_toNat] at this
        unfold asciiLower
        rw [show trimmed pre = (trimmed pre).map id from by simp]
        rw [List.map_map]
        exact List.map_congr_left fun c hc => hfix c (hmemh c hc)
      · intro l hl
        rcases hspl l hl with ⟨h, _⟩ | ⟨_, h⟩
        · exact h0 l h
        · subst h; decide
      · intro hne' l hl
        rcases hspl l hl with ⟨_, h⟩ | ⟨h, _⟩
        · exact h
        · exact absurd h hne'
      · rw [happ, hpre] at e
        rw [List.append_cancel_right e]
    · have hn : ∀ pre, asciiLower host ≠ pre ++ '.' :: asciiLower server := fun pre e => hex ⟨pre, e⟩
      refine ⟨s%"<invalid>", hconc _ (subdomain_foreign _ _ hsame hn) ?_ (by decide) ?_ ?_, fun h => absurd h hsame,
        fun pre e => absurd ((happ pre) ▸ e) (hn pre), fun _ _ => rfl⟩
      · unfold Ascii; decide
      · unfold Short; decide
      · intro _; unfold NoEmpty; decide

/-- C103: redirects of a map bound to a request stay on the host of the request. -/
theorem C103_stays (cfg : Config) (hm : cfg.hostMatching = false) (lower : Str → Str)
    (hl : ∀ s, Ascii s → lower s = asciiLower s) (other : Str → Except PyErr Str) (env : List (Str × Str))
    (host server : Str) (script path query : Option Str) (scheme : Str)
    (he : Incoming env host script path query scheme) (hh : Ascii host) (hs : Ascii server) (hne : server ≠ [])
    (h0 : Short (asciiLower host)) (h1 : Short (asciiLower server)) (h2 : NoEmpty (asciiLower host))
    (hbelow : asciiLower host = asciiLower server ∨ ∃ pre, asciiLower host = pre ++ s%"." ++ asciiLower server) :
    ∃ x, bindToEnviron cfg lower other env (some server) none = .ok x ∧
      getHost cfg x.adapter none = asciiLower host := by
  have hne' : NoEmpty (asciiLower server) := by
    rcases hbelow with h | ⟨pre, h⟩
    · rw [← h]; exact h2
    · intro l hl
      refine h2 l ?_
      rw [h, List.append_assoc, List.singleton_append, Py.splitOn_append_sep]
      exact List.mem_append.2 (.inr hl)
  obtain ⟨sub, hb, hsame, hpre, _⟩ := C103_subdomain_partial cfg hm lower hl other env host server script path query scheme
    he hh hs hne h0 h1 hne'
  refine ⟨_, hb, ?_⟩
  unfold getHost
  rw [if_neg (by simp [hm])]
  show (if sub ≠ [] then sub ++ s%"." ++ asciiLower server else asciiLower server) = asciiLower host
  rcases hbelow with h | ⟨pre, h⟩
  · rw [hsame h, if_neg (by simp), h]
  · have hnp : NoEmpty pre := by
      intro l hl
      refine h2 l ?_
      rw [h, List.append_assoc, List.singleton_append, Py.splitOn_append_sep]
      exact List.mem_append.2 (.inl hl)
    have : sub = pre := (hpre pre h).trans (trimmed_full pre hnp)
    subst this
    have hsn : sub ≠ [] := by
      rintro rfl
      exact hnp [] (by simp [Py.splitOn]) rfl
    rw [if_pos hsn, h]

/-! ### domains and hosts that are not served -/

/-- The domain has no variables. -/
structure PlainDomain (d : Str) : Prop where
  opens : '<' ∉ d
  closes : '>' ∉ d
  bar : '|' ∉ d

theorem domain_none (cfg : Config) (i : Nat) (r : Route) (b : Bound) (hc : compile cfg i r = .ok b)
    (h : PlainDomain (domainOf cfg r)) (d y : Str) (hd : '|' ∉ d) (hne : domainOf cfg r ≠ d) :
    b.match_ cfg (d ++ '|' :: y) = .none := by
  obtain ⟨_, _, _, _, ds, ps, hds, _, hbd, _⟩ := compile_inv cfg i r b hc
  rw [parse_plain _ h.opens h.closes] at hds
  have hdom : b.domain = domainParts (domainOf cfg r) := by
    cases hds
    unfold domainParts
    split at hbd
    · rw [if_pos (by assumption)]
      exact (Except.ok.inj hbd).symm
    · rw [if_neg (by assumption)]
      simpa [build_regex] using hbd.symm
  have hg := groups_domain b (domainOf cfg r) d y hdom h.bar hd
  rw [if_neg hne] at hg
  unfold groups at hg
  rw [List.map_eq_nil_iff] at hg
  unfold Bound.match_ Re.first
  rw [hg]
  split <;> rfl

theorem tried (cfg : Config) (ops : List Op) :
    (run (URLMap.new cfg) ops).cfg = cfg ∧ (run (URLMap.new cfg) ops).update.cfg = cfg ∧
    ∀ b ∈ (run (URLMap.new cfg) ops).update.routes, b.route ∈ mentioned ops ∧ compile cfg b.id b.route = .ok b := by
  obtain ⟨h1, h2, _⟩ := history ops (URLMap.new cfg) [] true (holds_new cfg) (fun _ h => by cases h)
  obtain ⟨u1, u2, _, _⟩ := holds_update _ _ h1
  have hu : (run (URLMap.new cfg) ops).update.cfg = cfg := u2.trans h2
  refine ⟨h2, hu, fun b hb => ⟨?_, ?_⟩⟩
  · refine update_routes (· ∈ mentioned ops) _ (run_routes (· ∈ mentioned ops) ops _ ?_ fun _ h => h) b hb
    intro b hb
    simp [URLMap.new] at hb
  · obtain ⟨r, _, hr⟩ := (u1.mem b).1 hb
    rw [hu] at hr
    rw [(compile_inv _ _ _ _ hr).2.2.1]
    exact hr

theorem matchGo_all_none (m : URLMap) (a : Adapter) (path pi q : Str) (l : List Bound)
    (h : ∀ b ∈ l, b.match_ m.cfg path = .none) : matchGo m a path pi q l = .error .notFound := by
  induction l with
  | nil => rfl
  | cons b bs ih => rw [matchGo, h b (.head _)]; exact ih fun c hc => h c (.tail _ hc)

theorem matchGo_found (m : URLMap) (a : Adapter) (path pi q : Str) (l : List Bound) (b : Bound) (vs : Values)
    (h : matchGo m a path pi q l = .ok (.found b vs)) : b ∈ l ∧ b.match_ m.cfg path = .values vs := by
  induction l with
  | nil => cases h
  | cons c cs ih =>
    rw [matchGo] at h
    cases hc : c.match_ m.cfg path with
    | none =>
      rw [hc] at h
      obtain ⟨h1, h2⟩ := ih h
      exact ⟨.tail _ h1, h2⟩
    | slash => rw [hc] at h; cases h
    | alias v =>
      rw [hc] at h
      have := answer_found _ _ _ _ _ _ _ _ _ h
      cases this.2
    | «values» v =>
      rw [hc] at h
      obtain ⟨rfl, h2⟩ := answer_found _ _ _ _ _ _ _ _ _ h
      exact ⟨.head _, hc.trans h2⟩

/-- The part of a request that is compared with the domain of a route. -/
def domainFor (cfg : Config) (a : Adapter) : Str :=
  if cfg.hostMatching ∧ a.serverName ≠ [] then a.serverName else a.subdomain

theorem full_split (cfg : Config) (a : Adapter) (p : Str) :
    fullPath cfg a p = domainFor cfg a ++ '|' :: '/' :: lstripSlash p := by
  unfold fullPath domainFor
  simp

/-- C103: where the domains of the routes have no variables a route is only found on its own
domain, and on a domain of no route nothing is found: there is neither an answer nor a redirect. -/
theorem C103_domain_partial (cfg : Config) (ops : List Op) (hr : ∀ r ∈ mentioned ops, PlainDomain (domainOf cfg r))
    (a : Adapter) (hd : '|' ∉ domainFor cfg a) (p q : Str) :
    (∀ b vs, match_ (run (URLMap.new cfg) ops) a p q = .ok (.found b vs) → domainOf cfg b.route = domainFor cfg a) ∧
    ((∀ r ∈ mentioned ops, domainOf cfg r ≠ domainFor cfg a) →
      match_ (run (URLMap.new cfg) ops) a p q = .error .notFound) := by
  obtain ⟨h1, h2, h3⟩ := tried cfg ops
  unfold match_
  rw [h1, full_split]
  constructor
  · intro b vs h
    obtain ⟨h4, h5⟩ := matchGo_found _ _ _ _ _ _ _ _ h
    obtain ⟨h6, h7⟩ := h3 b h4
    refine Classical.byContradiction fun hne => ?_
    rw [h2, domain_none cfg _ _ b h7 (hr _ h6) _ _ hd hne] at h5
    cases h5
  · intro hne
    refine matchGo_all_none _ _ _ _ _ _ fun b hb => ?_
    obtain ⟨h6, h7⟩ := h3 b hb
    rw [h2]
    exact domain_none cfg _ _ b h7 (hr _ h6) _ _ hd (hne _ h6)

/-- C103: a request for a host that is neither the server nor below it finds nothing, whatever
its path. -/
theorem C103_foreign_partial (cfg : Config) (hm : cfg.hostMatching = false) (ops : List Op)
    (hr : ∀ r ∈ mentioned ops, PlainDomain (domainOf cfg r)) (lower : Str → Str)
    (hl : ∀ s, Ascii s → lower s = asciiLower s) (other : Str → Except PyErr Str) (env : List (Str × Str))
    (host server : Str) (script query : Option Str) (path scheme : Str)
    (he : Incoming env host script (some path) query scheme) (hh : Ascii host) (hs : Ascii server) (hne : server ≠ [])
    (h0 : Short (asciiLower host)) (h1 : Short (asciiLower server)) (h2 : NoEmpty (asciiLower server))
    (hf : asciiLower host ≠ asciiLower server) (hf' : ∀ pre, asciiLower host ≠ pre ++ s%"." ++ asciiLower server) :
    ∃ x, bindToEnviron cfg lower other env (some server) none = .ok x ∧
      x.match_ (run (URLMap.new cfg) ops) none none = .error .notFound := by
  obtain ⟨sub, hb, _, _, hsub⟩ := C103_subdomain_partial cfg hm lower hl other env host server script (some path) query
    scheme he hh hs hne h0 h1 h2
  refine ⟨_, hb, ?_⟩
  rw [hsub hf hf']
  have hdf : domainFor cfg (boundTo (asciiLower server) s%"<invalid>" script (some path) query scheme).adapter =
      s%"<invalid>" := by
    unfold domainFor
    rw [if_neg (by simp [hm])]
    rfl
  refine (C103_domain_partial cfg ops hr _ ?_ path _).2 fun r hr' e => ?_
  · rw [hdf]; decide
  · rw [hdf] at e
    exact (hr r hr').opens (by rw [e]; exact .head _)

theorem environ_bound (cfg : Config) (ops : List Op) (lower : Str → Str) (other : Str → Except PyErr Str)
    (env : List (Str × Str)) (script query : Option Str) (path scheme : Str)
    (h1 : Holds env s%"SCRIPT_NAME" script) (h2 : Holds env s%"PATH_INFO" (some path)) (h3 : Holds env s%"QUERY_STRING" query)
    (h4 : Dict.get env s%"wsgi.url_scheme" = some scheme) (server sub : Option Str) (x : BoundMap)
    (hx : bindToEnviron cfg lower other env server sub = .ok x) :
    x.match_ (run (URLMap.new cfg) ops) none none = match_ (run (URLMap.new cfg) ops) x.adapter path (query.getD []) ∧
    x.adapter.scriptName = (Adapter.mk' [] (script.getD s%"/") [] []).scriptName ∧ x.adapter.scheme = scheme := by
  have hbind : ∀ s' sub', bindStrings cfg lower other env s' sub' = .ok x →
      ∃ n d, x = ⟨Adapter.mk' n (script.getD s%"/") d scheme, some path, query⟩ := by
    intro s' sub' h
    rw [bindStrings_holds cfg lower other env script (some path) query scheme h1 h2 h3 h4] at h
    unfold Routing.bind at h
    split at h
    · cases h
    · split at h
      · cases h
      · split at h
        · cases h
        · split at h
          · cases h
          · cases h
            exact ⟨_, _, rfl⟩
  have hx' : ∃ n d, x = ⟨Adapter.mk' n (script.getD s%"/") d scheme, some path, query⟩ := by
    unfold bindToEnviron at hx
    split at hx
    · split at hx
      · cases hx
      · exact hbind _ _ hx
    · split at hx
      · split at hx
        · cases hx
        · exact hbind _ _ hx
      · exact hbind _ _ hx
  obtain ⟨n, d, rfl⟩ := hx'
  refine ⟨?_, rfl, rfl⟩
  unfold BoundMap.match_
  cases query <;> rfl

/-- C103: `match()` on a map bound to a request is `match` of the path and the query of the
request. -/
theorem C103_environ (cfg : Config) (ops : List Op) (lower : Str → Str) (other : Str → Except PyErr Str)
    (env : List (Str × Str)) (host : Str) (script query : Option Str) (path scheme : Str)
    (he : Incoming env host script (some path) query scheme) (server sub : Option Str) (x : BoundMap)
    (hx : bindToEnviron cfg lower other env server sub = .ok x) :
    x.match_ (run (URLMap.new cfg) ops) none none = match_ (run (URLMap.new cfg) ops) x.adapter path (query.getD []) ∧
    x.adapter.scriptName = (Adapter.mk' [] (script.getD s%"/") [] []).scriptName ∧ x.adapter.scheme = scheme :=
  environ_bound cfg ops lower other env script query path scheme he.script he.path he.query he.scheme server sub x hx

/-- C103: without the name of a server the host of the request is the server, and the subdomain
is the one that is given, or the default. -/
theorem C103_hint_partial (cfg : Config) (hm : cfg.hostMatching = false) (lower : Str → Str)
    (hl : ∀ s, Ascii s → lower s = asciiLower s) (other : Str → Except PyErr Str) (env : List (Str × Str))
    (host : Str) (script path query : Option Str) (scheme : Str) (he : Incoming env host script path query scheme)
    (hh : Ascii host) (hne : host ≠ []) (h1 : Short (asciiLower host)) (h2 : NoEmpty (asciiLower host))
    (sub : Option Str) (hsa : Ascii (sub.getD cfg.defaultSubdomain))
    (h3 : Short (asciiLower (sub.getD cfg.defaultSubdomain)))
    (h4 : asciiLower (sub.getD cfg.defaultSubdomain) ≠ [] → NoEmpty (asciiLower (sub.getD cfg.defaultSubdomain))) :
    bindToEnviron cfg lower other env none sub =
      .ok (boundTo (asciiLower host) (asciiLower (sub.getD cfg.defaultSubdomain)) script path query scheme) := by
  unfold bindToEnviron hostHint
  rw [he.host]
  dsimp only
  rw [bindStrings_holds cfg lower other env script path query scheme he.script he.path he.query he.scheme]
  unfold Routing.bind
  rw [if_neg (by simp [hm]), if_neg (by simp [hm]), hl _ hsa, hl host hh,
    idna_labels other _ (lower_ascii _ hsa) h3 h4, idna_labels other _ (lower_ascii host hh) h1 fun _ => h2]
  dsimp only
  rw [if_neg (by simp [asciiLower, hne])]
  rfl

/-- C103: how the server and the request write the host does not matter. -/
theorem C103_case (cfg : Config) (hm : cfg.hostMatching = false) (lower : Str → Str)
    (other : Str → Except PyErr Str) (env env' : List (Str × Str))
    (host host' server server' : Str) (script path query : Option Str) (scheme : Str)
    (he : Incoming env host script path query scheme) (he' : Incoming env' host' script path query scheme)
    (h1 : lower host = lower host') (h2 : lower server = lower server') :
    bindToEnviron cfg lower other env (some server) none = bindToEnviron cfg lower other env' (some server') none := by
  unfold bindToEnviron hostFull
  rw [he.host, he'.host]
  dsimp only
  rw [if_pos ⟨rfl, hm⟩, if_pos ⟨rfl, hm⟩,
    bindStrings_holds cfg lower other env script path query scheme he.script he.path he.query he.scheme,
    bindStrings_holds cfg lower other env' script path query scheme he'.script he'.path he'.query he'.scheme, h1, h2]

/-- C103: a map that matches hosts has no subdomain, and a subdomain needs a server. -/
theorem C103_refused (cfg : Config) (lower : Str → Str) (other : Str → Except PyErr Str) (server sub : Str)
    (script : Option Str) (scheme : Str) (path query : Option Str) :
    (cfg.hostMatching = true → Routing.bind cfg lower other server script (some sub) scheme path query = .error .runtimeError) ∧
    (cfg.hostMatching = false → lower [] = [] → ∀ s, idnaName other (lower sub) = .ok s → s ≠ [] →
      Routing.bind cfg lower other [] script (some sub) scheme path query = .error .typeError) := by
  constructor
  · intro h
    unfold Routing.bind
    rw [if_pos ⟨h, rfl⟩]
  · intro h h0 s hs hne
    unfold Routing.bind
    rw [if_neg (by simp [h]), if_neg (by simp [h])]
    simp only [Option.getD_some]
    rw [hs, h0, show idnaName other [] = .ok [] from rfl]
    dsimp only
    rw [if_pos ⟨hne, rfl⟩]

/-! ### cases, and what does not hold -/

/-- A request. -/
def demoEnv (host path : Str) : List (Str × Str) :=
  [(s%"HTTP_HOST", host), (s%"SCRIPT_NAME", []), (s%"PATH_INFO", path), (s%"QUERY_STRING", s%"a=b"),
    (s%"wsgi.url_scheme", s%"http")]

/-- A route of one subdomain. -/
def adminRoute : Route := { sampleRoute s%"/" s%"admin" with subdomain := some s%"admin" }

/-- A route of the subdomains of users. -/
def userRoute : Route := { sampleRoute s%"/" s%"user" with subdomain := some s%"<user>" }

/-- What is found for a request. -/
def served (ops : List Op) (env : List (Str × Str)) (server : Str) : Option Str :=
  match bindToEnviron sampleCfg asciiLower .ok env (some server) none with
  | .error _ => none
  | .ok x => chosen (x.match_ (run (URLMap.new sampleCfg) ops) none none)

example (host path : Str) (h : ReqUrl.encodingDance path = path) :
    Incoming (demoEnv host path) host (some []) (some path) (some s%"a=b") s%"http" := by
  refine ⟨rfl, rfl, ?_, rfl, rfl⟩
  show some path = some (ReqUrl.encodingDance path)
  rw [h]

example : Short (asciiLower s%"ADMIN.Example.org") ∧ NoEmpty (asciiLower s%"ADMIN.Example.org") ∧
    Ascii s%"ADMIN.Example.org" ∧ asciiLower s%"ADMIN.Example.org" = s%"admin" ++ s%"." ++ asciiLower s%"EXAMPLE.org" := by
  unfold Short NoEmpty Ascii
  decide

example : ∀ r ∈ mentioned [.add [adminRoute, sampleRoute s%"/" s%"index"]], PlainDomain (domainOf sampleCfg r) := by
  intro r hr
  simp only [mentioned, List.append_nil, List.mem_cons, List.not_mem_nil, or_false] at hr
  rcases hr with rfl | rfl <;> exact ⟨by decide, by decide, by decide⟩

set_option maxRecDepth 8000 in
example : served [.add [adminRoute, sampleRoute s%"/" s%"index"]] (demoEnv s%"ADMIN.Example.org" s%"/") s%"EXAMPLE.org" =
      some s%"admin" ∧
    served [.add [adminRoute, sampleRoute s%"/" s%"index"]] (demoEnv s%"Example.org" s%"/") s%"EXAMPLE.org" = some s%"index" ∧
    served [.add [adminRoute, sampleRoute s%"/" s%"index"]] (demoEnv s%"evil.org" s%"/") s%"EXAMPLE.org" = none :=
  ⟨by decide +kernel, by decide +kernel, by decide +kernel⟩

set_option maxRecDepth 8000 in
/-- C103 does not hold for routes with variables in their subdomain: a host that is not served
is taken for the subdomain `<invalid>` of the server. -/
theorem C103_foreign_false :
    served [.add [userRoute]] (demoEnv s%"evil.org" s%"/") s%"example.org" = some s%"user" ∧
    (∃ x b, bindToEnviron sampleCfg asciiLower .ok (demoEnv s%"evil.org" s%"/") (some s%"example.org") none = .ok x ∧
      x.match_ (run (URLMap.new sampleCfg) [.add [userRoute]]) none none =
        .ok (.found b [(s%"user", .str s%"<invalid>")])) := by
  refine ⟨by decide +kernel, _, _, rfl, rfl⟩

set_option maxRecDepth 8000 in
/-- C103 does not hold for every request: a long label in the host raises `UnicodeError`. -/
theorem C103_total_false : bindToEnviron sampleCfg asciiLower .ok
    (demoEnv (List.replicate 64 'a' ++ s%".example.org") s%"/") (some s%"example.org") none = .error .unicodeError := by
  rfl

/-- C103 (limits): the name of the server has to have the port of the request. -/
theorem C103_port_limits : ∃ x, bindToEnviron sampleCfg asciiLower .ok (demoEnv s%"example.org:8080" s%"/")
    (some s%"example.org") none = .ok x ∧ x.adapter.subdomain = s%"<invalid>" := by
  exact ⟨_, rfl, by decide +kernel⟩

/-- C103 does not hold for maps bound without a path: `match()` raises `AttributeError`, where the
documentation promises the root. -/
theorem C103_default_path_false (cfg : Config) (lower : Str → Str) (other : Str → Except PyErr Str) (server : Str)
    (script sub : Option Str) (scheme : Str) (query : Option Str) (x : BoundMap)
    (h : Routing.bind cfg lower other server script sub scheme none query = .ok x) (m : URLMap) (q : Option Str) :
    x.match_ m none q = .error .attributeError := by
  unfold Routing.bind at h
  split at h
  · cases h
  · split at h
    · cases h
    · split at h
      · cases h
      · split at h
        · cases h
        · cases h
          rfl

example : ∃ x, Routing.bind sampleCfg asciiLower .ok s%"example.org" none none s%"http" none none = .ok x := ⟨_, rfl⟩

end Verif.Props.BindP
