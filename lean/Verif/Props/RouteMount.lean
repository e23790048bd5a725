import Verif.Props.RouteFactory
/-!
C102: what the factories of routes do to matching and building (`/repo/verktyg/routing.py`).
-/
namespace Verif.Props.MountP
open Verif Verif.Routing Verif.Props.RoutingP Verif.Props.FactoryP

/-! ### other names for end points and subdomains -/

/-- A route under another end point and another subdomain. -/
def relabelRoute (g : Str → Str) (h : Option Str → Option Str) (r : Route) : Route :=
  { r with endpoint := g r.endpoint, subdomain := h r.subdomain }

/-- A compiled route under another end point and another subdomain. -/
def relabel (g : Str → Str) (h : Option Str → Option Str) (b : Bound) : Bound :=
  { b with route := relabelRoute g h b.route }

/-- An answer with the route under its other name. -/
def relabelAnswer (g : Str → Str) (h : Option Str → Option Str) : Except PyErr Answer → Except PyErr Answer
  | .ok (.found b vs) => .ok (.found (relabel g h b) vs)
  | r => r

section
variable (g : Str → Str) (h : Option Str → Option Str)

theorem relabel_match (cfg cfg' : Config) (hd : cfg'.redirectDefaults = cfg.redirectDefaults) (b : Bound) (p : Str) :
    (relabel g h b).match_ cfg' p = b.match_ cfg p := by
  unfold Bound.match_
  rw [hd]
  rfl

theorem relabel_build (b : Bound) (vs : Values) (u : Bool) : (relabel g h b).build vs u = b.build vs u := rfl

theorem relabel_suitable (b : Bound) (vs : Values) : (relabel g h b).suitableFor vs = b.suitableFor vs := rfl

theorem relabel_provides (hg : ∀ a b, g a = g b → a = b) (b c : Bound) :
    (relabel g h b).providesDefaultsFor (relabel g h c) = b.providesDefaultsFor c := by
  have : (g b.route.endpoint == g c.route.endpoint) = (b.route.endpoint == c.route.endpoint) := by
    by_cases e : b.route.endpoint = c.route.endpoint
    · simp [e]
    · have : g b.route.endpoint ≠ g c.route.endpoint := fun h => e (hg _ _ h)
      rw [beq_false_of_ne e, beq_false_of_ne this]
  unfold Bound.providesDefaultsFor
  rw [← this]
  rfl

theorem map_insert {α} (le : α → α → Bool) (f : α → α) (hf : ∀ a b, le (f a) (f b) = le a b) (x : α) (l : List α) :
    insertBy le (f x) (l.map f) = (insertBy le x l).map f := by
  induction l with
  | nil => rfl
  | cons y ys ih =>
    simp only [List.map_cons, insertBy, hf]
    split
    · rfl
    · rw [ih]; rfl

theorem map_sort {α} (le : α → α → Bool) (f : α → α) (hf : ∀ a b, le (f a) (f b) = le a b) (l : List α) :
    sortBy le (l.map f) = (sortBy le l).map f := by
  unfold sortBy
  induction l with
  | nil => rfl
  | cons x xs ih => rw [List.map_cons, List.foldr_cons, ih, map_insert le f hf]; rfl

/-- The map with the other names. -/
structure Relabelled (m m' : URLMap) : Prop where
  host : m'.cfg.hostMatching = m.cfg.hostMatching
  defaults : m'.cfg.redirectDefaults = m.cfg.redirectDefaults
  join : m'.cfg.urljoin = m.cfg.urljoin
  routes : m'.routes = m.routes.map (relabel g h)
  byEndpoint : ∀ e, m'.byEndpoint (g e) = (m.byEndpoint e).map (relabel g h)
  other : ∀ e, (∀ e', e ≠ g e') → m'.byEndpoint e = []
  remap : m'.remap = m.remap
  count : m'.count = m.count

theorem relabelled_update (m m' : URLMap) (hm : Relabelled g h m m') : Relabelled g h m.update m'.update := by
  obtain ⟨h1, h2, h3, h4, h5, h6, h7, h8⟩ := hm
  unfold URLMap.update
  rw [h7]
  split
  · refine ⟨h1, h2, h3, ?_, fun e => ?_, fun e he => ?_, rfl, h8⟩
    · dsimp only
      rw [h4]
      exact map_sort matchLe (relabel g h) (fun _ _ => rfl) _
    · dsimp only
      rw [h5]
      exact map_sort buildLe (relabel g h) (fun _ _ => rfl) _
    · dsimp only
      rw [h6 e he]
      rfl
  · exact ⟨h1, h2, h3, h4, h5, h6, h7, h8⟩

theorem buildGo_relabel (vs : Values) (u : Bool) (l : List Bound) :
    buildGo vs u (l.map (relabel g h)) = buildGo vs u l := by
  induction l with
  | nil => rfl
  | cons b bs ih =>
    simp only [List.map_cons, buildGo, relabel_suitable, relabel_build, ih]

theorem build_relabel (m m' : URLMap) (hm : Relabelled g h m m') (a : Adapter) (e : Str) (vs : Values) (fe au : Bool) :
    build m' a (g e) vs fe au = build m a e vs fe au := by
  have hu := (relabelled_update g h m m' hm).byEndpoint e
  unfold build
  rw [hu, buildGo_relabel]
  unfold getHost
  rw [hm.host, hm.join]

theorem update_update (m : URLMap) : m.update.update = m.update := by
  unfold URLMap.update
  cases hr : m.remap <;> simp [hr]

theorem redirectUrl_congr (cfg cfg' : Config) (hh : cfg'.hostMatching = cfg.hostMatching) (a : Adapter) (p q : Str)
    (d : Option Str) : makeRedirectUrl cfg' a p q d = makeRedirectUrl cfg a p q d := by
  unfold makeRedirectUrl getHost
  rw [hh]

theorem default_relabel (hg : ∀ a b, g a = g b → a = b) (cfg cfg' : Config) (hh : cfg'.hostMatching = cfg.hostMatching)
    (a : Adapter) (b : Bound) (vs : Values) (q : Str) (l : List Bound) :
    getDefaultRedirect cfg' a (relabel g h b) vs q (l.map (relabel g h)) = getDefaultRedirect cfg a b vs q l := by
  induction l with
  | nil => rfl
  | cons r rs ih =>
    simp only [List.map_cons, getDefaultRedirect, relabel_provides g h hg, relabel_suitable, relabel_build, ih,
      redirectUrl_congr cfg cfg' hh]
    rfl

theorem substitute_relabel (b : Bound) (vs : Values) (s : Str) : ∀ n,
    substitute (relabel g h b) vs n s = substitute b vs n s := by
  induction s with
  | nil => intro n; cases n <;> rfl
  | cons c cs ih =>
    intro n
    cases n with
    | none => simp only [substitute, ih]
    | some n =>
      have hv : (relabel g h b).vars = b.vars := rfl
      simp only [substitute, ih, hv]

theorem answer_relabel (hg : ∀ a b, g a = g b → a = b) (m m' : URLMap) (hm : Relabelled g h m m')
    (a : Adapter) (path pi q : Str) (b : Bound) (f : Found) :
    answer m' a path pi q (relabel g h b) f = relabelAnswer g h (answer m a path pi q b f) := by
  cases f with
  | none => rfl
  | slash => simp only [answer, redirectUrl_congr _ _ hm.host, relabelAnswer]
  | «alias» vs =>
    have : makeAliasRedirectUrl m' a path (relabel g h b).route.endpoint vs q =
        makeAliasRedirectUrl m a path b.route.endpoint vs q := by
      unfold makeAliasRedirectUrl
      rw [show (relabel g h b).route.endpoint = g b.route.endpoint from rfl, build_relabel g h m m' hm]
    simp only [answer, this]
    cases makeAliasRedirectUrl m a path b.route.endpoint vs q <;> rfl
  | values vs =>
    have h1 : getDefaultRedirect m'.cfg a (relabel g h b) vs q (m'.byEndpoint (relabel g h b).route.endpoint) =
        getDefaultRedirect m.cfg a b vs q (m.byEndpoint b.route.endpoint) := by
      rw [show (relabel g h b).route.endpoint = g b.route.endpoint from rfl, hm.byEndpoint,
        default_relabel g h hg _ _ hm.host]
    have h2 : ∀ t, redirectTarget m'.cfg a (relabel g h b) vs t = redirectTarget m.cfg a b vs t := by
      intro t
      unfold redirectTarget
      rw [hm.join]
      cases t <;> simp only [substitute_relabel]
    simp only [answer, h1, h2, hm.defaults]
    rw [show (relabel g h b).route.redirectTo = b.route.redirectTo from rfl]
    cases (if m.cfg.redirectDefaults = true then getDefaultRedirect m.cfg a b vs q (m.byEndpoint b.route.endpoint)
      else .ok none) with
    | error e => rfl
    | ok o =>
      cases o with
      | some u => rfl
      | none =>
        dsimp only
        cases b.route.redirectTo with
        | none => rfl
        | some t =>
          dsimp only
          cases redirectTarget m.cfg a b vs t <;> rfl

theorem matchGo_relabel (hg : ∀ a b, g a = g b → a = b) (m m' : URLMap) (hm : Relabelled g h m m')
    (a : Adapter) (path pi q : Str) (l : List Bound) :
    matchGo m' a path pi q (l.map (relabel g h)) = relabelAnswer g h (matchGo m a path pi q l) := by
  induction l with
  | nil => rfl
  | cons b bs ih =>
    simp only [List.map_cons, matchGo, relabel_match g h _ _ hm.defaults, ih]
    cases b.match_ m.cfg path with
    | none => rfl
    | slash => exact answer_relabel g h hg m m' hm a path pi q b _
    | «alias» vs => exact answer_relabel g h hg m m' hm a path pi q b _
    | values vs => exact answer_relabel g h hg m m' hm a path pi q b _

theorem match_relabel (hg : ∀ a b, g a = g b → a = b) (m m' : URLMap) (hm : Relabelled g h m m')
    (a : Adapter) (pi q : Str) : match_ m' a pi q = relabelAnswer g h (match_ m a pi q) := by
  have hu := relabelled_update g h m m' hm
  unfold match_
  rw [hu.routes, matchGo_relabel g h hg _ _ hu]
  unfold fullPath
  rw [hm.host]

/-! ### histories -/

/-- Two settings under which a route and the relabelled one compile to the same patterns. -/
def Alike (cfg cfg' : Config) (r : Route) : Prop :=
  ∀ i, compile cfg' i (relabelRoute g h r) = (compile cfg i r).map (relabel g h)

theorem relabelled_push (hg : ∀ a b, g a = g b → a = b) (m m' : URLMap) (hm : Relabelled g h m m') (b : Bound) :
    Relabelled g h (m.push b) (m'.push (relabel g h b)) := by
  obtain ⟨h1, h2, h3, h4, h5, h6, h7, h8⟩ := hm
  refine ⟨h1, h2, h3, ?_, fun e => ?_, fun e he => ?_, h7, ?_⟩
  · simp [URLMap.push, h4]
  · simp only [URLMap.push]
    rw [show (relabel g h b).route.endpoint = g b.route.endpoint from rfl]
    by_cases e' : e = b.route.endpoint
    · simp [e', h5]
    · rw [if_neg e', if_neg fun x => e' (hg _ _ x), h5]
  · simp only [URLMap.push]
    rw [show (relabel g h b).route.endpoint = g b.route.endpoint from rfl, if_neg (he _), h6 e he]
  · simp [URLMap.push, h8]

theorem relabelled_add (hg : ∀ a b, g a = g b → a = b) (rs : List Route) : ∀ (m m' : URLMap),
    Relabelled g h m m' → (∀ r ∈ rs, Alike g h m.cfg m'.cfg r) →
    Relabelled g h (m.add rs).1 (m'.add (rs.map (relabelRoute g h))).1 ∧
    (m'.add (rs.map (relabelRoute g h))).2 = (m.add rs).2 ∧
    (m.add rs).1.cfg = m.cfg ∧ (m'.add (rs.map (relabelRoute g h))).1.cfg = m'.cfg := by
  induction rs with
  | nil =>
    intro m m' hm _
    obtain ⟨h1, h2, h3, h4, h5, h6, h7, h8⟩ := hm
    exact ⟨⟨h1, h2, h3, h4, h5, h6, rfl, h8⟩, rfl, rfl, rfl⟩
  | cons r rs ih =>
    intro m m' hm ha
    have hr := ha r List.mem_cons_self m.count
    simp only [List.map_cons, URLMap.add, hm.count]
    rw [hr]
    cases hc : compile m.cfg m.count r with
    | error e => exact ⟨hm, rfl, rfl, rfl⟩
    | ok b =>
      exact ih _ _ (relabelled_push g h hg m m' hm b) fun r hr => ha r (.tail _ hr)

/-- A history with the routes under their other names. -/
def relabelOp : Op → Op
  | .add rs => .add (rs.map (relabelRoute g h))
  | .lookup => .lookup

/-- The routes of a history. -/
def mentioned : List Op → List Route
  | [] => []
  | .add rs :: ops => rs ++ mentioned ops
  | .lookup :: ops => mentioned ops

theorem relabelled_run (hg : ∀ a b, g a = g b → a = b) (ops : List Op) : ∀ (m m' : URLMap),
    Relabelled g h m m' → (∀ r ∈ mentioned ops, Alike g h m.cfg m'.cfg r) →
    Relabelled g h (run m ops) (run m' (ops.map (relabelOp g h))) := by
  induction ops with
  | nil => intro m m' hm _; exact hm
  | cons op ops ih =>
    intro m m' hm ha
    cases op with
    | add rs =>
      obtain ⟨h1, _, h3, h4⟩ := relabelled_add g h hg rs m m' hm fun r hr => ha r (List.mem_append.2 (.inl hr))
      refine ih _ _ h1 ?_
      show ∀ r ∈ _, Alike g h (m.add rs).1.cfg (m'.add (rs.map (relabelRoute g h))).1.cfg r
      rw [h3, h4]
      exact fun r hr => ha r (List.mem_append.2 (.inr hr))
    | lookup =>
      have hc : ∀ m : URLMap, m.update.cfg = m.cfg := fun m => by unfold URLMap.update; split <;> rfl
      refine ih _ _ (relabelled_update g h m m' hm) ?_
      show ∀ r ∈ _, Alike g h m.update.cfg m'.update.cfg r
      rw [hc, hc]
      exact ha

end

/-! ### end point prefixes -/

/-- What `EndpointPrefix(e, ...)` makes of a route. -/
def prefixed (e : Str) (r : Route) : Route := { r with endpoint := e ++ r.endpoint }

/-- A history whose routes are all within `EndpointPrefix(e, ...)`. -/
def prefixedOp (e : Str) : Op → Op
  | .add rs => .add (rs.map (prefixed e))
  | .lookup => .lookup

/-- What a caller of `match` sees: the end point with the arguments, or where to go. -/
def seen : Except PyErr Answer → Except PyErr ((Str × Values) ⊕ Str)
  | .ok (.found b vs) => .ok (.inl (b.route.endpoint, vs))
  | .ok (.redirect u) => .ok (.inr u)
  | .error e => .error e

/-- The same with a prefix before the end point. -/
def seenUnder (e : Str) : Except PyErr ((Str × Values) ⊕ Str) → Except PyErr ((Str × Values) ⊕ Str)
  | .ok (.inl (ep, vs)) => .ok (.inl (e ++ ep, vs))
  | r => r

theorem compile_relabel (g : Str → Str) (h : Option Str → Option Str) (cfg cfg' : Config)
    (h1 : cfg'.conv = cfg.conv) (h2 : cfg'.strictSlashes = cfg.strictSlashes) (r : Route)
    (h4 : domainOf cfg' (relabelRoute g h r) = domainOf cfg r) : Alike g h cfg cfg' r := by
  intro i
  have hb : ∀ ps, build_regex cfg' ps = build_regex cfg ps := by
    intro ps
    induction ps with
    | nil => rfl
    | cons p ps ih => cases p <;> simp only [build_regex, ih, h1]
  unfold domainOf at h4
  unfold compile
  simp only [hb]
  rw [h4, h2]
  rw [show (relabelRoute g h r).rule = r.rule from rfl, show (relabelRoute g h r).leaf = r.leaf from rfl,
    show (relabelRoute g h r).strictSlashes = r.strictSlashes from rfl,
    show (relabelRoute g h r).buildOnly = r.buildOnly from rfl]
  split
  · rfl
  · split
    · rfl
    · rfl
    · split
      · rfl
      · rfl
      · rename_i d p _ _
        have hn : (Bound.mk i (relabelRoute g h r) (r.strictSlashes.getD cfg.strictSlashes) d p).names =
          (Bound.mk i r (r.strictSlashes.getD cfg.strictSlashes) d p).names := rfl
        rw [hn]
        split <;> rfl

/-- The map of a history with prefixes. -/
theorem prefix_maps (cfg : Config) (ops : List Op) (e : Str) :
    Relabelled (e ++ ·) id (run (URLMap.new cfg) ops) (run (URLMap.new cfg) (ops.map (prefixedOp e))) := by
  have : ops.map (prefixedOp e) = ops.map (relabelOp (e ++ ·) id) := by
    refine List.map_congr_left fun op _ => ?_
    cases op <;> rfl
  rw [this]
  refine relabelled_run _ _ (fun a b h => List.append_cancel_left h) ops _ _ ⟨rfl, rfl, rfl, rfl, fun _ => rfl, fun _ _ => rfl, rfl, rfl⟩ ?_
  intro r _
  exact compile_relabel _ _ _ _ rfl rfl r rfl

/-- C102 (end point prefixes): within `EndpointPrefix` routes answer as they do without it, but
for the prefix of the end point; every redirect leads to the same URL. -/
theorem C102_prefix_match (cfg : Config) (ops : List Op) (e : Str) (a : Adapter) (pathInfo query : Str) :
    seen (match_ (run (URLMap.new cfg) (ops.map (prefixedOp e))) a pathInfo query) =
      seenUnder e (seen (match_ (run (URLMap.new cfg) ops) a pathInfo query)) := by
  rw [match_relabel _ _ (fun a b h => List.append_cancel_left h) _ _ (prefix_maps cfg ops e)]
  cases match_ (run (URLMap.new cfg) ops) a pathInfo query with
  | error e => rfl
  | ok x => cases x <;> rfl

/-- C102 (end point prefixes): the URL of an end point is built under its name with the prefix. -/
theorem C102_prefix_build (cfg : Config) (ops : List Op) (e : Str) (a : Adapter) (endpoint : Str) (values : Values)
    (forceExternal appendUnknown : Bool) :
    build (run (URLMap.new cfg) (ops.map (prefixedOp e))) a (e ++ endpoint) values forceExternal appendUnknown =
      build (run (URLMap.new cfg) ops) a endpoint values forceExternal appendUnknown :=
  build_relabel _ _ _ _ (prefix_maps cfg ops e) a endpoint values forceExternal appendUnknown

/-- C102 (end point prefixes): no URL is built for an end point without the prefix. -/
theorem C102_prefix_only (cfg : Config) (ops : List Op) (e : Str) (a : Adapter) (endpoint : Str) (values : Values)
    (forceExternal appendUnknown : Bool) (h : ¬ e <+: endpoint) :
    build (run (URLMap.new cfg) (ops.map (prefixedOp e))) a endpoint values forceExternal appendUnknown =
      .error .buildError := by
  have hu := (relabelled_update _ _ _ _ (prefix_maps cfg ops e)).other endpoint
    (fun e' he => h ⟨e', he.symm⟩)
  unfold build
  rw [hu]
  rfl

/-! ### subdomains -/

/-- What `Subdomain(s, ...)` makes of a route. -/
def subdomained (s : Str) (r : Route) : Route := { r with subdomain := some s }

/-- A history whose routes are all within `Subdomain(s, ...)`. -/
def subdomainedOp (s : Str) : Op → Op
  | .add rs => .add (rs.map (subdomained s))
  | .lookup => .lookup

theorem subdomain_maps (cfg : Config) (hm : cfg.hostMatching = false) (ops : List Op)
    (hs : ∀ r ∈ mentioned ops, r.subdomain = none) (s : Str) :
    Relabelled id (fun _ => some s) (run (URLMap.new { cfg with defaultSubdomain := s }) ops)
      (run (URLMap.new cfg) (ops.map (subdomainedOp s))) := by
  have : ops.map (subdomainedOp s) = ops.map (relabelOp id (fun _ => some s)) := by
    refine List.map_congr_left fun op _ => ?_
    cases op <;> rfl
  rw [this]
  refine relabelled_run _ _ (fun a b h => h) ops _ _ ⟨rfl, rfl, rfl, rfl, fun _ => rfl, fun _ _ => rfl, rfl, rfl⟩ ?_
  intro r hr
  refine compile_relabel _ _ { cfg with defaultSubdomain := s } cfg rfl rfl r ?_
  simp [domainOf, relabelRoute, URLMap.new, hm, hs r hr]

/-- C102 (subdomains): where hosts are not matched as a whole, routes within `Subdomain(s)`
answer as they do in a map whose default subdomain is `s`; also if `s` has variables. -/
theorem C102_subdomain_partial (cfg : Config) (hm : cfg.hostMatching = false) (ops : List Op)
    (hs : ∀ r ∈ mentioned ops, r.subdomain = none) (s : Str) (a : Adapter) (pathInfo query endpoint : Str)
    (values : Values) (forceExternal appendUnknown : Bool) :
    seen (match_ (run (URLMap.new cfg) (ops.map (subdomainedOp s))) a pathInfo query) =
      seen (match_ (run (URLMap.new { cfg with defaultSubdomain := s }) ops) a pathInfo query) ∧
    build (run (URLMap.new cfg) (ops.map (subdomainedOp s))) a endpoint values forceExternal appendUnknown =
      build (run (URLMap.new { cfg with defaultSubdomain := s }) ops) a endpoint values forceExternal appendUnknown := by
  have hr := subdomain_maps cfg hm ops hs s
  constructor
  · rw [match_relabel _ _ (fun a b h => h) _ _ hr]
    cases match_ (run (URLMap.new { cfg with defaultSubdomain := s }) ops) a pathInfo query with
    | error e => rfl
    | ok x => cases x <;> rfl
  · exact build_relabel _ _ _ _ hr a endpoint values forceExternal appendUnknown

end Verif.Props.MountP
