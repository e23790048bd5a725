import Verif.Props.SubmountMap
/-!
C102: a map within `Submount` and a map bound below a path (`/repo/verktyg/routing.py`).
-/
namespace Verif.Props.MountP
open Verif Verif.Routing Verif.Props.RoutingP Verif.Props.FactoryP Verif.Spec.Routing

/-! ### paths -/

theorem mount_cons (p : Str) (hp : MountPath p) : ∃ c cs, p = '/' :: c :: cs ∧ c ≠ '/' := by
  obtain ⟨_, _, h3, h4, h5⟩ := hp
  cases p with
  | nil => cases h3
  | cons x xs =>
    have hx : x = '/' := by simpa using h3
    subst hx
    cases xs with
    | nil => exact absurd rfl h4
    | cons c cs => exact ⟨c, cs, rfl, fun e => h5 (by rw [e]; rfl)⟩

theorem lstrip_head (s : Str) (h : s.head? ≠ some '/') : lstripSlash s = s := by
  cases s with
  | nil => rfl
  | cons c cs =>
    have : c ≠ '/' := fun e => h (by rw [e]; rfl)
    simp [lstripSlash, this]

theorem lstrip_cons (s : Str) : lstripSlash ('/' :: s) = lstripSlash s := by simp [lstripSlash]

theorem lstrip_ne (s : Str) : (lstripSlash s).head? ≠ some '/' := by
  intro h
  have := Py.lstripP_head (· == '/') s '/' h
  simp at this

theorem lstrip_append (s t : Str) (h : lstripSlash s ≠ []) : lstripSlash (s ++ t) = lstripSlash s ++ t := by
  unfold lstripSlash at *
  rw [List.dropWhile_append]
  have : (List.dropWhile (· == '/') s).isEmpty = false := by
    cases h' : List.dropWhile (· == '/') s with
    | nil => exact absurd h' h
    | cons _ _ => rfl
  rw [this]
  rfl

theorem lstrip_last (s : Str) (h : s.getLast? ≠ some '/') : (lstripSlash s).getLast? = s.getLast? := by
  induction s with
  | nil => rfl
  | cons c cs ih =>
    by_cases hc : c = '/'
    · subst hc
      rw [lstrip_cons]
      cases cs with
      | nil => exact absurd rfl h
      | cons d ds =>
        rw [List.getLast?_cons_cons] at h ⊢
        exact ih h
    · rw [lstrip_head _ (by simpa using hc)]

theorem lstrip_nonempty (s : Str) (hne : s ≠ []) (h : s.getLast? ≠ some '/') : lstripSlash s ≠ [] := by
  intro e
  have := lstrip_last s h
  rw [e] at this
  cases hs : s.getLast? with
  | none => exact hne (List.getLast?_eq_none_iff.1 hs)
  | some c => rw [hs] at this; cases this

/-- The path of a script without the slashes at its ends. -/
theorem script_trim (s : Str) (h : s.getLast? ≠ some '/') : rstripSlash (lstripSlash (s ++ s%"/")) = lstripSlash s := by
  by_cases hs : s = []
  · subst hs; rfl
  · rw [lstrip_append _ _ (lstrip_nonempty s hs h)]
    exact trim_slashes _ 1 (by rw [lstrip_last s h]; exact h)

theorem last_append (s p : Str) (hp : p ≠ []) : (s ++ p).getLast? = p.getLast? := by
  rw [List.getLast?_append]
  cases hl : p.getLast? with
  | none => exact absurd (List.getLast?_eq_none_iff.1 hl) hp
  | some c => rfl

/-- The path of a redirect: that of the script, then the rest. -/
theorem join_mounted (s p x : Str) (hp : MountPath p) (hs : s.getLast? ≠ some '/') (hx : x.head? ≠ some '/') :
    joinPath (rstripSlash (lstripSlash (s ++ s%"/"))) (lstripSlash (p ++ '/' :: x)) =
      joinPath (rstripSlash (lstripSlash (s ++ p ++ s%"/"))) x := by
  have hlast := hp.last
  obtain ⟨c, cs, rfl, hc⟩ := mount_cons p hp
  have hne : (s ++ '/' :: c :: cs).getLast? ≠ some '/' := by
    rw [last_append _ _ (by simp)]; exact hlast
  rw [script_trim s hs, script_trim _ hne]
  have h1 : lstripSlash ('/' :: c :: cs ++ '/' :: x) = c :: cs ++ '/' :: x := by
    rw [List.cons_append, lstrip_cons]
    exact lstrip_head _ (by simpa using hc)
  have hx' : x.head? ≠ some '/' := hx
  have hl2 : (c :: cs).getLast? ≠ some '/' := by
    rwa [List.getLast?_cons_cons] at hlast
  rw [h1]
  by_cases hse : s = []
  · subst hse
    rw [List.nil_append, lstrip_cons, lstrip_head (c :: cs) (by simpa using hc)]
    unfold joinPath
    rw [if_neg (by simpa using hc), if_neg hx', if_pos (.inl rfl), if_neg (by simp [hl2])]
    simp
    rfl
  · have hsn := lstrip_nonempty s hse hs
    rw [lstrip_append _ _ hsn]
    unfold joinPath
    have hsl : (lstripSlash s).getLast? ≠ some '/' := by rw [lstrip_last s hs]; exact hs
    rw [if_neg (by simpa using hc), if_neg hx', if_neg (by simp [hsn, hsl]), if_neg (by
      rw [last_append _ _ (by simp)]; simp only [hlast]; simp)]
    simp

theorem quote_head (y : Str) (hne : y ≠ []) (hy : y.head? ≠ some '/') (r : Str) :
    (urlquote b%"/:|+" y ++ r).head? ≠ some '/' := by
  have h1 := lstrip_head y hy
  have := lstrip_quote b%"/:|+" (by decide) y r (by rw [h1]; exact hne)
  rw [h1] at this
  rw [← this]
  exact lstrip_ne _

/-- The adapter of a map bound to a server and the path of a script. -/
theorem redirect_mounted (cfg : Config) (server s sub scheme p y q : Str) (hp : MountPath p)
    (hq : urlquote b%"/:|+" p = p) (hs : s.getLast? ≠ some '/') (hne : y ≠ []) (hy : y.head? ≠ some '/') :
    makeRedirectUrl cfg (Adapter.mk' server s sub scheme) (urlquote b%"/:|+" (p ++ '/' :: y) ++ s%"/") q none =
      makeRedirectUrl cfg (Adapter.mk' server (s ++ p) sub scheme) (urlquote b%"/:|+" ('/' :: y) ++ s%"/") q none := by
  have hpne : p ≠ [] := fun e => by have := hp.head; rw [e] at this; cases this
  have hne' : (s ++ p).getLast? ≠ some '/' := by rw [last_append _ _ hpne]; exact hp.last
  have h0 : urlquote b%"/:|+" ('/' :: y) = '/' :: urlquote b%"/:|+" y := by
    rw [urlquote_cons, urlquote_safe _ '/' (by decide) (by decide)]; rfl
  unfold makeRedirectUrl Adapter.mk'
  rw [if_neg hs, if_neg hne', urlquote_append, hq, h0]
  have hx := quote_head y hne hy s%"/"
  have := join_mounted s p (urlquote b%"/:|+" y ++ s%"/") hp hs hx
  rw [List.append_assoc, List.cons_append, this, lstrip_cons, lstrip_head _ hx]
  rfl

theorem full_mounted (cfg : Config) (hh : cfg.hostMatching = false) (server s sub scheme p y : Str) (hp : MountPath p) :
    fullPath cfg (Adapter.mk' server s sub scheme) (p ++ y) = sub ++ '|' :: (p ++ y) := by
  obtain ⟨c, cs, rfl, hc⟩ := mount_cons p hp
  unfold fullPath Adapter.mk'
  simp only [hh]
  rw [List.cons_append, lstrip_cons, lstrip_head _ (by simpa using hc)]
  simp

/-! ### matching -/

theorem run_routes (P : Route → Prop) (ops : List Op) : ∀ (m : URLMap), (∀ b ∈ m.routes, P b.route) →
    (∀ r ∈ mentioned ops, P r) → ∀ b ∈ (run m ops).routes, P b.route := by
  have hadd : ∀ (rs : List Route) (m : URLMap), (∀ b ∈ m.routes, P b.route) → (∀ r ∈ rs, P r) →
      ∀ b ∈ (m.add rs).1.routes, P b.route := by
    intro rs
    induction rs with
    | nil => intro m hm _; exact hm
    | cons r rs ih =>
      intro m hm hr
      simp only [URLMap.add]
      cases hc : compile m.cfg m.count r with
      | error e => exact hm
      | ok b =>
        refine ih _ ?_ fun r h => hr r (.tail _ h)
        intro c hc'
        simp only [URLMap.push, List.mem_append, List.mem_singleton] at hc'
        rcases hc' with h | rfl
        · exact hm c h
        · rw [(compile_inv _ _ _ _ hc).2.2.1]; exact hr r List.mem_cons_self
  induction ops with
  | nil => intro m hm _; exact hm
  | cons op ops ih =>
    intro m hm hr
    cases op with
    | add rs => exact ih _ (hadd rs m hm fun r h => hr r (List.mem_append.2 (.inl h))) fun r h => hr r (List.mem_append.2 (.inr h))
    | lookup =>
      refine ih _ ?_ hr
      show ∀ b ∈ m.update.routes, P b.route
      unfold URLMap.update
      split
      · exact fun b hb => hm b (mem_sort _ _ _ hb)
      · exact hm

theorem update_routes (P : Route → Prop) (m : URLMap) (h : ∀ b ∈ m.routes, P b.route) :
    ∀ b ∈ m.update.routes, P b.route := by
  unfold URLMap.update
  split
  · exact fun b hb => h b (mem_sort _ _ _ hb)
  · exact h

/-- No redirect but those that add a slash: no target, and no defaults and no alias where these
lead to redirects. -/
def Stays (cfg : Config) (r : Route) : Prop :=
  r.redirectTo = none ∧ (cfg.redirectDefaults = true → r.defaults = [] ∧ r.alias = false)

theorem no_default (cfg : Config) (a : Adapter) (b : Bound) (vs : Values) (q : Str) (l : List Bound)
    (h : ∀ b ∈ l, b.route.defaults = []) : getDefaultRedirect cfg a b vs q l = .ok none := by
  induction l with
  | nil => rfl
  | cons r rs ih =>
    have : r.providesDefaultsFor b = false := by
      unfold Bound.providesDefaultsFor
      rw [h r (.head _)]
      simp
    simp only [getDefaultRedirect, this]
    split
    · rfl
    · simp only [Bool.false_eq_true, false_and, if_false]
      exact ih fun b hb => h b (.tail _ hb)

theorem answer_stays (m : URLMap) (a : Adapter) (path pi q : Str) (b : Bound) (vs : Values) (hb : Stays m.cfg b.route)
    (hl : ∀ c ∈ m.byEndpoint b.route.endpoint, Stays m.cfg c.route) :
    answer m a path pi q b (.values vs) = .ok (.found b vs) := by
  have : (if m.cfg.redirectDefaults = true then getDefaultRedirect m.cfg a b vs q (m.byEndpoint b.route.endpoint)
      else .ok none) = .ok none := by
    split
    · rename_i hd
      exact no_default _ _ _ _ _ _ fun c hc => ((hl c hc).2 hd).1
    · rfl
  simp only [answer, this, hb.1]

theorem not_alias (cfg : Config) (b : Bound) (x : Str) (h : Stays cfg b.route) (vs : Values) :
    b.match_ cfg x ≠ .alias vs := by
  unfold Bound.match_
  by_cases hd : cfg.redirectDefaults = true
  · rw [(h.2 hd).2]
    simp only [Bool.false_eq_true, false_and, if_false]
    split
    · simp
    · split
      · simp
      · split
        · simp
        · split <;> simp
  · simp only [hd, and_false, if_false]
    split
    · simp
    · split
      · simp
      · split
        · simp
        · split <;> simp

theorem pure_grounded (d : Str) (b : Bound) (hb : Grounded d b) : PureParts (parts b) := by
  intro n c h
  rw [vars_parts] at h
  rcases List.mem_append.1 h with h | h
  · rw [hb.domain] at h
    unfold domainParts at h
    split at h <;> cases h
  · exact hb.pure n c h

theorem matchGo_mounted (p d : Str) (hp : MountPath p) (hq : urlquote b%"/:|+" p = p) (m m' : URLMap)
    (hm : Submounted p d m m') (hst : ∀ b ∈ m.routes, Stays m.cfg b.route)
    (server s sub scheme y q : Str) (hs : s.getLast? ≠ some '/') (hsub : '|' ∉ sub) (hy : y.head? ≠ some '/')
    (l : List Bound) (hl : ∀ b ∈ l, b ∈ m.routes) :
    seen (matchGo m' (Adapter.mk' server s sub scheme) (sub ++ '|' :: (p ++ '/' :: y)) (p ++ '/' :: y) q
        (l.map (mountBound p))) =
      seen (matchGo m (Adapter.mk' server (s ++ p) sub scheme) (sub ++ '|' :: '/' :: y) ('/' :: y) q l) := by
  induction l with
  | nil => rfl
  | cons b bs ih =>
    have hbm := hl b List.mem_cons_self
    have hg := hm.grounded b hbm
    have hstb := hst b hbm
    have hlist : ∀ c ∈ m.byEndpoint b.route.endpoint, Stays m.cfg c.route :=
      fun c hc => hst c (hm.listed _ c hc)
    simp only [List.map_cons, matchGo, hm.cfg]
    rw [match_mounted m.cfg p d sub hp b hg hsub ('/' :: y)]
    cases hf : b.match_ m.cfg (sub ++ '|' :: '/' :: y) with
    | none => exact ih fun b hb => hl b (.tail _ hb)
    | slash =>
      have hne : y ≠ [] := by
        rintro rfl
        have hlast : (sub ++ '|' :: s%"/").getLast? = some '/' := last_append _ _ (by simp)
        exact (slash_last m.cfg b (pure_grounded d b hg) _ hf (by rw [hlast]; decide)).2.2 hlast
      simp only [answer, hm.cfg, redirect_mounted m.cfg server s sub scheme p y q hp hq hs hne hy]
    | «alias» vs => exact absurd hf (not_alias _ _ _ hstb vs)
    | values vs =>
      have h1 : answer m' (Adapter.mk' server s sub scheme) (sub ++ '|' :: (p ++ '/' :: y)) (p ++ '/' :: y) q
          (mountBound p b) (.values vs) = .ok (.found (mountBound p b) vs) := by
        refine answer_stays m' _ _ _ _ _ vs (by rw [hm.cfg]; exact hstb) ?_
        rw [show (mountBound p b).route.endpoint = b.route.endpoint from rfl, hm.byEndpoint, hm.cfg]
        intro c hc
        obtain ⟨c', hc', rfl⟩ := List.mem_map.1 hc
        exact hlist c' hc'
      have h2 := answer_stays m (Adapter.mk' server (s ++ p) sub scheme) (sub ++ '|' :: '/' :: y) ('/' :: y) q b vs
        hstb hlist
      simp only [h1, h2]
      rfl

/-- C102 (submounts): routes within `Submount(p)` answer a path below `p` as they do, without
it, in a map bound to the path of the script with `p` at its end: the same end point and
arguments, the same redirect to a URL with a slash, or nothing. -/
theorem C102_submount_partial (cfg : Config) (hcfg : PlainConfig cfg) (ops : List Op)
    (hr : ∀ r ∈ mentioned ops, Plain r) (hst : ∀ r ∈ mentioned ops, Stays cfg r)
    (p : Str) (hp : MountPath p) (hq : urlquote b%"/:|+" p = p)
    (server s sub scheme y query : Str) (hs : s.getLast? ≠ some '/') (hsub : '|' ∉ sub) (hy : y.head? ≠ some '/') :
    seen (match_ (run (URLMap.new cfg) (ops.map (mountedOp p))) (Adapter.mk' server s sub scheme) (p ++ s%"/" ++ y) query) =
      seen (match_ (run (URLMap.new cfg) ops) (Adapter.mk' server (s ++ p) sub scheme) (s%"/" ++ y) query) := by
  have hm := submount_maps p hp cfg hcfg ops hr
  have hu := submounted_update p _ hp _ _ hm
  have hc := submount_cfg p hp cfg hcfg ops hr
  have hcu : ∀ m : URLMap, m.update.cfg = m.cfg := fun m => by unfold URLMap.update; split <;> rfl
  unfold match_
  rw [hm.cfg, hc, List.append_assoc, full_mounted cfg hcfg.host server s sub scheme p _ hp, hu.routes]
  have hf : fullPath cfg (Adapter.mk' server (s ++ p) sub scheme) (s%"/" ++ y) = sub ++ '|' :: '/' :: y := by
    unfold fullPath Adapter.mk'
    simp only [hcfg.host]
    rw [List.cons_append, List.nil_append, lstrip_cons, lstrip_head _ hy]
    simp
  rw [hf]
  refine matchGo_mounted p _ hp hq _ _ hu ?_ server s sub scheme y query hs hsub hy _ fun b hb => hb
  rw [hcu, hc]
  exact update_routes _ _ (run_routes _ ops _ (fun b hb => (by cases hb)) hst)

/-- Within `Submount(p)` no route answers outside of `p`. -/
theorem matchGo_outside (p d : Str) (m m' : URLMap) (hm : Submounted p d m m') (a : Adapter)
    (sub x pi q : Str) (hx : ∀ b ∈ m.routes, (mountBound p b).match_ m.cfg (sub ++ '|' :: x) = .none)
    (l : List Bound) (hl : ∀ b ∈ l, b ∈ m.routes) :
    matchGo m' a (sub ++ '|' :: x) pi q (l.map (mountBound p)) = .error .notFound := by
  induction l with
  | nil => rfl
  | cons b bs ih =>
    simp only [List.map_cons, matchGo, hm.cfg, hx b (hl b List.mem_cons_self)]
    exact ih fun b hb => hl b (.tail _ hb)

theorem grounded_edge (cfg : Config) (d sub : Str) (b : Bound) (hb : Grounded d b) (hsub : '|' ∉ sub) (y : Str)
    (h1 : y.head? ≠ some '/') (h2 : y ≠ []) (h3 : y ≠ s%"\n") : b.match_ cfg (sub ++ '|' :: y) = .none := by
  have hg : groups b.re none (sub ++ '|' :: y) = [] := by
    rw [groups_domain b d sub y hb.domain hb.free hsub]
    split
    · rcases hb.path with ⟨h, _⟩ | ⟨t, ps, h, ht⟩
      · rw [h]
        obtain ⟨c, cs, rfl⟩ := List.exists_cons_of_ne_nil h2
        have hc : c ≠ '/' := fun e => h1 (by rw [e]; rfl)
        have hnl : ¬ (c = '\n' ∧ cs = []) := fun e => h3 (by rw [e.1, e.2])
        have hend : ∀ p, Re.run atEnd p (c :: cs) = [] := by
          intro p
          simp only [atEnd, Re.run]
          rw [if_neg (by simpa using hnl)]
        unfold groups
        rw [List.map_eq_nil_iff]
        simp only [partsRe, seqs]
        unfold tailRe
        split
        · simp [Re.run, Re.opt, Re.lit, Re.andThen, hc, hend]
        · exact hend _
      · rw [h]
        simp only [partsRe, seqs, groups_lit]
        rw [if_neg]
        rintro ⟨z, rfl⟩
        cases t with
        | nil => cases ht
        | cons c cs => exact h1 ht
    · rfl
  unfold groups at hg
  rw [List.map_eq_nil_iff] at hg
  unfold Bound.match_ Re.first
  rw [hg]
  split <;> rfl

/-- C102 (submounts): within `Submount(p)` a path that is not below `p` is not found, unless it
is `p` itself (or `p` and a line break). -/
theorem C102_submount_only (cfg : Config) (hcfg : PlainConfig cfg) (ops : List Op)
    (hr : ∀ r ∈ mentioned ops, Plain r) (p : Str) (hp : MountPath p) (a : Adapter) (hsub : '|' ∉ a.subdomain)
    (x query : Str) (hx : x.head? ≠ some '/') (h1 : ¬ p ++ s%"/" <+: s%"/" ++ x) (h2 : s%"/" ++ x ≠ p)
    (h3 : s%"/" ++ x ≠ p ++ s%"\n") :
    match_ (run (URLMap.new cfg) (ops.map (mountedOp p))) a (s%"/" ++ x) query = .error .notFound := by
  have hm := submount_maps p hp cfg hcfg ops hr
  have hu := submounted_update p _ hp _ _ hm
  have hc := submount_cfg p hp cfg hcfg ops hr
  have hf : fullPath cfg a (s%"/" ++ x) = a.subdomain ++ '|' :: '/' :: x := by
    unfold fullPath
    simp only [hcfg.host]
    rw [List.cons_append, List.nil_append, lstrip_cons, lstrip_head _ hx]
    simp
  unfold match_
  rw [hm.cfg, hc, hf, hu.routes]
  refine matchGo_outside p _ _ _ hu a _ _ _ _ (fun b hb => ?_) _ fun b hb => hb
  have hg := hu.grounded b hb
  by_cases hpre : p <+: '/' :: x
  · obtain ⟨y, hy⟩ := hpre
    rw [← hy, match_mounted _ p _ _ hp b hg hsub y]
    refine grounded_edge _ _ _ b hg hsub y ?_ ?_ ?_
    · intro e
      cases y with
      | nil => cases e
      | cons c cs =>
        have : c = '/' := by simpa using e
        subst this
        exact h1 ⟨cs, by rw [List.append_assoc]; exact hy⟩
    · rintro rfl
      exact h2 (by rw [← List.append_nil p]; exact hy.symm)
    · rintro rfl
      exact h3 hy.symm
  · exact match_missed _ p _ _ hp b hg hsub _ hpre

/-! ### building -/

theorem buildParts_glue (values : Values) (p : Str) (hp : p ≠ []) (ps qs : List Part) :
    buildParts values (gluePart p ps ++ qs) =
      (buildParts values (ps ++ qs)).map (Option.map (urlquote b%"/:|+" p ++ ·)) := by
  unfold gluePart
  split
  · rename_i t ps
    simp only [List.cons_append, buildParts, urlquote_append]
    cases buildParts values (ps ++ qs) with
    | error e => rfl
    | ok o => cases o <;> simp [Except.map]
  · rw [if_neg hp]
    simp only [List.cons_append, buildParts]
    cases buildParts values (ps ++ qs) with
    | error e => rfl
    | ok o => cases o <;> simp [Except.map]

/-- The path of a route that is built. -/
def builtPath (b : Bound) (values : Values) : Except PyErr (Option Str) :=
  buildParts values (b.path ++ if b.route.leaf then [] else [.text s%"/"])

theorem build_grounded (d : Str) (b : Bound) (hb : Grounded d b) (values : Values) (u : Bool) :
    b.build values u = (builtPath b values).map (Option.map fun t =>
      (urlquote b%"/:|+" d, t ++ if u then queryOf b values else [])) := by
  have hbar : buildParts values (.text s%"|" :: (b.path ++ if b.route.leaf then [] else [.text s%"/"])) =
      (builtPath b values).map (Option.map ('|' :: ·)) := by
    simp only [buildParts, builtPath]
    cases buildParts values (b.path ++ if b.route.leaf = true then [] else [.text s%"/"]) with
    | error e => rfl
    | ok o =>
      cases o with
      | none => rfl
      | some t => rfl
  have htr : buildParts values b.trace = (builtPath b values).map (Option.map fun t => urlquote b%"/:|+" d ++ '|' :: t) := by
    unfold Bound.trace
    rw [hb.domain]
    unfold domainParts
    by_cases hd : d = []
    · rw [if_pos hd, List.nil_append, List.cons_append, hbar, hd]
      rfl
    · rw [if_neg hd, List.cons_append, List.nil_append, List.cons_append, buildParts, List.cons_append, hbar]
      cases builtPath b values with
      | error e => rfl
      | ok o => cases o <;> rfl
  unfold Bound.build
  rw [htr]
  cases builtPath b values with
  | error e => rfl
  | ok o =>
    cases o with
    | none => rfl
    | some t =>
      simp only [Except.map, Option.map_some]
      rw [Py.split1_some '|' _ _ (urlquote_bar _ d hb.free)]
      rfl

theorem grounded_mounted (p d : Str) (hp : MountPath p) (b : Bound) (hb : Grounded d b) : Grounded d (mountBound p b) := by
  have hne : p ≠ [] := fun e => by have := hp.head; rw [e] at this; cases this
  have hhead : ∀ t, (p ++ t).head? = some '/' := fun t => by
    obtain ⟨c, cs, rfl, _⟩ := mount_cons p hp
    rfl
  refine ⟨hhead _, hb.domain, hb.free, ?_, .inr ?_⟩
  · intro n c h
    rw [show (mountBound p b).path = gluePart p b.path from rfl, vars_glue] at h
    exact hb.pure n c h
  · show ∃ t ps, gluePart p b.path = .text t :: ps ∧ t.head? = some '/'
    unfold gluePart
    split
    · exact ⟨_, _, rfl, hhead _⟩
    · exact ⟨_, _, by rw [if_neg hne], by simpa using hhead []⟩

theorem built_mounted (p d : Str) (hp : MountPath p) (b : Bound) (hb : Grounded d b) (values : Values) :
    builtPath (mountBound p b) values = (builtPath b values).map (Option.map (urlquote b%"/:|+" p ++ ·)) := by
  have hne : p ≠ [] := fun e => by have := hp.head; rw [e] at this; cases this
  unfold builtPath
  rw [show (mountBound p b).route.leaf = b.route.leaf from leaf_mounted p b.route hb.rule]
  exact buildParts_glue values p hne b.path _

theorem built_head (d : Str) (b : Bound) (hb : Grounded d b) (values : Values) (t : Str)
    (h : builtPath b values = .ok (some t)) : t.head? = some '/' := by
  unfold builtPath at h
  rcases hb.path with ⟨h1, h2⟩ | ⟨w, ps, h1, hw⟩
  · rw [h1, h2] at h
    simp only [Bool.false_eq_true, if_false, List.nil_append, buildParts, List.append_nil] at h
    cases h
    decide
  · rw [h1, List.cons_append, buildParts] at h
    cases w with
    | nil => cases hw
    | cons c cs =>
      have hc : c = '/' := by simpa using hw
      subst hc
      rw [urlquote_cons, urlquote_safe _ '/' (by decide) (by decide)] at h
      split at h
      · cases h; rfl
      · rename_i hx
        exact absurd h (hx t)

theorem buildGo_mounted (p d : Str) (hp : MountPath p) (values : Values) (u : Bool) (l : List Bound)
    (hl : ∀ b ∈ l, Grounded d b) :
    buildGo values u (l.map (mountBound p)) =
      (buildGo values u l).map (Option.map fun x => (x.1, urlquote b%"/:|+" p ++ x.2)) ∧
    ∀ x, buildGo values u l = .ok (some x) → x.2.head? = some '/' := by
  induction l with
  | nil => exact ⟨rfl, fun x h => by cases h⟩
  | cons b bs ih =>
    obtain ⟨ih1, ih2⟩ := ih fun b hb => hl b (.tail _ hb)
    have hg := hl b (.head _)
    have hs : (mountBound p b).suitableFor values = b.suitableFor values := by
      unfold Bound.suitableFor Bound.arguments
      rw [vars_mounted]
      rfl
    have hqu : queryOf (mountBound p b) values = queryOf b values := by
      unfold queryOf Bound.arguments
      rw [vars_mounted]
      rfl
    simp only [List.map_cons, buildGo, hs]
    by_cases hsu : b.suitableFor values = true
    · rw [if_pos hsu, if_pos hsu, build_grounded d _ (grounded_mounted p d hp b hg), built_mounted p d hp b hg,
        build_grounded d b hg, hqu]
      cases hbp : builtPath b values with
      | error e => exact ⟨rfl, fun x h => by cases h⟩
      | ok o =>
        cases o with
        | none => exact ⟨ih1, ih2⟩
        | some t =>
          refine ⟨by simp [Except.map], ?_⟩
          intro x hx
          cases hx
          have := built_head d b hg values t hbp
          cases t with
          | nil => cases this
          | cons c cs => exact this
    · rw [if_neg hsu, if_neg hsu]
      exact ⟨ih1, ih2⟩

theorem join_script (s x : Str) (hx : x.head? ≠ some '/') : joinPath (s ++ s%"/") x = s ++ s%"/" ++ x := by
  unfold joinPath
  rw [if_neg hx, if_pos (.inr (last_append _ _ (by simp)))]

theorem unparse_full (scheme host path : Str) (h1 : scheme ≠ []) (h2 : host ≠ []) (h3 : path.head? = some '/') :
    unparse scheme host path [] = scheme ++ s%"://" ++ host ++ path := by
  unfold unparse
  simp [h1, h2, h3]

/-- C102 (submounts): a full URL built for a route within `Submount(p)` has `p` between the path
of the script and the path `x` that is built without it; the same error is raised where nothing
can be built.  A map bound to the path of the script with `p` at its end has the same URL (but for
slashes at the beginning of `x`, of which it keeps one). -/
theorem C102_submount_build_partial (cfg : Config) (hcfg : PlainConfig cfg) (ops : List Op)
    (hr : ∀ r ∈ mentioned ops, Plain r) (p : Str) (hp : MountPath p) (hq : urlquote b%"/:|+" p = p)
    (server s sub scheme endpoint : Str) (hs : s.getLast? ≠ some '/') (hs' : s = [] ∨ s.head? = some '/')
    (hsv : server ≠ []) (hsc : scheme ≠ []) (values : Values) (appendUnknown : Bool) :
    (∃ e, build (run (URLMap.new cfg) (ops.map (mountedOp p))) (Adapter.mk' server s sub scheme) endpoint values true
        appendUnknown = .error e ∧
      build (run (URLMap.new cfg) ops) (Adapter.mk' server (s ++ p) sub scheme) endpoint values true appendUnknown =
        .error e) ∨
    (∃ host x, x.head? = some '/' ∧
      build (run (URLMap.new cfg) (ops.map (mountedOp p))) (Adapter.mk' server s sub scheme) endpoint values true
        appendUnknown = .ok (scheme ++ s%"://" ++ host ++ s ++ p ++ x) ∧
      build (run (URLMap.new cfg) ops) (Adapter.mk' server (s ++ p) sub scheme) endpoint values true appendUnknown =
        .ok (scheme ++ s%"://" ++ host ++ s ++ p ++ s%"/" ++ lstripSlash x)) := by
  have hm := submount_maps p hp cfg hcfg ops hr
  have hu := submounted_update p _ hp _ _ hm
  have hc := submount_cfg p hp cfg hcfg ops hr
  have hpne : p ≠ [] := fun e => by have := hp.head; rw [e] at this; cases this
  have hne' : (s ++ p).getLast? ≠ some '/' := by rw [last_append _ _ hpne]; exact hp.last
  obtain ⟨h1, h2⟩ := buildGo_mounted p _ hp values appendUnknown
    ((run (URLMap.new cfg) ops).update.byEndpoint endpoint) fun b hb => hu.grounded b (hu.listed _ b hb)
  unfold build
  rw [hu.byEndpoint, h1, hq, hm.cfg, hc]
  cases hgo : buildGo values appendUnknown ((run (URLMap.new cfg) ops).update.byEndpoint endpoint) with
  | error e => exact .inl ⟨e, rfl, rfl⟩
  | ok o =>
    cases o with
    | none => exact .inl ⟨_, rfl, rfl⟩
    | some dx =>
      obtain ⟨d, x⟩ := dx
      right
      have hx := h2 (d, x) hgo
      refine ⟨getHost cfg (Adapter.mk' server s sub scheme) (some d), x, hx, ?_, ?_⟩
      · have hhost : getHost cfg (Adapter.mk' server s sub scheme) (some d) ≠ [] := by
          unfold getHost
          simp only [hcfg.host, Adapter.mk']
          split
          · simp_all
          · split <;> simp_all
        simp only [Except.map, Option.map_some, Bool.true_eq_false, false_and, if_false]
        obtain ⟨c, cs, rfl, hcne⟩ := mount_cons p hp
        rw [List.cons_append, lstrip_cons, lstrip_head _ (by simp [hcne])]
        generalize getHost cfg (Adapter.mk' server s sub scheme) (some d) = host at hhost
        have hh : (s ++ s%"/" ++ (c :: (cs ++ x))).head? = some '/' := by
          rcases hs' with rfl | hs'
          · rfl
          · cases s with
            | nil => cases hs'
            | cons _ _ => exact hs'
        unfold Adapter.mk'
        simp only [if_neg hs]
        rw [List.cons_append, join_script _ _ (by simp [hcne]), unparse_full _ _ _ hsc hhost hh]
        simp
      · have hhost : getHost cfg (Adapter.mk' server s sub scheme) (some d) ≠ [] := by
          unfold getHost
          simp only [hcfg.host, Adapter.mk']
          split
          · simp_all
          · split <;> simp_all
        have hsame : getHost cfg (Adapter.mk' server (s ++ p) sub scheme) (some d) =
            getHost cfg (Adapter.mk' server s sub scheme) (some d) := rfl
        simp only [Bool.true_eq_false, false_and, if_false, hsame]
        generalize getHost cfg (Adapter.mk' server s sub scheme) (some d) = host at hhost
        have hh : (s ++ p ++ s%"/" ++ lstripSlash x).head? = some '/' := by
          rcases hs' with rfl | hs'
          · obtain ⟨c, cs, rfl, _⟩ := mount_cons p hp
            rfl
          · cases s with
            | nil => cases hs'
            | cons _ _ => exact hs'
        unfold Adapter.mk'
        simp only [if_neg hne']
        rw [join_script _ _ (lstrip_ne x), unparse_full _ _ _ hsc hhost hh]
        simp

/-! ### the factories themselves -/

/-- C102: `EndpointPrefix(e)`, `Subdomain(s)` and `Submount(p)` around routes register these routes
as in the theorems above: `prefixed`, `subdomained` and `mounted` (the slashes at the end of the
path of a `Submount` do not count). -/
theorem C102_factories (w : World) (k : Nat) (is : List Nat)
    (h : ∀ i ∈ is, (w.objs i).route.rule.head? = some '/') (e s p : Str) (n : Nat) (hp : MountPath p) :
    ((w.add k [.endpointPrefix e (is.map .route)]).1.maps k,
        (w.add k [.endpointPrefix e (is.map .route)]).2) =
      (w.maps k).add ((is.map fun i => (w.objs i).route).map (prefixed e)) ∧
    ((w.add k [.subdomain s (is.map .route)]).1.maps k, (w.add k [.subdomain s (is.map .route)]).2) =
      (w.maps k).add ((is.map fun i => (w.objs i).route).map (subdomained s)) ∧
    ((w.add k [.submount (p ++ List.replicate n '/') (is.map .route)]).1.maps k,
        (w.add k [.submount (p ++ List.replicate n '/') (is.map .route)]).2) =
      (w.maps k).add ((is.map fun i => (w.objs i).route).map (mounted p)) := by
  have hfr : factoryRoutes w.objs (is.map .route) = (is.map fun i => (w.objs i).route, none) := by
    clear h
    induction is with
    | nil => simp only [List.map_nil, factoryRoutes]
    | cons i is ih => simp only [List.map_cons, factoryRoutes, Factory.routes, ih]; rfl
  have hmap : ∀ (f : Route → Except PyErr Route) (g : Route → Route) (rs : List Route), (∀ r ∈ rs, f r = .ok (g r)) →
      mapGen f rs none = (rs.map g, none) := by
    intro f g rs hf
    induction rs with
    | nil => rfl
    | cons r rs ih =>
      simp only [mapGen, hf r List.mem_cons_self, ih fun r hr => hf r (.tail _ hr), List.map_cons]
  have hrs : ∀ r ∈ is.map fun i => (w.objs i).route, r.rule.head? = some '/' := by
    intro r hr
    obtain ⟨i, hi, rfl⟩ := List.mem_map.1 hr
    exact h i hi
  have hbind : ∀ (rs : List Route), (∀ r ∈ rs, r.rule.head? = some '/') → ∀ m : URLMap,
      (match (bindAll m rs).2 with
        | some e => ((bindAll m rs).1, some e)
        | none => ({ (bindAll m rs).1 with remap := true }, none)) = m.add rs := by
    intro rs
    induction rs with
    | nil => intro _ m; rfl
    | cons r rs ih =>
      intro hr m
      simp only [bindAll, URLMap.add, raw_compile m.cfg m.count r (hr r List.mem_cons_self)]
      cases compile m.cfg m.count r with
      | error e => rfl
      | ok b => exact ih (fun r h => hr r (.tail _ h)) _
  have hone : ∀ (f : Factory) (rs : List Route), (∀ i, f ≠ .route i) → f.routes w.objs = (rs, none) →
      (∀ r ∈ rs, r.rule.head? = some '/') →
      ((w.add k [f]).1.maps k, (w.add k [f]).2) = (w.maps k).add rs := by
    intro f rs hf hrt hr
    have h1 : w.addOne k f = (w.setMap k (bindAll (w.maps k) rs).1, (bindAll (w.maps k) rs).2) := by
      cases f with
      | route i => exact absurd rfl (hf i)
      | subdomain s fs => simp only [World.addOne, hrt]; cases (bindAll (w.maps k) rs).2 <;> rfl
      | submount s fs => simp only [World.addOne, hrt]; cases (bindAll (w.maps k) rs).2 <;> rfl
      | endpointPrefix s fs => simp only [World.addOne, hrt]; cases (bindAll (w.maps k) rs).2 <;> rfl
      | template s fs => simp only [World.addOne, hrt]; cases (bindAll (w.maps k) rs).2 <;> rfl
    rw [← hbind rs hr]
    simp only [World.add, h1]
    cases (bindAll (w.maps k) rs).2 with
    | some e => simp [World.setMap]
    | none => simp [World.setMap]
  have hempty : ∀ r : Route, r.rule.head? = some '/' → r.empty = .ok r := fun r hr => by
    unfold Route.empty
    rw [if_neg (by simp [hr])]
  refine ⟨hone _ _ (fun i => by simp) ?_ ?_, hone _ _ (fun i => by simp) ?_ ?_, hone _ _ (fun i => by simp) ?_ ?_⟩
  · simp only [Factory.routes, hfr]
    exact hmap _ _ _ fun r hr => by unfold underPrefix; rw [hempty r (hrs r hr)]; rfl
  · intro r hr
    obtain ⟨r', hr', rfl⟩ := List.mem_map.1 hr
    exact hrs r' hr'
  · simp only [Factory.routes, hfr]
    exact hmap _ _ _ fun r hr => by unfold underSubdomain; rw [hempty r (hrs r hr)]; rfl
  · intro r hr
    obtain ⟨r', hr', rfl⟩ := List.mem_map.1 hr
    exact hrs r' hr'
  · simp only [Factory.routes, hfr]
    exact hmap _ _ _ fun r hr => by
      unfold underPath
      rw [hempty r (hrs r hr), trim_slashes p n hp.last]
      rfl
  · intro r hr
    obtain ⟨r', hr', rfl⟩ := List.mem_map.1 hr
    obtain ⟨c, cs, rfl, _⟩ := mount_cons p hp
    rfl

/-! ### cases -/

/-- A page, a list with a slash and an item. -/
def blogOps : List Op := [.add [itemRoute, sampleRoute s%"/list/" s%"list"], .lookup, .add [sampleRoute s%"/" s%"index"]]

/-- `sampleCfg` has no variables in its default subdomain. -/
theorem sample_plain : PlainConfig sampleCfg := ⟨sample_pure, rfl, by decide, by decide, by decide⟩

/-- The path of the cases. -/
theorem blog_path : MountPath s%"/blog" := ⟨by decide, by decide, by decide, by decide, by decide⟩

example : (∀ r ∈ mentioned blogOps, Plain r) ∧ (∀ r ∈ mentioned blogOps, Stays sampleCfg r) ∧
    urlquote b%"/:|+" s%"/blog" = s%"/blog" := by
  refine ⟨?_, ?_, by decide⟩
  · intro r hr
    simp only [blogOps, mentioned, List.append_nil, List.mem_append, List.mem_cons, List.not_mem_nil, or_false] at hr
    rcases hr with (rfl | rfl) | rfl <;> exact ⟨by decide, rfl⟩
  · intro r hr
    simp only [blogOps, mentioned, List.append_nil, List.mem_append, List.mem_cons, List.not_mem_nil, or_false] at hr
    rcases hr with (rfl | rfl) | rfl <;> exact ⟨rfl, fun _ => ⟨rfl, rfl⟩⟩

/-- Within `Submount('/blog')`: an item, a redirect that keeps the path, the index, and nothing elsewhere. -/
example :
    seen (match_ (run (URLMap.new sampleCfg) (blogOps.map (mountedOp s%"/blog"))) sampleAdapter s%"/blog/a/12" []) =
      .ok (.inl (s%"item", [(s%"n", .int 12)])) ∧
    seen (match_ (run (URLMap.new sampleCfg) (blogOps.map (mountedOp s%"/blog"))) sampleAdapter s%"/blog/list" s%"q=1") =
      .ok (.inr s%"http://example.org/blog/list/?q=1") ∧
    seen (match_ (run (URLMap.new sampleCfg) (blogOps.map (mountedOp s%"/blog"))) sampleAdapter s%"/blog/" []) =
      .ok (.inl (s%"index", [])) ∧
    seen (match_ (run (URLMap.new sampleCfg) (blogOps.map (mountedOp s%"/blog"))) sampleAdapter s%"/blogger" []) =
      .error .notFound := by
  refine ⟨by decide +kernel, by decide +kernel, by decide +kernel, by decide +kernel⟩

/-- The same items under `EndpointPrefix('blog.')`. -/
example :
    seen (match_ (run (URLMap.new sampleCfg) (blogOps.map (prefixedOp s%"blog."))) sampleAdapter s%"/a/12" []) =
      .ok (.inl (s%"blog.item", [(s%"n", .int 12)])) ∧
    build (run (URLMap.new sampleCfg) (blogOps.map (prefixedOp s%"blog."))) sampleAdapter s%"blog.item"
      [(s%"n", .int 12)] true true = .ok s%"http://example.org/a/12" ∧
    build (run (URLMap.new sampleCfg) (blogOps.map (prefixedOp s%"blog."))) sampleAdapter s%"item"
      [(s%"n", .int 12)] true true = .error .buildError := by decide +kernel

/-- The same items under `Subdomain('www')`. -/
example : (∀ r ∈ mentioned blogOps, r.subdomain = none) ∧
    seen (match_ (run (URLMap.new sampleCfg) (blogOps.map (subdomainedOp s%"www"))) sampleAdapter s%"/a/12" []) =
      .error .notFound ∧
    seen (match_ (run (URLMap.new sampleCfg) (blogOps.map (subdomainedOp s%"www")))
        (Adapter.mk' s%"example.org" s%"/" s%"www" s%"http") s%"/a/12" []) = .ok (.inl (s%"item", [(s%"n", .int 12)])) ∧
    build (run (URLMap.new sampleCfg) (blogOps.map (subdomainedOp s%"www"))) sampleAdapter s%"item"
      [(s%"n", .int 12)] true true = .ok s%"http://www.example.org/a/12" := by
  refine ⟨?_, by decide +kernel, by decide +kernel, by decide +kernel⟩
  intro r hr
  simp only [blogOps, mentioned, List.append_nil, List.mem_append, List.mem_cons, List.not_mem_nil, or_false] at hr
  rcases hr with (rfl | rfl) | rfl <;> rfl

/-- A URL within `Submount('/blog')`, the application being at `/app`. -/
example :
    build (run (URLMap.new sampleCfg) (blogOps.map (mountedOp s%"/blog")))
      (Adapter.mk' s%"example.org" s%"/app" [] s%"http") s%"item" [(s%"n", .int 12), (s%"q", .str s%"x")] true true =
      .ok s%"http://example.org/app/blog/a/12?q=x" := by decide +kernel

/-- A map matching hosts as a whole. -/
def hostCfg : Config := { sampleCfg with hostMatching := true }

/-- C102 (limits): where hosts are matched as a whole `Subdomain` does nothing. -/
theorem C102_subdomain_limits (cfg : Config) (hm : cfg.hostMatching = true) (ops : List Op) (s : Str) (a : Adapter)
    (pathInfo query endpoint : Str) (values : Values) (forceExternal appendUnknown : Bool) :
    seen (match_ (run (URLMap.new cfg) (ops.map (subdomainedOp s))) a pathInfo query) =
      seen (match_ (run (URLMap.new cfg) ops) a pathInfo query) ∧
    build (run (URLMap.new cfg) (ops.map (subdomainedOp s))) a endpoint values forceExternal appendUnknown =
      build (run (URLMap.new cfg) ops) a endpoint values forceExternal appendUnknown := by
  have hr : Relabelled id (fun _ => some s) (run (URLMap.new cfg) ops)
      (run (URLMap.new cfg) (ops.map (subdomainedOp s))) := by
    have : ops.map (subdomainedOp s) = ops.map (relabelOp id (fun _ => some s)) := by
      refine List.map_congr_left fun op _ => ?_
      cases op <;> rfl
    rw [this]
    refine relabelled_run _ _ (fun a b h => h) ops _ _ ⟨rfl, rfl, rfl, rfl, fun _ => rfl, fun _ _ => rfl, rfl, rfl⟩ ?_
    intro r _
    refine compile_relabel _ _ cfg cfg rfl rfl r ?_
    simp [domainOf, relabelRoute, hm]
  constructor
  · rw [match_relabel _ _ (fun a b h => h) _ _ hr]
    cases match_ (run (URLMap.new cfg) ops) a pathInfo query with
    | error e => rfl
    | ok x => cases x <;> rfl
  · exact build_relabel _ _ _ _ hr a endpoint values forceExternal appendUnknown

example : seen (match_ (run (URLMap.new hostCfg) (blogOps.map (subdomainedOp s%"www")))
    (Adapter.mk' [] s%"/" [] s%"http") s%"/a/12" []) = .ok (.inl (s%"item", [(s%"n", .int 12)])) := by decide +kernel

/-- A route that redirects to a path given relative to the root of the script. -/
def movedOps : List Op := [.add [{ sampleRoute s%"/old" s%"old" with redirectTo := some (.text s%"new") }]]

/-- C102 (limits): a relative target of `redirect_to` is not moved by `Submount`: it is joined to the
path of the script.  (Here joining is plain concatenation.) -/
theorem C102_target_limits :
    seen (match_ (run (URLMap.new { sampleCfg with urljoin := fun a b => a ++ b }) (movedOps.map (mountedOp s%"/blog")))
      (Adapter.mk' s%"example.org" s%"" [] s%"http") s%"/blog/old" []) = .ok (.inr s%"http://example.org/new") ∧
    seen (match_ (run (URLMap.new { sampleCfg with urljoin := fun a b => a ++ b }) movedOps)
      (Adapter.mk' s%"example.org" s%"/blog" [] s%"http") s%"/old" []) = .ok (.inr s%"http://example.org/blog/new") := by
  refine ⟨by decide +kernel, by decide +kernel⟩

end Verif.Props.MountP
