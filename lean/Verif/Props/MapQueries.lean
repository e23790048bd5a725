import Verif.Model.MapQueries
import Verif.Props.RuleText
import Verif.Props.BuildUrl
/-!
C124: what a map of routes says about its routes.
-/
namespace Verif.Props.MapP
open Verif Verif.Routing Verif.Spec.Routing Verif.Props Verif.Props.RoutingP Verif.Props.RuleP

/-! ### specification -/

/-- The names a route mentions: the keys of its defaults, the variables of its subdomain (or host) and those of
its path, where these are written as the rules `d` and `q`. -/
structure Mentions (cfg : Config) (r : Route) (names : List Str) : Prop where
  written : ∃ d q : Rule, d.Ok ∧ d.Flat ∧ q.Ok ∧ q.Flat ∧ q.text.getLast? ≠ some '/' ∧
    (if cfg.hostMatching then r.host.getD [] else r.subdomain.getD cfg.defaultSubdomain) = d.text ∧
    (∃ n, r.rule = q.text ++ List.replicate n '/') ∧
    names = Dict.keys r.defaults ++ d.vars.map (·.2.name) ++ q.vars.map (·.2.name)

/-- Which of two routes is tried first when a URL is built: those which are no aliases, then those with more
arguments, then those with more defaults. -/
def BuiltBefore (a b : Bound) : Prop :=
  (a.route.alias = false ∧ b.route.alias = true) ∨ a.route.alias = b.route.alias ∧
    (b.arguments.eraseDups.length < a.arguments.eraseDups.length ∨
      a.arguments.eraseDups.length = b.arguments.eraseDups.length ∧ b.route.defaults.length < a.route.defaults.length)

/-- Neither of two routes is tried before the other by the rules above. -/
def BuiltAlike (a b : Bound) : Prop :=
  a.route.alias = b.route.alias ∧ a.arguments.eraseDups.length = b.arguments.eraseDups.length ∧
    a.route.defaults.length = b.route.defaults.length

/-- The order of the routes of an end point: as above, and otherwise in the order of registration. -/
def Built (a b : Bound) : Prop := BuiltBefore a b ∨ BuiltAlike a b ∧ a.id < b.id

/-! ### the names of a route -/

theorem compiled_names (cfg : Config) {vars tail ps} (h : Compiled cfg vars tail ps) :
    (Routing.vars ps).map (·.1) = vars.map (·.2.name) := by
  have hv : ∀ (s : Str) ps, Routing.vars ((if s = [] then [] else [.text s]) ++ ps) = Routing.vars ps := by
    intro s ps
    split <;> rfl
  induction h with
  | nil tail => split <;> rfl
  | cons st v c hc _ ih =>
    rw [hv]
    simp [Routing.vars, ih]

theorem compile_domain (cfg : Config) (i : Nat) (r : Route) (b : Bound) (hc : compile cfg i r = .ok b) (d : Rule) (hd : d.Ok)
    (hf : d.Flat) (hr : (if cfg.hostMatching then r.host.getD [] else r.subdomain.getD cfg.defaultSubdomain) = d.text) :
    Compiled cfg d.vars d.tail b.domain := by
  unfold compile at hc
  simp only at hc
  split at hc
  · cases hc
  · rw [hr, C111_read d hd hf] at hc
    split at hc
    · cases ‹Except.ok d.pieces = _›
    · cases hc
    · rename_i ds ps hds _
      cases hds
      split at hc
      · cases hc
      · cases hc
      · rename_i d' p hp _
        split at hc
        · cases hc
          exact build_pieces cfg d.vars d.tail d' hp
        · cases hc

theorem arguments_eq (cfg : Config) (i : Nat) (r : Route) (b : Bound) (hc : compile cfg i r = .ok b) (names : List Str)
    (h : Mentions cfg r names) : b.arguments = names := by
  obtain ⟨d, q, hd, hdf, hq, hqf, hl, h1, ⟨n, h2⟩, rfl⟩ := h.written
  have e1 := compiled_names cfg (compile_domain cfg i r b hc d hd hdf h1)
  have e2 := compiled_names cfg (C111_route cfg i r b hc q hq hqf hl n h2)
  unfold Bound.arguments Bound.vars
  rw [(compile_ok_id cfg i r b hc).2, List.map_append, e1, e2, List.append_assoc]

/-! ### the order in which URLs are built -/

theorem sort_pairwise {α} (le : α → α → Bool) (R S : α → α → Prop) (h1 : ∀ x y, le x y = true → S x y → R x y)
    (h2 : ∀ x y, le x y = false → R y x) (ht : ∀ x y z, R x y → R y z → R x z) :
    ∀ l : List α, l.Pairwise S → (sortBy le l).Pairwise R := by
  have hins : ∀ (x : α) (l : List α), l.Pairwise R → (∀ y ∈ l, S x y) → (insertBy le x l).Pairwise R := by
    intro x l
    induction l with
    | nil => intro _ _; exact List.pairwise_singleton _ _
    | cons y ys ih =>
      intro hp hs
      rw [List.pairwise_cons] at hp
      unfold insertBy
      split
      · rename_i hle
        have hxy := h1 x y hle (hs y (.head _))
        refine List.pairwise_cons.2 ⟨fun z hz => ?_, List.pairwise_cons.2 hp⟩
        rcases List.mem_cons.1 hz with rfl | hz
        · exact hxy
        · exact ht _ _ _ hxy (hp.1 z hz)
      · rename_i hle
        refine List.pairwise_cons.2 ⟨fun z hz => ?_, ih hp.2 fun z hz => hs z (.tail _ hz)⟩
        rcases List.mem_cons.1 ((insert_perm le x ys).mem_iff.1 hz) with rfl | hz
        · exact h2 _ _ (by simpa using hle)
        · exact hp.1 z hz
  intro l
  induction l with
  | nil => intro _; exact List.Pairwise.nil
  | cons x xs ih =>
    intro hp
    rw [List.pairwise_cons] at hp
    exact hins x _ (ih hp.2) fun y hy => hp.1 y ((sort_perm le xs).mem_iff.1 hy)

theorem built_trans (a b c : Bound) (h1 : Built a b) (h2 : Built b c) : Built a c := by
  unfold Built BuiltBefore BuiltAlike at *
  generalize a.route.alias = x at *
  generalize b.route.alias = y at *
  generalize c.route.alias = z at *
  cases x <;> cases y <;> cases z <;> simp at h1 h2 ⊢ <;> omega

theorem key_lt (a b : Bound) : (buildCmp a.buildKey b.buildKey = .lt ↔ BuiltBefore a b) ∧
    (buildCmp a.buildKey b.buildKey = .eq ↔ BuiltAlike a b) := by
  unfold buildCmp Bound.buildKey BuiltBefore BuiltAlike
  have e1 := fun x y => (then_lt x y).1
  simp only [e1]
  have e2 : ∀ x y : Ordering, x.then y = .eq ↔ x = .eq ∧ y = .eq := by
    intro x y; cases x <;> cases y <;> simp [Ordering.then]
  have e3 := fun x y => (icmp x y).1
  have e4 := fun x y => (icmp x y).2
  simp only [e2, e3, e4]
  generalize a.route.alias = x
  generalize b.route.alias = y
  cases x <;> cases y <;> simp <;> omega

theorem key_swap (a b : Bound) : buildCmp a.buildKey b.buildKey = .gt → BuiltBefore b a := by
  intro h
  have h1 := (key_lt a b).1
  have h2 := (key_lt a b).2
  rw [h] at h1 h2
  unfold BuiltBefore BuiltAlike at *
  generalize a.route.alias = x at *
  generalize b.route.alias = y at *
  cases x <;> cases y <;> simp at h1 h2 ⊢ <;> omega

theorem sort_built (l : List Bound) (h : l.Pairwise fun a b => a.id < b.id ∨ Built a b) :
    (sortBy buildLe l).Pairwise Built := by
  refine sort_pairwise buildLe Built (fun a b => a.id < b.id ∨ Built a b) ?_ ?_ built_trans l h
  · intro x y hle hs
    rcases hs with hs | hs
    · unfold buildLe at hle
      cases hc : buildCmp x.buildKey y.buildKey with
      | lt => exact .inl ((key_lt x y).1.1 hc)
      | eq => exact .inr ⟨(key_lt x y).2.1 hc, hs⟩
      | gt => rw [hc] at hle; cases hle
    · exact hs
  · intro x y hle
    unfold buildLe at hle
    cases hc : buildCmp x.buildKey y.buildKey with
    | lt => rw [hc] at hle; cases hle
    | eq => rw [hc] at hle; cases hle
    | gt => exact .inl (key_swap x y hc)

/-! ### histories -/

/-- The routes of a map are those of `reg`, also end point by end point. -/
structure Keeps (m : URLMap) (reg : List Route) : Prop where
  all : (m.routes.map (·.route)).Perm reg
  each : ∀ e, ((m.byEndpoint e).map (·.route)).Perm (reg.filter (·.endpoint = e))
  below : ∀ e, ∀ b ∈ m.byEndpoint e, b.id < m.count
  stable : ∀ e, (m.byEndpoint e).Pairwise fun a b => a.id < b.id ∨ Built a b

/-- The lists of end points are in order unless the map knows that they are not. -/
def Ordered (m : URLMap) : Prop := m.remap = false → ∀ e, (m.byEndpoint e).Pairwise Built

theorem keeps_push (m : URLMap) (reg : List Route) (h : Keeps m reg) (r : Route) (b : Bound)
    (hb : compile m.cfg m.count r = .ok b) : Keeps (m.push b) (reg ++ [r]) := by
  obtain ⟨hi, hr⟩ := compile_ok_id _ _ _ _ hb
  refine ⟨?_, fun e => ?_, fun e x hx => ?_, fun e => ?_⟩
  · show ((m.routes ++ [b]).map (·.route)).Perm _
    rw [List.map_append, List.map_singleton, hr]
    exact h.all.append_right _
  · show (((if e = b.route.endpoint then m.byEndpoint e ++ [b] else m.byEndpoint e)).map (·.route)).Perm _
    rw [List.filter_append, hr]
    by_cases he : e = r.endpoint
    · rw [if_pos he, List.map_append, List.map_singleton, hr, show [r].filter (·.endpoint = e) = [r] by simp [he]]
      exact (h.each e).append_right _
    · rw [if_neg he, show [r].filter (·.endpoint = e) = [] by simp [Ne.symm he], List.append_nil]
      exact h.each e
  · have hx : x ∈ (if e = b.route.endpoint then m.byEndpoint e ++ [b] else m.byEndpoint e) := hx
    show x.id < m.count + 1
    split at hx
    · rcases List.mem_append.1 hx with hx | hx
      · have := h.below e x hx; omega
      · rw [List.mem_singleton.1 hx, hi]; omega
    · have := h.below e x hx; omega
  · show (if e = b.route.endpoint then m.byEndpoint e ++ [b] else m.byEndpoint e).Pairwise _
    split
    · refine List.pairwise_append.2 ⟨h.stable e, List.pairwise_singleton _ _, fun x hx y hy => ?_⟩
      rw [List.mem_singleton.1 hy, hi]
      exact .inl (h.below e x hx)
    · exact h.stable e

theorem keeps_add (rs : List Route) : ∀ (m : URLMap) (reg : List Route), Keeps m reg →
    Keeps (m.add rs).1 (reg ++ accepted m.cfg rs) ∧ (m.add rs).1.cfg = m.cfg ∧
    ((m.add rs).2.isNone = true → (m.add rs).1.remap = true) := by
  induction rs with
  | nil =>
    intro m reg h
    rw [accepted, List.append_nil]
    exact ⟨⟨h.all, h.each, h.below, h.stable⟩, rfl, fun _ => rfl⟩
  | cons r rs ih =>
    intro m reg h
    rw [accepted_cons m.cfg m.count, URLMap.add]
    cases hc : compile m.cfg m.count r with
    | error e =>
      simp only [List.append_nil]
      exact ⟨h, trivial, fun hn => by cases hn⟩
    | ok b =>
      simp only
      have := ih (m.push b) _ (keeps_push m reg h r b hc)
      rw [List.append_assoc] at this
      exact this

theorem keeps_update (m : URLMap) (reg : List Route) (h : Keeps m reg) :
    Keeps m.update reg ∧ m.update.cfg = m.cfg ∧ (Ordered m → ∀ e, (m.update.byEndpoint e).Pairwise Built) := by
  unfold URLMap.update
  split
  · have hs := fun e => sort_built _ (h.stable e)
    refine ⟨⟨?_, fun e => ?_, fun e b hb => ?_, fun e => ?_⟩, rfl, fun _ => hs⟩
    · exact ((sort_perm matchLe m.routes).map _).trans h.all
    · exact ((sort_perm buildLe (m.byEndpoint e)).map _).trans (h.each e)
    · exact h.below e b ((sort_perm buildLe _).mem_iff.1 hb)
    · exact (hs e).imp fun h => .inr h
  · rename_i hr
    exact ⟨h, rfl, fun ho => ho (by simpa using hr)⟩

theorem keeps_run (ops : List Op) : ∀ (m : URLMap) (reg : List Route) (ok : Bool), Keeps m reg → (ok = true → Ordered m) →
    Keeps (run m ops) (reg ++ registered m.cfg ops) ∧ (run m ops).cfg = m.cfg ∧
    (settled m ok ops = true → Ordered (run m ops)) := by
  induction ops with
  | nil =>
    intro m reg ok h hf
    rw [registered, List.append_nil]
    exact ⟨h, rfl, fun hs => hf hs⟩
  | cons op ops ih =>
    intro m reg ok h hf
    cases op with
    | add rs =>
      obtain ⟨a1, a2, a3⟩ := keeps_add rs m reg h
      obtain ⟨i1, i2, i3⟩ := ih (m.add rs).1 _ (m.add rs).2.isNone a1 (fun hn hr => by
        rw [a3 hn] at hr; cases hr)
      rw [List.append_assoc, a2] at i1
      exact ⟨i1, i2.trans a2, i3⟩
    | lookup =>
      obtain ⟨a1, a2, a3⟩ := keeps_update m reg h
      obtain ⟨i1, i2, i3⟩ := ih m.update reg ok a1 (fun ho _ => a3 (hf ho))
      rw [a2] at i1
      exact ⟨i1, i2.trans a2, i3⟩

theorem keeps_new (cfg : Config) : Keeps (URLMap.new cfg) [] := by
  refine ⟨.nil, fun e => .nil, fun e b hb => ?_, fun e => List.Pairwise.nil⟩
  cases hb

theorem keeps_all (cfg : Config) (ops : List Op) :
    Keeps (run (URLMap.new cfg) ops).update (registered cfg ops) ∧
    (settled (URLMap.new cfg) true ops = true → ∀ e, ((run (URLMap.new cfg) ops).update.byEndpoint e).Pairwise Built) := by
  obtain ⟨h1, _, h3⟩ := keeps_run ops (URLMap.new cfg) [] true (keeps_new cfg) (fun _ _ e => List.Pairwise.nil)
  obtain ⟨u1, _, u3⟩ := keeps_update _ _ h1
  exact ⟨u1, fun hs => u3 (h3 hs)⟩

/-! ### the theorems -/

/-- **C124** (all routes): `iter_routes()` gives every registered route exactly once, whatever was added and looked
up before; if no call of `add_routes` failed since, in the order in which they are tried for a path. -/
theorem C124_all (cfg : Config) (ops : List Op) : ∃ l, ((run (URLMap.new cfg) ops).iterRoutes none).2 = .ok l ∧
    (l.map (·.route)).Perm (registered cfg ops) ∧
    (settled (URLMap.new cfg) true ops = true → l.Pairwise fun a b =>
      MoreSpecific (shape a) (shape b) ∨ shape a = shape b ∧ a.id < b.id) := by
  refine ⟨_, rfl, (keeps_all cfg ops).1.all, fun hs => ?_⟩
  exact (lookup_routes cfg ops hs).2.1

/-- **C124** (routes of an end point): `iter_routes(endpoint)` gives the registered routes with that end point,
each exactly once; if no call of `add_routes` failed since, in the order in which they are tried for building.  It
raises `KeyError` exactly if there are none. -/
theorem C124_endpoint (cfg : Config) (ops : List Op) (e : Str) :
    ((∀ r ∈ registered cfg ops, r.endpoint ≠ e) → ((run (URLMap.new cfg) ops).iterRoutes (some e)).2 = .error .keyError) ∧
    ((∃ r ∈ registered cfg ops, r.endpoint = e) → ∃ l, ((run (URLMap.new cfg) ops).iterRoutes (some e)).2 = .ok l ∧
      (l.map (·.route)).Perm ((registered cfg ops).filter (·.endpoint = e)) ∧
      (settled (URLMap.new cfg) true ops = true → l.Pairwise Built)) := by
  have hk := (keeps_all cfg ops).1.each e
  have ho := (keeps_all cfg ops).2
  unfold URLMap.iterRoutes URLMap.ofEndpoint
  simp only
  refine ⟨fun h => ?_, fun ⟨r, hr, he⟩ => ?_⟩
  · rw [show (registered cfg ops).filter (·.endpoint = e) = [] from List.filter_eq_nil_iff.2 fun r hr => by
      simpa using h r hr] at hk
    have := hk.eq_nil
    rw [if_pos (by simpa using this)]
  · have hm : r ∈ (registered cfg ops).filter (·.endpoint = e) := List.mem_filter.2 ⟨hr, by simpa using he⟩
    have := hk.mem_iff.2 hm
    rw [if_neg (by intro h; rw [List.isEmpty_iff.1 h] at this; cases this)]
    exact ⟨_, rfl, hk, fun hs => ho hs e⟩

theorem expecting_iff (args : List Str) (l : List Bound) :
    expectingGo args l = true ↔ ∃ b ∈ l, ∀ a ∈ args, a ∈ b.arguments := by
  induction l with
  | nil => simp [expectingGo]
  | cons b bs ih =>
    unfold expectingGo
    have hb : args.all b.arguments.contains = true ↔ ∀ a ∈ args, a ∈ b.arguments := by
      simp [List.all_eq_true]
    split
    · rename_i h
      exact ⟨fun _ => ⟨b, .head _, hb.1 h⟩, fun _ => rfl⟩
    · rename_i h
      rw [ih]
      constructor
      · rintro ⟨x, hx, h'⟩; exact ⟨x, .tail _ hx, h'⟩
      · rintro ⟨x, hx, h'⟩
        rcases List.mem_cons.1 hx with rfl | hx
        · exact absurd (hb.2 h') h
        · exact ⟨x, hx, h'⟩

/-- **C124** (expected arguments): `is_endpoint_expecting` is true exactly if one single route of the end point
mentions all the names in its subdomain, its path or its defaults; false if there are routes of the end point but
none such; and raises `KeyError` if there are no routes of the end point. -/
theorem C124_expecting (cfg : Config) (ops : List Op) (e : Str) (args : List Str) (names : Route → List Str)
    (hn : ∀ r ∈ registered cfg ops, r.endpoint = e → Mentions cfg r (names r)) :
    ((∀ r ∈ registered cfg ops, r.endpoint ≠ e) →
      ((run (URLMap.new cfg) ops).isEndpointExpecting e args).2 = .error .keyError) ∧
    ((∃ r ∈ registered cfg ops, r.endpoint = e ∧ ∀ a ∈ args, a ∈ names r) →
      ((run (URLMap.new cfg) ops).isEndpointExpecting e args).2 = .ok true) ∧
    ((∃ r ∈ registered cfg ops, r.endpoint = e) → (∀ r ∈ registered cfg ops, r.endpoint = e → ∃ a ∈ args, a ∉ names r) →
      ((run (URLMap.new cfg) ops).isEndpointExpecting e args).2 = .ok false) := by
  obtain ⟨h0, h1⟩ := C124_endpoint cfg ops e
  have hargs : ∀ b ∈ (run (URLMap.new cfg) ops).update.byEndpoint e, b.route ∈ registered cfg ops ∧ b.route.endpoint = e ∧
      b.arguments = names b.route := by
    intro b hb
    obtain ⟨⟨r, hr, hc⟩, he⟩ := (BuildP.mem_endpoint cfg ops e b).1 hb
    have e1 := (compile_ok_id _ _ _ _ hc).2
    have hm : r ∈ registered cfg ops := List.mem_of_getElem? hr
    rw [e1] at he ⊢
    exact ⟨hm, he, arguments_eq cfg _ r b hc _ (hn r hm he)⟩
  unfold URLMap.iterRoutes at h0 h1
  unfold URLMap.isEndpointExpecting
  simp only at h0 h1 ⊢
  refine ⟨fun h => by rw [h0 h]; rfl, fun ⟨r, hr, he, ha⟩ => ?_, fun h hno => ?_⟩
  · obtain ⟨l, hl, hp, _⟩ := h1 ⟨r, hr, he⟩
    have hl' : l = (run (URLMap.new cfg) ops).update.byEndpoint e := by
      unfold URLMap.ofEndpoint at hl
      split at hl
      · cases hl
      · cases hl; rfl
    have hm : r ∈ l.map (·.route) := hp.mem_iff.2 (List.mem_filter.2 ⟨hr, by simpa using he⟩)
    obtain ⟨b, hb, rfl⟩ := List.mem_map.1 hm
    have : expectingGo args l = true := (expecting_iff args l).2 ⟨b, hb, by
      rw [(hargs b (hl' ▸ hb)).2.2]; exact ha⟩
    rw [hl]
    show Except.ok (expectingGo args l) = _
    rw [this]
  · obtain ⟨l, hl, hp, _⟩ := h1 h
    have hl' : l = (run (URLMap.new cfg) ops).update.byEndpoint e := by
      unfold URLMap.ofEndpoint at hl
      split at hl
      · cases hl
      · cases hl; rfl
    have : expectingGo args l ≠ true := by
      rw [Ne, expecting_iff]
      rintro ⟨b, hb, ha⟩
      obtain ⟨i1, i2, i3⟩ := hargs b (hl' ▸ hb)
      obtain ⟨a, ha1, ha2⟩ := hno _ i1 i2
      exact ha2 (i3 ▸ ha a ha1)
    rw [hl]
    show Except.ok (expectingGo args l) = _
    rw [Bool.eq_false_iff.2 this]

/-- **C124** (asking changes nothing): the answers to later questions, paths and end points are those without the
question. -/
theorem C124_asking (m : URLMap) (e : Str) (e' : Option Str) (args args' : List Str) (a : Adapter) (path query : Str) (x : Str)
    (values : Values) (f u : Bool) :
    (∀ m', (m' = (m.isEndpointExpecting e args).1 ∨ m' = (m.iterRoutes e').1) →
      match_ m' a path query = match_ m a path query ∧
      build m' a x values f u = build m a x values f u ∧
      (m'.isEndpointExpecting x args').2 = (m.isEndpointExpecting x args').2 ∧
      ∀ y, (m'.iterRoutes y).2 = (m.iterRoutes y).2) := by
  intro m' h
  have hm : m' = m.update := by
    rcases h with rfl | rfl
    · rfl
    · cases e' <;> rfl
  have hu : m.update.update = m.update := by
    have hr : m.update.remap = false := by
      unfold URLMap.update
      split
      · rfl
      · rename_i h; simpa using h
    generalize m.update = n at hr ⊢
    unfold URLMap.update
    rw [if_neg (by simp [hr])]
  have hc : m.update.cfg = m.cfg := by unfold URLMap.update; split <;> rfl
  rw [hm]
  refine ⟨?_, ?_, ?_, fun y => ?_⟩
  · unfold match_; rw [hu, hc]
  · unfold build; rw [hu, hc]
  · unfold URLMap.isEndpointExpecting; rw [hu]
  · cases y <;> (unfold URLMap.iterRoutes; rw [hu])

/-- The texts given for a key: one, or those of a list. -/
def texts : QueryVal → List Str
  | .one s => [s]
  | .many l => l

/-- **C124** (query arguments): query arguments given as a dictionary of texts and lists of texts are written such
that a request for the redirect has them as its parameters, one for each element of a list, in the same order;
apart from empty texts (C90).  Query arguments given as text are passed on. -/
theorem C124_query_partial (semi : Bool) (environ : List (Str × Str)) (q : List (Str × QueryVal))
    (h : Dict.get environ s%"QUERY_STRING" = some (encodeQueryArgs (.pairs q))) :
    ReqUrl.argPairs semi environ = .ok ((q.flatMap fun kv => (texts kv.2).map fun v => (kv.1, v)).filter fun p => p.2 ≠ []) ∧
    ∀ s, encodeQueryArgs (.text s) = s := by
  refine ⟨?_, fun s => rfl⟩
  rw [ReqUrlP.C90_args_partial semi environ _ h]
  have : ∀ q : List (Str × QueryVal), (q.flatMap fun kv => kv.2.pairs kv.1) =
      q.flatMap fun kv => (texts kv.2).map fun v => (kv.1, v) := by
    intro q
    induction q with
    | nil => rfl
    | cons p q ih =>
      obtain ⟨k, v⟩ := p
      rw [List.flatMap_cons, List.flatMap_cons, ih]
      cases v <;> rfl
  rw [this]

/-- **C124 fails** for empty query arguments, which do not arrive. -/
theorem C124_query_false : ∃ (q : List (Str × QueryVal)) (environ : List (Str × Str)),
    Dict.get environ s%"QUERY_STRING" = some (encodeQueryArgs (.pairs q)) ∧ q = [(s%"a", .one []), (s%"b", .one s%"1")] ∧
    ReqUrl.argPairs false environ = .ok [(s%"b", s%"1")] :=
  ⟨_, [(s%"QUERY_STRING", encodeQueryArgs (.pairs [(s%"a", .one []), (s%"b", .one s%"1")]))], rfl, rfl, by
    rw [(C124_query_partial false _ [(s%"a", .one []), (s%"b", .one s%"1")] rfl).1]; rfl⟩

/-! ### equal routes -/

/-- What is left of a rule without its converters: the texts and the names, in order. -/
def Rule.outline (q : Rule) : List (Str × Str) × Str := (q.vars.map fun p => (p.1, p.2.name), q.tail)

/-- A part of a route without its converter. -/
def mark : Part → Bool × Str
  | .text s => (false, s)
  | .var n _ => (true, n)

/-- The mark of a text, unless it is empty. -/
def textMark (s : Str) : List (Bool × Str) := if s = [] then [] else [(false, s)]

/-- The marks of a rule. -/
def marks : List (Str × Str) → Str → List (Bool × Str)
  | [], tail => textMark tail
  | (st, n) :: vars, tail => textMark st ++ (true, n) :: marks vars tail

theorem trace_marks : ∀ a b : List Part, sameTrace a b = true ↔ a.map mark = b.map mark
  | [], [] => by simp [sameTrace]
  | [], b :: bs => by cases b <;> simp [sameTrace]
  | a :: as, [] => by cases a <;> simp [sameTrace]
  | a :: as, b :: bs => by
    cases a <;> cases b <;> simp [sameTrace, mark, trace_marks as bs]

theorem compiled_marks (cfg : Config) {vars tail ps} (h : Compiled cfg vars tail ps) :
    ps.map mark = marks (vars.map fun p => (p.1, p.2.name)) tail := by
  have ht : ∀ s : Str, ((if s = [] then [] else [Part.text s]).map mark) = textMark s := by
    intro s
    unfold textMark
    split <;> rfl
  induction h with
  | nil tail => exact ht tail
  | cons st v c hc _ ih => rw [List.map_append, ht, List.map_cons, ih]; rfl

theorem textMark_inj {s t : Str} (h : textMark s = textMark t) : s = t := by
  unfold textMark at h
  by_cases hs : s = [] <;> by_cases ht : t = [] <;> simp_all

theorem textMark_var {s t n m : Str} {a b : List (Bool × Str)}
    (h : textMark s ++ (true, n) :: a = textMark t ++ (true, m) :: b) : s = t ∧ n = m ∧ a = b := by
  unfold textMark at h
  by_cases hs : s = [] <;> by_cases ht : t = [] <;> simp_all

theorem textMark_novar {s t n : Str} {a : List (Bool × Str)} : textMark s ≠ textMark t ++ (true, n) :: a := by
  intro h
  unfold textMark at h
  by_cases hs : s = [] <;> by_cases ht : t = [] <;> simp_all

theorem marks_inj : ∀ (a b : List (Str × Str)) (s t : Str), marks a s = marks b t → a = b ∧ s = t
  | [], [], s, t, h => ⟨rfl, textMark_inj h⟩
  | [], (_, _) :: _, s, t, h => absurd h textMark_novar
  | (_, _) :: _, [], s, t, h => absurd h.symm textMark_novar
  | (u, n) :: a, (v, m) :: b, s, t, h => by
    obtain ⟨h1, h2, h3⟩ := textMark_var h
    obtain ⟨h4, h5⟩ := marks_inj a b s t h3
    rw [h1, h2, h4, h5]
    exact ⟨rfl, rfl⟩

theorem apart_marks : ∀ (a : List (Str × Str)) (s : Str) (x y : List (Bool × Str)) (u v : Str),
    marks a s ≠ x ++ (false, u) :: (false, v) :: y
  | [], s, x, y, u, v, h => by
    have hl : (textMark s).length ≤ 1 := by unfold textMark; split <;> simp
    have h : textMark s = _ := h
    rw [h] at hl
    simp at hl
    omega
  | (st, n) :: a, s, x, y, u, v, h => by
    have h : textMark st ++ (true, n) :: marks a s = x ++ (false, u) :: (false, v) :: y := h
    unfold textMark at h
    by_cases hs : st = []
    · rw [if_pos hs] at h
      cases x with
      | nil => simp at h
      | cons p x =>
        simp only [List.nil_append, List.cons_append, List.cons.injEq] at h
        exact apart_marks a s x y u v h.2
    · rw [if_neg hs] at h
      cases x with
      | nil => simp at h
      | cons p x =>
        cases x with
        | nil => simp at h
        | cons p' x =>
          simp only [List.nil_append, List.cons_append, List.cons.injEq] at h
          exact apart_marks a s x y u v h.2.2

theorem marks_last : ∀ (a : List (Str × Str)) (s u : Str) (x : List (Bool × Str)), marks a s = x ++ [(false, u)] → s = u
  | [], s, u, x, h => by
    have h : textMark s = x ++ [(false, u)] := h
    unfold textMark at h
    split at h
    · simp at h
    · have := congrArg List.getLast? h
      simpa using this
  | (st, n) :: a, s, u, x, h => by
    have h : textMark st ++ (true, n) :: marks a s = x ++ [(false, u)] := h
    cases hm : marks a s with
    | nil =>
      rw [hm] at h
      have := congrArg List.getLast? h
      simp at this
    | cons p l =>
      rw [hm] at h
      refine marks_last a s u (x.drop ((textMark st).length + 1)) ?_
      have h2 := congrArg (List.drop ((textMark st).length + 1)) h
      have hlen := congrArg List.length h
      simp only [List.length_append, List.length_cons, List.length_nil] at hlen
      rw [show textMark st ++ (true, n) :: p :: l = (textMark st ++ [(true, n)]) ++ p :: l by simp,
        List.drop_left' (by simp), List.drop_append_of_le_length (by omega)] at h2
      rw [hm, ← h2]

/-- The marks of a route which is written with the rule `q` and the slashes, and the domain `d`. -/
theorem trace_split (cfg : Config) (i : Nat) (r : Route) (b : Bound) (hc : compile cfg i r = .ok b) (d q : Rule)
    (hd : d.Ok) (hdf : d.Flat) (hq : q.Ok) (hqf : q.Flat) (hl : q.text.getLast? ≠ some '/')
    (h1 : (if cfg.hostMatching then r.host.getD [] else r.subdomain.getD cfg.defaultSubdomain) = d.text)
    (n : Nat) (h2 : r.rule = q.text ++ List.replicate n '/') :
    b.trace.map mark = marks (Rule.outline d).1 d.tail ++ (false, s%"|") ::
      (marks (Rule.outline q).1 q.tail ++ if n = 0 then [] else [(false, s%"/")]) ∧
    ∃ c x, (marks (Rule.outline q).1 q.tail ++ if n = 0 then [] else [(false, s%"/")]) = (false, '/' :: c) :: x := by
  have e1 := compiled_marks cfg (compile_domain cfg i r b hc d hd hdf h1)
  have e2 := compiled_marks cfg (C111_route cfg i r b hc q hq hqf hl n h2)
  have hr := (compile_ok_id cfg i r b hc).2
  have hleaf : r.leaf = (n == 0) := by
    unfold Route.leaf
    rw [h2]
    cases n with
    | zero => simpa using hl
    | succ n =>
      rw [List.replicate_succ', ← List.append_assoc, List.getLast?_concat]
      rfl
  have hhead : r.rule.head? = some '/' := by
    unfold compile at hc
    simp only at hc
    split at hc
    · cases hc
    · rename_i hx
      simpa using hx
  refine ⟨?_, ?_⟩
  · unfold Bound.trace
    rw [hr, hleaf]
    have ht : (if (n == 0) = true then [] else [Part.text s%"/"]).map mark = if n = 0 then [] else [(false, s%"/")] := by
      by_cases hn : n = 0
      · simp [hn]
      · simp [hn, mark]
    simp only [List.map_append, List.map_cons, e1, e2, ht]
    simp [Rule.outline, mark]
  · rw [h2] at hhead
    unfold Rule.outline
    obtain ⟨vars, tail⟩ := q
    cases vars with
    | nil =>
      simp only [Rule.text, List.flatMap_nil, List.nil_append, List.map_nil, marks] at hhead ⊢
      cases tail with
      | nil =>
        cases n with
        | zero => simp at hhead
        | succ n => exact ⟨_, _, by simp [textMark]; exact ⟨rfl, rfl⟩⟩
      | cons c tail =>
        simp only [List.cons_append, List.head?_cons, Option.some.injEq] at hhead
        exact ⟨_, _, by simp [textMark, hhead]; exact ⟨rfl, rfl⟩⟩
    | cons p vars =>
      obtain ⟨st, v⟩ := p
      simp only [List.map_cons, marks]
      cases st with
      | nil =>
        simp [Rule.text, var_text] at hhead
      | cons c st =>
        simp only [Rule.text, List.flatMap_cons, List.cons_append, List.head?_cons, Option.some.injEq] at hhead
        exact ⟨_, _, by simp [textMark, hhead]; exact ⟨rfl, rfl⟩⟩

theorem bar_split {a b : List (Str × Str)} {s t : Str} {x y : List (Bool × Str)}
    (h : marks a s ++ (false, s%"|") :: x = marks b t ++ (false, s%"|") :: y)
    (hx : ∃ c l, x = (false, '/' :: c) :: l) (hy : ∃ c l, y = (false, '/' :: c) :: l) :
    marks a s = marks b t ∧ x = y := by
  have key : ∀ (a b : List (Str × Str)) (s t : Str) (x y l : List (Bool × Str)), (∃ c l, x = (false, '/' :: c) :: l) →
      marks b t = marks a s ++ l → (false, s%"|") :: x = l ++ (false, s%"|") :: y → l = [] := by
    intro a b s t x y l ⟨c, k, hx⟩ h1 h2
    cases l with
    | nil => rfl
    | cons p l =>
      simp only [List.cons_append, List.cons.injEq] at h2
      obtain ⟨rfl, h2⟩ := h2
      cases l with
      | nil =>
        rw [hx] at h2
        simp at h2
      | cons p' l =>
        rw [hx] at h2
        simp only [List.cons_append, List.cons.injEq] at h2
        obtain ⟨rfl, _⟩ := h2
        exact absurd h1 (apart_marks _ _ _ _ _ _)
  rcases List.append_eq_append_iff.1 h with ⟨l, h1, h2⟩ | ⟨l, h1, h2⟩
  · have := key a b s t x y l hx h1 h2
    rw [this] at h1 h2
    simp only [List.append_nil, List.nil_append, List.cons.injEq, true_and] at h1 h2
    exact ⟨h1.symm, h2⟩
  · have := key b a t s y x l hy h1 h2
    rw [this] at h1 h2
    simp only [List.append_nil, List.nil_append, List.cons.injEq, true_and] at h1 h2
    exact ⟨h1, h2.symm⟩

/-- **C124** (equal routes): two routes of a map are equal exactly if their subdomains (or hosts) and their paths
have the same texts and the same names of variables in the same order, and both or none of them end with a slash.
Converters, end points, defaults and everything else make no difference. -/
theorem C124_equal_partial (cfg : Config) (i j : Nat) (r r' : Route) (b b' : Bound) (hc : compile cfg i r = .ok b)
    (hc' : compile cfg j r' = .ok b') (d q d' q' : Rule) (n n' : Nat)
    (hd : d.Ok) (hdf : d.Flat) (hq : q.Ok) (hqf : q.Flat) (hl : q.text.getLast? ≠ some '/')
    (hd' : d'.Ok) (hdf' : d'.Flat) (hq' : q'.Ok) (hqf' : q'.Flat) (hl' : q'.text.getLast? ≠ some '/')
    (h1 : (if cfg.hostMatching then r.host.getD [] else r.subdomain.getD cfg.defaultSubdomain) = d.text)
    (h1' : (if cfg.hostMatching then r'.host.getD [] else r'.subdomain.getD cfg.defaultSubdomain) = d'.text)
    (h2 : r.rule = q.text ++ List.replicate n '/') (h2' : r'.rule = q'.text ++ List.replicate n' '/') :
    b.eq b' = true ↔ Rule.outline d = Rule.outline d' ∧ Rule.outline q = Rule.outline q' ∧ (n = 0 ↔ n' = 0) := by
  obtain ⟨e, s⟩ := trace_split cfg i r b hc d q hd hdf hq hqf hl h1 n h2
  obtain ⟨e', s'⟩ := trace_split cfg j r' b' hc' d' q' hd' hdf' hq' hqf' hl' h1' n' h2'
  unfold Bound.eq
  rw [trace_marks, e, e']
  constructor
  · intro h
    obtain ⟨k1, k2⟩ := bar_split h s s'
    obtain ⟨m1, m2⟩ := marks_inj _ _ _ _ k1
    have hslash : ∀ (q : Rule) (x : List (Bool × Str)), q.text.getLast? ≠ some '/' →
        marks (Rule.outline q).1 q.tail ≠ x ++ [(false, s%"/")] := by
      intro q x hl hm
      have := marks_last _ _ _ _ hm
      apply hl
      unfold Rule.text
      rw [this, List.getLast?_concat]
    have hn : n = 0 ↔ n' = 0 := by
      by_cases a1 : n = 0 <;> by_cases a2 : n' = 0
      · simp [a1, a2]
      · rw [if_pos a1, if_neg a2, List.append_nil] at k2
        exact absurd k2 (hslash q _ hl)
      · rw [if_neg a1, if_pos a2, List.append_nil] at k2
        exact absurd k2.symm (hslash q' _ hl')
      · simp [a1, a2]
    have k3 : marks (Rule.outline q).1 q.tail = marks (Rule.outline q').1 q'.tail := by
      by_cases a1 : n = 0
      · rw [if_pos a1, if_pos (hn.1 a1)] at k2
        simpa using k2
      · rw [if_neg a1, if_neg (fun h => a1 (hn.2 h))] at k2
        exact List.append_cancel_right k2
    obtain ⟨m3, m4⟩ := marks_inj _ _ _ _ k3
    exact ⟨Prod.ext m1 m2, Prod.ext m3 m4, hn⟩
  · rintro ⟨k1, k2, k3⟩
    have t1 : d.tail = d'.tail := congrArg Prod.snd k1
    have t2 : q.tail = q'.tail := congrArg Prod.snd k2
    rw [k1, k2, t1, t2]
    by_cases a1 : n = 0
    · rw [if_pos a1, if_pos (k3.1 a1)]
    · rw [if_neg a1, if_neg (fun h => a1 (k3.2 h))]

/-! ### examples -/

/-- Two routes for `item`, one with a default, and one for `page`; a question in between. -/
def demoOps : List Op :=
  [.add [{ rule := s%"/item/<int:n>", endpoint := s%"item" }], .lookup,
   .add [{ rule := s%"/item/", defaults := [(s%"n", .int 1), (s%"lang", .str s%"en")], endpoint := s%"item" },
         { rule := s%"/<x>", endpoint := s%"page" }]]

/-- The names mentioned by these routes. -/
def demoNames (r : Route) : List Str :=
  if r.rule = s%"/item/" then [s%"n", s%"lang"] else if r.rule = s%"/<x>" then [s%"x"] else [s%"n"]

theorem demo_registered : (registered ruleCfg demoOps).map (fun r => (r.rule, r.endpoint)) =
    [(s%"/item/<int:n>", s%"item"), (s%"/item/", s%"item"), (s%"/<x>", s%"page")] ∧
    settled (URLMap.new ruleCfg) true demoOps = true := by
  constructor <;> decide +kernel

/-- What is asked, and the answers. -/
example : ((run (URLMap.new ruleCfg) demoOps).isEndpointExpecting s%"item" [s%"n", s%"lang"]).2 = .ok true ∧
    ((run (URLMap.new ruleCfg) demoOps).isEndpointExpecting s%"item" [s%"x"]).2 = .ok false ∧
    ((run (URLMap.new ruleCfg) demoOps).isEndpointExpecting s%"none" []).2 = .error .keyError ∧
    ((run (URLMap.new ruleCfg) demoOps).iterRoutes (some s%"item")).2.map (·.map (·.id)) = .ok [1, 0] ∧
    ((run (URLMap.new ruleCfg) demoOps).iterRoutes none).2.map (·.map (·.id)) = .ok [0, 1, 2] := by
  refine ⟨?_, ?_, ?_, ?_, ?_⟩ <;> decide +kernel

/-- The hypotheses of `C124_expecting` hold for these routes. -/
example : Mentions ruleCfg { rule := s%"/item/", defaults := [(s%"n", .int 1), (s%"lang", .str s%"en")], endpoint := s%"item" }
    [s%"n", s%"lang"] ∧
    Mentions ruleCfg { rule := s%"/<x>", endpoint := s%"page" } [s%"x"] := by
  have hempty : (Rule.mk [] []).Ok ∧ (Rule.mk [] []).Flat := ⟨⟨by simp, by simp, by simp, by simp⟩, by intro p hp; cases hp⟩
  refine ⟨⟨⟨[], []⟩, ⟨[], s%"/item"⟩, hempty.1, hempty.2, ⟨by simp, by simp, by decide, by decide⟩, (by intro p hp; cases hp),
    by decide, rfl, ⟨1, rfl⟩, rfl⟩, ⟨⟨[], []⟩, ⟨[(s%"/", ⟨none, s%"x"⟩)], []⟩, hempty.1, hempty.2, ⟨?_, by simp, by simp, by simp⟩, ?_,
    by decide, rfl, ⟨0, rfl⟩, rfl⟩⟩
  · intro p hp
    simp only [List.mem_singleton] at hp
    subst hp
    exact ⟨by decide, ⟨_, _, rfl, by decide, by decide⟩, fun c a h => by cases h⟩
  · intro p hp c a h
    simp only [List.mem_singleton] at hp
    subst hp
    cases h

/-- Equal routes for different end points and converters. -/
example : ∃ b b', compile ruleCfg 0 { rule := s%"/a/<int:n>", endpoint := s%"x" } = .ok b ∧
    compile ruleCfg 1 { rule := s%"/a/<n>", endpoint := s%"y" } = .ok b' ∧ b.eq b' = true := ⟨_, _, rfl, rfl, by decide +kernel⟩

example : encodeQueryArgs (.pairs [(s%"a", .one s%"1 2"), (s%"b", .many [s%"x", [], s%"y"])]) = s%"a=1+2&b=x&b=&b=y" := by
  decide +kernel

end Verif.Props.MapP
