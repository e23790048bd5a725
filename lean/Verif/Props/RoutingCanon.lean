import Verif.Props.BuildUrl
/-!
C108: which route of an end point gives its address, and the redirects to it: from the routes
whose arguments are the defaults of another route, from aliases, and those of `redirect_to`.
-/
namespace Verif.Props.CanonP
open Verif Py Routing Iri UrlJoin Spec Spec.Routing Props.IriP Props.JoinP Props.RoutingP Props.BuildP

/-! ### the order of preference -/

/-- `a` is preferred to `b` for addresses: no alias, more arguments, more defaults, registered
before. -/
def Preferred (a b : Bound) : Prop :=
  (a.route.alias = false ∧ b.route.alias = true) ∨
  a.route.alias = b.route.alias ∧
    (b.arguments.eraseDups.length < a.arguments.eraseDups.length ∨
      a.arguments.eraseDups.length = b.arguments.eraseDups.length ∧
        (b.route.defaults.length < a.route.defaults.length ∨
          a.route.defaults.length = b.route.defaults.length ∧ a.id < b.id))

theorem preferred_trans {a b c : Bound} (h1 : Preferred a b) (h2 : Preferred b c) : Preferred a c := by
  unfold Preferred at *
  rcases h1 with ⟨x1, x2⟩ | ⟨x1, x2⟩ <;> rcases h2 with ⟨y1, y2⟩ | ⟨y1, y2⟩
  · rw [x2] at y1; cases y1
  · exact .inl ⟨x1, y1 ▸ x2⟩
  · exact .inl ⟨x1.trans y1, y2⟩
  · exact .inr ⟨x1.trans y1, by omega⟩

theorem preferred_irrefl {a : Bound} (h : Preferred a a) : False := by
  unfold Preferred at h
  rcases h with ⟨x1, x2⟩ | ⟨_, x⟩
  · rw [x1] at x2; cases x2
  · omega

theorem preferred_asymm {a b : Bound} (h1 : Preferred a b) (h2 : Preferred b a) : False :=
  preferred_irrefl (preferred_trans h1 h2)

/-- Routes with the same rank are in the order of their registration. -/
def Queued (a b : Bound) : Prop := a.buildKey = b.buildKey → a.id < b.id


theorem buildCmp_cases (a b : Int × Int × Int) :
    (buildCmp a b).isLE = true ↔ a.1 < b.1 ∨ a.1 = b.1 ∧ (a.2.1 < b.2.1 ∨ a.2.1 = b.2.1 ∧ a.2.2 ≤ b.2.2) := by
  unfold buildCmp
  simp only [int_compare]
  by_cases h1 : a.1 < b.1
  · simp [h1, Ordering.then]
  · by_cases h2 : a.1 = b.1
    · by_cases h3 : a.2.1 < b.2.1
      · simp [h1, h2, h3, Ordering.then]
      · by_cases h4 : a.2.1 = b.2.1
        · by_cases h5 : a.2.2 < b.2.2
          · simp [h2, h4, h5, Ordering.then]; omega
          · by_cases h6 : a.2.2 = b.2.2
            · simp [h2, h4, h6, Ordering.then]
            · simp [h2, h4, h5, h6, Ordering.then]; omega
        · simp [h2, h3, h4, Ordering.then]
    · simp [h1, h2, Ordering.then]

theorem key_fst (a b : Bound) : (a.buildKey.1 < b.buildKey.1 ↔ a.route.alias = false ∧ b.route.alias = true) ∧
    (a.buildKey.1 = b.buildKey.1 ↔ a.route.alias = b.route.alias) := by
  unfold Bound.buildKey
  cases a.route.alias <;> cases b.route.alias <;> simp

theorem buildLe_true {a b : Bound} (h : buildLe a b = true) (hq : Queued a b) : Preferred a b := by
  unfold buildLe at h
  rw [buildCmp_cases, (key_fst a b).1, (key_fst a b).2] at h
  rcases h with h | ⟨h1, h2⟩
  · exact .inl h
  · refine .inr ⟨h1, ?_⟩
    simp only [Bound.buildKey] at h2
    rcases h2 with h2 | ⟨h2, h3⟩
    · left; omega
    · right
      refine ⟨by omega, ?_⟩
      by_cases he : a.route.defaults.length = b.route.defaults.length
      · right
        refine ⟨he, hq ?_⟩
        simp only [Bound.buildKey, h1, he, h2]
      · left; omega

theorem buildLe_false {a b : Bound} (h : buildLe a b = false) : Preferred b a := by
  have h' : ¬ (buildLe a b = true) := by simp [h]
  unfold buildLe at h'
  rw [buildCmp_cases, (key_fst a b).1, (key_fst a b).2] at h'
  unfold Preferred
  simp only [Bound.buildKey] at h'
  cases ha : a.route.alias <;> cases hb : b.route.alias <;> simp only [ha, hb] at h' ⊢
  · right
    refine ⟨trivial, ?_⟩
    simp at h'
    omega
  · simp at h'
  · left; exact ⟨trivial, trivial⟩
  · right
    refine ⟨trivial, ?_⟩
    simp at h'
    omega

theorem insert_pairwise {α} (le : α → α → Bool) (P S : α → α → Prop) (ht : ∀ x y z, P x y → P y z → P x z)
    (h1 : ∀ x y, le x y = true → S x y → P x y) (h2 : ∀ x y, le x y = false → P y x) (x : α) (l : List α)
    (hl : l.Pairwise P) (hx : ∀ y ∈ l, S x y) : (insertBy le x l).Pairwise P := by
  induction l with
  | nil => exact List.pairwise_singleton _ _
  | cons y ys ih =>
    rw [List.pairwise_cons] at hl
    unfold insertBy
    split
    · rename_i hle
      have hxy := h1 x y hle (hx y (.head _))
      rw [List.pairwise_cons]
      refine ⟨fun z hz => ?_, List.pairwise_cons.2 hl⟩
      rcases List.mem_cons.1 hz with rfl | hz
      · exact hxy
      · exact ht _ _ _ hxy (hl.1 z hz)
    · rename_i hle
      rw [List.pairwise_cons]
      refine ⟨fun z hz => ?_, ih hl.2 fun z hz => hx z (.tail _ hz)⟩
      rcases List.mem_cons.1 ((insert_perm le x ys).mem_iff.1 hz) with rfl | hz
      · exact h2 _ _ (by simpa using hle)
      · exact hl.1 z hz

theorem sort_pairwise {α} (le : α → α → Bool) (P S : α → α → Prop) (ht : ∀ x y z, P x y → P y z → P x z)
    (h1 : ∀ x y, le x y = true → S x y → P x y) (h2 : ∀ x y, le x y = false → P y x) (l : List α)
    (hl : l.Pairwise S) : (sortBy le l).Pairwise P := by
  induction l with
  | nil => exact List.Pairwise.nil
  | cons x xs ih =>
    rw [List.pairwise_cons] at hl
    exact insert_pairwise le P S ht h1 h2 x _ (ih hl.2) fun y hy => hl.1 y ((sort_perm le xs).mem_iff.1 hy)

theorem preferred_queued {a b : Bound} (h : Preferred a b) : Queued a b := by
  intro hk
  have h1 := (key_fst a b).2.1 (by rw [hk])
  simp only [Bound.buildKey, Prod.mk.injEq] at hk
  rcases h with ⟨x, y⟩ | ⟨_, h⟩
  · rw [x, y] at h1; cases h1
  · omega

/-- The lists of the end points are queued, and sorted unless the map knows that they are not. -/
structure Filing (m : URLMap) : Prop where
  old : ∀ e, ∀ b ∈ m.byEndpoint e, b.id < m.count
  queued : ∀ e, (m.byEndpoint e).Pairwise Queued

/-- The lists are sorted unless the map knows that they are not. -/
def Sorted (m : URLMap) : Prop := m.remap = false → ∀ e, (m.byEndpoint e).Pairwise Preferred

theorem filing_add (rs : List Route) : ∀ m : URLMap, Filing m →
    Filing (m.add rs).1 ∧ ((m.add rs).2.isNone = true → (m.add rs).1.remap = true) := by
  induction rs with
  | nil => intro m h; exact ⟨⟨h.1, h.2⟩, fun _ => rfl⟩
  | cons r rs ih =>
    intro m h
    rw [URLMap.add]
    split
    · exact ⟨h, fun he => by cases he⟩
    · rename_i b hb
      obtain ⟨hid, _⟩ := compile_ok_id _ _ _ _ hb
      refine ih _ ⟨fun e x hx => ?_, fun e => ?_⟩
      · simp only [URLMap.push] at hx ⊢
        split at hx
        · rcases List.mem_append.1 hx with hx | hx
          · exact Nat.lt_succ_of_lt (h.old e x hx)
          · rw [List.mem_singleton.1 hx, hid]; exact Nat.lt_succ_self _
        · exact Nat.lt_succ_of_lt (h.old e x hx)
      · simp only [URLMap.push]
        split
        · rw [List.pairwise_append]
          refine ⟨h.queued e, List.pairwise_singleton _ _, fun x hx y hy _ => ?_⟩
          rw [List.mem_singleton.1 hy, hid]
          exact h.old e x hx
        · exact h.queued e

theorem filing_update (m : URLMap) (h : Filing m) :
    Filing m.update ∧ (Sorted m → ∀ e, (m.update.byEndpoint e).Pairwise Preferred) := by
  have hs : ∀ e, (sortBy buildLe (m.byEndpoint e)).Pairwise Preferred := fun e =>
    sort_pairwise buildLe Preferred Queued (fun _ _ _ => preferred_trans) (fun _ _ => buildLe_true) (fun _ _ => buildLe_false) _
      (h.queued e)
  unfold URLMap.update
  split
  · refine ⟨⟨fun e b hb => ?_, fun e => (hs e).imp preferred_queued⟩, fun _ => hs⟩
    exact h.old e b ((sort_perm buildLe _).mem_iff.1 hb)
  · rename_i hr
    exact ⟨h, fun hf => hf (by simpa using hr)⟩

theorem filing_run (ops : List Op) : ∀ (m : URLMap) (ok : Bool), Filing m → (ok = true → Sorted m) →
    Filing (run m ops) ∧ (settled m ok ops = true → Sorted (run m ops)) := by
  induction ops with
  | nil => intro m ok h hf; exact ⟨h, hf⟩
  | cons op ops ih =>
    intro m ok h hf
    cases op with
    | add rs =>
      obtain ⟨a1, a2⟩ := filing_add rs m h
      exact ih (m.add rs).1 (m.add rs).2.isNone a1 (fun hn hr => by rw [a2 hn] at hr; cases hr)
    | lookup =>
      obtain ⟨a1, a2⟩ := filing_update m h
      exact ih m.update ok a1 (fun ho _ => a2 (hf ho))

theorem endpoint_sorted (cfg : Config) (ops : List Op) (hs : settled (URLMap.new cfg) true ops = true) (e : Str) :
    ((run (URLMap.new cfg) ops).update.byEndpoint e).Pairwise Preferred := by
  obtain ⟨h1, h2⟩ := filing_run ops (URLMap.new cfg) true ⟨(fun e b hb => by cases hb), fun e => List.Pairwise.nil⟩
    (fun _ h => by cases h)
  exact (filing_update _ h1).2 (h2 hs) e

/-! ### which route gives the address -/

theorem buildGo_preferred (values : Values) (u : Bool) (b : Bound) (x : Str × Str) (hsu : b.suitableFor values = true)
    (hx : b.build values u = .ok (some x)) : ∀ l : List Bound, l.Pairwise Preferred → b ∈ l →
    (∀ c ∈ l, Preferred c b → c.suitableFor values = true → c.build values u = .ok none) →
    buildGo values u l = .ok (some x) := by
  intro l
  induction l with
  | nil => intro _ h; cases h
  | cons c l ih =>
    intro hp hm hno
    rw [List.pairwise_cons] at hp
    rw [buildGo]
    rcases List.mem_cons.1 hm with rfl | hm
    · rw [if_pos hsu, hx]
    · have hc := hp.1 b hm
      have := ih hp.2 hm (fun d hd => hno d (.tail _ hd))
      split
      · rename_i hcs
        rw [hno c (.head _) hc hcs]
        exact this
      · exact this

theorem buildGo_none (values : Values) (u : Bool) : ∀ l : List Bound,
    (∀ c ∈ l, c.suitableFor values = true → c.build values u = .ok none) → buildGo values u l = .ok none := by
  intro l
  induction l with
  | nil => intro _; rfl
  | cons c l ih =>
    intro hno
    rw [buildGo]
    have := ih (fun d hd => hno d (.tail _ hd))
    split
    · rename_i hcs
      rw [hno c (.head _) hcs]
      exact this
    · exact this

/-- The values suit a route: each variable has a value, and where there is a value for an
argument with a default it is the default. -/
def Suits (b : Bound) (values : Values) : Prop :=
  (∀ n ∈ b.arguments, n ∈ Dict.keys b.route.defaults ∨ n ∈ Dict.keys values) ∧
  ∀ kv ∈ b.route.defaults, ∀ v, Dict.get values kv.1 = some v → v = kv.2

theorem suits_iff (b : Bound) (values : Values) : b.suitableFor values = true ↔ Suits b values := by
  unfold Bound.suitableFor Suits
  rw [Bool.and_eq_true, List.all_eq_true, List.all_eq_true]
  refine and_congr (forall_congr' fun n => forall_congr' fun _ => ?_) (forall_congr' fun kv => forall_congr' fun _ => ?_)
  · rw [Bool.or_eq_true, Dict.has_iff, Dict.has_iff]
  · cases Dict.get values kv.1 with
    | none => simp
    | some v => simp

theorem single_endpoint (cfg : Config) (ops : List Op) (b : Bound) (hb : Registered cfg ops b) :
    (run (URLMap.new cfg) [.add [b.route]]).update.byEndpoint b.route.endpoint = [{ b with id := 0 }] := by
  obtain ⟨r, hr1, hr2⟩ := id hb
  obtain ⟨_, _, hr, _⟩ := compile_inv cfg _ r b hr2
  have hc : compile cfg 0 b.route = .ok { b with id := 0 } := by
    rw [compile_id cfg 0 b.id, hr, hr2]
    simp [Except.map, hr]
  simp only [run, List.foldl_cons, List.foldl_nil, step, URLMap.add, URLMap.new, hc, URLMap.push, URLMap.update]
  simp [sortBy, insertBy]

/-- C108: of the routes that suit the values and do not decline them, the preferred one gives
the address of an end point: the address is the one it would give alone. -/
theorem C108_chosen (cfg : Config) (ops : List Op) (hs : settled (URLMap.new cfg) true ops = true)
    (a : Adapter) (endpoint : Str) (values : Values) (external unknown : Bool)
    (b : Bound) (hb : Registered cfg ops b) (he : b.route.endpoint = endpoint) (hsu : Suits b values)
    (hok : ∃ x, b.build values unknown = .ok (some x))
    (hfirst : ∀ c, Registered cfg ops c → c.route.endpoint = endpoint → Preferred c b → Suits c values →
      c.build values unknown = .ok none) :
    build (run (URLMap.new cfg) ops) a endpoint values external unknown =
      build (run (URLMap.new cfg) [.add [b.route]]) a endpoint values external unknown := by
  obtain ⟨x, hx⟩ := hok
  have h1 := buildGo_preferred values unknown b x ((suits_iff b values).2 hsu) hx _ (endpoint_sorted cfg ops hs endpoint)
    ((mem_endpoint cfg ops endpoint b).2 ⟨hb, he⟩) (fun c hc hp hcs => by
      obtain ⟨g1, g2⟩ := (mem_endpoint cfg ops endpoint c).1 hc
      exact hfirst c g1 g2 hp ((suits_iff c values).1 hcs))
  have h2 : buildGo values unknown ((run (URLMap.new cfg) [.add [b.route]]).update.byEndpoint endpoint) = .ok (some x) := by
    subst he
    rw [single_endpoint cfg ops b hb, buildGo]
    have e1 : ({ b with id := 0 } : Bound).suitableFor values = true := (suits_iff b values).2 hsu
    have e2 : ({ b with id := 0 } : Bound).build values unknown = .ok (some x) := hx
    rw [if_pos e1, e2]
  unfold build
  rw [h1, h2, (BindP.tried cfg ops).1, (BindP.tried cfg [.add [b.route]]).1]

/-- C108: where no route of the end point suits the values there is no address. -/
theorem C108_unbuildable (cfg : Config) (ops : List Op) (a : Adapter) (endpoint : Str) (values : Values) (external unknown : Bool)
    (hno : ∀ c, Registered cfg ops c → c.route.endpoint = endpoint → ¬ Suits c values) :
    build (run (URLMap.new cfg) ops) a endpoint values external unknown = .error .buildError := by
  unfold build
  rw [buildGo_none values unknown _ fun c hc hcs => by
    obtain ⟨g1, g2⟩ := (mem_endpoint cfg ops endpoint c).1 hc
    exact absurd ((suits_iff c values).1 hcs) (hno c g1 g2)]

/-! ### redirects to routes with defaults -/

theorem registered_id {cfg : Config} {ops : List Op} {b c : Bound} (hb : Registered cfg ops b) (hc : Registered cfg ops c)
    (h : b.id = c.id) : b = c := by
  obtain ⟨r, hr1, hr2⟩ := hb
  obtain ⟨r', hr1', hr2'⟩ := hc
  rw [h, hr1'] at hr1
  cases hr1
  rw [h, hr2'] at hr2
  cases hr2
  rfl

/-- A part of a rule without its converter. -/
def tag : Part → Bool × Str
  | .text s => (false, s)
  | .var n _ => (true, n)

theorem sameTrace_iff (ps : List Part) : ∀ qs, sameTrace ps qs = true ↔ ps.map tag = qs.map tag := by
  induction ps with
  | nil => intro qs; cases qs <;> simp [sameTrace]
  | cons p ps ih =>
    intro qs
    cases qs with
    | nil => cases p <;> simp [sameTrace]
    | cons q qs => cases p <;> cases q <;> simp [sameTrace, tag, ih]

theorem sameSet_iff (a b : List Str) : sameSet a b = true ↔ ∀ n, n ∈ a ↔ n ∈ b := by
  unfold sameSet
  simp only [Bool.and_eq_true, List.all_eq_true, List.contains_iff_mem]
  exact ⟨fun h n => ⟨h.1 n, h.2 n⟩, fun h => ⟨fun n => (h n).1, fun n => (h n).2⟩⟩

/-- The route `r` stands for the route `b` with the values `vs`: it has another rule for the
same end point with the same arguments, and these values are its defaults. -/
structure Canonical (r b : Bound) (vs : Values) : Prop where
  matching : r.route.buildOnly = false
  defaults : r.route.defaults ≠ []
  endpoint : r.route.endpoint = b.route.endpoint
  other : r.trace.map tag ≠ b.trace.map tag
  arguments : ∀ n, n ∈ r.arguments ↔ n ∈ b.arguments
  values : ∀ kv ∈ r.route.defaults, Dict.get vs kv.1 = some kv.2

theorem defaults_arguments {r : Bound} {kv : Str × Val} (h : kv ∈ r.route.defaults) : kv.1 ∈ r.arguments :=
  List.mem_append.2 (.inl (List.mem_map.2 ⟨kv, h, rfl⟩))

theorem canonical_iff (r b : Bound) (vs : Values) (hk : ∀ n, n ∈ Dict.keys vs ↔ n ∈ b.arguments) :
    (r.providesDefaultsFor b = true ∧ r.suitableFor vs = true) ↔ Canonical r b vs := by
  rw [suits_iff]
  unfold Bound.providesDefaultsFor
  simp only [Bool.and_eq_true, Bool.not_eq_true', List.isEmpty_eq_false_iff, beq_iff_eq, sameSet_iff]
  have ht : sameTrace r.trace b.trace = false ↔ r.trace.map tag ≠ b.trace.map tag := by
    rw [← Bool.not_eq_true, sameTrace_iff]
  rw [ht]
  constructor
  · rintro ⟨⟨⟨⟨⟨h1, h2⟩, h3⟩, h4⟩, h5⟩, h6, h7⟩
    refine ⟨h1, h2, h3, h4, h5, fun kv hkv => ?_⟩
    have hm := (hk kv.1).2 ((h5 kv.1).1 (defaults_arguments hkv))
    cases hg : Dict.get vs kv.1 with
    | none => exact absurd hm (Dict.get_eq_none.1 hg)
    | some v => rw [h7 kv hkv v hg]
  · rintro ⟨h1, h2, h3, h4, h5, h6⟩
    refine ⟨⟨⟨⟨⟨h1, h2⟩, h3⟩, h4⟩, h5⟩, fun n hn => .inr ((hk n).2 ((h5 n).1 hn)), fun kv hkv v hg => ?_⟩
    rw [h6 kv hkv] at hg
    cases hg
    rfl

theorem convert_keys (m : Re.M Char) (vs : List (Str × Converter)) : ∀ n out, convert m n vs = some out →
    Dict.keys out = vs.map (·.1) := by
  induction vs with
  | nil => intro n out h; cases h; rfl
  | cons v vs ih =>
    obtain ⟨name, c⟩ := v
    intro n out h
    simp only [convert] at h
    split at h
    · cases h
    · cases hc : convert m (n + 1) vs with
      | none => rw [hc] at h; cases h
      | some o =>
        rw [hc] at h
        cases h
        simp [ih _ _ hc]

theorem keys_update (d e : Values) (n : Str) : n ∈ Dict.keys (update d e) ↔ n ∈ Dict.keys d ∨ n ∈ Dict.keys e := by
  unfold update
  induction e generalizing d with
  | nil => simp
  | cons kv e ih =>
    rw [List.foldl_cons, ih]
    have : n ∈ Dict.keys (Dict.set d kv.1 kv.2) ↔ n ∈ Dict.keys d ∨ n = kv.1 := by
      have h := Dict.get_set d kv.1 kv.2 n
      by_cases hn : n = kv.1
      · subst hn
        simp only [or_true, iff_true]
        apply Classical.byContradiction
        intro hc
        rw [Dict.get_eq_none.2 hc] at h
        simp at h
      · simp only [hn, or_false]
        have h' : n ∉ Dict.keys (Dict.set d kv.1 kv.2) ↔ n ∉ Dict.keys d := by
          rw [← Dict.get_eq_none, ← Dict.get_eq_none, h]
          simp [hn]
        exact ⟨fun x => Classical.byContradiction fun y => h'.2 y x, fun x => Classical.byContradiction fun y => h'.1 y x⟩
    rw [this, Dict.keys_cons, List.mem_cons]
    constructor
    · rintro ((h | h) | h)
      · exact .inl h
      · exact .inr (.inl h)
      · exact .inr (.inr h)
    · rintro (h | h | h)
      · exact .inl (.inl h)
      · exact .inl (.inr h)
      · exact .inr h

theorem update_same (vs e : Values) : ∀ d : Values, (∀ kv ∈ e, Dict.get vs kv.1 = some kv.2) → ∀ n,
    Dict.get (update d e) n = if n ∈ Dict.keys e then Dict.get vs n else Dict.get d n := by
  induction e with
  | nil => intro d _ n; simp [update]
  | cons kv e ih =>
    intro d h n
    have h1 := ih (Dict.set d kv.1 kv.2) (fun x hx => h x (.tail _ hx)) n
    show Dict.get (update (Dict.set d kv.1 kv.2) e) n = _
    rw [h1, Dict.get_set]
    simp only [Dict.keys_cons, List.mem_cons]
    by_cases hm : n ∈ Dict.keys e
    · simp [hm]
    · by_cases hn : n = kv.1
      · subst hn
        simp [hm, h kv (.head _)]
      · simp [hm, hn]

/-- The arguments a route finds in a path, before its defaults. -/
theorem match_inv (cfg : Config) (b : Bound) (path : Str) (vs : Values)
    (h : b.match_ cfg path = .values vs ∨ b.match_ cfg path = .alias vs) :
    b.route.buildOnly = false ∧ (∃ vs0, Dict.keys vs0 = b.vars.map (·.1) ∧ vs = update vs0 b.route.defaults) ∧
      (b.match_ cfg path = .values vs → cfg.redirectDefaults = true → b.route.alias = false) := by
  unfold Bound.match_ at h ⊢
  by_cases hbo : b.route.buildOnly = true
  · rw [if_pos hbo] at h
    rcases h with h | h <;> cases h
  rw [if_neg hbo] at h ⊢
  cases hf : Re.first b.re none path with
  | none =>
    rw [hf] at h
    rcases h with h | h <;> cases h
  | some m =>
    rw [hf] at h
    simp only at h ⊢
    split at h
    · rcases h with h | h <;> cases h
    · rename_i hsl
      rw [if_neg hsl]
      cases hc : convert m 0 b.vars with
      | none =>
        rw [hc] at h
        rcases h with h | h <;> cases h
      | some vs0 =>
        rw [hc] at h
        simp only at h ⊢
        refine ⟨by simpa using hbo, ⟨vs0, convert_keys _ _ _ _ hc, ?_⟩, ?_⟩
        · split at h <;> rcases h with h | h <;> cases h <;> rfl
        · intro he hr
          split at he
          · cases he
          · rename_i hal
            cases hq : b.route.alias with
            | true => exact absurd ⟨hq, hr⟩ hal
            | false => rfl

theorem match_keys {cfg : Config} {b : Bound} {path : Str} {vs : Values}
    (h : b.match_ cfg path = .values vs ∨ b.match_ cfg path = .alias vs) (n : Str) : n ∈ Dict.keys vs ↔ n ∈ b.arguments := by
  obtain ⟨_, ⟨vs0, h1, rfl⟩, _⟩ := match_inv cfg b path vs h
  rw [keys_update, h1]
  unfold Bound.arguments
  rw [List.mem_append]
  exact or_comm

theorem default_first (cfg : Config) (a : Adapter) (b r : Bound) (vs : Values) (q : Str)
    (hk : ∀ n, n ∈ Dict.keys vs ↔ n ∈ b.arguments) (hcan : Canonical r b vs) (hrb : Preferred r b) :
    ∀ l : List Bound, l.Pairwise Preferred → b ∈ l → r ∈ l → (∀ c ∈ l, c.id = b.id → c = b) →
    (∀ c ∈ l, Canonical c b vs → c = r ∨ Preferred r c) →
    getDefaultRedirect cfg a b vs q l =
      match r.build (Routing.update vs r.route.defaults) true with
      | .error e => .error e
      | .ok none => .error .typeError
      | .ok (some (d, path)) => .ok (some (makeRedirectUrl cfg a path q (some d))) := by
  intro l
  induction l with
  | nil => intro _ h; cases h
  | cons c l ih =>
    intro hp hb hr hid hfirst
    rw [List.pairwise_cons] at hp
    rw [getDefaultRedirect]
    have hcb : ¬ c.id = b.id := by
      intro he
      have := hid c (.head _) he
      subst this
      rcases List.mem_cons.1 hr with rfl | hr
      · exact preferred_irrefl hrb
      · exact preferred_asymm hrb (hp.1 r hr)
    rw [if_neg hcb]
    by_cases hc : Canonical c b vs
    · have hcr : c = r := by
        rcases hfirst c (.head _) hc with h | h
        · exact h
        · rcases List.mem_cons.1 hr with h' | h'
          · exact h'.symm
          · exact (preferred_asymm h (hp.1 r h')).elim
      subst hcr
      rw [if_pos ((canonical_iff c b vs hk).2 hc)]
      rfl
    · rw [if_neg fun h => hc ((canonical_iff c b vs hk).1 h)]
      refine ih hp.2 ?_ ?_ (fun d hd => hid d (.tail _ hd)) (fun d hd => hfirst d (.tail _ hd))
      · rcases List.mem_cons.1 hb with h | h
        · exact absurd (by rw [h]) hcb
        · exact h
      · rcases List.mem_cons.1 hr with h | h
        · exact absurd (h ▸ hcan) hc
        · exact h

theorem default_none (cfg : Config) (a : Adapter) (b : Bound) (vs : Values) (q : Str)
    (hk : ∀ n, n ∈ Dict.keys vs ↔ n ∈ b.arguments) : ∀ l : List Bound, l.Pairwise Preferred → b ∈ l →
    (∀ c ∈ l, Preferred c b → ¬ Canonical c b vs) → getDefaultRedirect cfg a b vs q l = .ok none := by
  intro l
  induction l with
  | nil => intro _ h; cases h
  | cons c l ih =>
    intro hp hb hno
    rw [List.pairwise_cons] at hp
    rw [getDefaultRedirect]
    split
    · rfl
    · rename_i hid
      have hbl : b ∈ l := by
        rcases List.mem_cons.1 hb with h | h
        · exact absurd (by rw [h]) hid
        · exact h
      rw [if_neg fun h => hno c (.head _) (hp.1 b hbl) ((canonical_iff c b vs hk).1 h)]
      exact ih hp.2 hbl fun d hd => hno d (.tail _ hd)

theorem default_map (cfg : Config) (ops : List Op) (hs : settled (URLMap.new cfg) true ops = true) (a : Adapter) (b : Bound)
    (hb : Registered cfg ops b) (vs : Values) (q : Str) (hk : ∀ n, n ∈ Dict.keys vs ↔ n ∈ b.arguments)
    (hno : ∀ c, Registered cfg ops c → Preferred c b → ¬ Canonical c b vs) :
    getDefaultRedirect cfg a b vs q ((run (URLMap.new cfg) ops).update.byEndpoint b.route.endpoint) = .ok none :=
  default_none cfg a b vs q hk _ (endpoint_sorted cfg ops hs _) ((mem_endpoint cfg ops _ b).2 ⟨hb, rfl⟩)
    fun c hc => hno c ((mem_endpoint cfg ops _ c).1 hc).1

theorem run_cfg (cfg : Config) (ops : List Op) : (run (URLMap.new cfg) ops).update.cfg = cfg := by
  have : (run (URLMap.new cfg) ops).update.cfg = (run (URLMap.new cfg) ops).cfg := by
    unfold URLMap.update; split <;> rfl
  rw [this, (BindP.tried cfg ops).1]

/-- C108: a request is answered with the route it matches, where no other route stands for
this route with these arguments. -/
theorem C108_settled (cfg : Config) (ops : List Op) (hs : settled (URLMap.new cfg) true ops = true) (a : Adapter)
    (path query : Str) (b : Bound) (hbest : Best cfg ops (fullPath cfg a path) b) (hto : b.route.redirectTo = none)
    (vs : Values) (hm : b.match_ cfg (fullPath cfg a path) = .values vs)
    (hno : ∀ c, Registered cfg ops c → Preferred c b → ¬ Canonical c b vs) :
    match_ (run (URLMap.new cfg) ops) a path query = .ok (.found b vs) := by
  rw [match_best cfg ops hs a path query b hbest, hm, answer, run_cfg]
  have : (if cfg.redirectDefaults = true then getDefaultRedirect cfg a b vs query
      ((run (URLMap.new cfg) ops).update.byEndpoint b.route.endpoint) else .ok none) = .ok none := by
    split
    · exact default_map cfg ops hs a b hbest.1 vs query (match_keys (.inl hm)) hno
    · rfl
  rw [this]
  dsimp only
  rw [hto]

/-! ### where the redirects lead -/

/-- A route whose addresses can be read back: it is for matching, each variable fills a segment
and has an acceptable value, and the domain is a plain name. -/
structure Readable (dec : Char → Option Nat) (cfg : Config) (values : Values) (b : Bound) : Prop where
  matching : b.route.buildOnly = false
  name : ∀ c ∈ domainOf cfg b.route, c.isAlphanum = true ∨ c = '-' ∨ c = '.'
  segmented : Segmented b.path
  acceptable : Acceptable dec b values

theorem readback (dec : Char → Option Nat) (hdec : Decimal dec) (hsl : dec '/' = none) (cfg : Config) (hcfg : PureConfig cfg)
    (ops : List Op) (b : Bound) (hb : Registered cfg ops b) (values : Values) (hu : Readable dec cfg values b) :
    ∃ p path, b.build values false = .ok (some (domainOf cfg b.route, p)) ∧
      b.build values true = .ok (some (domainOf cfg b.route, p ++ queryOf b values)) ∧ Spelt p path ∧
      (path.getLast? ≠ some '\n' → ∃ out,
        b.match_ cfg (domainOf cfg b.route ++ s%"|" ++ path) =
          (if b.route.alias ∧ cfg.redirectDefaults then .alias out else .values out) ∧
        ∀ n, n ∉ Dict.keys b.route.defaults →
          Dict.get out n = if n ∈ b.vars.map (·.1) then Dict.get values n else none) := by
  have hd : ∀ c ∈ s%"<>|", c ∉ domainOf cfg b.route := by
    intro c hc hm
    exact (by decide +kernel : ∀ c ∈ s%"<>|", ¬ (c.isAlphanum = true ∨ c = '-' ∨ c = '.')) c hc (hu.name c hm)
  obtain ⟨r, hr1, hr2⟩ := id hb
  obtain ⟨_, _, hr, _⟩ := compile_inv cfg _ r b hr2
  obtain ⟨d, p, q, path, h1, h2, h3, h4, _, _, _, h5, h6⟩ := roundtrip cfg hcfg _ r b hr2 (hr ▸ hu.matching)
    (hr ▸ ⟨hd _ (by decide), hd _ (by decide), hd _ (by decide)⟩)
    hu.segmented (acceptable_text dec hsl b values hu.acceptable) values (acceptable_good dec hdec b values hu.acceptable)
  rw [← hr, quote_name hu.name] at h1
  subst h1 h2
  obtain ⟨t, ht⟩ := build_spelt dec b values hu.acceptable _ _ h3
  have htp : t = path := utf8_inj (ht.written.meaning.symm.trans h5)
  subst htp
  exact ⟨p, t, h3, h4, ht, by rw [hr]; exact h6⟩

theorem domain_path {cfg : Config} {a : Adapter} {dom path r : Str} (ha : Addressed cfg a dom) (hp : path = '/' :: r)
    (hr : r.head? ≠ some '/') : fullPath cfg a path = dom ++ s%"|" ++ path := by
  unfold fullPath
  rw [addressed_domain ha, hp]
  cases r with
  | nil => simp [lstripSlash]
  | cons x r =>
    have : x ≠ '/' := fun e => hr (by rw [e]; rfl)
    simp [lstripSlash, this]

/-- The machine of a domain: the domain itself with host matching, else a subdomain of the
server. -/
def machine (cfg : Config) (a : Adapter) (dom : Str) : Str :=
  if cfg.hostMatching then dom else if dom = [] then a.serverName else dom ++ '.' :: a.serverName

theorem getHost_machine (cfg : Config) (a : Adapter) (dom : Str) : getHost cfg a (some dom) = machine cfg a dom := by
  unfold getHost machine
  simp only [Option.getD_some]
  split
  · rfl
  · by_cases h : dom = [] <;> simp [h]

theorem lstrip_seg {x rest : Str} (hx : x ≠ []) (hs : '/' ∉ x) : lstripSlash ('/' :: x ++ rest) = x ++ rest := by
  cases x with
  | nil => exact absurd rfl hx
  | cons c x =>
    have : c ≠ '/' := fun e => hs (by rw [e]; exact .head _)
    simp [lstripSlash, this]

theorem lstrip_one {u : Str} (hu : u.head? ≠ some '/') : lstripSlash ('/' :: u) = u := by
  cases u with
  | nil => rfl
  | cons c u =>
    have : c ≠ '/' := fun e => hu (by rw [e]; rfl)
    simp [lstripSlash, this]

/-- The address of a redirect. -/
theorem redirect_place (cfg : Config) (a : Adapter) (segs : List Str) (hseg : ∀ s ∈ segs, Segment s)
    (ha : a.scriptName = dirText segs ++ s%"/") (hscheme : a.scheme ≠ []) (dom : Str) (hhost : machine cfg a dom ≠ [])
    (u q : Str) (hu : u.head? ≠ some '/') :
    makeRedirectUrl cfg a ('/' :: u) q (some dom) =
      a.scheme ++ s%"://" ++ machine cfg a dom ++ (if segs = [] ∧ u = [] then [] else dirText segs ++ '/' :: u) ++
        (if q = [] then [] else '?' :: q) := by
  unfold makeRedirectUrl
  rw [getHost_machine, lstrip_one hu, ha]
  have hj : Routing.joinPath (rstripSlash (lstripSlash (dirText segs ++ s%"/"))) u = (dirText segs ++ '/' :: u).drop 1 := by
    unfold Routing.joinPath
    rw [if_neg hu]
    cases segs with
    | nil => simp [dirText, lstripSlash, rstripSlash, rstripP]
    | cons x segs =>
      have hx := hseg x (.head _)
      have e : dirText (x :: segs) = '/' :: x ++ dirText segs := by simp [dirText]
      rw [e, List.append_assoc, lstrip_seg hx.1 hx.2.1]
      have hr : rstripSlash (x ++ (dirText segs ++ s%"/")) = x ++ dirText segs := by
        have h1 := rstrip_dir (x :: segs) (fun s hs => ⟨(hseg s hs).1, (hseg s hs).2.1⟩)
        rw [e] at h1
        have hlast : (x ++ dirText segs).getLast? ≠ some '/' := by
          intro hl
          have h2 : ('/' :: x ++ dirText segs).getLast? = some '/' := by
            rw [List.cons_append, List.getLast?_cons, hl]; rfl
          have := rstripP_last (· = '/') ('/' :: x ++ dirText segs)
          rw [h1] at this
          exact absurd (this '/' h2) (by decide)
        unfold rstripSlash
        rw [← List.append_assoc]
        unfold rstripP
        rw [List.reverse_append]
        simp only [List.reverse_cons, List.reverse_nil, List.nil_append, List.singleton_append]
        rw [List.dropWhile_cons_of_pos (by decide)]
        have h3 : (x ++ dirText segs).reverse.dropWhile (· == '/') = (x ++ dirText segs).reverse := by
          cases hrev : (x ++ dirText segs).reverse with
          | nil => rfl
          | cons y ys =>
            have : (x ++ dirText segs).getLast? = some y := by
              rw [← List.head?_reverse, hrev]; rfl
            rw [List.dropWhile_cons_of_neg]
            intro hy
            rw [this] at hlast
            exact hlast (by rw [show y = '/' by simpa using hy])
        rw [h3, List.reverse_reverse]
      have hlast' : ¬ (x ++ dirText segs = [] ∨ (x ++ dirText segs).getLast? = some '/') := by
        rintro (h | h)
        · exact hx.1 (List.append_eq_nil_iff.1 h).1
        · rw [← hr] at h
          have := rstripP_last (· == '/') (x ++ (dirText segs ++ s%"/"))
          exact absurd (this '/' h) (by decide)
      rw [hr, if_neg hlast']
      simp
  rw [hj]
  have hne : (dirText segs ++ '/' :: u).drop 1 = [] ↔ segs = [] ∧ u = [] := by
    cases segs with
    | nil => simp [dirText]
    | cons x segs =>
      have hx := (hseg x (.head _)).1
      simp [dirText]
  have hhead : ((dirText segs ++ '/' :: u).drop 1).head? ≠ some '/' := by
    cases segs with
    | nil => simpa [dirText] using hu
    | cons x segs =>
      obtain ⟨h1, h2, _⟩ := hseg x (.head _)
      cases x with
      | nil => exact absurd rfl h1
      | cons c x =>
        simp [dirText]
        intro e
        exact h2 (by rw [e]; exact .head _)
  have hcons : (dirText segs ++ '/' :: u) = '/' :: (dirText segs ++ '/' :: u).drop 1 := by
    cases segs with
    | nil => simp [dirText]
    | cons x segs => simp [dirText]
  unfold unparse
  by_cases h0 : segs = [] ∧ u = []
  · rw [if_pos h0, hne.2 h0]
    simp [hhost, hscheme]
    split <;> simp [*]
  · rw [if_neg h0]
    have h0' : (dirText segs ++ '/' :: u).drop 1 ≠ [] := fun h => h0 (hne.1 h)
    simp only [ne_eq, h0', hhead, not_false_eq_true, and_self, if_true, hhost, true_or, hscheme]
    rw [show s%"/" ++ (dirText segs ++ '/' :: u).drop 1 = dirText segs ++ '/' :: u from hcons.symm]
    by_cases hq : q = [] <;> simp [hq]

/-- The address of an alias. -/
theorem external_place (a : Adapter) (segs : List Str) (ha : a.scriptName = dirText segs ++ s%"/") (hscheme : a.scheme ≠ [])
    (host u q : Str) (hhost : host ≠ []) (hu : u.head? ≠ some '/') :
    (if q ≠ [] then unparse a.scheme host (Routing.joinPath a.scriptName (lstripSlash ('/' :: u))) [] ++ s%"?" ++ q
      else unparse a.scheme host (Routing.joinPath a.scriptName (lstripSlash ('/' :: u))) []) =
      a.scheme ++ s%"://" ++ host ++ (dirText segs ++ '/' :: u) ++ (if q = [] then [] else '?' :: q) := by
  have hj : Routing.joinPath a.scriptName (lstripSlash ('/' :: u)) = dirText segs ++ '/' :: u := by
    unfold Routing.joinPath
    rw [lstrip_one hu, if_neg hu, ha, if_pos (.inr (List.getLast?_concat))]
    simp
  have hh : (dirText segs ++ '/' :: u).head? = some '/' := by
    cases segs <;> simp [dirText]
  rw [hj]
  unfold unparse
  by_cases hq : q = [] <;> simp [hq, hh, hhost, hscheme]

theorem spelt_front {p path r : Str} (h : Spelt p path) (hr : path = '/' :: r) (hh : r.head? ≠ some '/') :
    ∃ u, p = '/' :: u ∧ Spelt u r ∧ u.head? ≠ some '/' := by
  rw [hr] at h
  obtain ⟨u, rfl, hut⟩ : ∃ u, p = '/' :: u ∧ Spelt u r := by
    cases h with
    | cons safe c hs h =>
      rw [show quoteText safe ['/'] = ['/'] from quoteText_slash (safe_slash hs) []]
      exact ⟨_, rfl, h⟩
  refine ⟨u, rfl, hut, fun h0 => ?_⟩
  cases u with
  | nil => cases h0
  | cons x u =>
    cases h0
    obtain ⟨t, rfl, _⟩ := hut.head
    exact hh rfl

/-- C108, default values: where the arguments of a request are the defaults of another route
of the end point, the answer is a redirect to the address of that route, with the query of the
request; a request for this address finds that route, with the same arguments. -/
theorem C108_default_partial (dec : Char → Option Nat) (hdec : Decimal dec) (hsl : dec '/' = none)
    (cfg : Config) (hcfg : PureConfig cfg) (hrd : cfg.redirectDefaults = true)
    (ops : List Op) (hs : settled (URLMap.new cfg) true ops = true)
    (a : Adapter) (segs : List Str) (hseg : ∀ s ∈ segs, Segment s) (ha : a.scriptName = dirText segs ++ s%"/")
    (hscheme : a.scheme ≠ []) (path query : Str) (b : Bound) (hbest : Best cfg ops (fullPath cfg a path) b)
    (vs : Values) (hm : b.match_ cfg (fullPath cfg a path) = .values vs)
    (r : Bound) (hr : Registered cfg ops r) (hrb : Preferred r b) (hcan : Canonical r b vs)
    (hfirst : ∀ c, Registered cfg ops c → Canonical c b vs → c = r ∨ Preferred r c)
    (hread : Readable dec cfg vs r) (hhost : machine cfg a (domainOf cfg r.route) ≠ []) (hto : r.route.redirectTo = none)
    (hrules : ∀ c, Registered cfg ops c → c.route.endpoint = b.route.endpoint → c ≠ b → c.trace.map tag ≠ b.trace.map tag) :
    ∃ p path', r.build vs false = .ok (some (domainOf cfg r.route, p)) ∧ Percent.meaning (utf8 p) = utf8 path' ∧
      ∀ rest, path' = '/' :: rest → rest.head? ≠ some '/' →
        match_ (run (URLMap.new cfg) ops) a path query = .ok (.redirect (a.scheme ++ s%"://" ++
          machine cfg a (domainOf cfg r.route) ++ (if segs = [] ∧ rest = [] then [] else dirText segs ++ p) ++
          (if query = [] then [] else '?' :: query))) ∧
        (rest.getLast? ≠ some '\n' → ∀ a', Addressed cfg a' (domainOf cfg r.route) → Best cfg ops (fullPath cfg a' path') r →
          ∀ query', ∃ out, match_ (run (URLMap.new cfg) ops) a' path' query' = .ok (.found r out) ∧
            ∀ n, Dict.get out n = Dict.get vs n) := by
  have hk := match_keys (.inl hm)
  have hval := update_same vs r.route.defaults vs hcan.values
  have hval' : ∀ n, Dict.get (update vs r.route.defaults) n = Dict.get vs n := by
    intro n; rw [hval n]; split <;> rfl
  have hread' : Readable dec cfg (update vs r.route.defaults) r := by
    refine ⟨hread.1, hread.2, hread.3, fun n c hn => ?_⟩
    obtain ⟨k, v, h1, h2, h3, h4, h5⟩ := hread.4 n c hn
    exact ⟨k, v, h1, h2, h3, by rw [hval', h4], h5⟩
  obtain ⟨p, path', h1, h2, h3, h4⟩ := readback dec hdec hsl cfg hcfg ops r hr _ hread'
  obtain ⟨p0, path0, g1, _, g3, _⟩ := readback dec hdec hsl cfg hcfg ops r hr _ hread
  have hparts : ∀ l, buildParts (update vs r.route.defaults) l = buildParts vs l := by
    intro l
    induction l with
    | nil => rfl
    | cons x l ih => cases x <;> simp only [buildParts, ih, hval']
  have hbuild : r.build (update vs r.route.defaults) false = r.build vs false := by
    unfold Bound.build
    rw [hparts]
    split <;> rfl
  rw [hbuild] at h1
  have hquery : queryOf r (update vs r.route.defaults) = [] := by
    unfold queryOf
    simp only
    rw [if_pos]
    apply List.filter_eq_nil_iff.2
    intro kv hkv
    have : kv.1 ∈ Dict.keys (update vs r.route.defaults) := List.mem_map.2 ⟨kv, hkv, rfl⟩
    rw [keys_update] at this
    have hmem : kv.1 ∈ r.arguments := by
      rcases this with h | h
      · exact (hcan.arguments _).2 ((hk _).1 h)
      · exact List.mem_append.2 (.inl h)
    simp [hmem]
  rw [hquery, List.append_nil] at h2
  refine ⟨p, path', h1, h3.written.meaning, ?_⟩
  intro rest hrest hhead
  obtain ⟨u, rfl, hut, huh⟩ := spelt_front h3 hrest hhead
  constructor
  · rw [match_best cfg ops hs a path query b hbest, hm, answer, run_cfg, if_pos hrd]
    rw [default_first cfg a b r vs query hk hcan hrb _ (endpoint_sorted cfg ops hs _) ((mem_endpoint cfg ops _ b).2 ⟨hbest.1, rfl⟩)
      ((mem_endpoint cfg ops _ r).2 ⟨hr, hcan.endpoint⟩)
      (fun c hc he => registered_id ((mem_endpoint cfg ops _ c).1 hc).1 hbest.1 he)
      (fun c hc => hfirst c ((mem_endpoint cfg ops _ c).1 hc).1), h2]
    simp only
    rw [redirect_place cfg a segs hseg ha hscheme _ hhost u query huh]
    have : (segs = [] ∧ u = []) ↔ (segs = [] ∧ rest = []) := by
      refine and_congr_right fun _ => ⟨fun e => ?_, fun e => ?_⟩
      · rw [e] at hut; exact hut.empty
      · rw [e] at hut; cases hut with | nil => rfl
    simp only [this]
  · intro hnl a' ha' hbest' query'
    have hfull := domain_path ha' hrest hhead
    obtain ⟨out, h5, h6⟩ := h4 (by
      rw [hrest]
      cases rest with
      | nil => simp
      | cons x rest => rw [List.getLast?_cons_cons]; exact hnl)
    have hbal := (match_inv cfg b _ vs (.inl hm)).2.2 hm hrd
    have hral : r.route.alias = false := by
      rcases hrb with ⟨h, _⟩ | ⟨h, _⟩
      · exact h
      · rw [h, hbal]
    rw [if_neg (by simp [hral]), ← hfull] at h5
    obtain ⟨_, ⟨vs0, k1, k2⟩, _⟩ := match_inv cfg r _ out (.inl h5)
    have hout : ∀ n, Dict.get out n = Dict.get vs n := by
      intro n
      by_cases hn : n ∈ Dict.keys r.route.defaults
      · rw [k2, update_same vs _ vs0 hcan.values, if_pos hn]
      · rw [h6 n hn, hval']
        split
        · rfl
        · rename_i hv
          symm
          rw [Dict.get_eq_none, hk, ← hcan.arguments]
          intro hmem
          rcases List.mem_append.1 hmem with h | h
          · exact hn h
          · exact hv h
    refine ⟨out, C108_settled cfg ops hs a' path' query' r hbest' hto out h5 ?_, hout⟩
    intro c hc hcr hcc
    have hne : c ≠ b := fun e => preferred_asymm hrb (e ▸ hcr)
    have hcb : Canonical c b vs :=
      ⟨hcc.matching, hcc.defaults, hcc.endpoint.trans hcan.endpoint, hrules c hc (hcc.endpoint.trans hcan.endpoint) hne,
        fun n => (hcc.arguments n).trans (hcan.arguments n), fun kv hkv => (hout kv.1).symm.trans (hcc.values kv hkv)⟩
    rcases hfirst c hc hcb with h | h
    · exact preferred_irrefl (h ▸ hcr)
    · exact preferred_asymm h hcr

/-- C108, aliases: a request for an alias is answered with a redirect to the address of the
preferred route of the end point which the arguments suit, with the query of the request; a
request for this address finds that route, unless it is an alias itself, with those of the
arguments that it has. -/
theorem C108_alias_partial (dec : Char → Option Nat) (hdec : Decimal dec) (hsl : dec '/' = none)
    (cfg : Config) (hcfg : PureConfig cfg) (ops : List Op) (hs : settled (URLMap.new cfg) true ops = true)
    (a : Adapter) (segs : List Str) (ha : a.scriptName = dirText segs ++ s%"/") (hscheme : a.scheme ≠ [])
    (path query : Str) (b : Bound) (hbest : Best cfg ops (fullPath cfg a path) b)
    (vs : Values) (hm : b.match_ cfg (fullPath cfg a path) = .alias vs)
    (r : Bound) (hr : Registered cfg ops r) (hre : r.route.endpoint = b.route.endpoint) (hsu : Suits r vs)
    (hfirst : ∀ c, Registered cfg ops c → c.route.endpoint = b.route.endpoint → Suits c vs → c = r ∨ Preferred r c)
    (hread : Readable dec cfg vs r) (hhost : machine cfg a (domainOf cfg r.route) ≠ [])
    (hdom : ¬ a.scheme ++ s%"://" <+: fullPath cfg a path) :
    ∃ p path', r.build vs false = .ok (some (domainOf cfg r.route, p)) ∧ Percent.meaning (utf8 p) = utf8 path' ∧
      ∀ rest, path' = '/' :: rest → rest.head? ≠ some '/' →
        match_ (run (URLMap.new cfg) ops) a path query = .ok (.redirect (a.scheme ++ s%"://" ++
          machine cfg a (domainOf cfg r.route) ++ (dirText segs ++ p) ++ (if query = [] then [] else '?' :: query))) ∧
        (r.route.alias = false → r.route.redirectTo = none → (∀ n ∈ r.arguments, n ∈ b.arguments) →
          rest.getLast? ≠ some '\n' → ∀ a', Addressed cfg a' (domainOf cfg r.route) → Best cfg ops (fullPath cfg a' path') r →
          ∀ query', ∃ out, match_ (run (URLMap.new cfg) ops) a' path' query' = .ok (.found r out) ∧
            ∀ n, Dict.get out n = if n ∈ r.arguments then Dict.get vs n else none) := by
  have hk := match_keys (.inr hm)
  obtain ⟨p, path', h1, h2, h3, h4⟩ := readback dec hdec hsl cfg hcfg ops r hr _ hread
  refine ⟨p, path', h1, h3.written.meaning, ?_⟩
  intro rest hrest hhead
  obtain ⟨u, rfl, hut, huh⟩ := spelt_front h3 hrest hhead
  constructor
  · rw [match_best cfg ops hs a path query b hbest, hm, answer]
    have hgo := buildGo_preferred vs false r _ ((suits_iff r vs).2 hsu) h1 _ (endpoint_sorted cfg ops hs b.route.endpoint)
      ((mem_endpoint cfg ops _ r).2 ⟨hr, hre⟩) (fun c hc hp hcs => by
        obtain ⟨g1, g2⟩ := (mem_endpoint cfg ops _ c).1 hc
        rcases hfirst c g1 g2 ((suits_iff c vs).1 hcs) with h | h
        · exact (preferred_irrefl (h ▸ hp)).elim
        · exact (preferred_asymm h hp).elim)
    have huu : (run (URLMap.new cfg) ops).update.update = (run (URLMap.new cfg) ops).update := by
      have : (run (URLMap.new cfg) ops).update.remap = false := by
        unfold URLMap.update
        split
        · rfl
        · rename_i h; simpa using h
      generalize (run (URLMap.new cfg) ops).update = m at this ⊢
      unfold URLMap.update
      rw [if_neg (by rw [this]; simp)]
    unfold makeAliasRedirectUrl build
    rw [huu, hgo]
    simp only [Bool.true_eq_false, false_and, if_false]
    rw [run_cfg, getHost_machine]
    rw [external_place a segs ha hscheme _ u query hhost huh, if_neg]
    intro he
    apply hdom
    rw [← he, List.append_assoc, List.append_assoc]
    exact List.prefix_append _ _
  · intro hal hto hsub hnl a' ha' hbest' query'
    have hfull := domain_path ha' hrest hhead
    obtain ⟨out, h5, h6⟩ := h4 (by
      rw [hrest]
      cases rest with
      | nil => simp
      | cons x rest => rw [List.getLast?_cons_cons]; exact hnl)
    rw [if_neg (by simp [hal]), ← hfull] at h5
    obtain ⟨_, ⟨vs0, k1, k2⟩, _⟩ := match_inv cfg r _ out (.inl h5)
    have hdef : ∀ kv ∈ r.route.defaults, Dict.get vs kv.1 = some kv.2 := by
      intro kv hkv
      have hmem := (hk kv.1).2 (hsub _ (defaults_arguments hkv))
      cases hg : Dict.get vs kv.1 with
      | none => exact absurd hmem (Dict.get_eq_none.1 hg)
      | some v => rw [hsu.2 kv hkv v hg]
    have hout : ∀ n, Dict.get out n = if n ∈ r.arguments then Dict.get vs n else none := by
      intro n
      unfold Bound.arguments
      by_cases hn : n ∈ Dict.keys r.route.defaults
      · rw [k2, update_same vs _ vs0 hdef, if_pos hn, if_pos (List.mem_append.2 (.inl hn))]
      · rw [h6 n hn]
        by_cases hv' : n ∈ r.vars.map (·.1)
        · rw [if_pos hv', if_pos (List.mem_append.2 (.inr hv'))]
        · rw [if_neg hv', if_neg]
          intro hmem
          rcases List.mem_append.1 hmem with h | h
          · exact hn h
          · exact hv' h
    refine ⟨out, C108_settled cfg ops hs a' path' query' r hbest' hto out h5 ?_, hout⟩
    intro c hc hcr hcc
    have hcs : Suits c vs := by
      refine ⟨fun n hn => .inr ((hk n).2 (hsub n ((hcc.arguments n).1 hn))), fun kv hkv v hg => ?_⟩
      have := hcc.values kv hkv
      rw [hout, if_pos ((hcc.arguments _).1 (defaults_arguments hkv)), hg] at this
      cases this
      rfl
    rcases hfirst c hc (hcc.endpoint.trans hre) hcs with h | h
    · exact preferred_irrefl (h ▸ hcr)
    · exact preferred_asymm h hcr

/-! ### redirects to a text -/

/-- A piece of the text of `redirect_to`. -/
inductive Bit where
  | text (s : Str)
  | name (n : Str)

/-- How it is written. -/
def Bit.source : Bit → Str
  | .text s => s
  | .name n => '<' :: n ++ s%">"

/-- The text with the names replaced by texts that are read as the values of the arguments. -/
inductive Filled (b : Bound) (vs : Values) : List Bit → Str → Prop
  | nil : Filled b vs [] []
  | text (s : Str) {bits : List Bit} {t : Str} : Filled b vs bits t → Filled b vs (.text s :: bits) (s ++ t)
  | name (n x : Str) (c : Converter) (v : Val) {bits : List Bit} {t : Str} : (n, c) ∈ b.vars → Dict.get vs n = some v →
      Re.Lang c.re x → c.toPython x = some v → Filled b vs bits t → Filled b vs (.name n :: bits) (x ++ t)

/-- The arguments have built-in converters and values of these. -/
def Held (dec : Char → Option Nat) (b : Bound) (vs : Values) : Prop :=
  ∀ n c, (n, c) ∈ b.vars → ∃ (k : Kind) (v : Val), c = k.conv dec ∧ k.Ok ∧ Dict.get vs n = some v ∧
    k.Plain v ∧ k.Valid v

/-- Characters that need no quotes in a URL. -/
def Unquoted (s : Str) : Prop := ∀ c ∈ s, quoteText b%"/:" [c] = [c]

/-- Text is plain, names are those of arguments. -/
def BitOk (b : Bound) : Bit → Prop
  | .text s => Unquoted s
  | .name n => n ∈ b.vars.map (·.1) ∧ n ≠ [] ∧ '>' ∉ n

theorem substitute_text (b : Bound) (vs : Values) (s rest : Str) (h : '<' ∉ s) (u : Str)
    (hr : substitute b vs none rest = .ok u) : substitute b vs none (s ++ rest) = .ok (s ++ u) := by
  induction s with
  | nil => exact hr
  | cons c s ih =>
    have hc : c ≠ '<' := fun e => h (by rw [e]; exact .head _)
    rw [List.cons_append, substitute, if_neg hc, ih fun hm => h (.tail _ hm)]
    rfl

theorem substitute_name (b : Bound) (vs : Values) (rest : Str) : ∀ (s acc : Str), '>' ∉ s →
    substitute b vs (some acc) (s ++ '>' :: rest) = substitute b vs (some (acc ++ s)) ('>' :: rest) := by
  intro s
  induction s with
  | nil => intro acc _; simp
  | cons c s ih =>
    intro acc h
    have hc : c ≠ '>' := fun e => h (by rw [e]; exact .head _)
    rw [List.cons_append, substitute, if_neg (fun h => hc h.1), if_neg hc, ih _ fun hm => h (.tail _ hm), List.append_assoc]
    rfl

theorem lookup_some {l : List (Str × Converter)} {n : Str} (h : n ∈ l.map (·.1)) : ∃ c, l.lookup n = some c ∧ (n, c) ∈ l := by
  cases hl : l.lookup n with
  | some c => exact ⟨c, rfl, lookup_mem l n c hl⟩
  | none =>
    exfalso
    induction l with
    | nil => cases h
    | cons x l ih =>
      obtain ⟨k, c⟩ := x
      rw [List.lookup_cons] at hl
      by_cases hk : n = k
      · subst hk; simp at hl
      · have : (n == k) = false := by simpa using hk
        rw [this] at hl
        rcases List.mem_cons.1 h with e | e
        · exact hk e
        · exact ih e hl

theorem substitute_bits (dec : Char → Option Nat) (hdec : Decimal dec) (b : Bound) (vs : Values) (hh : Held dec b vs) :
    ∀ bits : List Bit, (∀ x ∈ bits, BitOk b x) →
    ∃ u t, substitute b vs none (bits.flatMap Bit.source) = .ok u ∧ Spelt u t ∧ Filled b vs bits t ∧
      ∀ s rest, bits = .text s :: rest → ∃ u', u = s ++ u' := by
  intro bits
  induction bits with
  | nil => intro _; exact ⟨[], [], rfl, .nil, .nil, fun s rest h => by cases h⟩
  | cons x bits ih =>
    intro hok
    obtain ⟨u, t, h1, h2, h3, _⟩ := ih fun y hy => hok y (.tail _ hy)
    cases x with
    | text s =>
      have hs : Unquoted s := hok _ (.head _)
      refine ⟨s ++ u, s ++ t, ?_, (spelt_plain hs).append h2, .text s h3, ?_⟩
      · rw [List.flatMap_cons]
        refine substitute_text b vs s _ (fun hm => ?_) u h1
        exact absurd (hs _ hm) (by decide +kernel)
      · intro s' rest e
        cases e
        exact ⟨u, rfl⟩
    | name n =>
      have hb : BitOk b (.name n) := hok _ (.head _)
      obtain ⟨hn, hne, hgt⟩ := hb
      obtain ⟨c, hl, hmem⟩ := lookup_some hn
      obtain ⟨k, v, rfl, hk, hg, hp, hv⟩ := hh n c hmem
      obtain ⟨w, x, k1, k2, k3, k4⟩ := kind_roundtrip dec hdec k hk v hv hp
      obtain ⟨x', hx'⟩ := kind_spelt dec k v hp hv w k1
      have hxx : x' = x := utf8_inj (hx'.written.meaning.symm.trans k2.meaning)
      subst hxx
      refine ⟨w ++ u, x' ++ t, ?_, hx'.append h2, .name n x' _ v hmem hg k3 k4 h3, fun s rest e => by cases e⟩
      rw [List.flatMap_cons]
      show substitute b vs none ('<' :: n ++ s%">" ++ bits.flatMap Bit.source) = _
      rw [List.cons_append, List.cons_append, substitute, if_pos rfl, List.append_assoc]
      show substitute b vs (some []) (n ++ '>' :: bits.flatMap Bit.source) = _
      rw [substitute_name b vs _ n [] hgt, List.nil_append, substitute, if_pos ⟨rfl, hne⟩, hg, hl]
      simp only
      rw [k1]
      simp only
      rw [h1]

theorem Spelt_colon {u t : Str} (h : Spelt u t) (hc : ':' ∉ t) : ':' ∉ u := by
  induction h with
  | nil => simp
  | cons safe d hs _ ih =>
    intro hm
    rcases List.mem_append.1 hm with hm | hm
    · have : ':' ∉ [d] := fun h => hc (by rw [List.mem_singleton] at h; rw [h]; exact .head _)
      exact quoteText_no (safe_low hs) (by decide) (by decide) (.inr this) hm
    · exact ih (fun h => hc (.tail _ h)) hm

/-- The machine an adapter is bound to. -/
def ownMachine (a : Adapter) : Str := if a.subdomain = [] then a.serverName else a.subdomain ++ '.' :: a.serverName

theorem redirect_text (dec : Char → Option Nat) (hdec : Decimal dec) (cfg : Config) (ops : List Op)
    (hs : settled (URLMap.new cfg) true ops = true) (a : Adapter) (segs : List Str)
    (ha : a.scriptName = dirText segs ++ s%"/") (path query : Str) (b : Bound) (hbest : Best cfg ops (fullPath cfg a path) b)
    (vs : Values) (hm : b.match_ cfg (fullPath cfg a path) = .values vs)
    (hno : ∀ c, Registered cfg ops c → Preferred c b → ¬ Canonical c b vs) (hh : Held dec b vs)
    (bits : List Bit) (hbits : ∀ x ∈ bits, BitOk b x) (hto : b.route.redirectTo = some (.text (bits.flatMap Bit.source))) :
    ∃ u t, Spelt u t ∧ Filled b vs bits t ∧ (∀ s rest, bits = .text s :: rest → ∃ u', u = s ++ u') ∧
      match_ (run (URLMap.new cfg) ops) a path query =
        .ok (.redirect (cfg.urljoin (a.scheme ++ s%"://" ++ (ownMachine a ++ (dirText segs ++ s%"/"))) u)) := by
  obtain ⟨u, t, h1, h2, h3, h4⟩ := substitute_bits dec hdec b vs hh bits hbits
  refine ⟨u, t, h2, h3, h4, ?_⟩
  rw [match_best cfg ops hs a path query b hbest, hm, answer, run_cfg]
  have : (if cfg.redirectDefaults = true then getDefaultRedirect cfg a b vs query
      ((run (URLMap.new cfg) ops).update.byEndpoint b.route.endpoint) else .ok none) = .ok none := by
    split
    · exact default_map cfg ops hs a b hbest.1 vs query (match_keys (.inl hm)) hno
    · rfl
  rw [this]
  dsimp only
  rw [hto]
  simp only [redirectTarget, h1]
  have hbase : a.scheme ++ s%"://" ++ (if a.subdomain ≠ [] then a.subdomain ++ s%"." else []) ++ a.serverName ++ a.scriptName =
      a.scheme ++ s%"://" ++ (ownMachine a ++ (dirText segs ++ s%"/")) := by
    rw [ha]
    unfold ownMachine
    by_cases h : a.subdomain = [] <;> simp [h]
  rw [hbase]

/-- C108, `redirect_to` with a relative text: the answer is a redirect to the address below the
script which has the text with the arguments filled in, whatever the query; the arguments can be
read back from it. -/
theorem C108_to_partial (dec : Char → Option Nat) (hdec : Decimal dec) (cfg : Config)
    (lower : Str → Str) (hlow : lower s%"https" = s%"https") (hjoin : ∀ b u r, urljoin lower b u = .ok r → cfg.urljoin b u = r)
    (ops : List Op) (hs : settled (URLMap.new cfg) true ops = true) (a : Adapter) (segs : List Str)
    (hseg : ∀ s ∈ segs, Segment s) (ha : a.scriptName = dirText segs ++ s%"/")
    (hroot : Root a.scheme (ownMachine a) (dirText segs))
    (path query : Str) (b : Bound) (hbest : Best cfg ops (fullPath cfg a path) b)
    (vs : Values) (hm : b.match_ cfg (fullPath cfg a path) = .values vs)
    (hno : ∀ c, Registered cfg ops c → Preferred c b → ¬ Canonical c b vs) (hh : Held dec b vs)
    (bits : List Bit) (hbits : ∀ x ∈ bits, BitOk b x) (hto : b.route.redirectTo = some (.text (bits.flatMap Bit.source))) :
    ∃ u t, Filled b vs bits t ∧ Percent.meaning (utf8 u) = utf8 t ∧
      (Dotless t → Packed t → (':' ∉ t ∨ ∃ x y rest, bits = .text (x ++ '/' :: y) :: rest ∧ ':' ∉ x) →
        match_ (run (URLMap.new cfg) ops) a path query =
          .ok (.redirect (a.scheme ++ s%"://" ++ ownMachine a ++ dirText segs ++ '/' :: u))) := by
  obtain ⟨u, t, h1, h2, h3, h4⟩ := redirect_text dec hdec cfg ops hs a segs ha path query b hbest vs hm hno hh bits hbits hto
  refine ⟨u, t, h2, h1.written.meaning, fun hd hp hc => ?_⟩
  have hsch : Schemeless u := by
    rcases hc with hc | ⟨x, y, rest, hb, hx⟩
    · exact .inl (Spelt_colon h1 hc)
    · obtain ⟨u', hu'⟩ := h3 _ rest hb
      exact .inr ⟨x, y ++ u', by rw [hu']; simp, hx⟩
  have hj := urljoin_below lower hlow hseg hroot u none none ⟨h1.no (by decide), h1.no (by decide), by simp⟩
    (packed_head (h1.packed hp)) hsch (h1.no (by decide)) (h1.dotless hd) (h1.packed hp)
  have e : refText u none none = u := by simp [refText]
  rw [e] at hj
  rw [h4, hjoin _ _ _ hj]
  simp [optText]

/-- C108, `redirect_to` with a text from the root of the machine. -/
theorem C108_to_root_partial (dec : Char → Option Nat) (hdec : Decimal dec) (cfg : Config)
    (lower : Str → Str) (hlow : lower s%"https" = s%"https") (hjoin : ∀ b u r, urljoin lower b u = .ok r → cfg.urljoin b u = r)
    (ops : List Op) (hs : settled (URLMap.new cfg) true ops = true) (a : Adapter) (segs : List Str)
    (ha : a.scriptName = dirText segs ++ s%"/") (hroot : Root a.scheme (ownMachine a) (dirText segs))
    (path query : Str) (b : Bound) (hbest : Best cfg ops (fullPath cfg a path) b)
    (vs : Values) (hm : b.match_ cfg (fullPath cfg a path) = .values vs)
    (hno : ∀ c, Registered cfg ops c → Preferred c b → ¬ Canonical c b vs) (hh : Held dec b vs)
    (bits : List Bit) (hbits : ∀ x ∈ bits, BitOk b x) (hto : b.route.redirectTo = some (.text (bits.flatMap Bit.source))) :
    ∃ u t, Filled b vs bits t ∧ Percent.meaning (utf8 u) = utf8 t ∧
      (Dotless t → ∀ rest, t = '/' :: rest → rest.head? ≠ some '/' →
        match_ (run (URLMap.new cfg) ops) a path query = .ok (.redirect (a.scheme ++ s%"://" ++ ownMachine a ++ u))) := by
  obtain ⟨u, t, h1, h2, _, h4⟩ := redirect_text dec hdec cfg ops hs a segs ha path query b hbest vs hm hno hh bits hbits hto
  refine ⟨u, t, h2, h1.written.meaning, fun hd rest ht hr => ?_⟩
  obtain ⟨u, rfl, hut, huh⟩ := spelt_front h1 ht hr
  have h2s : ¬ s%"//" <+: '/' :: u := by
    rintro ⟨z, hz⟩
    simp at hz
    exact huh (by rw [← hz]; rfl)
  have hj := urljoin_path lower hlow hroot ('/' :: u) none none ⟨h1.no (by decide), h1.no (by decide), by simp⟩ rfl h2s
    (h1.no (by decide)) (h1.dotless hd)
  have e : refText ('/' :: u) none none = '/' :: u := by simp [refText]
  rw [e] at hj
  rw [h4, hjoin _ _ _ hj]
  simp [optText]

/-! ### Cases -/

theorem registered_mem (cfg : Config) (ops : List Op) (bs : List Bound) (h1 : registered cfg ops = bs.map (·.route))
    (h2 : ∀ b ∈ bs, compile cfg b.id b.route = .ok b) (h3 : bs.map (·.id) = List.range bs.length) (c : Bound)
    (hc : Registered cfg ops c) : c ∈ bs := by
  obtain ⟨r, hr1, hr2⟩ := hc
  rw [h1, List.getElem?_map] at hr1
  cases hb : bs[c.id]? with
  | none => rw [hb] at hr1; cases hr1
  | some b =>
    rw [hb] at hr1
    cases hr1
    have hid : b.id = c.id := by
      have := congrArg (fun l => l[c.id]?) h3
      simp only [List.getElem?_map, hb, Option.map_some] at this
      rw [List.getElem?_range (List.getElem?_eq_some_iff.1 hb).1] at this
      exact Option.some.inj this
    have := h2 b (List.mem_of_getElem? hb)
    rw [hid, hr2] at this
    rw [Except.ok.inj this]
    exact List.mem_of_getElem? hb

/-- A list of pages whose first page has an address of its own. -/
def firstPage : Route := { sampleRoute s%"/all/" s%"list" with defaults := [(s%"page", .int 1)] }

def anyPage : Route := sampleRoute s%"/all/page/<int:page>" s%"list"

/-- An old address of it. -/
def oldPage : Route := { sampleRoute s%"/old/<int:page>" s%"list" with alias := true }

def canonOps : List Op := [.add [firstPage, anyPage, oldPage]]

def firstBound : Bound := ⟨0, firstPage, true, [], [.text s%"/all"]⟩

def intC : Converter := intConv (fun c => if c.isDigit then some (c.toNat - 48) else none) 0 none none

def anyBound : Bound := ⟨1, anyPage, true, [], [.text s%"/all/page/", .var s%"page" intC]⟩

def oldBound : Bound := ⟨2, oldPage, true, [], [.text s%"/old/", .var s%"page" intC]⟩

def canonAdapter : Adapter := Adapter.mk' s%"example.org" s%"/app" [] s%"http"

/-- What a map answers, as the end point or the address. -/
def told (routes : List Route) (path query : Str) : Except PyErr (Str ⊕ Str) :=
  match match_ (run (URLMap.new urlCfg) [.add routes]) canonAdapter path query with
  | .error e => .error e
  | .ok (.found b _) => .ok (.inl b.route.rule)
  | .ok (.redirect u) => .ok (.inr u)

theorem canon_registered (c : Bound) (h : Registered urlCfg canonOps c) : c = firstBound ∨ c = anyBound ∨ c = oldBound := by
  have := registered_mem urlCfg canonOps [firstBound, anyBound, oldBound] rfl (by
    intro b hb
    simp only [List.mem_cons, List.not_mem_nil, or_false] at hb
    rcases hb with rfl | rfl | rfl <;> rfl) rfl c h
  simpa using this

set_option maxRecDepth 8000 in
set_option synthInstance.maxSize 1000 in
/-- The first page has one address: other ones are redirected to it. -/
example : told [firstPage, anyPage, oldPage] s%"/all/page/1" s%"q=2" = .ok (.inr s%"http://example.org/app/all/?q=2") ∧
    told [firstPage, anyPage, oldPage] s%"/all/" [] = .ok (.inl s%"/all/") ∧
    told [firstPage, anyPage, oldPage] s%"/all/page/2" [] = .ok (.inl s%"/all/page/<int:page>") ∧
    told [firstPage, anyPage, oldPage] s%"/old/2" s%"q=2" = .ok (.inr s%"http://example.org/app/all/page/2?q=2") ∧
    told [firstPage, anyPage, oldPage] s%"/old/1" [] = .ok (.inr s%"http://example.org/app/all/") ∧
    build (run (URLMap.new urlCfg) canonOps) canonAdapter s%"list" [(s%"page", .int 1)] false true = .ok s%"/app/all/" ∧
    build (run (URLMap.new urlCfg) canonOps) canonAdapter s%"list" [(s%"page", .int 3)] false true = .ok s%"/app/all/page/3" := by
  decide +kernel

theorem first_preferred : Preferred firstBound anyBound := .inr ⟨rfl, .inr ⟨by decide +kernel, .inl (by decide)⟩⟩

theorem any_preferred : Preferred anyBound oldBound := .inl ⟨rfl, rfl⟩

theorem any_best : Best urlCfg canonOps (fullPath urlCfg canonAdapter s%"/all/page/1") anyBound := by
  refine ⟨⟨anyPage, rfl, rfl⟩, ?_, ?_⟩
  · have : Bound.match_ urlCfg anyBound (fullPath urlCfg canonAdapter s%"/all/page/1") = .values [(s%"page", .int 1)] := rfl
    rw [this]; intro h; cases h
  · intro c hc hm hne
    rcases canon_registered c hc with rfl | rfl | rfl
    · exact absurd rfl hm
    · exact absurd rfl hne
    · exact absurd rfl hm

theorem first_canonical : Canonical firstBound anyBound [(s%"page", .int 1)] := by
  refine ⟨rfl, by simp [firstBound, firstPage], rfl, by decide +kernel, ?_, ?_⟩
  · intro n
    show n ∈ [s%"page"] ↔ n ∈ [s%"page"]
    rfl
  · intro kv hkv
    rw [List.mem_singleton.1 hkv]
    rfl

/-- The hypotheses of the statement on default values are met. -/
example : ∃ p path', firstBound.build [(s%"page", .int 1)] false = .ok (some ([], p)) ∧ Percent.meaning (utf8 p) = utf8 path' ∧
    ∀ rest, path' = '/' :: rest → rest.head? ≠ some '/' →
      match_ (run (URLMap.new urlCfg) canonOps) canonAdapter s%"/all/page/1" s%"q=2" =
        .ok (.redirect (s%"http://example.org" ++ (s%"/app" ++ p) ++ s%"?q=2")) := by
  obtain ⟨p, path', h1, h2, h3⟩ := C108_default_partial asciiDec asciiDec_ok rfl urlCfg url_pure rfl canonOps rfl canonAdapter [s%"app"]
    (by unfold Segment; decide +kernel) rfl (by decide) s%"/all/page/1" s%"q=2" anyBound any_best [(s%"page", .int 1)] rfl
    firstBound ⟨firstPage, rfl, rfl⟩ first_preferred first_canonical (by
      intro c hc hcan
      rcases canon_registered c hc with rfl | rfl | rfl
      · exact .inl rfl
      · exact absurd rfl hcan.defaults
      · exact absurd rfl hcan.defaults)
    ⟨rfl, (fun c h => by cases h), trivial, (fun n c h => by cases h)⟩ (by decide) rfl (by
      intro c hc _ hne
      rcases canon_registered c hc with rfl | rfl | rfl
      · decide +kernel
      · exact absurd rfl hne
      · decide +kernel)
  exact ⟨p, path', h1, h2, fun rest hr hh => (h3 rest hr hh).1⟩

theorem old_best : Best urlCfg canonOps (fullPath urlCfg canonAdapter s%"/old/2") oldBound := by
  refine ⟨⟨oldPage, rfl, rfl⟩, ?_, ?_⟩
  · have : Bound.match_ urlCfg oldBound (fullPath urlCfg canonAdapter s%"/old/2") = .alias [(s%"page", .int 2)] := rfl
    rw [this]; intro h; cases h
  · intro c hc hm hne
    rcases canon_registered c hc with rfl | rfl | rfl
    · exact absurd rfl hm
    · exact absurd rfl hm
    · exact absurd rfl hne

theorem page_suits : Suits anyBound [(s%"page", .int 2)] := (suits_iff _ _).1 rfl

/-- The hypotheses of the statement on aliases are met. -/
example : ∃ p path', anyBound.build [(s%"page", .int 2)] false = .ok (some ([], p)) ∧ Percent.meaning (utf8 p) = utf8 path' ∧
    ∀ rest, path' = '/' :: rest → rest.head? ≠ some '/' →
      match_ (run (URLMap.new urlCfg) canonOps) canonAdapter s%"/old/2" s%"q=2" =
        .ok (.redirect (s%"http://example.org" ++ (s%"/app" ++ p) ++ s%"?q=2")) := by
  obtain ⟨p, path', h1, h2, h3⟩ := C108_alias_partial asciiDec asciiDec_ok rfl urlCfg url_pure canonOps rfl canonAdapter [s%"app"]
    rfl (by decide) s%"/old/2" s%"q=2" oldBound old_best [(s%"page", .int 2)] rfl
    anyBound ⟨anyPage, rfl, rfl⟩ rfl page_suits (by
      intro c hc _ hsu
      rcases canon_registered c hc with rfl | rfl | rfl
      · exact absurd ((suits_iff _ _).2 hsu) (by decide)
      · exact .inl rfl
      · exact .inr any_preferred)
    ⟨rfl, (fun c h => by cases h), trivial, (by
      intro n c h
      rcases List.mem_cons.1 h with h | h
      · cases h
        exact ⟨.int 0 none none, .int 2, rfl, trivial, trivial, rfl, trivial, (by decide : (0 : Int) ≤ 2), (by simp), (by simp), by simp⟩
      · cases h)⟩ (by decide) (by decide)
  exact ⟨p, path', h1, h2, fun rest hr hh => (h3 rest hr hh).1⟩

/-- The preferred route gives the address. -/
example : build (run (URLMap.new urlCfg) canonOps) canonAdapter s%"list" [(s%"page", .int 2)] false true =
    build (run (URLMap.new urlCfg) [.add [anyPage]]) canonAdapter s%"list" [(s%"page", .int 2)] false true := by
  refine C108_chosen urlCfg canonOps rfl canonAdapter s%"list" _ false true anyBound ⟨anyPage, rfl, rfl⟩ rfl page_suits
    ⟨_, rfl⟩ ?_
  intro c hc _ hp hsu
  rcases canon_registered c hc with rfl | rfl | rfl
  · exact absurd ((suits_iff _ _).2 hsu) (by decide)
  · exact (preferred_irrefl hp).elim
  · exact (preferred_asymm hp any_preferred).elim

example : build (run (URLMap.new urlCfg) canonOps) canonAdapter s%"list" [(s%"other", .int 2), (s%"page", .str s%"x")] false true ≠
      .error .buildError ∧
    build (run (URLMap.new urlCfg) [.add [anyPage]]) canonAdapter s%"list" [(s%"other", .int 2)] false true = .error .buildError := by
  refine ⟨by decide +kernel, ?_⟩
  refine C108_unbuildable urlCfg _ canonAdapter s%"list" _ false true ?_
  intro c hc _ hsu
  have := registered_mem urlCfg [.add [anyPage]] [{ anyBound with id := 0 }] rfl (by
    intro b hb
    rw [List.mem_singleton.1 hb]; rfl) rfl c hc
  rw [List.mem_singleton.1 this] at hsu
  exact absurd ((suits_iff _ _).2 hsu) (by decide)

/-- A page that is found as it is. -/
example : match_ (run (URLMap.new urlCfg) canonOps) canonAdapter s%"/all/" [] = .ok (.found firstBound [(s%"page", .int 1)]) := by
  refine C108_settled urlCfg canonOps rfl canonAdapter s%"/all/" [] firstBound ⟨⟨firstPage, rfl, rfl⟩, ?_, ?_⟩ rfl _ rfl ?_
  · have : Bound.match_ urlCfg firstBound (fullPath urlCfg canonAdapter s%"/all/") = .values [(s%"page", .int 1)] := rfl
    rw [this]; intro h; cases h
  · intro c hc hm hne
    rcases canon_registered c hc with rfl | rfl | rfl
    · exact absurd rfl hne
    · exact absurd rfl hm
    · exact absurd rfl hm
  · intro c hc hp hcan
    rcases canon_registered c hc with rfl | rfl | rfl
    · exact preferred_irrefl hp
    · exact hcan.defaults rfl
    · exact hcan.defaults rfl

/-- Addresses that moved. -/
def movedRoute (to : Str) : Route := { sampleRoute s%"/go/<path:p>" s%"go" with redirectTo := some (.text to) }

def movedBound (to : Str) : Bound := ⟨0, movedRoute to, true, [], [.text s%"/go/", .var s%"p" pathConv]⟩

def movedOps (to : Str) : List Op := [.add [movedRoute to]]

theorem moved_registered (to : Str) (c : Bound) (h : Registered urlCfg (movedOps to) c) : c = movedBound to := by
  have := registered_mem urlCfg (movedOps to) [movedBound to] rfl (by
    intro b hb
    rw [List.mem_singleton.1 hb]; rfl) rfl c h
  exact List.mem_singleton.1 this

theorem moved_best (to : Str) : Best urlCfg (movedOps to) (fullPath urlCfg canonAdapter s%"/go/a b") (movedBound to) := by
  refine ⟨⟨movedRoute to, rfl, rfl⟩, ?_, fun c hc _ hne => absurd (moved_registered to c hc) hne⟩
  have : Bound.match_ urlCfg (movedBound to) (fullPath urlCfg canonAdapter s%"/go/a b") = .values [(s%"p", .str s%"a b")] := rfl
  rw [this]; intro h; cases h

theorem moved_held (to : Str) : Held asciiDec (movedBound to) [(s%"p", .str s%"a b")] := by
  intro n c h
  rcases List.mem_cons.1 h with h | h
  · cases h
    exact ⟨.path, .str s%"a b", rfl, trivial, rfl, trivial, (by decide), (by decide), (by decide)⟩
  · cases h

theorem canon_root : Root s%"http" s%"example.org" (dirText [s%"app"]) where
  web := .inl rfl
  nonempty := by decide
  plain := by decide
  brackets := by decide
  slash := .inr rfl
  noQuery := by decide
  noFragment := by decide

theorem moved_alone (to : Str) (vs : Values) (c : Bound) (h : Registered urlCfg (movedOps to) c) (hp : Preferred c (movedBound to)) :
    ¬ Canonical c (movedBound to) vs := by
  rw [moved_registered to c h] at hp
  exact (preferred_irrefl hp).elim

/-- The hypotheses of the statements on `redirect_to` are met. -/
example : ∃ u t, Filled (movedBound s%"new/<p>") [(s%"p", .str s%"a b")] [.text s%"new/", .name s%"p"] t ∧
    Percent.meaning (utf8 u) = utf8 t ∧ (Dotless t → Packed t →
      match_ (run (URLMap.new urlCfg) (movedOps s%"new/<p>")) canonAdapter s%"/go/a b" s%"q=1" =
        .ok (.redirect (s%"http" ++ s%"://" ++ s%"example.org" ++ dirText [s%"app"] ++ '/' :: u))) := by
  obtain ⟨u, t, h1, h2, h3⟩ := C108_to_partial asciiDec asciiDec_ok urlCfg asciiLower (by decide) url_join (movedOps s%"new/<p>") rfl
    canonAdapter [s%"app"] (by unfold Segment; decide +kernel) rfl canon_root s%"/go/a b" s%"q=1" _ (moved_best _)
    [(s%"p", .str s%"a b")] rfl (moved_alone _ _) (moved_held _) [.text s%"new/", .name s%"p"] (by
      intro x hx
      simp only [List.mem_cons, List.not_mem_nil, or_false] at hx
      rcases hx with rfl | rfl
      · show Unquoted s%"new/"
        unfold Unquoted; decide +kernel
      · exact ⟨by simp [movedBound, Bound.vars, vars], by decide, by decide⟩) rfl
  exact ⟨u, t, h1, h2, fun h4 h5 => h3 h4 h5 (.inr ⟨s%"new", [], _, rfl, by decide⟩)⟩

example : ∃ u t, Filled (movedBound s%"/new/<p>") [(s%"p", .str s%"a b")] [.text s%"/new/", .name s%"p"] t ∧
    Percent.meaning (utf8 u) = utf8 t ∧ (Dotless t → ∀ rest, t = '/' :: rest → rest.head? ≠ some '/' →
      match_ (run (URLMap.new urlCfg) (movedOps s%"/new/<p>")) canonAdapter s%"/go/a b" s%"q=1" =
        .ok (.redirect (s%"http" ++ s%"://" ++ s%"example.org" ++ u))) := by
  exact C108_to_root_partial asciiDec asciiDec_ok urlCfg asciiLower (by decide) url_join (movedOps s%"/new/<p>") rfl
    canonAdapter [s%"app"] rfl canon_root s%"/go/a b" s%"q=1" _ (moved_best _)
    [(s%"p", .str s%"a b")] rfl (moved_alone _ _) (moved_held _) [.text s%"/new/", .name s%"p"] (by
      intro x hx
      simp only [List.mem_cons, List.not_mem_nil, or_false] at hx
      rcases hx with rfl | rfl
      · show Unquoted s%"/new/"
        unfold Unquoted; decide +kernel
      · exact ⟨by simp [movedBound, Bound.vars, vars], by decide, by decide⟩) rfl

set_option maxRecDepth 8000 in
set_option synthInstance.maxSize 1000 in
example : told [movedRoute s%"new/<p>"] s%"/go/a b" s%"q=1" = .ok (.inr s%"http://example.org/app/new/a%20b") ∧
    told [movedRoute s%"/new/<p>"] s%"/go/a b" s%"q=1" = .ok (.inr s%"http://example.org/new/a%20b") := by
  decide +kernel

/-- As stated C108 is false: redirects to defaults need not come to an end, where two routes
have the same rule. -/
def loopRoutes : List Route :=
  [{ sampleRoute s%"/a/<int:n>" s%"e" with defaults := [(s%"m", .int 1)] },
   { sampleRoute s%"/a/<int:n>" s%"e" with defaults := [(s%"m", .int 1), (s%"n", .int 2)] },
   { sampleRoute s%"/b" s%"e" with defaults := [(s%"n", .int 2), (s%"m", .int 1)] }]

set_option maxRecDepth 8000 in
set_option synthInstance.maxSize 1000 in
theorem C108_loop_false : told loopRoutes s%"/a/2" [] = .ok (.inr s%"http://example.org/app/b") ∧
    told loopRoutes s%"/b" [] = .ok (.inr s%"http://example.org/app/a/2") := by
  decide +kernel

set_option maxRecDepth 8000 in
set_option synthInstance.maxSize 1000 in
/-- An alias of an end point without another route is redirected to itself, and the assertion
against it does not fail. -/
theorem C108_alias_false : told [{ sampleRoute s%"/old" s%"e" with alias := true }] s%"/old" [] =
    .ok (.inr s%"http://example.org/app/old") := by
  decide +kernel

set_option maxRecDepth 8000 in
set_option synthInstance.maxSize 1000 in
/-- The values of a route need not be values of the other: the request fails. -/
theorem C108_convert_false :
    told [{ sampleRoute s%"/x/<int:n>" s%"e" with defaults := [(s%"m", .int 1)] }, sampleRoute s%"/y/<n>/<int:m>" s%"e"] s%"/y/abc/1" [] =
      .error .valueError ∧
    told [{ sampleRoute s%"/x/<int:n>" s%"e" with defaults := [(s%"m", .int 1)] }, sampleRoute s%"/y/<n>/<int:m>" s%"e"] s%"/y/abc/2" [] =
      .ok (.inl s%"/y/<n>/<int:m>") := by
  decide +kernel

set_option maxRecDepth 8000 in
set_option synthInstance.maxSize 1000 in
/-- A path as the target of a redirect can be the address of another machine, and one with dots
leaves the application. -/
theorem C108_open_false : told [movedRoute s%"<p>"] s%"/go/http://evil.org/x" [] = .ok (.inr s%"http://evil.org/x") ∧
    told [movedRoute s%"new/<p>"] s%"/go/../../secret" [] = .ok (.inr s%"http://example.org/secret") := by
  decide +kernel

/-- Two addresses with the same defaults, and one with a number. -/
def shortRoute : Route := { sampleRoute s%"/a" s%"e" with defaults := [(s%"n", .int 1)] }

def longRoute : Route := { sampleRoute s%"/b/c" s%"e" with defaults := [(s%"n", .int 1)] }

def numberRoute : Route := sampleRoute s%"/<int:n>" s%"e"

/-- Routes of distinct specificity. -/
theorem rival_distinct (b c : Bound) (hb : Registered urlCfg [.add [shortRoute, longRoute, numberRoute]] b)
    (hc : Registered urlCfg [.add [shortRoute, longRoute, numberRoute]] c) (h : shape b = shape c) : b = c := by
  have key := registered_mem urlCfg [.add [shortRoute, longRoute, numberRoute]]
    [⟨0, shortRoute, true, [], [.text s%"/a"]⟩, ⟨1, longRoute, true, [], [.text s%"/b/c"]⟩,
      ⟨2, numberRoute, true, [], [.text s%"/", .var s%"n" intC]⟩] rfl (by
    intro b hb
    simp only [List.mem_cons, List.not_mem_nil, or_false] at hb
    rcases hb with rfl | rfl | rfl <;> rfl) rfl
  have h1 := key b hb
  have h2 := key c hc
  simp only [List.mem_cons, List.not_mem_nil, or_false] at h1 h2
  rcases h1 with rfl | rfl | rfl <;> rcases h2 with rfl | rfl | rfl <;>
    first | rfl | exact absurd (congrArg Shape.parts h) (by decide)

set_option maxRecDepth 8000 in
set_option synthInstance.maxSize 1000 in
/-- **C46, independence of the order of registration, fails** with default values: which of two routes
with the same defaults a request is redirected to depends on which was added first, though their
specificity is different. -/
theorem C46_independent_false : ¬ ∀ (cfg : Config) (ops ops' : List Op),
    settled (URLMap.new cfg) true ops = true → settled (URLMap.new cfg) true ops' = true →
    (registered cfg ops).Perm (registered cfg ops') →
    (∀ b c, Registered cfg ops b → Registered cfg ops c → shape b = shape c → b = c) →
    ∀ (a : Adapter) (pathInfo query : Str), view (match_ (run (URLMap.new cfg) ops) a pathInfo query) =
      view (match_ (run (URLMap.new cfg) ops') a pathInfo query) := by
  intro h
  have h1 := h urlCfg [.add [shortRoute, longRoute, numberRoute]] [.add [longRoute, shortRoute, numberRoute]] rfl rfl
    (List.Perm.swap _ _ _) rival_distinct canonAdapter s%"/1" []
  have h2 : told [shortRoute, longRoute, numberRoute] s%"/1" [] = .ok (.inr s%"http://example.org/app/a") ∧
      told [longRoute, shortRoute, numberRoute] s%"/1" [] = .ok (.inr s%"http://example.org/app/b/c") := by decide +kernel
  unfold told at h2
  obtain ⟨h3, h4⟩ := h2
  generalize match_ (run (URLMap.new urlCfg) [.add [shortRoute, longRoute, numberRoute]]) canonAdapter s%"/1" [] = x at h1 h3
  generalize match_ (run (URLMap.new urlCfg) [.add [longRoute, shortRoute, numberRoute]]) canonAdapter s%"/1" [] = y at h1 h4
  rcases x with e | (⟨b, v⟩ | u)
  · cases h3
  · cases h3
  · rcases y with e | (⟨b, v⟩ | u')
    · cases h4
    · cases h4
    · simp only [view] at h1
      simp only at h3 h4
      have h5 := Sum.inr.inj (Except.ok.inj h1)
      rw [Sum.inr.inj (Except.ok.inj h3), Sum.inr.inj (Except.ok.inj h4)] at h5
      revert h5; decide

end Verif.Props.CanonP
