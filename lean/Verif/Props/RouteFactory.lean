import Verif.Model.RouteFactory
import Verif.Props.RoutingBuild
/-!
C101: factories of routes (`/repo/verktyg/routing.py`).
-/
namespace Verif.Props.FactoryP
open Verif Verif.Routing Verif.Props.RoutingP

/-! ### what a nest of factories stands for -/

/-- Two lists of the same length, related item by item. -/
inductive Along {α β} (R : α → β → Prop) : List α → List β → Prop where
  | nil : Along R [] []
  | cons {a b as bs} : R a b → Along R as bs → Along R (a :: as) (b :: bs)

/-- Where a route stands: the paths, the prefixes of the end point and the subdomain of the
factories around it. -/
structure Place where
  path : Str := []
  endpoint : Str := []
  subdomain : Option Str := none

/-- A route at a place: paths and prefixes are put in front, and a subdomain given by a factory
wins over the one of the route. -/
def Place.put (c : Place) (r : Route) : Route :=
  { r with rule := c.path ++ r.rule, endpoint := c.endpoint ++ r.endpoint, subdomain := c.subdomain.or r.subdomain }

/-- A piece of a text with placeholders: plain text, or a name to be replaced. -/
inductive Slot where
  | text (s : Str)
  | name (n : Str)

/-- How a piece is written: braces in plain text are doubled, a name stands in braces. -/
def Slot.written : Slot → Str
  | .text s => s.flatMap fun c => if c = '{' ∨ c = '}' then [c, c] else [c]
  | .name n => '{' :: n ++ s%"}"

/-- What a piece stands for. -/
def Slot.filled (ctx : List (Str × Str)) : Slot → Str
  | .text s => s
  | .name n => (Dict.get ctx n).getD []

/-- A name that can be given as a keyword argument, and is given. -/
def Slot.Known (ctx : List (Str × Str)) : Slot → Prop
  | .text _ => True
  | .name n => (∀ c ∈ n, c ∉ s%".[!:{}") ∧ (∃ c ∈ n, ¬ (48 ≤ c.toNat ∧ c.toNat ≤ 57)) ∧ (Dict.get ctx n).isSome

/-- `t` is `s` with its placeholders replaced. -/
def Fills (ctx : List (Str × Str)) (s t : Str) : Prop :=
  ∃ l : List Slot, (∀ x ∈ l, x.Known ctx) ∧ s = l.flatMap Slot.written ∧ t = l.flatMap (Slot.filled ctx)

/-- A default value with its placeholders replaced. -/
def FillsVal (ctx : List (Str × Str)) : Val → Val → Prop
  | .str s, .str t => Fills ctx s t
  | v, w => v = w

/-- A subdomain with its placeholders replaced. -/
def FillsOpt (ctx : List (Str × Str)) : Option Str → Option Str → Prop
  | some s, some t => Fills ctx s t
  | a, b => a = none ∧ b = none

/-- What a template makes of a route. -/
structure FillsRoute (ctx : List (Str × Str)) (r r' : Route) : Prop where
  rule : Fills ctx r.rule r'.rule
  endpoint : Fills ctx r.endpoint r'.endpoint
  subdomain : FillsOpt ctx r.subdomain r'.subdomain
  defaults : Along (fun a b => a.1 = b.1 ∧ FillsVal ctx a.2 b.2) r.defaults r'.defaults
  same : r'.buildOnly = r.buildOnly ∧ r'.strictSlashes = r.strictSlashes
  dropped : r'.redirectTo = none ∧ r'.alias = false ∧ r'.host = none
  rooted : r'.rule.head? = some '/'

mutual
/-- The routes of a factory that stands at a place, read from the outside in. -/
def Leaves (objs : Nat → Obj) : Place → Factory → List Route → Prop
  | c, .route i, rs => rs = [c.put (objs i).route]
  | c, .subdomain s fs, rs => LeavesL objs { c with subdomain := c.subdomain.or (some s) } fs rs
  | c, .submount p fs, rs => ∃ q n, p = q ++ List.replicate n '/' ∧ q.getLast? ≠ some '/' ∧
      LeavesL objs { c with path := c.path ++ q } fs rs
  | c, .endpointPrefix e fs, rs => LeavesL objs { c with endpoint := c.endpoint ++ e } fs rs
  | c, .template ctx fs, rs => ∃ inner filled, LeavesL objs {} fs inner ∧
      Along (FillsRoute ctx) inner filled ∧ rs = filled.map c.put
/-- The routes of several factories, one after the other. -/
def LeavesL (objs : Nat → Obj) : Place → List Factory → List Route → Prop
  | _, [], rs => rs = []
  | c, f :: fs, rs => ∃ a b, rs = a ++ b ∧ Leaves objs c f a ∧ LeavesL objs c fs b
end

mutual
/-- Every rule starts with a slash, and so does every path of a `Submount` that is not only
slashes. -/
def Rooted (objs : Nat → Obj) : Factory → Prop
  | .route i => (objs i).route.rule.head? = some '/'
  | .subdomain _ fs => RootedL objs fs
  | .submount p fs => p.head?.getD '/' = '/' ∧ RootedL objs fs
  | .endpointPrefix _ fs => RootedL objs fs
  | .template _ fs => RootedL objs fs
def RootedL (objs : Nat → Obj) : List Factory → Prop
  | [] => True
  | f :: fs => Rooted objs f ∧ RootedL objs fs
end

/-! ### filling templates -/

theorem format_text (ctx : List (Str × Str)) (s rest : Str) :
    formatGo ctx none ((Slot.text s).written ++ rest) = (formatGo ctx none rest).map (s ++ ·) := by
  induction s with
  | nil => cases h : formatGo ctx none rest <;> simp [Slot.written, h, Except.map]
  | cons c cs ih =>
    have hw : (Slot.text (c :: cs)).written = (if c = '{' ∨ c = '}' then [c, c] else [c]) ++ (Slot.text cs).written := rfl
    rw [hw]
    by_cases h1 : c = '{'
    · subst h1
      simp only [true_or, if_true, List.cons_append, List.nil_append, formatGo]
      rw [ih]
      cases formatGo ctx none rest <;> rfl
    · by_cases h2 : c = '}'
      · subst h2
        simp only [or_true, if_true, List.cons_append, List.nil_append, formatGo]
        rw [ih]
        cases formatGo ctx none rest <;> rfl
      · rw [if_neg (by simp [h1, h2])]
        simp only [List.cons_append, List.nil_append]
        rw [formatGo]
        · rw [if_neg h1, if_neg h2, ih]
          cases formatGo ctx none rest <;> rfl
        · intro s' he _; exact absurd he h1
        · intro s' he _; exact absurd he h2

theorem format_field (ctx : List (Str × Str)) (n rest : Str) (hn : '}' ∉ n) : ∀ acc,
    formatGo ctx (some acc) (n ++ '}' :: rest) =
      match fieldText ctx (acc ++ n) with
      | .error e => .error e
      | .ok v => (formatGo ctx none rest).map (v ++ ·) := by
  induction n with
  | nil => intro acc; rw [List.append_nil]; simp only [List.nil_append, formatGo, if_true]; cases fieldText ctx acc <;> rfl
  | cons c cs ih =>
    intro acc
    have hc : c ≠ '}' := fun h => hn (h ▸ List.mem_cons_self)
    rw [List.cons_append, formatGo, if_neg hc, ih (fun h => hn (.tail _ h))]
    simp

theorem format_name (ctx : List (Str × Str)) (n rest : Str) (hk : (Slot.name n).Known ctx) :
    formatGo ctx none ((Slot.name n).written ++ rest) =
      (formatGo ctx none rest).map ((Slot.name n).filled ctx ++ ·) := by
  obtain ⟨h1, ⟨d, hd, hd'⟩, h3⟩ := hk
  have hw : (Slot.name n).written ++ rest = '{' :: (n ++ '}' :: rest) := by simp [Slot.written]
  have hnb : '}' ∉ n := fun h => h1 _ h (by decide)
  have hne : n ≠ [] := by rintro rfl; cases hd
  have h0 : formatGo ctx none ('{' :: (n ++ '}' :: rest)) = formatGo ctx (some []) (n ++ '}' :: rest) := by
    rw [formatGo]
    · rfl
    · intro s' _ he
      cases n with
      | nil => exact absurd rfl hne
      | cons c cs =>
        simp only [List.cons_append, List.cons.injEq] at he
        exact h1 c List.mem_cons_self (by rw [he.1]; decide)
    · intro s' he
      exact absurd he (by decide)
  rw [hw, h0, format_field ctx n rest hnb, List.nil_append]
  have hp : plainField n = true := by
    unfold plainField
    rw [List.all_eq_true]
    intro c hc
    have := h1 c hc
    simp only [List.mem_cons, List.not_mem_nil, or_false, not_or] at this
    simp [this]
  have hdig : (n.all fun c => decide (48 ≤ c.toNat) && decide (c.toNat ≤ 57)) = false := by
    rw [Bool.eq_false_iff]
    intro h
    rw [List.all_eq_true] at h
    have := h d hd
    simp only [Bool.and_eq_true, decide_eq_true_eq] at this
    exact hd' this
  cases hg : Dict.get ctx n with
  | none => rw [hg] at h3; cases h3
  | some v =>
    have : fieldText ctx n = .ok v := by
      unfold fieldText
      rw [if_neg (by rw [hp]; decide), hdig, hg]
      rfl
    rw [this]
    simp [Slot.filled, hg]

theorem format_slots (ctx : List (Str × Str)) (l : List Slot) (hk : ∀ x ∈ l, x.Known ctx) :
    format ctx (l.flatMap Slot.written) = .ok (l.flatMap (Slot.filled ctx)) := by
  unfold format
  induction l with
  | nil => rfl
  | cons x xs ih =>
    have hx := ih fun y hy => hk y (.tail _ hy)
    rw [List.flatMap_cons]
    cases x with
    | text s => rw [format_text, hx]; rfl
    | name n => rw [format_name _ _ _ (hk _ List.mem_cons_self), hx]; rfl

theorem format_fills (ctx : List (Str × Str)) (s t : Str) (h : Fills ctx s t) : format ctx s = .ok t := by
  obtain ⟨l, hk, rfl, rfl⟩ := h
  exact format_slots ctx l hk

theorem format_vals (ctx : List (Str × Str)) (d d' : Values)
    (h : Along (fun a b => a.1 = b.1 ∧ FillsVal ctx a.2 b.2) d d') : formatDefaults ctx d = .ok d' := by
  induction h with
  | nil => rfl
  | @cons a b as bs hab _ ih =>
    obtain ⟨ka, va⟩ := a
    obtain ⟨kb, vb⟩ := b
    obtain ⟨h1, h2⟩ := hab
    dsimp only at h1 h2
    subst h1
    have : formatVal ctx va = .ok vb := by
      cases va <;> cases vb <;> simp only [FillsVal, reduceCtorEq] at h2
      · simp only [formatVal, format_fills _ _ _ h2]; rfl
      · rw [h2]; rfl
      · rw [h2]; rfl
      · rw [h2]; rfl
    simp only [formatDefaults, this, ih]
    rfl

theorem template_fills (ctx : List (Str × Str)) (r r' : Route) (h : FillsRoute ctx r r') :
    fromTemplate ctx r = .ok r' := by
  obtain ⟨h1, h2, h3, h4, h5, h6, h7⟩ := h
  have hs : formatOpt ctx r.subdomain = .ok r'.subdomain := by
    cases hr : r.subdomain <;> cases hr' : r'.subdomain <;> rw [hr, hr'] at h3 <;> simp [FillsOpt] at h3
    · rfl
    · simp only [formatOpt, format_fills _ _ _ h3]; rfl
  simp only [fromTemplate, format_vals _ _ _ h4, hs, format_fills _ _ _ h2, format_fills _ _ _ h1]
  unfold Route.empty
  rw [if_neg (by simpa using h7)]
  cases r'
  simp_all

/-! ### flattening -/

theorem mapGen_ok (f : Route → Except PyErr Route) (rs rs' : List Route)
    (h : Along (fun a b => f a = .ok b) rs rs') (e : Option PyErr) : mapGen f rs e = (rs', e) := by
  induction h with
  | nil => rfl
  | cons hab _ ih => simp only [mapGen, hab, ih]

theorem mapGen_map (f : Route → Except PyErr Route) (g : Route → Route) (rs : List Route)
    (h : ∀ r ∈ rs, f r = .ok (g r)) (e : Option PyErr) : mapGen f rs e = (rs.map g, e) := by
  induction rs with
  | nil => rfl
  | cons r rs ih =>
    simp only [mapGen, h r List.mem_cons_self, ih fun r hr => h r (.tail _ hr), List.map_cons]

/-- One place inside another. -/
def Place.within (c d : Place) : Place :=
  ⟨c.path ++ d.path, c.endpoint ++ d.endpoint, c.subdomain.or d.subdomain⟩

theorem put_within (c d : Place) (r : Route) : (c.within d).put r = c.put (d.put r) := by
  simp [Place.put, Place.within, Option.or_assoc]

mutual
theorem leaves_within (objs : Nat → Obj) (c d : Place) : ∀ (f : Factory) (rs : List Route), Leaves objs (c.within d) f rs →
    ∃ inner, Leaves objs d f inner ∧ rs = inner.map c.put
  | .route i, rs, h => by
      simp only [Leaves] at h ⊢
      exact ⟨[d.put (objs i).route], rfl, by rw [h, put_within]; rfl⟩
  | .subdomain s fs, rs, h => by
      have := leavesL_within objs c { d with subdomain := d.subdomain.or (some s) } fs rs (by
        have := h
        simp only [Leaves, Place.within] at this ⊢
        rwa [Option.or_assoc] at this)
      simpa only [Leaves] using this
  | .submount p fs, rs, h => by
      simp only [Leaves] at h ⊢
      obtain ⟨q, n, hp, hq, h⟩ := h
      obtain ⟨inner, h1, h2⟩ := leavesL_within objs c { d with path := d.path ++ q } fs rs (by
        simp only [Place.within, List.append_assoc] at h ⊢
        exact h)
      exact ⟨inner, ⟨q, n, hp, hq, h1⟩, h2⟩
  | .endpointPrefix e fs, rs, h => by
      have := leavesL_within objs c { d with endpoint := d.endpoint ++ e } fs rs (by
        simp only [Leaves, Place.within, List.append_assoc] at h ⊢
        exact h)
      simpa only [Leaves] using this
  | .template ctx fs, rs, h => by
      simp only [Leaves] at h ⊢
      obtain ⟨inner, filled, h1, h2, rfl⟩ := h
      refine ⟨filled.map d.put, ⟨inner, filled, h1, h2, rfl⟩, ?_⟩
      rw [List.map_map]
      exact List.map_congr_left fun r _ => put_within c d r
theorem leavesL_within (objs : Nat → Obj) (c d : Place) : ∀ (fs : List Factory) (rs : List Route),
    LeavesL objs (c.within d) fs rs → ∃ inner, LeavesL objs d fs inner ∧ rs = inner.map c.put
  | [], rs, h => by
      simp only [LeavesL] at h ⊢
      exact ⟨[], rfl, h⟩
  | f :: fs, rs, h => by
      simp only [LeavesL] at h ⊢
      obtain ⟨a, b, rfl, ha, hb⟩ := h
      obtain ⟨ia, ha1, rfl⟩ := leaves_within objs c d f a ha
      obtain ⟨ib, hb1, rfl⟩ := leavesL_within objs c d fs b hb
      exact ⟨ia ++ ib, ⟨ia, ib, rfl, ha1, hb1⟩, by simp⟩
end

theorem within_empty (c : Place) : c.within {} = c := by simp [Place.within]

theorem forall2_head {ctx} {rs rs' : List Route} (h : Along (FillsRoute ctx) rs rs') :
    (∀ r ∈ rs', r.rule.head? = some '/') ∧ Along (fun a b => fromTemplate ctx a = .ok b) rs rs' := by
  induction h with
  | nil => exact ⟨by simp, .nil⟩
  | cons hab _ ih =>
    refine ⟨?_, .cons (template_fills _ _ _ hab) ih.2⟩
    intro r hr
    rcases List.mem_cons.1 hr with rfl | hr
    · exact hab.rooted
    · exact ih.1 r hr

theorem trim_slashes (q : Str) (n : Nat) (hq : q.getLast? ≠ some '/') : rstripSlash (q ++ List.replicate n '/') = q := by
  have h1 : rstripSlash q = q := by
    refine Py.rstripP_of_last _ _ ?_
    intro c hc
    have : c ≠ '/' := fun e => hq (e ▸ hc)
    simpa using this
  unfold rstripSlash at *
  induction n with
  | zero => simpa using h1
  | succ n ih =>
    rw [List.replicate_succ', ← List.append_assoc]
    refine Eq.trans ?_ ih
    simp [Py.rstripP]

theorem head_append (q r : Str) (hq : q.head?.getD '/' = '/') (hr : r.head? = some '/') : (q ++ r).head? = some '/' := by
  cases q with
  | nil => exact hr
  | cons c cs => simpa using hq

theorem head_trim (q : Str) (n : Nat) (h : (q ++ List.replicate n '/').head?.getD '/' = '/') : q.head?.getD '/' = '/' := by
  cases q with
  | nil => rfl
  | cons c cs => simpa using h

mutual
theorem routes_leaves (objs : Nat → Obj) : ∀ (f : Factory) (rs : List Route), Rooted objs f → Leaves objs {} f rs →
    f.routes objs = (rs, none) ∧ ∀ r ∈ rs, r.rule.head? = some '/'
  | .route i, rs, hr, h => by
      have hp : ∀ r : Route, Place.put {} r = r := fun r => by simp [Place.put]
      simp only [Leaves] at h
      rw [h, hp]
      exact ⟨by simp only [Factory.routes], by simpa [Rooted] using hr⟩
  | .subdomain s fs, rs, hr, h => by
      simp only [Leaves, Option.none_or] at h
      rw [← within_empty ⟨[], [], some s⟩] at h
      obtain ⟨inner, h1, rfl⟩ := leavesL_within objs _ _ fs rs h
      simp only [Rooted] at hr
      obtain ⟨h2, h3⟩ := routesL_leaves objs fs inner hr h1
      refine ⟨?_, by intro r hr; obtain ⟨r0, h0, rfl⟩ := List.mem_map.1 hr; simpa [Place.put] using h3 r0 h0⟩
      simp only [Factory.routes, h2]
      refine mapGen_map _ _ _ (fun r hr => ?_) _
      simp [underSubdomain, Route.empty, h3 r hr, Except.map, Place.put]
  | .submount p fs, rs, hr, h => by
      simp only [Leaves] at h
      obtain ⟨q, n, rfl, hq, h⟩ := h
      simp only [List.nil_append] at h
      rw [← within_empty ⟨q, [], none⟩] at h
      obtain ⟨inner, h1, rfl⟩ := leavesL_within objs _ _ fs rs h
      simp only [Rooted] at hr
      obtain ⟨h2, h3⟩ := routesL_leaves objs fs inner hr.2 h1
      refine ⟨?_, ?_⟩
      · simp only [Factory.routes, h2]
        refine mapGen_map _ _ _ (fun r hr => ?_) _
        simp [underPath, Route.empty, h3 r hr, Except.map, Place.put, trim_slashes _ _ hq]
      · intro r hm
        obtain ⟨r0, h0, rfl⟩ := List.mem_map.1 hm
        exact head_append _ _ (head_trim _ _ hr.1) (h3 r0 h0)
  | .endpointPrefix e fs, rs, hr, h => by
      simp only [Leaves, List.nil_append] at h
      rw [← within_empty ⟨[], e, none⟩] at h
      obtain ⟨inner, h1, rfl⟩ := leavesL_within objs _ _ fs rs h
      simp only [Rooted] at hr
      obtain ⟨h2, h3⟩ := routesL_leaves objs fs inner hr h1
      refine ⟨?_, by intro r hr; obtain ⟨r0, h0, rfl⟩ := List.mem_map.1 hr; simpa [Place.put] using h3 r0 h0⟩
      simp only [Factory.routes, h2]
      refine mapGen_map _ _ _ (fun r hr => ?_) _
      simp [underPrefix, Route.empty, h3 r hr, Except.map, Place.put]
  | .template ctx fs, rs, hr, h => by
      simp only [Leaves] at h
      obtain ⟨inner, filled, h1, h2, rfl⟩ := h
      have hp : ∀ r : Route, Place.put {} r = r := fun r => by simp [Place.put]
      rw [show filled.map (Place.put {}) = filled from by
        rw [List.map_congr_left (g := id) (fun r _ => hp r), List.map_id]]
      simp only [Rooted] at hr
      obtain ⟨h3, _⟩ := routesL_leaves objs fs inner hr h1
      obtain ⟨h4, h5⟩ := forall2_head h2
      refine ⟨?_, h4⟩
      simp only [Factory.routes, h3]
      exact mapGen_ok _ _ _ h5 _
theorem routesL_leaves (objs : Nat → Obj) : ∀ (fs : List Factory) (rs : List Route), RootedL objs fs → LeavesL objs {} fs rs →
    factoryRoutes objs fs = (rs, none) ∧ ∀ r ∈ rs, r.rule.head? = some '/'
  | [], rs, _, h => by
      simp only [LeavesL] at h
      rw [h]
      exact ⟨by simp only [factoryRoutes], by simp⟩
  | f :: fs, rs, hr, h => by
      simp only [LeavesL] at h
      obtain ⟨a, b, rfl, ha, hb⟩ := h
      simp only [RootedL] at hr
      obtain ⟨h1, h1'⟩ := routes_leaves objs f a hr.1 ha
      obtain ⟨h2, h2'⟩ := routesL_leaves objs fs b hr.2 hb
      refine ⟨by simp only [factoryRoutes, h1, h2], ?_⟩
      intro r hm
      rcases List.mem_append.1 hm with hm | hm
      · exact h1' r hm
      · exact h2' r hm
end

/-- C101 (routes of factories): a nest of factories gives the routes in it, from the first to
the last, each one with the paths and prefixes of the factories around it in front of its rule
and its end point, and with the subdomain of the outermost `Subdomain`. -/
theorem C101_flat_partial (objs : Nat → Obj) (f : Factory) (rs : List Route) (hr : Rooted objs f)
    (h : Leaves objs {} f rs) : f.routes objs = (rs, none) :=
  (routes_leaves objs f rs hr h).1

/-! ### adding factories -/

theorem raw_compile (cfg : Config) (i : Nat) (r : Route) (h : r.rule.head? = some '/') :
    compileRaw cfg i r = compile cfg i r := by
  unfold compile
  simp only
  rw [if_neg (by simpa using h)]
  rfl

theorem bindAll_append (rs rs' : List Route) : ∀ (m : URLMap), bindAll m (rs ++ rs') =
    match (bindAll m rs).2 with
    | some e => ((bindAll m rs).1, some e)
    | none => bindAll (bindAll m rs).1 rs' := by
  induction rs with
  | nil => intro m; rfl
  | cons r rs ih =>
    intro m
    simp only [List.cons_append, bindAll]
    cases h : compileRaw m.cfg m.count r with
    | error e => rfl
    | ok b => exact ih _

theorem bindAll_add (rs : List Route) (hrs : ∀ r ∈ rs, r.rule.head? = some '/') : ∀ (m : URLMap),
    m.add rs = match (bindAll m rs).2 with
      | some e => ((bindAll m rs).1, some e)
      | none => ({ (bindAll m rs).1 with remap := true }, none) := by
  induction rs with
  | nil => intro m; rfl
  | cons r rs ih =>
    intro m
    simp only [URLMap.add, bindAll]
    rw [raw_compile _ _ _ (hrs r List.mem_cons_self)]
    cases h : compile m.cfg m.count r with
    | error e => rfl
    | ok b => exact ih (fun r hr => hrs r (.tail _ hr)) _

mutual
/-- The route objects in a factory. -/
def mentions : Factory → List Nat
  | .route i => [i]
  | .subdomain _ fs => mentionsL fs
  | .submount _ fs => mentionsL fs
  | .endpointPrefix _ fs => mentionsL fs
  | .template _ fs => mentionsL fs
def mentionsL : List Factory → List Nat
  | [] => []
  | f :: fs => mentions f ++ mentionsL fs
end

mutual
theorem leaves_congr (o o' : Nat → Obj) : ∀ (f : Factory) (c : Place) (rs : List Route),
    (∀ i ∈ mentions f, o' i = o i) → Leaves o c f rs → Leaves o' c f rs
  | .route i, c, rs, ho, h => by
      simp only [Leaves] at h ⊢
      rw [ho i (by simp [mentions])]
      exact h
  | .subdomain s fs, c, rs, ho, h => by
      simp only [Leaves, mentions] at h ho ⊢
      exact leavesL_congr o o' fs _ rs ho h
  | .submount p fs, c, rs, ho, h => by
      simp only [Leaves, mentions] at h ho ⊢
      obtain ⟨q, n, h1, h2, h3⟩ := h
      exact ⟨q, n, h1, h2, leavesL_congr o o' fs _ rs ho h3⟩
  | .endpointPrefix e fs, c, rs, ho, h => by
      simp only [Leaves, mentions] at h ho ⊢
      exact leavesL_congr o o' fs _ rs ho h
  | .template ctx fs, c, rs, ho, h => by
      simp only [Leaves, mentions] at h ho ⊢
      obtain ⟨i, l, h1, h2⟩ := h
      exact ⟨i, l, leavesL_congr o o' fs _ i ho h1, h2⟩
theorem leavesL_congr (o o' : Nat → Obj) : ∀ (fs : List Factory) (c : Place) (rs : List Route),
    (∀ i ∈ mentionsL fs, o' i = o i) → LeavesL o c fs rs → LeavesL o' c fs rs
  | [], c, rs, _, h => by
      simp only [LeavesL] at h ⊢
      exact h
  | f :: fs, c, rs, ho, h => by
      simp only [LeavesL, mentionsL] at h ho ⊢
      obtain ⟨a, b, h1, h2, h3⟩ := h
      exact ⟨a, b, h1, leaves_congr o o' f c a (fun i hi => ho i (List.mem_append.2 (.inl hi))) h2,
        leavesL_congr o o' fs c b (fun i hi => ho i (List.mem_append.2 (.inr hi))) h3⟩
end

mutual
theorem rooted_congr (o o' : Nat → Obj) : ∀ (f : Factory),
    (∀ i ∈ mentions f, o' i = o i) → Rooted o f → Rooted o' f
  | .route i, ho, h => by
      simp only [Rooted] at h ⊢
      rw [ho i (by simp [mentions])]
      exact h
  | .subdomain s fs, ho, h => by
      simp only [Rooted, mentions] at h ho ⊢
      exact rootedL_congr o o' fs ho h
  | .submount p fs, ho, h => by
      simp only [Rooted, mentions] at h ho ⊢
      exact ⟨h.1, rootedL_congr o o' fs ho h.2⟩
  | .endpointPrefix e fs, ho, h => by
      simp only [Rooted, mentions] at h ho ⊢
      exact rootedL_congr o o' fs ho h
  | .template ctx fs, ho, h => by
      simp only [Rooted, mentions] at h ho ⊢
      exact rootedL_congr o o' fs ho h
theorem rootedL_congr (o o' : Nat → Obj) : ∀ (fs : List Factory),
    (∀ i ∈ mentionsL fs, o' i = o i) → RootedL o fs → RootedL o' fs
  | [], _, h => by simp only [RootedL]
  | f :: fs, ho, h => by
      simp only [RootedL, mentionsL] at h ho ⊢
      exact ⟨rooted_congr o o' f (fun i hi => ho i (List.mem_append.2 (.inl hi))) h.1,
        rootedL_congr o o' fs (fun i hi => ho i (List.mem_append.2 (.inr hi))) h.2⟩
end

/-- One argument of `add_routes`. -/
theorem addOne_spec (w : World) (k : Nat) (f : Factory) (rs : List Route)
    (hb : ∀ i, f = .route i → (w.objs i).bound = false) (hr : Rooted w.objs f) (h : Leaves w.objs {} f rs) :
    (w.addOne k f).1.maps k = (bindAll (w.maps k) rs).1 ∧ (w.addOne k f).2 = (bindAll (w.maps k) rs).2 ∧
    (∀ j, j ≠ k → (w.addOne k f).1.maps j = w.maps j) ∧
    (∀ i, f ≠ .route i → (w.addOne k f).1.objs i = w.objs i) := by
  have hrs := C101_flat_partial w.objs f rs hr h
  cases f with
  | route i =>
    have hrs' : rs = [(w.objs i).route] := by
      simp only [Factory.routes, Prod.mk.injEq, and_true] at hrs
      exact hrs.symm
    subst hrs'
    simp only [World.addOne]
    rw [if_neg (by rw [hb i rfl]; decide)]
    refine ⟨by simp [World.setMap], rfl, fun j hj => by simp [World.setMap, hj], fun j hj => ?_⟩
    have : j ≠ i := fun e => hj (by rw [e])
    simp [World.setMap, this]
  | subdomain s fs =>
    simp only [World.addOne, hrs]
    exact ⟨by simp [World.setMap], by cases (bindAll (w.maps k) rs).2 <;> rfl,
      fun j hj => by simp [World.setMap, hj], fun j hj => rfl⟩
  | submount s fs =>
    simp only [World.addOne, hrs]
    exact ⟨by simp [World.setMap], by cases (bindAll (w.maps k) rs).2 <;> rfl,
      fun j hj => by simp [World.setMap, hj], fun j hj => rfl⟩
  | endpointPrefix s fs =>
    simp only [World.addOne, hrs]
    exact ⟨by simp [World.setMap], by cases (bindAll (w.maps k) rs).2 <;> rfl,
      fun j hj => by simp [World.setMap, hj], fun j hj => rfl⟩
  | template s fs =>
    simp only [World.addOne, hrs]
    exact ⟨by simp [World.setMap], by cases (bindAll (w.maps k) rs).2 <;> rfl,
      fun j hj => by simp [World.setMap, hj], fun j hj => rfl⟩

theorem add_spec (fs : List Factory) : ∀ (w : World) (k : Nat) (rs : List Route),
    (mentionsL fs).Nodup → (∀ i, Factory.route i ∈ fs → (w.objs i).bound = false) → RootedL w.objs fs →
    LeavesL w.objs {} fs rs →
    (w.add k fs).1.maps k = (match (bindAll (w.maps k) rs).2 with
      | some _ => (bindAll (w.maps k) rs).1
      | none => { (bindAll (w.maps k) rs).1 with remap := true }) ∧
    (w.add k fs).2 = (bindAll (w.maps k) rs).2 ∧ ∀ j, j ≠ k → (w.add k fs).1.maps j = w.maps j := by
  induction fs with
  | nil =>
    intro w k rs _ _ _ h
    simp only [LeavesL] at h
    subst h
    simp only [World.add, bindAll]
    exact ⟨by simp [World.setMap], trivial, fun j hj => by simp [World.setMap, hj]⟩
  | cons f fs ih =>
    intro w k rs hn hb hr h
    simp only [LeavesL, mentionsL, RootedL] at h hn hr
    obtain ⟨a, b, rfl, ha, hbb⟩ := h
    obtain ⟨p1, p2, p3, p4⟩ := addOne_spec w k f a (fun i e => hb i (e ▸ List.mem_cons_self)) hr.1 ha
    rw [bindAll_append]
    simp only [World.add, p2]
    cases he : (bindAll (w.maps k) a).2 with
    | some e => exact ⟨p1, rfl, p3⟩
    | none =>
      have hd := List.nodup_append.1 hn
      have hsame : ∀ i, i ∉ mentions f → (w.addOne k f).1.objs i = w.objs i := by
        intro i hi
        exact p4 i (by rintro rfl; exact hi (by simp [mentions]))
      have hsame' : ∀ i ∈ mentionsL fs, (w.addOne k f).1.objs i = w.objs i :=
        fun i hi => hsame i fun h => hd.2.2 i h i hi rfl
      have hmem : ∀ (fs : List Factory) i, Factory.route i ∈ fs → i ∈ mentionsL fs := by
        intro fs
        induction fs with
        | nil => intro i h; cases h
        | cons g gs ih =>
          intro i h
          simp only [mentionsL, List.mem_append]
          rcases List.mem_cons.1 h with h | h
          · exact .inl (by rw [← h]; simp [mentions])
          · exact .inr (ih i h)
      obtain ⟨q1, q2, q3⟩ := ih (w.addOne k f).1 k b hd.2.1
        (fun i hi => by rw [hsame' i (hmem fs i hi)]; exact hb i (.tail _ hi))
        (rootedL_congr _ _ fs hsame' hr.2) (leavesL_congr _ _ fs _ b hsame' hbb)
      rw [p1] at q1 q2
      exact ⟨q1, q2, fun j hj => (q3 j hj).trans (p3 j hj)⟩

/-- C101 (adding factories): adding factories of unbound routes to a map does to the map what
adding the routes they stand for does, one after the other, and changes no other map. -/
theorem C101_added_partial (w : World) (k : Nat) (fs : List Factory) (rs : List Route) (hn : (mentionsL fs).Nodup)
    (hb : ∀ i, Factory.route i ∈ fs → (w.objs i).bound = false) (hr : RootedL w.objs fs) (h : LeavesL w.objs {} fs rs) :
    (w.add k fs).1.maps k = ((w.maps k).add rs).1 ∧ (w.add k fs).2 = ((w.maps k).add rs).2 ∧
    ∀ j, j ≠ k → (w.add k fs).1.maps j = w.maps j := by
  obtain ⟨h1, h2, h3⟩ := add_spec fs w k rs hn hb hr h
  rw [bindAll_add rs (routesL_leaves w.objs fs rs hr h).2]
  rw [h1, h2]
  refine ⟨?_, ?_, h3⟩ <;> cases (bindAll (w.maps k) rs).2 <;> rfl

/-! ### one map per route -/

/-- The calls of `add_routes` of a program: the number of the map, and the factories. -/
def runCalls (w : World) (ops : List (Nat × List Factory)) : World :=
  ops.foldl (fun w op => (w.add op.1 op.2).1) w

theorem addOne_bound (w : World) (k : Nat) (f : Factory) (i : Nat) :
    ((w.objs i).bound = true → (w.addOne k f).1.objs i = w.objs i) ∧
    (f = .route i → ((w.addOne k f).1.objs i).bound = true) ∧
    (f ≠ .route i → (w.addOne k f).1.objs i = w.objs i) := by
  cases f with
  | route j =>
    simp only [World.addOne, Factory.route.injEq]
    cases hj : (w.objs j).bound with
    | true =>
      simp only [if_true]
      exact ⟨fun _ => trivial, fun h => h ▸ hj, fun _ => trivial⟩
    | false =>
      simp only [Bool.false_eq_true, if_false, World.setMap]
      by_cases e : i = j
      · subst e
        simp [hj, Obj.bind]
      · simp [e, Ne.symm e]
  | _ => exact ⟨fun _ => rfl, fun h => (by cases h), fun _ => rfl⟩

theorem add_bound (fs : List Factory) : ∀ (w : World) (k : Nat) (i : Nat),
    ((w.objs i).bound = true → (w.add k fs).1.objs i = w.objs i) ∧
    (Factory.route i ∈ fs → (w.add k fs).2 = none → ((w.add k fs).1.objs i).bound = true) ∧
    (Factory.route i ∉ fs → (w.add k fs).1.objs i = w.objs i) := by
  induction fs with
  | nil => intro w k i; exact ⟨fun _ => rfl, fun h => (by cases h), fun _ => rfl⟩
  | cons f fs ih =>
    intro w k i
    obtain ⟨h1, h2, h3⟩ := addOne_bound w k f i
    obtain ⟨i1, i2, i3⟩ := ih (w.addOne k f).1 k i
    simp only [World.add]
    cases he : (w.addOne k f).2 with
    | some e => exact ⟨h1, fun _ h => (by cases h), fun h => h3 fun e => h (e ▸ List.mem_cons_self)⟩
    | none =>
      refine ⟨fun h => (i1 (by rw [h1 h]; exact h)).trans (h1 h), fun h hn => ?_, fun h => ?_⟩
      · rcases List.mem_cons.1 h with h | h
        · rw [i1 (h2 h.symm)]; exact h2 h.symm
        · exact i2 h hn
      · exact (i3 fun hm => h (.tail _ hm)).trans (h3 fun e => h (e ▸ List.mem_cons_self))

theorem run_bound (ops : List (Nat × List Factory)) : ∀ (w : World) (i : Nat), (w.objs i).bound = true →
    ((runCalls w ops).objs i).bound = true := by
  induction ops with
  | nil => intro w i h; exact h
  | cons op ops ih =>
    intro w i h
    exact ih _ i (by rw [(add_bound op.2 w op.1 i).1 h]; exact h)

/-- C101 (one map for each route): a route that was added itself, rather than through a
factory, can not be added again, to this map or any other one, whatever happens in between:
the call raises `RuntimeError` and changes nothing. -/
theorem C101_once (w : World) (k : Nat) (fs : List Factory) (i : Nat) (hi : Factory.route i ∈ fs)
    (hok : (w.add k fs).2 = none) (ops : List (Nat × List Factory)) (j : Nat) (gs : List Factory) :
    let w' := runCalls (w.add k fs).1 ops
    w'.add j (.route i :: gs) = (w', some .runtimeError) := by
  have hb := run_bound ops _ i ((add_bound fs w k i).2.1 hi hok)
  simp only [World.add, World.addOne, hb, if_true]

/-- C101 (factories can be used again): calls which add only factories leave every route
object as it was, so that a factory gives the same routes after them, for any map. -/
theorem C101_reuse (w : World) (ops : List (Nat × List Factory)) (h : ∀ op ∈ ops, ∀ i, Factory.route i ∉ op.2)
    (f : Factory) : (runCalls w ops).objs = w.objs ∧ f.routes (runCalls w ops).objs = f.routes w.objs := by
  have : (runCalls w ops).objs = w.objs := by
    induction ops generalizing w with
    | nil => rfl
    | cons op ops ih =>
      refine (ih _ fun op' hop => h op' (.tail _ hop)).trans ?_
      funext i
      exact (add_bound op.2 w op.1 i).2.2 (h op List.mem_cons_self i)
  exact ⟨this, by rw [this]⟩

/-! ### examples, and what does not hold -/

/-- Three routes of a program. -/
def demoObjs : Nat → Obj
  | 0 => ⟨sampleRoute s%"/" s%"index", false⟩
  | 1 => ⟨{ sampleRoute s%"/entry/<slug>" s%"show" with subdomain := some s%"en" }, false⟩
  | 2 => ⟨{ sampleRoute s%"/{name}/<int:id>" s%"{name}.show" with defaults := [(s%"what", .str s%"a {name}")] }, false⟩
  | 3 => ⟨{ sampleRoute s%"/old" s%"old" with redirectTo := some (.text s%"new"), alias := true }, false⟩
  | _ => ⟨sampleRoute s%"/x" s%"x", false⟩

/-- A nest of all kinds of factories. -/
def demoNest : Factory :=
  .subdomain s%"de" [.endpointPrefix s%"blog/" [.submount s%"/blog//" [.route 0, .route 1],
    .template [(s%"name", s%"user")] [.route 2]]]

def demoLeaves : List Route :=
  [{ sampleRoute s%"/blog/" s%"blog/index" with subdomain := some s%"de" },
   { sampleRoute s%"/blog/entry/<slug>" s%"blog/show" with subdomain := some s%"de" },
   { sampleRoute s%"/user/<int:id>" s%"blog/user.show" with
      subdomain := some s%"de", defaults := [(s%"what", .str s%"a user")] }]

theorem demo_leaves : Rooted demoObjs demoNest ∧ Leaves demoObjs {} demoNest demoLeaves := by
  constructor
  · simp [demoNest, Rooted, RootedL, demoObjs, sampleRoute]
  · simp only [demoNest, Leaves, LeavesL]
    refine ⟨demoLeaves, [], rfl, ⟨demoLeaves.take 2, demoLeaves.drop 2, rfl,
      ⟨s%"/blog", 2, rfl, by decide, demoLeaves.take 1, (demoLeaves.take 2).drop 1, rfl, rfl, (demoLeaves.take 2).drop 1, [],
        rfl, rfl, rfl⟩, demoLeaves.drop 2, [], rfl, ?_, rfl⟩, rfl⟩
    have hk : Slot.Known [(s%"name", s%"user")] (.name s%"name") := by
      refine ⟨by decide, ⟨'n', by decide, by decide⟩, by decide⟩
    refine ⟨[(demoObjs 2).route], [{ sampleRoute s%"/user/<int:id>" s%"user.show" with
        defaults := [(s%"what", .str s%"a user")] }], ⟨[(demoObjs 2).route], [], rfl, by simp [Place.put], rfl⟩, .cons ?_ .nil, rfl⟩
    refine ⟨⟨[.text s%"/", .name s%"name", .text s%"/<int:id>"], ?_, rfl, rfl⟩,
      ⟨[.name s%"name", .text s%".show"], ?_, rfl, rfl⟩, ⟨rfl, rfl⟩,
      .cons ⟨rfl, ⟨[.text s%"a ", .name s%"name"], ?_, rfl, rfl⟩⟩ .nil, ⟨rfl, rfl⟩, ⟨rfl, rfl, rfl⟩, rfl⟩ <;>
      (simp only [List.forall_mem_cons, List.not_mem_nil, false_imp_iff, implies_true, and_true]
       first | exact ⟨trivial, hk, trivial⟩ | exact ⟨hk, trivial⟩ | exact ⟨trivial, hk⟩)

example : demoNest.routes demoObjs = (demoLeaves, none) :=
  C101_flat_partial _ _ _ demo_leaves.1 demo_leaves.2

/-- A program with the routes of the example; map 1 is not strict about slashes. -/
def demoWorld : World :=
  ⟨demoObjs, fun k => URLMap.new { sampleCfg with strictSlashes := k != 1 }⟩

example : ((demoWorld.add 0 [.route 4, demoNest]).1.maps 0) =
    ((URLMap.new sampleCfg).add (sampleRoute s%"/x" s%"x" :: demoLeaves)).1 := by
  have h := C101_added_partial demoWorld 0 [.route 4, demoNest] (sampleRoute s%"/x" s%"x" :: demoLeaves) (by decide)
    (by intro i hi; rcases List.mem_cons.1 hi with h | h
        · cases h; rfl
        · rcases List.mem_cons.1 h with h | h
          · cases h
          · cases h)
    (by simp only [RootedL]; exact ⟨by simp [Rooted, demoWorld, demoObjs, sampleRoute], demo_leaves.1, trivial⟩)
    (by simp only [LeavesL]
        exact ⟨[sampleRoute s%"/x" s%"x"], demoLeaves, rfl, by simp [Leaves, Place.put, demoWorld, demoObjs, sampleRoute],
          demoLeaves, [], by simp, demo_leaves.2, rfl⟩)
  exact h.1

example : ((demoWorld.add 0 [.route 4]).1.add 1 [.route 4]).2 = some .runtimeError ∧
    (demoWorld.add 0 [.route 4]).2 = none ∧ (demoWorld.add 0 [.submount s%"/a" [.route 4], .submount s%"/b" [.route 4], .route 4]).2 = none :=
  ⟨rfl, rfl, rfl⟩

/-- As a copy of a route that was added somewhere before, a route of a factory brings along the
settings of the other map: it is not strict about slashes although its own map is. -/
theorem C101_settings_false : ∃ (w w' : World) (b : Bound), (w.maps 0).cfg.strictSlashes = true ∧
    (w.objs 4).route.strictSlashes = none ∧ (w.add 1 [.route 4]).1 = w' ∧
    ((w'.add 0 [.submount s%"/a" [.route 4]]).1.maps 0).routes = [b] ∧
    b.strict = false ∧ b.match_ sampleCfg s%"|/a/x/" = .values [] ∧
    ∃ c : Bound, ((w.add 0 [.submount s%"/a" [.route 4]]).1.maps 0).routes = [c] ∧
      c.strict = true ∧ c.match_ sampleCfg s%"|/a/x/" = .none :=
  ⟨demoWorld, _, _, rfl, rfl, rfl, rfl, rfl, rfl, _, rfl, rfl, rfl⟩

/-- The path of a `Submount` is not checked: without a slash in front of it the routes are
added, and URLs for them are built, but these URLs do not match. -/
theorem C101_slash_false : ∃ m : URLMap, (demoWorld.add 0 [.submount s%"blog" [.route 4]]).1.maps 0 = m ∧
    (demoWorld.add 0 [.submount s%"blog" [.route 4]]).2 = none ∧
    build m sampleAdapter s%"x" [] true true = .ok s%"http://example.org/blog/x" ∧
    (match_ m sampleAdapter s%"/blog/x" []).map (fun _ => ()) = .error .notFound :=
  ⟨_, rfl, rfl, rfl, rfl⟩

/-- A template forgets that a route is a redirect, an alias or meant for another host. -/
theorem C101_template_false : ∃ r : Route, (demoObjs 3).route.redirectTo.isSome ∧ (demoObjs 3).route.alias = true ∧
    (Factory.template [] [.route 3]).routes demoObjs = ([r], none) ∧ r.rule = (demoObjs 3).route.rule ∧
    r.redirectTo.isNone ∧ r.alias = false :=
  ⟨_, rfl, rfl, rfl, rfl, rfl, rfl⟩

end Verif.Props.FactoryP
