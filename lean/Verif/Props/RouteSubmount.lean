import Verif.Props.RouteMount
/-!
C102: `Submount` and the path a map is bound to (`/repo/verktyg/routing.py`).
-/
namespace Verif.Re
variable {α : Type}

theorem starRun_prev {f : Option α → List α → List (M α)} (hf : ∀ p q s, f p s = f q s) (g : Bool) (n : Nat) :
    ∀ (p q : Option α) (s : List α), starRun g f n p s = starRun g f n q s := by
  induction n with
  | zero => intro p q s; rfl
  | succ n ih =>
    intro p q s
    simp only [starRun]
    rw [hf p q s]
    have : ∀ m, andThen (starRun g f n) p m = andThen (starRun g f n) q m := by
      intro m
      unfold andThen
      rw [ih (after p m.txt) (after q m.txt)]
    rw [funext this]

/-- A pattern without `$` and look-behind does not see what is before it. -/
theorem run_prev {r : Re α} (hr : Free r) : ∀ (p q : Option α) (s : List α), run r p s = run r q s := by
  induction r with
  | eps => intro p q s; rfl
  | cls c => intro p q s; cases s <;> rfl
  | seq a b iha ihb =>
    intro p q s
    simp only [run]
    rw [iha hr.1 p q s]
    have : ∀ m, andThen (run b) p m = andThen (run b) q m := by
      intro m
      unfold andThen
      rw [ihb hr.2 (after p m.txt) (after q m.txt)]
    rw [funext this]
  | alt a b iha ihb => intro p q s; simp only [run]; rw [iha hr.1 p q, ihb hr.2 p q]
  | star g a ih => intro p q s; exact starRun_prev (ih hr) g _ p q s
  | grp n a ih => intro p q s; simp only [run]; rw [ih hr p q]
  | eos nl => exact hr.elim
  | notAfter c => exact hr.elim

/-- The group `k` does not occur. -/
def NoGroup (k : Nat) : Re α → Prop
  | seq a b => NoGroup k a ∧ NoGroup k b
  | alt a b => NoGroup k a ∧ NoGroup k b
  | star _ a => NoGroup k a
  | grp n a => n ≠ k ∧ NoGroup k a
  | _ => True

theorem starRun_caps {f : Option α → List α → List (M α)} {k : Nat}
    (hf : ∀ p s, ∀ m ∈ f p s, ∀ c ∈ m.caps, c.1 ≠ k) (g : Bool) (n : Nat) :
    ∀ (p : Option α) (s : List α), ∀ m ∈ starRun g f n p s, ∀ c ∈ m.caps, c.1 ≠ k := by
  induction n with
  | zero => intro p s m hm c hc; simp [starRun] at hm; subst hm; cases hc
  | succ n ih =>
    intro p s m hm c hc
    have : m ∈ ((f p s).filter fun m => !m.txt.isEmpty).flatMap (andThen (starRun g f n) p) ∨ m = ⟨[], s, []⟩ := by
      simp only [starRun] at hm
      split at hm
      · rcases List.mem_append.1 hm with h | h
        · exact .inl h
        · exact .inr (by simpa using h)
      · rcases List.mem_cons.1 hm with h | h
        · exact .inr h
        · exact .inl h
    rcases this with h | rfl
    · obtain ⟨m1, h1, h2⟩ := List.mem_flatMap.1 h
      obtain ⟨m2, h3, rfl⟩ := List.mem_map.1 h2
      rcases List.mem_append.1 hc with hc | hc
      · exact ih _ _ m2 h3 c hc
      · exact hf _ _ m1 (List.mem_filter.1 h1).1 c hc
    · cases hc

theorem run_caps {r : Re α} {k : Nat} (hr : NoGroup k r) : ∀ (p : Option α) (s : List α), ∀ m ∈ run r p s,
    ∀ c ∈ m.caps, c.1 ≠ k := by
  induction r with
  | eps => intro p s m hm c hc; simp [run] at hm; subst hm; cases hc
  | cls x =>
    intro p s m hm c hc
    cases s with
    | nil => cases hm
    | cons y ys =>
      simp only [run] at hm
      split at hm
      · simp at hm; subst hm; cases hc
      · cases hm
  | seq a b iha ihb =>
    intro p s m hm c hc
    obtain ⟨m1, h1, h2⟩ := List.mem_flatMap.1 hm
    obtain ⟨m2, h3, rfl⟩ := List.mem_map.1 h2
    rcases List.mem_append.1 hc with hc | hc
    · exact ihb hr.2 _ _ m2 h3 c hc
    · exact iha hr.1 _ _ m1 h1 c hc
  | alt a b iha ihb =>
    intro p s m hm c hc
    rcases List.mem_append.1 hm with h | h
    · exact iha hr.1 _ _ m h c hc
    · exact ihb hr.2 _ _ m h c hc
  | star g a ih => intro p s m hm c hc; exact starRun_caps (ih hr) g _ p s m hm c hc
  | grp n a ih =>
    intro p s m hm c hc
    obtain ⟨m1, h1, rfl⟩ := List.mem_map.1 hm
    rcases List.mem_cons.1 hc with rfl | hc
    · exact hr.1
    · exact ih hr.2 _ _ m1 h1 c hc
  | eos nl =>
    intro p s m hm c hc
    cases s with
    | nil => simp [run] at hm; subst hm; cases hc
    | cons y ys =>
      simp only [run] at hm
      split at hm
      · simp at hm; subst hm; cases hc
      · cases hm
  | notAfter x =>
    intro p s m hm c hc
    have : m = ⟨[], s, []⟩ := by
      simp only [run] at hm
      split at hm
      · split at hm
        · cases hm
        · simpa using hm
      · simpa using hm
    subst this
    cases hc

end Verif.Re

namespace Verif.Props.MountP
open Verif Verif.Routing Verif.Props.RoutingP Verif.Props.FactoryP

/-! ### rules with text in front -/

/-- The part of the pattern of rules after the static text. -/
def varRe : Re Char :=
  Re.cat [Re.lit s%"<",
    Re.opt (Re.cat [.grp 1 identRe, Re.opt (Re.cat [Re.lit s%"(", .grp 2 (.star false (.cls dot)), Re.lit s%")"]),
      Re.lit s%":"]),
    .grp 3 identRe, Re.lit s%">"]

theorem routeRe_eq : routeRe = .seq (.grp 0 (.star true (.cls (· != '<')))) varRe := rfl

theorem varRe_free : Re.Free varRe := by
  simp [varRe, Re.cat, Re.lit, Re.opt, identRe, Re.Free]

theorem varRe_caps : Re.NoGroup 0 varRe := by
  simp [varRe, Re.cat, Re.lit, Re.opt, identRe, Re.NoGroup]

/-- A match with text in front of its static part. -/
def shift (p : Str) (m : Re.M Char) : Re.M Char :=
  ⟨p ++ m.txt, m.rest, m.caps.map fun c => if c.1 = 0 then (0, p ++ c.2) else c⟩

theorem map_id_of {α} (f : α → α) (l : List α) (h : ∀ x ∈ l, f x = x) : l.map f = l := by
  induction l with
  | nil => rfl
  | cons x xs ih => rw [List.map_cons, h x List.mem_cons_self, ih fun y hy => h y (.tail _ hy)]

theorem flatMap_congr {α β} (f g : α → List β) (l : List α) (h : ∀ x ∈ l, f x = g x) : l.flatMap f = l.flatMap g := by
  induction l with
  | nil => rfl
  | cons x xs ih => rw [List.flatMap_cons, List.flatMap_cons, h x List.mem_cons_self, ih fun y hy => h y (.tail _ hy)]

theorem route_shift (p s : Str) (hp : '<' ∉ p) :
    Re.run routeRe none (p ++ s) = (Re.run routeRe none s).map (shift p) := by
  have hcls : ∀ c ∈ p, (c != '<') = true := fun c hc => by
    have : c ≠ '<' := fun e => hp (e ▸ hc)
    simpa using this
  rw [routeRe_eq]
  simp only [Re.run]
  show List.flatMap _ (List.map _ (Re.starRun true (Re.run (.cls _)) _ _ _)) =
    List.map _ (List.flatMap _ (List.map _ (Re.starRun true (Re.run (.cls _)) _ _ _)))
  rw [Re.starRun_cls_greedy _ _ _ _ (Nat.le_refl _), Re.starRun_cls_greedy _ _ _ _ (Nat.le_refl _)]
  rw [Re.cutsG_split _ _ _ hcls, List.map_append, List.flatMap_append]
  have hnil : List.flatMap (Re.andThen (Re.run varRe) none)
      (List.map (fun m : Re.M Char => { m with caps := (0, m.txt) :: m.caps })
        (List.map (fun i => (⟨p.take i, p.drop i ++ s, []⟩ : Re.M Char)) (List.range p.length).reverse)) = [] := by
    apply Re.flatMap_fail
    intro m hm
    obtain ⟨m1, h1, rfl⟩ := List.mem_map.1 hm
    obtain ⟨i, hi, rfl⟩ := List.mem_map.1 h1
    have hi' : i < p.length := by simpa using hi
    unfold Re.andThen
    rw [List.map_eq_nil_iff]
    apply Re.run_seq_nil
    rw [Re.run_lit, if_neg]
    dsimp only
    rintro ⟨u, hu⟩
    apply hp
    rw [List.drop_eq_getElem_cons hi', List.cons_append, List.cons_append] at hu
    rw [(List.cons.inj hu).1]
    exact List.getElem_mem hi'
  rw [hnil, List.append_nil]
  rw [List.map_map, List.flatMap_map, List.flatMap_map, List.map_flatMap]
  refine flatMap_congr _ _ _ fun m hm => ?_
  have hc := (Re.mem_cutsG _ _ m hm).2.2
  simp only [Function.comp, Re.andThen, List.map_map]
  rw [Re.run_prev varRe_free (Re.after none (p ++ m.txt)) (Re.after none m.txt)]
  refine List.map_congr_left fun m' hm' => ?_
  have hk := Re.run_caps varRe_caps _ _ m' hm'
  simp only [shift, Function.comp, hc, List.map_append, List.map_cons, List.map_nil, if_true, List.append_assoc]
  rw [map_id_of _ m'.caps fun c h => if_neg (hk c h)]

theorem lookup_shift (p : Str) (l : List (Nat × Str)) (k : Nat) :
    (l.map fun c => if c.1 = 0 then (0, p ++ c.2) else c).lookup k =
      if k = 0 then (l.lookup k).map (p ++ ·) else l.lookup k := by
  induction l with
  | nil => simp
  | cons c cs ih =>
    obtain ⟨n, t⟩ := c
    simp only [List.map_cons]
    by_cases hn : n = 0
    · subst hn
      rw [if_pos rfl, List.lookup_cons, List.lookup_cons]
      by_cases hk : k = 0
      · subst hk; simp
      · rw [beq_false_of_ne hk]; exact ih
    · rw [if_neg hn, List.lookup_cons, List.lookup_cons]
      by_cases hk : k = n
      · subst hk; simp [hn]
      · rw [beq_false_of_ne hk]; exact ih

theorem route_first (p s : Str) (hp : '<' ∉ p) :
    Re.first routeRe none (p ++ s) = (Re.first routeRe none s).map (shift p) := by
  unfold Re.first
  rw [route_shift p s hp, List.head?_map]

theorem group_shift (p : Str) (m : Re.M Char) (k : Nat) :
    (shift p m).group k = if k = 0 then (m.group k).map (p ++ ·) else m.group k := lookup_shift p m.caps k

/-- Each round of the parser reads some of the rule. -/
theorem route_shorter (s : Str) (m : Re.M Char) (h : Re.first routeRe none s = some m) :
    m.rest.length < s.length ∧ ∃ st, m.group 0 = some st := by
  have hm : m ∈ Re.run routeRe none s := List.mem_of_mem_head? (Option.mem_def.2 h)
  rw [routeRe_eq] at hm
  obtain ⟨m1, h1, h2⟩ := List.mem_flatMap.1 hm
  obtain ⟨m2, h3, rfl⟩ := List.mem_map.1 h2
  have s1 := Re.run_split _ _ _ _ h1
  obtain ⟨m3, h4, h5⟩ := List.mem_flatMap.1 h3
  obtain ⟨m4, h6, rfl⟩ := List.mem_map.1 h5
  have s3 := Re.run_split _ _ _ _ h4
  have s4 := Re.run_split _ _ _ _ h6
  have l3 : m3.txt = s%"<" := by
    rw [Re.run_lit] at h4
    split at h4
    · simp at h4; rw [h4]
    · cases h4
  constructor
  · have e1 := congrArg List.length s1
    have e3 := congrArg List.length s3
    have e4 := congrArg List.length s4
    rw [l3] at e3
    simp only [List.length_append, List.length_cons, List.length_nil] at e1 e3 e4
    dsimp only
    omega
  · have hc := Re.run_caps varRe_caps _ _ _ h3
    simp only [Re.run] at h1
    obtain ⟨m5, _, rfl⟩ := List.mem_map.1 h1
    refine ⟨m5.txt, ?_⟩
    have hl : ∀ (l l' : List (Nat × Str)), (∀ c ∈ l, c.1 ≠ 0) → (l ++ l').lookup 0 = l'.lookup 0 := by
      intro l l' hl
      induction l with
      | nil => rfl
      | cons c cs ih =>
        rw [List.cons_append, List.lookup_cons, beq_false_of_ne (Ne.symm (hl c List.mem_cons_self))]
        exact ih fun c hc => hl c (.tail _ hc)
    unfold Re.M.group
    dsimp only
    rw [hl _ _ hc]
    simp

/-- More rounds than there are characters change nothing. -/
theorem parse_fuel (n : Nat) : ∀ (k : Nat) (used : List Str) (s : Str), s.length ≤ n →
    parseGo (n + k) used s = parseGo n used s := by
  induction n with
  | zero =>
    intro k used s h
    have : s = [] := List.eq_nil_of_length_eq_zero (by omega)
    subst this
    cases k with
    | zero => rfl
    | succ k => simp only [Nat.zero_add, parseGo, route_none [] List.not_mem_nil]
  | succ n ih =>
    intro k used s h
    rw [show n + 1 + k = (n + k) + 1 from by omega, parseGo, parseGo]
    cases hf : Re.first routeRe none s with
    | none => rfl
    | some m =>
      have hl := (route_shorter s m hf).1
      dsimp only
      rw [ih k _ m.rest (by omega)]

/-- The pieces of a rule with text in front of it. -/
def glue (p : Str) : List Piece → List Piece
  | .text t :: ps => .text (p ++ t) :: ps
  | ps => if p = [] then ps else .text p :: ps

theorem parse_glue (p s : Str) (h1 : '<' ∉ p) (h2 : '>' ∉ p) :
    parseRoute (p ++ s) = (parseRoute s).map (glue p) := by
  have hrest : parseRest (p ++ s) = (parseRest s).map (glue p) := by
    unfold parseRest
    by_cases hs : s = []
    · subst hs
      by_cases hp : p = []
      · subst hp; rfl
      · simp [hp, h1, h2, glue, Except.map]
    · simp only [hs, List.append_eq_nil_iff, and_false, if_false, List.mem_append, h1, h2, false_or]
      split <;> rfl
  unfold parseRoute
  rw [List.length_append, Nat.add_comm]
  by_cases hs : s = []
  · subst hs
    have : parseRoute (p ++ []) = (parseRoute []).map (glue p) := by
      rw [List.append_nil, parse_plain p h1 h2]
      by_cases hp : p = [] <;> simp [hp, parseRoute, parseGo, parseRest, glue, Except.map]
    simpa [parseRoute] using this
  · obtain ⟨n, hn⟩ : ∃ n, s.length = n + 1 := ⟨s.length - 1, by
      have := List.length_pos_iff.2 hs; omega⟩
    rw [hn, show n + 1 + p.length = (n + p.length) + 1 from by omega, parseGo, parseGo, route_first p s h1]
    cases hf : Re.first routeRe none s with
    | none => exact hrest
    | some m =>
      obtain ⟨hl, st, hst⟩ := route_shorter s m hf
      simp only [Option.map_some, group_shift, if_true, show (3 : Nat) ≠ 0 from by decide, if_false,
        show (1 : Nat) ≠ 0 from by decide, show (2 : Nat) ≠ 0 from by decide]
      rw [show (shift p m).rest = m.rest from rfl, parse_fuel n p.length _ m.rest (by omega), hst]
      split
      · rfl
      · simp only [Option.map_some, Option.getD_some]
        cases parseGo n _ m.rest with
        | error e => rfl
        | ok ps =>
          dsimp only [Except.map]
          by_cases hst' : st = []
          · by_cases hp : p = []
            · simp [hst', hp, glue]
            · simp [hst', hp, glue]
          · simp [hst', glue]

/-! ### compiled routes with text in front -/

/-- The parts of a path with text in front of it. -/
def gluePart (p : Str) : List Part → List Part
  | .text t :: ps => .text (p ++ t) :: ps
  | ps => if p = [] then ps else .text p :: ps

theorem regex_glue (cfg : Config) (p : Str) (ps : List Piece) :
    build_regex cfg (glue p ps) = (build_regex cfg ps).map (gluePart p) := by
  have hv : ∀ ps : List Piece, (∀ t qs, ps ≠ .text t :: qs) → ∀ l, build_regex cfg ps = .ok l →
      (∀ t qs, l ≠ .text t :: qs) := by
    intro ps hps l hl t qs hlq
    subst hlq
    cases ps with
    | nil => cases hl
    | cons q qs' =>
      cases q with
      | text t => exact hps t _ rfl
      | var c as n =>
        simp only [build_regex] at hl
        split at hl
        · cases hl
        · split at hl <;> cases hl
  cases ps with
  | nil => by_cases hp : p = [] <;> simp [glue, hp, build_regex, gluePart, Except.map]
  | cons q qs =>
    cases q with
    | text t =>
      simp only [glue, build_regex]
      cases build_regex cfg qs <;> rfl
    | var c as n =>
      simp only [glue]
      have hx := hv (.var c as n :: qs) (by intro t qs h; cases h)
      by_cases hp : p = []
      · subst hp
        rw [if_pos rfl]
        cases hb : build_regex cfg (.var c as n :: qs) with
        | error e => rfl
        | ok l =>
          simp only [Except.map]
          unfold gluePart
          split
          · rename_i t ps; exact absurd rfl (hx _ hb t ps)
          · rfl
      · rw [if_neg hp, build_regex]
        cases hb : build_regex cfg (.var c as n :: qs) with
        | error e => rfl
        | ok l =>
          simp only [Except.map]
          unfold gluePart
          split
          · rename_i t ps; exact absurd rfl (hx _ hb t ps)
          · rw [if_neg hp]

theorem vars_glue (p : Str) (ps : List Part) : vars (gluePart p ps) = vars ps := by
  unfold gluePart
  split
  · rfl
  · split <;> rfl

/-- What `Submount(p, ...)` makes of a route, for a path without slash at its end. -/
def mounted (p : Str) (r : Route) : Route := { r with rule := p ++ r.rule }

/-- The compiled route within `Submount(p, ...)`. -/
def mountBound (p : Str) (b : Bound) : Bound := { b with route := mounted p b.route, path := gluePart p b.path }

/-- A path as a `Submount` has it: text without variables, one slash in front and none at the end. -/
structure MountPath (p : Str) : Prop where
  opens : '<' ∉ p
  closes : '>' ∉ p
  head : p.head? = some '/'
  last : p.getLast? ≠ some '/'
  second : p.tail.head? ≠ some '/'

theorem leaf_mounted (p : Str) (r : Route) (hr : r.rule.head? = some '/') : (mounted p r).leaf = r.leaf := by
  unfold Route.leaf mounted
  dsimp only
  rw [List.getLast?_append]
  cases hr' : r.rule with
  | nil => rw [hr'] at hr; cases hr
  | cons c cs =>
    cases hl : (c :: cs).getLast? with
    | none => simp at hl
    | some x => rfl

theorem strip_append (p r : Str) (hp : p.getLast? ≠ some '/') : rstripSlash (p ++ r) = p ++ rstripSlash r := by
  have h1 : rstripSlash p = p := by
    have := trim_slashes p 0 hp
    simpa using this
  unfold rstripSlash at *
  by_cases hr : Py.rstripP (· == '/') r = []
  · have : r = List.replicate r.length '/' := by
      rw [List.eq_replicate_iff]
      refine ⟨rfl, fun c hc => ?_⟩
      simp only [Py.rstripP, List.reverse_eq_nil_iff] at hr
      have : ∀ (l : Str), l.dropWhile (· == '/') = [] → ∀ c ∈ l, c = '/' := by
        intro l
        induction l with
        | nil => intro _ c hc; cases hc
        | cons x xs ih =>
          intro h c hc
          rw [List.dropWhile_cons] at h
          split at h
          · rename_i hx
            rcases List.mem_cons.1 hc with rfl | hc
            · simpa using hx
            · exact ih h c hc
          · cases h
      exact this _ hr c (by simpa using hc)
    rw [hr, this, List.append_nil]
    exact trim_slashes p _ hp
  · simp only [Py.rstripP, List.reverse_append] at hr ⊢
    rw [List.dropWhile_append]
    have : (List.dropWhile (· == '/') r.reverse).isEmpty = false := by
      cases h : List.dropWhile (· == '/') r.reverse with
      | nil => rw [h] at hr; exact absurd rfl hr
      | cons _ _ => rfl
    rw [this]
    simp

theorem compile_mounted (cfg : Config) (p : Str) (hp : MountPath p) (i : Nat) (r : Route) (hr : r.rule.head? = some '/') :
    compile cfg i (mounted p r) = (compile cfg i r).map (mountBound p) := by
  obtain ⟨h1, h2, h3, h4, _⟩ := hp
  have hhead : (mounted p r).rule.head? = some '/' := by
    show (p ++ r.rule).head? = _
    cases p with
    | nil => cases h3
    | cons c cs => simpa using h3
  have hrule : (if (mounted p r).leaf then (mounted p r).rule else rstripSlash (mounted p r).rule) =
      p ++ (if r.leaf then r.rule else rstripSlash r.rule) := by
    rw [leaf_mounted p r hr]
    split
    · rfl
    · exact strip_append p r.rule h4
  rw [← raw_compile cfg i _ hhead, ← raw_compile cfg i _ hr]
  unfold compileRaw
  simp only
  rw [hrule, parse_glue p _ h1 h2]
  rw [show (mounted p r).host = r.host from rfl, show (mounted p r).subdomain = r.subdomain from rfl,
    show (mounted p r).strictSlashes = r.strictSlashes from rfl, show (mounted p r).buildOnly = r.buildOnly from rfl]
  split
  · rename_i e h; rw [h]; rfl
  · rename_i ds e h h'
    rw [h]
    cases hq : parseRoute (if r.leaf then r.rule else rstripSlash r.rule) with
    | error e' => rw [hq] at h'; cases h'; rfl
    | ok ps => rw [hq] at h'; cases h'
  · rename_i ds ps h h'
    rw [h]
    cases hq : parseRoute (if r.leaf then r.rule else rstripSlash r.rule) with
    | error e' => rw [hq] at h'; cases h'
    | ok ps' =>
      rw [hq] at h'
      cases h'
      dsimp only
      rw [regex_glue]
      cases build_regex cfg ds with
      | error e => rfl
      | ok d =>
        cases build_regex cfg ps' with
        | error e => rfl
        | ok q =>
          simp only [Except.map]
          have hn : (Bound.mk i (mounted p r) (r.strictSlashes.getD cfg.strictSlashes) d (gluePart p q)).names =
              (Bound.mk i r (r.strictSlashes.getD cfg.strictSlashes) d q).names := by
            unfold Bound.names Bound.suffixed Bound.vars
            simp only [vars_glue, leaf_mounted p r hr]
          rw [hn]
          split <;> rfl

end Verif.Props.MountP
