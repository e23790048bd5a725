import Verif.PyMore
import Verif.Props.SubmountMatch
/-!
C102: maps whose routes are within `Submount` (`/repo/verktyg/routing.py`).
-/
namespace Verif.Props.MountP
open Verif Verif.Routing Verif.Props.RoutingP Verif.Props.FactoryP Verif.Spec.Routing

/-! ### compiled routes -/

theorem grounded_compile (cfg : Config) (hcfg : PureConfig cfg) (hh : cfg.hostMatching = false)
    (h1 : '<' ∉ cfg.defaultSubdomain) (h2 : '>' ∉ cfg.defaultSubdomain) (h3 : '|' ∉ cfg.defaultSubdomain)
    (i : Nat) (r : Route) (hs : r.subdomain = none) (b : Bound) (hc : compile cfg i r = .ok b) :
    Grounded cfg.defaultSubdomain b := by
  have hpp := pure_parts cfg hcfg i r b hc
  obtain ⟨hr, _, hb, _, ds, ps, hds, hps, hbd, hbp⟩ := compile_inv cfg i r b hc
  have hdo : domainOf cfg r = cfg.defaultSubdomain := by simp [domainOf, hh, hs]
  rw [hdo, parse_plain _ h1 h2] at hds
  refine ⟨by rw [hb]; exact hr, ?_, h3, ?_, ?_⟩
  · cases hds
    unfold domainParts
    split at hbd
    · rw [if_pos (by assumption)]
      exact (Except.ok.inj hbd).symm
    · rw [if_neg (by assumption)]
      simpa [build_regex] using hbd.symm
  · intro n c h
    refine hpp n c ?_
    rw [vars_parts]
    exact List.mem_append.2 (.inr h)
  · have hx : ruleOf r = [] ∧ r.leaf = false ∨ ∃ cs, ruleOf r = '/' :: cs := by
      cases hrl : r.rule with
      | nil => rw [hrl] at hr; cases hr
      | cons c cs =>
        rw [hrl] at hr
        have hc' : c = '/' := by simpa using hr
        subst hc'
        unfold ruleOf
        rw [hrl]
        split
        · exact .inr ⟨cs, rfl⟩
        · rename_i hlf
          by_cases he : rstripSlash ('/' :: cs) = []
          · exact .inl ⟨he, by simpa using hlf⟩
          · right
            unfold rstripSlash Py.rstripP at he ⊢
            rw [List.reverse_cons, List.dropWhile_append] at he ⊢
            split
            · rename_i hz
              rw [if_pos hz] at he
              simp at he
            · exact ⟨_, by rw [List.reverse_append]; rfl⟩
    rcases hx with ⟨hx, hlf⟩ | ⟨cs, hx⟩
    · left
      refine ⟨?_, by rw [hb]; exact hlf⟩
      rw [hx] at hps
      cases hps
      exact (Except.ok.inj hbp).symm
    · right
      have := parse_glue s%"/" cs (by decide) (by decide)
      rw [hx, show '/' :: cs = s%"/" ++ cs from rfl, this] at hps
      cases hq : parseRoute cs with
      | error e => rw [hq] at hps; cases hps
      | ok qs =>
        rw [hq] at hps
        cases hps
        rw [regex_glue] at hbp
        cases hg : build_regex cfg qs with
        | error e => rw [hg] at hbp; cases hbp
        | ok l =>
          rw [hg] at hbp
          have : gluePart s%"/" l = b.path := Except.ok.inj hbp
          rw [← this]
          unfold gluePart
          split
          · exact ⟨_, _, rfl, rfl⟩
          · exact ⟨_, _, by rw [if_neg (by decide)], rfl⟩

/-- The weights of text. -/
def textWeights (s : Str) : List (Int × Int) := ((Py.splitOn '/' s).filter (· ≠ [])).map fun p => (0, -(p.length : Int))

theorem weights_mounted (p d : Str) (hp : MountPath p) (b : Bound) (hb : Grounded d b) :
    (mountBound p b).weights = weights (domainParts d) ++ (textWeights p ++ weights b.path) := by
  have hne : p ≠ [] := fun e => by have := hp.head; rw [e] at this; cases this
  unfold Bound.weights
  rw [show (mountBound p b).domain = b.domain from rfl, hb.domain,
    show (mountBound p b).path = gluePart p b.path from rfl]
  congr 1
  rcases hb.path with ⟨h, _⟩ | ⟨t, ps, h, ht⟩
  · rw [h]
    simp [gluePart, hne, weights, textWeights]
  · rw [h]
    cases t with
    | nil => cases ht
    | cons c cs =>
      have hc : c = '/' := by simpa using ht
      subst hc
      have h2 : Py.splitOn '/' ('/' :: cs) = [] :: Py.splitOn '/' cs := by
        have := Py.splitOn_append_sep '/' [] cs
        simpa [Py.splitOn] using this
      simp only [gluePart, weights, textWeights, Py.splitOn_append_sep, h2]
      simp

theorem pairCmp_self (x : Int × Int) : pairCmp x x = .eq := by
  simp [pairCmp, Ordering.then]

theorem lex_common (c x y : List (Int × Int)) :
    List.compareLex pairCmp (c ++ x) (c ++ y) = List.compareLex pairCmp x y := by
  induction c with
  | nil => rfl
  | cons a as ih => simp [List.compareLex, pairCmp_self, ih]

theorem compare_shift (k x y : Int) : compare (x + k) (y + k) = compare x y := by
  simp only [compare, compareOfLessAndEq]
  by_cases h1 : x < y
  · rw [if_pos h1, if_pos (by omega)]
  · rw [if_neg h1, if_neg (by omega)]
    by_cases h2 : x = y
    · rw [if_pos h2, if_pos (by omega)]
    · rw [if_neg h2, if_neg (by omega)]

theorem matchLe_mounted (p d : Str) (hp : MountPath p) (a b : Bound) (ha : Grounded d a) (hb : Grounded d b) :
    matchLe (mountBound p a) (mountBound p b) = matchLe a b := by
  have hk : ∀ b : Bound, (mountBound p b).arguments = b.arguments := fun b => by
    unfold Bound.arguments; rw [vars_mounted]; rfl
  unfold matchLe Bound.matchKey matchCmp
  simp only [hk, weights_mounted p d hp _ ha, weights_mounted p d hp _ hb]
  unfold Bound.weights
  rw [ha.domain, hb.domain, lex_common, lex_common, lex_common]
  simp only [List.length_append]
  generalize (weights (domainParts d)).length = n
  generalize (textWeights p).length = k
  generalize (weights a.path).length = x
  generalize (weights b.path).length = y
  have h1 := compare_shift (-(k : Int)) (-((n + x : Nat) : Int)) (-((n + y : Nat) : Int))
  rw [show -((n + x : Nat) : Int) + -(k : Int) = -((n + (k + x) : Nat) : Int) from by omega,
    show -((n + y : Nat) : Int) + -(k : Int) = -((n + (k + y) : Nat) : Int) from by omega] at h1
  rw [h1]

theorem buildLe_mounted (p : Str) (a b : Bound) : buildLe (mountBound p a) (mountBound p b) = buildLe a b := by
  have hk : ∀ b : Bound, (mountBound p b).buildKey = b.buildKey := fun b => by
    unfold Bound.buildKey Bound.arguments
    rw [vars_mounted]; rfl
  unfold buildLe
  rw [hk, hk]

theorem map_insert_on {α} (le : α → α → Bool) (f : α → α) (x : α) (l : List α)
    (hf : ∀ b ∈ l, le (f x) (f b) = le x b) : insertBy le (f x) (l.map f) = (insertBy le x l).map f := by
  induction l with
  | nil => rfl
  | cons y ys ih =>
    simp only [List.map_cons, insertBy, hf y (.head _)]
    split
    · rfl
    · rw [ih fun b hb => hf b (.tail _ hb)]; rfl

theorem mem_sort {α} (le : α → α → Bool) (l : List α) (x : α) (h : x ∈ sortBy le l) : x ∈ l := by
  have hi : ∀ (y : α) (l : List α), x ∈ insertBy le y l → x = y ∨ x ∈ l := by
    intro y l
    induction l with
    | nil => intro h; simpa [insertBy] using h
    | cons z zs ih =>
      intro h
      simp only [insertBy] at h
      split at h
      · exact List.mem_cons.1 h
      · rcases List.mem_cons.1 h with h | h
        · exact .inr (h ▸ .head _)
        · rcases ih h with h | h
          · exact .inl h
          · exact .inr (.tail _ h)
  unfold sortBy at h
  induction l with
  | nil => cases h
  | cons y ys ih =>
    rcases hi y _ h with h | h
    · exact h ▸ .head _
    · exact .tail _ (ih h)

theorem map_sort_on {α} (le : α → α → Bool) (f : α → α) (l : List α)
    (hf : ∀ a ∈ l, ∀ b ∈ l, le (f a) (f b) = le a b) : sortBy le (l.map f) = (sortBy le l).map f := by
  induction l with
  | nil => rfl
  | cons x xs ih =>
    have h1 := ih fun a ha b hb => hf a (.tail _ ha) b (.tail _ hb)
    unfold sortBy at h1 ⊢
    rw [List.map_cons, List.foldr_cons, h1]
    exact map_insert_on le f x _ fun b hb => hf x (.head _) b (.tail _ (mem_sort le xs b hb))

/-! ### maps -/

/-- The map with the routes within `Submount(p, ...)`, all of them on the domain `d`. -/
structure Submounted (p d : Str) (m m' : URLMap) : Prop where
  cfg : m'.cfg = m.cfg
  routes : m'.routes = m.routes.map (mountBound p)
  byEndpoint : ∀ e, m'.byEndpoint e = (m.byEndpoint e).map (mountBound p)
  remap : m'.remap = m.remap
  count : m'.count = m.count
  grounded : ∀ b ∈ m.routes, Grounded d b
  listed : ∀ e, ∀ b ∈ m.byEndpoint e, b ∈ m.routes

theorem submounted_update (p d : Str) (hp : MountPath p) (m m' : URLMap) (hm : Submounted p d m m') :
    Submounted p d m.update m'.update := by
  obtain ⟨h1, h2, h3, h4, h5, h6, h7⟩ := hm
  have hins : ∀ (le : Bound → Bound → Bool) (x y : Bound) (l : List Bound), x ∈ insertBy le y l ↔ x = y ∨ x ∈ l := by
    intro le x y l
    have := (insert_perm le y l).mem_iff (a := x)
    rw [this, List.mem_cons]
  have hmem : ∀ (le : Bound → Bound → Bool) (l : List Bound) (x : Bound), x ∈ l → x ∈ sortBy le l := by
    intro le l x
    unfold sortBy
    induction l with
    | nil => exact id
    | cons y ys ih =>
      intro h
      rw [List.foldr_cons, hins]
      rcases List.mem_cons.1 h with h | h
      · exact .inl h
      · exact .inr (ih h)
  unfold URLMap.update
  rw [h4]
  split
  · refine ⟨h1, ?_, fun e => ?_, rfl, h5, ?_, ?_⟩
    · dsimp only
      rw [h2]
      exact map_sort_on matchLe _ _ fun a ha b hb => matchLe_mounted p d hp a b (h6 a ha) (h6 b hb)
    · dsimp only
      rw [h3]
      exact map_sort_on buildLe _ _ fun a _ b _ => buildLe_mounted p a b
    · exact fun b hb => h6 b (mem_sort _ _ _ hb)
    · exact fun e b hb => hmem _ _ _ (h7 e b (mem_sort _ _ _ hb))
  · exact ⟨h1, h2, h3, h4, h5, h6, h7⟩

theorem submounted_push (p d : Str) (m m' : URLMap) (hm : Submounted p d m m') (b : Bound) (hb : Grounded d b) :
    Submounted p d (m.push b) (m'.push (mountBound p b)) := by
  obtain ⟨h1, h2, h3, h4, h5, h6, h7⟩ := hm
  refine ⟨h1, ?_, fun e => ?_, h4, ?_, ?_, ?_⟩
  · simp [URLMap.push, h2]
  · simp only [URLMap.push]
    rw [show (mountBound p b).route.endpoint = b.route.endpoint from rfl]
    by_cases e' : e = b.route.endpoint
    · simp [e', h3]
    · rw [if_neg e', if_neg e', h3]
  · simp [URLMap.push, h5]
  · intro c hc
    simp only [URLMap.push, List.mem_append, List.mem_singleton] at hc
    rcases hc with hc | hc
    · exact h6 c hc
    · exact hc ▸ hb
  · intro e c hc
    simp only [URLMap.push, List.mem_append, List.mem_singleton] at hc ⊢
    split at hc
    · rcases List.mem_append.1 hc with hc | hc
      · exact .inl (h7 e c hc)
      · exact .inr (by simpa using hc)
    · exact .inl (h7 e c hc)

/-- The settings of a map whose default subdomain has no variables. -/
structure PlainConfig (cfg : Config) : Prop where
  pure : PureConfig cfg
  host : cfg.hostMatching = false
  opens : '<' ∉ cfg.defaultSubdomain
  closes : '>' ∉ cfg.defaultSubdomain
  bar : '|' ∉ cfg.defaultSubdomain

/-- A route with a rule that begins with a slash, on the default subdomain. -/
def Plain (r : Route) : Prop := r.rule.head? = some '/' ∧ r.subdomain = none

theorem submounted_add (p : Str) (hp : MountPath p) (cfg : Config) (hcfg : PlainConfig cfg) (rs : List Route) :
    ∀ (m m' : URLMap), m.cfg = cfg → Submounted p cfg.defaultSubdomain m m' → (∀ r ∈ rs, Plain r) →
    Submounted p cfg.defaultSubdomain (m.add rs).1 (m'.add (rs.map (mounted p))).1 ∧ (m.add rs).1.cfg = cfg := by
  induction rs with
  | nil =>
    intro m m' hc hm _
    obtain ⟨h1, h2, h3, h4, h5, h6, h7⟩ := hm
    exact ⟨⟨h1, h2, h3, rfl, h5, h6, h7⟩, hc⟩
  | cons r rs ih =>
    intro m m' hc hm ha
    have hr := ha r List.mem_cons_self
    simp only [List.map_cons, URLMap.add, hm.count, hm.cfg, hc]
    rw [compile_mounted cfg p hp _ r hr.1]
    cases hcomp : compile cfg m.count r with
    | error e => exact ⟨hm, hc⟩
    | ok b =>
      exact ih (m.push b) _ hc (submounted_push p _ m m' hm b
        (grounded_compile cfg hcfg.pure hcfg.host hcfg.opens hcfg.closes hcfg.bar _ r hr.2 b hcomp))
        fun r hr => ha r (.tail _ hr)

/-- A history whose routes are all within `Submount(p, ...)`. -/
def mountedOp (p : Str) : Op → Op
  | .add rs => .add (rs.map (mounted p))
  | .lookup => .lookup

theorem submounted_run (p : Str) (hp : MountPath p) (cfg : Config) (hcfg : PlainConfig cfg) (ops : List Op) :
    ∀ (m m' : URLMap), m.cfg = cfg → Submounted p cfg.defaultSubdomain m m' → (∀ r ∈ mentioned ops, Plain r) →
    Submounted p cfg.defaultSubdomain (run m ops) (run m' (ops.map (mountedOp p))) ∧ (run m ops).cfg = cfg := by
  induction ops with
  | nil => intro m m' hc hm _; exact ⟨hm, hc⟩
  | cons op ops ih =>
    intro m m' hc hm ha
    cases op with
    | add rs =>
      obtain ⟨h1, h2⟩ := submounted_add p hp cfg hcfg rs m m' hc hm fun r hr => ha r (List.mem_append.2 (.inl hr))
      exact ih _ _ h2 h1 fun r hr => ha r (List.mem_append.2 (.inr hr))
    | lookup =>
      refine ih _ _ ?_ (submounted_update p _ hp m m' hm) ha
      rw [← hc]
      show m.update.cfg = m.cfg
      unfold URLMap.update
      split <;> rfl

theorem submount_maps (p : Str) (hp : MountPath p) (cfg : Config) (hcfg : PlainConfig cfg) (ops : List Op)
    (h : ∀ r ∈ mentioned ops, Plain r) :
    Submounted p cfg.defaultSubdomain (run (URLMap.new cfg) ops) (run (URLMap.new cfg) (ops.map (mountedOp p))) :=
  (submounted_run p hp cfg hcfg ops _ _ rfl
    ⟨rfl, rfl, fun _ => rfl, rfl, rfl, fun b hb => (by cases hb), fun e b hb => (by cases hb)⟩ h).1

theorem submount_cfg (p : Str) (hp : MountPath p) (cfg : Config) (hcfg : PlainConfig cfg) (ops : List Op)
    (h : ∀ r ∈ mentioned ops, Plain r) : (run (URLMap.new cfg) ops).cfg = cfg :=
  (submounted_run p hp cfg hcfg ops (URLMap.new cfg) (URLMap.new cfg) rfl
    ⟨rfl, rfl, fun _ => rfl, rfl, rfl, fun b hb => (by cases hb), fun e b hb => (by cases hb)⟩ h).2

end Verif.Props.MountP
