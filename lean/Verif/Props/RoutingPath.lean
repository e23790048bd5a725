import Verif.Props.RoutingConv
/-!
C47 and C48: static routes and slash redirects (`/repo/verktyg/routing.py`).
-/
namespace Verif.Props.RoutingP
open Verif Verif.Routing Verif.Spec.Routing

/-! ### rules -/

/-- The domain a route is registered for. -/
def domainOf (cfg : Config) (r : Route) : Str :=
  if cfg.hostMatching then r.host.getD [] else r.subdomain.getD cfg.defaultSubdomain

/-- The rule as it is compiled. -/
def ruleOf (r : Route) : Str := if r.leaf then r.rule else rstripSlash r.rule

theorem compile_inv (cfg : Config) (i : Nat) (r : Route) (b : Bound) (h : compile cfg i r = .ok b) :
    r.rule.head? = some '/' ∧ b.id = i ∧ b.route = r ∧ b.strict = r.strictSlashes.getD cfg.strictSlashes ∧
    ∃ ds ps, parseRoute (domainOf cfg r) = .ok ds ∧ parseRoute (ruleOf r) = .ok ps ∧
      build_regex cfg ds = .ok b.domain ∧ build_regex cfg ps = .ok b.path := by
  unfold compile at h
  simp only at h
  split at h
  · cases h
  · rename_i hh
    split at h
    · cases h
    · cases h
    · rename_i ds ps hds hps
      split at h
      · cases h
      · cases h
      · rename_i d p hd hp
        split at h
        · cases h
          exact ⟨Classical.not_not.1 hh, rfl, rfl, rfl, ds, ps, hds, hps, hd, hp⟩
        · cases h

theorem route_none (s : Str) (h : '<' ∉ s) : Re.first routeRe none s = none := by
  unfold Re.first
  rw [List.head?_eq_none_iff]
  apply Re.run_seq_nil'
  intro m hm
  have hsp := Re.run_split _ _ _ _ hm
  apply Re.run_seq_nil
  rw [Re.run_lit, if_neg]
  rintro ⟨u, hu⟩
  apply h
  rw [← hsp, ← hu]
  simp

/-- A rule without angle brackets is text. -/
theorem parse_plain (s : Str) (h1 : '<' ∉ s) (h2 : '>' ∉ s) :
    parseRoute s = .ok (if s = [] then [] else [.text s]) := by
  have hr : parseRest s = .ok (if s = [] then [] else [.text s]) := by
    unfold parseRest
    split
    · rfl
    · rw [if_neg (by rintro (h | h) <;> contradiction)]
  unfold parseRoute
  cases s with
  | nil => exact hr
  | cons c cs =>
    rw [List.length_cons, parseGo, route_none _ h1]
    exact hr

theorem parse_last (n : Nat) : ∀ (used : List Str) (s : Str) (ps : List Piece), parseGo n used s = .ok ps →
    ∀ t, ps.getLast? = some (.text t) → t ≠ [] ∧ t <:+ s := by
  have hrest : ∀ s ps, parseRest s = .ok ps → ∀ t, ps.getLast? = some (.text t) → t ≠ [] ∧ t <:+ s := by
    intro s ps h t ht
    unfold parseRest at h
    split at h
    · cases h; cases ht
    · split at h
      · cases h
      · rename_i hs _
        cases h
        simp only [List.getLast?_singleton, Option.some.injEq, Piece.text.injEq] at ht
        subst ht
        exact ⟨hs, List.suffix_refl _⟩
  induction n with
  | zero => intro used s ps h; exact hrest s ps h
  | succ n ih =>
    intro used s ps h t ht
    rw [parseGo] at h
    split at h
    · exact hrest s ps h t ht
    · rename_i m hm
      have hsp := Re.run_split routeRe none s m (List.mem_of_mem_head? (Option.mem_def.2 hm))
      dsimp only at h
      split at h
      · cases h
      · split at h
        · cases h
        · rename_i ps' hps
          cases h
          have hl : ps'.getLast? = some (.text t) := by
            cases ps' with
            | nil =>
              rw [List.getLast?_append] at ht
              simp at ht
            | cons q qs =>
              rw [List.getLast?_append, List.getLast?_cons_cons] at ht
              cases hq : (q :: qs).getLast? with
              | none => simp at hq
              | some x => rw [hq] at ht; simpa using ht
          obtain ⟨h1, h2⟩ := ih _ _ _ hps t hl
          exact ⟨h1, h2.trans ⟨m.txt, hsp⟩⟩

theorem build_regex_last (cfg : Config) (ps : List Piece) : ∀ l, build_regex cfg ps = .ok l →
    ∀ t, l.getLast? = some (.text t) → ps.getLast? = some (.text t) := by
  induction ps with
  | nil => intro l h t ht; cases h; cases ht
  | cons p ps ih =>
    intro l h t ht
    have hstep : ∀ (q : Part) (l' : List Part), build_regex cfg ps = .ok l' → (q :: l').getLast? = some (.text t) →
        (l' = [] ∧ ps = [] ∧ q = .text t) ∨ ps.getLast? = some (.text t) := by
      intro q l' hl' hq
      cases l' with
      | nil =>
        left
        refine ⟨rfl, ?_, by simpa using hq⟩
        cases ps with
        | nil => rfl
        | cons p' ps' =>
          cases p' <;> simp only [build_regex] at hl' <;> split at hl' <;> try cases hl'
          split at hl' <;> cases hl'
      | cons x xs =>
        right
        exact ih _ hl' t (by rw [List.getLast?_cons_cons] at hq; exact hq)
    have hmore : ps.getLast? = some (.text t) → (p :: ps).getLast? = some (.text t) := by
      intro h
      cases ps with
      | nil => cases h
      | cons x xs => rw [List.getLast?_cons_cons]; exact h
    cases p with
    | text s =>
      simp only [build_regex] at h
      split at h
      · cases h
      · rename_i l' hl
        cases h
        rcases hstep _ _ hl ht with ⟨_, rfl, h3⟩ | h3
        · cases h3; rfl
        · exact hmore h3
    | var k as name =>
      simp only [build_regex] at h
      split at h
      · cases h
      · split at h
        · cases h
        · rename_i l' hl
          cases h
          rcases hstep _ _ hl ht with ⟨_, _, h3⟩ | h3
          · cases h3
          · exact hmore h3

theorem suffix_last {a b : Str} (h : a <:+ b) (ha : a ≠ []) : a.getLast? = b.getLast? := by
  obtain ⟨u, rfl⟩ := h
  rw [List.getLast?_append]
  cases hl : a.getLast? with
  | none => exact absurd (List.getLast?_eq_none_iff.1 hl) ha
  | some c => rfl

theorem rule_last (r : Route) : (ruleOf r).getLast? ≠ some '/' := by
  unfold ruleOf
  split
  · rename_i h
    simpa [Route.leaf] using h
  · intro h
    have := Py.rstripP_last (· == '/') r.rule _ h
    simp at this

/-- The last text of a compiled rule does not end with a slash. -/
theorem path_last (cfg : Config) (i : Nat) (r : Route) (b : Bound) (h : compile cfg i r = .ok b) (t : Str)
    (ht : b.path.getLast? = some (.text t)) : t ≠ [] ∧ t.getLast? ≠ some '/' := by
  obtain ⟨_, _, _, _, ds, ps, _, hps, _, hp⟩ := compile_inv cfg i r b h
  obtain ⟨h1, h2⟩ := parse_last _ _ _ _ hps t (build_regex_last cfg _ _ hp t ht)
  exact ⟨h1, by rw [suffix_last h2 h1]; exact rule_last r⟩

/-! ### C47 -/

/-- A strict leaf route without variables matches its own path, and its path with a line break
at its end, and nothing else. -/
theorem C47_match_partial (cfg : Config) (i : Nat) (r : Route) (b : Bound) (h : compile cfg i r = .ok b)
    (hs : r.strictSlashes.getD cfg.strictSlashes = true) (hl : r.rule.getLast? ≠ some '/')
    (hb : r.buildOnly = false) (hr : '<' ∉ r.rule ∧ '>' ∉ r.rule) (hd : '<' ∉ domainOf cfg r ∧ '>' ∉ domainOf cfg r)
    (path : Str) :
    b.match_ cfg path ≠ .none ↔
      path = domainOf cfg r ++ s%"|" ++ r.rule ∨ path = domainOf cfg r ++ s%"|" ++ r.rule ++ s%"\n" := by
  obtain ⟨hh, _, rfl, hst, ds, ps, hds, hps, hbd, hbp⟩ := compile_inv cfg i r b h
  have hleaf : b.route.leaf = true := by simpa [Route.leaf] using hl
  rw [parse_plain _ hd.1 hd.2] at hds
  rw [ruleOf, if_pos hleaf, parse_plain _ hr.1 hr.2] at hps
  have hone : ∀ (s : Str) (l : List Part), build_regex cfg (if s = [] then [] else [.text s]) = .ok l →
      vars l = [] ∧ (∀ ts, Fit l ts ↔ ts = []) ∧ ∀ q ts, fill (l ++ q) ts = s ++ fill q ts := by
    intro s l hl
    split at hl
    · rename_i hs
      cases hl
      subst hs
      exact ⟨rfl, fun ts => Iff.rfl, fun q ts => rfl⟩
    · cases hl
      exact ⟨rfl, fun ts => Iff.rfl, fun q ts => rfl⟩
  cases hds
  cases hps
  obtain ⟨v1, f1, g1⟩ := hone _ _ hbd
  obtain ⟨v2, f2, g2⟩ := hone _ _ hbp
  have hp : PureParts (parts b) := by
    intro n c hc
    rw [vars_parts, Bound.vars, v1, v2] at hc
    cases hc
  have hfit : Fit (parts b) [] := by
    have : ∀ (d : List Part) q, vars d = [] → (Fit (d ++ q) [] ↔ Fit q []) := by
      intro d q hd
      induction d with
      | nil => rfl
      | cons p ps ih => cases p with
        | text s => exact ih hd
        | var n c => cases hd
    rw [parts, this _ _ v1]
    exact (f2 []).2 rfl
  have hfill : ∀ ts, fill (parts b) ts = domainOf cfg b.route ++ s%"|" ++ b.route.rule := by
    intro ts
    rw [parts, g1, fill]
    have := g2 [] ts
    rw [List.append_nil] at this
    rw [this]
    simp [fill]
  have hvars : b.vars = [] := by rw [Bound.vars, v1, v2]; rfl
  have hsuf : b.suffixed = false := by simp [Bound.suffixed, hleaf, hst, hs]
  have hreads : ∀ ts suf nl, Reads b path ts suf nl ↔ ts = [] ∧ suf = [] ∧
      path = domainOf cfg b.route ++ s%"|" ++ b.route.rule ++ nl ∧ (nl = [] ∨ nl = s%"\n") := by
    intro ts suf nl
    constructor
    · rintro ⟨h1, h2, h3, h4⟩
      rw [hsuf] at h4
      simp only [Bool.false_eq_true, if_false] at h4
      subst h4
      rw [hfill, List.append_nil] at h2
      have := fit_length _ _ h1
      rw [vars_parts, hvars] at this
      exact ⟨List.length_eq_zero_iff.1 this, rfl, h2, h3⟩
    · rintro ⟨rfl, rfl, h1, h2⟩
      exact ⟨hfit, by rw [hfill, List.append_nil]; exact h1, h2, by rw [hsuf]; rfl⟩
  rcases match_cases cfg b hp hb path with ⟨h1, _, h2⟩ | ⟨ts, suf, nl, h1, _, h2⟩
  · rw [h2]
    simp only [ne_eq, not_true, false_iff]
    rintro (h | h)
    · exact h1 [] [] [] ((hreads _ _ _).2 ⟨rfl, rfl, by rw [List.append_nil]; exact h, .inl rfl⟩)
    · exact h1 [] [] _ ((hreads _ _ _).2 ⟨rfl, rfl, h, .inr rfl⟩)
  · rw [h2]
    constructor
    · intro _
      obtain ⟨_, _, h3, h4⟩ := (hreads _ _ _).1 h1
      rcases h4 with rfl | rfl
      · rw [List.append_nil] at h3; exact .inl h3
      · exact .inr h3
    · intro _ hn
      unfold outcome at hn
      rw [if_neg (by simp [hleaf]), hvars] at hn
      simp only [argsOf] at hn
      split at hn <;> cases hn

/-- The same through an adapter: a map with this route alone finds something exactly when the
path, with one slash at its beginning, is the rule, up to a line break at its end. -/
theorem C47_adapter_partial (cfg : Config) (hq : Quiet cfg) (r : Route) (b : Bound) (h : compile cfg 0 r = .ok b)
    (hs : r.strictSlashes.getD cfg.strictSlashes = true) (hl : r.rule.getLast? ≠ some '/')
    (hb : r.buildOnly = false) (hr : '<' ∉ r.rule ∧ '>' ∉ r.rule) (hd : '<' ∉ domainOf cfg r ∧ '>' ∉ domainOf cfg r)
    (a : Adapter) (ha : (if cfg.hostMatching ∧ a.serverName ≠ [] then a.serverName else a.subdomain) = domainOf cfg r)
    (pathInfo query : Str) :
    match_ (run (URLMap.new cfg) [.add [r]]) a pathInfo query ≠ .error .notFound ↔
      s%"/" ++ lstripSlash pathInfo = r.rule ∨ s%"/" ++ lstripSlash pathInfo = r.rule ++ s%"\n" := by
  have hreg : registered cfg [.add [r]] = [r] := by
    simp only [registered, List.append_nil]
    rw [accepted_cons cfg 0, h]
    rfl
  have hset : settled (URLMap.new cfg) true [.add [r]] = true := by
    have : ((URLMap.new cfg).add [r]).2 = none := by
      rw [URLMap.add, show compile (URLMap.new cfg).cfg (URLMap.new cfg).count r = .ok b from h]
      rfl
    simp [settled, this]
  rw [ne_eq, C46_not_found_partial cfg hq _ hset]
  have hpath : fullPath cfg a pathInfo = domainOf cfg r ++ s%"|" ++ (s%"/" ++ lstripSlash pathInfo) := by
    unfold fullPath
    rw [ha]
    simp
  have key := C47_match_partial cfg 0 r b h hs hl hb hr hd (fullPath cfg a pathInfo)
  rw [hpath, List.append_assoc _ r.rule, List.append_cancel_left_eq, List.append_cancel_left_eq] at key
  rw [← key, hpath]
  constructor
  · intro hx hn
    apply hx
    rintro c ⟨r', h1, h2⟩
    rw [hreg] at h1
    have hi : c.id = 0 := by
      have := (List.getElem?_eq_some_iff.1 h1).1
      simp at this
      omega
    rw [hi] at h1 h2
    cases h1
    rw [h] at h2
    cases h2
    exact hn
  · intro hx hn
    apply hx
    refine hn b ⟨r, ?_, ?_⟩
    · rw [hreg, (compile_ok_id _ _ _ _ h).1]; rfl
    · rw [(compile_ok_id _ _ _ _ h).1]; exact h

/-- As stated C47 is false: the route `/foo` matches `/foo` followed by a line break. -/
theorem C47_equal_false : ∃ (r : Route) (b : Bound), compile sampleCfg 0 r = .ok b ∧ r.leaf = true ∧ b.strict = true ∧
    b.vars = [] ∧ b.match_ sampleCfg s%"|/foo\n" = .values [] ∧ s%"|/foo\n" ≠ s%"|" ++ r.rule :=
  ⟨sampleRoute s%"/foo" s%"e", _, rfl, rfl, rfl, rfl, rfl, by decide⟩

example : ∃ b, compile sampleCfg 0 newRoute = .ok b ∧ newRoute.strictSlashes.getD sampleCfg.strictSlashes = true ∧
    newRoute.rule.getLast? ≠ some '/' ∧ ('<' ∉ newRoute.rule ∧ '>' ∉ newRoute.rule) ∧
    b.match_ sampleCfg s%"|/a/new" = .values [] ∧ b.match_ sampleCfg s%"|/a/new/" = .none :=
  ⟨_, rfl, rfl, by decide, by decide, rfl, rfl⟩

/-! ### C48 -/

theorem seqs_run (l : List (Re Char)) (r : Re Char) : ∀ prev s,
    Re.run (seqs l r) prev s = (Re.run (seqs l .eps) prev s).flatMap (Re.andThen (Re.run r) prev) := by
  induction l with
  | nil =>
    intro prev s
    simp [seqs, Re.run, Re.andThen, Re.after]
  | cons a as ih =>
    intro prev s
    simp only [seqs, Re.run, List.flatMap_assoc]
    congr 1
    funext m
    simp only [Re.andThen]
    rw [ih, List.map_flatMap, List.flatMap_map]
    congr 1
    funext m'
    simp only [Re.andThen, List.map_map, after_append]
    congr 1
    funext m''
    simp

theorem free_seqs (ps : List Part) : ∀ n, PureParts ps → Re.Free (seqs (partsRe n ps) .eps) := by
  induction ps with
  | nil => intro n _; trivial
  | cons p ps ih =>
    intro n h
    cases p with
    | text s => exact ⟨(pure_lit s).free, ih n h.tail⟩
    | var k c => exact ⟨(h k c (.head _)).free, ih (n + 1) h.tail⟩

/-- Put a slash behind a match, in the group of the suffix. -/
def slashed (m : Re.M Char) : Re.M Char :=
  ⟨m.txt ++ s%"/", m.rest, match m.caps with | (k, _) :: r => (k, s%"/") :: r | [] => []⟩

theorem slashed_reading (b : Bound) (hs : b.suffixed = true) (ts : List Str) :
    slashed (reading b ts [] []) = reading b ts s%"/" [] := by
  simp [slashed, reading, hs]

theorem run_tail (b : Bound) (hs : b.suffixed = true) (prev : Option Char) :
    (Re.run (tailRe b) prev [] = if prev = some '/' then [] else [⟨[], [], [(b.vars.length, [])]⟩]) ∧
    (Re.run (tailRe b) prev s%"/" = if prev = some '/' then [] else [⟨s%"/", [], [(b.vars.length, s%"/")]⟩]) := by
  unfold tailRe
  rw [if_pos hs]
  constructor
  · cases prev with
    | none => simp [Re.run, Re.opt, Re.lit, Re.andThen, Re.after, atEnd]
    | some c =>
      by_cases hc : c = '/'
      · subst hc; simp [Re.run]
      · simp [Re.run, Re.opt, Re.lit, Re.andThen, Re.after, atEnd, hc]
  · cases prev with
    | none => simp [Re.run, Re.opt, Re.lit, Re.andThen, Re.after, atEnd]
    | some c =>
      by_cases hc : c = '/'
      · subst hc; simp [Re.run]
      · simp [Re.run, Re.opt, Re.lit, Re.andThen, Re.after, atEnd, hc]

theorem flatMap_eq {α β : Type _} (f g : α → List β) (l : List α) (h : ∀ x ∈ l, f x = g x) : l.flatMap f = l.flatMap g := by
  induction l with
  | nil => rfl
  | cons x xs ih =>
    rw [List.flatMap_cons, List.flatMap_cons, h x (.head _), ih fun y hy => h y (.tail _ hy)]

/-- With a slash behind it, a path that ends neither with a slash nor with a line break is
matched in the same ways, in the same order. -/
theorem run_slash (b : Bound) (hp : PureParts (parts b)) (hs : b.suffixed = true) (x : Str)
    (h1 : x.getLast? ≠ some '/') (h2 : x.getLast? ≠ some '\n') :
    Re.run b.re none (x ++ s%"/") = (Re.run b.re none x).map slashed := by
  rw [re_eq, seqs_run _ (tailRe b) none (x ++ s%"/"), seqs_run _ (tailRe b) none x, Re.flatMap_skip (fun m => decide (s%"/".length ≤ m.rest.length)),
    Re.run_append (free_seqs _ _ hp), List.flatMap_map, List.map_flatMap]
  · apply flatMap_eq
    intro m hm
    have hsp := Re.run_split _ _ _ _ hm
    by_cases hr : m.rest = []
    · have htx : m.txt = x := by rw [← hsp, hr, List.append_nil]
      have hprev : Re.after none m.txt ≠ some '/' := by
        rw [htx]
        unfold Re.after
        cases hx : x.getLast? with
        | none => simp
        | some c => rw [hx] at h1; exact h1
      simp only [Re.andThen, Re.M.extend, hr, List.nil_append]
      rw [(run_tail b hs _).1, (run_tail b hs _).2, if_neg hprev, if_neg hprev]
      simp [slashed]
    · have hlast : m.rest.getLast? = x.getLast? := suffix_last ⟨m.txt, hsp⟩ hr
      have e1 : Re.run (tailRe b) (Re.after none m.txt) m.rest = [] := by
        rw [List.eq_nil_iff_forall_not_mem]
        intro y hy
        obtain ⟨suf, nl, e, hnl, hx⟩ := (mem_tail _ _ _ _).1 hy
        rw [if_pos hs] at hx
        rw [← hlast, e] at h1 h2
        rw [e] at hr
        rcases hnl with rfl | rfl
        · rcases hx.2.1 with rfl | rfl
          · exact hr rfl
          · exact h1 rfl
        · apply h2
          rw [List.getLast?_append]
          rfl
      have e2 : Re.run (tailRe b) (Re.after none m.txt) (m.rest ++ s%"/") = [] := by
        rw [List.eq_nil_iff_forall_not_mem]
        intro y hy
        obtain ⟨suf, nl, e, hnl, hx⟩ := (mem_tail _ _ _ _).1 hy
        rw [if_pos hs] at hx
        have hlen := congrArg List.length e
        have hpos := List.length_pos_iff.2 hr
        rcases hnl with rfl | rfl
        · rcases hx.2.1 with rfl | rfl <;> simp at hlen <;> exact hr hlen
        · have := congrArg List.getLast? e
          rw [List.getLast?_append, List.getLast?_append] at this
          simp at this
      simp only [Re.andThen, Re.M.extend]
      rw [e1, e2]
      rfl
  · intro m hm hlt
    have hsp := Re.run_split _ _ _ _ hm
    have hr : m.rest = [] := by
      simp at hlt
      exact hlt
    have htx : m.txt = x ++ s%"/" := by rw [← hsp, hr, List.append_nil]
    simp only [Re.andThen]
    rw [hr, (run_tail b hs _).1, if_pos]
    · rfl
    · rw [htx]
      simp [Re.after]

theorem reads_plain {b : Bound} {x : Str} {ts : List Str} {suf nl : Str} (hr : Reads b x ts suf nl)
    (h1 : x.getLast? ≠ some '/') (h2 : x.getLast? ≠ some '\n') : suf = [] ∧ nl = [] := by
  have hnl : nl = [] := by
    rcases hr.nl with h | h
    · exact h
    · exfalso
      apply h2
      rw [hr.path, h, List.getLast?_append]
      rfl
  refine ⟨?_, hnl⟩
  have h4 := hr.suffix
  split at h4
  · rcases h4.2 with h | h
    · exact h
    · exfalso
      apply h1
      rw [hr.path, hnl, h, List.append_nil, List.getLast?_append]
      rfl
  · exact h4

/-- A route that takes an optional slash gives the same answer with it as without it, except
that it does not ask for it. -/
theorem match_slash (cfg : Config) (b : Bound) (hp : PureParts (parts b)) (hs : b.suffixed = true) (x : Str)
    (h1 : x.getLast? ≠ some '/') (h2 : x.getLast? ≠ some '\n') :
    (b.match_ cfg (x ++ s%"/") = if b.strict ∧ !b.route.leaf then
        Bound.match_ cfg { b with strict := false } x else b.match_ cfg x) ∧
    (b.strict = true → b.route.leaf = false → b.match_ cfg x = .slash ∨
      b.match_ cfg x = .none ∧ b.match_ cfg (x ++ s%"/") = .none) ∧
    b.match_ cfg (x ++ s%"/") ≠ .slash := by
  cases hb : b.route.buildOnly with
  | true =>
    have : ∀ (c : Bound) y, c.route.buildOnly = true → c.match_ cfg y = .none := fun c y h => by simp [Bound.match_, h]
    refine ⟨?_, ?_, ?_⟩
    · rw [this b _ hb, this b _ hb, this { b with strict := false } _ hb]
      split <;> rfl
    · intro _ _
      exact .inr ⟨this b _ hb, this b _ hb⟩
    · rw [this b _ hb]
      intro h; cases h
  | false =>
    have hrun : Re.first b.re none (x ++ s%"/") = (Re.first b.re none x).map slashed := by
      unfold Re.first
      rw [run_slash b hp hs x h1 h2, List.head?_map]
    rcases match_cases cfg b hp hb x with ⟨_, hf, hn⟩ | ⟨ts, suf, nl, hr, hf, hm⟩
    · have hn' : b.match_ cfg (x ++ s%"/") = .none := by
        rw [hf] at hrun
        simp [Bound.match_, hb, hrun]
      refine ⟨?_, fun _ _ => .inr ⟨hn, hn'⟩, by rw [hn']; intro h; cases h⟩
      rw [hn', hn]
      split
      · rename_i hc
        have hre : Bound.re { b with strict := false } = b.re := by
          have : Bound.suffixed { b with strict := false } = b.suffixed := by
            have := hc.2
            simp at this
            simp [Bound.suffixed, this]
          unfold Bound.re tailRe
          rw [this]
          rfl
        simp [Bound.match_, hre, hf]
      · rfl
    · obtain ⟨rfl, rfl⟩ := reads_plain hr h1 h2
      have hl : ts.length = b.vars.length := by rw [fit_length _ _ hr.fit, vars_parts]
      have hm' : b.match_ cfg (x ++ s%"/") = outcome cfg b ts s%"/" := by
        refine match_reading cfg b hb _ ts s%"/" [] hl ?_
        rw [hrun, hf, Option.map_some, slashed_reading b hs]
      refine ⟨?_, ?_, ?_⟩
      · rw [hm']
        split
        · rename_i hc
          have hsuf : Bound.suffixed { b with strict := false } = b.suffixed := by
            have := hc.2
            simp at this
            simp [Bound.suffixed, this]
          have hre : Bound.re { b with strict := false } = b.re := by
            unfold Bound.re tailRe
            rw [hsuf]
            rfl
          have hrd : reading { b with strict := false } ts [] [] = reading b ts [] [] := by
            unfold reading
            rw [hsuf]
            rfl
          rw [match_reading cfg { b with strict := false } hb x ts [] [] hl (by rw [hre, hrd]; exact hf)]
          unfold outcome
          rw [if_neg (by simp), if_neg (by simp)]
          rfl
        · rename_i hc
          rw [hm]
          unfold outcome
          rw [if_neg (by simp), if_neg (fun h => hc ⟨h.1, h.2.1⟩)]
      · intro h3 h4
        left
        rw [hm]
        unfold outcome
        rw [if_pos ⟨h3, by simp [h4], rfl⟩]
      · rw [hm']
        unfold outcome
        rw [if_neg (by simp)]
        split
        · intro h; cases h
        · split <;> (intro h; cases h)

/-- A route asks for a slash only where the path has none. -/
theorem slash_last (cfg : Config) (b : Bound) (hp : PureParts (parts b)) (x : Str) (h : b.match_ cfg x = .slash)
    (h2 : x.getLast? ≠ some '\n') : b.strict = true ∧ b.route.leaf = false ∧ x.getLast? ≠ some '/' := by
  have hb : b.route.buildOnly = false := by
    cases h' : b.route.buildOnly with
    | false => rfl
    | true => simp [Bound.match_, h'] at h
  rcases match_cases cfg b hp hb x with ⟨_, _, hn⟩ | ⟨ts, suf, nl, hr, _, hm⟩
  · rw [hn] at h; cases h
  · rw [hm] at h
    unfold outcome at h
    split at h
    · rename_i hc
      have hs : b.suffixed = true := by simp [Bound.suffixed, hc.2.1]
      have hsu := hr.suffix
      rw [if_pos hs] at hsu
      refine ⟨hc.1, by simpa using hc.2.1, ?_⟩
      have hnl : nl = [] := by
        rcases hr.nl with h | h
        · exact h
        · exfalso
          apply h2
          rw [hr.path, h, List.getLast?_append]
          rfl
      rw [hr.path, hnl, hc.2.2, List.append_nil, List.append_nil]
      exact hsu.1
    · split at h
      · cases h
      · split at h <;> cases h

/-- The converters of a map have patterns without groups, `$` and look-behind. -/
def PureConfig (cfg : Config) : Prop := ∀ k as c, cfg.conv k as = .ok c → Re.Pure c.re

theorem pure_parts (cfg : Config) (hcfg : PureConfig cfg) (i : Nat) (r : Route) (b : Bound) (hc : compile cfg i r = .ok b) :
    PureParts (parts b) := by
  intro n c h
  rw [vars_parts] at h
  obtain ⟨k, as, h⟩ := compile_conv cfg i r b hc n c h
  exact hcfg k as c h

/-- A route that asks for a slash does not ask again when it is there: it then gives the answer
that it would give without the slash if it were not strict. -/
theorem C48_route_partial (cfg : Config) (hcfg : PureConfig cfg) (i : Nat) (r : Route) (b : Bound)
    (hc : compile cfg i r = .ok b) (x : Str) (h2 : x.getLast? ≠ some '\n') (h : b.match_ cfg x = .slash) :
    b.match_ cfg (x ++ s%"/") = Bound.match_ cfg { b with strict := false } x ∧
    b.match_ cfg (x ++ s%"/") ≠ .slash := by
  have hp := pure_parts cfg hcfg i r b hc
  obtain ⟨h3, h4, h5⟩ := slash_last cfg b hp x h h2
  have hs : b.suffixed = true := by simp [Bound.suffixed, h4]
  obtain ⟨e1, _, e3⟩ := match_slash cfg b hp hs x h5 h2
  rw [if_pos ⟨h3, by simp [h4]⟩] at e1
  exact ⟨e1, e3⟩

/-- A strict branch route which matches a path with a slash at its end asks for the slash when
it is not there. -/
theorem C48_asks (cfg : Config) (hcfg : PureConfig cfg) (i : Nat) (r : Route) (b : Bound)
    (hc : compile cfg i r = .ok b) (h3 : b.strict = true) (h4 : r.leaf = false) (x : Str)
    (h1 : x.getLast? ≠ some '/') (h2 : x.getLast? ≠ some '\n')
    (h : b.match_ cfg (x ++ s%"/") ≠ .none) : b.match_ cfg x = .slash := by
  have hp := pure_parts cfg hcfg i r b hc
  obtain ⟨_, _, hr, _⟩ := compile_inv cfg i r b hc
  have h4' : b.route.leaf = false := by rw [hr]; exact h4
  have hs : b.suffixed = true := by simp [Bound.suffixed, h4']
  rcases (match_slash cfg b hp hs x h1 h2).2.1 h3 h4' with e | e
  · exact e
  · exact absurd e.2 h

/-! ### slash redirects of a map -/

/-- The best of the registered routes that match a path. -/
def Best (cfg : Config) (ops : List Op) (path : Str) (b : Bound) : Prop :=
  Registered cfg ops b ∧ b.match_ cfg path ≠ .none ∧
  ∀ c, Registered cfg ops c → c.match_ cfg path ≠ .none → c ≠ b →
    MoreSpecific (shape b) (shape c) ∨ shape b = shape c ∧ b.id < c.id

theorem best_unique (cfg : Config) (ops : List Op) (path : Str) (b c : Bound) (hb : Best cfg ops path b)
    (hc : Best cfg ops path c) : b = c := by
  apply Classical.byContradiction
  intro hne
  rcases hb.2.2 c hc.1 hc.2.1 (Ne.symm hne) with h1 | ⟨h1, h1'⟩
  · rcases hc.2.2 b hb.1 hb.2.1 hne with h2 | ⟨h2, _⟩
    · exact specific_irrefl _ (specific_trans h1 h2)
    · rw [h2] at h1
      exact specific_irrefl _ h1
  · rcases hc.2.2 b hb.1 hb.2.1 hne with h2 | ⟨_, h2'⟩
    · rw [h1] at h2
      exact specific_irrefl _ h2
    · omega

theorem match_best (cfg : Config) (ops : List Op) (hs : settled (URLMap.new cfg) true ops = true) (a : Adapter)
    (pathInfo query : Str) (b : Bound) (hb : Best cfg ops (fullPath cfg a pathInfo) b) :
    match_ (run (URLMap.new cfg) ops) a pathInfo query =
      answer (run (URLMap.new cfg) ops).update a (fullPath cfg a pathInfo) pathInfo query b
        (b.match_ cfg (fullPath cfg a pathInfo)) := by
  rcases C46_outcome_partial cfg ops hs a pathInfo query with ⟨h1, _⟩ | ⟨c, h1, h2, h3, h4⟩
  · exact absurd (h1 b hb.1) hb.2.1
  · rw [best_unique cfg ops _ b c hb ⟨h1, h2, h4⟩]
    exact h3

/-- The texts of the last variable, if the rule ends with one, are not empty and do not end
with a slash. -/
def Closed (b : Bound) : Prop :=
  ∀ n c, b.path.getLast? = some (.var n c) → ∀ t, Re.Lang c.re t → t ≠ [] ∧ t.getLast? ≠ some '/'

theorem fill_last (ps : List Part) : ∀ ts, Fit ps ts → ps ≠ [] →
    (∀ s, ps.getLast? = some (.text s) → s ≠ [] ∧ s.getLast? ≠ some '/') →
    (∀ n c, ps.getLast? = some (.var n c) → ∀ t ∈ ts, Re.Lang c.re t → t ≠ [] ∧ t.getLast? ≠ some '/') →
    fill ps ts ≠ [] ∧ (fill ps ts).getLast? ≠ some '/' := by
  induction ps with
  | nil => intro ts _ h; exact absurd rfl h
  | cons p ps ih =>
    intro ts hf _ h1 h2
    have happ : ∀ a b : Str, b ≠ [] ∧ b.getLast? ≠ some '/' → a ++ b ≠ [] ∧ (a ++ b).getLast? ≠ some '/' := by
      rintro a b ⟨h1, h2⟩
      refine ⟨by simp [h1], ?_⟩
      rw [← suffix_last (List.suffix_append a b) h1]
      exact h2
    by_cases hps : ps = []
    · subst hps
      cases p with
      | text s =>
        simp only [fill, List.append_nil]
        exact h1 s rfl
      | var n c =>
        cases ts with
        | nil => exact hf.elim
        | cons t ts =>
          simp only [fill, List.append_nil]
          exact h2 n c rfl t (.head _) hf.1
    · have hlast : (p :: ps).getLast? = ps.getLast? := by
        cases ps with
        | nil => exact absurd rfl hps
        | cons q qs => rw [List.getLast?_cons_cons]
      rw [hlast] at h1 h2
      cases p with
      | text s => exact happ _ _ (ih ts hf hps h1 h2)
      | var n c =>
        cases ts with
        | nil => exact hf.elim
        | cons t ts => exact happ _ _ (ih ts hf.2 hps h1 fun n c h t ht => h2 n c h t (.tail _ ht))

theorem parts_last (b : Bound) (q : Part) (h : (parts b).getLast? = some q) :
    b.path.getLast? = some q ∨ b.path = [] ∧ q = .text s%"|" := by
  unfold parts at h
  rw [List.getLast?_append] at h
  cases hp : b.path with
  | nil =>
    right
    rw [hp] at h
    simpa using h.symm
  | cons x xs =>
    left
    rw [hp, List.getLast?_cons_cons] at h
    cases hx : (x :: xs).getLast? with
    | none => simp at hx
    | some y => rw [hx] at h; simpa using h

/-- Strict leaf routes do not match paths that end with a slash. -/
theorem closed_none (cfg : Config) (hcfg : PureConfig cfg) (i : Nat) (r : Route) (b : Bound)
    (hc : compile cfg i r = .ok b) (hcl : Closed b) (hs : b.suffixed = false) (x : Str) :
    b.match_ cfg (x ++ s%"/") = .none := by
  cases hb : b.route.buildOnly with
  | true => simp [Bound.match_, hb]
  | false =>
    rcases match_cases cfg b (pure_parts cfg hcfg i r b hc) hb (x ++ s%"/") with ⟨_, _, hn⟩ | ⟨ts, suf, nl, hr, _, _⟩
    · exact hn
    · exfalso
      have hsu := hr.suffix
      rw [hs] at hsu
      simp only [Bool.false_eq_true, if_false] at hsu
      have hfl := fill_last (parts b) ts hr.fit (by unfold parts; simp) (fun s h => by
          rcases parts_last b _ h with h | ⟨_, h⟩
          · exact path_last cfg i r b hc s h
          · cases h; exact ⟨by decide, by decide⟩)
        (fun n c h t _ hl => by
          rcases parts_last b _ h with h | ⟨_, h⟩
          · exact hcl n c h t hl
          · cases h)
      have hp := hr.path
      rw [hsu, List.append_nil] at hp
      rcases hr.nl with rfl | rfl
      · rw [List.append_nil] at hp
        apply hfl.2
        rw [← hp]
        simp
      · have := congrArg List.getLast? hp
        rw [List.getLast?_append, List.getLast?_append] at this
        simp at this

/-- With a slash behind it, a path is matched by no route that does not match it without. -/
theorem closed_slash (cfg : Config) (hcfg : PureConfig cfg) (i : Nat) (r : Route) (b : Bound)
    (hc : compile cfg i r = .ok b) (hcl : Closed b) (x : Str) (h1 : x.getLast? ≠ some '/') (h2 : x.getLast? ≠ some '\n')
    (h : b.match_ cfg (x ++ s%"/") ≠ .none) : b.match_ cfg x ≠ .none := by
  cases hs : b.suffixed with
  | false => exact absurd (closed_none cfg hcfg i r b hc hcl hs x) h
  | true =>
    obtain ⟨e1, e2, _⟩ := match_slash cfg b (pure_parts cfg hcfg i r b hc) hs x h1 h2
    by_cases hst : b.strict = true ∧ (!b.route.leaf) = true
    · rcases e2 hst.1 (by simpa using hst.2) with e | e
      · rw [e]; intro hx; cases hx
      · exact absurd e.2 h
    · rw [if_neg hst] at e1
      rw [← e1]
      exact h

/-- When the route chosen for a path asks for a slash, the answer is a redirect to an address
whose path stands for the path with a slash at its end; and the request for that path is
answered by the same route, which does not ask for a slash again, with the arguments it would
have had without the slash if it were not strict.  (If these arguments are invalid the second
request is not answered by this route.) -/
theorem C48_map_partial (cfg : Config) (hcfg : PureConfig cfg) (ops : List Op)
    (hs : settled (URLMap.new cfg) true ops = true) (hcl : ∀ b, Registered cfg ops b → Closed b)
    (a : Adapter) (pathInfo query : Str) (hnl : pathInfo.getLast? ≠ some '\n') (b : Bound)
    (hb : Best cfg ops (fullPath cfg a pathInfo) b) (h : b.match_ cfg (fullPath cfg a pathInfo) = .slash) :
    (∃ q, match_ (run (URLMap.new cfg) ops) a pathInfo query = .ok (.redirect
        (unparse a.scheme (getHost cfg a none) (joinPath (rstripSlash (lstripSlash a.scriptName)) q) query)) ∧
      Percent.meaning (utf8 q) = utf8 (lstripSlash pathInfo ++ s%"/")) ∧
    (∀ f, Bound.match_ cfg { b with strict := false } (fullPath cfg a pathInfo) = f → f ≠ .none →
      f ≠ .slash ∧ Best cfg ops (fullPath cfg a (pathInfo ++ s%"/")) b ∧
      match_ (run (URLMap.new cfg) ops) a (pathInfo ++ s%"/") query =
        answer (run (URLMap.new cfg) ops).update a (fullPath cfg a (pathInfo ++ s%"/")) (pathInfo ++ s%"/") query b f) := by
  have hcu : ∀ m : URLMap, m.update.cfg = m.cfg := fun m => by unfold URLMap.update; split <;> rfl
  have hcf : (run (URLMap.new cfg) ops).update.cfg = cfg :=
    (hcu _).trans (listed_run ops (URLMap.new cfg) [] (fun e b hb => by cases hb)).2
  obtain ⟨r, hr1, hr2⟩ := hb.1
  have hp := pure_parts cfg hcfg _ r b hr2
  have hlp : ∀ s : Str, lstripSlash s ≠ [] → (fullPath cfg a s).getLast? = s.getLast? := by
    intro s hs
    have h1 : lstripSlash s <:+ s := List.dropWhile_suffix _
    rw [← suffix_last h1 hs]
    unfold fullPath
    exact (suffix_last (List.suffix_append _ _) hs).symm
  have hl0 : lstripSlash pathInfo = [] → fullPath cfg a pathInfo =
      (if cfg.hostMatching ∧ a.serverName ≠ [] then a.serverName else a.subdomain) ++ s%"|/" := by
    intro h0
    unfold fullPath
    rw [h0, List.append_nil]
  have hnl' : (fullPath cfg a pathInfo).getLast? ≠ some '\n' := by
    by_cases h0 : lstripSlash pathInfo = []
    · rw [hl0 h0, List.getLast?_append]
      simp
    · rw [hlp _ h0]; exact hnl
  obtain ⟨h3, h4, h5⟩ := slash_last cfg b hp _ h hnl'
  have hne : lstripSlash pathInfo ≠ [] := by
    intro h0
    apply h5
    rw [hl0 h0, List.getLast?_append]
    simp
  have hfull : fullPath cfg a (pathInfo ++ s%"/") = fullPath cfg a pathInfo ++ s%"/" := by
    have : lstripSlash (pathInfo ++ s%"/") = lstripSlash pathInfo ++ s%"/" := by
      clear hl0 hlp hnl' h5 h hb hnl
      induction pathInfo with
      | nil => exact absurd rfl hne
      | cons c cs ih =>
        by_cases hc : c = '/'
        · subst hc
          simp only [lstripSlash, List.cons_append, List.dropWhile_cons, beq_self_eq_true, if_true] at ih hne ⊢
          exact ih hne
        · simp [lstripSlash, hc]
    unfold fullPath
    rw [this]
    simp only [List.append_assoc]
  constructor
  · refine ⟨urlquote b%"/:|+" (lstripSlash pathInfo) ++ s%"/", ?_, ?_⟩
    · rw [match_best cfg ops hs a pathInfo query b hb, h, answer, hcf, makeRedirectUrl,
        lstrip_quote _ (by decide) _ _ hne]
    · exact ((written_quote b%"/:|+" (by decide) (by decide) _).append (written_plain s%"/" (by decide))).meaning
  · intro f hf hfn
    obtain ⟨e1, e2⟩ := C48_route_partial cfg hcfg _ r b hr2 _ hnl' h
    have hf' : b.match_ cfg (fullPath cfg a (pathInfo ++ s%"/")) = f := by rw [hfull, e1, hf]
    have hbest : Best cfg ops (fullPath cfg a (pathInfo ++ s%"/")) b := by
      refine ⟨hb.1, by rw [hf']; exact hfn, ?_⟩
      intro c hc hcm hcb
      rw [hfull] at hcm
      obtain ⟨r', _, hr'⟩ := id hc
      exact hb.2.2 c hc (closed_slash cfg hcfg _ r' c hr' (hcl c hc) _ h5 hnl' hcm) hcb
    refine ⟨?_, hbest, ?_⟩
    · rw [← hf', hfull]; exact e2
    · rw [match_best cfg ops hs a _ query b hbest, hf']

/-- In a map without defaults the request for the path with the slash finds the route, with the
arguments it would have had without the slash if it were not strict. -/
theorem C48_found_partial (cfg : Config) (hcfg : PureConfig cfg) (ops : List Op)
    (hs : settled (URLMap.new cfg) true ops = true) (hcl : ∀ b, Registered cfg ops b → Closed b)
    (hd : cfg.redirectDefaults = false ∨ ∀ r ∈ registered cfg ops, r.defaults = [])
    (a : Adapter) (pathInfo query : Str) (hnl : pathInfo.getLast? ≠ some '\n') (b : Bound)
    (hb : Best cfg ops (fullPath cfg a pathInfo) b) (h : b.match_ cfg (fullPath cfg a pathInfo) = .slash)
    (hto : b.route.redirectTo = none) (vs : Values)
    (hv : Bound.match_ cfg { b with strict := false } (fullPath cfg a pathInfo) = .values vs) :
    match_ (run (URLMap.new cfg) ops) a (pathInfo ++ s%"/") query = .ok (.found b vs) := by
  obtain ⟨_, _, h2⟩ := (C48_map_partial cfg hcfg ops hs hcl a pathInfo query hnl b hb h).2 _ hv (by simp)
  have hcu : ∀ m : URLMap, m.update.cfg = m.cfg := fun m => by unfold URLMap.update; split <;> rfl
  have hl := listed_run ops (URLMap.new cfg) [] (fun e b hb => by cases hb)
  have hcf : (run (URLMap.new cfg) ops).update.cfg = cfg := (hcu _).trans hl.2
  rw [h2, answer, hcf]
  have : (if cfg.redirectDefaults = true then getDefaultRedirect cfg a b vs query
      ((run (URLMap.new cfg) ops).update.byEndpoint b.route.endpoint) else .ok none) = .ok none := by
    rcases hd with h | h
    · rw [if_neg (by rw [h]; decide)]
    · split
      · exact redirect_none _ _ _ _ _ _ fun b hb => h _ ((listed_update _ _ hl.1) _ b hb).1
      · rfl
  rw [this]
  dsimp only
  rw [hto]

/-- As stated C48 is false: the conversion of the arguments is not checked before the redirect.
The branch route `/<int(max=5):n>/` answers `/9` with a redirect to `/9/`, which is not found. -/
theorem C48_conversion_false : ∃ (cfg : Config) (r : Route) (b : Bound), compile cfg 0 r = .ok b ∧
    b.match_ cfg s%"|/9" = .slash ∧ b.match_ cfg s%"|/9/" = .none ∧
    match_ (run (URLMap.new cfg) [.add [r]]) sampleAdapter s%"/9" [] = .ok (.redirect s%"http://example.org/9/") ∧
    match_ (run (URLMap.new cfg) [.add [r]]) sampleAdapter s%"/9/" [] = .error .notFound :=
  ⟨⟨false, [], true, true, fun _ _ => .ok (intConv asciiDec 0 none (some 5)), fun _ p => p⟩,
    sampleRoute s%"/<int:n>/" s%"e", _, rfl, rfl, rfl, rfl, rfl⟩

/-- The same with a line break: `/foo\n` is redirected to `/foo%0A/`, which is not found. -/
theorem C48_newline_false : ∃ (r : Route) (b : Bound), compile sampleCfg 0 r = .ok b ∧
    b.match_ sampleCfg s%"|/foo\n" = .slash ∧
    match_ (run (URLMap.new sampleCfg) [.add [r]]) sampleAdapter s%"/foo\n" [] =
      .ok (.redirect s%"http://example.org/foo%0A/") ∧
    match_ (run (URLMap.new sampleCfg) [.add [r]]) sampleAdapter s%"/foo\n/" [] = .error .notFound :=
  ⟨sampleRoute s%"/foo/" s%"e", _, rfl, rfl, rfl, rfl⟩

/-- The sample converters have patterns without groups. -/
theorem sample_pure : PureConfig sampleCfg := by
  intro k as c h
  simp only [sampleCfg, sampleConv] at h
  split at h
  · cases h; exact pure_rep _ _ _
  · split at h
    · cases h; exact ⟨trivial, trivial⟩
    · split at h
      · cases h; exact ⟨trivial, trivial⟩
      · cases h

/-- A branch route with a variable. -/
def dirRoute : Route := sampleRoute s%"/<x>/" s%"dir"

def dirBound : Bound := ⟨0, dirRoute, true, [], [.text s%"/", .var s%"x" (stringConv 1 none)]⟩

theorem dir_registered (b : Bound) (h : Registered sampleCfg [.add [dirRoute]] b) : b = dirBound := by
  obtain ⟨r, h1, h2⟩ := h
  have hr : registered sampleCfg [.add [dirRoute]] = [dirRoute] := rfl
  rw [hr] at h1
  have hi : b.id = 0 := by
    have := (List.getElem?_eq_some_iff.1 h1).1
    simpa using this
  rw [hi] at h1 h2
  cases h1
  have : compile sampleCfg 0 dirRoute = .ok dirBound := rfl
  rw [this] at h2
  exact (Except.ok.inj h2).symm

/-- All of the hypotheses are met by a map with the route `/<x>/` and the path `/a b`. -/
example : match_ (run (URLMap.new sampleCfg) [.add [dirRoute]]) sampleAdapter s%"/a b/" s%"q=1" =
    .ok (.found dirBound [(s%"x", .str s%"a b")]) := by
  refine C48_found_partial sampleCfg sample_pure _ rfl ?_ (.inr ?_) sampleAdapter s%"/a b" s%"q=1" (by decide) dirBound
    ⟨⟨dirRoute, rfl, rfl⟩, ?_, ?_⟩ rfl rfl _ rfl
  · intro b hb
    rw [dir_registered b hb]
    intro n c h t ht
    cases h
    obtain ⟨h3, h1, _⟩ := (lang_rep _ _ _ (by simp) _).1 ht
    refine ⟨by rintro rfl; exact absurd h1 (by decide), ?_⟩
    intro hl
    have := h3 _ (List.mem_of_getLast? hl)
    exact absurd this (by decide)
  · intro r hr
    have : registered sampleCfg [.add [dirRoute]] = [dirRoute] := rfl
    rw [this] at hr
    rw [List.mem_singleton.1 hr]
    rfl
  · have : Bound.match_ sampleCfg dirBound (fullPath sampleCfg sampleAdapter s%"/a b") = .slash := rfl
    rw [this]; intro h; cases h
  · intro c hc _ hne
    exact absurd (dir_registered c hc) hne

example : match_ (run (URLMap.new sampleCfg) [.add [dirRoute]]) sampleAdapter s%"/a b" s%"q=1" =
      .ok (.redirect s%"http://example.org/a%20b/?q=1") := rfl

end Verif.Props.RoutingP
