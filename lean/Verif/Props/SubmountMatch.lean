import Verif.Props.RouteSubmount
/-!
C102: routes within `Submount` match below its path what they match without it
(`/repo/verktyg/routing.py`).
-/
namespace Verif.Props.MountP
open Verif Verif.Routing Verif.Props.RoutingP Verif.Props.FactoryP Verif.Spec.Routing

/-! ### one route -/

/-- The groups of the matches of a pattern. -/
def groups (r : Re Char) (prev : Option Char) (s : Str) : List (List (Nat × Str)) := (Re.run r prev s).map (·.caps)

theorem groups_lit (w : Str) (k : Re Char) (prev : Option Char) (s : Str) :
    groups (.seq (Re.lit w) k) prev s = if w <+: s then groups k (Re.after prev w) (s.drop w.length) else [] := by
  unfold groups
  simp only [Re.run, Re.run_lit]
  split
  · simp [Re.andThen, Function.comp_def]
  · rfl

/-- Not distinguished by the look-behind of the optional slash. -/
def SameBefore (p q : Option Char) : Prop := p = q ∨ (p ≠ some '/' ∧ q ≠ some '/')

theorem same_after {p q : Option Char} (h : SameBefore p q) (t : Str) : SameBefore (Re.after p t) (Re.after q t) := by
  unfold Re.after
  cases t.getLast? with
  | none => exact h
  | some c => exact .inl rfl

theorem tail_before (b : Bound) {p q : Option Char} (h : SameBefore p q) (s : Str) :
    Re.run (tailRe b) p s = Re.run (tailRe b) q s := by
  have hend : ∀ p q s, Re.run atEnd p s = Re.run atEnd q s := by
    intro p q s; cases s <;> rfl
  unfold tailRe
  split
  · have hx : ∀ p q s, Re.run (.seq (.grp b.vars.length (Re.opt (Re.lit s%"/"))) atEnd) p s =
        Re.run (.seq (.grp b.vars.length (Re.opt (Re.lit s%"/"))) atEnd) q s := by
      intro p q s
      rw [Re.run, Re.run, Re.run_prev (r := .grp b.vars.length (Re.opt (Re.lit s%"/")))
        (by simp [Re.opt, Re.lit, Re.Free]) p q s]
      refine flatMap_congr _ _ _ fun m _ => ?_
      unfold Re.andThen
      rw [hend (Re.after p m.txt) (Re.after q m.txt)]
    have hn : Re.run (.notAfter (· == '/')) p s = Re.run (.notAfter (· == '/')) q s := by
      rcases h with rfl | ⟨h1, h2⟩
      · rfl
      · cases p <;> cases q <;> simp_all [Re.run]
    rw [Re.run, Re.run, hn]
    refine flatMap_congr _ _ _ fun m _ => ?_
    unfold Re.andThen
    rw [hx (Re.after p m.txt) (Re.after q m.txt)]
  · exact hend p q s

theorem parts_before (b : Bound) (ps : List Part) : ∀ (_ : PureParts ps) (n : Nat) {p q : Option Char}
    (_ : SameBefore p q) (s : Str),
    Re.run (seqs (partsRe n ps) (tailRe b)) p s = Re.run (seqs (partsRe n ps) (tailRe b)) q s := by
  induction ps with
  | nil => intro _ n p q h s; exact tail_before b h s
  | cons x xs ih =>
    intro hp n p q h s
    cases x with
    | text t =>
      simp only [partsRe, seqs, Re.run, Re.run_lit]
      refine flatMap_congr _ _ _ fun m _ => ?_
      unfold Re.andThen
      rw [ih hp.tail n (same_after h m.txt)]
    | var v c =>
      simp only [partsRe, seqs]
      rw [Re.run, Re.run, Re.run_prev (r := .grp n c.re) (hp v c (by simp [vars])).free p q s]
      refine flatMap_congr _ _ _ fun m _ => ?_
      unfold Re.andThen
      rw [ih hp.tail (n + 1) (same_after h m.txt)]

theorem groups_glue (p : Str) (hp : p ≠ []) (ps : List Part) (n : Nat) (r : Re Char) (prev : Option Char) (y : Str) :
    groups (seqs (partsRe n (gluePart p ps)) r) prev (p ++ y) = groups (seqs (partsRe n ps) r) (Re.after prev p) y := by
  unfold gluePart
  split
  · rename_i t ps
    simp only [partsRe, seqs, groups_lit, List.prefix_append_right_inj, ← after_append]
    rw [List.length_append, ← List.drop_drop, List.drop_left]
  · rw [if_neg hp]
    simp only [partsRe, seqs, groups_lit]
    rw [if_pos (List.prefix_append p y), List.drop_left]

theorem groups_miss (p : Str) (hp : p ≠ []) (ps : List Part) (n : Nat) (r : Re Char) (prev : Option Char) (y : Str)
    (h : ¬ p <+: y) : groups (seqs (partsRe n (gluePart p ps)) r) prev y = [] := by
  unfold gluePart
  split
  · rename_i t ps
    simp only [partsRe, seqs, groups_lit]
    rw [if_neg fun h' => h ((List.prefix_append p t).trans h')]
  · rw [if_neg hp]
    simp only [partsRe, seqs, groups_lit]
    rw [if_neg h]

/-- The parts of a domain without variables. -/
def domainParts (d : Str) : List Part := if d = [] then [] else [.text d]

theorem cut_bar (d d' y y' : Str) (h : '|' ∉ d) (h' : '|' ∉ d') (e : d ++ '|' :: y = d' ++ '|' :: y') :
    d = d' ∧ y = y' := by
  have h1 := Py.split1_some '|' d y h
  have h2 := Py.split1_some '|' d' y' h'
  rw [e, h2] at h1
  simp only [Prod.mk.injEq, Option.some.injEq] at h1
  exact ⟨h1.1.symm, h1.2.symm⟩

theorem groups_domain (b : Bound) (d d' y : Str) (hb : b.domain = domainParts d) (h : '|' ∉ d) (h' : '|' ∉ d') :
    groups b.re none (d' ++ '|' :: y) =
      if d = d' then groups (seqs (partsRe 0 b.path) (tailRe b)) (some '|') y else [] := by
  unfold Bound.re
  rw [hb]
  unfold domainParts
  by_cases hd : d = []
  · subst hd
    simp only [if_true, partsRe, vars, List.length_nil, List.nil_append, seqs, groups_lit]
    by_cases e : d' = []
    · subst e
      simp [Re.after]
    · have hn : ¬ s%"|" <+: d' ++ '|' :: y := by
        rintro ⟨z, hz⟩
        exact e (cut_bar [] d' z y (by simp) h' hz).1.symm
      rw [if_neg hn, if_neg (fun x => e x.symm)]
  · simp only [if_neg hd, partsRe, vars, List.length_nil, List.cons_append, List.nil_append, seqs, groups_lit]
    by_cases e : d = d'
    · subst e
      simp only [if_true]
      rw [if_pos (List.prefix_append _ _), List.drop_left, if_pos ⟨y, rfl⟩]
      rw [after_append]
      simp [Re.after]
    · rw [if_neg e]
      split
      · rename_i hz
        obtain ⟨z, hz⟩ := hz
        rw [← hz, List.drop_left, if_neg]
        rintro ⟨w, rfl⟩
        exact e (cut_bar d d' w y h h' hz).1
      · rfl

theorem convert_caps (m m' : Re.M Char) (h : m.caps = m'.caps) (vs : List (Str × Converter)) :
    ∀ n, convert m n vs = convert m' n vs := by
  induction vs with
  | nil => intro n; rfl
  | cons v vs ih =>
    intro n
    obtain ⟨v, c⟩ := v
    simp only [convert, Re.M.group, h, ih]

theorem match_groups (cfg : Config) (b b' : Bound) (x x' : Str) (hv : b'.vars = b.vars)
    (hl : b'.route.leaf = b.route.leaf) (hs : b'.strict = b.strict) (hd : b'.route.defaults = b.route.defaults)
    (ha : b'.route.alias = b.route.alias) (hb : b'.route.buildOnly = b.route.buildOnly)
    (h : (groups b'.re none x').head? = (groups b.re none x).head?) : b'.match_ cfg x' = b.match_ cfg x := by
  unfold groups at h
  rw [List.head?_map, List.head?_map] at h
  unfold Bound.match_ Re.first
  rw [hb, hs, hl, hd, ha, hv]
  split
  · rfl
  · cases h1 : (Re.run b'.re none x').head? with
    | none =>
      cases h2 : (Re.run b.re none x).head? with
      | none => rfl
      | some m => rw [h1, h2] at h; cases h
    | some m' =>
      cases h2 : (Re.run b.re none x).head? with
      | none => rw [h1, h2] at h; cases h
      | some m =>
        rw [h1, h2] at h
        have hc : m'.caps = m.caps := by simpa using h
        dsimp only
        rw [convert_caps m' m hc]
        simp only [Re.M.group, hc]
        rfl

/-- A compiled route whose rule begins with a slash, on a domain without variables. -/
structure Grounded (d : Str) (b : Bound) : Prop where
  rule : b.route.rule.head? = some '/'
  domain : b.domain = domainParts d
  free : '|' ∉ d
  pure : PureParts b.path
  path : b.path = [] ∧ b.route.leaf = false ∨ ∃ t ps, b.path = .text t :: ps ∧ t.head? = some '/'

theorem tail_mounted (p d : Str) (b : Bound) (hb : Grounded d b) : tailRe (mountBound p b) = tailRe b := by
  unfold tailRe Bound.suffixed Bound.vars
  rw [show (mountBound p b).route = mounted p b.route from rfl, leaf_mounted p b.route hb.rule,
    show (mountBound p b).path = gluePart p b.path from rfl, vars_glue]
  rfl

theorem vars_mounted (p : Str) (b : Bound) : (mountBound p b).vars = b.vars := by
  unfold Bound.vars
  rw [show (mountBound p b).path = gluePart p b.path from rfl, vars_glue]
  rfl

theorem match_mounted (cfg : Config) (p d d' : Str) (hp : MountPath p) (b : Bound) (hb : Grounded d b) (h' : '|' ∉ d')
    (y : Str) : (mountBound p b).match_ cfg (d' ++ '|' :: (p ++ y)) = b.match_ cfg (d' ++ '|' :: y) := by
  have hne : p ≠ [] := fun e => by have := hp.head; rw [e] at this; cases this
  refine match_groups cfg b _ _ _ (vars_mounted p b) (leaf_mounted p b.route hb.rule) rfl rfl rfl rfl ?_
  rw [groups_domain (mountBound p b) d d' _ hb.domain hb.free h', groups_domain b d d' _ hb.domain hb.free h',
    tail_mounted p d b hb]
  split
  · rw [show (mountBound p b).path = gluePart p b.path from rfl, groups_glue p hne]
    unfold groups
    rw [parts_before b b.path hb.pure 0 (q := some '|')]
    right
    refine ⟨?_, by decide⟩
    unfold Re.after
    cases hl : p.getLast? with
    | none => decide
    | some c => exact fun e => hp.last (hl.trans e)
  · rfl

theorem match_missed (cfg : Config) (p d d' : Str) (hp : MountPath p) (b : Bound) (hb : Grounded d b) (h' : '|' ∉ d')
    (y : Str) (hy : ¬ p <+: y) : (mountBound p b).match_ cfg (d' ++ '|' :: y) = .none := by
  have hne : p ≠ [] := fun e => by have := hp.head; rw [e] at this; cases this
  have : groups (mountBound p b).re none (d' ++ '|' :: y) = [] := by
    rw [groups_domain (mountBound p b) d d' _ hb.domain hb.free h']
    split
    · exact groups_miss p hne _ _ _ _ _ hy
    · rfl
  unfold groups at this
  rw [List.map_eq_nil_iff] at this
  unfold Bound.match_ Re.first
  rw [this]
  split <;> rfl

end Verif.Props.MountP
