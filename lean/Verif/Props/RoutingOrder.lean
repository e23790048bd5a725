import Verif.Model.Routing
import Verif.Spec.Routing
/-!
C46: which route of a map is chosen (`/repo/verktyg/routing.py`).
-/
namespace Verif.Props.RoutingP
open Verif Verif.Routing Verif.Spec.Routing

/-- The ranks of the parts of a compiled rule. -/
def ranks : List Part → List Rank
  | [] => []
  | .text s :: ps => ((Py.splitOn '/' s).filter (· ≠ [])).map (fun p => .text p.length) ++ ranks ps
  | .var _ c :: ps => .var c.weight :: ranks ps

/-- What counts for the order of a route: its domain and its path have ranks; its arguments
are its defaults and its variables. -/
def shape (b : Bound) : Shape :=
  ⟨!(b.route.defaults.isEmpty && (vars b.domain).isEmpty && (vars b.path).isEmpty), ranks b.domain ++ ranks b.path⟩

/-! ### the order is a strict total order on shapes -/

theorem before_trans {a b c : Rank} (h1 : a.Before b) (h2 : b.Before c) : a.Before c := by
  cases a <;> cases b <;> cases c <;> simp_all [Rank.Before] <;> omega

theorem before_irrefl (a : Rank) : ¬ a.Before a := by
  cases a <;> simp [Rank.Before]

theorem before_tri (a b : Rank) : a.Before b ∨ a = b ∨ b.Before a := by
  cases a <;> cases b <;> simp [Rank.Before] <;> omega

theorem parts_trans : ∀ {a b c : List Rank}, PartsBefore a b → PartsBefore b c → PartsBefore a c
  | [], [], _, h, _ => h.elim
  | [], _ :: _, [], _, h => h.elim
  | [], _ :: _, _ :: _, _, _ => trivial
  | _ :: _, [], _, h, _ => h.elim
  | _ :: _, _ :: _, [], _, h => h.elim
  | a :: as, b :: bs, c :: cs, h1, h2 => by
    rcases h1 with h1 | ⟨rfl, h1⟩
    · rcases h2 with h2 | ⟨rfl, _⟩
      · exact .inl (before_trans h1 h2)
      · exact .inl h1
    · rcases h2 with h2 | ⟨rfl, h2⟩
      · exact .inl h2
      · exact .inr ⟨rfl, parts_trans h1 h2⟩

theorem parts_irrefl : ∀ a : List Rank, ¬ PartsBefore a a
  | [], h => h
  | a :: as, h => by
    rcases h with h | ⟨_, h⟩
    · exact before_irrefl a h
    · exact parts_irrefl as h

theorem parts_tri : ∀ a b : List Rank, PartsBefore a b ∨ a = b ∨ PartsBefore b a
  | [], [] => .inr (.inl rfl)
  | [], _ :: _ => .inl trivial
  | _ :: _, [] => .inr (.inr trivial)
  | a :: as, b :: bs => by
    rcases before_tri a b with h | rfl | h
    · exact .inl (.inl h)
    · rcases parts_tri as bs with h | rfl | h
      · exact .inl (.inr ⟨rfl, h⟩)
      · exact .inr (.inl rfl)
      · exact .inr (.inr (.inr ⟨rfl, h⟩))
    · exact .inr (.inr (.inl h))

theorem specific_trans {a b c : Shape} (h1 : MoreSpecific a b) (h2 : MoreSpecific b c) : MoreSpecific a c := by
  unfold MoreSpecific at *
  rcases h1 with ⟨p, q⟩ | ⟨p, q⟩ <;> rcases h2 with ⟨r, s⟩ | ⟨r, s⟩
  · rw [q] at r; cases r
  · exact .inl ⟨p, by rw [← r]; exact q⟩
  · exact .inl ⟨by rw [p]; exact r, s⟩
  · refine .inr ⟨p.trans r, ?_⟩
    rcases q with q | ⟨q, q'⟩ <;> rcases s with s | ⟨s, s'⟩
    · exact .inl (by omega)
    · exact .inl (by omega)
    · exact .inl (by omega)
    · exact .inr ⟨by omega, parts_trans q' s'⟩

theorem specific_irrefl (a : Shape) : ¬ MoreSpecific a a := by
  rintro (⟨p, q⟩ | ⟨_, q | ⟨_, q⟩⟩)
  · rw [p] at q; cases q
  · omega
  · exact parts_irrefl _ q

theorem specific_tri (a b : Shape) : MoreSpecific a b ∨ a = b ∨ MoreSpecific b a := by
  obtain ⟨a1, a2⟩ := a
  obtain ⟨b1, b2⟩ := b
  unfold MoreSpecific
  simp only [Shape.mk.injEq]
  rcases Nat.lt_trichotomy a2.length b2.length with h | h | h
  · cases a1 <;> cases b1 <;> simp [h] <;> omega
  · rcases parts_tri a2 b2 with h' | h' | h'
    · cases a1 <;> cases b1 <;> simp [h, h']
    · cases a1 <;> cases b1 <;> simp [h']
    · cases a1 <;> cases b1 <;> simp [h, h']
  · cases a1 <;> cases b1 <;> simp [h] <;> omega

/-! ### the keys of the code follow this order -/

/-- The weight the code gives to a part. -/
def pair : Rank → Int × Int
  | .text n => (0, -(n : Int))
  | .var w => (1, w)

theorem weights_eq (ps : List Part) : weights ps = (ranks ps).map pair := by
  induction ps with
  | nil => rfl
  | cons p ps ih =>
    cases p with
    | text s =>
      simp only [weights, ranks, List.map_append, List.map_map, ih]
      congr 1
    | var n c => simp only [weights, ranks, List.map_cons, ih, pair]

theorem int_compare (a b : Int) : compare a b = if a < b then .lt else if a = b then .eq else .gt := rfl

theorem then_lt (a b : Ordering) : (a.then b = .lt ↔ a = .lt ∨ a = .eq ∧ b = .lt) ∧
    (a.then b = .eq ↔ a = .eq ∧ b = .eq) := by
  cases a <;> simp [Ordering.then]

theorem icmp (a b : Int) : (compare a b = .lt ↔ a < b) ∧ (compare a b = .eq ↔ a = b) := by
  rw [int_compare]
  constructor
  · constructor
    · intro h
      split at h
      · assumption
      · split at h <;> cases h
    · intro h; rw [if_pos h]
  · constructor
    · intro h
      split at h
      · cases h
      · split at h
        · assumption
        · cases h
    · intro h; rw [if_neg (by omega), if_pos h]

theorem pair_cmp (a b : Rank) : (pairCmp (pair a) (pair b) = .lt ↔ a.Before b) ∧
    (pairCmp (pair a) (pair b) = .eq ↔ a = b) := by
  cases a <;> cases b <;>
    simp only [pairCmp, pair, (then_lt _ _).1, (then_lt _ _).2, (icmp _ _).1, (icmp _ _).2, Rank.Before, Rank.text.injEq,
      Rank.var.injEq, reduceCtorEq, true_and, iff_true, iff_false] <;> first | omega | simp

theorem list_cmp : ∀ a b : List Rank, (List.compareLex pairCmp (a.map pair) (b.map pair) = .lt ↔ PartsBefore a b) ∧
    (List.compareLex pairCmp (a.map pair) (b.map pair) = .eq ↔ a = b)
  | [], [] => by simp [PartsBefore, List.compareLex]
  | [], _ :: _ => by simp [PartsBefore, List.compareLex]
  | _ :: _, [] => by simp [PartsBefore, List.compareLex]
  | a :: as, b :: bs => by
    obtain ⟨h1, h2⟩ := pair_cmp a b
    obtain ⟨i1, i2⟩ := list_cmp as bs
    simp only [List.map_cons, List.compareLex, PartsBefore, List.cons.injEq]
    cases hc : pairCmp (pair a) (pair b) with
    | lt =>
      rw [hc] at h1 h2
      have hb := h1.1 rfl
      have hn : a ≠ b := fun e => by have := h2.2 e; cases this
      simp [hb, hn]
    | eq =>
      rw [hc] at h1 h2
      have he := h2.1 rfl
      subst he
      simp only [i1, i2, true_and]
      refine ⟨⟨.inr, fun h => ?_⟩, trivial⟩
      rcases h with h | h
      · exact absurd h (before_irrefl a)
      · exact h
    | gt =>
      rw [hc] at h1 h2
      have hb : ¬ a.Before b := fun e => by have := h1.2 e; cases this
      have hn : a ≠ b := fun e => by have := h2.2 e; cases this
      simp [hb, hn]

theorem matchKey_eq (b : Bound) : b.matchKey = ((shape b).hasArguments, -((shape b).parts.length : Int),
    (shape b).parts.map pair) := by
  unfold Bound.matchKey shape Bound.weights Bound.arguments Bound.vars Dict.keys
  simp only [weights_eq, ← List.map_append, List.length_map]
  congr 1
  cases b.route.defaults <;> cases vars b.domain <;> cases vars b.path <;> rfl

theorem cmp_shape (a b : Bound) : (matchCmp a.matchKey b.matchKey = .lt ↔ MoreSpecific (shape a) (shape b)) ∧
    (matchCmp a.matchKey b.matchKey = .eq ↔ shape a = shape b) := by
  rw [matchKey_eq, matchKey_eq]
  generalize shape a = x
  generalize shape b = y
  obtain ⟨x1, x2⟩ := x
  obtain ⟨y1, y2⟩ := y
  obtain ⟨l1, l2⟩ := list_cmp x2 y2
  simp only [matchCmp, (then_lt _ _).1, (then_lt _ _).2, l1, l2, MoreSpecific, Shape.mk.injEq, int_compare]
  have hb : (compare x1 y1 = .lt ↔ x1 = false ∧ y1 = true) ∧ (compare x1 y1 = .eq ↔ x1 = y1) := by
    cases x1 <;> cases y1 <;> decide
  rw [hb.1, hb.2]
  rcases Nat.lt_trichotomy x2.length y2.length with h | h | h
  · rw [if_neg (by omega), if_neg (by omega)]
    have : x2 ≠ y2 := fun e => by rw [e] at h; omega
    simp [this, Nat.ne_of_lt h, Nat.not_lt.2 (Nat.le_of_lt h)]
  · rw [if_neg (by omega), if_pos (by omega)]
    simp [h]
  · rw [if_pos (by omega)]
    have : x2 ≠ y2 := fun e => by rw [e] at h; omega
    simp [this, h]

theorem matchLe_iff (a b : Bound) : matchLe a b = true ↔ ¬ MoreSpecific (shape b) (shape a) := by
  obtain ⟨h1, h2⟩ := cmp_shape a b
  unfold matchLe
  cases hc : matchCmp a.matchKey b.matchKey with
  | lt =>
    rw [hc] at h1
    simp only [Ordering.isLE, true_iff]
    exact fun h => specific_irrefl _ (specific_trans h (h1.1 rfl))
  | eq =>
    rw [hc] at h2
    simp only [Ordering.isLE, true_iff]
    rw [h2.1 rfl]
    exact specific_irrefl _
  | gt =>
    rw [hc] at h1 h2
    simp only [Ordering.isLE, Bool.false_eq_true, false_iff, Classical.not_not]
    rcases specific_tri (shape a) (shape b) with h | h | h
    · cases h1.2 h
    · cases h2.2 h
    · exact h

/-! ### sorting -/

/-- `a` is tried before `b`: more specific, or as specific and registered before. -/
def Precedes (a b : Bound) : Prop := MoreSpecific (shape a) (shape b) ∨ shape a = shape b ∧ a.id < b.id

theorem precedes_trans {a b c : Bound} (h1 : Precedes a b) (h2 : Precedes b c) : Precedes a c := by
  rcases h1 with h1 | ⟨h1, h1'⟩ <;> rcases h2 with h2 | ⟨h2, h2'⟩
  · exact .inl (specific_trans h1 h2)
  · exact .inl (h2 ▸ h1)
  · exact .inl (h1 ▸ h2)
  · exact .inr ⟨h1.trans h2, by omega⟩

theorem precedes_asymm {a b : Bound} (h1 : Precedes a b) (h2 : Precedes b a) : False := by
  rcases precedes_trans h1 h2 with h | ⟨_, h⟩
  · exact specific_irrefl _ h
  · omega

theorem insert_perm {α} (le : α → α → Bool) (x : α) (l : List α) : (insertBy le x l).Perm (x :: l) := by
  induction l with
  | nil => exact .rfl
  | cons y ys ih =>
    unfold insertBy
    split
    · exact .rfl
    · exact ((List.Perm.cons y ih).trans (.swap x y ys))

theorem sort_perm {α} (le : α → α → Bool) (l : List α) : (sortBy le l).Perm l := by
  induction l with
  | nil => exact .rfl
  | cons x xs ih => exact (insert_perm le x _).trans (ih.cons x)

/-- Routes with equal rank are in the order of registration. -/
def Stable (l : List Bound) : Prop := l.Pairwise fun a b => shape a = shape b → a.id < b.id

theorem insert_sorted (x : Bound) (l : List Bound) (hs : l.Pairwise Precedes)
    (hx : ∀ y ∈ l, shape x = shape y → x.id < y.id) : (insertBy matchLe x l).Pairwise Precedes := by
  induction l with
  | nil => exact List.pairwise_singleton _ _
  | cons y ys ih =>
    rw [List.pairwise_cons] at hs
    unfold insertBy
    split
    · rename_i hle
      rw [matchLe_iff] at hle
      have hxy : Precedes x y := by
        rcases specific_tri (shape x) (shape y) with h | h | h
        · exact .inl h
        · exact .inr ⟨h, hx y (.head _) h⟩
        · exact absurd h hle
      rw [List.pairwise_cons]
      refine ⟨fun z hz => ?_, List.pairwise_cons.2 hs⟩
      rcases List.mem_cons.1 hz with rfl | hz
      · exact hxy
      · exact precedes_trans hxy (hs.1 z hz)
    · rename_i hle
      have hyx : Precedes y x := by
        rw [Bool.not_eq_true] at hle
        have : ¬ (matchLe x y = true) := by simp [hle]
        rw [matchLe_iff, Classical.not_not] at this
        exact .inl this
      rw [List.pairwise_cons]
      refine ⟨fun z hz => ?_, ih hs.2 fun z hz => hx z (.tail _ hz)⟩
      rcases List.mem_cons.1 ((insert_perm matchLe x ys).mem_iff.1 hz) with rfl | hz
      · exact hyx
      · exact hs.1 z hz

theorem sort_sorted (l : List Bound) (h : Stable l) : (sortBy matchLe l).Pairwise Precedes := by
  induction l with
  | nil => exact List.Pairwise.nil
  | cons x xs ih =>
    unfold Stable at h
    rw [List.pairwise_cons] at h
    apply insert_sorted x _ (ih h.2)
    intro y hy
    exact h.1 y ((sort_perm matchLe xs).mem_iff.1 hy)

/-! ### histories of a map -/

/-- What is done with a map: routes are added, or a path is looked up (or a URL built), which
sorts the routes. -/
inductive Op where
  | add (routes : List Route)
  | lookup

/-- The effect of one operation. -/
def step (m : URLMap) : Op → URLMap
  | .add rs => (m.add rs).1
  | .lookup => m.update

/-- The effect of a history. -/
def run (m : URLMap) (ops : List Op) : URLMap := ops.foldl step m

/-- Whether the last call that added routes, if any, returned. -/
def settled : URLMap → Bool → List Op → Bool
  | _, ok, [] => ok
  | m, _, .add rs :: ops => settled (m.add rs).1 (m.add rs).2.isNone ops
  | m, ok, .lookup :: ops => settled m.update ok ops

/-- The routes a call adds: those before the first that can not be compiled. -/
def accepted (cfg : Config) : List Route → List Route
  | [] => []
  | r :: rs =>
    match compile cfg 0 r with
    | .error _ => []
    | .ok _ => r :: accepted cfg rs

/-- The routes added by a history, in this order. -/
def registered (cfg : Config) : List Op → List Route
  | [] => []
  | .add rs :: ops => accepted cfg rs ++ registered cfg ops
  | .lookup :: ops => registered cfg ops

/-- Compilation does not look at the number of the route. -/
theorem compile_id (cfg : Config) (i j : Nat) (r : Route) :
    compile cfg i r = (compile cfg j r).map fun b => { b with id := i } := by
  unfold compile
  simp only
  split
  · rfl
  · split
    · rfl
    · rfl
    · split
      · rfl
      · rfl
      · rename_i d p _ _
        by_cases h : (Bound.mk i r (r.strictSlashes.getD cfg.strictSlashes) d p).names.Nodup ∨ r.buildOnly
        · have h' : (Bound.mk j r (r.strictSlashes.getD cfg.strictSlashes) d p).names.Nodup ∨ r.buildOnly := h
          rw [if_pos h, if_pos h']
          rfl
        · have h' : ¬ ((Bound.mk j r (r.strictSlashes.getD cfg.strictSlashes) d p).names.Nodup ∨ r.buildOnly) := h
          rw [if_neg h, if_neg h']
          rfl

theorem compile_ok_id (cfg : Config) (i : Nat) (r : Route) (b : Bound) (h : compile cfg i r = .ok b) :
    b.id = i ∧ b.route = r := by
  unfold compile at h
  simp only at h
  split at h
  · cases h
  · split at h
    · cases h
    · cases h
    · split at h
      · cases h
      · cases h
      · split at h
        · cases h; exact ⟨rfl, rfl⟩
        · cases h

/-- The routes of a map, in any order, are the routes of `reg` with their numbers. -/
structure Holds (m : URLMap) (reg : List Route) : Prop where
  count : m.count = reg.length
  mem : ∀ b, b ∈ m.routes ↔ ∃ r, reg[b.id]? = some r ∧ compile m.cfg b.id r = .ok b
  stable : Stable m.routes

/-- The routes are in order unless the map knows that they are not. -/
def Fresh (m : URLMap) : Prop := m.remap = false → m.routes.Pairwise Precedes

theorem holds_push (m : URLMap) (reg : List Route) (h : Holds m reg) (r : Route) (b : Bound)
    (hb : compile m.cfg m.count r = .ok b) : Holds (m.push b) (reg ++ [r]) := by
  obtain ⟨h1, h2, h3⟩ := h
  obtain ⟨hid, _⟩ := compile_ok_id _ _ _ _ hb
  refine ⟨?_, fun c => ?_, ?_⟩
  · simp [URLMap.push, h1]
  · simp only [URLMap.push, List.mem_append, List.mem_singleton, h2]
    constructor
    · rintro (⟨x, hx, hc⟩ | rfl)
      · exact ⟨x, by rw [List.getElem?_append_left (by rw [List.getElem?_eq_some_iff] at hx; exact hx.1)]; exact hx, hc⟩
      · refine ⟨r, ?_, by rw [hid]; exact hb⟩
        rw [hid, h1, List.getElem?_append_right (Nat.le_refl _), Nat.sub_self]
        rfl
    · rintro ⟨x, hx, hc⟩
      rcases Nat.lt_or_ge c.id reg.length with hl | hl
      · rw [List.getElem?_append_left hl] at hx
        exact .inl ⟨x, hx, hc⟩
      · rw [List.getElem?_append_right hl] at hx
        have : c.id - reg.length = 0 := by
          rcases Nat.eq_zero_or_pos (c.id - reg.length) with h0 | h0
          · exact h0
          · rw [List.getElem?_eq_none (by simp; omega)] at hx
            cases hx
        rw [this] at hx
        simp only [List.getElem?_cons_zero, Option.some.injEq] at hx
        subst hx
        have : c.id = m.count := by omega
        rw [this, hb] at hc
        cases hc
        exact .inr rfl
  · unfold Stable URLMap.push
    rw [List.pairwise_append]
    refine ⟨h3, List.pairwise_singleton _ _, fun x hx y hy _ => ?_⟩
    rw [List.mem_singleton] at hy
    subst hy
    obtain ⟨r', hr, _⟩ := (h2 x).1 hx
    rw [List.getElem?_eq_some_iff] at hr
    rw [hid, h1]
    exact hr.1

theorem accepted_cons (cfg : Config) (i : Nat) (r : Route) (rs : List Route) :
    accepted cfg (r :: rs) = match compile cfg i r with
      | .error _ => []
      | .ok _ => r :: accepted cfg rs := by
  rw [accepted, compile_id cfg 0 i]
  cases compile cfg i r <;> rfl

theorem holds_add (rs : List Route) : ∀ (m : URLMap) (reg : List Route), Holds m reg →
    Holds (m.add rs).1 (reg ++ accepted m.cfg rs) ∧ (m.add rs).1.cfg = m.cfg ∧
    ((m.add rs).2.isNone = true → (m.add rs).1.remap = true) := by
  induction rs with
  | nil =>
    intro m reg h
    refine ⟨?_, rfl, fun _ => rfl⟩
    rw [accepted, List.append_nil]
    exact ⟨h.1, h.2, h.3⟩
  | cons r rs ih =>
    intro m reg h
    rw [accepted_cons m.cfg m.count, URLMap.add]
    cases hc : compile m.cfg m.count r with
    | error e =>
      simp only [List.append_nil]
      exact ⟨h, trivial, fun he => by cases he⟩
    | ok b =>
      simp only
      obtain ⟨i1, i2, i3⟩ := ih (m.push b) _ (holds_push m reg h r b hc)
      refine ⟨?_, i2, i3⟩
      rw [List.append_assoc] at i1
      exact i1

theorem sorted_stable (l : List Bound) (h : l.Pairwise Precedes) : Stable l := by
  refine List.Pairwise.imp ?_ h
  intro a b hp he
  rcases hp with hp | ⟨_, hp⟩
  · rw [he] at hp; exact absurd hp (specific_irrefl _)
  · exact hp

theorem holds_update (m : URLMap) (reg : List Route) (h : Holds m reg) :
    Holds m.update reg ∧ m.update.cfg = m.cfg ∧ (Fresh m → m.update.routes.Pairwise Precedes) ∧
    (Fresh m → Fresh m.update) := by
  unfold URLMap.update
  split
  · have hs := sort_sorted _ h.3
    refine ⟨⟨h.1, fun b => ?_, sorted_stable _ hs⟩, rfl, fun _ => hs, fun _ _ => hs⟩
    rw [(sort_perm matchLe m.routes).mem_iff]
    exact h.2 b
  · rename_i hr
    exact ⟨h, rfl, fun hf => hf (by simpa using hr), fun hf => hf⟩

theorem history (ops : List Op) : ∀ (m : URLMap) (reg : List Route) (ok : Bool), Holds m reg →
    (ok = true → Fresh m) →
    Holds (run m ops) (reg ++ registered m.cfg ops) ∧ (run m ops).cfg = m.cfg ∧
    (settled m ok ops = true → Fresh (run m ops)) := by
  induction ops with
  | nil =>
    intro m reg ok h hf
    refine ⟨?_, rfl, fun hs => hf hs⟩
    rw [registered, List.append_nil]
    exact h
  | cons op ops ih =>
    intro m reg ok h hf
    cases op with
    | add rs =>
      obtain ⟨a1, a2, a3⟩ := holds_add rs m reg h
      obtain ⟨i1, i2, i3⟩ := ih (m.add rs).1 _ (m.add rs).2.isNone a1 (fun hn hr => by
        rw [a3 hn] at hr; cases hr)
      refine ⟨?_, i2.trans a2, i3⟩
      rw [List.append_assoc, a2] at i1
      exact i1
    | lookup =>
      obtain ⟨a1, a2, _, a4⟩ := holds_update m reg h
      obtain ⟨i1, i2, i3⟩ := ih m.update reg ok a1 (fun ho => a4 (hf ho))
      refine ⟨?_, i2.trans a2, i3⟩
      rw [a2] at i1
      exact i1

theorem holds_new (cfg : Config) : Holds (URLMap.new cfg) [] := by
  refine ⟨rfl, fun b => ?_, List.Pairwise.nil⟩
  simp [URLMap.new]

/-- The routes tried by a lookup are the registered ones, in order. -/
theorem lookup_routes (cfg : Config) (ops : List Op) (hs : settled (URLMap.new cfg) true ops = true) :
    let m := run (URLMap.new cfg) ops
    m.cfg = cfg ∧ m.update.routes.Pairwise Precedes ∧
    (∀ b, b ∈ m.update.routes ↔ ∃ r, (registered cfg ops)[b.id]? = some r ∧ compile cfg b.id r = .ok b) := by
  obtain ⟨h1, h2, h3⟩ := history ops (URLMap.new cfg) [] true (holds_new cfg) (fun _ h => by cases h)
  obtain ⟨u1, u2, u3, _⟩ := holds_update _ _ h1
  refine ⟨h2, u3 (h3 hs), fun b => ?_⟩
  have := u1.2 b
  rw [u2, h2] at this
  exact this

/-! ### C46 -/

/-- The routes of a history. -/
def Registered (cfg : Config) (ops : List Op) (b : Bound) : Prop :=
  ∃ r, (registered cfg ops)[b.id]? = some r ∧ compile cfg b.id r = .ok b

theorem matchGo_spec (m : URLMap) (a : Adapter) (path pathInfo query : Str) (l : List Bound)
    (hs : l.Pairwise Precedes) :
    ((∀ b ∈ l, b.match_ m.cfg path = .none) ∧ matchGo m a path pathInfo query l = .error .notFound) ∨
    (∃ b ∈ l, b.match_ m.cfg path ≠ .none ∧
      matchGo m a path pathInfo query l = answer m a path pathInfo query b (b.match_ m.cfg path) ∧
      ∀ c ∈ l, c.match_ m.cfg path ≠ .none → c = b ∨ Precedes b c) := by
  induction l with
  | nil => exact .inl ⟨by simp, rfl⟩
  | cons b bs ih =>
    rw [List.pairwise_cons] at hs
    by_cases hn : b.match_ m.cfg path = .none
    · rw [matchGo, hn]
      rcases ih hs.2 with ⟨h1, h2⟩ | ⟨c, hc, h1, h2, h3⟩
      · refine .inl ⟨fun c hc => ?_, h2⟩
        rcases List.mem_cons.1 hc with rfl | hc
        · exact hn
        · exact h1 c hc
      · refine .inr ⟨c, .tail _ hc, h1, h2, fun d hd hd' => ?_⟩
        rcases List.mem_cons.1 hd with rfl | hd
        · exact absurd hn hd'
        · exact h3 d hd hd'
    · refine .inr ⟨b, .head _, hn, ?_, fun d hd _ => ?_⟩
      · rw [matchGo]
        split
        · rename_i h; exact absurd h hn
        · rfl
      · rcases List.mem_cons.1 hd with rfl | hd
        · exact .inl rfl
        · exact .inr (hs.1 d hd)

theorem answer_found (m : URLMap) (a : Adapter) (path pathInfo query : Str) (b c : Bound) (f : Found) (vs : Values)
    (h : answer m a path pathInfo query b f = .ok (.found c vs)) : c = b ∧ f = .values vs := by
  cases f with
  | none => cases h
  | slash => cases h
  | alias v =>
    simp only [answer] at h
    split at h <;> cases h
  | «values» v =>
    simp only [answer] at h
    split at h
    · cases h
    · cases h
    · split at h
      · split at h <;> cases h
      · cases h; exact ⟨rfl, rfl⟩

/-- A successful match is one of the registered routes with the arguments this route finds in
the path, and it precedes every other registered route that matches: it is more specific, or
as specific and registered earlier. -/
theorem C46_best_partial (cfg : Config) (ops : List Op) (hs : settled (URLMap.new cfg) true ops = true)
    (a : Adapter) (pathInfo query : Str) (b : Bound) (vs : Values)
    (h : match_ (run (URLMap.new cfg) ops) a pathInfo query = .ok (.found b vs)) :
    Registered cfg ops b ∧ b.match_ cfg (fullPath cfg a pathInfo) = .values vs ∧
    ∀ c, Registered cfg ops c → c.match_ cfg (fullPath cfg a pathInfo) ≠ .none → c ≠ b →
      MoreSpecific (shape b) (shape c) ∨ shape b = shape c ∧ b.id < c.id := by
  obtain ⟨h1, h2, h3⟩ := lookup_routes cfg ops hs
  unfold match_ at h
  have hc : (run (URLMap.new cfg) ops).update.cfg = cfg := by
    refine Eq.trans ?_ h1
    unfold URLMap.update; split <;> rfl
  rcases matchGo_spec (run (URLMap.new cfg) ops).update a (fullPath (run (URLMap.new cfg) ops).cfg a pathInfo)
    pathInfo query _ h2 with ⟨_, h5⟩ | ⟨x, hx, _, h5, h6⟩
  · rw [h5] at h; cases h
  · rw [h5] at h
    obtain ⟨rfl, hv⟩ := answer_found _ _ _ _ _ _ _ _ _ h
    rw [hc] at hv h6
    simp only [h1] at hv h6
    refine ⟨(h3 b).1 hx, hv, fun c hcr hcm hne => ?_⟩
    rcases h6 c ((h3 c).2 hcr) hcm with he | he
    · exact absurd he hne
    · exact he

/-- `NotFound` is raised if no registered route matches; if one does, then the answer is that
of the route which precedes all others that match. -/
theorem C46_outcome_partial (cfg : Config) (ops : List Op) (hs : settled (URLMap.new cfg) true ops = true)
    (a : Adapter) (pathInfo query : Str) :
    let path := fullPath cfg a pathInfo
    let m := run (URLMap.new cfg) ops
    ((∀ b, Registered cfg ops b → b.match_ cfg path = .none) ∧ match_ m a pathInfo query = .error .notFound) ∨
    (∃ b, Registered cfg ops b ∧ b.match_ cfg path ≠ .none ∧
      match_ m a pathInfo query = answer m.update a path pathInfo query b (b.match_ cfg path) ∧
      ∀ c, Registered cfg ops c → c.match_ cfg path ≠ .none → c ≠ b →
        MoreSpecific (shape b) (shape c) ∨ shape b = shape c ∧ b.id < c.id) := by
  intro path m
  obtain ⟨h1, h2, h3⟩ := lookup_routes cfg ops hs
  have hc : m.update.cfg = cfg := by
    refine Eq.trans ?_ h1
    unfold URLMap.update; split <;> rfl
  unfold match_
  rw [show m.cfg = cfg from h1]
  rcases matchGo_spec m.update a path pathInfo query _ h2 with ⟨h4, h5⟩ | ⟨b, hb, h4, h5, h6⟩
  · rw [hc] at h4
    exact .inl ⟨fun b hb => h4 b ((h3 b).2 hb), h5⟩
  · rw [hc] at h4 h5 h6
    refine .inr ⟨b, (h3 b).1 hb, h4, h5, fun c hcr hcm hne => ?_⟩
    rcases h6 c ((h3 c).2 hcr) hcm with he | he
    · exact absurd he hne
    · exact he

/-! ### the routes of an end point -/

/-- The routes of every end point are registered ones. -/
def Listed (m : URLMap) (reg : List Route) : Prop :=
  ∀ e, ∀ b ∈ m.byEndpoint e, b.route ∈ reg ∧ ∃ i, compile m.cfg i b.route = .ok b

theorem listed_add (rs : List Route) : ∀ (m : URLMap) (reg : List Route), Listed m reg →
    Listed (m.add rs).1 (reg ++ accepted m.cfg rs) := by
  induction rs with
  | nil =>
    intro m reg h
    rw [accepted, List.append_nil]
    exact h
  | cons r rs ih =>
    intro m reg h
    rw [accepted_cons m.cfg m.count, URLMap.add]
    cases hc : compile m.cfg m.count r with
    | error e =>
      simp only [List.append_nil]
      exact h
    | ok b =>
      simp only
      have hp : Listed (m.push b) (reg ++ [r]) := by
        obtain ⟨_, hr⟩ := compile_ok_id _ _ _ _ hc
        intro e x hx
        have hx' : x ∈ m.byEndpoint e ∨ x = b := by
          simp only [URLMap.push] at hx
          split at hx
          · rcases List.mem_append.1 hx with hx | hx
            · exact .inl hx
            · exact .inr (List.mem_singleton.1 hx)
          · exact .inl hx
        rcases hx' with hx | rfl
        · exact ⟨List.mem_append_left _ (h e x hx).1, (h e x hx).2⟩
        · exact ⟨by simp [hr], m.count, by rw [hr]; exact hc⟩
      have := ih (m.push b) _ hp
      rw [List.append_assoc] at this
      exact this

theorem listed_update (m : URLMap) (reg : List Route) (h : Listed m reg) : Listed m.update reg := by
  unfold URLMap.update
  split
  · intro e b hb
    exact h e b ((sort_perm buildLe _).mem_iff.1 hb)
  · exact h

theorem listed_run (ops : List Op) : ∀ (m : URLMap) (reg : List Route), Listed m reg →
    Listed (run m ops) (reg ++ registered m.cfg ops) ∧ (run m ops).cfg = m.cfg := by
  induction ops with
  | nil =>
    intro m reg h
    rw [registered, List.append_nil]
    exact ⟨h, rfl⟩
  | cons op ops ih =>
    intro m reg h
    cases op with
    | add rs =>
      have hc : (m.add rs).1.cfg = m.cfg := by
        clear ih h reg
        induction rs generalizing m with
        | nil => rfl
        | cons r rs ih =>
          rw [URLMap.add]
          split
          · rfl
          · exact ih (m.push _)
      obtain ⟨i1, i2⟩ := ih (m.add rs).1 _ (listed_add rs m reg h)
      rw [List.append_assoc, hc] at i1
      exact ⟨i1, i2.trans hc⟩
    | lookup =>
      have hc : m.update.cfg = m.cfg := by unfold URLMap.update; split <;> rfl
      obtain ⟨i1, i2⟩ := ih m.update _ (listed_update m reg h)
      rw [hc] at i1
      exact ⟨i1, i2.trans hc⟩

/-! ### `NotFound` is raised for nothing else -/

/-- The converters of a compiled route come from the map. -/
theorem build_regex_conv (cfg : Config) (ps : List Piece) : ∀ l, build_regex cfg ps = .ok l →
    ∀ n c, (n, c) ∈ vars l → ∃ k as, cfg.conv k as = .ok c := by
  induction ps with
  | nil => intro l h n c hc; cases h; cases hc
  | cons p ps ih =>
    intro l h n c hc
    cases p with
    | text s =>
      simp only [build_regex] at h
      split at h
      · cases h
      · rename_i l' hl
        cases h
        exact ih _ hl n c hc
    | var k as name =>
      simp only [build_regex] at h
      split at h
      · cases h
      · rename_i conv hconv
        split at h
        · cases h
        · rename_i l' hl
          cases h
          simp only [vars, List.mem_cons, Prod.mk.injEq] at hc
          rcases hc with ⟨rfl, rfl⟩ | hc
          · exact ⟨_, _, hconv⟩
          · exact ih _ hl n c hc

theorem compile_conv (cfg : Config) (i : Nat) (r : Route) (b : Bound) (h : compile cfg i r = .ok b) (n : Str)
    (c : Converter) (hc : (n, c) ∈ b.vars) : ∃ k as, cfg.conv k as = .ok c := by
  unfold compile at h
  simp only at h
  split at h
  · cases h
  · split at h
    · cases h
    · cases h
    · split at h
      · cases h
      · cases h
      · rename_i d p hd hp
        split at h
        · cases h
          rcases List.mem_append.1 hc with hc | hc
          · exact build_regex_conv _ _ _ hd _ _ hc
          · exact build_regex_conv _ _ _ hp _ _ hc
        · cases h

/-- No converter of the map raises `NotFound` when it writes a value. -/
def Quiet (cfg : Config) : Prop := ∀ k as c, cfg.conv k as = .ok c → ∀ v, c.toUrl v ≠ .error .notFound

theorem mem_vars_append (a b : List Part) : vars (a ++ b) = vars a ++ vars b := by
  induction a with
  | nil => rfl
  | cons p ps ih => cases p <;> simp [vars, ih]

theorem trace_vars (b : Bound) : vars b.trace = b.vars := by
  unfold Bound.trace Bound.vars
  rw [List.append_assoc, mem_vars_append]
  congr 1
  rw [List.cons_append, vars, mem_vars_append]
  split <;> simp [vars]

theorem buildParts_quiet (vs : Values) (ps : List Part) (h : ∀ n c, (n, c) ∈ vars ps → ∀ v, c.toUrl v ≠ .error .notFound) :
    buildParts vs ps ≠ .error .notFound := by
  induction ps with
  | nil => simp [buildParts]
  | cons p ps ih =>
    cases p with
    | text s =>
      have ih := ih fun n c hc => h n c hc
      simp only [buildParts]
      split
      · intro he; cases he
      · exact ih
    | var n c =>
      have ih := ih fun n c hc => h n c (.tail _ hc)
      simp only [buildParts]
      split
      · intro he; cases he
      · split
        · rename_i e hu
          intro he
          cases he
          exact h n c (.head _) _ hu
        · intro he; cases he
        · split
          · intro he; cases he
          · exact ih

/-- A route whose converters are quiet. -/
def QuietRoute (b : Bound) : Prop := ∀ n c, (n, c) ∈ b.vars → ∀ v, c.toUrl v ≠ .error .notFound

theorem build_quiet (b : Bound) (h : QuietRoute b) (vs : Values) (u : Bool) : b.build vs u ≠ .error .notFound := by
  have := buildParts_quiet vs b.trace (by rw [trace_vars]; exact h)
  unfold Bound.build
  split
  · rename_i e he
    intro hx
    cases hx
    exact this he
  · intro hx; cases hx
  · intro hx; cases hx

theorem buildGo_quiet (vs : Values) (u : Bool) (l : List Bound) (h : ∀ b ∈ l, QuietRoute b) :
    buildGo vs u l ≠ .error .notFound := by
  induction l with
  | nil => simp [buildGo]
  | cons b bs ih =>
    have ih := ih fun b hb => h b (.tail _ hb)
    rw [buildGo]
    split
    · split
      · exact ih
      · exact build_quiet b (h b (.head _)) vs u
    · exact ih

theorem redirect_quiet (cfg : Config) (a : Adapter) (b : Bound) (vs : Values) (q : Str) (l : List Bound)
    (h : ∀ b ∈ l, QuietRoute b) : getDefaultRedirect cfg a b vs q l ≠ .error .notFound := by
  induction l with
  | nil => simp [getDefaultRedirect]
  | cons r rs ih =>
    have ih := ih fun b hb => h b (.tail _ hb)
    rw [getDefaultRedirect]
    split
    · intro hx; cases hx
    · split
      · split
        · rename_i e he
          intro hx
          cases hx
          exact build_quiet r (h r (.head _)) _ _ he
        · intro hx; cases hx
        · intro hx; cases hx
      · exact ih

theorem lookup_mem {α β} [BEq α] [LawfulBEq α] (l : List (α × β)) (a : α) (b : β) (h : l.lookup a = some b) :
    (a, b) ∈ l := by
  induction l with
  | nil => cases h
  | cons p ps ih =>
    obtain ⟨x, y⟩ := p
    rw [List.lookup_cons] at h
    split at h
    · rename_i hx
      have := eq_of_beq hx
      cases h
      rw [this]
      exact .head _
    · exact .tail _ (ih h)

theorem substitute_quiet (b : Bound) (h : QuietRoute b) (vs : Values) (s : Str) : ∀ n,
    substitute b vs n s ≠ .error .notFound := by
  induction s with
  | nil => intro n; cases n <;> simp [substitute]
  | cons c cs ih =>
    intro n
    cases n with
    | none =>
      rw [substitute]
      split
      · exact ih _
      · split
        · rename_i e he
          intro hx
          cases hx
          exact ih _ he
        · intro hx; cases hx
    | some name =>
      rw [substitute]
      split
      · split
        · rename_i v conv _ hconv
          split
          · rename_i e he
            intro hx
            cases hx
            exact h name conv (lookup_mem _ _ _ hconv) v he
          · intro hx; cases hx
          · split
            · rename_i e he
              intro hx
              cases hx
              exact ih _ he
            · intro hx; cases hx
        · intro hx; cases hx
      · split
        · split
          · rename_i e he
            intro hx
            cases hx
            exact ih _ he
          · intro hx; cases hx
        · exact ih _

theorem answer_quiet (m : URLMap) (hm : ∀ e, ∀ b ∈ m.update.byEndpoint e, QuietRoute b)
    (hm' : ∀ e, ∀ b ∈ m.byEndpoint e, QuietRoute b) (a : Adapter)
    (path pathInfo query : Str) (b : Bound) (hb : QuietRoute b) (f : Found) (hf : f ≠ .none) :
    answer m a path pathInfo query b f ≠ .error .notFound := by
  cases f with
  | none => exact absurd rfl hf
  | slash => intro hx; cases hx
  | alias vs =>
    rw [answer, makeAliasRedirectUrl, build]
    have := buildGo_quiet vs false _ (hm b.route.endpoint)
    cases hg : buildGo vs false (m.update.byEndpoint b.route.endpoint) with
    | error e =>
      rw [hg] at this
      intro hx
      cases hx
      exact this rfl
    | ok o =>
      cases o with
      | none => intro hx; cases hx
      | some dp =>
        obtain ⟨d, p⟩ := dp
        dsimp only
        rw [if_neg (by simp)]
        dsimp only
        by_cases hc : (if query = [] then unparse a.scheme (getHost m.cfg a (some d)) (joinPath a.scriptName (lstripSlash p)) []
            else unparse a.scheme (getHost m.cfg a (some d)) (joinPath a.scriptName (lstripSlash p)) [] ++ s%"?" ++ query) = path
        · split at hc <;> simp_all
        · split at hc <;> simp_all
  | «values» vs =>
    rw [answer]
    split
    · rename_i e he
      intro hx
      cases hx
      split at he
      · exact redirect_quiet _ _ _ _ _ _ (hm' _) he
      · cases he
    · intro hx; cases hx
    · split
      · split
        · rename_i e he
          intro hx
          cases hx
          unfold redirectTarget at he
          dsimp only at he
          split at he
          · cases he
          · split at he
            · rename_i e' he'
              cases he
              exact substitute_quiet b hb vs _ _ he'
            · cases he
        · intro hx; cases hx
      · intro hx; cases hx

/-- `NotFound` is raised exactly when no registered route matches the path. -/
theorem C46_not_found_partial (cfg : Config) (hq : Quiet cfg) (ops : List Op)
    (hs : settled (URLMap.new cfg) true ops = true) (a : Adapter) (pathInfo query : Str) :
    match_ (run (URLMap.new cfg) ops) a pathInfo query = .error .notFound ↔
      ∀ b, Registered cfg ops b → b.match_ cfg (fullPath cfg a pathInfo) = .none := by
  have hl := listed_run ops (URLMap.new cfg) [] (fun e b hb => by cases hb)
  have hquiet : ∀ (m : URLMap) reg, Listed m reg → m.cfg = cfg → ∀ e, ∀ b ∈ m.byEndpoint e, QuietRoute b := by
    intro m reg hm hc e b hb n c hnc
    obtain ⟨_, i, hi⟩ := hm e b hb
    obtain ⟨k, as, hk⟩ := compile_conv _ _ _ _ hi n c hnc
    rw [hc] at hk
    exact hq k as c hk
  have hu := listed_update _ _ hl.1
  have hcu : ∀ m : URLMap, m.update.cfg = m.cfg := fun m => by unfold URLMap.update; split <;> rfl
  have q1 := hquiet _ _ hu ((hcu _).trans hl.2)
  have q2 := hquiet _ _ (listed_update _ _ hu) (((hcu _).trans (hcu _)).trans hl.2)
  rcases C46_outcome_partial cfg ops hs a pathInfo query with ⟨h1, h2⟩ | ⟨b, hb, h1, h2, _⟩
  · exact ⟨fun _ => h1, fun _ => h2⟩
  · constructor
    · intro h
      rw [h2] at h
      obtain ⟨r, _, hr⟩ := hb
      exact absurd h (answer_quiet _ q2 q1 a _ _ _ b (fun n c hnc => by
        obtain ⟨k, as, hk⟩ := compile_conv _ _ _ _ hr n c hnc
        exact hq k as c hk) _ h1)
    · intro h
      exact absurd (h b hb) h1

/-! ### the order of registration -/

theorem registered_perm (cfg : Config) (ops ops' : List Op) (hp : (registered cfg ops).Perm (registered cfg ops'))
    (b : Bound) (h : Registered cfg ops b) : ∃ i, Registered cfg ops' { b with id := i } := by
  obtain ⟨r, hr, hc⟩ := h
  have : r ∈ registered cfg ops' := hp.mem_iff.1 (List.mem_of_getElem? hr)
  obtain ⟨i, hi⟩ := List.mem_iff_getElem?.1 this
  refine ⟨i, r, hi, ?_⟩
  rw [compile_id cfg i b.id, hc]
  rfl

/-- What the application gets to see of an answer. -/
def view : Except PyErr Answer → Except PyErr ((Route × Values) ⊕ Str)
  | .ok (.found b vs) => .ok (.inl (b.route, vs))
  | .ok (.redirect u) => .ok (.inr u)
  | .error e => .error e

theorem selection (cfg : Config) (ops ops' : List Op)
    (hp : (registered cfg ops).Perm (registered cfg ops'))
    (hd : ∀ b c, Registered cfg ops b → Registered cfg ops c → shape b = shape c → b = c)
    (path : Str) (b : Bound) (hb : Registered cfg ops b) (hm : b.match_ cfg path ≠ .none)
    (hbest : ∀ c, Registered cfg ops c → c.match_ cfg path ≠ .none → c ≠ b →
        MoreSpecific (shape b) (shape c) ∨ shape b = shape c ∧ b.id < c.id)
    (b' : Bound) (hb' : Registered cfg ops' b') (hm' : b'.match_ cfg path ≠ .none)
    (hbest' : ∀ c, Registered cfg ops' c → c.match_ cfg path ≠ .none → c ≠ b' →
        MoreSpecific (shape b') (shape c) ∨ shape b' = shape c ∧ b'.id < c.id) :
    b' = { b with id := b'.id } := by
  obtain ⟨i, hi⟩ := registered_perm cfg ops ops' hp b hb
  obtain ⟨j, hj⟩ := registered_perm cfg ops' ops hp.symm b' hb'
  by_cases he : ({ b' with id := j } : Bound) = b
  · rw [← he]
  · rcases hbest _ hj hm' he with h | ⟨h, _⟩
    · by_cases he' : ({ b with id := i } : Bound) = b'
      · rw [← he']
      · rcases hbest' _ hi hm he' with h' | ⟨h', _⟩
        · exact absurd (specific_trans h h') (specific_irrefl _)
        · have h2 : MoreSpecific (shape b) (shape b') := h
          have h3 : shape b' = shape b := h'
          rw [h3] at h2
          exact absurd h2 (specific_irrefl _)
    · exact absurd (hd _ _ hj hb h.symm) he

theorem redirect_none (cfg : Config) (a : Adapter) (b : Bound) (vs : Values) (q : Str) (l : List Bound)
    (h : ∀ b ∈ l, b.route.defaults = []) : getDefaultRedirect cfg a b vs q l = .ok none := by
  induction l with
  | nil => rfl
  | cons r rs ih =>
    rw [getDefaultRedirect]
    split
    · rfl
    · rw [if_neg]
      · exact ih fun b hb => h b (.tail _ hb)
      · simp [Bound.providesDefaultsFor, h r (.head _)]

/-- The answer of a route on its own. -/
def plain (cfg : Config) (a : Adapter) (pathInfo query : Str) (b : Bound) :
    Found → Except PyErr ((Route × Values) ⊕ Str)
  | .none => .error .notFound
  | .alias _ => .error .notFound
  | .slash => .ok (.inr (makeRedirectUrl cfg a (urlquote b%"/:|+" pathInfo ++ s%"/") query none))
  | .values vs => match b.route.redirectTo with
    | some t => match redirectTarget cfg a b vs t with
      | .error e => .error e
      | .ok url => .ok (.inr url)
    | none => .ok (.inl (b.route, vs))

theorem substitute_id (b : Bound) (i : Nat) (vs : Values) (s : Str) : ∀ n,
    substitute { b with id := i } vs n s = substitute b vs n s := by
  induction s with
  | nil => intro n; cases n <;> rfl
  | cons c cs ih =>
    intro n
    have hv : Bound.vars { b with id := i } = b.vars := rfl
    cases n <;> simp only [substitute, ih, hv]

theorem plain_id (cfg : Config) (a : Adapter) (pathInfo query : Str) (b : Bound) (i : Nat) (f : Found) :
    plain cfg a pathInfo query { b with id := i } f = plain cfg a pathInfo query b f := by
  cases f with
  | «values» vs => simp only [plain, redirectTarget, substitute_id]
  | _ => rfl

/-- Routes without alias and defaults, of distinct specificity, give the same answer in
whatever order they are registered. -/
theorem C46_independent_partial (cfg : Config) (ops ops' : List Op)
    (hs : settled (URLMap.new cfg) true ops = true) (hs' : settled (URLMap.new cfg) true ops' = true)
    (hp : (registered cfg ops).Perm (registered cfg ops'))
    (hd : ∀ b c, Registered cfg ops b → Registered cfg ops c → shape b = shape c → b = c)
    (hr : cfg.redirectDefaults = false ∨ ∀ r ∈ registered cfg ops, r.alias = false ∧ r.defaults = [])
    (a : Adapter) (pathInfo query : Str) :
    view (match_ (run (URLMap.new cfg) ops) a pathInfo query) =
      view (match_ (run (URLMap.new cfg) ops') a pathInfo query) := by
  have hcu : ∀ m : URLMap, m.update.cfg = m.cfg := fun m => by unfold URLMap.update; split <;> rfl
  have hl := listed_run ops (URLMap.new cfg) [] (fun e b hb => by cases hb)
  have hl' := listed_run ops' (URLMap.new cfg) [] (fun e b hb => by cases hb)
  have hr' : cfg.redirectDefaults = false ∨ ∀ r ∈ registered cfg ops', r.alias = false ∧ r.defaults = [] := by
    rcases hr with h | h
    · exact .inl h
    · exact .inr fun r hr => h r (hp.mem_iff.2 hr)
  -- the answer of a route does not depend on the rest of the map
  have key : ∀ (ops : List Op), (∀ e, ∀ b ∈ (run (URLMap.new cfg) ops).update.byEndpoint e, b.route ∈ registered cfg ops) →
      (run (URLMap.new cfg) ops).update.cfg = cfg →
      (cfg.redirectDefaults = false ∨ ∀ r ∈ registered cfg ops, r.alias = false ∧ r.defaults = []) →
      ∀ b, Registered cfg ops b → ∀ path, view (answer (run (URLMap.new cfg) ops).update a path pathInfo query b (b.match_ cfg path)) =
        plain cfg a pathInfo query b (b.match_ cfg path) := by
    intro ops hmem hcfg hr b hb path
    cases hf : b.match_ cfg path with
    | none => rfl
    | slash => simp only [answer, hcfg, plain, view]
    | alias vs =>
      exfalso
      unfold Bound.match_ at hf
      split at hf
      · cases hf
      · split at hf
        · cases hf
        · split at hf
          · cases hf
          · split at hf
            · cases hf
            · dsimp only at hf
              split at hf
              · rename_i hcond
                rcases hr with h | h
                · rw [h] at hcond; exact absurd hcond.2 (by decide)
                · obtain ⟨r, hr1, hr2⟩ := hb
                  obtain ⟨_, hr3⟩ := compile_ok_id _ _ _ _ hr2
                  have := (h r (List.mem_of_getElem? hr1)).1
                  rw [hr3, this] at hcond
                  exact absurd hcond.1 (by decide)
              · cases hf
    | «values» vs =>
      rw [answer, hcfg, plain]
      have : (if cfg.redirectDefaults = true then getDefaultRedirect cfg a b vs query
          ((run (URLMap.new cfg) ops).update.byEndpoint b.route.endpoint) else .ok none) = .ok none := by
        rcases hr with h | h
        · rw [if_neg (by rw [h]; decide)]
        · split
          · exact redirect_none _ _ _ _ _ _ fun b hb => (h _ (hmem _ b hb)).2
          · rfl
      rw [this]
      dsimp only
      cases b.route.redirectTo with
      | none => rfl
      | some t => dsimp only; cases redirectTarget cfg a b vs t <;> rfl
  have k1 := key ops (fun e b hb => ((listed_update _ _ hl.1) e b hb).1) ((hcu _).trans hl.2) hr
  have k2 := key ops' (fun e b hb => ((listed_update _ _ hl'.1) e b hb).1) ((hcu _).trans hl'.2) hr'
  rcases C46_outcome_partial cfg ops hs a pathInfo query with ⟨h1, h2⟩ | ⟨b, hb, h1, h2, h3⟩
  · rcases C46_outcome_partial cfg ops' hs' a pathInfo query with ⟨h1', h2'⟩ | ⟨b', hb', h1', h2', h3'⟩
    · rw [h2, h2']
    · obtain ⟨j, hj⟩ := registered_perm cfg ops' ops hp.symm b' hb'
      exact absurd (h1 _ hj) h1'
  · rcases C46_outcome_partial cfg ops' hs' a pathInfo query with ⟨h1', h2'⟩ | ⟨b', hb', h1', h2', h3'⟩
    · obtain ⟨i, hi⟩ := registered_perm cfg ops ops' hp b hb
      exact absurd (h1' _ hi) h1
    · have he := selection cfg ops ops' hp hd _ b hb h1 h3 b' hb' h1' h3'
      rw [h2, h2', k1 b hb, k2 b' hb', he]
      exact (plain_id cfg a pathInfo query b b'.id _).symm

/-! ### cases -/

/-- The converters `default`, `string`, `path` and `int` of the map without arguments. -/
def sampleConv (name : Str) (_ : Option Str) : Except PyErr Converter :=
  if name = s%"default" ∨ name = s%"string" then .ok (stringConv 1 none)
  else if name = s%"path" then .ok pathConv
  else if name = s%"int" then .ok (intConv (fun c => if c.isDigit then some (c.toNat - 48) else none) 0 none none)
  else .error .lookupError

/-- A map with the default settings. -/
def sampleCfg : Config := ⟨false, [], true, true, sampleConv, fun _ p => p⟩

/-- A plain route. -/
def sampleRoute (rule endpoint : Str) : Route := ⟨rule, [], none, false, endpoint, none, none, false, none⟩

def sampleAdapter : Adapter := Adapter.mk' s%"example.org" s%"/" [] s%"http"

def pageRoute : Route := sampleRoute s%"/<path:p>" s%"page"
def newRoute : Route := sampleRoute s%"/a/new" s%"new"
def itemRoute : Route := sampleRoute s%"/a/<int:n>" s%"item"

/-- The end point that was chosen. -/
def chosen : Except PyErr Answer → Option Str
  | .ok (.found b _) => some b.route.endpoint
  | _ => none

set_option maxRecDepth 8000

example : settled (URLMap.new sampleCfg) true [.add [pageRoute], .lookup, .add [itemRoute, newRoute]] = true ∧
    chosen (match_ (run (URLMap.new sampleCfg) [.add [pageRoute], .lookup, .add [itemRoute, newRoute]])
      sampleAdapter s%"/a/new" []) = some s%"new" ∧
    chosen (match_ (run (URLMap.new sampleCfg) [.add [pageRoute], .lookup, .add [itemRoute, newRoute]])
      sampleAdapter s%"/a/12" []) = some s%"item" ∧
    chosen (match_ (run (URLMap.new sampleCfg) [.add [pageRoute], .lookup, .add [itemRoute, newRoute]])
      sampleAdapter s%"/a/x" []) = some s%"page" := by decide +kernel

/-- No sample converter raises `NotFound`. -/
theorem sample_quiet : Quiet sampleCfg := by
  intro k as c h v
  simp only [sampleCfg, sampleConv] at h
  have hb : ∀ v, baseUrl v ≠ .error .notFound := fun v => by simp [baseUrl]
  split at h
  · cases h; exact hb v
  · split at h
    · cases h; exact hb v
    · split at h
      · cases h
        have hn : ∀ v, numConvert v ≠ .error .notFound := fun v => by
          cases v with
          | str s =>
            simp only [numConvert, Py.intOf]
            repeat' split
            all_goals simp
          | int i => simp [numConvert]
          | uuid n => simp [numConvert]
          | flt s =>
            simp only [numConvert, Py.intOf]
            repeat' split
            all_goals simp
        simp only [intConv]
        split
        · rename_i e he
          intro hx
          cases hx
          exact hn v he
        · intro hx; cases hx
      · cases h

example (pathInfo query : Str) :
    view (match_ (run (URLMap.new sampleCfg) [.add [pageRoute, itemRoute, newRoute]]) sampleAdapter pathInfo query) =
      view (match_ (run (URLMap.new sampleCfg) [.add [newRoute], .lookup, .add [pageRoute, itemRoute]])
        sampleAdapter pathInfo query) := by
  have hr : registered sampleCfg [.add [pageRoute, itemRoute, newRoute]] = [pageRoute, itemRoute, newRoute] := rfl
  refine C46_independent_partial sampleCfg _ _ rfl rfl ?_ ?_ (.inr ?_) _ _ _
  · rw [hr, show registered sampleCfg [.add [newRoute], .lookup, .add [pageRoute, itemRoute]] =
      [newRoute, pageRoute, itemRoute] from rfl]
    exact (List.perm_append_comm (l₁ := [pageRoute, itemRoute]) (l₂ := [newRoute]))
  · have key : ∀ b, Registered sampleCfg [.add [pageRoute, itemRoute, newRoute]] b →
        (b.id = 0 ∧ shape b = ⟨true, [.var 200]⟩ ∧ compile sampleCfg 0 pageRoute = .ok b) ∨
        (b.id = 1 ∧ shape b = ⟨true, [.text 1, .var 50]⟩ ∧ compile sampleCfg 1 itemRoute = .ok b) ∨
        (b.id = 2 ∧ shape b = ⟨false, [.text 1, .text 3]⟩ ∧ compile sampleCfg 2 newRoute = .ok b) := by
      rintro b ⟨r, h1, h2⟩
      rw [hr] at h1
      have hi : b.id = 0 ∨ b.id = 1 ∨ b.id = 2 := by
        have := (List.getElem?_eq_some_iff.1 h1).1
        simp at this
        omega
      rcases hi with hi | hi | hi <;> rw [hi] at h1 h2 <;> cases h1
      · refine .inl ⟨hi, ?_, h2⟩
        cases h2; rfl
      · refine .inr (.inl ⟨hi, ?_, h2⟩)
        cases h2; rfl
      · refine .inr (.inr ⟨hi, ?_, h2⟩)
        cases h2; rfl
    intro b c hb hc hs
    rcases key b hb with ⟨_, h1, h2⟩ | ⟨_, h1, h2⟩ | ⟨_, h1, h2⟩ <;>
      rcases key c hc with ⟨_, h3, h4⟩ | ⟨_, h3, h4⟩ | ⟨_, h3, h4⟩ <;>
      first
      | exact Except.ok.inj (h2.symm.trans h4)
      | (exfalso; rw [h1, h3] at hs; revert hs; decide)
  · intro r h
    rw [hr] at h
    simp only [List.mem_cons, List.not_mem_nil, or_false] at h
    rcases h with rfl | rfl | rfl <;> exact ⟨rfl, rfl⟩

/-- As stated C46 is false: when `add_routes` fails half way, the routes before the failing
one are in use, but behind the others, until the next successful call. -/
theorem C46_order_false : ∃ (cfg : Config) (ops : List Op) (a : Adapter) (b c : Bound),
    Registered cfg ops b ∧ Registered cfg ops c ∧ MoreSpecific (shape c) (shape b) ∧
    c.match_ cfg (fullPath cfg a s%"/a/new") ≠ .none ∧
    ∃ vs, match_ (run (URLMap.new cfg) ops) a s%"/a/new" [] = .ok (.found b vs) := by
  refine ⟨sampleCfg, [.add [pageRoute], .lookup, .add [newRoute, sampleRoute s%"/<nope:x>" s%"bad"]], sampleAdapter,
    ⟨0, pageRoute, true, [], [.text s%"/", .var s%"p" pathConv]⟩, ⟨1, newRoute, true, [], [.text s%"/a/new"]⟩,
    ⟨pageRoute, rfl, rfl⟩, ⟨newRoute, rfl, rfl⟩, .inl ⟨rfl, rfl⟩, ?_, [(s%"p", .str s%"a/new")], rfl⟩
  intro h
  have : Bound.match_ sampleCfg ⟨1, newRoute, true, [], [.text s%"/a/new"]⟩
    (fullPath sampleCfg sampleAdapter s%"/a/new") = .values [] := rfl
  rw [this] at h
  cases h

end Verif.Props.RoutingP
