import Verif.Model.MapAdders
import Verif.Props.MapThreads
/-! Property theorem C149: routes added by several threads, and while others look up. -/
namespace Verif.Props.AddersP
open Verif Verif.Routing Verif.Adders

/-! ### Adding only -/

/-- What a thread still has to put into the list of all routes. -/
def left : Pc → List Bound
  | .adding t => t
  | .filing _ t => t
  | _ => []

/-- What a thread still has to put into the lists of end points. -/
def leftE : Pc → List Bound
  | .adding t => t
  | .filing b t => b :: t
  | _ => []

/-- Threads that add. -/
def isAdder : Pc → Bool
  | .adding _ | .filing _ _ | .added => true
  | _ => false

theorem flatMap_set_same {α β : Type} (f : α → List β) (l : List α) (j : Nat) (x y : α) (h : l[j]? = some x)
    (he : f y = f x) : (l.set j y).flatMap f = l.flatMap f := by
  induction l generalizing j with
  | nil => cases h
  | cons a l ih =>
    cases j with
    | zero => cases h; simp [he]
    | succ j => simp only [List.set_cons_succ, List.flatMap_cons]; rw [ih j h]

theorem flatMap_set_perm {α β : Type} (f : α → List β) (l : List α) (j : Nat) (x y : α) (b : β) (h : l[j]? = some x)
    (he : f x = b :: f y) : (l.flatMap f).Perm (b :: (l.set j y).flatMap f) := by
  induction l generalizing j with
  | nil => cases h
  | cons a l ih =>
    cases j with
    | zero => cases h; simp [he]
    | succ j =>
      simp only [List.set_cons_succ, List.flatMap_cons]
      exact (List.Perm.append_left _ (ih j h)).trans List.perm_middle

theorem run_cons (w : Adders.World) (j : Nat) (sch : List Nat) : w.run (j :: sch) = (w.step j).run sch := rfl

theorem step_eq (w : Adders.World) (j : Nat) (pc : Pc) (h : w.threads[j]? = some pc) :
    w.step j = ⟨(Adders.step w.shared pc).1, w.threads.set j (Adders.step w.shared pc).2⟩ := by
  unfold Adders.World.step; rw [h]

theorem step_none (w : Adders.World) (j : Nat) (h : w.threads[j]? = none) : w.step j = w := by
  unfold Adders.World.step; rw [h]

/-- Any property of threads and state that every step keeps holds at the end. -/
theorem run_inv (P : Adders.World → Prop) (hs : ∀ w j, P w → P (w.step j)) (sch : List Nat) : ∀ w, P w → P (w.run sch) := by
  induction sch with
  | nil => exact fun w h => h
  | cons j sch ih => exact fun w h => ih _ (hs w j h)

/-- The invariant of adding. -/
structure AddInv (base : Sh) (lists : List (List Bound)) (w : Adders.World) : Prop where
  adders : ∀ pc ∈ w.threads, isAdder pc = true
  len : w.threads.length = lists.length
  routes : ∃ x, w.shared.routes = base.routes ++ x ∧ (x ++ w.threads.flatMap left).Perm lists.flatten ∧
    ∀ (j : Nat) (pc : Pc) (l : List Bound), w.threads[j]? = some pc → lists[j]? = some l →
      ∃ pre, l = pre ++ left pc ∧ pre.Sublist x
  eps : ∀ e, (listOf w.shared.eps e ++ (w.threads.flatMap leftE).filter (fun b => decide (b.route.endpoint = e))).Perm
    (listOf base.eps e ++ lists.flatten.filter (fun b => decide (b.route.endpoint = e)))
  remap : Pc.added ∈ w.threads → w.shared.remap = true

theorem AddInv.start (base : Sh) (lists : List (List Bound)) : AddInv base lists ⟨base, lists.map .adding⟩ := by
  have e1 : (lists.map Pc.adding).flatMap left = lists.flatten := by
    induction lists with
    | nil => rfl
    | cons l ls ih => simp only [List.map_cons, List.flatMap_cons, List.flatten_cons, ih]; rfl
  have e2 : (lists.map Pc.adding).flatMap leftE = lists.flatten := by
    clear e1
    induction lists with
    | nil => rfl
    | cons l ls ih => simp only [List.map_cons, List.flatMap_cons, List.flatten_cons, ih]; rfl
  refine ⟨?_, by simp, ⟨[], by simp, ?_, ?_⟩, ?_, ?_⟩
  · intro pc hpc
    obtain ⟨l, -, rfl⟩ := List.mem_map.1 hpc
    rfl
  · dsimp only; rw [e1]; exact List.Perm.refl _
  · intro j pc l h1 h2
    dsimp only at h1
    rw [List.getElem?_map, h2] at h1
    cases h1
    exact ⟨[], rfl, List.Sublist.refl _⟩
  · intro e; dsimp only; rw [e2]
  · intro hpc
    obtain ⟨l, -, h⟩ := List.mem_map.1 hpc
    cases h

theorem mem_set_cases {α : Type} {l : List α} {j : Nat} {y z : α} (h : z ∈ l.set j y) : z ∈ l ∨ z = y :=
  List.mem_or_eq_of_mem_set h

theorem listOf_set (eps : List (Str × List Bound)) (k e : Str) (l : List Bound) :
    listOf (Dict.set eps k l) e = if e = k then l else listOf eps e := by
  unfold listOf
  rw [Dict.get_set]
  split <;> rfl

theorem AddInv.step {base : Sh} {lists : List (List Bound)} (w : Adders.World) (j : Nat) (h : AddInv base lists w) :
    AddInv base lists (w.step j) := by
  cases hj : w.threads[j]? with
  | none => rw [step_none w j hj]; exact h
  | some pc =>
    have hjl : j < w.threads.length := (List.getElem?_eq_some_iff.1 hj).1
    rw [step_eq w j pc hj]
    obtain ⟨h1, h2, ⟨x, hx1, hx2, hx3⟩, h4, h5⟩ := h
    have ha := h1 pc (List.mem_of_getElem? hj)
    cases pc with
    | added =>
      have : w.threads.set j Pc.added = w.threads := by
        apply List.ext_getElem?
        intro i
        by_cases hij : j = i
        · subst hij; rw [List.getElem?_set_self hjl, hj]
        · rw [List.getElem?_set_ne hij]
      simp only [Adders.step]
      rw [this]
      exact ⟨h1, h2, ⟨x, hx1, hx2, hx3⟩, h4, h5⟩
    | filing b todo =>
      simp only [Adders.step]
      have f1 : (w.threads.set j (Pc.adding todo)).flatMap left = w.threads.flatMap left :=
        flatMap_set_same left _ j _ _ hj rfl
      have f2 := flatMap_set_perm leftE _ j _ (Pc.adding todo) b hj rfl
      refine ⟨?_, by simpa using h2, ⟨x, hx1, by dsimp only; rw [f1]; exact hx2, ?_⟩, ?_, ?_⟩
      · intro q hq
        rcases mem_set_cases hq with hq | rfl
        · exact h1 q hq
        · rfl
      · intro i q l hq hl
        dsimp only at hq
        by_cases hij : j = i
        · subst hij
          rw [List.getElem?_set_self hjl] at hq; cases hq
          exact (hx3 j _ l hj hl :)
        · rw [List.getElem?_set_ne hij] at hq
          exact hx3 i q l hq hl
      · intro e
        refine List.Perm.trans ?_ (h4 e)
        dsimp only
        rw [listOf_set]
        have f3 := f2.filter (fun b => decide (b.route.endpoint = e))
        by_cases hb : b.route.endpoint = e
        · subst hb
          rw [if_pos rfl]
          rw [List.filter_cons_of_pos (by simp)] at f3
          refine List.Perm.trans ?_ (List.Perm.append_left _ f3.symm)
          rw [List.append_assoc]
          exact List.Perm.refl _
        · rw [if_neg (fun he => hb he.symm)]
          rw [List.filter_cons_of_neg (by simp [hb])] at f3
          exact List.Perm.append_left _ f3.symm
      · intro hq
        rcases mem_set_cases hq with hq | hq
        · exact h5 hq
        · cases hq
    | adding todo =>
      cases todo with
      | nil =>
        simp only [Adders.step]
        have f1 : (w.threads.set j Pc.added).flatMap left = w.threads.flatMap left := flatMap_set_same left _ j _ _ hj rfl
        have f2 : (w.threads.set j Pc.added).flatMap leftE = w.threads.flatMap leftE := flatMap_set_same leftE _ j _ _ hj rfl
        refine ⟨?_, by simpa using h2, ⟨x, hx1, by dsimp only; rw [f1]; exact hx2, ?_⟩, ?_, fun _ => rfl⟩
        · intro q hq
          rcases mem_set_cases hq with hq | rfl
          · exact h1 q hq
          · rfl
        · intro i q l hq hl
          dsimp only at hq
          by_cases hij : j = i
          · subst hij
            rw [List.getElem?_set_self hjl] at hq; cases hq
            exact (hx3 j _ l hj hl :)
          · rw [List.getElem?_set_ne hij] at hq
            exact hx3 i q l hq hl
        · intro e; dsimp only; rw [f2]; exact h4 e
      | cons b todo =>
        simp only [Adders.step]
        have f1 := flatMap_set_perm left _ j _ (Pc.filing b todo) b hj rfl
        have f2 : (w.threads.set j (Pc.filing b todo)).flatMap leftE = w.threads.flatMap leftE :=
          flatMap_set_same leftE _ j _ _ hj rfl
        refine ⟨?_, by simpa using h2, ⟨x ++ [b], by dsimp only; rw [hx1, List.append_assoc], ?_, ?_⟩, ?_, ?_⟩
        · intro q hq
          rcases mem_set_cases hq with hq | rfl
          · exact h1 q hq
          · rfl
        · refine List.Perm.trans ?_ hx2
          rw [List.append_assoc]
          exact List.Perm.append_left _ f1.symm
        · intro i q l hq hl
          dsimp only at hq
          by_cases hij : j = i
          · subst hij
            rw [List.getElem?_set_self hjl] at hq; cases hq
            obtain ⟨pre, p1, p2⟩ := hx3 j _ l hj hl
            exact ⟨pre ++ [b], by rw [p1, List.append_assoc]; rfl, p2.append (List.Sublist.refl _)⟩
          · rw [List.getElem?_set_ne hij] at hq
            obtain ⟨pre, p1, p2⟩ := hx3 i q l hq hl
            exact ⟨pre, p1, p2.trans (List.sublist_append_left _ _)⟩
        · intro e; dsimp only; rw [f2]; exact h4 e
        · intro hq
          rcases mem_set_cases hq with hq | hq
          · exact h5 hq
          · cases hq
    | _ => cases ha

/-- Any number of threads may add routes at the same time, as long as nobody looks up: however they take turns, when all
are done no route is lost or there twice, the routes of each thread stand in its order behind the ones that were there, the
lists of the end points hold the same routes, and the map will be put in order before the next lookup. -/
theorem C149_adders (base : Sh) (lists : List (List Bound)) (schedule : List Nat)
    (hd : ∀ pc ∈ ((⟨base, lists.map .adding⟩ : Adders.World).run schedule).threads, pc = .added) :
    let s := ((⟨base, lists.map .adding⟩ : Adders.World).run schedule).shared
    (∃ x, s.routes = base.routes ++ x ∧ x.Perm lists.flatten ∧ ∀ l ∈ lists, l.Sublist x) ∧
    (∀ e, (listOf s.eps e).Perm (listOf base.eps e ++ lists.flatten.filter (fun b => decide (b.route.endpoint = e)))) ∧
    (lists ≠ [] → s.remap = true) := by
  intro s
  have h := run_inv (AddInv base lists) (fun w j => AddInv.step w j) schedule _ (AddInv.start base lists)
  have hs : s = ((⟨base, lists.map .adding⟩ : Adders.World).run schedule).shared := rfl
  clear_value s
  generalize ((⟨base, lists.map .adding⟩ : Adders.World).run schedule) = w at h hd hs
  rw [hs]
  clear hs
  obtain ⟨-, h2, ⟨x, hx1, hx2, hx3⟩, h4, h5⟩ := h
  have l0 : w.threads.flatMap left = [] := by
    rw [List.flatMap_eq_nil_iff]
    intro pc hpc
    rw [hd pc hpc]
    rfl
  have l1 : w.threads.flatMap leftE = [] := by
    rw [List.flatMap_eq_nil_iff]
    intro pc hpc
    rw [hd pc hpc]
    rfl
  refine ⟨⟨x, hx1, by rw [l0, List.append_nil] at hx2; exact hx2, ?_⟩, ?_, ?_⟩
  · intro l hl
    obtain ⟨j, hj⟩ := List.getElem?_of_mem hl
    have hjl : j < w.threads.length := by rw [h2]; exact (List.getElem?_eq_some_iff.1 hj).1
    have hp := List.getElem?_eq_getElem hjl
    obtain ⟨pre, p1, p2⟩ := hx3 j _ l hp hj
    have he := hd _ (List.getElem_mem hjl)
    rw [he] at p1
    rw [p1, show left Pc.added = [] from rfl, List.append_nil]
    exact p2
  · intro e
    have := h4 e
    rw [l1, List.filter_nil, List.append_nil] at this
    exact this
  · intro hne
    cases ht : w.threads with
    | nil => rw [ht] at h2; exact absurd (List.length_eq_zero_iff.1 h2.symm) hne
    | cons pc ts =>
      have hm : pc ∈ w.threads := by rw [ht]; exact List.mem_cons_self ..
      exact h5 (hd pc hm ▸ hm)

/-! ### Adding and looking up -/

/-- The routes a thread may bring into the map. -/
def brings : Pc → List Bound
  | .adding t => t
  | _ => []

/-- What a thread that looks up is looking for. -/
def wants : Pc → Option (Bound → Bool)
  | .check hit => some hit
  | _ => none

/-- Where threads begin: they add routes, or look up. -/
def Begins (pc : Pc) : Prop := (∃ t, pc = .adding t) ∨ ∃ hit, pc = .check hit

/-- Nothing but known routes is in a thread's hands, and what it found is what it was looking for. -/
def Known (U : Bound → Prop) (p : Pc) : Pc → Prop
  | .adding t => ∀ b ∈ t, U b
  | .filing b t => U b ∧ ∀ c ∈ t, U c
  | .added => True
  | .check hit | .sort hit | .next _ _ hit | .clear hit | .scan _ hit => wants p = some hit
  | .sorting saved hit => wants p = some hit ∧ ∀ b ∈ saved, U b
  | .sortingE _ _ _ _ hit => wants p = some hit
  | .found b => U b ∧ ∃ hit, wants p = some hit ∧ hit b = true
  | .missed => True
  | .failed _ => True

theorem known_step (U : Bound → Prop) (p : Pc) (s : Sh) (hs : ∀ b ∈ s.routes, U b) (pc : Pc) (h : Known U p pc) :
    (∀ b ∈ (Adders.step s pc).1.routes, U b) ∧ Known U p (Adders.step s pc).2 := by
  cases pc with
  | adding t =>
    cases t with
    | nil => exact ⟨hs, trivial⟩
    | cons b t =>
      have h' : ∀ c ∈ b :: t, U c := h
      refine ⟨?_, h' b (List.mem_cons_self ..), fun c hc => h' c (List.mem_cons_of_mem _ hc)⟩
      intro c hc
      rcases List.mem_append.1 hc with hc | hc
      · exact hs c hc
      · rw [List.mem_singleton] at hc; subst hc; exact h' _ (List.mem_cons_self ..)
  | filing b t => exact ⟨hs, h.2⟩
  | added => exact ⟨hs, trivial⟩
  | check hit =>
    simp only [Adders.step]
    split <;> exact ⟨hs, h⟩
  | sort hit =>
    simp only [Adders.step]
    split
    · exact ⟨hs, h⟩
    · exact ⟨fun b hb => (by cases hb), h, hs⟩
  | sorting saved hit =>
    refine ⟨fun b hb => h.2 b ((RoutingP.sort_perm _ _).mem_iff.1 hb), ?_⟩
    simp only [Adders.step]
    split
    · exact h.1
    · trivial
  | next n i hit =>
    simp only [Adders.step]
    split
    · exact ⟨hs, trivial⟩
    · split
      · exact ⟨hs, h⟩
      · split <;> exact ⟨hs, h⟩
  | sortingE e saved n i hit =>
    refine ⟨hs, ?_⟩
    simp only [Adders.step]
    split
    · exact h
    · trivial
  | clear hit => exact ⟨hs, h⟩
  | scan i hit =>
    simp only [Adders.step]
    split
    · exact ⟨hs, trivial⟩
    · rename_i b hb
      split
      · rename_i hh
        exact ⟨hs, hs b (List.mem_of_getElem? hb), hit, h, hh⟩
      · exact ⟨hs, h⟩
  | found b => exact ⟨hs, h⟩
  | missed => exact ⟨hs, trivial⟩
  | failed e => exact ⟨hs, trivial⟩

/-- A lookup never invents: however threads that add and threads that look up take turns, a route that was found is one the
lookup was for, and was in the map before or is one that a thread added. -/
theorem C149_sound (base : Sh) (ps : List Pc) (hb : ∀ p ∈ ps, Begins p) (schedule : List Nat) (j : Nat) (b : Bound)
    (h : ((⟨base, ps⟩ : Adders.World).run schedule).threads[j]? = some (.found b)) :
    (b ∈ base.routes ∨ ∃ p ∈ ps, b ∈ brings p) ∧ ∃ hit, ps[j]? = some (.check hit) ∧ hit b = true := by
  let U := fun b => b ∈ base.routes ∨ ∃ p ∈ ps, b ∈ brings p
  have inv := run_inv (fun w => w.threads.length = ps.length ∧ (∀ b ∈ w.shared.routes, U b) ∧
      ∀ (i : Nat) (p pc : Pc), ps[i]? = some p → w.threads[i]? = some pc → Known U p pc) (by
    rintro w i ⟨h1, h2, h3⟩
    cases hi : w.threads[i]? with
    | none => rw [step_none w i hi]; exact ⟨h1, h2, h3⟩
    | some pc =>
      rw [step_eq w i pc hi]
      have hil : i < w.threads.length := (List.getElem?_eq_some_iff.1 hi).1
      have hp := List.getElem?_eq_getElem (h1 ▸ hil : i < ps.length)
      have hk := known_step U _ w.shared h2 pc (h3 i _ pc hp hi)
      refine ⟨by simpa using h1, hk.1, fun k p q hkp hkq => ?_⟩
      dsimp only at hkq
      by_cases hik : i = k
      · subst hik
        rw [List.getElem?_set_self hil] at hkq; cases hkq
        rw [hp] at hkp; cases hkp
        exact hk.2
      · rw [List.getElem?_set_ne hik] at hkq
        exact h3 k p q hkp hkq) schedule ⟨base, ps⟩ ⟨rfl, fun b hb => .inl hb, by
      intro i p pc hp hpc
      dsimp only at hpc
      rw [hp] at hpc; cases hpc
      rcases hb p (List.mem_of_getElem? hp) with ⟨t, rfl⟩ | ⟨hit, rfl⟩
      · exact fun b hbt => .inr ⟨_, List.mem_of_getElem? hp, hbt⟩
      · rfl⟩
  obtain ⟨h1, -, h3⟩ := inv
  have hjl : j < ps.length := by rw [← h1]; exact (List.getElem?_eq_some_iff.1 h).1
  have hp := List.getElem?_eq_getElem hjl
  obtain ⟨k1, hit, k2, k3⟩ := h3 j _ _ hp h
  refine ⟨k1, hit, ?_, k3⟩
  rcases hb _ (List.getElem_mem hjl) with ⟨t, ht⟩ | ⟨hit', ht⟩
  · rw [ht] at k2; cases k2
  · rw [ht] at k2; cases k2; rw [hp, ht]

theorem added_stays (w : Adders.World) (j : Nat) (h : Pc.added ∈ w.threads) : Pc.added ∈ (w.step j).threads := by
  cases hj : w.threads[j]? with
  | none => rw [step_none w j hj]; exact h
  | some pc =>
    rw [step_eq w j pc hj]
    obtain ⟨i, hi⟩ := List.getElem?_of_mem h
    have hil : i < w.threads.length := (List.getElem?_eq_some_iff.1 hi).1
    refine List.mem_of_getElem? (i := i) ?_
    dsimp only
    by_cases hij : j = i
    · subst hij
      rw [hi] at hj; cases hj
      rw [List.getElem?_set_self hil]; rfl
    · rw [List.getElem?_set_ne hij, hi]

/-- Where a thread may stand while nobody has finished adding to a map that is in order: nobody sorts. -/
def Calm (base : List Bound) (U : Bound → Prop) (p : Pc) (routes : List Bound) : Pc → Prop
  | .adding t => ∀ b ∈ t, U b
  | .filing b t => U b ∧ ∀ c ∈ t, U c
  | .check hit => wants p = some hit
  | .scan i hit => wants p = some hit ∧ i ≤ routes.length ∧ ∀ b ∈ routes.take i, hit b = false
  | .found b => ∃ hit, wants p = some hit ∧ (base.find? hit = some b ∨ (base.find? hit = none ∧ U b ∧ hit b = true))
  | .missed => ∃ hit, wants p = some hit ∧ base.find? hit = none
  | _ => False

theorem find_none_of {base : List Bound} {hit : Bound → Bool} (h : ∀ b ∈ base, hit b = false) : base.find? hit = none := by
  rw [List.find?_eq_none]
  intro b hb; rw [h b hb]; decide

/-- While routes are being added to a map that is in order, and nobody is done adding yet, every lookup is answered as
before; only where there was no answer before may it be answered with one of the new routes. -/
theorem C149_old_or_new (base : Sh) (hr : base.remap = false) (ps : List Pc) (hb : ∀ p ∈ ps, Begins p)
    (schedule : List Nat) (hn : Pc.added ∉ ((⟨base, ps⟩ : Adders.World).run schedule).threads) (j : Nat)
    (hit : Bound → Bool) (hp : ps[j]? = some (.check hit)) (pc : Pc)
    (h : ((⟨base, ps⟩ : Adders.World).run schedule).threads[j]? = some pc) :
    (∀ e, pc ≠ .failed e) ∧
    (∀ b, pc = .found b → base.routes.find? hit = some b ∨
      (base.routes.find? hit = none ∧ hit b = true ∧ ∃ p ∈ ps, b ∈ brings p)) ∧
    (pc = .missed → base.routes.find? hit = none) := by
  let U := fun b => ∃ p ∈ ps, b ∈ brings p
  have key : ∀ (sch : List Nat) (w : Adders.World), Pc.added ∉ (w.run sch).threads →
      (w.threads.length = ps.length ∧ w.shared.remap = false ∧ (∃ x, w.shared.routes = base.routes ++ x ∧ ∀ b ∈ x, U b) ∧
        ∀ (i : Nat) (p pc : Pc), ps[i]? = some p → w.threads[i]? = some pc → Calm base.routes U p w.shared.routes pc) →
      ∀ (i : Nat) (p pc : Pc), ps[i]? = some p → (w.run sch).threads[i]? = some pc →
        Calm base.routes U p (w.run sch).shared.routes pc := by
    intro sch
    induction sch with
    | nil => exact fun w _ h => h.2.2.2
    | cons i sch ih =>
      intro w hnot hinv
      rw [run_cons] at hnot ⊢
      refine ih _ hnot ?_
      have hnot' : Pc.added ∉ (w.step i).threads := fun hm => hnot
        (run_inv (fun w => Pc.added ∈ w.threads) (fun w j => added_stays w j) sch _ hm)
      obtain ⟨h1, h2, ⟨x, hx1, hx2⟩, h3⟩ := hinv
      cases hi : w.threads[i]? with
      | none => rw [step_none w i hi]; exact ⟨h1, h2, ⟨x, hx1, hx2⟩, h3⟩
      | some q =>
        have hil : i < w.threads.length := (List.getElem?_eq_some_iff.1 hi).1
        have hpi := List.getElem?_eq_getElem (h1 ▸ hil : i < ps.length)
        have hq := h3 i _ q hpi hi
        rw [step_eq w i q hi] at hnot' ⊢
        generalize ps[i]'(h1 ▸ hil) = p0 at hpi hq
        -- what has to be shown of the step
        have fin : ∀ (s' : Sh) (q' : Pc), Adders.step w.shared q = (s', q') → s'.remap = false →
            (∃ y, s'.routes = w.shared.routes ++ y ∧ ∀ b ∈ y, U b) → Calm base.routes U p0 s'.routes q' →
            (w.threads.set i (Adders.step w.shared q).2).length = ps.length ∧ (Adders.step w.shared q).1.remap = false ∧
            (∃ x, (Adders.step w.shared q).1.routes = base.routes ++ x ∧ ∀ b ∈ x, U b) ∧
            ∀ (k : Nat) (p pc : Pc), ps[k]? = some p → (w.threads.set i (Adders.step w.shared q).2)[k]? = some pc →
              Calm base.routes U p (Adders.step w.shared q).1.routes pc := by
          intro s' q' he g1 g2 g3
          rw [he]
          obtain ⟨y, hy1, hy2⟩ := g2
          refine ⟨by simpa using h1, g1, ⟨x ++ y, by dsimp only; rw [hy1, hx1, List.append_assoc], ?_⟩, ?_⟩
          · intro b hbm
            rcases List.mem_append.1 hbm with hbm | hbm
            · exact hx2 b hbm
            · exact hy2 b hbm
          · intro k p pc hkp hkq
            dsimp only at hkq ⊢
            by_cases hik : i = k
            · subst hik
              rw [List.getElem?_set_self hil] at hkq; cases hkq
              rw [hpi] at hkp; cases hkp
              exact g3
            · rw [List.getElem?_set_ne hik] at hkq
              have hc := h3 k p pc hkp hkq
              cases pc with
              | scan n hit =>
                obtain ⟨c1, c2, c3⟩ := hc
                refine ⟨c1, by rw [hy1, List.length_append]; omega, fun b hbm => ?_⟩
                rw [hy1, List.take_append_of_le_length c2] at hbm
                exact c3 b hbm
              | _ => exact hc
        have none_new : ∃ y, w.shared.routes = w.shared.routes ++ y ∧ ∀ b ∈ y, U b :=
          ⟨[], (List.append_nil _).symm, fun b hb => by cases hb⟩
        cases q with
        | adding t =>
          cases t with
          | nil =>
            refine absurd (List.mem_of_getElem? (i := i) ?_) hnot'
            dsimp only
            rw [List.getElem?_set_self hil]; rfl
          | cons b t =>
            have h' : ∀ c ∈ b :: t, U c := hq
            refine fin _ _ rfl h2 ⟨[b], rfl, fun c hc => ?_⟩
              ⟨h' b (List.mem_cons_self ..), fun c hc => h' c (List.mem_cons_of_mem _ hc)⟩
            rw [List.mem_singleton] at hc; subst hc; exact h' _ (List.mem_cons_self ..)
        | filing b t => exact fin _ _ rfl h2 none_new hq.2
        | check hit =>
          refine fin w.shared (.scan 0 hit) (by simp [Adders.step, h2]) h2 none_new ⟨hq, Nat.zero_le _, fun b hb => ?_⟩
          rw [List.take_zero] at hb; cases hb
        | scan n hit =>
          obtain ⟨c1, c2, c3⟩ := hq
          cases hg : w.shared.routes[n]? with
          | none =>
            have hlen := List.getElem?_eq_none_iff.1 hg
            refine fin w.shared .missed (by simp only [Adders.step, hg]) h2 none_new ⟨hit, c1, find_none_of fun b hb => c3 b ?_⟩
            rw [List.take_of_length_le hlen, hx1]
            exact List.mem_append_left _ hb
          | some b =>
            have hlt := (List.getElem?_eq_some_iff.1 hg).1
            cases hh : hit b with
            | false =>
              refine fin w.shared (.scan (n + 1) hit) (by simp [Adders.step, hg, hh]) h2 none_new ⟨c1, hlt, fun c hc => ?_⟩
              rw [List.take_add_one, hg] at hc
              rcases List.mem_append.1 hc with hc | hc
              · exact c3 c hc
              · simp only [Option.toList_some, List.mem_singleton] at hc
                subst hc; exact hh
            | true =>
              refine fin w.shared (.found b) (by simp [Adders.step, hg, hh]) h2 none_new ⟨hit, c1, ?_⟩
              rw [hx1] at hg c3
              by_cases hnb : n < base.routes.length
              · left
                rw [List.getElem?_append_left hnb] at hg
                rw [List.take_append_of_le_length (by omega)] at c3
                have he : base.routes = base.routes.take n ++ b :: base.routes.drop (n + 1) := by
                  have := (List.getElem?_eq_some_iff.1 hg).2
                  rw [← this, List.getElem_cons_drop, List.take_append_drop]
                rw [he, List.find?_append, find_none_of c3, Option.none_or, List.find?_cons_of_pos hh]
              · right
                rw [List.getElem?_append_right (by omega)] at hg
                refine ⟨find_none_of fun c hc => c3 c ?_, hx2 b (List.mem_of_getElem? hg), hh⟩
                rw [List.take_append, List.take_of_length_le (by omega)]
                exact List.mem_append_left _ hc
        | found b => exact fin _ _ rfl h2 none_new hq
        | missed => exact fin _ _ rfl h2 none_new hq
        | _ => exact hq.elim
  have hc := key schedule ⟨base, ps⟩ hn ⟨rfl, hr, ⟨[], (List.append_nil _).symm, fun b hb => by cases hb⟩, by
    intro i p pc hp hpc
    dsimp only at hpc
    rw [hp] at hpc; cases hpc
    rcases hb p (List.mem_of_getElem? hp) with ⟨t, rfl⟩ | ⟨hit, rfl⟩
    · exact fun b hbt => ⟨_, List.mem_of_getElem? hp, hbt⟩
    · rfl⟩ j _ pc hp h
  refine ⟨fun e he => ?_, fun b he => ?_, fun he => ?_⟩
  · subst he; exact hc
  · subst he
    obtain ⟨hit', k1, k2⟩ := hc
    cases k1
    rcases k2 with k2 | ⟨k2, k3, k4⟩
    · exact .inl k2
    · exact .inr ⟨k2, k4, k3⟩
  · subst he
    obtain ⟨hit', k1, k2⟩ := hc
    cases k1
    exact k2

/-! ### Looking up after adding -/

/-- A thread that is not disturbed. -/
def alone : Nat → Sh × Pc → Sh × Pc
  | 0, x => x
  | n + 1, x => alone n (Adders.step x.1 x.2)

theorem alone_add (n k : Nat) (x : Sh × Pc) : alone (n + k) x = alone k (alone n x) := by
  induction n generalizing x with
  | zero => rw [Nat.zero_add]; rfl
  | succ n ih => rw [Nat.succ_add]; exact ih _

theorem alone_run (n : Nat) : ∀ (s : Sh) (pc : Pc), (⟨s, [pc]⟩ : Adders.World).run (List.replicate n 0) =
    ⟨(alone n (s, pc)).1, [(alone n (s, pc)).2]⟩ := by
  induction n with
  | zero => exact fun s pc => rfl
  | succ n ih =>
    intro s pc
    rw [List.replicate_succ, run_cons, step_eq _ 0 pc rfl]
    exact ih _ _

/-- The answer of a lookup: the first route that is a hit. -/
def answer (l : List Bound) (hit : Bound → Bool) : Pc :=
  match l.find? hit with
  | some b => .found b
  | none => .missed

theorem alone_scan (s : Sh) (hit : Bound → Bool) : ∀ (rest pre : List Bound), s.routes = pre ++ rest →
    (∀ b ∈ pre, hit b = false) → ∃ n, alone n (s, .scan pre.length hit) = (s, answer s.routes hit) := by
  intro rest
  induction rest with
  | nil =>
    intro pre he hp
    rw [List.append_nil] at he
    refine ⟨1, ?_⟩
    have : s.routes[pre.length]? = none := by rw [he, List.getElem?_eq_none_iff]; exact Nat.le_refl _
    show Adders.step s (.scan pre.length hit) = _
    simp only [Adders.step, this]
    unfold answer
    rw [he, find_none_of hp]
  | cons b rest ih =>
    intro pre he hp
    have hg : s.routes[pre.length]? = some b := by rw [he, List.getElem?_append_right (Nat.le_refl _)]; simp
    cases hh : hit b with
    | true =>
      refine ⟨1, ?_⟩
      show Adders.step s (.scan pre.length hit) = _
      simp only [Adders.step, hg, hh]
      unfold answer
      rw [he, List.find?_append, find_none_of hp, Option.none_or, List.find?_cons_of_pos hh]
      rfl
    | false =>
      obtain ⟨n, hn⟩ := ih (pre ++ [b]) (by rw [he, List.append_assoc]; rfl) (by
        intro c hc
        rcases List.mem_append.1 hc with hc | hc
        · exact hp c hc
        · rw [List.mem_singleton] at hc; subst hc; exact hh)
      refine ⟨1 + n, ?_⟩
      rw [alone_add]
      have : alone 1 (s, .scan pre.length hit) = (s, .scan (pre ++ [b]).length hit) := by
        show Adders.step s (.scan pre.length hit) = _
        simp [Adders.step, hg, hh]
      rw [this]; exact hn

theorem length_set (d : List (Str × List Bound)) (k : Str) (v : List Bound) (h : k ∈ Dict.keys d) :
    (Dict.set d k v).length = d.length := by
  have h1 := congrArg List.length (Dict.keys_set d k v)
  rw [if_pos h] at h1
  simpa [Dict.keys] using h1

theorem alone_next (hit : Bound → Bool) : ∀ (k : Nat) (s : Sh) (i : Nat), i + k = s.eps.length →
    ∃ n eps, alone n (s, .next s.eps.length i hit) = ({ s with eps := eps }, .clear hit) := by
  intro k
  induction k with
  | zero =>
    intro s i hi
    refine ⟨1, s.eps, ?_⟩
    have : s.eps[i]? = none := by rw [List.getElem?_eq_none_iff]; omega
    show Adders.step s (.next s.eps.length i hit) = _
    simp [Adders.step, this]
  | succ k ih =>
    intro s i hi
    have hlt : i < s.eps.length := by omega
    have hg := List.getElem?_eq_getElem hlt
    generalize s.eps[i] = kv at hg
    obtain ⟨e, l⟩ := kv
    have hmem : e ∈ Dict.keys s.eps := List.mem_map.2 ⟨(e, l), List.mem_of_getElem? hg, rfl⟩
    cases hl : l.isEmpty with
    | true =>
      obtain ⟨n, eps, hn⟩ := ih s (i + 1) (by omega)
      refine ⟨1 + n, eps, ?_⟩
      rw [alone_add]
      have : alone 1 (s, .next s.eps.length i hit) = (s, .next s.eps.length (i + 1) hit) := by
        show Adders.step s (.next s.eps.length i hit) = _
        simp [Adders.step, hg, hl]
      rw [this]; exact hn
    | false =>
      have hm2 : e ∈ Dict.keys (Dict.set s.eps e []) := by rw [Dict.keys_set, if_pos hmem]; exact hmem
      have hlen : (Dict.set (Dict.set s.eps e []) e (sortBy buildLe l)).length = s.eps.length := by
        rw [length_set _ _ _ hm2, length_set _ _ _ hmem]
      obtain ⟨n, eps, hn⟩ := ih { s with eps := Dict.set (Dict.set s.eps e []) e (sortBy buildLe l) } (i + 1)
        (by dsimp only; rw [hlen]; omega)
      refine ⟨2 + n, eps, ?_⟩
      rw [alone_add]
      have h1 : Adders.step s (.next s.eps.length i hit) =
          ({ s with eps := Dict.set s.eps e [] }, .sortingE e l s.eps.length i hit) := by
        simp [Adders.step, hg, hl]
      have h2 : Adders.step { s with eps := Dict.set s.eps e [] } (.sortingE e l s.eps.length i hit) =
          ({ s with eps := Dict.set (Dict.set s.eps e []) e (sortBy buildLe l) }, .next s.eps.length (i + 1) hit) := by
        simp [Adders.step, listOf_set]
      have : alone 2 (s, .next s.eps.length i hit) =
          ({ s with eps := Dict.set (Dict.set s.eps e []) e (sortBy buildLe l) }, .next s.eps.length (i + 1) hit) := by
        show Adders.step (Adders.step s (.next s.eps.length i hit)).1 (Adders.step s (.next s.eps.length i hit)).2 = _
        rw [h1]; exact h2
      rw [this]
      dsimp only at hn
      rw [hlen] at hn
      exact hn

/-- A lookup on its own after routes were added, by however many threads: it puts the map in order, never fails, and finds
the first route in order that is a hit. -/
theorem C149_then_lookup (s : Sh) (hr : s.remap = true) (hit : Bound → Bool) :
    ∃ n eps, (⟨s, [.check hit]⟩ : Adders.World).run (List.replicate n 0) =
      ⟨⟨sortBy matchLe s.routes, eps, false⟩, [answer (sortBy matchLe s.routes) hit]⟩ := by
  have hsort : ∃ n, alone n (s, .sort hit) = (⟨sortBy matchLe s.routes, s.eps, s.remap⟩, .next s.eps.length 0 hit) := by
    cases he : s.routes with
    | nil =>
      refine ⟨1, ?_⟩
      show Adders.step s (.sort hit) = _
      have : s = ⟨[], s.eps, s.remap⟩ := by rw [← he]
      rw [this]
      rfl
    | cons b l =>
      refine ⟨2, ?_⟩
      show Adders.step (Adders.step s (.sort hit)).1 (Adders.step s (.sort hit)).2 = _
      have h1 : Adders.step s (.sort hit) = (⟨[], s.eps, s.remap⟩, .sorting (b :: l) hit) := by
        simp [Adders.step, he]
      rw [h1]
      rfl
  obtain ⟨n1, h1⟩ := hsort
  obtain ⟨n2, eps, h2⟩ := alone_next hit s.eps.length ⟨sortBy matchLe s.routes, s.eps, s.remap⟩ 0 (by simp)
  obtain ⟨n3, h3⟩ := alone_scan ⟨sortBy matchLe s.routes, eps, false⟩ hit (sortBy matchLe s.routes) [] rfl
    (fun b hb => by cases hb)
  refine ⟨1 + (n1 + (n2 + (1 + n3))), eps, ?_⟩
  rw [alone_run]
  have h0 : alone 1 (s, .check hit) = (s, .sort hit) := by
    show Adders.step s (.check hit) = _
    simp [Adders.step, hr]
  have h4 : alone 1 (⟨sortBy matchLe s.routes, eps, s.remap⟩, .clear hit) =
    (⟨sortBy matchLe s.routes, eps, false⟩, .scan 0 hit) := rfl
  have : alone (1 + (n1 + (n2 + (1 + n3)))) (s, .check hit) =
      (⟨sortBy matchLe s.routes, eps, false⟩, answer (sortBy matchLe s.routes) hit) := by
    rw [alone_add, h0, alone_add, h1, alone_add]
    dsimp only at h2
    rw [h2, alone_add, h4]
    exact h3
  rw [this]

/-! ### Adding while others look up -/

/-- Three routes: pages, items and one fixed path. -/
def exRoutes : List Bound :=
  (RoutingP.run (URLMap.new RoutingP.sampleCfg) [.add [RoutingP.pageRoute, RoutingP.itemRoute, RoutingP.newRoute]]).routes

/-- The route of the pages. -/
def exPage : List Bound := exRoutes.take 1
/-- The fixed path. -/
def exNew : List Bound := exRoutes.drop 2

/-- A map with the route of the pages, which was not looked up yet. -/
def exSh : Sh := ⟨exPage, [(s%"page", exPage)], true⟩

/-- A lookup of the fixed path, which is a page too. -/
def exHit (b : Bound) : Bool := match b.match_ RoutingP.sampleCfg (fullPath RoutingP.sampleCfg RoutingP.sampleAdapter s%"/a/new") with
  | .none => false
  | _ => true

/-- The end of a thread, shown by the end point of the route. -/
def shown : Pc → Option (Except PyErr Str)
  | .found b => some (.ok b.route.endpoint)
  | .missed => some (.error .notFound)
  | .failed e => some (.error e)
  | .added => some (.ok [])
  | _ => none

/-- The end points of the routes in order. -/
def endpoints (s : Sh) : List Str := s.routes.map fun b => b.route.endpoint

set_option maxRecDepth 16000

/-- Routes added while another thread looks up can be lost: the thread that sorts throws away what was put into the list
meanwhile and fails with `ValueError`, while the thread that adds is told nothing. -/
theorem C149_lost_false : ¬ ∀ (base : Sh) (new : List Bound) (hit : Bound → Bool) (schedule : List Nat),
    ((⟨base, [.check hit, .adding new]⟩ : Adders.World).run schedule).threads[1]? = some .added →
    ∀ b ∈ new, b.route.endpoint ∈ endpoints ((⟨base, [.check hit, .adding new]⟩ : Adders.World).run schedule).shared := by
  intro h
  have h1 := h exSh exNew exHit [0, 0, 1, 0, 1, 1] rfl
  exact absurd h1 (by decide +kernel)

/-- Routes added while another thread looks up can stay out of order for good: the thread that sorts takes back the mark
that the other one has just set.  Everybody is done, nothing failed, the map counts as in order, and every later lookup of
the fixed path is answered with the route of the pages, although the map has the more specific route, which it would
have found in order. -/
theorem C149_stale_false : ∃ (base : Sh) (new : List Bound) (hit : Bound → Bool) (schedule : List Nat),
    let w := (⟨base, [.check hit, .adding new]⟩ : Adders.World).run schedule
    w.threads.map shown = [some (.ok s%"page"), some (.ok [])] ∧ w.shared.remap = false ∧
    shown (answer w.shared.routes hit) = some (.ok s%"page") ∧
    shown (answer (sortBy matchLe w.shared.routes) hit) = some (.ok s%"new") :=
  ⟨exSh, exNew, exHit, [0, 0, 0, 0, 0, 0, 1, 1, 1, 0, 0], by decide +kernel⟩

/-- A lookup on its own in a map that counts as in order changes nothing and finds the first route that is a hit, in
order or not. -/
theorem C149_later (s : Sh) (hr : s.remap = false) (hit : Bound → Bool) :
    ∃ n, (⟨s, [.check hit]⟩ : Adders.World).run (List.replicate n 0) = ⟨s, [answer s.routes hit]⟩ := by
  obtain ⟨n, hn⟩ := alone_scan s hit s.routes [] rfl (fun b hb => by cases hb)
  refine ⟨1 + n, ?_⟩
  rw [alone_run]
  have h0 : alone 1 (s, .check hit) = (s, .scan 0 hit) := by
    show Adders.step s (.check hit) = _
    simp [Adders.step, hr]
  rw [alone_add, h0]
  have hn' : alone n (s, .scan 0 hit) = (s, answer s.routes hit) := hn
  rw [hn']

/-- A lookup can fail with `RuntimeError` because another thread adds a route for a new end point. -/
theorem C149_fails_limits : ∃ (base : Sh) (new : List Bound) (hit : Bound → Bool) (schedule : List Nat),
    (((⟨base, [.check hit, .adding new]⟩ : Adders.World).run schedule).threads.map shown) =
      [some (.error .runtimeError), some (.ok [])] :=
  ⟨exSh, exNew, exHit, [0, 0, 0, 1, 1, 1, 0], by rfl⟩

example : endpoints ((⟨exSh, [.check exHit, .adding exNew]⟩ : Adders.World).run [0, 0, 1, 0, 1, 1]).shared = [s%"page"] ∧
    (((⟨exSh, [.check exHit, .adding exNew]⟩ : Adders.World).run [0, 0, 1, 0, 1, 1]).threads.map shown) =
      [some (.error .valueError), some (.ok [])] := by decide +kernel

/-- Two threads that add at the same time, and a lookup afterwards. -/
example : let w := (⟨⟨[], [], true⟩, [.adding exPage, .adding exNew]⟩ : Adders.World).run [0, 1, 1, 0, 0, 1]
    w.threads.map shown = [some (.ok []), some (.ok [])] ∧ endpoints w.shared = [s%"page", s%"new"] ∧
    shown (answer (sortBy matchLe w.shared.routes) exHit) = some (.ok s%"new") := by decide +kernel

/-- A lookup in a map in order while a route is being added. -/
example : let w := (⟨⟨exPage, [(s%"page", exPage)], false⟩, [.check exHit, .adding exNew]⟩ : Adders.World).run [0, 1, 1, 0]
    w.threads.map shown = [some (.ok s%"page"), none] := by decide +kernel

end Verif.Props.AddersP
