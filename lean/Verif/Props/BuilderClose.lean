import Verif.Model.BuilderClose
/-!
C133: files given to a builder of requests are closed.
-/
namespace Verif.Props.BuilderFilesP
open Verif Verif.BuilderFiles

/-! ### specification -/

/-- The file is the first one with its name. -/
def FirstOf (data : List (Str × Nat)) (h : Nat) : Prop :=
  ∃ pre k post, data = pre ++ (k, h) :: post ∧ ∀ p ∈ pre, p.1 ≠ k

/-- The file is the first of those kept with some name. -/
def Leads (d : MD.MDict Str Nat) (h : Nat) : Prop := ∃ k hs, (k, h :: hs) ∈ d

/-- The files an operation gives to the builder. -/
def given : Op → List Nat
  | .files d => d.flatMap (·.2)
  | .add _ h => [h]
  | _ => []

/-! ### the loop -/

theorem closeEach_ok (d : MD.MDict Str Nat) : ∀ done, (∀ p ∈ d, p.2 ≠ []) →
    ∃ l, closeEach d done = (done ++ l, .ok ()) ∧ ∀ h, h ∈ l ↔ Leads d h := by
  induction d with
  | nil => intro done _; exact ⟨[], by simp [closeEach], fun h => by simp [Leads]⟩
  | cons p d ih =>
    intro done hne
    obtain ⟨k, hs⟩ := p
    cases hs with
    | nil => exact absurd rfl (hne (k, []) (.head _))
    | cons h hs =>
      obtain ⟨l, h1, h2⟩ := ih (done ++ [h]) fun p hp => hne p (.tail _ hp)
      refine ⟨h :: l, by rw [closeEach, h1]; simp, fun x => ?_⟩
      rw [List.mem_cons, h2]
      constructor
      · rintro (rfl | ⟨k', hs', hm⟩)
        · exact ⟨k, hs, .head _⟩
        · exact ⟨k', hs', .tail _ hm⟩
      · rintro ⟨k', hs', hm⟩
        rcases List.mem_cons.1 hm with e | hm
        · cases e; exact .inl rfl
        · exact .inr ⟨k', hs', hm⟩

theorem closeEach_mem (d : MD.MDict Str Nat) : ∀ done h, h ∈ (closeEach d done).1 → h ∈ done ∨ h ∈ d.flatMap (·.2) := by
  induction d with
  | nil => intro done h hm; exact .inl hm
  | cons p d ih =>
    intro done h hm
    obtain ⟨k, hs⟩ := p
    cases hs with
    | nil => exact .inl hm
    | cons x hs =>
      rcases ih _ h hm with hm | hm
      · rcases List.mem_append.1 hm with hm | hm
        · exact .inl hm
        · exact .inr (by simp at hm; simp [hm])
      · exact .inr (by rw [List.flatMap_cons]; exact List.mem_append_right _ hm)

theorem closeEach_error (d : MD.MDict Str Nat) : ∀ done l e, closeEach d done = (l, .error e) →
    e = .indexError ∧ ∃ k, (k, []) ∈ d := by
  induction d with
  | nil => intro done l e h; cases h
  | cons p d ih =>
    intro done l e h
    obtain ⟨k, hs⟩ := p
    cases hs with
    | nil => cases h; exact ⟨rfl, k, .head _⟩
    | cons x hs =>
      obtain ⟨h1, k', h2⟩ := ih _ _ _ h
      exact ⟨h1, k', .tail _ h2⟩

/-! ### histories -/

theorem run_append (s : Held) (a b : List Op) : run s (a ++ b) = run (run s a) b := by
  unfold run; rw [List.foldl_append]

theorem run_snoc (s : Held) (a : List Op) (o : Op) : run s (a ++ [o]) = (step (run s a) o).1 := by
  rw [run_append]; rfl

theorem add_files (d : MD.MDict Str Nat) (k : Str) (h x : Nat) (hx : x ∈ (MD.add d k h).flatMap (·.2)) :
    x = h ∨ x ∈ d.flatMap (·.2) := by
  obtain ⟨p, hp, hx⟩ := List.mem_flatMap.1 hx
  unfold MD.add at hp
  have hmem : ∀ q : Str × List Nat, q ∈ Dict.set d k ((Dict.get d k).getD [] ++ [h]) →
      q = (k, (Dict.get d k).getD [] ++ [h]) ∨ q ∈ d := by
    intro q hq
    have : ∀ (d : MD.MDict Str Nat) (v : List Nat), q ∈ Dict.set d k v → q = (k, v) ∨ q ∈ d := by
      intro d v
      induction d with
      | nil => intro h; simp [Dict.set] at h; exact .inl h
      | cons a d ih =>
        intro h
        simp only [Dict.set] at h
        split at h
        · rename_i e
          rcases List.mem_cons.1 h with h | h
          · exact .inl (by rw [h, e])
          · exact .inr (.tail _ h)
        · rcases List.mem_cons.1 h with h | h
          · exact .inr (h ▸ .head _)
          · rcases ih h with h | h
            · exact .inl h
            · exact .inr (.tail _ h)
    exact this d _ hq
  rcases hmem p hp with rfl | hp
  · rcases List.mem_append.1 hx with hx | hx
    · right
      cases hg : Dict.get d k with
      | none => rw [hg] at hx; cases hx
      | some l =>
        rw [hg] at hx
        exact List.mem_flatMap.2 ⟨(k, l), Dict.mem_of_get hg, hx⟩
    · left; simpa using hx
  · exact .inr (List.mem_flatMap.2 ⟨p, hp, hx⟩)

/-- **C133** (only these): whatever is done with a builder, it closes no file that it was not given. -/
theorem C133_only (ops : List Op) : ∀ h ∈ (run ⟨none, false, false, []⟩ ops).done, h ∈ ops.flatMap given := by
  have key : ∀ (ops : List Op) (s : Held) (G : List Nat), (∀ h ∈ s.done, h ∈ G) → (∀ h ∈ (s.held.getD []).flatMap (·.2), h ∈ G) →
      ∀ h ∈ (run s ops).done, h ∈ G ++ ops.flatMap given := by
    intro ops
    induction ops with
    | nil => intro s G h1 _ h hh; simpa using h1 h hh
    | cons o ops ih =>
      intro s G h1 h2
      have := ih (step s o).1 (G ++ given o) ?_ ?_
      · intro h hh
        have := this h hh
        rw [List.flatMap_cons, ← List.append_assoc]
        exact this
      · intro h hh
        rw [List.mem_append]
        cases o with
        | files d => exact .inl (h1 h hh)
        | form => exact .inl (h1 h hh)
        | stream b => exact .inl (h1 h hh)
        | add k x =>
          simp only [step] at hh
          split at hh <;> exact .inl (h1 h hh)
        | close =>
          left
          simp only [step, close] at hh
          split at hh
          · exact h1 h hh
          · split at hh
            · exact h1 h hh
            · have : h ∈ (closeEach (s.held.getD []) s.done).1 := by
                split at hh <;> (rename_i e; rw [e]; exact hh)
              rcases closeEach_mem _ _ _ this with h | h
              · exact h1 _ h
              · exact h2 _ h
      · intro h hh
        rw [List.mem_append]
        cases o with
        | files d => exact .inr hh
        | form => exact .inl (h2 h hh)
        | stream b => cases hh
        | add k x =>
          simp only [step] at hh
          split at hh
          · exact .inl (h2 h hh)
          · rcases add_files _ _ _ _ hh with rfl | hh
            · exact .inr (.head _)
            · exact .inl (h2 h hh)
        | close =>
          left
          simp only [step, close] at hh
          split at hh
          · exact h2 h hh
          · split at hh
            · exact h2 h hh
            · split at hh <;> exact h2 h hh
  intro h hh
  have := key ops ⟨none, false, false, []⟩ [] (by simp) (by simp) h hh
  simpa using this

/-- **C133** (once): when `close` has returned, nothing is closed any more, and further calls of it do nothing. -/
theorem C133_once (s : Held) (hs : (close s).2 = .ok ()) (ops : List Op) :
    (run (close s).1 ops).done = (close s).1.done ∧ close (run (close s).1 ops) = (run (close s).1 ops, .ok ()) := by
  have hc : (close s).1.closed = true := by
    unfold close at hs ⊢
    split
    · assumption
    · rename_i h1
      rw [if_neg h1] at hs
      split
      · rfl
      · rename_i h2
        rw [if_neg h2] at hs
        split at hs
        · rfl
        · cases hs
  have key : ∀ (ops : List Op) (s : Held), s.closed = true → (run s ops).done = s.done ∧ (run s ops).closed = true := by
    intro ops
    induction ops with
    | nil => intro s h; exact ⟨rfl, h⟩
    | cons o ops ih =>
      intro s h
      have h' : (step s o).1.closed = true ∧ (step s o).1.done = s.done := by
        cases o with
        | add k x => simp only [step]; split <;> exact ⟨h, rfl⟩
        | close =>
          have : step s .close = (s, .ok ()) := by simp [step, close, h]
          rw [this]
          exact ⟨h, rfl⟩
        | _ => exact ⟨h, rfl⟩
      have := ih _ h'.1
      rw [h'.2] at this
      exact this
  obtain ⟨h1, h2⟩ := key ops _ hc
  refine ⟨h1, ?_⟩
  rw [close, if_pos h2]

/-- **C133** (closing, part): a builder that has no input stream and was not closed before closes exactly the files
that are the first with their name, after any history; it fails only where a name was left without files, with IndexError,
and can then be called again. -/
theorem C133_close_partial (s : Held) (hc : s.closed = false) (hs : s.stream = false) :
    ((∀ p ∈ s.held.getD [], p.2 ≠ []) → (close s).2 = .ok () ∧ (close s).1.closed = true ∧
      ∀ h, h ∈ (close s).1.done ↔ h ∈ s.done ∨ Leads (s.held.getD []) h) ∧
    ((close s).2 ≠ .ok () → (close s).2 = .error .indexError ∧ (close s).1.closed = false ∧ ∃ k, (k, []) ∈ s.held.getD []) := by
  have e : close s = (match closeEach (s.held.getD []) s.done with
    | (l, .ok _) => ({ s with held := some (s.held.getD []), done := l, closed := true }, .ok ())
    | (l, .error e) => ({ s with held := some (s.held.getD []), done := l }, .error e)) := by
    simp [close, hc, hs]
    rfl
  constructor
  · intro hne
    obtain ⟨l, h1, h2⟩ := closeEach_ok _ s.done hne
    rw [h1] at e
    rw [e]
    refine ⟨rfl, rfl, fun h => ?_⟩
    show h ∈ s.done ++ l ↔ _
    rw [List.mem_append, h2]
  · intro hne
    cases hr : closeEach (s.held.getD []) s.done with
    | mk l r =>
      rw [hr] at e
      cases r with
      | ok u => rw [e] at hne; exact absurd rfl hne
      | error x =>
        obtain ⟨rfl, h⟩ := closeEach_error _ _ _ _ hr
        rw [e]
        exact ⟨rfl, hc, h⟩

/-- What a builder made with data holds. -/
theorem ofData_held (data : List (Str × Nat)) : (ofData data).stream = false ∧ (ofData data).closed = false ∧
    (ofData data).done = [] ∧ (ofData data).held.getD [] = MD.ofPairs data := by
  have key : ∀ (data : List (Str × Nat)) (s : Held), s.stream = false → s.closed = false → s.done = [] →
      let t := data.foldl (fun s p => (step s (.add p.1 p.2)).1) s
      t.stream = false ∧ t.closed = false ∧ t.done = [] ∧
        t.held.getD [] = data.foldl (fun d p => MD.add d p.1 p.2) (s.held.getD []) := by
    intro data
    induction data with
    | nil => intro s h1 h2 h3; exact ⟨h1, h2, h3, rfl⟩
    | cons p data ih =>
      intro s h1 h2 h3
      have e : (step s (.add p.1 p.2)).1 = { s with held := some (MD.add (s.held.getD []) p.1 p.2) } := by simp [step, h1]
      rw [List.foldl_cons, List.foldl_cons, e]
      exact ih { s with held := some (MD.add (s.held.getD []) p.1 p.2) } h1 h2 h3
  exact key data ⟨none, false, false, []⟩ rfl rfl rfl

theorem get_add (d : MD.MDict Str Nat) (k k' : Str) (h : Nat) :
    Dict.get (MD.add d k h) k' = none ↔ Dict.get d k' = none ∧ k ≠ k' := by
  unfold MD.add
  rw [Dict.get_set]
  by_cases e : k' = k
  · simp [e]
  · have : k ≠ k' := fun h => e h.symm
    simp [e, this]

theorem leads_set (d : MD.MDict Str Nat) (k : Str) (l : List Nat) (h x : Nat) (hne : ∀ p ∈ d, p.2 ≠ [])
    (hl : l = (Dict.get d k).getD [] ++ [h]) :
    (∀ p ∈ Dict.set d k l, p.2 ≠ []) ∧ (Leads (Dict.set d k l) x ↔ Leads d x ∨ Dict.get d k = none ∧ x = h) := by
  have lc : ∀ (p : Str × List Nat) (d : MD.MDict Str Nat), Leads (p :: d) x ↔ (∃ hs, p.2 = x :: hs) ∨ Leads d x := by
    intro p d
    constructor
    · rintro ⟨k, hs, hm⟩
      rcases List.mem_cons.1 hm with e | hm
      · exact .inl ⟨hs, by rw [← e]⟩
      · exact .inr ⟨k, hs, hm⟩
    · rintro (⟨hs, e⟩ | ⟨k, hs, hm⟩)
      · exact ⟨p.1, hs, by rw [← e]; exact .head _⟩
      · exact ⟨k, hs, .tail _ hm⟩
  induction d with
  | nil =>
    simp only [Dict.set, Dict.get] at hl ⊢
    subst hl
    refine ⟨by simp, ?_⟩
    rw [lc]
    simp [eq_comm, or_comm]
  | cons a d ih =>
    have ha := hne a (.head _)
    by_cases e : a.1 = k
    · simp only [Dict.get, if_pos e, Option.getD_some] at hl
      simp only [Dict.set, Dict.get, if_pos e]
      refine ⟨?_, ?_⟩
      · intro p hp
        rcases List.mem_cons.1 hp with rfl | hp
        · simp [hl]
        · exact hne p (.tail _ hp)
      · rw [lc, lc, hl]
        cases ea : a.2 with
        | nil => exact absurd ea ha
        | cons y ys => simp
    · simp only [Dict.get, if_neg e] at hl
      simp only [Dict.set, Dict.get, if_neg e]
      obtain ⟨h1, h2⟩ := ih (fun p hp => hne p (.tail _ hp)) hl
      refine ⟨?_, ?_⟩
      · intro p hp
        rcases List.mem_cons.1 hp with rfl | hp
        · exact ha
        · exact h1 p hp
      · rw [lc, lc, h2, or_assoc]

theorem leads_pairs (data : List (Str × Nat)) (x : Nat) : ∀ d : MD.MDict Str Nat, (∀ p ∈ d, p.2 ≠ []) →
    (∀ p ∈ data.foldl (fun d p => MD.add d p.1 p.2) d, p.2 ≠ []) ∧
    (Leads (data.foldl (fun d p => MD.add d p.1 p.2) d) x ↔
      Leads d x ∨ ∃ pre k post, data = pre ++ (k, x) :: post ∧ (∀ p ∈ pre, p.1 ≠ k) ∧ Dict.get d k = none) := by
  induction data with
  | nil => intro d hd; exact ⟨hd, by simp⟩
  | cons p data ih =>
    intro d hd
    obtain ⟨h1, h2⟩ := leads_set d p.1 _ p.2 x hd rfl
    obtain ⟨h3, h4⟩ := ih (MD.add d p.1 p.2) h1
    refine ⟨h3, ?_⟩
    rw [List.foldl_cons, h4]
    have h2' : Leads (MD.add d p.1 p.2) x ↔ Leads d x ∨ Dict.get d p.1 = none ∧ x = p.2 := h2
    rw [h2', or_assoc]
    refine or_congr Iff.rfl ?_
    constructor
    · rintro (⟨hg, rfl⟩ | ⟨pre, k, post, rfl, hp, hg⟩)
      · exact ⟨[], p.1, data, rfl, by simp, hg⟩
      · obtain ⟨hg, hk⟩ := (get_add _ _ _ _).1 hg
        refine ⟨p :: pre, k, post, rfl, ?_, hg⟩
        intro q hq
        rcases List.mem_cons.1 hq with rfl | hq
        · exact hk
        · exact hp q hq
    · rintro ⟨pre, k, post, e, hp, hg⟩
      cases pre with
      | nil => cases e; exact .inl ⟨hg, rfl⟩
      | cons q pre =>
        cases e
        exact .inr ⟨pre, k, post, rfl, fun r hr => hp r (.tail _ hr), (get_add _ _ _ _).2 ⟨hg, hp p (.head _)⟩⟩

/-- **C133** (making an environ, part): of the files given to `create_environ`, or to a request of the test client, those
which are the first with their name are closed and no others, also when no environ can be made; the result is that of
the builder. -/
theorem C133_create_partial {E : Type} (data : List (Str × Nat)) (env : Except PyErr E) :
    (createEnviron data env).2 = env ∧ ∀ h, h ∈ (createEnviron data env).1.done ↔ FirstOf data h := by
  obtain ⟨h1, h2, h3, h4⟩ := ofData_held data
  have hne : ∀ x, (∀ p ∈ MD.ofPairs data, p.2 ≠ []) ∧ (Leads (MD.ofPairs data) x ↔ FirstOf data x) := by
    intro x
    obtain ⟨k1, k2⟩ := leads_pairs data x [] (by simp)
    refine ⟨k1, k2.trans ?_⟩
    simp [FirstOf, Leads, Dict.get]
  obtain ⟨k1, k2, k3⟩ := (C133_close_partial (ofData data) h2 h1).1 (by rw [h4]; exact (hne 0).1)
  unfold createEnviron
  cases hc : close (ofData data) with
  | mk s r =>
    rw [hc] at k1 k2 k3
    dsimp only at k1
    subst k1
    refine ⟨rfl, fun h => ?_⟩
    rw [h3, h4] at k3
    exact (k3 h).trans (by simp [(hne h).2])

/-- **C133** (all of them, part): when no two files have the same name all are closed. -/
theorem C133_distinct_partial {E : Type} (data : List (Str × Nat)) (env : Except PyErr E) (hn : (data.map (·.1)).Nodup) :
    ∀ p ∈ data, p.2 ∈ (createEnviron data env).1.done := by
  intro p hp
  obtain ⟨pre, post, rfl⟩ := List.append_of_mem hp
  refine ((C133_create_partial _ env).2 p.2).2 ⟨pre, p.1, post, rfl, ?_⟩
  intro q hq e
  rw [List.map_append, List.map_cons, List.nodup_append] at hn
  exact hn.2.2 q.1 (List.mem_map.2 ⟨q, hq, rfl⟩) p.1 (.head _) e

/-- **C133** fails for two files with one name: the second is left open. -/
theorem C133_same_name_false : ¬ ∀ (data : List (Str × Nat)) (env : Except PyErr Unit), ∀ p ∈ data,
    p.2 ∈ (createEnviron data env).1.done := by
  intro h
  exact absurd (h [(s%"f", 1), (s%"f", 2)] (.ok ()) (s%"f", 2) (by simp)) (by decide)

/-- **C133** fails when an input stream takes the place of the files, and for files given after `close`: they are left
open for ever. -/
theorem C133_displaced_false : ∀ ops, 1 ∉ ops.flatMap given → 2 ∉ ops.flatMap given →
    1 ∉ (run ⟨none, false, false, []⟩ ([.add s%"f" 1, .stream true] ++ ops)).done ∧
    2 ∉ (run ⟨none, false, false, []⟩ ([.close, .add s%"f" 2] ++ ops)).done := by
  intro ops h1 h2
  constructor
  · intro h
    rw [run_append] at h
    have e : run ⟨none, false, false, []⟩ [.add s%"f" 1, .stream true] = run ⟨none, false, false, []⟩ [.stream true] := by decide
    rw [e, ← run_append] at h
    have := C133_only _ 1 h
    simp [given] at this
    exact h1 (List.mem_flatMap.2 this)
  · intro h
    have := C133_once ⟨none, false, false, []⟩ rfl ([.add s%"f" 2] ++ ops)
    have e : run ⟨none, false, false, []⟩ ([.close, .add s%"f" 2] ++ ops) =
      run (close ⟨none, false, false, []⟩).1 ([.add s%"f" 2] ++ ops) := rfl
    rw [e, this.1] at h
    revert h
    decide

/-- A name without files makes `close` fail; the files before it are closed, those after it are not. -/
theorem C133_empty_limits : close (run ⟨none, false, false, []⟩ [.files [(s%"a", [1]), (s%"b", []), (s%"c", [3])]]) =
    (⟨some [(s%"a", [1]), (s%"b", []), (s%"c", [3])], false, false, [1]⟩, .error .indexError) := rfl

example : createEnviron [(s%"a", 1), (s%"b", 2), (s%"a", 3)] (.ok 7 : Except PyErr Nat) =
    (⟨some [(s%"a", [1, 3]), (s%"b", [2])], false, true, [1, 2]⟩, .ok 7) := rfl

example : (createEnviron [(s%"a", 1), (s%"b", 2)] (.error .unicodeError : Except PyErr Unit)).1.done = [1, 2] := rfl

example : (close ⟨some [(s%"a", [1, 3])], false, false, []⟩).2 = .ok () ∧
    (run (close ⟨some [(s%"a", [1, 3])], false, false, []⟩).1 [.form, .add s%"x" 4, .close]).done = [1] := ⟨rfl, rfl⟩

end Verif.Props.BuilderFilesP
