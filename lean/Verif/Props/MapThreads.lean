import Verif.Model.MapThreads
import Verif.Props.BuildUrl
/-! Property theorems C146: lookups of several threads in one map. -/
namespace Verif.Props.ThreadsP
open Verif Verif.Routing Verif.Threads
variable {R : Type}

/-! ### Sorting twice -/

/-- Neighbours are in order. -/
def Ordered {α : Type} (le : α → α → Bool) : List α → Prop
  | [] => True
  | [_] => True
  | x :: y :: l => le x y = true ∧ Ordered le (y :: l)

theorem insert_first {α : Type} (le : α → α → Bool) (x : α) (l : List α) (h : Ordered le (x :: l)) :
    insertBy le x l = x :: l := by
  cases l with
  | nil => rfl
  | cons y l => rw [insertBy, if_pos h.1]

theorem ordered_tail {α : Type} {le : α → α → Bool} {x : α} {l : List α} (h : Ordered le (x :: l)) : Ordered le l := by
  cases l with
  | nil => trivial
  | cons y l => exact h.2

theorem sort_ordered {α : Type} (le : α → α → Bool) (l : List α) (h : Ordered le l) : sortBy le l = l := by
  induction l with
  | nil => rfl
  | cons x l ih =>
    show insertBy le x (sortBy le l) = _
    rw [ih (ordered_tail h), insert_first le x l h]

theorem insert_ordered {α : Type} (le : α → α → Bool) (ht : ∀ a b, le a b = true ∨ le b a = true) (x : α) (l : List α)
    (h : Ordered le l) : Ordered le (insertBy le x l) := by
  induction l with
  | nil => trivial
  | cons y l ih =>
    rw [insertBy]
    split
    · rename_i hxy; exact ⟨hxy, h⟩
    · rename_i hxy
      have hyx : le y x = true := (ht x y).resolve_left hxy
      have := ih (ordered_tail h)
      cases l with
      | nil => exact ⟨hyx, trivial⟩
      | cons z l =>
        rw [insertBy] at this ⊢
        split at this
        · rename_i hxz; rw [if_pos hxz]; exact ⟨hyx, this⟩
        · rename_i hxz; rw [if_neg hxz]; exact ⟨h.1, this⟩

theorem sortBy_ordered {α : Type} (le : α → α → Bool) (ht : ∀ a b, le a b = true ∨ le b a = true) (l : List α) :
    Ordered le (sortBy le l) := by
  induction l with
  | nil => trivial
  | cons x l ih => exact insert_ordered le ht x _ ih

theorem isLE_or (o : Ordering) : o.isLE = true ∨ o.swap.isLE = true := by cases o <;> decide

theorem le_total (k : Key) (a b : Bound) : le k a b = true ∨ le k b a = true := by
  cases k with
  | none =>
    have : matchCmp b.matchKey a.matchKey = (matchCmp a.matchKey b.matchKey).swap := by
      have hp : Std.OrientedCmp pairCmp := ⟨by
        intro a b
        unfold pairCmp
        rw [Ordering.swap_then, ← Std.OrientedCmp.eq_swap, ← Std.OrientedCmp.eq_swap]⟩
      unfold matchCmp
      rw [Ordering.swap_then, Ordering.swap_then, ← Std.OrientedCmp.eq_swap, ← Std.OrientedCmp.eq_swap,
        ← Std.OrientedCmp.eq_swap]
    simp only [le, matchLe]
    rw [this]
    exact isLE_or _
  | some e =>
    have : buildCmp b.buildKey a.buildKey = (buildCmp a.buildKey b.buildKey).swap := by
      unfold buildCmp
      rw [Ordering.swap_then, Ordering.swap_then, ← Std.OrientedCmp.eq_swap, ← Std.OrientedCmp.eq_swap,
        ← Std.OrientedCmp.eq_swap]
    simp only [le, buildLe]
    rw [this]
    exact isLE_or _

theorem sort_twice (k : Key) (l : List Bound) : sortBy (le k) (sortBy (le k) l) = sortBy (le k) l :=
  sort_ordered _ _ (sortBy_ordered _ (le_total k) l)

theorem sort_nil (k : Key) (l : List Bound) (h : sortBy (le k) l = []) : l = [] := by
  have := (RoutingP.sort_perm (le k) l).length_eq
  rw [h] at this
  exact List.length_eq_zero_iff.1 this.symm

/-! ### What a program means, and what it may give -/

/-- The result of a program where the lists are `lists` and nobody else uses them. -/
def eval (lists : Key → List Bound) : Prog R → R
  | .ret r => r
  | .update p => eval lists p
  | .scan k hit next other =>
    match (lists k).find? hit with
    | some b => eval lists (next b)
    | none => eval lists other

/-- The results of a program in which any loop may miss what it looks for. -/
def Possible (lists : Key → List Bound) : Prog R → R → Prop
  | .ret r, r' => r' = r
  | .update p, r' => Possible lists p r'
  | .scan k hit next other, r' =>
    Possible lists other r' ∨ ∃ b, (lists k).find? hit = some b ∧ Possible lists (next b) r'

/-! ### The invariant of all executions -/

section
variable (U : Key → List Bound)

/-- The list as it is to be. -/
def S (k : Key) : List Bound := sortBy (le k) (U k)

/-- A list that is being sorted or is in order. -/
def Calm (s : Shared) (k : Key) : Prop := s.lists k = [] ∨ s.lists k = S U k

/-- What holds of the lists. -/
def Lists (s : Shared) : Prop :=
  (∀ k, s.lists k = U k ∨ Calm U s k) ∧ (s.remap = false → ∀ k, Calm U s k)

/-- What holds of a thread with the program `p`. -/
def Fine (keys : List Key) (s : Shared) (p : Prog R) : Pc R → Prop
  | .run (.update q) => ∀ r, Possible (S U) q r → Possible (S U) p r
  | .run q => (∀ k, Calm U s k) ∧ ∀ r, Possible (S U) q r → Possible (S U) p r
  | .sort todo q => (∀ k ∈ keys, k ∉ todo → Calm U s k) ∧ ∀ r, Possible (S U) q r → Possible (S U) p r
  | .sorting k saved todo q => (saved = U k ∨ saved = S U k) ∧ Calm U s k ∧
      (∀ k' ∈ keys, k' ∉ k :: todo → Calm U s k') ∧ ∀ r, Possible (S U) q r → Possible (S U) p r
  | .scanning k hit next other i => (∀ k, Calm U s k) ∧ (∀ b ∈ (S U k).take i, hit b = false) ∧
      ∀ r, Possible (S U) (.scan k hit next other) r → Possible (S U) p r
  | .done r => Possible (S U) p r

theorem calm_set (s : Shared) (k : Key) (l : List Bound) (hl : l = [] ∨ l = S U k) (k' : Key) (h : Calm U s k') :
    Calm U (s.set k l) k' := by
  unfold Calm Shared.set at *
  simp only
  split
  · rename_i e; subst e; exact hl
  · exact h

theorem calm_set_self (s : Shared) (k : Key) (l : List Bound) (hl : l = [] ∨ l = S U k) : Calm U (s.set k l) k := by
  unfold Calm Shared.set
  simpa using hl

theorem fine_mono (keys : List Key) (s s' : Shared) (h : ∀ k, Calm U s k → Calm U s' k) (p : Prog R) (pc : Pc R)
    (hf : Fine U keys s p pc) : Fine U keys s' p pc := by
  cases pc with
  | run q =>
    cases q with
    | update q => exact hf
    | ret r => exact ⟨fun k => h k (hf.1 k), hf.2⟩
    | scan k hit next other => exact ⟨fun k => h k (hf.1 k), hf.2⟩
  | sort todo q => exact ⟨fun k hk hn => h k (hf.1 k hk hn), hf.2⟩
  | sorting k saved todo q => exact ⟨hf.1, h k hf.2.1, fun k' hk hn => h k' (hf.2.2.1 k' hk hn), hf.2.2.2⟩
  | scanning k hit next other i => exact ⟨fun k => h k (hf.1 k), hf.2.1, hf.2.2⟩
  | done r => exact hf

theorem fine_run (keys : List Key) (s : Shared) (p q : Prog R) (hc : ∀ k, Calm U s k)
    (h : ∀ r, Possible (S U) q r → Possible (S U) p r) : Fine U keys s p (.run q) := by
  cases q with
  | update q => exact h
  | ret r => exact ⟨hc, h⟩
  | scan k hit next other => exact ⟨hc, h⟩

theorem step_fine (keys : List Key) (hk : ∀ k, k ∉ keys → U k = []) (s : Shared) (p : Prog R) (pc : Pc R)
    (hl : Lists U s) (hf : Fine U keys s p pc) :
    Lists U (step keys s pc).1 ∧ (∀ k, Calm U s k → Calm U (step keys s pc).1 k) ∧
      Fine U keys (step keys s pc).1 p (step keys s pc).2 := by
  have hout : ∀ k, k ∉ keys → Calm U s k := by
    intro k hn
    rcases hl.1 k with h | h
    · left; rw [h, hk k hn]
    · exact h
  cases pc with
  | run q =>
    cases q with
    | ret r => exact ⟨hl, fun _ h => h, hf.2 r rfl⟩
    | update q =>
      simp only [step]
      split
      · refine ⟨hl, fun _ h => h, ?_, hf⟩
        intro k hk' hn
        exact absurd hk' hn
      · rename_i hr
        exact ⟨hl, fun _ h => h, fine_run U keys s p q (hl.2 (by simpa using hr)) hf⟩
    | scan k hit next other => exact ⟨hl, fun _ h => h, hf.1, by simp, hf.2⟩
  | sort todo q =>
    cases todo with
    | nil =>
      have hc : ∀ k, Calm U s k := by
        intro k
        by_cases h : k ∈ keys
        · exact hf.1 k h (by simp)
        · exact hout k h
      exact ⟨⟨hl.1, fun _ => hc⟩, fun _ h => h, fine_run U keys _ p q hc hf.2⟩
    | cons k ks =>
      simp only [step]
      split
      · rename_i he
        refine ⟨hl, fun _ h => h, ?_, hf.2⟩
        intro k' hk' hn
        by_cases e : k' = k
        · subst e; left; simpa using he
        · exact hf.1 k' hk' (by simp [e, hn])
      · rename_i he
        have hm : ∀ k', Calm U s k' → Calm U (s.set k []) k' := fun k' h => calm_set U s k [] (.inl rfl) k' h
        refine ⟨⟨fun k' => ?_, fun hr k' => hm k' (hl.2 hr k')⟩, hm, ?_, calm_set_self U s k [] (.inl rfl), ?_, hf.2⟩
        · by_cases e : k' = k
          · subst e; exact .inr (calm_set_self U s k' [] (.inl rfl))
          · rcases hl.1 k' with h | h
            · left; simpa [Shared.set, e] using h
            · exact .inr (hm k' h)
        · rcases hl.1 k with h | h | h
          · exact .inl h
          · rw [h] at he; simp at he
          · exact .inr h
        · intro k' hk' hn
          exact hm k' (hf.1 k' hk' hn)
  | sorting k saved todo q =>
    have hsort : sortBy (le k) saved = S U k := by
      rcases hf.1 with rfl | rfl
      · rfl
      · exact sort_twice k (U k)
    have hm : ∀ k', Calm U s k' → Calm U (s.set k (sortBy (le k) saved)) k' :=
      fun k' h => calm_set U s k _ (.inr hsort) k' h
    refine ⟨⟨fun k' => ?_, fun hr k' => hm k' (hl.2 hr k')⟩, hm, ?_, hf.2.2.2⟩
    · by_cases e : k' = k
      · subst e; exact .inr (calm_set_self U s k' _ (.inr hsort))
      · rcases hl.1 k' with h | h
        · left; simpa [step, Shared.set, e] using h
        · exact .inr (hm k' h)
    · intro k' hk' hn
      by_cases e : k' = k
      · subst e; exact calm_set_self U s k' _ (.inr hsort)
      · exact hm k' (hf.2.2.1 k' hk' (by simp [e, hn]))
  | scanning k hit next other i =>
    obtain ⟨hc, ht, hp⟩ := hf
    simp only [step]
    cases hg : (s.lists k)[i]? with
    | none =>
      exact ⟨hl, fun _ h => h, fine_run U keys s p other hc fun r hr => hp r (.inl hr)⟩
    | some b =>
      have hS : (S U k)[i]? = some b := by
        rcases hc k with h | h
        · rw [h] at hg; cases hg
        · rw [h] at hg; exact hg
      have htake : (S U k).take (i + 1) = (S U k).take i ++ [b] := by
        rw [List.take_add_one, hS]
        rfl
      by_cases hb : hit b = true
      · simp only [hb, if_true]
        refine ⟨hl, fun _ h => h, fine_run U keys s p (next b) hc fun r hr => hp r (.inr ⟨b, ?_, hr⟩)⟩
        have hd : S U k = (S U k).take i ++ b :: (S U k).drop (i + 1) := by
          conv => lhs; rw [← List.take_append_drop (i + 1) (S U k), htake]
          simp
        rw [hd, List.find?_append, List.find?_eq_none.2 (by intro x hx; simp [ht x hx])]
        simp [hb]
      · simp only [hb, if_false, Bool.false_eq_true]
        refine ⟨hl, fun _ h => h, hc, ?_, hp⟩
        intro x hx
        rw [htake, List.mem_append, List.mem_singleton] at hx
        rcases hx with hx | rfl
        · exact ht x hx
        · simpa using hb
  | done r => exact ⟨hl, fun _ h => h, hf⟩

end

/-- The threads of a world and their programs. -/
def AllFine (U : Key → List Bound) (keys : List Key) (ps : List (Prog R)) (w : World R) : Prop :=
  Lists U w.shared ∧ w.threads.length = ps.length ∧
    ∀ (j : Nat) (p : Prog R) (pc : Pc R), ps[j]? = some p → w.threads[j]? = some pc → Fine U keys w.shared p pc

theorem world_step (U : Key → List Bound) (keys : List Key) (hk : ∀ k, k ∉ keys → U k = []) (ps : List (Prog R))
    (w : World R) (h : AllFine U keys ps w) (j : Nat) : AllFine U keys ps (w.step keys j) := by
  obtain ⟨hl, hn, hf⟩ := h
  unfold World.step
  cases hj : w.threads[j]? with
  | none => exact ⟨hl, hn, hf⟩
  | some pc =>
    have hlt : j < w.threads.length := (List.getElem?_eq_some_iff.1 hj).1
    obtain ⟨p, hp⟩ : ∃ p, ps[j]? = some p := ⟨ps[j], by rw [List.getElem?_eq_getElem]⟩
    obtain ⟨h1, h2, h3⟩ := step_fine U keys hk w.shared p pc hl (hf j p pc hp hj)
    refine ⟨h1, by simpa using hn, ?_⟩
    intro i q qc hq hqc
    simp only [List.getElem?_set] at hqc
    split at hqc
    · rename_i e
      subst e
      simp only [hlt, if_true, Option.some.injEq] at hqc
      rw [hp] at hq
      cases hq
      rw [← hqc]
      exact h3
    · exact fine_mono U keys _ _ h2 q qc (hf i q qc hq hqc)

theorem world_run (U : Key → List Bound) (keys : List Key) (hk : ∀ k, k ∉ keys → U k = []) (ps : List (Prog R))
    (schedule : List Nat) : ∀ w : World R, AllFine U keys ps w → AllFine U keys ps (w.run keys schedule) := by
  induction schedule with
  | nil => intro w h; exact h
  | cons j js ih => intro w h; exact ih _ (world_step U keys hk ps w h j)

/-- C146, any threads in any order.  Whatever the threads do with the map, and however they take turns: a thread that
has come to its end has a result that it would have with the routes in their order, except that loops may have missed
what they looked for. -/
theorem C146_any_partial (m : URLMap) (hm : m.remap = true) (keys : List Key) (hk : ∀ k, k ∉ keys → (shared m).lists k = [])
    (ps : List (Prog R)) (schedule : List Nat) (j : Nat) (p : Prog R) (hp : ps[j]? = some (.update p)) (r : R)
    (hall : ∀ q ∈ ps, ∃ q', q = .update q')
    (hr : ((start m ps).run keys schedule).threads[j]? = some (.done r)) : Possible (shared m.update).lists p r := by
  have h0 : AllFine (shared m).lists keys ps (start m ps) := by
    refine ⟨⟨fun k => .inl rfl, fun h => ?_⟩, by simp [start], ?_⟩
    · have : m.remap = false := h
      rw [hm] at this; cases this
    · intro i q pc hq hpc
      have : pc = .run q := by
        simp only [start, List.getElem?_map, hq, Option.map_some, Option.some.injEq] at hpc
        exact hpc.symm
      obtain ⟨q', rfl⟩ := hall q (List.mem_of_getElem? hq)
      rw [this]
      exact fun r h => h
  have h := (world_run _ keys hk ps schedule _ h0).2.2 j _ _ hp hr
  have e : S (shared m).lists = (shared m.update).lists := by
    funext k
    cases k <;> simp [S, shared, URLMap.update, hm, le]
  rw [← e]
  exact h

/-! ### Maps that are in order -/

theorem settled_step (keys : List Key) (lists : Key → List Bound) (p : Prog R) (pc : Pc R)
    (h : match pc with
      | .run q => eval lists q = eval lists p
      | .scanning k hit next other i => (∀ b ∈ (lists k).take i, hit b = false) ∧
          eval lists (.scan k hit next other) = eval lists p
      | .done r => r = eval lists p
      | _ => False) :
    (step keys ⟨lists, false⟩ pc).1 = ⟨lists, false⟩ ∧
    match (step keys ⟨lists, false⟩ pc).2 with
      | .run q => eval lists q = eval lists p
      | .scanning k hit next other i => (∀ b ∈ (lists k).take i, hit b = false) ∧
          eval lists (.scan k hit next other) = eval lists p
      | .done r => r = eval lists p
      | _ => False := by
  cases pc with
  | run q =>
    cases q with
    | ret r => exact ⟨rfl, h⟩
    | update q => exact ⟨rfl, h⟩
    | scan k hit next other => exact ⟨rfl, by simp, h⟩
  | sort todo q => exact h.elim
  | sorting k saved todo q => exact h.elim
  | scanning k hit next other i =>
    obtain ⟨ht, hp⟩ := h
    simp only [step]
    cases hg : (lists k)[i]? with
    | none =>
      refine ⟨rfl, ?_⟩
      show eval lists other = eval lists p
      rw [← hp, eval]
      have : (lists k).take i = lists k := List.take_of_length_le (List.getElem?_eq_none_iff.1 hg)
      rw [this] at ht
      rw [List.find?_eq_none.2 (by intro x hx; simp [ht x hx])]
    | some b =>
      have htake : (lists k).take (i + 1) = (lists k).take i ++ [b] := by
        rw [List.take_add_one, hg]
        rfl
      by_cases hb : hit b = true
      · dsimp only
        rw [if_pos hb]
        refine ⟨rfl, ?_⟩
        show eval lists (next b) = eval lists p
        have hd : lists k = (lists k).take i ++ b :: (lists k).drop (i + 1) := by
          conv => lhs; rw [← List.take_append_drop (i + 1) (lists k), htake]
          simp
        rw [← hp, eval, hd, List.find?_append, List.find?_eq_none.2 (by intro x hx; simp [ht x hx])]
        simp [hb]
      · dsimp only
        rw [if_neg hb]
        refine ⟨rfl, ?_, hp⟩
        intro x hx
        rw [htake, List.mem_append, List.mem_singleton] at hx
        rcases hx with hx | rfl
        · exact ht x hx
        · simpa using hb
  | done r => exact ⟨rfl, h⟩

/-- C146, maps that are in order (one lookup has been finished since routes were added): however many threads look things
up at once, and however they take turns, each gets what it gets alone. -/
theorem C146_settled (m : URLMap) (hm : m.remap = false) (keys : List Key) (ps : List (Prog R)) (schedule : List Nat)
    (j : Nat) (p : Prog R) (hp : ps[j]? = some p) (r : R)
    (hr : ((start m ps).run keys schedule).threads[j]? = some (.done r)) : r = eval (shared m).lists p := by
  let Good (p : Prog R) (pc : Pc R) : Prop := match pc with
    | .run q => eval (shared m).lists q = eval (shared m).lists p
    | .scanning k hit next other i => (∀ b ∈ ((shared m).lists k).take i, hit b = false) ∧
        eval (shared m).lists (.scan k hit next other) = eval (shared m).lists p
    | .done r => r = eval (shared m).lists p
    | _ => False
  have key : ∀ (schedule : List Nat) (w : World R), w.shared = ⟨(shared m).lists, false⟩ → w.threads.length = ps.length →
      (∀ (j : Nat) (p : Prog R) (pc : Pc R), ps[j]? = some p → w.threads[j]? = some pc → Good p pc) →
      ∀ (j : Nat) (p : Prog R) (pc : Pc R), ps[j]? = some p → (w.run keys schedule).threads[j]? = some pc → Good p pc := by
    intro schedule
    induction schedule with
    | nil => intro w _ _ h; exact h
    | cons i is ih =>
      intro w hs hn h
      show ∀ (j : Nat) (p : Prog R) (pc : Pc R), _ → ((w.step keys i).run keys is).threads[j]? = _ → _
      unfold World.step
      cases hi : w.threads[i]? with
      | none => exact ih w hs hn h
      | some pc =>
        have hlt : i < w.threads.length := (List.getElem?_eq_some_iff.1 hi).1
        obtain ⟨q, hq⟩ : ∃ q, ps[i]? = some q := ⟨ps[i], by rw [List.getElem?_eq_getElem]⟩
        have hst := settled_step keys (shared m).lists q pc (h i q pc hq hi)
        simp only [hs]
        refine ih _ hst.1 (by simpa using hn) ?_
        intro l p' pc' hp' hpc'
        simp only [List.getElem?_set] at hpc'
        split at hpc'
        · rename_i e
          subst e
          simp only [hlt, if_true, Option.some.injEq] at hpc'
          rw [hq] at hp'
          cases hp'
          rw [← hpc']
          exact hst.2
        · exact h l p' pc' hp' hpc'
  have := key schedule (start m ps) (by simp [start, shared, hm]) (by simp [start]) (by
    intro i q pc hq hpc
    have : pc = .run q := by
      simp only [start, List.getElem?_map, hq, Option.map_some, Option.some.injEq] at hpc
      exact hpc.symm
    rw [this]) j p (.done r) hp hr
  exact this

/-! ### A thread alone -/

/-- Steps of one thread alone. -/
def alone (keys : List Key) : Nat → Shared × Pc R → Shared × Pc R
  | 0, x => x
  | n + 1, x => alone keys n (step keys x.1 x.2)

theorem alone_add (keys : List Key) (a b : Nat) : ∀ x : Shared × Pc R, alone keys (a + b) x = alone keys b (alone keys a x) := by
  induction a with
  | zero => intro x; simp [alone]
  | succ a ih => intro x; rw [Nat.succ_add]; exact ih _

theorem alone_scan (keys : List Key) (s : Shared) (k : Key) (hit : Bound → Bool) (next : Bound → Prog R) (other : Prog R) :
    ∀ (n i : Nat), (s.lists k).length = i + n → (∀ b ∈ (s.lists k).take i, hit b = false) →
      ∃ c, alone keys c (s, .scanning k hit next other i) =
        (s, .run (match (s.lists k).find? hit with
          | some b => next b
          | none => other)) := by
  intro n
  induction n with
  | zero =>
    intro i hn ht
    refine ⟨1, ?_⟩
    have hg : (s.lists k)[i]? = none := List.getElem?_eq_none_iff.2 (by omega)
    have : (s.lists k).take i = s.lists k := List.take_of_length_le (by omega)
    rw [this] at ht
    rw [List.find?_eq_none.2 (by intro x hx; simp [ht x hx])]
    simp [alone, step, hg]
  | succ n ih =>
    intro i hn ht
    obtain ⟨b, hg⟩ : ∃ b, (s.lists k)[i]? = some b := ⟨(s.lists k)[i]'(by omega), by rw [List.getElem?_eq_getElem]⟩
    have htake : (s.lists k).take (i + 1) = (s.lists k).take i ++ [b] := by
      rw [List.take_add_one, hg]
      rfl
    by_cases hb : hit b = true
    · refine ⟨1, ?_⟩
      have hd : s.lists k = (s.lists k).take i ++ b :: (s.lists k).drop (i + 1) := by
        conv => lhs; rw [← List.take_append_drop (i + 1) (s.lists k), htake]
        simp
      have hf : (s.lists k).find? hit = some b := by
        rw [hd, List.find?_append, List.find?_eq_none.2 (by intro x hx; simp [ht x hx])]
        simp [hb]
      rw [hf]
      simp [alone, step, hg, hb]
    · obtain ⟨c, hc⟩ := ih (i + 1) (by omega) (by
        intro x hx
        rw [htake, List.mem_append, List.mem_singleton] at hx
        rcases hx with hx | rfl
        · exact ht x hx
        · simpa using hb)
      refine ⟨c + 1, ?_⟩
      rw [alone]
      simp only [step, hg, hb, if_false, Bool.false_eq_true]
      exact hc

/-- The lists after all that are left have been sorted. -/
def sortAll (todo : List Key) (s : Shared) : Shared :=
  todo.foldl (fun s k => if (s.lists k).isEmpty then s else s.set k (sortBy (le k) (s.lists k))) s

theorem alone_sort (keys : List Key) (p : Prog R) (todo : List Key) : ∀ s : Shared,
    ∃ c, alone keys c (s, .sort todo p) = ({ sortAll todo s with remap := false }, .run p) := by
  induction todo with
  | nil => intro s; exact ⟨1, rfl⟩
  | cons k ks ih =>
    intro s
    by_cases he : (s.lists k).isEmpty = true
    · obtain ⟨c, hc⟩ := ih s
      refine ⟨c + 1, ?_⟩
      rw [alone]
      simp only [step, he, if_true]
      rw [hc]
      unfold sortAll
      rw [List.foldl_cons, if_pos he]
    · obtain ⟨c, hc⟩ := ih (s.set k (sortBy (le k) (s.lists k)))
      refine ⟨c + 2, ?_⟩
      rw [alone, alone]
      simp only [step, he, if_false, Bool.false_eq_true]
      have : (s.set k []).set k (sortBy (le k) (s.lists k)) = s.set k (sortBy (le k) (s.lists k)) := by
        unfold Shared.set
        simp only [Shared.mk.injEq, and_true]
        funext k'
        split <;> rfl
      rw [this, hc]
      unfold sortAll
      rw [List.foldl_cons, if_neg he]

/-- C146, no thread waits for another: whatever the state and wherever a thread stands, it comes to its end in a number
of steps of its own. -/
theorem C146_progress (keys : List Key) (s : Shared) (pc : Pc R) : ∃ n s' r, alone keys n (s, pc) = (s', .done r) := by
  have hrun : ∀ (p : Prog R) (s : Shared), ∃ n s' r, alone keys n (s, .run p) = (s', .done r) := by
    intro p
    induction p with
    | ret r => intro s; exact ⟨1, s, r, rfl⟩
    | update p ih =>
      intro s
      by_cases hr : s.remap = true
      · obtain ⟨c, hc⟩ := alone_sort keys p keys s
        obtain ⟨n, s', r, hn⟩ := ih { sortAll keys s with remap := false }
        refine ⟨1 + (c + n), s', r, ?_⟩
        rw [alone_add, alone_add]
        have : alone keys 1 (s, .run (.update p)) = (s, .sort keys p) := by simp [alone, step, hr]
        rw [this, hc, hn]
      · obtain ⟨n, s', r, hn⟩ := ih s
        refine ⟨1 + n, s', r, ?_⟩
        rw [alone_add]
        have : alone keys 1 (s, .run (.update p)) = (s, .run p) := by simp [alone, step, hr]
        rw [this, hn]
    | scan k hit next other ih1 ih2 =>
      intro s
      obtain ⟨c, hc⟩ := alone_scan keys s k hit next other (s.lists k).length 0 (by simp) (by simp)
      have h1 : alone keys 1 (s, .run (.scan k hit next other)) = (s, .scanning k hit next other 0) := rfl
      cases hf : (s.lists k).find? hit with
      | some b =>
        obtain ⟨n, s', r, hn⟩ := ih1 b s
        refine ⟨1 + (c + n), s', r, ?_⟩
        rw [alone_add, alone_add, h1, hc, hf, hn]
      | none =>
        obtain ⟨n, s', r, hn⟩ := ih2 s
        refine ⟨1 + (c + n), s', r, ?_⟩
        rw [alone_add, alone_add, h1, hc, hf, hn]
  cases pc with
  | run p => exact hrun p s
  | sort todo p =>
    obtain ⟨c, hc⟩ := alone_sort keys p todo s
    obtain ⟨n, s', r, hn⟩ := hrun p { sortAll todo s with remap := false }
    exact ⟨c + n, s', r, by rw [alone_add, hc, hn]⟩
  | sorting k saved todo p =>
    obtain ⟨c, hc⟩ := alone_sort keys p todo (s.set k (sortBy (le k) saved))
    obtain ⟨n, s', r, hn⟩ := hrun p { sortAll todo (s.set k (sortBy (le k) saved)) with remap := false }
    refine ⟨1 + (c + n), s', r, ?_⟩
    rw [alone_add, alone_add]
    have : alone keys 1 (s, .sorting k saved todo p) = (s.set k (sortBy (le k) saved), .sort todo p) := rfl
    rw [this, hc, hn]
  | scanning k hit next other i =>
    have key : ∀ (d i : Nat), (s.lists k).length - i = d →
        ∃ n s' r, alone keys n (s, .scanning k hit next other i) = (s', .done r) := by
      intro d
      induction d with
      | zero =>
        intro i hi
        obtain ⟨n, s', r, hn⟩ := hrun other s
        refine ⟨1 + n, s', r, ?_⟩
        rw [alone_add]
        have hg : (s.lists k)[i]? = none := List.getElem?_eq_none_iff.2 (by omega)
        have : alone keys 1 (s, .scanning k hit next other i) = (s, .run other) := by simp [alone, step, hg]
        rw [this, hn]
      | succ d ih =>
        intro i hi
        obtain ⟨b, hg⟩ : ∃ b, (s.lists k)[i]? = some b := ⟨(s.lists k)[i]'(by omega), by rw [List.getElem?_eq_getElem]⟩
        by_cases hb : hit b = true
        · obtain ⟨n, s', r, hn⟩ := hrun (next b) s
          refine ⟨1 + n, s', r, ?_⟩
          rw [alone_add]
          have : alone keys 1 (s, .scanning k hit next other i) = (s, .run (next b)) := by simp [alone, step, hg, hb]
          rw [this, hn]
        · obtain ⟨n, s', r, hn⟩ := ih (i + 1) (by omega)
          refine ⟨1 + n, s', r, ?_⟩
          rw [alone_add]
          have : alone keys 1 (s, .scanning k hit next other i) = (s, .scanning k hit next other (i + 1)) := by
            simp [alone, step, hg, hb]
          rw [this, hn]
    exact key _ i rfl
  | done r => exact ⟨0, s, r, rfl⟩

/-! ### Matching and building -/

theorem eval_build (lists : Key → List Bound) (cfg : Config) (a : Adapter) (endpoint : Str) (values : Values)
    (fe au : Bool) (k : Except PyErr Str → Prog R) :
    eval lists (buildProg cfg a endpoint values fe au k) =
      eval lists (k (buildEnd cfg a fe (buildGo values au (lists (some endpoint))))) := by
  unfold buildProg
  rw [eval, eval]
  generalize lists (some endpoint) = l
  induction l with
  | nil => rfl
  | cons b l ih =>
    rw [List.find?_cons, buildGo]
    by_cases hs : b.suitableFor values = true
    · cases hb : b.build values au with
      | error e => simp [builds, hs, hb]
      | ok o =>
        cases o with
        | none => simp only [builds, hs, hb, Bool.and_false, if_true]; exact ih
        | some x => simp [builds, hs, hb]
    · simp only [builds, hs, Bool.false_and, if_false, Bool.false_eq_true]; exact ih

theorem update_cfg (m : URLMap) : m.update.cfg = m.cfg := by
  unfold URLMap.update
  split <;> rfl

theorem build_end (m : URLMap) (a : Adapter) (endpoint : Str) (values : Values) (fe au : Bool) :
    build m a endpoint values fe au = buildEnd m.cfg a fe (buildGo values au (m.update.byEndpoint endpoint)) := by
  unfold build buildEnd
  cases buildGo values au (m.update.byEndpoint endpoint) with
  | error e => rfl
  | ok o => cases o <;> rfl

theorem update_twice (m : URLMap) : m.update.update = m.update := by
  have : m.update.remap = false := by
    unfold URLMap.update
    split
    · rfl
    · rename_i h; simpa using h
  generalize m.update = m' at this
  unfold URLMap.update
  rw [this]
  rfl

theorem default_end (cfg : Config) (a : Adapter) (b : Bound) (vs : Values) (query : Str) (l : List Bound) :
    (match getDefaultRedirect cfg a b vs query l with
      | .error e => .error e
      | .ok (some url) => .ok (Answer.redirect url)
      | .ok none => finish cfg a b vs) =
    match l.find? (fun r => r.id == b.id || (r.providesDefaultsFor b && r.suitableFor vs)) with
      | some r => if r.id = b.id then finish cfg a b vs else defaultEnd cfg a vs query r
      | none => finish cfg a b vs := by
  induction l with
  | nil => rfl
  | cons r l ih =>
    rw [getDefaultRedirect, List.find?_cons]
    by_cases h1 : r.id = b.id
    · simp [h1]
    · by_cases h2 : r.providesDefaultsFor b = true ∧ r.suitableFor vs = true
      · have e : (r.id == b.id || (r.providesDefaultsFor b && r.suitableFor vs)) = true := by simp [h2]
        rw [if_neg h1, if_pos h2, e]
        simp only [if_neg h1, defaultEnd]
        cases r.build (Routing.update vs r.route.defaults) true with
        | error e => rfl
        | ok o => cases o <;> rfl
      · have e : (r.id == b.id || (r.providesDefaultsFor b && r.suitableFor vs)) = false := by
          simp only [Bool.or_eq_false_iff, beq_eq_false_iff_ne, Bool.and_eq_false_imp]
          refine ⟨h1, fun h3 => ?_⟩
          by_cases h4 : r.suitableFor vs = true
          · exact absurd ⟨h3, h4⟩ h2
          · simpa using h4
        rw [if_neg h1, if_neg h2, e]
        exact ih

/-- The program of `match` is `match`. -/
theorem eval_match (m : URLMap) (a : Adapter) (pathInfo query : Str) :
    eval (shared m.update).lists (matchProg m.cfg a pathInfo query) = match_ m a pathInfo query := by
  have hl : ∀ e, (shared m.update).lists (some e) = m.update.byEndpoint e := fun e => rfl
  unfold matchProg match_
  rw [eval, eval]
  show (match m.update.routes.find? _ with | some b => _ | none => _) = _
  generalize m.update.routes = l
  induction l with
  | nil => rfl
  | cons b l ih =>
    rw [List.find?_cons, matchGo, update_cfg]
    cases hb : b.match_ m.cfg (fullPath m.cfg a pathInfo) with
    | none => simp only; exact ih
    | slash => simp [hb, eval, answer, update_cfg]
    | alias vs =>
      simp only [hb, answer, makeAliasRedirectUrl]
      rw [eval_build, build_end, update_twice, update_cfg, hl]
      cases buildEnd m.cfg a true (buildGo vs false (m.update.byEndpoint b.route.endpoint)) with
      | error e => rfl
      | ok url =>
        simp only [eval, aliasEnd]
        split <;> split <;> rfl
    | values vs =>
      simp only [hb, answer, update_cfg]
      by_cases hd : m.cfg.redirectDefaults = true
      · simp only [hd, if_true]
        rw [eval, hl]
        have := default_end m.cfg a b vs query (m.update.byEndpoint b.route.endpoint)
        have e2 : ∀ x : Except PyErr (Option Str), (match x with
            | .error e => .error e
            | .ok (some url) => .ok (Answer.redirect url)
            | .ok none => match b.route.redirectTo with
              | some t => match redirectTarget m.cfg a b vs t with
                | .error e => .error e
                | .ok url => .ok (Answer.redirect url)
              | none => .ok (Answer.found b vs) : Except PyErr Answer) = (match x with
            | .error e => .error e
            | .ok (some url) => .ok (Answer.redirect url)
            | .ok none => finish m.cfg a b vs : Except PyErr Answer) := by
          intro x
          rcases x with e | _ | u <;> rfl
        refine Eq.trans ?_ ((e2 _).trans this).symm
        cases (m.update.byEndpoint b.route.endpoint).find?
            (fun r => r.id == b.id || (r.providesDefaultsFor b && r.suitableFor vs)) with
        | none => simp only [eval, finish]
        | some r =>
          simp only
          split <;> simp only [eval, finish]
      · simp only [hd, if_false, Bool.false_eq_true, eval, finish]
        rfl

/-- C146, matching in a map that is in order: each thread is answered as if it were alone. -/
theorem C146_match_settled (m : URLMap) (hm : m.remap = false) (keys : List Key) (ps : List (Prog (Except PyErr Answer)))
    (schedule : List Nat) (j : Nat) (a : Adapter) (pathInfo query : Str)
    (hp : ps[j]? = some (matchProg m.cfg a pathInfo query)) (r : Except PyErr Answer)
    (hr : ((start m ps).run keys schedule).threads[j]? = some (.done r)) : r = match_ m a pathInfo query := by
  have h := C146_settled m hm keys ps schedule j _ hp r hr
  have e : m.update = m := by unfold URLMap.update; rw [hm]; rfl
  rw [h, ← eval_match, e]

/-- C146, one lookup puts a map in order, and changes no answer. -/
theorem C146_warm (m : URLMap) (a : Adapter) (pathInfo query : Str) :
    m.update.remap = false ∧ match_ m.update a pathInfo query = match_ m a pathInfo query := by
  constructor
  · unfold URLMap.update
    split
    · rfl
    · rename_i h; simpa using h
  · unfold match_
    rw [update_twice, update_cfg]

/-- C146, matching while the map is put in order.  A thread is answered as if it were alone, or with `NotFound`, or
without the redirect to the route with defaults, or (where an alias matches) with `BuildError`. -/
theorem C146_match_partial (m : URLMap) (hm : m.remap = true) (keys : List Key) (hk : ∀ k, k ∉ keys → (shared m).lists k = [])
    (ps : List (Prog (Except PyErr Answer))) (hall : ∀ q ∈ ps, ∃ q', q = .update q') (schedule : List Nat) (j : Nat)
    (a : Adapter) (pathInfo query : Str) (hp : ps[j]? = some (matchProg m.cfg a pathInfo query)) (r : Except PyErr Answer)
    (hr : ((start m ps).run keys schedule).threads[j]? = some (.done r)) :
    r = match_ m a pathInfo query ∨ r = .error .notFound ∨
    (∃ b vs, b ∈ m.routes ∧ b.match_ m.cfg (fullPath m.cfg a pathInfo) = .values vs ∧ m.cfg.redirectDefaults = true ∧
      r = finish m.cfg a b vs) ∨
    (∃ b vs, b ∈ m.routes ∧ b.match_ m.cfg (fullPath m.cfg a pathInfo) = .alias vs ∧ r = .error .buildError) := by
  have h := C146_any_partial m hm keys hk ps schedule j _ hp r hall hr
  have he := eval_match m a pathInfo query
  unfold matchProg at he
  rw [eval, eval] at he
  rcases h with h | ⟨b, hb, h⟩
  · exact .inr (.inl h)
  · rw [hb] at he
    simp only at he
    have hmem : b ∈ m.routes := by
      have := List.mem_of_find?_eq_some hb
      have e : (shared m.update).lists none = sortBy matchLe m.routes := by simp [shared, URLMap.update, hm]
      rw [e] at this
      exact (RoutingP.sort_perm _ _).mem_iff.1 this
    dsimp only at h
    cases hv : b.match_ m.cfg (fullPath m.cfg a pathInfo) with
    | none =>
      rw [hv] at h
      exact .inr (.inl h)
    | slash =>
      rw [hv] at h he
      left
      rw [← he]
      exact h
    | alias vs =>
      rw [hv] at h he
      simp only [buildProg] at h he
      rw [eval, eval] at he
      rcases h with h | ⟨b', hb', h⟩
      · exact .inr (.inr (.inr ⟨b, vs, hmem, hv, h⟩))
      · left
        rw [hb'] at he
        rw [← he]
        exact h
    | values vs =>
      rw [hv] at h he
      simp only at h he
      by_cases hd : m.cfg.redirectDefaults = true
      · simp only [hd, if_true] at h he
        rw [eval] at he
        rcases h with h | ⟨b', hb', h⟩
        · exact .inr (.inr (.inl ⟨b, vs, hmem, hv, hd, h⟩))
        · left
          rw [hb'] at he
          rw [← he]
          dsimp only at h ⊢
          split at h
          · rename_i e; rw [if_pos e]; exact h
          · rename_i e; rw [if_neg e]; exact h
      · simp only [hd, if_false, Bool.false_eq_true] at h he
        left
        rw [← he]
        exact h

theorem sortAll_lists (todo : List Key) : ∀ (s : Shared) (k : Key),
    (sortAll todo s).lists k = if k ∈ todo then sortBy (le k) (s.lists k) else s.lists k := by
  induction todo with
  | nil => intro s k; rfl
  | cons x xs ih =>
    intro s k
    unfold sortAll
    rw [List.foldl_cons]
    show (sortAll xs _).lists k = _
    rw [ih]
    by_cases he : (s.lists x).isEmpty = true
    · rw [if_pos he]
      by_cases e : k = x
      · subst e
        have : s.lists k = [] := by simpa using he
        rw [this, if_pos List.mem_cons_self]
        split <;> rfl
      · simp [e]
    · rw [if_neg he]
      by_cases e : k = x
      · subst e
        have : (s.set k (sortBy (le k) (s.lists k))).lists k = sortBy (le k) (s.lists k) := by simp [Shared.set]
        rw [this, if_pos List.mem_cons_self, sort_twice]
        split <;> rfl
      · have : (s.set x (sortBy (le x) (s.lists x))).lists k = s.lists k := by simp [Shared.set, e]
        rw [this]
        simp [e]

theorem alone_eval (keys : List Key) (lists : Key → List Bound) (p : Prog R) :
    ∃ c, alone keys c (⟨lists, false⟩, .run p) = (⟨lists, false⟩, .done (eval lists p)) := by
  induction p with
  | ret r => exact ⟨1, rfl⟩
  | update p ih =>
    obtain ⟨c, hc⟩ := ih
    refine ⟨1 + c, ?_⟩
    rw [alone_add]
    have : alone keys 1 ((⟨lists, false⟩ : Shared), Pc.run (.update p)) = (⟨lists, false⟩, .run p) := by simp [alone, step]
    rw [this, hc]
    rfl
  | scan k hit next other ih1 ih2 =>
    obtain ⟨c, hc⟩ := alone_scan keys ⟨lists, false⟩ k hit next other (lists k).length 0 (by simp) (by simp)
    have h1 : alone keys 1 ((⟨lists, false⟩ : Shared), Pc.run (.scan k hit next other)) =
      (⟨lists, false⟩, .scanning k hit next other 0) := rfl
    cases hf : (lists k).find? hit with
    | some b =>
      obtain ⟨n, hn⟩ := ih1 b
      refine ⟨1 + (c + n), ?_⟩
      rw [alone_add, alone_add, h1, hc]
      simp only [hf, hn, eval]
    | none =>
      obtain ⟨n, hn⟩ := ih2
      refine ⟨1 + (c + n), ?_⟩
      rw [alone_add, alone_add, h1, hc]
      simp only [hf, hn, eval]

theorem run_alone (keys : List Key) (n : Nat) : ∀ (s : Shared) (pc : Pc R),
    (⟨s, [pc]⟩ : World R).run keys (List.replicate n 0) = ⟨(alone keys n (s, pc)).1, [(alone keys n (s, pc)).2]⟩ := by
  induction n with
  | zero => intro s pc; rfl
  | succ n ih =>
    intro s pc
    rw [List.replicate_succ]
    show ((⟨s, [pc]⟩ : World R).step keys 0).run keys _ = _
    have : (⟨s, [pc]⟩ : World R).step keys 0 = ⟨(step keys s pc).1, [(step keys s pc).2]⟩ := by simp [World.step]
    rw [this, ih, alone]

/-- C146, one thread alone: the steps of `match` come to the end that `match` has, and leave the map in order. -/
theorem C146_alone (m : URLMap) (keys : List Key) (hk : ∀ k, k ∉ keys → (shared m).lists k = []) (a : Adapter)
    (pathInfo query : Str) : ∃ n, (start m [matchProg m.cfg a pathInfo query]).run keys (List.replicate n 0) =
      ⟨shared m.update, [.done (match_ m a pathInfo query)]⟩ := by
  have hs : shared m.update = ⟨(shared m.update).lists, false⟩ := by
    have := (C146_warm m a pathInfo query).1
    unfold shared
    rw [this]
  obtain ⟨q, hq⟩ : ∃ q, matchProg m.cfg a pathInfo query = .update q := ⟨_, rfl⟩
  have he := eval_match m a pathInfo query
  rw [hq] at he ⊢
  obtain ⟨c, hc⟩ := alone_eval keys (shared m.update).lists q
  have hstart : (start m [Prog.update q]) = ⟨shared m, [.run (.update q)]⟩ := rfl
  cases hm : m.remap with
  | false =>
    refine ⟨1 + c, ?_⟩
    rw [hstart, run_alone, alone_add]
    have : alone keys 1 (shared m, Pc.run (.update q)) = (shared m, .run q) := by simp [alone, step, shared, hm]
    have e : m.update = m := by unfold URLMap.update; rw [hm]; rfl
    rw [e] at hs hc he
    rw [this, hs, hc, e, ← hs, ← he]
    rfl
  | true =>
    obtain ⟨c1, hc1⟩ := alone_sort keys q keys (shared m)
    refine ⟨1 + (c1 + c), ?_⟩
    rw [hstart, run_alone, alone_add, alone_add]
    have h1 : alone keys 1 (shared m, Pc.run (.update q)) = (shared m, .sort keys q) := by simp [alone, step, shared, hm]
    have h2 : ({ sortAll keys (shared m) with remap := false } : Shared) = ⟨(shared m.update).lists, false⟩ := by
      simp only [Shared.mk.injEq, and_true]
      funext k
      rw [sortAll_lists]
      have e : (shared m.update).lists k = sortBy (le k) ((shared m).lists k) := by
        cases k <;> simp [shared, URLMap.update, hm, le]
      rw [e]
      split
      · rfl
      · rename_i h; rw [hk k h]; rfl
    rw [h1, hc1, h2, hc, ← he]
    rw [← hs]
    rfl

/-- C146, building: in a map that is in order each thread builds what it builds alone; while it is put in order, it does
or it gets `BuildError`. -/
theorem C146_build_partial (m : URLMap) (keys : List Key) (hk : ∀ k, k ∉ keys → (shared m).lists k = [])
    (ps : List (Prog (Except PyErr Str))) (hall : ∀ q ∈ ps, ∃ q', q = .update q') (schedule : List Nat) (j : Nat)
    (a : Adapter) (endpoint : Str) (values : Values) (fe au : Bool)
    (hp : ps[j]? = some (buildProg m.cfg a endpoint values fe au .ret)) (r : Except PyErr Str)
    (hr : ((start m ps).run keys schedule).threads[j]? = some (.done r)) :
    r = build m a endpoint values fe au ∨ (m.remap = true ∧ r = .error .buildError) := by
  have he := eval_build (shared m.update).lists m.cfg a endpoint values fe au (R := Except PyErr Str) .ret
  have hl : (shared m.update).lists (some endpoint) = m.update.byEndpoint endpoint := rfl
  rw [hl] at he
  have he' : eval (shared m.update).lists (buildProg m.cfg a endpoint values fe au .ret) = build m a endpoint values fe au := by
    rw [he, build_end]; rfl
  cases hm : m.remap with
  | false =>
    left
    rw [C146_settled m hm keys ps schedule j _ hp r hr, ← he']
    have e : m.update = m := by unfold URLMap.update; rw [hm]; rfl
    rw [e]
  | true =>
    rcases C146_any_partial m hm keys hk ps schedule j _ hp r hall hr with h | ⟨b, hb, h⟩
    · exact .inr ⟨rfl, h⟩
    · left
      rw [← he']
      unfold buildProg
      rw [eval, eval, hb]
      exact h

/-- The lists of a map that was made by adding routes and looking things up: all of them are the list of all routes and
the lists of the end points of routes that were added. -/
theorem C146_keys (cfg : Config) (ops : List RoutingP.Op) (k : Key)
    (hk : k ∉ none :: (RoutingP.run (URLMap.new cfg) ops).routes.map fun b => some b.route.endpoint) :
    (shared (RoutingP.run (URLMap.new cfg) ops)).lists k = [] := by
  cases k with
  | none => exact absurd List.mem_cons_self hk
  | some e =>
    have hf := BuildP.filed_run ops (URLMap.new cfg) (by intro e b; simp [URLMap.new])
    show (RoutingP.run (URLMap.new cfg) ops).byEndpoint e = []
    rw [List.eq_nil_iff_forall_not_mem]
    intro b hb
    obtain ⟨h1, rfl⟩ := (hf e b).1 hb
    exact hk (List.mem_cons_of_mem _ (List.mem_map_of_mem h1))

/-! ### Threads in a small map -/

/-- A map with three routes, to which nothing was put yet. -/
def newMap : URLMap := RoutingP.run (URLMap.new RoutingP.sampleCfg) [.add [RoutingP.pageRoute, RoutingP.itemRoute, RoutingP.newRoute]]

/-- Its lists. -/
def newKeys : List Key := [none, some s%"page", some s%"item", some s%"new"]

/-- Two requests for the same page. -/
def twoRequests : List (Prog (Except PyErr Answer)) :=
  [matchProg RoutingP.sampleCfg RoutingP.sampleAdapter s%"/a/new" [], matchProg RoutingP.sampleCfg RoutingP.sampleAdapter s%"/a/new" []]

/-- The results of the threads that are done: the end point chosen, or `none` for an exception. -/
def results (w : World (Except PyErr Answer)) : List (Option (Option Str)) :=
  w.threads.map fun
    | .done x => some (RoutingP.chosen x)
    | _ => none

set_option maxRecDepth 16000

/-- C146 does not hold of a new map.  The first of two threads is stopped while it puts the routes in order; the second
is told that there is no such page, although there is. -/
theorem C146_match_false : ∃ (cfg : Config) (routes : List Route) (a : Adapter) (pathInfo : Str) (keys : List Key)
    (schedule : List Nat) (endpoint : Str),
    RoutingP.chosen (match_ (RoutingP.run (URLMap.new cfg) [.add routes]) a pathInfo []) = some endpoint ∧
    ((start (RoutingP.run (URLMap.new cfg) [.add routes]) [matchProg cfg a pathInfo [], matchProg cfg a pathInfo []]).run
      keys schedule).threads[1]? = some (.done (.error .notFound)) := by
  refine ⟨RoutingP.sampleCfg, [RoutingP.pageRoute, RoutingP.itemRoute, RoutingP.newRoute], RoutingP.sampleAdapter, s%"/a/new",
    newKeys, [0, 0, 1, 1, 1, 1, 1, 1, 1, 1, 1, 1, 1, 1], s%"new", by decide +kernel, ?_⟩
  rfl

/-- The two threads one after the other, and in turns. -/
example : results ((start newMap twoRequests).run newKeys (List.replicate 20 0 ++ List.replicate 20 1)) =
    [some (some s%"new"), some (some s%"new")] ∧
  results ((start newMap twoRequests).run newKeys ([0, 0] ++ List.replicate 20 1 ++ List.replicate 20 0)) =
    [some (some s%"new"), some none] ∧
  results ((start newMap.update twoRequests).run newKeys ((List.replicate 8 [0, 1, 1]).flatten ++ List.replicate 20 0)) =
    [some (some s%"new"), some (some s%"new")] := by decide +kernel

/-- What is asked of the map by the theorems. -/
example : newMap.remap = true ∧ newMap.update.remap = false ∧ (∀ k, k ∉ newKeys → (shared newMap).lists k = []) ∧
    ∀ q ∈ twoRequests, ∃ q', q = .update q' := by
  refine ⟨rfl, rfl, ?_, ?_⟩
  · intro k hk
    refine C146_keys _ _ k ?_
    intro h
    apply hk
    have : (newMap.routes.map fun b => (some b.route.endpoint : Key)) = [some s%"page", some s%"item", some s%"new"] := by
      decide +kernel
    show k ∈ none :: [some s%"page", some s%"item", some s%"new"]
    rw [← this]
    exact h
  · intro q hq
    simp only [twoRequests, List.mem_cons, List.not_mem_nil, or_false] at hq
    rcases hq with rfl | rfl <;> exact ⟨_, rfl⟩

end Verif.Props.ThreadsP
