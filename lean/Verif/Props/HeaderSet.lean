import Verif.PyLemmas
import Verif.Model.HeaderSet
import Verif.Props.Headers
/-! Property theorems C10 and C66: `HeaderSet`. -/
namespace Verif.Props
open Verif Verif.HeaderSet

namespace HSet

/-- The calls the coherence claim ranges over, with the restriction that makes it true:
arguments of `remove`/`discard` are already lower case. -/
def SafeCall (lower : Str → Str) : Op → Prop
  | .remove h => lower h = h
  | .discard h => lower h = h
  | .setIdx _ _ => False
  | _ => True

/-- Coherence of the two containers. -/
def Coherent (lower : Str → Str) (s : HS) : Prop :=
  s.set = s.headers.map lower ∧ (s.headers.map lower).Nodup

theorem coherent_updateOne (lower : Str → Str) (s : HS × Bool) (h : Str)
    (hc : Coherent lower s.1) : Coherent lower (updateOne lower s h).1 := by
  unfold updateOne
  split
  · exact hc
  · rename_i hn
    obtain ⟨e, nd⟩ := hc
    have hn' : lower h ∉ s.1.set := by simpa using hn
    refine ⟨?_, ?_⟩
    · simp only [setAdd]; rw [if_neg hn, e]; simp
    · simp only [List.map_append, List.map_cons, List.map_nil]
      rw [List.nodup_append]
      refine ⟨nd, by simp, ?_⟩
      intro a ha b hb
      simp at hb; subst hb
      intro hab; subst hab; exact hn' (e ▸ ha)

theorem coherent_update (lower : Str → Str) (hs : List Str) (s : HS × Bool)
    (hc : Coherent lower s.1) : Coherent lower (hs.foldl (updateOne lower) s).1 := by
  induction hs generalizing s with
  | nil => exact hc
  | cons h hs ih => exact ih _ (coherent_updateOne lower s h hc)

theorem removeLoop_map (lower : Str → Str) (h : Str) (l : List Str) (nd : (l.map lower).Nodup) :
    (removeLoop lower h l).map lower = setRemove (l.map lower) h := by
  unfold setRemove
  induction l with
  | nil => rfl
  | cons k ks ih =>
    simp only [List.map_cons, List.nodup_cons] at nd
    by_cases e : lower k = h
    · have hf : (ks.map lower).filter (fun y => decide (y ≠ h)) = ks.map lower := by
        rw [List.filter_eq_self]
        intro y hy
        simp only [decide_eq_true_eq]
        intro he; subst he; exact nd.1 (e ▸ hy)
      simp only [removeLoop, e, List.map_cons, if_true, List.filter_cons, ne_eq, not_true_eq_false,
        decide_false, Bool.false_eq_true, if_false]
      rw [← hf]; simp
    · simp [removeLoop, e, ih nd.2]

theorem setRemove_nodup (l : List Str) (h : Str) (nd : l.Nodup) : (setRemove l h).Nodup :=
  nd.sublist List.filter_sublist

theorem coherent_remove (lower : Str → Str) (s : HS) (h : Str) (hl : lower h = h)
    (hc : Coherent lower s) : Coherent lower (remove lower s h).1 := by
  unfold remove
  split
  · obtain ⟨e, nd⟩ := hc
    have := removeLoop_map lower h s.headers nd
    refine ⟨?_, ?_⟩
    · rw [this, hl, e]
    · show ((removeLoop lower h s.headers).map lower).Nodup
      rw [this]; exact setRemove_nodup _ _ nd
  · exact hc

theorem eraseIdx_map_remove (lower : Str → Str) (l : List Str) (i : Nat) (rv : Str)
    (hi : l[i]? = some rv) (nd : (l.map lower).Nodup) :
    (l.eraseIdx i).map lower = setRemove (l.map lower) (lower rv) := by
  unfold setRemove
  induction l generalizing i with
  | nil => simp at hi
  | cons k ks ih =>
    simp only [List.map_cons, List.nodup_cons] at nd
    cases i with
    | zero =>
      simp at hi; subst hi
      have hf : (ks.map lower).filter (fun y => decide (y ≠ lower k)) = ks.map lower := by
        rw [List.filter_eq_self]
        intro y hy
        simp only [decide_eq_true_eq]
        intro he; subst he; exact nd.1 hy
      simp only [List.eraseIdx_cons_zero, List.map_cons, List.filter_cons, ne_eq,
        not_true_eq_false, decide_false, Bool.false_eq_true, if_false]
      rw [← hf]; simp
    | succ i =>
      simp at hi
      have hne : lower k ≠ lower rv := by
        intro he; apply nd.1; rw [he]
        exact List.mem_map_of_mem (List.mem_of_getElem? hi)
      simp [hne, ih i hi nd.2]

theorem coherent_step (lower : Str → Str) (s : HS) (op : Op) (hs : SafeCall lower op)
    (hc : Coherent lower s) : Coherent lower (step lower s op) := by
  cases op with
  | add h => exact coherent_update lower [h] (s, false) hc
  | remove h => exact coherent_remove lower s h hs hc
  | discard h => exact coherent_remove lower s h hs hc
  | update l => exact coherent_update lower l (s, false) hc
  | delIdx i =>
    simp only [step, delIdx]
    split
    · exact hc
    · rename_i rv hi
      obtain ⟨e, nd⟩ := hc
      have := eraseIdx_map_remove lower s.headers i rv hi nd
      split
      · refine ⟨by rw [this, e], ?_⟩
        show ((s.headers.eraseIdx i).map lower).Nodup
        rw [this]; exact setRemove_nodup _ _ nd
      · rename_i hn
        exfalso; apply hn
        simp only [List.contains_eq_mem, decide_eq_true_eq, e]
        exact List.mem_map_of_mem (List.mem_of_getElem? hi)
  | setIdx i v => exact absurd hs id
  | clear => exact ⟨rfl, by simp [step]⟩

theorem coherent_init (lower : Str → Str) (hs : List Str) (nd : (hs.map lower).Nodup) :
    Coherent lower (init lower hs) := by
  refine ⟨?_, nd⟩
  have : ∀ (acc l : List Str), (acc ++ l.map lower).Nodup →
      l.foldl (fun s x => setAdd s (lower x)) acc = acc ++ l.map lower := by
    intro acc l
    induction l generalizing acc with
    | nil => simp
    | cons x xs ih =>
      intro h
      simp only [List.foldl_cons, List.map_cons]
      have hx : lower x ∉ acc := by
        rw [List.nodup_append] at h
        intro hm; exact h.2.2 _ hm (lower x) (by simp) rfl
      rw [show setAdd acc (lower x) = acc ++ [lower x] by simp [setAdd, hx]]
      rw [ih _ (by simpa using h)]; simp
  simpa [init] using this [] hs (by simpa using nd)

end HSet

/-- C10 (refutation).  After removing a name that is not written in lower case, membership
and iteration disagree: the name is no longer a member but is still listed and
serialised. -/
theorem C10_coherence_false :
    let s := run asciiLower (init asciiLower [s%"Foo"]) [.remove s%"Foo"]
    contains asciiLower s s%"Foo" = false ∧ s.headers = [s%"Foo"] ∧ toHeader s = s%"Foo" ∧
      len s ≠ s.headers.length := by decide

/-- C10.  For a set built from names distinct up to case and every history of add, update,
clear, index deletion and of remove/discard with lower-case arguments: membership is
exactly being listed up to case, `len` is the number of listed names, and no name is
listed twice. -/
theorem C10_coherent_partial (lower : Str → Str) (hs : List Str) (nd : (hs.map lower).Nodup)
    (ops : List Op) (hops : ∀ op ∈ ops, HSet.SafeCall lower op) :
    (∀ x, contains lower (run lower (init lower hs) ops) x = true ↔
      ∃ h ∈ (run lower (init lower hs) ops).headers, lower h = lower x) ∧
    len (run lower (init lower hs) ops) = (run lower (init lower hs) ops).headers.length ∧
    ((run lower (init lower hs) ops).headers.map lower).Nodup := by
  have key : ∀ s, HSet.Coherent lower s → HSet.Coherent lower (run lower s ops) := by
    induction ops with
    | nil => intro s h; exact h
    | cons op ops ih =>
      intro s h
      exact ih (fun o ho => hops o (by simp [ho])) _ (HSet.coherent_step lower s op (hops op (by simp)) h)
  obtain ⟨e, n⟩ := key _ (HSet.coherent_init lower hs nd)
  refine ⟨?_, ?_, n⟩
  · intro x; simp [contains, e]
  · simp [len, e]

example : ∀ op ∈ [Op.add s%"Bar", .remove s%"foo", .update [s%"BAR", s%"x"]],
    HSet.SafeCall asciiLower op := by simp [HSet.SafeCall, asciiLower]
example : (run asciiLower (init asciiLower [s%"Foo"])
    [.add s%"Bar", .remove s%"foo", .update [s%"BAR", s%"x"]]).headers = [s%"Bar", s%"x"] := by decide

/-- The abstract set of folded names. -/
def HSet.specStep (lower : Str → Str) (m : Str → Bool) : Op → (Str → Bool)
  | .add h => fun x => m x || x == lower h
  | .remove h => fun x => m x && x != lower h
  | .discard h => fun x => m x && x != lower h
  | .update hs => fun x => m x || hs.any (fun h => x == lower h)
  | .clear => fun _ => false
  | .delIdx _ => m
  | .setIdx _ _ => m

/-- C10, membership alone is right for every history of named calls, also for removals in
any case. -/
theorem C10_membership (lower : Str → Str) (s : HS) (ops : List Op)
    (hops : ∀ op ∈ ops, (∀ i, op ≠ .delIdx i) ∧ (∀ i v, op ≠ .setIdx i v)) (m : Str → Bool)
    (h : ∀ x, contains lower s x = m (lower x)) :
    ∀ x, contains lower (run lower s ops) x = (ops.foldl (HSet.specStep lower) m) (lower x) := by
  have hup : ∀ (hs : List Str) (s : HS × Bool) (x : Str),
      ((hs.foldl (updateOne lower) s).1.set.contains x) =
        (s.1.set.contains x || hs.any (fun h => x == lower h)) := by
    intro hs
    induction hs with
    | nil => simp
    | cons h hs ih =>
      intro s x
      simp only [List.foldl_cons, ih, List.any_cons]
      unfold updateOne
      split
      · rename_i hc
        by_cases hx : x = lower h
        · subst hx; simp at hc; simp [hc]
        · have : (x == lower h) = false := by simpa using hx
          simp [this]
      · rename_i hc
        have hc' : lower h ∉ s.1.set := by simpa using hc
        simp [setAdd, hc', Bool.or_assoc]
        cases hs.any (fun h => x == lower h) <;> by_cases hx : x = lower h <;> by_cases hm : x ∈ s.1.set <;> simp_all
  have hrm : ∀ (s : HS) (h x : Str), ((remove lower s h).1.set.contains x) =
      (s.set.contains x && x != lower h) := by
    intro s h x
    unfold remove
    split
    · simp only [setRemove]
      by_cases hx : x = lower h <;> simp [hx]
    · rename_i hc
      have hc' : lower h ∉ s.set := by simpa using hc
      by_cases hx : x = lower h
      · subst hx; simp [hc']
      · simp [hx]
  induction ops generalizing s m with
  | nil => exact h
  | cons op ops ih =>
    apply ih _ (fun o ho => hops o (by simp [ho]))
    intro x
    have hop := hops op (by simp)
    simp only [contains] at h
    cases op with
    | add a => simp only [step, contains, update, hup, h, HSet.specStep]; simp
    | remove a => simp only [step, contains, hrm, h, HSet.specStep]
    | discard a => simp only [step, contains, HeaderSet.discard, hrm, h, HSet.specStep]
    | update hs => simp only [step, contains, update, hup, h, HSet.specStep]
    | delIdx i => exact absurd rfl (hop.1 i)
    | setIdx i v => exact absurd rfl (hop.2 i v)
    | clear => simp [step, contains, HSet.specStep]

/-- C66.  Every call that changes a `HeaderSet` notifies its observer, and calls that raise
do not. -/
theorem C66_notified_on_change (lower : Str → Str) (s : HS) (op : Op)
    (h : notifies lower s op = false) (hdel : ∀ i, op ≠ .delIdx i) : step lower s op = s := by
  have hup : ∀ (hs : List Str) (s : HS × Bool), (hs.foldl (updateOne lower) s).2 = false →
      hs.foldl (updateOne lower) s = s := by
    intro hs
    induction hs with
    | nil => simp
    | cons h hs ih =>
      intro s hf
      simp only [List.foldl_cons] at hf ⊢
      have h1 := ih _ hf
      rw [h1]
      rw [h1] at hf
      unfold updateOne at *
      split at hf
      · rename_i hc; rw [if_pos hc]
      · simp at hf
  cases op with
  | add a =>
    simp only [notifies, step, update] at *
    rw [hup _ _ h]
  | remove a =>
    simp only [notifies, step, remove] at *
    split at h
    · simp [Except.toOption] at h
    · rename_i hc; rw [if_neg hc]
  | discard a =>
    simp only [notifies, step, HeaderSet.discard, remove] at *
    split at h
    · simp [Except.toOption] at h
    · rename_i hc; rw [if_neg hc]
  | update hs =>
    simp only [notifies, step, update] at *
    rw [hup _ _ h]
  | delIdx i => exact absurd rfl (hdel i)
  | setIdx i v =>
    simp only [notifies, step, setIdx] at *
    split at h
    · rfl
    · rename_i old _
      by_cases hc : s.set.contains (lower old) = true
      · rw [if_pos hc] at h; simp [Except.toOption] at h
      · simp only [if_neg hc]
  | clear => simp [notifies] at h

/-- C66 (limit).  Index deletion on an incoherent set changes the list and then raises
without notifying. -/
theorem C66_delIdx_limit :
    ∃ s : HS, ∃ i, notifies asciiLower s (.delIdx i) = false ∧ step asciiLower s (.delIdx i) ≠ s :=
  ⟨run asciiLower (init asciiLower [s%"Foo"]) [.remove s%"Foo"], 0, by decide, by decide⟩

end Verif.Props
