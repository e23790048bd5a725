import Verif.Model.MultiDict
import Verif.Spec.ListMap
/-! Property theorems C24-C25: `MultiDict`. -/
namespace Verif.Props
open Verif Verif.MD
variable {K V : Type} [DecidableEq K]

/-- The first value, or the `IndexError` of `l[0]`. -/
def firstOf {K V : Type} (f : V → Ret K V) : List V → Except PyErr (Ret K V)
  | v :: _ => .ok (f v)
  | [] => .error .indexError

/-- Specification of the calls on the abstract map. -/
def LMap.call (m : LMap K V) : Op K V → LMap K V × Except PyErr (Ret K V)
  | .setitem k v => (m.put k [v], .ok .unit)
  | .add k v => (m.put k (m.val k ++ [v]), .ok .unit)
  | .setlist k vs => (m.put k vs, .ok .unit)
  | .setdefault k v =>
    if k ∈ m.order then (m, firstOf .val (m.val k)) else (m.put k [v], .ok (.val v))
  | .setlistdefault k vs =>
    if k ∈ m.order then (m, .ok (.vals (m.val k))) else (m.put k vs, .ok (.vals vs))
  | .update ps => (m.addAll ps, .ok .unit)
  | .pop k => if k ∈ m.order then (m.drop k, firstOf .val (m.val k)) else (m, .error .keyError)
  | .popDefault k v => if k ∈ m.order then (m.drop k, firstOf .val (m.val k)) else (m, .ok (.val v))
  | .popitem =>
    match m.order.getLast? with
    | some k => (m.drop k, firstOf (.item k) (m.val k))
    | none => (m, .error .keyError)
  | .poplist k => (if k ∈ m.order then m.drop k else m, .ok (.vals (m.val k)))
  | .popitemlist =>
    match m.order.getLast? with
    | some k => (m.drop k, .ok (.itemlist k (m.val k)))
    | none => (m, .error .keyError)
  | .delitem k => if k ∈ m.order then (m.drop k, .ok .unit) else (m, .error .keyError)
  | .clear => (LMap.empty, .ok .unit)
  | .alias k vs => (if k ∈ m.order then m.put k vs else m, .ok .unit)

/-- A `MultiDict` and an abstract map hold the same data. -/
structure Rep (d : MDict K V) (m : LMap K V) : Prop where
  nodup : m.order.Nodup
  keys : Dict.keys d = m.order
  vals : ∀ k, getlist d k = m.val k

namespace MDAux

theorem get_iff {d : MDict K V} {m : LMap K V} (h : Rep d m) (k : K) :
    Dict.get d k = if k ∈ m.order then some (m.val k) else none := by
  split
  · rename_i hk
    rw [← h.keys] at hk
    cases hg : Dict.get d k with
    | none => exact absurd hk (Dict.get_eq_none.1 hg)
    | some l => rw [← h.vals k]; simp [getlist, hg]
  · rename_i hk
    rw [← h.keys] at hk
    exact Dict.get_eq_none.2 hk

theorem has_iff {d : MDict K V} {m : LMap K V} (h : Rep d m) (k : K) :
    Dict.has d k = decide (k ∈ m.order) := by
  rw [Bool.eq_iff_iff, Dict.has_iff, h.keys]; simp

theorem rep_put {d : MDict K V} {m : LMap K V} (h : Rep d m) (k : K) (vs : List V) :
    Rep (Dict.set d k vs) (m.put k vs) := by
  have hk := Dict.keys_set d k vs
  refine ⟨?_, ?_, ?_⟩
  · have := Dict.nodup_set (by rw [h.keys]; exact h.nodup) k vs
    rw [hk, h.keys] at this
    exact this
  · rw [hk, h.keys]; rfl
  · intro x
    simp only [getlist, Dict.get_set, LMap.put]
    split
    · rfl
    · exact h.vals x

theorem rep_drop {d : MDict K V} {m : LMap K V} (h : Rep d m) (k : K) :
    Rep (Dict.del d k) (m.drop k) := by
  have hn : (Dict.keys d).Nodup := by rw [h.keys]; exact h.nodup
  refine ⟨h.nodup.filter _, ?_, ?_⟩
  · rw [Dict.keys_del, h.keys]
    rw [h.nodup.erase_eq_filter]
    simp only [LMap.drop]
    apply List.filter_congr
    intro x _
    by_cases hx : x = k <;> simp [hx]
  · intro x
    simp only [getlist, Dict.get_del hn, LMap.drop]
    split
    · rfl
    · exact h.vals x

theorem rep_addAll (ps : List (K × V)) : ∀ {d : MDict K V} {m : LMap K V}, Rep d m →
    Rep (ps.foldl (fun d p => MD.add d p.1 p.2) d) (m.addAll ps) := by
  induction ps with
  | nil => intro d m h; exact h
  | cons p ps ih =>
    intro d m h
    simp only [List.foldl_cons, LMap.addAll]
    apply ih
    have := rep_put h p.1 (m.val p.1 ++ [p.2])
    rw [← h.vals] at this ⊢
    exact this

theorem rep_empty : Rep ([] : MDict K V) LMap.empty := ⟨by simp [LMap.empty], rfl, fun _ => rfl⟩

theorem dropLast_del {d : MDict K V} (h : (Dict.keys d).Nodup) {k : K} {l : List V}
    (hl : d.getLast? = some (k, l)) : d.dropLast = Dict.del d k := by
  induction d with
  | nil => simp at hl
  | cons p d ih =>
    obtain ⟨a, w⟩ := p
    cases d with
    | nil => simp at hl; simp [Dict.del, hl]
    | cons q d =>
      simp only [List.getLast?_cons_cons] at hl
      have hne : a ≠ k := by
        rintro rfl
        have := List.mem_of_getLast? hl
        simp only [Dict.keys_cons, List.nodup_cons] at h
        apply h.1
        rw [← Dict.keys_cons]
        exact List.mem_map.2 ⟨_, this, rfl⟩
      simp only [Dict.keys_cons, List.nodup_cons] at h
      have := ih (by simpa using h.2) hl
      simp [List.dropLast_cons_cons, this, Dict.del, hne]

theorem idx0_firstOf (f : V → Ret K V) (l : List V) : (idx0 l).map f = firstOf f l := by
  cases l <;> rfl

theorem getLast_keys {d : MDict K V} : (Dict.keys d).getLast? = d.getLast?.map (·.1) := by
  simp [Dict.keys]

theorem step_rep {d : MDict K V} {m : LMap K V} (h : Rep d m) (o : Op K V) :
    (step d o).2 = (LMap.call m o).2 ∧ Rep (step d o).1 (LMap.call m o).1 := by
  have hn : (Dict.keys d).Nodup := by rw [h.keys]; exact h.nodup
  cases o with
  | setitem k v => exact ⟨rfl, rep_put h k [v]⟩
  | add k v =>
    refine ⟨rfl, ?_⟩
    have := rep_put h k (m.val k ++ [v])
    rw [← h.vals] at this
    simp only [step, MD.add, LMap.call]
    rw [← h.vals]
    exact this
  | setlist k vs => exact ⟨rfl, rep_put h k vs⟩
  | setdefault k v =>
    simp only [step, LMap.call, has_iff h]
    by_cases hk : k ∈ m.order
    · simp only [hk, decide_true, if_true]
      refine ⟨?_, h⟩
      simp only [getitem, get_iff h, hk, if_true]
      exact idx0_firstOf _ _
    · simp only [hk, decide_false, if_false]
      exact ⟨rfl, rep_put h k [v]⟩
  | setlistdefault k vs =>
    simp only [step, LMap.call, get_iff h]
    by_cases hk : k ∈ m.order
    · simp only [hk, if_true]; exact ⟨trivial, h⟩
    · simp only [hk, if_false]; exact ⟨trivial, rep_put h k vs⟩
  | update ps => exact ⟨rfl, rep_addAll ps h⟩
  | pop k =>
    simp only [step, LMap.call, get_iff h]
    by_cases hk : k ∈ m.order
    · simp only [hk, if_true]; exact ⟨idx0_firstOf _ _, rep_drop h k⟩
    · simp only [hk, if_false]; exact ⟨trivial, h⟩
  | popDefault k v =>
    simp only [step, LMap.call, get_iff h]
    by_cases hk : k ∈ m.order
    · simp only [hk, if_true]; exact ⟨idx0_firstOf _ _, rep_drop h k⟩
    · simp only [hk, if_false]; exact ⟨trivial, h⟩
  | popitem =>
    simp only [step, LMap.call, ← h.keys, getLast_keys]
    cases hl : d.getLast? with
    | none => exact ⟨rfl, h⟩
    | some p =>
      obtain ⟨k, l⟩ := p
      have hg : getlist d k = l := by
        simp [getlist, Dict.get_of_mem hn (List.mem_of_getLast? hl)]
      simp only [Option.map_some]
      rw [dropLast_del hn hl]
      refine ⟨?_, rep_drop h k⟩
      rw [← h.vals k, hg]; exact idx0_firstOf _ _
  | poplist k =>
    simp only [step, LMap.call]
    rw [get_iff h]
    by_cases hk : k ∈ m.order
    · simp only [hk, if_true]; exact ⟨trivial, rep_drop h k⟩
    · simp only [hk, if_false]
      refine ⟨?_, h⟩
      rw [← h.vals k]
      simp [getlist, get_iff h, hk]
  | popitemlist =>
    simp only [step, LMap.call, ← h.keys, getLast_keys]
    cases hl : d.getLast? with
    | none => exact ⟨rfl, h⟩
    | some p =>
      obtain ⟨k, l⟩ := p
      have hg : getlist d k = l := by
        simp [getlist, Dict.get_of_mem hn (List.mem_of_getLast? hl)]
      simp only [Option.map_some]
      rw [dropLast_del hn hl]
      refine ⟨?_, rep_drop h k⟩
      rw [← h.vals k, hg]
  | delitem k =>
    simp only [step, LMap.call, has_iff h]
    by_cases hk : k ∈ m.order
    · simp only [hk, decide_true, if_true]; exact ⟨trivial, rep_drop h k⟩
    · simp only [hk, decide_false, if_false]; exact ⟨rfl, h⟩
  | clear => exact ⟨rfl, rep_empty⟩
  | alias k vs =>
    simp only [step, LMap.call, has_iff h]
    by_cases hk : k ∈ m.order
    · simp only [hk, decide_true, if_true]; exact ⟨trivial, rep_put h k vs⟩
    · simp only [hk, decide_false, if_false]; exact ⟨rfl, h⟩

theorem dict_eq {d : MDict K V} {m : LMap K V} (h : Rep d m) :
    d = m.order.map fun k => (k, m.val k) := by
  have hn : (Dict.keys d).Nodup := by rw [h.keys]; exact h.nodup
  have := Dict.eq_map_keys hn
  rw [h.keys] at this
  rw [this]
  have aux : ∀ l : List K, (∀ k ∈ l, k ∈ m.order) →
      (l.filterMap fun k => (Dict.get d k).map fun v => (k, v)) = l.map fun k => (k, m.val k) := by
    intro l
    induction l with
    | nil => simp
    | cons a l ih =>
      intro hl
      simp only [List.filterMap_cons, get_iff h, hl a (by simp), if_true, Option.map_some, List.map_cons]
      have := ih (fun k hk => hl k (by simp [hk]))
      simp only [get_iff h] at this
      rw [this]
  exact aux _ (fun k hk => hk)

end MDAux

/-- The abstract map after a history of calls. -/
def LMap.calls (m : LMap K V) (ops : List (Op K V)) : LMap K V := ops.foldl (fun m o => (LMap.call m o).1) m

/-- C24, construction: from any sequence of pairs, and from any plain dict. -/
theorem C24_init (ps : List (K × V)) (dd : List (K × (V ⊕ List V))) :
    Rep (ofPairs ps) (LMap.addAll LMap.empty ps) ∧
    Rep (ofDict dd) (dd.foldl (fun m p => m.put p.1 (Sum.elim (fun v => [v]) id p.2)) LMap.empty) := by
  refine ⟨MDAux.rep_addAll ps MDAux.rep_empty, ?_⟩
  unfold ofDict
  have aux : ∀ {d : MDict K V} {m : LMap K V}, Rep d m →
      Rep (dd.foldl (fun d p => Dict.set d p.1 (match p.2 with | .inl v => [v] | .inr l => l)) d)
        (dd.foldl (fun m p => m.put p.1 (Sum.elim (fun v => [v]) id p.2)) m) := by
    induction dd with
    | nil => intro d m h; exact h
    | cons p dd ih =>
      intro d m h
      simp only [List.foldl_cons]
      apply ih
      obtain ⟨k, v | l⟩ := p
      · exact MDAux.rep_put h k [v]
      · exact MDAux.rep_put h k l
  exact aux MDAux.rep_empty

/-- C24, histories: after any history of calls the `MultiDict` holds what the abstract map
holds, and the next call, whatever it is, returns or raises what the abstract map says. -/
theorem C24_refines {d : MDict K V} {m : LMap K V} (h : Rep d m) (ops : List (Op K V)) (o : Op K V) :
    Rep (runOps d ops) (LMap.calls m ops) ∧
    (step (runOps d ops) o).2 = (LMap.call (LMap.calls m ops) o).2 := by
  have aux : Rep (runOps d ops) (LMap.calls m ops) := by
    induction ops generalizing d m with
    | nil => exact h
    | cons p ops ih => exact ih (MDAux.step_rep h p).2
  exact ⟨aux, (MDAux.step_rep aux o).1⟩

/-- C24, reading: every view of a `MultiDict` is the corresponding projection of the
abstract map. -/
theorem C24_views {d : MDict K V} {m : LMap K V} (h : Rep d m) :
    (∀ k, getlist d k = m.val k) ∧
    (∀ k, Dict.has d k = true ↔ k ∈ m.order) ∧
    (∀ k, k ∉ m.order → getitem d k = .error .keyError ∧ m.val k = []) ∧
    (∀ k v vs, k ∈ m.order → m.val k = v :: vs → getitem d k = .ok v) ∧
    (∀ {W : Type} k (w : W) conv, k ∉ m.order → MD.get d k w conv = .ok w) ∧
    (∀ {W : Type} k v vs (w : W) conv, k ∈ m.order → m.val k = v :: vs →
      MD.get d k w conv = .ok ((conv v).getD w)) ∧
    (∀ {W : Type} k (conv : V → Option W), getlistConv d k conv = (m.val k).flatMap fun v => (conv v).toList) ∧
    Dict.keys d = m.order ∧ len d = m.order.length ∧
    lists d = m.order.map (fun k => (k, m.val k)) ∧
    listvalues d = m.order.map m.val ∧
    itemsMulti d = m.order.flatMap (fun k => (m.val k).map fun v => (k, v)) ∧
    (∀ f : K → V, (∀ k ∈ m.order, ∃ vs, m.val k = f k :: vs) →
      items d = .ok (m.order.map fun k => (k, f k)) ∧ values d = .ok (m.order.map f)) := by
  have hg := MDAux.get_iff h
  have hd := MDAux.dict_eq h
  have habs : ∀ k, k ∉ m.order → getitem d k = .error .keyError ∧ m.val k = [] := by
    intro k hk
    constructor
    · simp [getitem, hg, hk]
    · rw [← h.vals k]; simp [getlist, hg, hk]
  have hpres : ∀ k v vs, k ∈ m.order → m.val k = v :: vs → getitem d k = .ok v := by
    intro k v vs hk hv
    simp [getitem, hg, hk, hv, idx0]
  refine ⟨h.vals, fun k => by rw [Dict.has_iff, h.keys], habs, hpres, ?_, ?_, ?_, h.keys, ?_, ?_, ?_, ?_, ?_⟩
  · intro W k w conv hk
    simp [MD.get, (habs k hk).1]
  · intro W k v vs w conv hk hv
    simp [MD.get, hpres k v vs hk hv]
  · intro W k conv
    rw [getlistConv, h.vals k]
    generalize m.val k = l
    induction l with
    | nil => rfl
    | cons a l ih => cases hc : conv a <;> simp [List.filterMap_cons, hc, ih]
  · rw [len, ← h.keys]; simp [Dict.keys]
  · exact hd
  · unfold listvalues; rw [hd]; simp [Function.comp_def]
  · unfold itemsMulti; rw [hd]; simp [List.flatMap_map]
  · intro f hf
    unfold items values
    rw [hd]
    clear hd hg habs hpres h
    generalize m.order = l at hf ⊢
    induction l with
    | nil => exact ⟨rfl, rfl⟩
    | cons a l ih =>
      obtain ⟨i1, i2⟩ := ih (fun k hk => hf k (by simp [hk]))
      obtain ⟨vs, hv⟩ := hf a (by simp)
      have e : idx0 (m.val a) = .ok (f a) := by rw [hv]; rfl
      simp only [List.map_cons, List.mapM_cons, i1, i2, e]
      exact ⟨rfl, rfl⟩

example : (Rep (ofPairs [('a', 1), ('b', 2), ('a', 3)]) (LMap.addAll LMap.empty [('a', 1), ('b', 2), ('a', 3)])) ∧
    runOps (ofPairs [('a', 1), ('b', 2), ('a', 3)]) [.pop 'a', .add 'c' 4, .setdefault 'b' 9, .setlist 'd' [5, 6]] =
      [('b', [2]), ('c', [4]), ('d', [5, 6])] := ⟨(C24_init _ []).1, by decide⟩

/-! ### C25 -/

/-- Calls that cannot store an empty list of values. -/
def storesValue : Op K V → Prop
  | .setlist _ vs => vs ≠ []
  | .setlistdefault _ vs => vs ≠ []
  | .alias _ vs => vs ≠ []
  | _ => True

namespace MDAux

theorem mem_set {d : MDict K V} {k : K} {vs : List V} {p : K × List V} (hp : p ∈ Dict.set d k vs) :
    p ∈ d ∨ p.2 = vs := by
  induction d with
  | nil => simp [Dict.set] at hp; simp [hp]
  | cons q d ih =>
    obtain ⟨a, w⟩ := q
    simp only [Dict.set] at hp
    split at hp
    · rcases List.mem_cons.1 hp with rfl | hp
      · right; rfl
      · left; simp [hp]
    · rcases List.mem_cons.1 hp with rfl | hp
      · left; simp
      · rcases ih hp with h | h
        · left; simp [h]
        · right; exact h

theorem mem_del {d : MDict K V} {k : K} {p : K × List V} (hp : p ∈ Dict.del d k) : p ∈ d := by
  induction d with
  | nil => simp [Dict.del] at hp
  | cons q d ih =>
    obtain ⟨a, w⟩ := q
    simp only [Dict.del] at hp
    split at hp
    · simp [hp]
    · rcases List.mem_cons.1 hp with rfl | hp
      · simp
      · simp [ih hp]

def Full (d : MDict K V) : Prop := ∀ p ∈ d, p.2 ≠ []

theorem full_set {d : MDict K V} (h : Full d) {k : K} {vs : List V} (hv : vs ≠ []) :
    Full (Dict.set d k vs) := by
  intro p hp
  rcases mem_set hp with hp | hp
  · exact h p hp
  · rw [hp]; exact hv

theorem full_del {d : MDict K V} (h : Full d) {k : K} : Full (Dict.del d k) := fun p hp => h p (mem_del hp)

theorem full_foldl (ps : List (K × V)) : ∀ {d : MDict K V}, Full d →
    Full (ps.foldl (fun d p => MD.add d p.1 p.2) d) := by
  induction ps with
  | nil => intro d h; exact h
  | cons p ps ih => intro d h; exact ih (full_set h (by simp))

theorem full_step {d : MDict K V} (h : Full d) {o : Op K V} (ho : storesValue o) : Full (step d o).1 := by
  have hdl : Full d.dropLast := fun p hp => h p (List.dropLast_subset _ hp)
  cases o <;> simp only [step]
  case setitem k v => exact full_set h (by simp)
  case add k v => exact full_set h (by simp)
  case setlist k vs => exact full_set h ho
  case setdefault k v => split; exact h; exact full_set h (by simp)
  case setlistdefault k vs => split; exact h; exact full_set h ho
  case update ps => exact full_foldl ps h
  case pop k => split; exact full_del h; exact h
  case popDefault k v => split; exact full_del h; exact h
  case popitem => split; exact hdl; exact h
  case poplist k => split; exact full_del h; exact h
  case popitemlist => split; exact hdl; exact h
  case delitem k => split; exact full_del h; exact h
  case clear => intro p hp; simp at hp
  case alias k vs => split; exact full_set h ho; exact h

theorem mapM_ok {α β : Type} (f : α → Except PyErr β) (l : List α) (h : ∀ a ∈ l, ∃ b, f a = .ok b) :
    ∃ bs, l.mapM f = .ok bs := by
  induction l with
  | nil => exact ⟨[], rfl⟩
  | cons a l ih =>
    obtain ⟨b, hb⟩ := h a (by simp)
    obtain ⟨bs, hbs⟩ := ih (fun x hx => h x (by simp [hx]))
    exact ⟨b :: bs, by simp [List.mapM_cons, hb, hbs]; rfl⟩

end MDAux

/-- C25 fails: `setlist(k, [])` (and `setlistdefault(k)`, or a plain dict with an empty
list) leaves a key that is `in` the dictionary but raises `IndexError`. -/
theorem C25_present_false :
    ∃ d : MDict Char Nat, d = runOps [] [.setlist 'a' []] ∧ Dict.has d 'a' = true ∧
      getitem d 'a' = .error .indexError ∧ items d = .error .indexError ∧
      MD.get d 'a' 0 some = .error .indexError := by
  exact ⟨[('a', [])], by decide⟩

/-- C25, what holds: starting from pairs, a history in which no empty list is stored keeps
every present key readable, and iteration never raises.  Conversely, a present key is
unreadable exactly if its list is empty. -/
theorem C25_present_partial (ps : List (K × V)) (ops : List (Op K V)) (h : ∀ o ∈ ops, storesValue o) :
    (∀ k, Dict.has (runOps (ofPairs ps) ops) k = true →
      ∃ v vs, getlist (runOps (ofPairs ps) ops) k = v :: vs ∧
        getitem (runOps (ofPairs ps) ops) k = .ok v) ∧
    (∃ l, items (runOps (ofPairs ps) ops) = .ok l) ∧ (∃ l, values (runOps (ofPairs ps) ops) = .ok l) ∧
    (∀ (d : MDict K V) k, Dict.has d k = true →
      (getitem d k = .error .indexError ↔ getlist d k = [])) := by
  have hf : ∀ (ops : List (Op K V)) {d : MDict K V}, MDAux.Full d → (∀ o ∈ ops, storesValue o) →
      MDAux.Full (runOps d ops) := by
    intro ops
    induction ops with
    | nil => intro d h _; exact h
    | cons o ops ih =>
      intro d hd ho
      exact ih (MDAux.full_step hd (ho o (by simp))) (fun x hx => ho x (by simp [hx]))
  have hfull := hf ops (MDAux.full_foldl ps (d := []) (by intro p hp; simp at hp)) h
  have hfull : MDAux.Full (runOps (ofPairs ps) ops) := hfull
  refine ⟨?_, ?_, ?_, ?_⟩
  · intro k hk
    unfold Dict.has at hk
    cases hg : Dict.get (runOps (ofPairs ps) ops) k with
    | none => rw [hg] at hk; simp at hk
    | some l =>
      have := hfull _ (Dict.mem_of_get hg)
      cases l with
      | nil => exact absurd rfl this
      | cons v vs => exact ⟨v, vs, by simp [getlist, hg], by simp [getitem, hg, idx0]⟩
  · apply MDAux.mapM_ok
    intro p hp
    have := hfull p hp
    obtain ⟨k, l⟩ := p
    cases l with
    | nil => exact absurd rfl this
    | cons v vs => exact ⟨(k, v), rfl⟩
  · apply MDAux.mapM_ok
    intro p hp
    have := hfull p hp
    obtain ⟨k, l⟩ := p
    cases l with
    | nil => exact absurd rfl this
    | cons v vs => exact ⟨v, rfl⟩
  · intro d k hk
    unfold Dict.has at hk
    cases hg : Dict.get d k with
    | none => rw [hg] at hk; simp at hk
    | some l => cases l <;> simp [getitem, getlist, hg, idx0]

example : ∀ o ∈ [Op.setitem 'a' 1, .setlist 'b' [2, 3], .pop 'a'], storesValue o := by
  simp [storesValue]

end Verif.Props
