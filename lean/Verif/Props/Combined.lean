import Verif.Model.Combined
import Verif.Spec.Log
import Verif.Props.MultiDict
import Verif.Props.OrderedMultiDict
/-! Property theorems C27-C30: combined, immutable and observed dictionaries. -/
namespace Verif.Props
open Verif Verif.MD
variable {K V : Type} [DecidableEq K]

namespace CMDAux

def addKey (ks : List K) (k : K) : List K := if k ∈ ks then ks else ks ++ [k]

theorem mem_addKeys (l : List K) : ∀ (ks : List K) x, x ∈ l.foldl addKey ks ↔ x ∈ ks ∨ x ∈ l := by
  induction l with
  | nil => intro ks x; simp
  | cons a l ih =>
    intro ks x
    simp only [List.foldl_cons, ih, addKey, List.mem_cons]
    split
    · rename_i h
      constructor
      · rintro (h' | h') <;> simp [h']
      · rintro (h' | rfl | h')
        · exact .inl h'
        · exact .inl h
        · exact .inr h'
    · simp only [List.mem_append, List.mem_singleton]
      grind

theorem nodup_addKeys (l : List K) : ∀ (ks : List K), ks.Nodup → (l.foldl addKey ks).Nodup := by
  induction l with
  | nil => intro ks h; exact h
  | cons a l ih =>
    intro ks h
    apply ih
    unfold addKey
    split
    · exact h
    · rename_i hk
      rw [List.nodup_append]
      refine ⟨h, by simp, ?_⟩
      intro x hx y hy
      simp at hy; subst hy
      rintro rfl; exact hk hx

theorem mem_keysImpl (c : CMD.CDict K V) : ∀ (ks : List K) x,
    x ∈ c.foldl (fun ks d => (Dict.keys d).foldl addKey ks) ks ↔ x ∈ ks ∨ ∃ d ∈ c, x ∈ Dict.keys d := by
  induction c with
  | nil => intro ks x; simp
  | cons d c ih =>
    intro ks x
    simp only [List.foldl_cons, ih, mem_addKeys, List.mem_cons]
    grind

theorem nodup_keysImpl (c : CMD.CDict K V) : ∀ (ks : List K), ks.Nodup →
    (c.foldl (fun ks d => (Dict.keys d).foldl addKey ks) ks).Nodup := by
  induction c with
  | nil => intro ks h; exact h
  | cons d c ih => intro ks h; exact ih _ (nodup_addKeys _ _ h)

theorem has_iff (c : CMD.CDict K V) (k : K) : CMD.has c k = true ↔ ∃ d ∈ c, k ∈ Dict.keys d := by
  simp [CMD.has, Dict.has_iff]

/-- One dict's contribution to `lists()`. -/
def extend (rv : List (K × List V)) (p : K × List V) : List (K × List V) :=
  Dict.set rv p.1 ((Dict.get rv p.1).getD [] ++ p.2)

theorem keys_extend (l : MDict K V) : ∀ rv, Dict.keys (l.foldl extend rv) =
    (Dict.keys l).foldl addKey (Dict.keys rv) := by
  induction l with
  | nil => intro rv; rfl
  | cons p l ih =>
    intro rv
    simp only [List.foldl_cons, ih, Dict.keys_cons]
    congr 1
    simp [extend, Dict.keys_set, addKey]

theorem get_extend (l : MDict K V) (hn : (Dict.keys l).Nodup) (k : K) : ∀ rv,
    (Dict.get (l.foldl extend rv) k).getD [] = (Dict.get rv k).getD [] ++ MD.getlist l k := by
  induction l with
  | nil => intro rv; simp [MD.getlist]
  | cons p l ih =>
    intro rv
    obtain ⟨a, vs⟩ := p
    simp only [Dict.keys_cons, List.nodup_cons] at hn
    simp only [List.foldl_cons, ih hn.2]
    simp only [extend, Dict.get_set, MD.getlist, Dict.get]
    by_cases hk : k = a
    · subst hk
      simp [Dict.get_eq_none.2 hn.1]
    · simp [hk, Ne.symm hk]

theorem keys_lists (c : CMD.CDict K V) : ∀ rv, Dict.keys (c.foldl (fun rv d => (MD.lists d).foldl extend rv) rv) =
    c.foldl (fun ks d => (Dict.keys d).foldl addKey ks) (Dict.keys rv) := by
  induction c with
  | nil => intro rv; rfl
  | cons d c ih =>
    intro rv
    simp only [List.foldl_cons]
    rw [ih, show MD.lists d = d from rfl, keys_extend]

theorem get_lists (c : CMD.CDict K V) (hn : ∀ d ∈ c, (Dict.keys d).Nodup) (k : K) : ∀ rv,
    (Dict.get (c.foldl (fun rv d => (MD.lists d).foldl extend rv) rv) k).getD [] =
      (Dict.get rv k).getD [] ++ CMD.getlist c k := by
  induction c with
  | nil => intro rv; simp [CMD.getlist]
  | cons d c ih =>
    intro rv
    have h1 := get_extend d (hn d (by simp)) k rv
    simp only [List.foldl_cons]
    rw [ih (fun x hx => hn x (by simp [hx])), show MD.lists d = d from rfl, h1]
    simp [CMD.getlist]

theorem getlist_absent {d : MDict K V} {k : K} (h : k ∉ Dict.keys d) : MD.getlist d k = [] := by
  simp [MD.getlist, Dict.get_eq_none.2 h]

theorem valuesFor_itemsMulti {d : MDict K V} (h : (Dict.keys d).Nodup) (k : K) :
    Log.valuesFor (MD.itemsMulti d) k = MD.getlist d k := by
  induction d with
  | nil => rfl
  | cons p d ih =>
    obtain ⟨a, vs⟩ := p
    simp only [Dict.keys_cons, List.nodup_cons] at h
    have ih := ih h.2
    simp only [Log.valuesFor, MD.itemsMulti, MD.getlist] at ih ⊢
    simp only [List.flatMap_cons, List.filter_append, List.map_append, ih, Dict.get, List.filter_map,
      List.map_map]
    by_cases hk : a = k
    · subst hk
      have h1 : vs.filter ((fun x : K × V => decide (x.1 = a)) ∘ fun v => (a, v)) = vs := by
        rw [List.filter_eq_self]; intro v _; simp
      have h2 : ((fun x : K × V => x.2) ∘ fun v => (a, v)) = id := rfl
      rw [h1, h2]
      simp [Dict.get_eq_none.2 h.1]
    · have h1 : vs.filter ((fun x : K × V => decide (x.1 = k)) ∘ fun v => (a, v)) = [] := by
        rw [List.filter_eq_nil_iff]; intro v _; simp [hk]
      rw [h1]
      simp [hk]

theorem valuesFor_append (a b : List (K × V)) (k : K) :
    Log.valuesFor (a ++ b) k = Log.valuesFor a k ++ Log.valuesFor b k := by simp [Log.valuesFor]

theorem valuesFor_all {c : CMD.CDict K V} (h : ∀ d ∈ c, (Dict.keys d).Nodup) (k : K) :
    Log.valuesFor (CMD.itemsMulti c) k = CMD.getlist c k := by
  induction c with
  | nil => rfl
  | cons d c ih =>
    have := ih (fun x hx => h x (by simp [hx]))
    simp only [CMD.itemsMulti, CMD.getlist, List.flatMap_cons, valuesFor_append] at this ⊢
    rw [this, valuesFor_itemsMulti (h d (by simp))]

theorem getitem_first {c : CMD.CDict K V} {k : K} (hc : CMD.has c k = true)
    (hf : ∀ d ∈ c, ∀ p ∈ d, p.2 ≠ []) : ∃ v vs, CMD.getlist c k = v :: vs ∧ CMD.getitem c k = .ok v := by
  induction c with
  | nil => simp [CMD.has] at hc
  | cons d c ih =>
    simp only [CMD.getitem, CMD.getlist, List.flatMap_cons]
    by_cases hd : Dict.has d k = true
    · rw [if_pos hd]
      unfold Dict.has at hd
      cases hg : Dict.get d k with
      | none => rw [hg] at hd; simp at hd
      | some l =>
        have := hf d (by simp) _ (Dict.mem_of_get hg)
        cases l with
        | nil => exact absurd rfl this
        | cons v vs => exact ⟨v, _, by simp [MD.getlist, hg]; rfl, by simp [MD.getitem, hg, idx0]⟩
    · rw [if_neg hd]
      have hc' : CMD.has c k = true := by simpa [CMD.has, hd] using hc
      obtain ⟨v, vs, h1, h2⟩ := ih hc' (fun x hx => hf x (by simp [hx]))
      refine ⟨v, vs, ?_, h2⟩
      have : MD.getlist d k = [] := getlist_absent (by rw [← Dict.has_iff]; exact hd)
      rw [this, List.nil_append]
      exact h1

end CMDAux

/-- C27, reading.  `in`, `keys`, `len`, `getlist`, `[]`, `lists` and `items(multi=True)` of a
combined dictionary describe one and the same layered union. -/
theorem C27_views_partial (c : CMD.CDict K V) (hn : ∀ d ∈ c, (Dict.keys d).Nodup) :
    (∀ k, CMD.has c k = true ↔ ∃ d ∈ c, k ∈ Dict.keys d) ∧
    (∀ k, k ∈ CMD.keysImpl c ↔ CMD.has c k = true) ∧
    (CMD.keysImpl c).Nodup ∧ CMD.len c = (CMD.keysImpl c).length ∧
    (∀ k, CMD.getlist c k = (c.map fun d => MD.getlist d k).flatten) ∧
    (∀ k, Log.valuesFor (CMD.itemsMulti c) k = CMD.getlist c k) ∧
    Dict.keys (CMD.lists c) = CMD.keysImpl c ∧
    (∀ p ∈ CMD.lists c, p.2 = CMD.getlist c p.1) ∧
    (∀ k, CMD.has c k = false → CMD.getitem c k = .error .keyError ∧ CMD.getlist c k = []) ∧
    (∀ pre d post k, c = pre ++ d :: post → (∀ e ∈ pre, k ∉ Dict.keys e) → k ∈ Dict.keys d →
      CMD.getitem c k = MD.getitem d k) ∧
    ((∀ d ∈ c, ∀ p ∈ d, p.2 ≠ []) → ∀ k, CMD.has c k = true →
      ∃ v vs, CMD.getlist c k = v :: vs ∧ CMD.getitem c k = .ok v) := by
  have hki : CMD.keysImpl c = c.foldl (fun ks d => (Dict.keys d).foldl CMDAux.addKey ks) [] := rfl
  have hli : CMD.lists c = c.foldl (fun rv d => (MD.lists d).foldl CMDAux.extend rv) [] := rfl
  have hnd : (CMD.keysImpl c).Nodup := by rw [hki]; exact CMDAux.nodup_keysImpl c [] (by simp)
  have hkl : Dict.keys (CMD.lists c) = CMD.keysImpl c := by rw [hli, CMDAux.keys_lists, hki]; rfl
  refine ⟨CMDAux.has_iff c, ?_, hnd, rfl, ?_, CMDAux.valuesFor_all hn, hkl, ?_, ?_, ?_, ?_⟩
  · intro k
    rw [hki, CMDAux.mem_keysImpl, CMDAux.has_iff]; simp
  · intro k; simp [CMD.getlist, List.flatMap_def]
  · intro p hp
    have h1 := Dict.get_of_mem (by rw [hkl]; exact hnd) hp
    have h2 := CMDAux.get_lists c hn p.1 []
    rw [← hli, h1] at h2
    simpa using h2
  · intro k hk
    have hk' : ∀ d ∈ c, k ∉ Dict.keys d := by
      intro d hd hkd
      have := (CMDAux.has_iff c k).2 ⟨d, hd, hkd⟩
      rw [hk] at this; cases this
    clear hki hli hnd hkl hn hk
    induction c with
    | nil => exact ⟨rfl, rfl⟩
    | cons d c ih =>
      obtain ⟨i1, i2⟩ := ih (fun x hx => hk' x (by simp [hx]))
      have hd : ¬ Dict.has d k = true := by rw [Dict.has_iff]; exact hk' d (by simp)
      constructor
      · simp only [CMD.getitem]; rw [if_neg hd]; exact i1
      · simp only [CMD.getlist, List.flatMap_cons] at i2 ⊢
        rw [CMDAux.getlist_absent (hk' d (by simp)), i2]; rfl
  · rintro pre d post k rfl hpre hd
    clear hki hli hnd hkl hn
    induction pre with
    | nil => simp only [List.nil_append, CMD.getitem]; rw [if_pos (Dict.has_iff.2 hd)]
    | cons e pre ih =>
      have he : ¬ Dict.has e k = true := by rw [Dict.has_iff]; exact hpre e (by simp)
      simp only [List.cons_append, CMD.getitem]; rw [if_neg he]
      exact ih (fun x hx => hpre x (by simp [hx]))
  · intro hf k hk
    exact CMDAux.getitem_first hk hf

namespace CMDAux

theorem dedup_skip (k : K) (vs : List V) (seen : List K) (hk : k ∈ seen) (A : List (K × V)) :
    OMD.dedup seen ((vs.map fun v => (k, v)) ++ A) = OMD.dedup seen A := by
  induction vs with
  | nil => rfl
  | cons v vs ih => simp [OMD.dedup, hk, ih]

theorem dedup_items (d : MDict K V) (hf : ∀ p ∈ d, p.2 ≠ []) (A B : List (K × V))
    (hAB : ∀ seen, OMD.dedup seen A = OMD.dedup seen B) : ∃ l, MD.items d = .ok l ∧
      ∀ seen, OMD.dedup seen (l ++ A) = OMD.dedup seen (MD.itemsMulti d ++ B) := by
  induction d with
  | nil => exact ⟨[], rfl, hAB⟩
  | cons p d ih =>
    obtain ⟨l, hl, hs⟩ := ih (fun q hq => hf q (by simp [hq]))
    obtain ⟨k, vs⟩ := p
    cases vs with
    | nil => exact absurd rfl (hf (k, []) (by simp))
    | cons v vs =>
      refine ⟨(k, v) :: l, ?_, ?_⟩
      · unfold MD.items at hl ⊢
        simp only [List.mapM_cons, hl, show idx0 (v :: vs) = .ok v from rfl]
        rfl
      · intro seen
        simp only [MD.itemsMulti, List.flatMap_cons, List.map_cons, List.cons_append, List.append_assoc,
          OMD.dedup]
        by_cases hk : k ∈ seen
        · simp only [hk, if_true]
          rw [dedup_skip k vs seen hk]
          exact hs seen
        · simp only [hk, if_false]
          rw [dedup_skip k vs (k :: seen) (by simp)]
          rw [hs (k :: seen)]
          rfl

theorem items_all (c : CMD.CDict K V) (hf : ∀ d ∈ c, ∀ p ∈ d, p.2 ≠ []) : ∃ ls, c.mapM MD.items = .ok ls ∧
    ∀ seen, OMD.dedup seen ls.flatten = OMD.dedup seen (CMD.itemsMulti c) := by
  induction c with
  | nil => exact ⟨[], rfl, fun _ => rfl⟩
  | cons d c ih =>
    obtain ⟨ls, h1, h2⟩ := ih (fun q hq => hf q (by simp [hq]))
    obtain ⟨l, h3, h4⟩ := dedup_items d (hf d (by simp)) _ _ h2
    refine ⟨l :: ls, by simp only [List.mapM_cons, h1, h3]; rfl, ?_⟩
    intro seen
    simpa [CMD.itemsMulti] using h4 seen

end CMDAux

/-- C27, `items()`: the first value of every key, in order of first appearance. -/
theorem C27_items (c : CMD.CDict K V) (hf : ∀ d ∈ c, ∀ p ∈ d, p.2 ≠ []) :
    CMD.items c = .ok (Log.firstPairs (CMD.itemsMulti c)) := by
  obtain ⟨ls, h1, h2⟩ := CMDAux.items_all c hf
  unfold CMD.items
  rw [h1, ← OMDAux.items_eq, ← h2]
  rfl

/-- C27, `get` with a conversion: the first dictionary whose value converts wins. -/
theorem C27_get {W : Type} (c : CMD.CDict K V) (k : K) (w : W) (conv : V → Option W)
    (hf : ∀ d ∈ c, ∀ p ∈ d, p.2 ≠ []) :
    CMD.get c k w conv =
      .ok (((c.filterMap fun d => (MD.getlist d k).head?).findSome? conv).getD w) := by
  induction c with
  | nil => rfl
  | cons d c ih =>
    have ih := ih (fun q hq => hf q (by simp [hq]))
    simp only [CMD.get, List.filterMap_cons]
    by_cases hd : Dict.has d k = true
    · rw [if_pos hd]
      unfold Dict.has at hd
      cases hg : Dict.get d k with
      | none => rw [hg] at hd; simp at hd
      | some l =>
        have := hf d (by simp) _ (Dict.mem_of_get hg)
        cases l with
        | nil => exact absurd rfl this
        | cons v vs =>
          simp only [MD.getitem, MD.getlist, hg, idx0, Option.getD_some, List.head?_cons, List.findSome?_cons]
          cases conv v with
          | none => exact ih
          | some x => rfl
    · rw [if_neg hd, CMDAux.getlist_absent (by rw [← Dict.has_iff]; exact hd)]
      exact ih

/-- C27, writing: every mutating method raises `TypeError` and changes nothing. -/
theorem C27_readonly (c : CMD.CDict K V) (o : Op K V) :
    (CMD.step c o).1 = c ∧ ((∀ k vs, o ≠ .alias k vs) → (CMD.step c o).2 = .error .typeError) := by
  cases o <;> simp [CMD.step]

/-- C27 is not true of `to_dict(flat=False)`: it reports only the first dictionary's values
where `getlist` concatenates. -/
theorem C27_to_dict_false :
    CMD.getlist [ofPairs [('a', 1)], ofPairs [('a', 2)]] 'a' = [1, 2] ∧
    CMD.toDictLists [ofPairs [('a', 1)], ofPairs [('a', 2)]] = [('a', [1])] := by decide

example : (∀ d ∈ [ofPairs [('a', 1), ('b', 2)], ofPairs [('b', 3), ('c', 4)]], (Dict.keys d).Nodup) ∧
    CMD.lists [ofPairs [('a', 1), ('b', 2)], ofPairs [('b', 3), ('c', 4)]] =
      [('a', [1]), ('b', [2, 3]), ('c', [4])] := by decide

/-! ### C28 -/

/-- C28, dictionaries: no history of calls changes them, and every call raises. -/
theorem C28_dict (d : List (K × V)) (ops : List (Imm.DictOp K V)) :
    ops.foldl (fun d o => (Imm.dictStep d o).1) d = d ∧
    (∀ o, (Imm.dictStep d o).2 = .error .typeError) := by
  have h : ∀ d : List (K × V), ∀ o, (Imm.dictStep d o).1 = d := by intro d o; cases o <;> rfl
  refine ⟨?_, fun o => by cases o <;> rfl⟩
  induction ops with
  | nil => rfl
  | cons o ops ih => rw [List.foldl_cons, h]; exact ih

/-- C28, ordered multi dictionaries and the environ headers: no history of calls changes them,
and every call raises (changing the lists handed out by `listvalues` does not, but they are
copies). -/
theorem C28_ordered_headers {E : Type} (o : OMD.ODict K V) (ops : List (Op K V)) (e : E) (hops : List Imm.HeadersOp) :
    ops.foldl (fun d p => (Imm.orderedStep d p).1) o = o ∧
    hops.foldl (fun d p => (Imm.environStep d p).1) e = e ∧
    (∀ p, (∀ k vs, p ≠ .alias k vs) → (Imm.orderedStep o p).2 = .error .typeError) ∧
    (∀ p, (Imm.environStep e p).2 = .error .typeError ∨ (Imm.environStep e p).2 = .error .attributeError) := by
  refine ⟨?_, ?_, fun p hp => ?_, fun p => by cases p <;> first | exact Or.inl rfl | exact Or.inr rfl⟩
  case refine_3 => cases p <;> first | rfl | exact absurd rfl (hp _ _)
  · have h : ∀ o : OMD.ODict K V, ∀ p, (Imm.orderedStep o p).1 = o := by intro o p; cases p <;> rfl
    induction ops with
    | nil => rfl
    | cons p ops ih => rw [List.foldl_cons, h]; exact ih
  · have h : ∀ e : E, ∀ p, (Imm.environStep e p).1 = e := by intro e p; cases p <;> rfl
    induction hops with
    | nil => rfl
    | cons p ops ih => rw [List.foldl_cons, h]; exact ih

/-- C28 fails for lists (`clear` is not overridden) and for multi dictionaries (the stored
lists are handed out by `listvalues`). -/
theorem C28_immutable_false :
    (Imm.listStep [1, 2] (.clear : Imm.ListOp Nat)).1 = [] ∧
    (Imm.multiStep (ofPairs [('a', 1)]) (.alias 'a' [1, 2])).1 = ofPairs [('a', 1), ('a', 2)] := by decide

/-- C28, what holds for lists and multi dictionaries: histories without those two calls
change nothing. -/
theorem C28_immutable_partial {α : Type} (l : List α) (lops : List (Imm.ListOp α)) (d : MDict K V)
    (ops : List (Op K V)) (h1 : ∀ o ∈ lops, o ≠ .clear) (h2 : ∀ o ∈ ops, ∀ k vs, o ≠ .alias k vs) :
    lops.foldl (fun d o => (Imm.listStep d o).1) l = l ∧
    ops.foldl (fun d o => (Imm.multiStep d o).1) d = d ∧
    (∀ o ∈ lops, (Imm.listStep l o).2 = .error .typeError) ∧
    (∀ o ∈ ops, (Imm.multiStep d o).2 = .error .typeError) := by
  have a1 : ∀ l : List α, ∀ o, o ≠ .clear → Imm.listStep l o = (l, .error .typeError) := by
    intro l o ho; cases o <;> simp [Imm.listStep] at ho ⊢
  have a2 : ∀ d : MDict K V, ∀ o, (∀ k vs, o ≠ .alias k vs) → Imm.multiStep d o = (d, .error .typeError) := by
    intro d o ho; cases o <;> simp [Imm.multiStep] at ho ⊢
  refine ⟨?_, ?_, fun o ho => by rw [a1 l o (h1 o ho)], fun o ho => by rw [a2 d o (h2 o ho)]⟩
  · induction lops with
    | nil => rfl
    | cons o lops ih =>
      rw [List.foldl_cons, a1 l o (h1 o (by simp))]
      exact ih (fun x hx => h1 x (by simp [hx]))
  · induction ops with
    | nil => rfl
    | cons o ops ih =>
      rw [List.foldl_cons, a2 d o (h2 o (by simp))]
      exact ih (fun x hx => h2 x (by simp [hx]))

example : (∀ o ∈ [Imm.ListOp.append 3, .reverse, .pop 0], o ≠ .clear) ∧
    (∀ o ∈ [Op.add 'a' 1, .clear], ∀ k vs, o ≠ .alias k vs) := by simp

/-! ### C29 -/

namespace CMDAux

theorem subset_back (a : List K) : ∀ b : List K, a.Nodup → a ⊆ b → b.length ≤ a.length → b ⊆ a := by
  induction a with
  | nil =>
    intro b _ _ hl
    have : b = [] := by simpa using hl
    simp [this]
  | cons x a ih =>
    intro b hn hs hl
    rw [List.nodup_cons] at hn
    have hxb : x ∈ b := hs (by simp)
    have h1 : a ⊆ b.erase x := by
      intro y hy
      have : y ≠ x := by rintro rfl; exact hn.1 hy
      exact (List.mem_erase_of_ne this).2 (hs (by simp [hy]))
    have h2 := ih (b.erase x) hn.2 h1 (by rw [List.length_erase_of_mem hxb]; simp at hl; omega)
    intro y hy
    by_cases hyx : y = x
    · simp [hyx]
    · exact List.mem_cons_of_mem _ (h2 ((List.mem_erase_of_ne hyx).2 hy))

end CMDAux

/-- C29, multi dictionaries: equal ones are hashed from the same set of pairs, whatever the
hash of a set is. -/
theorem C29_multi_partial [DecidableEq V] (a b : MDict K V) (ha : (Dict.keys a).Nodup) (hb : (Dict.keys b).Nodup)
    (h : Imm.eqMulti a b = true) (hash : ((K × V) ⊕ (Nat × (K × V)) → Prop) → Int) :
    hash (Imm.hashSetMulti a) = hash (Imm.hashSetMulti b) := by
  have key : ∀ k, Dict.get a k = Dict.get b k := by
    unfold Imm.eqMulti at h
    simp only [Bool.and_eq_true, beq_iff_eq, List.all_eq_true] at h
    obtain ⟨hlen, hall⟩ := h
    have hsub : Dict.keys a ⊆ Dict.keys b := by
      intro k hk
      obtain ⟨p, hp, rfl⟩ := List.mem_map.1 hk
      exact List.mem_map.2 ⟨(p.1, p.2), Dict.mem_of_get (hall p hp), rfl⟩
    have hback : Dict.keys b ⊆ Dict.keys a := by
      exact CMDAux.subset_back _ _ ha hsub (by simp [Dict.keys, hlen])
    intro k
    cases hg : Dict.get a k with
    | some l => exact (hall (k, l) (Dict.mem_of_get hg)).symm
    | none =>
      symm
      rw [Dict.get_eq_none] at hg ⊢
      exact fun hk => hg (hback hk)
  have : Imm.hashSetMulti a = Imm.hashSetMulti b := by
    funext q
    rcases q with p | p
    case inr => rfl
    show (p ∈ MD.itemsMulti a) = (p ∈ MD.itemsMulti b)
    apply propext
    have aux : ∀ (d : MDict K V), (Dict.keys d).Nodup →
        (p ∈ MD.itemsMulti d ↔ p.2 ∈ MD.getlist d p.1) := by
      intro d hd
      unfold MD.itemsMulti MD.getlist
      simp only [List.mem_flatMap, List.mem_map]
      constructor
      · rintro ⟨q, hq, v, hv, rfl⟩
        simpa [Dict.get_of_mem hd hq] using hv
      · intro hp
        cases hg : Dict.get d p.1 with
        | none => rw [hg] at hp; simp at hp
        | some l =>
          rw [hg] at hp
          exact ⟨(p.1, l), Dict.mem_of_get hg, p.2, by simpa using hp, rfl⟩
    rw [aux a ha, aux b hb]
    simp [MD.getlist, key]
  rw [this]

/-- C29, ordered multi dictionaries. -/
theorem C29_ordered_partial [DecidableEq V] (a b : List (K × V)) (h : Imm.eqOrdered a b = true)
    (hash : ((K × V) ⊕ (Nat × (K × V)) → Prop) → Int) :
    hash (Imm.hashSetOrdered a) = hash (Imm.hashSetOrdered b) := by
  have : a = b := by
    induction a generalizing b with
    | nil => cases b with
      | nil => rfl
      | cons y b => simp [Imm.eqOrdered] at h
    | cons x a ih => cases b with
      | nil => simp [Imm.eqOrdered] at h
      | cons y b =>
        simp only [Imm.eqOrdered] at h
        split at h
        · cases h
        · rename_i hxy
          simp only [not_or, Decidable.not_not] at hxy
          rw [ih b h, Prod.ext hxy.1 hxy.2]
  rw [this]

/-- C29 fails across the two classes, and for combined dictionaries: an ordered dictionary
equals the plain one with the same lists but is hashed from numbered pairs; combined
dictionaries inherit `dict.__eq__` on an empty underlying dict, so all of them are equal,
but they are hashed from their contents. -/
theorem C29_mixed_false :
    ∃ hash : ((Char × Nat) ⊕ (Nat × (Char × Nat)) → Prop) → Int,
      (Imm.eqMixed (OMD.lists (OMD.runOps OMD.empty [.add 'a' 1])) (ofPairs [('a', 1)]) = true ∧
        hash (Imm.hashSetOrdered (OMD.itemsMulti (OMD.runOps OMD.empty [.add 'a' 1]))) ≠
          hash (Imm.hashSetMulti (ofPairs [('a', 1)]))) ∧
      (Imm.eqMulti ([] : MDict Char Nat) [] = true ∧
        hash (Sum.elim (· ∈ CMD.itemsMulti [ofPairs [('a', 1)]]) fun _ => False) ≠
          hash (Sum.elim (· ∈ CMD.itemsMulti [ofPairs [('a', 2)]]) fun _ => False)) := by
  classical
  refine ⟨fun S => if S (.inl ('a', 1)) then 0 else 1, ⟨by decide, ?_⟩, by decide, ?_⟩
  · have h1 : ¬ Imm.hashSetOrdered (OMD.itemsMulti (OMD.runOps OMD.empty [.add 'a' 1])) (.inl ('a', 1)) :=
      fun h => h
    have h2 : Imm.hashSetMulti (ofPairs [('a', 1)]) (.inl ('a', 1)) := by
      show ('a', 1) ∈ _; decide
    simp only [if_neg h1, if_pos h2]; decide
  · have h1 : (Sum.elim (· ∈ CMD.itemsMulti [ofPairs [('a', 1)]]) fun _ => False :
        (Char × Nat) ⊕ (Nat × (Char × Nat)) → Prop) (.inl ('a', 1)) := by
      show ('a', 1) ∈ _; decide
    have h2 : ¬ (Sum.elim (· ∈ CMD.itemsMulti [ofPairs [('a', 2)]]) fun _ => False :
        (Char × Nat) ⊕ (Nat × (Char × Nat)) → Prop) (.inl ('a', 1)) := by
      show ¬ ('a', 1) ∈ _; decide
    simp only [if_pos h1, if_neg h2]; decide

example : Imm.eqMulti (ofPairs [('a', 1), ('b', 2)]) (ofPairs [('b', 2), ('a', 1)]) = true ∧
    Imm.eqOrdered [('a', 1), ('b', 2)] [('a', 1), ('b', 2)] = true := by decide

/-! ### C30 -/

/-- A call other than an `update` that raises half way. -/
def updatesFully : Callback.Op K V → Prop
  | .updateFail _ => False
  | _ => True

/-- C30, one call: a call that raises leaves the contents alone and does not notify; a call
that changes the contents notifies exactly once, after the change; no call notifies more
than once. -/
theorem C30_notify_partial (s : Callback.State K V) (o : Callback.Op K V) (ho : updatesFully o) :
    ((∃ e, (Callback.step s o).2 = .error e) → (Callback.step s o).1 = s) ∧
    ((Callback.step s o).1.dict ≠ s.dict →
      (Callback.step s o).1.seen = s.seen ++ [(Callback.step s o).1.dict]) ∧
    ((Callback.step s o).1.seen = s.seen ∨
      (Callback.step s o).1.seen = s.seen ++ [(Callback.step s o).1.dict]) := by
  cases o <;> simp only [Callback.step]
  case setitem => simp [Callback.notify]
  case delitem => split <;> simp [Callback.notify]
  case clear => simp [Callback.notify]
  case popitem => split <;> simp [Callback.notify]
  case update => simp [Callback.notify]
  case updateFail => exact ho.elim
  case setdefault => split <;> simp [Callback.notify]
  case pop => split <;> simp [Callback.notify]
  case popDefault => split <;> simp [Callback.notify]

/-- C30, no needless calls.  A call that removes or supplies a default notifies exactly when it
changes the contents (an assignment, `clear` and a complete `update` notify in any case). -/
theorem C30_silent (s : Callback.State K V) (k : K) (v : V) (o : Callback.Op K V)
    (ho : o ∈ [.delitem k, .popitem, .setdefault k v, .pop k, .popDefault k v]) :
    (Callback.step s o).1.seen = s.seen ↔ (Callback.step s o).1.dict = s.dict := by
  have hdel : ∀ (d : List (K × V)) (k : K), Dict.has d k = true → Dict.del d k ≠ d := by
    intro d k
    induction d with
    | nil => intro h; simp [Dict.has, Dict.get] at h
    | cons p d ih =>
      obtain ⟨a, w⟩ := p
      simp only [Dict.has, Dict.get, Dict.del]
      by_cases ha : a = k
      · intro _ e
        rw [if_pos ha] at e
        have := congrArg List.length e
        simp at this
      · rw [if_neg ha, if_neg ha]
        intro h e
        exact ih h (List.cons.inj e).2
  have hset : Dict.get s.dict k = none → Dict.set s.dict k v ≠ s.dict := by
    intro h e
    have := Dict.get_set s.dict k v k
    rw [e, h] at this
    simp at this
  have hsome : ∀ {w}, Dict.get s.dict k = some w → Dict.del s.dict k ≠ s.dict := fun h =>
    hdel _ _ (by simp [Dict.has, h])
  simp only [List.mem_cons, List.not_mem_nil, or_false] at ho
  rcases ho with rfl | rfl | rfl | rfl | rfl <;> simp only [Callback.step]
  · split
    · rename_i h; simp [Callback.notify, hdel _ _ h]
    · simp
  · split
    · rename_i p h
      have : s.dict.dropLast ≠ s.dict := by
        intro e
        have := congrArg List.length e
        cases hd : s.dict with
        | nil => rw [hd] at h; simp at h
        | cons a b => rw [hd] at this; simp at this
      simp [Callback.notify, this]
    · simp
  · split
    · simp
    · rename_i h; simp [Callback.notify, hset h]
  · split
    · rename_i h; simp [Callback.notify, hsome h]
    · simp
  · split
    · rename_i h; simp [Callback.notify, hsome h]
    · simp

example : (Callback.step (⟨[('a', 1)], []⟩ : Callback.State Char Nat) (.popDefault 'b' 0)).1.seen = [] ∧
    (Callback.step (⟨[('a', 1)], []⟩ : Callback.State Char Nat) (.popDefault 'a' 0)).1.seen = [[]] := by decide

/-- C30, histories: a mirror refreshed by the callback (the last contents seen, or the
initial ones before any callback) always equals the dictionary. -/
theorem C30_mirror_partial (d : List (K × V)) (ops : List (Callback.Op K V)) (ho : ∀ o ∈ ops, updatesFully o) :
    ((Callback.runOps ⟨d, []⟩ ops).seen.getLast?).getD d = (Callback.runOps ⟨d, []⟩ ops).dict := by
  have aux : ∀ (ops : List (Callback.Op K V)) (s : Callback.State K V), (∀ o ∈ ops, updatesFully o) →
      s.seen.getLast?.getD d = s.dict →
      ((Callback.runOps s ops).seen.getLast?).getD d = (Callback.runOps s ops).dict := by
    intro ops
    induction ops with
    | nil => intro s _ h; exact h
    | cons o ops ih =>
      intro s ho h
      have hs := C30_notify_partial s o (ho o (by simp))
      refine ih (Callback.step s o).1 (fun x hx => ho x (by simp [hx])) ?_
      rcases hs.2.2 with h1 | h1
      · rw [h1, h]
        apply Classical.byContradiction
        intro hne
        have := hs.2.1 (Ne.symm hne)
        rw [h1] at this
        simp at this
      · rw [h1]; simp
  exact aux ops ⟨d, []⟩ ho rfl

/-- C30 fails for an `update` whose source raises half way: the contents have changed but
the callback has not run. -/
theorem C30_update_false :
    (Callback.step (⟨[], []⟩ : Callback.State Char Nat) (.updateFail [('a', 1)])).1.dict = [('a', 1)] ∧
    (Callback.step (⟨[], []⟩ : Callback.State Char Nat) (.updateFail [('a', 1)])).1.seen = [] := by decide

example : (∀ o ∈ [Callback.Op.setitem 'a' 1, .pop 'b', .setdefault 'a' 2], updatesFully o) ∧
    (Callback.runOps ⟨[], []⟩ [.setitem 'a' 1, .pop 'b', .setdefault 'a' 2, .popDefault 'a' 0]).seen =
      [[('a', 1)], []] := ⟨by simp [updatesFully], by decide⟩

end Verif.Props
