import Verif.Model.ImmCopy
import Verif.Props.Copies
import Verif.Props.MultiCompare
/-! Property theorems C144: copies and pickles of immutable objects. -/
namespace Verif.Props.ImmCopyP
open Verif Verif.ImmCopy Verif.MD Verif.Log
open Verif.Props.MultiCmpP (SameLists)
open Verif.Props.CopiesP
variable {K V : Type} [DecidableEq K]

theorem set_append_new {A : Type} (d : List (K × A)) (k : K) (a : A) (h : k ∉ Dict.keys d) :
    Dict.set d k a = d ++ [(k, a)] := by
  induction d with
  | nil => rfl
  | cons p d ih =>
    simp only [Dict.keys_cons, List.mem_cons, not_or] at h
    simp only [Dict.set, if_neg (Ne.symm h.1), ih h.2, List.cons_append]

theorem set_append_last {A : Type} (d : List (K × A)) (k : K) (a b : A) (h : k ∉ Dict.keys d) :
    Dict.set (d ++ [(k, a)]) k b = d ++ [(k, b)] := by
  induction d with
  | nil => simp [Dict.set]
  | cons p d ih =>
    simp only [Dict.keys_cons, List.mem_cons, not_or] at h
    simp only [List.cons_append, Dict.set, if_neg (Ne.symm h.1), ih h.2]

theorem get_append_last {A : Type} (d : List (K × A)) (k : K) (a : A) (h : k ∉ Dict.keys d) :
    Dict.get (d ++ [(k, a)]) k = some a := by
  induction d with
  | nil => simp [Dict.get]
  | cons p d ih =>
    simp only [Dict.keys_cons, List.mem_cons, not_or] at h
    simp only [List.cons_append, Dict.get, if_neg (Ne.symm h.1), ih h.2]

theorem dictOf_go {A : Type} (d : List (K × A)) : ∀ acc : List (K × A), (Dict.keys (acc ++ d)).Nodup →
    d.foldl (fun d p => Dict.set d p.1 p.2) acc = acc ++ d := by
  induction d with
  | nil => intro acc _; simp
  | cons p d ih =>
    intro acc h
    have hp : p.1 ∉ Dict.keys acc := by
      simp only [Dict.keys_append, Dict.keys_cons] at h
      intro hm
      exact (List.nodup_append.1 h).2.2 _ hm _ (by simp) rfl
    rw [List.foldl_cons, set_append_new _ _ _ hp, ih]
    · simp
    · simpa using h

theorem dictOf_self {A : Type} (d : List (K × A)) (h : (Dict.keys d).Nodup) : dictOf d = d := by
  simpa [dictOf] using dictOf_go d [] (by simpa using h)

theorem add_values (acc : MDict K V) (k : K) (hk : k ∉ Dict.keys acc) (vs : List V) : ∀ pre : List V, pre ≠ [] →
    (vs.map fun v => (k, v)).foldl (fun d p => MD.add d p.1 p.2) (acc ++ [(k, pre)]) = acc ++ [(k, pre ++ vs)] := by
  induction vs with
  | nil => intro pre _; simp
  | cons v vs ih =>
    intro pre hp
    rw [List.map_cons, List.foldl_cons]
    have : MD.add (acc ++ [(k, pre)]) k v = acc ++ [(k, pre ++ [v])] := by
      unfold MD.add
      rw [get_append_last _ _ _ hk, Option.getD_some, set_append_last _ _ _ _ hk]
    simp only [this]
    rw [ih _ (by simp)]
    simp

theorem add_entry (acc : MDict K V) (k : K) (hk : k ∉ Dict.keys acc) (vs : List V) :
    (vs.map fun v => (k, v)).foldl (fun d p => MD.add d p.1 p.2) acc = if vs = [] then acc else acc ++ [(k, vs)] := by
  cases vs with
  | nil => simp
  | cons v vs =>
    rw [List.map_cons, List.foldl_cons]
    have : MD.add acc k v = acc ++ [(k, [v])] := by
      unfold MD.add
      rw [Dict.get_eq_none.2 hk, set_append_new _ _ _ hk]
      rfl
    simp only [this]
    rw [add_values acc k hk vs [v] (by simp)]
    simp

/-- Pickling an immutable multi dictionary drops the keys without values and nothing else. -/
theorem pickle_eq (d : MDict K V) (h : (Dict.keys d).Nodup) :
    pickleMulti d = d.filter fun p => !p.2.isEmpty := by
  have key : ∀ (d : MDict K V) (acc : MDict K V), (Dict.keys (acc ++ d)).Nodup →
      (MD.itemsMulti d).foldl (fun d p => MD.add d p.1 p.2) acc = acc ++ d.filter fun p => !p.2.isEmpty := by
    intro d
    induction d with
    | nil => intro acc _; simp [MD.itemsMulti]
    | cons p d ih =>
      intro acc h
      have hp : p.1 ∉ Dict.keys acc := by
        simp only [Dict.keys_append, Dict.keys_cons] at h
        intro hm
        exact (List.nodup_append.1 h).2.2 _ hm _ (by simp) rfl
      have e : MD.itemsMulti (p :: d) = (p.2.map fun v => (p.1, v)) ++ MD.itemsMulti d := by simp [MD.itemsMulti]
      rw [e, List.foldl_append, add_entry acc p.1 hp]
      by_cases hv : p.2 = []
      · rw [if_pos hv, ih acc ?_]
        · simp [hv]
        · refine h.sublist ?_
          simp only [Dict.keys_append, Dict.keys_cons]
          exact List.Sublist.append_left (List.sublist_cons_self _ _) _
      · rw [if_neg hv, ih _ (by simpa using h)]
        simp [hv]
  simpa [pickleMulti, MD.ofPairs, reduceMulti] using key d [] (by simpa using h)

/-- C144, plain dictionaries and lists: pickles and copies have the same contents, so that they answer alike. -/
theorem C144_dict {A : Type} (d : List (K × A)) (h : (Dict.keys d).Nodup) (l : List A) :
    pickleDict d = d ∧ copyDict d = d ∧ pickleList l = l := by
  refine ⟨?_, dictOf_self d h, by simp [pickleList]⟩
  unfold pickleDict reduceDict
  rw [dictOf_self d h, dictOf_self d h]

/-- C144, multi dictionaries.  Copies and deep copies are equal to the original and have the same order.  A
pickled one has the same values for every key, and is hashed from the same pairs; it is equal to the
original exactly if no key has an empty list. -/
theorem C144_multi_partial [DecidableEq V] (d : MDict K V) (h : (Dict.keys d).Nodup) :
    copyMulti d = d ∧ deepcopyMulti d = d ∧
    (∀ k, MD.getlist (pickleMulti d) k = MD.getlist d k) ∧
    MD.itemsMulti (pickleMulti d) = MD.itemsMulti d ∧
    Imm.hashSetMulti (pickleMulti d) = Imm.hashSetMulti d ∧
    (MultiCmp.eq (.multi true d) (.multi true (pickleMulti d)) = true ↔ ∀ p ∈ d, p.2 ≠ []) := by
  have hp := pickle_eq d h
  have hn : (Dict.keys (pickleMulti d)).Nodup := nodup_ofPairs _
  have hi : MD.itemsMulti (pickleMulti d) = MD.itemsMulti d := by
    rw [hp]
    clear hp hn h
    induction d with
    | nil => rfl
    | cons p d ih =>
      unfold MD.itemsMulti at ih ⊢
      rw [List.filter_cons]
      cases hv : p.2 with
      | nil => simp [ih, hv]
      | cons v vs => simp [ih, hv]
  have hg : ∀ k, MD.getlist (pickleMulti d) k = MD.getlist d k := by
    intro k
    rw [← CMDAux.valuesFor_itemsMulti hn, ← CMDAux.valuesFor_itemsMulti h, hi]
  refine ⟨dictOf_self d h, ofDict_lists d h, hg, hi, ?_, ?_⟩
  · funext q
    cases q with
    | inl p => simp only [Imm.hashSetMulti, hi]
    | inr p => rfl
  · have e : MultiCmp.eq (.multi true d) (.multi true (pickleMulti d)) =
        MultiCmp.dictEq (MultiCmp.storage (.multi true d)) (MultiCmp.storage (.multi true (pickleMulti d))) := rfl
    rw [e, MultiCmpP.dictEq_multi _ _ _ _ h hn]
    constructor
    · intro hs p hpd hv
      have h1 := hs p.1
      rw [Dict.get_of_mem h hpd] at h1
      have h2 := Dict.mem_of_get h1.symm
      rw [hp, List.mem_filter] at h2
      simp [hv] at h2
    · intro hf k
      rw [hp, List.filter_eq_self.2]
      intro p hpd
      simpa using hf p hpd

/-- C144 (refutation): a key with an empty list is gone after pickling. -/
theorem C144_multi_false :
    ¬ ∀ d : MDict Char Nat, (Dict.keys d).Nodup → Dict.has (pickleMulti d) 'a' = Dict.has d 'a' := by
  intro h
  exact absurd (h [('a', [])] (by decide)) (by decide)

/-- The pairs with the same key moved together. -/
def grouped (ps : List (K × V)) : List (K × V) :=
  (firstKeys (ps.map (·.1))).flatMap fun k => (valuesFor ps k).map fun v => (k, v)

/-- C144, ordered multi dictionaries: a pickled one has the same pairs in the same order, is equal and hashed
alike.  A deep copy is equal exactly if pairs with the same key stand together. -/
theorem C144_ordered_partial [DecidableEq V] (ps : List (K × V)) :
    OMD.itemsMulti (pickleOrdered (Heap.orderedOf ps)) = ps ∧
    MultiCmp.eq (.ordered (Heap.orderedOf ps)) (.ordered (pickleOrdered (Heap.orderedOf ps))) = true ∧
    Imm.hashSetOrdered (OMD.itemsMulti (pickleOrdered (Heap.orderedOf ps))) = Imm.hashSetOrdered ps ∧
    (MultiCmp.eq (.ordered (Heap.orderedOf ps)) (.ordered (Heap.orderedDeepcopy (Heap.orderedOf ps))) = true ↔
      ps = grouped ps) := by
  have h1 : OMD.itemsMulti (pickleOrdered (Heap.orderedOf ps)) = ps := by
    unfold pickleOrdered
    rw [(ordered_of _).1, (ordered_of ps).1]
  have e : ∀ a b : OMD.ODict K V, MultiCmp.eq (.ordered a) (.ordered b) =
      Imm.eqOrdered (OMD.itemsMulti a) (OMD.itemsMulti b) := by
    intro a b
    simp [MultiCmp.eq, MultiCmp.rightFirst, MultiCmp.eqMethod, MultiCmp.orderedEq]
  refine ⟨h1, ?_, by rw [h1], ?_⟩
  · rw [e, h1, (ordered_of ps).1, MultiCmpP.eqOrdered_iff]
  · rw [e, MultiCmpP.eqOrdered_iff, (ordered_of ps).1]
    have : OMD.itemsMulti (Heap.orderedDeepcopy (Heap.orderedOf ps)) = grouped ps := by
      unfold Heap.orderedDeepcopy
      rw [(ordered_of _).1]
      unfold OMD.lists grouped MD.itemsMulti
      have hk := (ordered_of ps).2.2
      unfold OMD.keys at hk
      rw [← hk, List.flatMap_map, List.flatMap_map]
      simp only [(ordered_of ps).2.1]
    rw [this]

/-- C144, combined dictionaries: a copy shows the same dictionaries; a pickled one does too, and pickling is
refused exactly if a key of a wrapped dictionary has an empty list. -/
theorem C144_combined (c : CMD.CDict K V) :
    copyCombined c = c ∧ (∀ r, pickleCombined c = .ok r → r = c) ∧
    ((∃ r, pickleCombined c = .ok r) ↔ ∀ d ∈ c, ∀ p ∈ d, p.2 ≠ []) := by
  refine ⟨by simp [copyCombined], ?_, ?_⟩
  · intro r h
    unfold pickleCombined at h
    split at h
    · exact (Except.ok.inj h).symm
    · cases h
  · constructor
    · rintro ⟨r, h⟩ d hd p hp hv
      unfold pickleCombined at h
      split at h
      · rename_i ls hl
        clear h
        have hd' : ∃ l, MD.items d = .ok l := by
          clear hp
          induction c generalizing ls with
          | nil => cases hd
          | cons e c ih =>
            rw [List.mapM_cons] at hl
            cases he : MD.items e with
            | error x => rw [he] at hl; cases hl
            | ok l =>
              rw [he] at hl
              rcases List.mem_cons.1 hd with rfl | hm
              · exact ⟨l, he⟩
              · cases hc : c.mapM MD.items with
                | error x => rw [hc] at hl; cases hl
                | ok ls' => exact ih hm ls' hc
        obtain ⟨l, hl'⟩ := hd'
        unfold MD.items at hl'
        clear hd hl
        induction d generalizing l with
        | nil => cases hp
        | cons q d ih =>
          rw [List.mapM_cons] at hl'
          rcases List.mem_cons.1 hp with rfl | hm
          · rw [hv] at hl'; cases hl'
          · cases hx : (idx0 q.2) with
            | error x => simp [hx, bind, Except.bind, Except.map] at hl'
            | ok v =>
              cases hy : d.mapM (fun p => do let v ← idx0 p.2; pure (p.1, v)) with
              | error x =>
                exfalso
                revert hl'
                simp_all [bind, Except.bind, pure, Except.pure, Except.map]
              | ok l2 => exact ih hm l2 hy
      · cases h
    · intro hf
      obtain ⟨ls, hl, -⟩ := CMDAux.items_all c hf
      exact ⟨c, by unfold pickleCombined; rw [hl]⟩

/-- C144, `fromkeys`: each key of the list has the value; a multi dictionary that is immutable has it once
for every time the key is given, a mutable one has it once. -/
theorem C144_fromkeys {A : Type} (keys : List K) (v : V) (a : A) (k : K) :
    Dict.get (fromkeysDict keys a) k = (if k ∈ keys then some a else none) ∧
    MD.getlist (fromkeysMulti keys v) k = List.replicate (keys.count k) v ∧
    OMD.getlist (fromkeysOrdered keys v) k = List.replicate (keys.count k) v ∧
    OMD.itemsMulti (fromkeysOrdered keys v) = keys.map (fun k => (k, v)) ∧
    MD.getlist (fromkeysMutable keys v) k = (if k ∈ keys then [v] else []) := by
  have hv : valuesFor (keys.map fun k => (k, v)) k = List.replicate (keys.count k) v := by
    induction keys with
    | nil => rfl
    | cons x keys ih =>
      unfold valuesFor at ih ⊢
      rw [List.map_cons, List.filter_cons, List.count_cons]
      by_cases hx : x = k
      · simp [hx, ih, List.replicate_succ]
      · simp [hx, ih]
  refine ⟨?_, ?_, ?_, (ordered_of _).1, ?_⟩
  · have key : ∀ (keys : List K) (acc : List (K × A)),
        Dict.get ((keys.map fun k => (k, a)).foldl (fun d p => Dict.set d p.1 p.2) acc) k =
          if k ∈ keys then some a else Dict.get acc k := by
      intro keys
      induction keys with
      | nil => intro acc; simp
      | cons x keys ih =>
        intro acc
        rw [List.map_cons, List.foldl_cons, ih, Dict.get_set]
        by_cases h1 : k ∈ keys
        · simp [h1]
        · by_cases h2 : k = x <;> simp [h1, h2]
    simpa [fromkeysDict, dictOf] using key keys []
  · have key : ∀ (ps : List (K × V)) (acc : MDict K V),
        MD.getlist (ps.foldl (fun d p => MD.add d p.1 p.2) acc) k = MD.getlist acc k ++ valuesFor ps k := by
      intro ps
      induction ps with
      | nil => intro acc; simp [valuesFor]
      | cons p ps ih =>
        intro acc
        rw [List.foldl_cons, ih]
        unfold MD.getlist MD.add valuesFor
        rw [Dict.get_set, List.filter_cons]
        by_cases hk : k = p.1
        · simp [hk]
        · simp [hk, Ne.symm hk]
    have := key (keys.map fun k => (k, v)) []
    rw [hv] at this
    simpa [fromkeysMulti, MD.ofPairs, MD.getlist] using this
  · unfold fromkeysOrdered
    rw [(ordered_of _).2.1, hv]
  · have key : ∀ (keys : List K) (acc : MDict K V),
        MD.getlist (MD.runOps acc (keys.map fun k => .setitem k v)) k = if k ∈ keys then [v] else MD.getlist acc k := by
      intro keys
      induction keys with
      | nil => intro acc; rfl
      | cons x keys ih =>
        intro acc
        have : MD.runOps acc ((x :: keys).map fun k => Op.setitem k v) =
            MD.runOps (Dict.set acc x [v]) (keys.map fun k => .setitem k v) := rfl
        rw [this, ih]
        unfold MD.getlist
        rw [Dict.get_set]
        by_cases h1 : k ∈ keys
        · simp [h1]
        · by_cases h2 : k = x <;> simp [h1, h2]
    simpa [fromkeysMutable, MD.getlist] using key keys []

/-- C144, `Cache-Control` of a request: a pickled one has the same directives with the same values. -/
theorem C144_cache_partial (values : Option (List (Str × CacheControl.Val))) (p : CacheControl.Directive) :
    (pickleRequestCC (newRequestCC values)).dict = (newRequestCC values).dict ∧
    CacheControl.get (pickleRequestCC (newRequestCC values)).dict p = CacheControl.get (newRequestCC values).dict p ∧
    ((pickleRequestCC (newRequestCC values)).provided = (newRequestCC values).provided ↔ values ≠ none) := by
  have hn : ∀ (l acc : List (Str × CacheControl.Val)), (Dict.keys acc).Nodup →
      (Dict.keys (l.foldl (fun d p => Dict.set d p.1 p.2) acc)).Nodup := by
    intro l
    induction l with
    | nil => intro acc h; exact h
    | cons q l ih => intro acc h; exact ih _ (Dict.nodup_set h _ _)
  have h0 : (Dict.keys (newRequestCC values).dict).Nodup := hn _ [] (by simp)
  have e : (pickleRequestCC (newRequestCC values)).dict = (newRequestCC values).dict := by
    show dictOf (dictOf (newRequestCC values).dict) = (newRequestCC values).dict
    rw [dictOf_self _ h0, dictOf_self _ h0]
  refine ⟨e, by rw [e], ?_⟩
  cases values <;> simp [newRequestCC, pickleRequestCC]

/-- C144 (refutation), credentials: a copied or pickled `Authorization` has lost them all, and what should be
the name of the scheme is a dictionary. -/
theorem C144_authorization_false (a : Auth.Authorization) :
    (∀ name, (pickleAuthorization a).attr name = none) ∧
    (∀ t, (pickleAuthorization a).type ≠ .inl t) ∧
    (∀ name v, Dict.get a.data name = some (some v) →
      (pickleAuthorization a).attr name ≠ (Dict.get a.data name).join) := by
  have h1 : ∀ name, (pickleAuthorization a).attr name = none := fun name => rfl
  refine ⟨h1, (fun t h => by cases h), (fun name v hv => ?_)⟩
  rw [h1, hv]
  simp

/-! ### Examples -/

example : (Dict.keys ([('a', [1, 2]), ('b', [])] : MDict Char Nat)).Nodup ∧
    pickleMulti ([('a', [1, 2]), ('b', [])] : MDict Char Nat) = [('a', [1, 2])] ∧
    pickleMulti ([('a', [1, 2]), ('b', [3])] : MDict Char Nat) = [('a', [1, 2]), ('b', [3])] := by decide

example : grouped [('a', 1), ('b', 2), ('a', 3)] = [('a', 1), ('a', 3), ('b', 2)] ∧
    grouped [('a', 1), ('a', 3), ('b', 2)] = [('a', 1), ('a', 3), ('b', 2)] := by decide

example : (∃ r, pickleCombined ([[('a', [1])], [('b', [])]] : CMD.CDict Char Nat) = .error r) ∧
    pickleCombined ([[('a', [1])], [('b', [2, 3])]] : CMD.CDict Char Nat) = .ok [[('a', [1])], [('b', [2, 3])]] :=
  ⟨⟨.indexError, by decide⟩, rfl⟩

example : Dict.get (⟨s%"basic", [(s%"username", some s%"me"), (s%"password", some s%"x")]⟩ : Auth.Authorization).data
    s%"username" = some (some s%"me") := by decide

end Verif.Props.ImmCopyP
