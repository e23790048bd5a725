import Verif.Model.Copies
import Verif.Props.OrderedMultiDict
/-!
C120: copies of multi dictionaries are independent; C121: which lists are live.
-/
namespace Verif.Props.CopiesP
open Verif Verif.MD Verif.Heap Verif.Log
variable {K V : Type} [DecidableEq K]

/-! ### Dictionaries of lists seen through their contents -/

section
variable {A B : Type}

theorem get_mapv (f : A → B) (l : List (K × A)) (k : K) :
    Dict.get (l.map fun p => (p.1, f p.2)) k = (Dict.get l k).map f := by
  induction l with
  | nil => rfl
  | cons p l ih =>
    obtain ⟨a, v⟩ := p
    simp only [List.map_cons, Dict.get]
    split
    · rfl
    · exact ih

theorem set_mapv (f : A → B) (l : List (K × A)) (k : K) (a : A) :
    Dict.set (l.map fun p => (p.1, f p.2)) k (f a) = (Dict.set l k a).map fun p => (p.1, f p.2) := by
  induction l with
  | nil => rfl
  | cons p l ih =>
    obtain ⟨b, v⟩ := p
    simp only [List.map_cons, Dict.set]
    split
    · rfl
    · rw [ih]; rfl

theorem del_mapv (f : A → B) (l : List (K × A)) (k : K) :
    Dict.del (l.map fun p => (p.1, f p.2)) k = (Dict.del l k).map fun p => (p.1, f p.2) := by
  induction l with
  | nil => rfl
  | cons p l ih =>
    obtain ⟨b, v⟩ := p
    simp only [List.map_cons, Dict.del]
    split
    · rfl
    · rw [ih]; rfl

theorem mem_set {l : List (K × A)} {k : K} {a : A} {p : K × A} (h : p ∈ Dict.set l k a) : p ∈ l ∨ p.2 = a := by
  induction l with
  | nil => simp only [Dict.set, List.mem_cons, List.not_mem_nil, or_false] at h; rw [h]; exact .inr rfl
  | cons q l ih =>
    obtain ⟨b, v⟩ := q
    simp only [Dict.set] at h
    split at h
    · rcases List.mem_cons.1 h with h | h
      · rw [h]; exact .inr rfl
      · exact .inl (List.mem_cons_of_mem _ h)
    · rcases List.mem_cons.1 h with h | h
      · rw [h]; exact .inl List.mem_cons_self
      · rcases ih h with h | h
        · exact .inl (List.mem_cons_of_mem _ h)
        · exact .inr h

theorem del_sublist (l : List (K × A)) (k : K) : (Dict.del l k).Sublist l := by
  induction l with
  | nil => exact List.Sublist.slnil
  | cons q l ih =>
    obtain ⟨b, v⟩ := q
    simp only [Dict.del]
    split
    · exact List.sublist_cons_self _ _
    · exact ih.cons_cons _

theorem nodup_set_new {l : List (K × Nat)} {k : K} {a : Nat} (h : (l.map (·.2)).Nodup) (ha : ∀ p ∈ l, p.2 ≠ a) :
    ((Dict.set l k a).map (·.2)).Nodup := by
  induction l with
  | nil => simp [Dict.set]
  | cons q l ih =>
    obtain ⟨b, v⟩ := q
    simp only [List.map_cons, List.nodup_cons] at h
    have ha' : ∀ p ∈ l, p.2 ≠ a := fun p hp => ha p (List.mem_cons_of_mem _ hp)
    simp only [Dict.set]
    split
    · simp only [List.map_cons, List.nodup_cons]
      refine ⟨?_, h.2⟩
      intro hm
      obtain ⟨p, hp, e⟩ := List.mem_map.1 hm
      exact ha' p hp e
    · simp only [List.map_cons, List.nodup_cons]
      refine ⟨?_, ih h.2 ha'⟩
      intro hm
      obtain ⟨p, hp, e⟩ := List.mem_map.1 hm
      rcases mem_set hp with hp | hp
      · exact h.1 (List.mem_map.2 ⟨p, hp, e⟩)
      · exact ha (b, v) List.mem_cons_self (by rw [← e, hp])

/-- Changing the list of a key changes the contents of that key only. -/
theorem write_mapv (f g : Nat → B) (l : List (K × Nat)) (k : K) (a : Nat) (h : (l.map (·.2)).Nodup)
    (hk : Dict.get l k = some a) (hg : ∀ b, b ≠ a → g b = f b) :
    (l.map fun p => (p.1, g p.2)) = Dict.set (l.map fun p => (p.1, f p.2)) k (g a) := by
  induction l with
  | nil => cases hk
  | cons q l ih =>
    obtain ⟨b, v⟩ := q
    simp only [List.map_cons, List.nodup_cons] at h
    simp only [Dict.get] at hk
    simp only [List.map_cons, Dict.set]
    by_cases e : b = k
    · rw [if_pos e] at hk ⊢
      cases hk
      congr 1
      apply List.map_congr_left
      intro p hp
      rw [hg p.2]
      intro e2
      exact h.1 (List.mem_map.2 ⟨p, hp, e2⟩)
    · rw [if_neg e] at hk ⊢
      rw [ih h.2 hk]
      congr 2
      apply hg
      intro e2
      exact h.1 (List.mem_map.2 ⟨(k, a), Dict.mem_of_get hk, e2.symm⟩)

end

/-! ### The memory -/

/-- A dictionary has a list. -/
def Own (h : Heap K V) (x a : Nat) : Prop := a ∈ (h.dict x).map (·.2)

/-- No list belongs to two dictionaries or to two keys. -/
structure Inv (h : Heap K V) : Prop where
  bound : ∀ x a, Own h x a → a < h.lists.length
  apart : ∀ x y a, Own h x a → Own h y a → x = y
  keys : ∀ x, ((h.dict x).map (·.2)).Nodup
  names : ∀ x, (Dict.keys (h.dict x)).Nodup

/-- A change that is confined to one dictionary and its lists. -/
structure Good (h : Heap K V) (d : Nat) (h' : Heap K V) : Prop where
  grow : h.lists.length ≤ h'.lists.length
  size : h'.dicts.length = h.dicts.length
  others : ∀ x, x ≠ d → h'.dict x = h.dict x
  owned : ∀ a, Own h' d a → Own h d a ∨ h.lists.length ≤ a ∧ a < h'.lists.length
  lists : ∀ a, a < h.lists.length → ¬ Own h d a → h'.list a = h.list a
  keys : ((h'.dict d).map (·.2)).Nodup
  names : (Dict.keys (h'.dict d)).Nodup

theorem dict_put (h : Heap K V) (d x : Nat) (items : List (K × Nat)) :
    (h.put d items).dict x = if x = d ∧ d < h.dicts.length then items else h.dict x := by
  unfold Heap.put Heap.dict
  simp only [List.getElem?_set]
  by_cases e : d = x
  · subst e
    by_cases hl : d < h.dicts.length <;> simp [hl]
  · have : ¬ (x = d) := fun e2 => e e2.symm
    simp [e, this]

theorem list_alloc (h : Heap K V) (vs : List V) (a : Nat) :
    (h.alloc vs).list a = if a = h.lists.length then vs else h.list a := by
  unfold Heap.alloc Heap.list
  simp only [List.getElem?_append]
  by_cases e : a = h.lists.length
  · subst e; simp
  · by_cases hl : a < h.lists.length
    · simp [hl, e]
    · have h1 : h.lists[a]? = none := List.getElem?_eq_none (by omega)
      have h2 : [vs][a - h.lists.length]? = none := List.getElem?_eq_none (by simp; omega)
      simp [hl, e, h1, h2]

theorem list_write (h : Heap K V) (a b : Nat) (vs : List V) :
    (h.write a vs).list b = if b = a ∧ a < h.lists.length then vs else h.list b := by
  unfold Heap.write Heap.list
  simp only [List.getElem?_set]
  by_cases e : a = b
  · subst e
    by_cases hl : a < h.lists.length <;> simp [hl]
  · have : ¬ (b = a) := fun e2 => e e2.symm
    simp [e, this]

theorem own_of_get {h : Heap K V} {d a : Nat} {k : K} (e : Dict.get (h.dict d) k = some a) : Own h d a :=
  List.mem_map.2 ⟨(k, a), Dict.mem_of_get e, rfl⟩

theorem good_refl {h : Heap K V} (hi : Inv h) (d : Nat) : Good h d h :=
  ⟨Nat.le_refl _, rfl, fun _ _ => rfl, fun _ h => .inl h, fun _ _ _ => rfl, hi.keys d, hi.names d⟩

theorem good_inv {h h' : Heap K V} {d : Nat} (hi : Inv h) (g : Good h d h') : Inv h' := by
  have key : ∀ x a, Own h' x a → Own h x a ∨ (x = d ∧ h.lists.length ≤ a ∧ a < h'.lists.length) := by
    intro x a ho
    by_cases e : x = d
    · subst e
      rcases g.owned a ho with h1 | h1
      · exact .inl h1
      · exact .inr ⟨rfl, h1⟩
    · unfold Own at ho
      rw [g.others x e] at ho
      exact .inl ho
  refine ⟨?_, ?_, ?_, ?_⟩
  · intro x a ho
    rcases key x a ho with h1 | ⟨_, _, h1⟩
    · exact Nat.lt_of_lt_of_le (hi.bound x a h1) g.grow
    · exact h1
  · intro x y a hx hy
    rcases key x a hx with h1 | ⟨h1, h2, _⟩ <;> rcases key y a hy with h3 | ⟨h3, h4, _⟩
    · exact hi.apart x y a h1 h3
    · have := hi.bound x a h1; omega
    · have := hi.bound y a h3; omega
    · rw [h1, h3]
  · intro x
    by_cases e : x = d
    · subst e; exact g.keys
    · rw [g.others x e]; exact hi.keys x
  · intro x
    by_cases e : x = d
    · subst e; exact g.names
    · rw [g.others x e]; exact hi.names x

theorem good_view {h h' : Heap K V} {d : Nat} (hi : Inv h) (g : Good h d h') (x : Nat) (hx : x ≠ d) : h'.view x = h.view x := by
  unfold Heap.view
  rw [g.others x hx]
  apply List.map_congr_left
  intro p hp
  have ho : Own h x p.2 := List.mem_map.2 ⟨p, hp, rfl⟩
  rw [g.lists p.2 (hi.bound x p.2 ho)]
  intro hd
  exact hx (hi.apart x d p.2 ho hd)

theorem good_trans {h h' h'' : Heap K V} {d : Nat} (g : Good h d h') (g' : Good h' d h'') : Good h d h'' := by
  refine ⟨Nat.le_trans g.grow g'.grow, g'.size.trans g.size, ?_, ?_, ?_, g'.keys, g'.names⟩
  · intro x hx; rw [g'.others x hx, g.others x hx]
  · intro a ho
    rcases g'.owned a ho with h1 | h1
    · rcases g.owned a h1 with h2 | h2
      · exact .inl h2
      · exact .inr ⟨h2.1, Nat.lt_of_lt_of_le h2.2 g'.grow⟩
    · exact .inr ⟨Nat.le_trans g.grow h1.1, h1.2⟩
  · intro a ha hn
    rw [g'.lists a (Nat.lt_of_lt_of_le ha g.grow), g.lists a ha hn]
    intro ho
    rcases g.owned a ho with h1 | h1
    · exact hn h1
    · omega

theorem good_store {h : Heap K V} (hi : Inv h) (d : Nat) (k : K) (vs : List V) : Good h d (h.store d k vs) := by
  have hd : ∀ x, (h.store d k vs).dict x = if x = d ∧ d < h.dicts.length then Dict.set (h.dict d) k h.lists.length else h.dict x := by
    intro x; unfold Heap.store; rw [dict_put]; rfl
  refine ⟨by simp [Heap.store, Heap.alloc, Heap.put], by simp [Heap.store, Heap.alloc, Heap.put], ?_, ?_, ?_, ?_, ?_⟩
  · intro x hx; rw [hd]; simp [hx]
  · intro a ho
    unfold Own at ho
    rw [hd] at ho
    split at ho
    · obtain ⟨p, hp, rfl⟩ := List.mem_map.1 ho
      rcases mem_set hp with h1 | h1
      · exact .inl (List.mem_map.2 ⟨p, h1, rfl⟩)
      · right; rw [h1]; simp [Heap.store, Heap.alloc, Heap.put]
    · exact .inl ho
  · intro a ha _
    show (h.alloc vs).list a = _
    rw [list_alloc, if_neg (by omega)]
  · rw [hd]
    split
    · apply nodup_set_new (hi.keys d)
      intro p hp e
      have := hi.bound d p.2 (List.mem_map.2 ⟨p, hp, rfl⟩)
      omega
    · exact hi.keys d
  · rw [hd]
    split
    · exact Dict.nodup_set (hi.names d) _ _
    · exact hi.names d

theorem good_write {h : Heap K V} (hi : Inv h) (d a : Nat) (vs : List V) (ho : Own h d a) : Good h d (h.write a vs) := by
  refine ⟨by simp [Heap.write], rfl, fun _ _ => rfl, fun _ h => .inl h, ?_, hi.keys d, hi.names d⟩
  intro b _ hn
  rw [list_write, if_neg]
  rintro ⟨rfl, _⟩
  exact hn ho

theorem good_sub {h : Heap K V} (hi : Inv h) (d : Nat) (items : List (K × Nat)) (hs : items.Sublist (h.dict d)) :
    Good h d (h.put d items) := by
  refine ⟨by simp [Heap.put], by simp [Heap.put], ?_, ?_, fun _ _ _ => rfl, ?_, ?_⟩
  · intro x hx; rw [dict_put]; simp [hx]
  · intro a ho
    unfold Own at ho
    rw [dict_put] at ho
    split at ho
    · exact .inl ((hs.map _).subset ho)
    · exact .inl ho
  · rw [dict_put]
    split
    · exact (hi.keys d).sublist (hs.map _)
    · exact hi.keys d
  · rw [dict_put]
    split
    · exact (hi.names d).sublist (hs.map _)
    · exact hi.names d

theorem good_add {h : Heap K V} (hi : Inv h) (d : Nat) (k : K) (v : V) : Good h d (h.add d k v) := by
  unfold Heap.add
  split
  · rename_i a e
    exact good_write hi d a _ (own_of_get e)
  · exact good_store hi d k [v]

theorem good_adds (ps : List (K × V)) (d : Nat) : ∀ {h : Heap K V}, Inv h →
    Good h d (ps.foldl (fun h p => h.add d p.1 p.2) h) := by
  induction ps with
  | nil => intro h hi; exact good_refl hi d
  | cons p ps ih =>
    intro h hi
    have g := good_add hi d p.1 p.2
    exact good_trans g (ih (good_inv hi g))

theorem good_grow {h : Heap K V} (hi : Inv h) (d : Nat) (ls : List (List V)) : Good h d { h with lists := h.lists ++ ls } := by
  refine ⟨by simp, rfl, fun _ _ => rfl, fun _ h => .inl h, ?_, hi.keys d, hi.names d⟩
  intro a ha _
  unfold Heap.list
  rw [List.getElem?_append_left ha]

/-- A call changes its dictionary only. -/
theorem good_call {h : Heap K V} (hi : Inv h) (d : Nat) (op : Op K V) : Good h d (call h d op).1 := by
  cases op with
  | setitem k v => exact good_store hi d k [v]
  | add k v => exact good_add hi d k v
  | setlist k vs => exact good_store hi d k vs
  | setdefault k v =>
    unfold Heap.call; simp only
    split
    · exact good_refl hi d
    · exact good_store hi d k [v]
  | setlistdefault k vs =>
    unfold Heap.call; simp only
    split
    · exact good_refl hi d
    · exact good_store hi d k vs
  | update ps => exact good_adds ps d hi
  | pop k =>
    unfold Heap.call; simp only
    split
    · exact good_sub hi d _ (del_sublist _ _)
    · exact good_refl hi d
  | popDefault k v =>
    unfold Heap.call; simp only
    split
    · exact good_sub hi d _ (del_sublist _ _)
    · exact good_refl hi d
  | popitem =>
    unfold Heap.call; simp only
    split
    · exact good_sub hi d _ (List.dropLast_sublist _)
    · exact good_refl hi d
  | poplist k =>
    unfold Heap.call; simp only
    split
    · exact good_sub hi d _ (del_sublist _ _)
    · exact good_grow hi d [[]]
  | popitemlist =>
    unfold Heap.call; simp only
    split
    · exact good_sub hi d _ (List.dropLast_sublist _)
    · exact good_refl hi d
  | delitem k =>
    unfold Heap.call; simp only
    split
    · exact good_sub hi d _ (del_sublist _ _)
    · exact good_refl hi d
  | clear => exact good_sub hi d _ (List.nil_sublist _)
  | alias k vs =>
    unfold Heap.call; simp only
    split
    · rename_i a e
      exact good_write hi d a vs (own_of_get e)
    · exact good_refl hi d

/-! ### Calls seen through the contents -/

theorem get_view (h : Heap K V) (d : Nat) (k : K) : Dict.get (h.view d) k = (Dict.get (h.dict d) k).map h.list :=
  get_mapv _ _ _

theorem view_store {h : Heap K V} (hi : Inv h) (d : Nat) (hd : d < h.dicts.length) (k : K) (vs : List V) :
    (h.store d k vs).view d = Dict.set (h.view d) k vs := by
  unfold Heap.view Heap.store
  rw [dict_put, if_pos ⟨rfl, hd⟩]
  have h1 : (h.alloc vs).dict d = h.dict d := rfl
  have e : ∀ a, ((h.alloc vs).put d (Dict.set (h.dict d) k h.lists.length)).list a = (h.alloc vs).list a := fun _ => rfl
  simp only [e]
  rw [← set_mapv, list_alloc, if_pos rfl]
  congr 1
  apply List.map_congr_left
  intro p hp
  rw [list_alloc, if_neg]
  have := hi.bound d p.2 (List.mem_map.2 ⟨p, hp, rfl⟩)
  omega

theorem view_write {h : Heap K V} (hi : Inv h) (d a : Nat) (k : K) (vs : List V) (e : Dict.get (h.dict d) k = some a) :
    (h.write a vs).view d = Dict.set (h.view d) k vs := by
  unfold Heap.view
  have h1 : (h.write a vs).dict d = h.dict d := rfl
  rw [h1, write_mapv h.list (h.write a vs).list (h.dict d) k a (hi.keys d) e]
  · rw [list_write, if_pos ⟨rfl, hi.bound d a (own_of_get e)⟩]
  · intro b hb
    rw [list_write, if_neg (fun hx => hb hx.1)]

theorem view_put (h : Heap K V) (d : Nat) (hd : d < h.dicts.length) (items : List (K × Nat)) :
    (h.put d items).view d = items.map fun p => (p.1, h.list p.2) := by
  unfold Heap.view
  rw [dict_put, if_pos ⟨rfl, hd⟩]
  rfl

theorem view_add {h : Heap K V} (hi : Inv h) (d : Nat) (hd : d < h.dicts.length) (k : K) (v : V) :
    (h.add d k v).view d = MD.add (h.view d) k v := by
  unfold Heap.add MD.add
  rw [get_view]
  cases e : Dict.get (h.dict d) k with
  | some a =>
    simp only
    rw [view_write hi d a k _ e]
    rfl
  | none => exact view_store hi d hd k [v]

theorem view_adds (ps : List (K × V)) (d : Nat) : ∀ {h : Heap K V}, Inv h → d < h.dicts.length →
    (ps.foldl (fun h p => h.add d p.1 p.2) h).view d = ps.foldl (fun d p => MD.add d p.1 p.2) (h.view d) := by
  induction ps with
  | nil => intro h _ _; rfl
  | cons p ps ih =>
    intro h hi hd
    have g := good_add hi d p.1 p.2
    rw [List.foldl_cons, List.foldl_cons, ih (good_inv hi g) (by rw [g.size]; exact hd), view_add hi d hd]

theorem view_call {h : Heap K V} (hi : Inv h) (d : Nat) (hd : d < h.dicts.length) (op : Op K V) :
    (call h d op).1.view d = (MD.step (h.view d) op).1 ∧ (call h d op).2.2 = (MD.step (h.view d) op).2 := by
  have hget := get_view h d
  have hhas : ∀ k, Dict.has (h.view d) k = (Dict.get (h.dict d) k).isSome := by
    intro k; unfold Dict.has; rw [hget]; cases Dict.get (h.dict d) k <;> rfl
  cases op with
  | setitem k v => exact ⟨view_store hi d hd k [v], rfl⟩
  | add k v => exact ⟨view_add hi d hd k v, rfl⟩
  | setlist k vs => exact ⟨view_store hi d hd k vs, rfl⟩
  | setdefault k v =>
    unfold Heap.call MD.step; simp only [hhas]
    cases e : Dict.get (h.dict d) k with
    | some a =>
      refine ⟨rfl, ?_⟩
      simp only [Option.isSome_some, if_true]
      unfold MD.getitem
      rw [hget, e]
      rfl
    | none => exact ⟨view_store hi d hd k [v], rfl⟩
  | setlistdefault k vs =>
    unfold Heap.call MD.step; simp only [hget]
    cases e : Dict.get (h.dict d) k with
    | some a => exact ⟨rfl, rfl⟩
    | none => exact ⟨view_store hi d hd k vs, rfl⟩
  | update ps => exact ⟨view_adds ps d hi hd, rfl⟩
  | pop k =>
    unfold Heap.call MD.step; simp only [hget]
    cases e : Dict.get (h.dict d) k with
    | some a => exact ⟨by rw [view_put _ _ hd]; exact (del_mapv _ _ _).symm, rfl⟩
    | none => exact ⟨rfl, rfl⟩
  | popDefault k v =>
    unfold Heap.call MD.step; simp only [hget]
    cases e : Dict.get (h.dict d) k with
    | some a => exact ⟨by rw [view_put _ _ hd]; exact (del_mapv _ _ _).symm, rfl⟩
    | none => exact ⟨rfl, rfl⟩
  | popitem =>
    unfold Heap.call MD.step
    simp only
    have hl : (h.view d).getLast? = ((h.dict d).getLast?).map fun p => (p.1, h.list p.2) := List.getLast?_map ..
    rw [hl]
    cases e : (h.dict d).getLast? with
    | some p => exact ⟨by simp only [Option.map_some]; rw [view_put _ _ hd]; exact List.map_dropLast .., rfl⟩
    | none => exact ⟨rfl, rfl⟩
  | poplist k =>
    unfold Heap.call MD.step; simp only [hget]
    cases e : Dict.get (h.dict d) k with
    | some a => exact ⟨by rw [view_put _ _ hd]; exact (del_mapv _ _ _).symm, rfl⟩
    | none =>
      refine ⟨?_, rfl⟩
      show Heap.view (h.alloc []) d = h.view d
      unfold Heap.view
      apply List.map_congr_left
      intro p hp
      rw [list_alloc, if_neg]
      have := hi.bound d p.2 (List.mem_map.2 ⟨p, hp, rfl⟩)
      omega
  | popitemlist =>
    unfold Heap.call MD.step
    simp only
    have hl : (h.view d).getLast? = ((h.dict d).getLast?).map fun p => (p.1, h.list p.2) := List.getLast?_map ..
    rw [hl]
    cases e : (h.dict d).getLast? with
    | some p => exact ⟨by simp only [Option.map_some]; rw [view_put _ _ hd]; exact List.map_dropLast .., rfl⟩
    | none => exact ⟨rfl, rfl⟩
  | delitem k =>
    unfold Heap.call MD.step; simp only [hhas]
    cases e : Dict.get (h.dict d) k with
    | some a => exact ⟨by rw [view_put _ _ hd]; exact (del_mapv _ _ _).symm, rfl⟩
    | none => exact ⟨rfl, rfl⟩
  | clear => exact ⟨by show Heap.view (h.put d []) d = _; rw [view_put _ _ hd]; rfl, rfl⟩
  | alias k vs =>
    unfold Heap.call MD.step; simp only [hhas]
    cases e : Dict.get (h.dict d) k with
    | some a => exact ⟨by simp only [Option.isSome_some, if_true]; rw [view_write hi d a k vs e], rfl⟩
    | none => exact ⟨rfl, rfl⟩

/-! ### New dictionaries -/

theorem new_dict (h : Heap K V) (items : MDict K V) (x : Nat) (hx : x ≠ h.dicts.length) : (h.newDict items).dict x = h.dict x := by
  unfold Heap.newDict Heap.dict
  simp only [List.getElem?_append]
  by_cases hl : x < h.dicts.length
  · simp [hl]
  · rw [if_neg hl, List.getElem?_eq_none (by simp; omega), List.getElem?_eq_none (by omega)]

theorem new_dict_self (h : Heap K V) (items : MDict K V) :
    (h.newDict items).dict h.dicts.length = (items.zipIdx h.lists.length).map fun p => (p.1.1, p.2) := by
  unfold Heap.newDict Heap.dict
  simp

theorem new_addresses (h : Heap K V) (items : MDict K V) :
    ((h.newDict items).dict h.dicts.length).map (·.2) = List.range' h.lists.length items.length := by
  rw [new_dict_self, List.map_map]
  show (items.zipIdx h.lists.length).map (fun p => p.2) = _
  exact List.zipIdx_map_snd _ _

theorem new_list (h : Heap K V) (items : MDict K V) (a : Nat) (ha : a < h.lists.length) : (h.newDict items).list a = h.list a := by
  unfold Heap.newDict Heap.list
  simp only
  rw [List.getElem?_append_left ha]

theorem new_inv {h : Heap K V} (hi : Inv h) (items : MDict K V) (hn : (Dict.keys items).Nodup) : Inv (h.newDict items) := by
  have key : ∀ x a, Own (h.newDict items) x a →
      (x ≠ h.dicts.length ∧ Own h x a) ∨ (x = h.dicts.length ∧ h.lists.length ≤ a ∧ a < h.lists.length + items.length) := by
    intro x a ho
    by_cases e : x = h.dicts.length
    · subst e
      unfold Own at ho
      rw [new_addresses, List.mem_range'_1] at ho
      exact .inr ⟨rfl, ho⟩
    · unfold Own at ho
      rw [new_dict h items x e] at ho
      exact .inl ⟨e, ho⟩
  have hlen : (h.newDict items).lists.length = h.lists.length + items.length := by simp [Heap.newDict]
  refine ⟨?_, ?_, ?_, ?_⟩
  · intro x a ho
    rw [hlen]
    rcases key x a ho with ⟨_, h1⟩ | ⟨_, _, h1⟩
    · have := hi.bound x a h1; omega
    · exact h1
  · intro x y a hx hy
    rcases key x a hx with ⟨_, h1⟩ | ⟨h1, h2, _⟩ <;> rcases key y a hy with ⟨_, h3⟩ | ⟨h3, h4, _⟩
    · exact hi.apart x y a h1 h3
    · have := hi.bound x a h1; omega
    · have := hi.bound y a h3; omega
    · rw [h1, h3]
  · intro x
    by_cases e : x = h.dicts.length
    · subst e; rw [new_addresses]; exact List.nodup_range'
    · rw [new_dict h items x e]; exact hi.keys x
  · intro x
    by_cases e : x = h.dicts.length
    · subst e
      rw [new_dict_self]
      have : Dict.keys ((items.zipIdx h.lists.length).map fun p => (p.1.1, p.2)) = Dict.keys items := by
        unfold Dict.keys
        rw [List.map_map]
        show (items.zipIdx h.lists.length).map ((·.1) ∘ Prod.fst) = _
        rw [← List.map_map, List.zipIdx_map_fst]
      rw [this]
      exact hn
    · rw [new_dict h items x e]; exact hi.names x

theorem new_view {h : Heap K V} (hi : Inv h) (items : MDict K V) (x : Nat) (hx : x ≠ h.dicts.length) :
    (h.newDict items).view x = h.view x := by
  unfold Heap.view
  rw [new_dict h items x hx]
  apply List.map_congr_left
  intro p hp
  rw [new_list h items p.2 (hi.bound x p.2 (List.mem_map.2 ⟨p, hp, rfl⟩))]

theorem new_view_self (h : Heap K V) (items : MDict K V) : (h.newDict items).view h.dicts.length = items := by
  unfold Heap.view
  rw [new_dict_self, List.map_map]
  apply List.ext_getElem?
  intro i
  simp only [List.getElem?_map, List.getElem?_zipIdx, Option.map_map]
  cases hi : items[i]? with
  | none => rfl
  | some p =>
    simp only [Option.map_some, Function.comp]
    have : (h.newDict items).list (h.lists.length + i) = p.2 := by
      unfold Heap.newDict Heap.list
      simp only
      rw [List.getElem?_append_right (by omega), Nat.add_sub_cancel_left, List.getElem?_map, hi]
      rfl
    rw [this]

theorem set_new_key {A : Type} (l : List (K × A)) (k : K) (a : A) (h : k ∉ Dict.keys l) : Dict.set l k a = l ++ [(k, a)] := by
  induction l with
  | nil => rfl
  | cons q l ih =>
    obtain ⟨b, v⟩ := q
    simp only [Dict.keys_cons, List.mem_cons, not_or] at h
    simp only [Dict.set]
    rw [if_neg (fun e => h.1 e.symm), ih h.2]
    rfl

theorem ofDict_lists (d : MDict K V) (h : (Dict.keys d).Nodup) : ofDict (d.map fun p => (p.1, (.inr p.2 : V ⊕ List V))) = d := by
  have key : ∀ (d acc : MDict K V), (Dict.keys (acc ++ d)).Nodup →
      (d.map fun p => (p.1, (.inr p.2 : V ⊕ List V))).foldl (fun d p =>
        Dict.set d p.1 (match p.2 with | .inl v => [v] | .inr l => l)) acc = acc ++ d := by
    intro d
    induction d with
    | nil => intro acc _; simp
    | cons q d ih =>
      intro acc hn
      rw [List.map_cons, List.foldl_cons]
      simp only
      rw [set_new_key]
      · rw [ih]
        · simp
        · simpa using hn
      · intro hm
        simp only [Dict.keys_append, Dict.keys_cons, List.nodup_append] at hn
        exact hn.2.2 _ hm _ (by simp) rfl
  exact key d [] h

theorem nodup_ofDict (m : List (K × (V ⊕ List V))) : (Dict.keys (ofDict m)).Nodup := by
  unfold ofDict
  have key : ∀ (acc : MDict K V), (Dict.keys acc).Nodup → (Dict.keys (m.foldl (fun d p =>
        Dict.set d p.1 (match p.2 with | .inl v => [v] | .inr l => l)) acc)).Nodup := by
    induction m with
    | nil => intro acc h; exact h
    | cons q m ih =>
      intro acc h
      rw [List.foldl_cons]
      exact ih _ (Dict.nodup_set h _ _)
  exact key [] (by simp)

theorem nodup_ofPairs (ps : List (K × V)) : (Dict.keys (ofPairs ps)).Nodup := by
  unfold ofPairs
  have key : ∀ (acc : MDict K V), (Dict.keys acc).Nodup → (Dict.keys (ps.foldl (fun d p => MD.add d p.1 p.2) acc)).Nodup := by
    induction ps with
    | nil => intro acc h; exact h
    | cons q m ih =>
      intro acc h
      rw [List.foldl_cons]
      exact ih _ (Dict.nodup_set h _ _)
  exact key [] (by simp)

theorem nodup_view {h : Heap K V} (hi : Inv h) (d : Nat) : (Dict.keys (h.view d)).Nodup := by
  have : Dict.keys (h.view d) = Dict.keys (h.dict d) := by
    unfold Dict.keys Heap.view
    rw [List.map_map]
    rfl
  rw [this]
  exact hi.names d

/-! ### Programs -/

/-- A statement that is a changing call on a dictionary. -/
def Changes (x : Nat) : Stmt K V → Bool
  | .call d _ => d = x
  | .setlist d _ _ => d = x
  | .setlistdefault d _ _ => d = x
  | .update d _ => d = x
  | _ => false

/-- A statement that returns lists that a dictionary keeps. -/
def Hands (x : Nat) : Stmt K V → Bool
  | .call d (.setlistdefault _ _) => d = x
  | .setlistdefault d _ _ => d = x
  | .listvalues d => d = x
  | _ => false

/-- What is known of the memory after a program: also, a list that a statement returned belongs to a dictionary only
if the statement handed it out. -/
structure Known (ps : List (Stmt K V)) (s : St K V) : Prop where
  inv : Inv s.heap
  len : s.vars.length = ps.length
  var : ∀ (i : Nat) as, s.vars[i]? = some as → ∀ a ∈ as, a < s.heap.lists.length ∧
    ∀ x, Own s.heap x a → ∃ p : Stmt K V, ps[i]? = some p ∧ Hands x p = true

/-- What a statement does: the dictionaries it does not change keep their lists, and lists it does not write keep their
contents; what it returns is new, was removed, or is handed out. -/
structure Does (s : St K V) (p : Stmt K V) (h' : Heap K V) (out : List Nat) : Prop where
  inv : Inv h'
  grow : s.heap.lists.length ≤ h'.lists.length
  old : ∀ x a, a < s.heap.lists.length → Own h' x a → Own s.heap x a
  out : ∀ a ∈ out, a < h'.lists.length ∧ ∀ x, Own h' x a → Hands x p = true
  view : ∀ x, x < s.heap.dicts.length → Changes x p = false →
    (∀ l vs a, p = .write l vs → s.var l = some a → ¬ Own s.heap x a) → h'.view x = s.heap.view x
  size : s.heap.dicts.length ≤ h'.dicts.length
  dict : ∀ x, x < s.heap.dicts.length → Changes x p = false → h'.dict x = s.heap.dict x

theorem not_own_del {h : Heap K V} (hi : Inv h) (d : Nat) (hd : d < h.dicts.length) {k : K} {a : Nat}
    (e : Dict.get (h.dict d) k = some a) (x : Nat) : ¬ Own (h.put d (Dict.del (h.dict d) k)) x a := by
  intro ho
  unfold Own at ho
  rw [dict_put] at ho
  split at ho
  · clear hd
    have hn := hi.keys d
    generalize h.dict d = l at ho e hn
    induction l with
    | nil => cases e
    | cons q l ih =>
      obtain ⟨b, v⟩ := q
      simp only [List.map_cons, List.nodup_cons] at hn
      simp only [Dict.get] at e
      simp only [Dict.del] at ho
      by_cases eb : b = k
      · rw [if_pos eb] at e ho
        cases e
        exact hn.1 ho
      · rw [if_neg eb] at e ho
        rcases List.mem_cons.1 ho with h1 | h1
        · subst h1
          exact hn.1 (List.mem_map.2 ⟨(k, _), Dict.mem_of_get e, rfl⟩)
        · exact ih h1 e hn.2
  · rename_i hx
    have : x = d := hi.apart x d a ho (own_of_get e)
    exact hx ⟨this, hd⟩

theorem not_own_last {h : Heap K V} (hi : Inv h) (d : Nat) (hd : d < h.dicts.length) {p : K × Nat}
    (e : (h.dict d).getLast? = some p) (x : Nat) : ¬ Own (h.put d (h.dict d).dropLast) x p.2 := by
  intro ho
  have hn := hi.keys d
  have el : h.dict d = (h.dict d).dropLast ++ [p] := by
    rcases List.eq_nil_or_concat (h.dict d) with h0 | ⟨l, q, h0⟩
    · rw [h0] at e; cases e
    · rw [h0] at e ⊢
      simp at e
      subst e
      simp
  unfold Own at ho
  rw [dict_put] at ho
  split at ho
  · rw [el, List.map_append, List.nodup_append] at hn
    exact hn.2.2 p.2 ho p.2 (by simp) rfl
  · rename_i hx
    have : x = d := hi.apart x d p.2 ho (by unfold Own; rw [el]; simp)
    exact hx ⟨this, hd⟩

theorem does_good {s : St K V} {p : Stmt K V} {h' : Heap K V} {out : List Nat} {d : Nat} (hi : Inv s.heap) (g : Good s.heap d h')
    (hc : Changes d p = true) (ho : ∀ a ∈ out, a < h'.lists.length ∧ ∀ x, Own h' x a → Hands x p = true) : Does s p h' out := by
  refine ⟨good_inv hi g, g.grow, ?_, ho, ?_, Nat.le_of_eq g.size.symm, ?_⟩
  · intro x a ha hx
    by_cases e : x = d
    · subst e
      rcases g.owned a hx with h1 | h1
      · exact h1
      · omega
    · unfold Own at hx
      rw [g.others x e] at hx
      exact hx
  · intro x _ hx _
    apply good_view hi g
    intro e
    subst e
    rw [hx] at hc
    cases hc
  · intro x _ hx
    apply g.others
    intro e
    subst e
    rw [hx] at hc
    cases hc

theorem does_call {s : St K V} {p : Stmt K V} (hi : Inv s.heap) (d : Nat) (hd : d < s.heap.dicts.length ∨ ∀ k, Dict.get (s.heap.dict d) k = none)
    (op : Op K V) (hc : Changes d p = true) (hh : ∀ k vs, op = .setlistdefault k vs → Hands d p = true) :
    Does s p (call s.heap d op).1 (call s.heap d op).2.1 := by
  have g := good_call hi d op
  apply does_good hi g hc
  have gi := good_inv hi g
  intro a ha
  cases op with
  | setlistdefault k vs =>
    have hH := hh k vs rfl
    have hown : a < (call s.heap d (.setlistdefault k vs)).1.lists.length ∧
        ∀ x, Own (call s.heap d (.setlistdefault k vs)).1 x a → x = d := by
      unfold Heap.call at ha g gi ⊢
      simp only at ha g gi ⊢
      cases e : Dict.get (s.heap.dict d) k with
      | some b =>
        rw [e] at ha
        simp only [List.mem_singleton] at ha
        subst ha
        have ho := own_of_get e
        exact ⟨hi.bound d a ho, fun x hx => hi.apart x d a hx ho⟩
      | none =>
        rw [e] at ha g gi
        simp only [List.mem_singleton] at ha g gi
        subst ha
        refine ⟨by simp [Heap.store, Heap.alloc, Heap.put], fun x hx => ?_⟩
        false_or_by_contra
        rename_i hne
        unfold Own at hx
        rw [g.others x hne] at hx
        exact absurd (hi.bound x _ hx) (Nat.lt_irrefl _)
    refine ⟨hown.1, fun x hx => ?_⟩
    rw [hown.2 x hx]
    exact hH
  | poplist k =>
    unfold Heap.call at ha ⊢
    simp only at ha ⊢
    cases e : Dict.get (s.heap.dict d) k with
    | some b =>
      rw [e] at ha
      simp only [List.mem_singleton] at ha
      subst ha
      refine ⟨hi.bound d a (own_of_get e), fun x hx => ?_⟩
      rcases hd with hd | hd
      · exact absurd hx (not_own_del hi d hd e x)
      · rw [hd] at e; cases e
    | none =>
      rw [e] at ha
      simp only [List.mem_singleton] at ha
      subst ha
      refine ⟨by simp [Heap.alloc], fun x hx => ?_⟩
      exact absurd (hi.bound x _ hx) (Nat.lt_irrefl _)
  | popitemlist =>
    unfold Heap.call at ha ⊢
    simp only at ha ⊢
    cases e : (s.heap.dict d).getLast? with
    | some q =>
      rw [e] at ha
      simp only [List.mem_singleton] at ha
      subst ha
      have hm : q ∈ s.heap.dict d := List.mem_of_getLast? e
      refine ⟨hi.bound d q.2 (List.mem_map.2 ⟨q, hm, rfl⟩), fun x hx => ?_⟩
      rcases hd with hd | hd
      · exact absurd hx (not_own_last hi d hd e x)
      · obtain ⟨k, a⟩ := q
        have := hd k
        rw [Dict.get_eq_none] at this
        exact absurd (List.mem_map.2 ⟨(k, a), hm, rfl⟩) this
    | none => rw [e] at ha; cases ha
  | setitem k v => cases ha
  | add k v => cases ha
  | setlist k vs => cases ha
  | setdefault k v =>
    unfold Heap.call at ha; simp only at ha
    split at ha <;> cases ha
  | update ps => cases ha
  | pop k =>
    unfold Heap.call at ha; simp only at ha
    split at ha <;> cases ha
  | popDefault k v =>
    unfold Heap.call at ha; simp only at ha
    split at ha <;> cases ha
  | popitem =>
    unfold Heap.call at ha; simp only at ha
    split at ha <;> cases ha
  | delitem k =>
    unfold Heap.call at ha; simp only at ha
    split at ha <;> cases ha
  | clear => cases ha
  | alias k vs =>
    unfold Heap.call at ha; simp only at ha
    split at ha <;> cases ha

theorem missing {h : Heap K V} (d : Nat) : d < h.dicts.length ∨ ∀ k, Dict.get (h.dict d) k = none := by
  by_cases hd : d < h.dicts.length
  · exact .inl hd
  · right
    intro k
    unfold Heap.dict
    rw [List.getElem?_eq_none (by omega)]
    rfl

theorem does_new {s : St K V} {p : Stmt K V} (hi : Inv s.heap) (items : MDict K V) (hn : (Dict.keys items).Nodup) :
    Does s p (s.heap.newDict items) [] := by
  refine ⟨new_inv hi items hn, by simp [Heap.newDict], ?_, by simp, ?_, by simp [Heap.newDict],
    fun x hx _ => new_dict _ _ _ (by omega)⟩
  · intro x a ha hx
    by_cases e : x = s.heap.dicts.length
    · subst e
      unfold Own at hx
      rw [new_addresses, List.mem_range'_1] at hx
      omega
    · unfold Own at hx
      rw [new_dict _ _ _ e] at hx
      exact hx
  · intro x hx _ _
    exact new_view hi items x (by omega)

theorem does_grow {s : St K V} {p : Stmt K V} (hi : Inv s.heap) (ls : List (List V)) :
    Does s p { s.heap with lists := s.heap.lists ++ ls } (List.range' s.heap.lists.length ls.length) := by
  have g := good_grow hi s.heap.dicts.length ls
  have gi := good_inv hi g
  refine ⟨gi, g.grow, fun x a _ hx => hx, ?_, ?_, Nat.le_refl _, fun _ _ _ => rfl⟩
  · intro a ha
    rw [List.mem_range'_1] at ha
    refine ⟨by simp; omega, fun x hx => ?_⟩
    have := hi.bound x a hx
    omega
  · intro x hx _ _
    exact good_view hi g x (by omega)

theorem does_nothing {s : St K V} {p : Stmt K V} (hi : Inv s.heap) : Does s p s.heap [] :=
  ⟨hi, Nat.le_refl _, fun _ _ _ h => h, by simp, fun _ _ _ _ => rfl, Nat.le_refl _, fun _ _ _ => rfl⟩

theorem does {ps : List (Stmt K V)} {s : St K V} (hk : Known ps s) (p : Stmt K V) : Does s p (exec s p).1 (exec s p).2.1 := by
  have hi := hk.inv
  cases p with
  | new qs => exact does_new hi _ (nodup_ofPairs qs)
  | newList vs => exact does_grow hi [vs]
  | fromLists m => exact does_new hi _ (nodup_ofDict _)
  | copy d => exact does_new hi _ (nodup_view hi d)
  | deepcopy d => exact does_new hi _ (nodup_ofDict _)
  | pickle d =>
    unfold exec
    simp only
    cases MD.items (s.heap.view d) with
    | ok l => exact does_new hi _ (nodup_view hi d)
    | error e => exact does_nothing hi
  | call d op => exact does_call hi d (missing d) op (by simp [Changes]) (fun k vs e => by subst e; simp [Hands])
  | setlist d k l => exact does_call hi d (missing d) _ (by simp [Changes]) (fun k vs e => by cases e)
  | setlistdefault d k l => exact does_call hi d (missing d) _ (by simp [Changes]) (fun k vs e => by simp [Hands])
  | update d e =>
    unfold exec
    simp only
    split
    · exact does_nothing hi
    · exact does_call hi d (missing d) _ (by simp [Changes]) (fun k vs e => by cases e)
  | getlist d k => exact does_grow hi _
  | lists d => exact does_grow hi _
  | toDict d => exact does_grow hi _
  | listvalues d =>
    refine ⟨hi, Nat.le_refl _, fun _ _ _ h => h, ?_, fun _ _ _ _ => rfl, Nat.le_refl _, fun _ _ _ => rfl⟩
    intro a ha
    refine ⟨hi.bound d a ha, fun x hx => ?_⟩
    simp [Hands, hi.apart x d a hx ha]
  | write l vs =>
    unfold exec
    simp only
    cases e : s.var l with
    | none => exact does_nothing hi
    | some a =>
      refine ⟨⟨?_, hi.apart, hi.keys, hi.names⟩, by simp [Heap.write], fun _ _ _ h => h, by simp, ?_, Nat.le_refl _, fun _ _ _ => rfl⟩
      · intro x b hb
        simpa [Heap.write] using hi.bound x b hb
      · intro x _ _ hw
        have hno := hw l vs a rfl e
        show (s.heap.write a vs).view x = s.heap.view x
        unfold Heap.view
        apply List.map_congr_left
        intro q hq
        rw [list_write, if_neg]
        rintro ⟨h1, _⟩
        exact hno (by rw [← h1]; exact List.mem_map.2 ⟨q, hq, rfl⟩)

theorem known_step {ps : List (Stmt K V)} {s : St K V} (hk : Known ps s) (p : Stmt K V) : Known (ps ++ [p]) (Heap.step s p) := by
  have hd := does hk p
  unfold Heap.step
  refine ⟨hd.inv, by simp [hk.len], ?_⟩
  intro i as hi a ha
  simp only [List.getElem?_append] at hi
  rw [List.getElem?_append]
  rw [hk.len] at hi
  by_cases h1 : i < ps.length
  · rw [if_pos h1] at hi ⊢
    obtain ⟨v1, v2⟩ := hk.var i as hi a ha
    exact ⟨Nat.lt_of_lt_of_le v1 hd.grow, fun x hx => v2 x (hd.old x a v1 hx)⟩
  · rw [if_neg h1] at hi ⊢
    have hz : i - ps.length = 0 := by
      false_or_by_contra
      rw [List.getElem?_eq_none (by simp; omega)] at hi
      cases hi
    rw [hz] at hi ⊢
    simp only [List.getElem?_cons_zero, Option.some.injEq] at hi
    subst hi
    obtain ⟨o1, o2⟩ := hd.out a ha
    exact ⟨o1, fun x hx => ⟨p, rfl, o2 x hx⟩⟩

theorem known_run (ps : List (Stmt K V)) : Known ps (run ps) := by
  have key : ∀ (qs pre : List (Stmt K V)) (s : St K V), Known pre s → Known (pre ++ qs) (qs.foldl Heap.step s) := by
    intro qs
    induction qs with
    | nil => intro pre s h; simpa using h
    | cons q qs ih =>
      intro pre s h
      have := ih (pre ++ [q]) (Heap.step s q) (known_step h q)
      simpa using this
  have h0 : Known ([] : List (Stmt K V)) ⟨⟨[], []⟩, []⟩ :=
    ⟨⟨by simp [Own, Heap.dict], by simp [Own, Heap.dict], by simp [Heap.dict], by simp [Heap.dict]⟩, rfl, by simp⟩
  exact key ps [] _ h0

theorem run_append (ps qs : List (Stmt K V)) : run (ps ++ qs) = qs.foldl Heap.step (run ps) := by
  unfold run
  rw [List.foldl_append]

theorem run_concat (ps : List (Stmt K V)) (p : Stmt K V) : run (ps ++ [p]) = Heap.step (run ps) p := by
  rw [run_append]; rfl

/-! ### C120 -/

/-- **C120.**  After any program, a call on a dictionary does to its contents what the call does to a dictionary of values (C24),
gives the same result, and leaves every other dictionary as it is, whatever lists and dictionaries they were made from. -/
theorem C120_calls (ps : List (Stmt K V)) (d : Nat) (hd : d < (run ps).heap.dicts.length) (op : Op K V) :
    (run (ps ++ [.call d op])).heap.view d = (MD.step ((run ps).heap.view d) op).1 ∧
    (exec (run ps) (.call d op)).2.2 = (MD.step ((run ps).heap.view d) op).2 ∧
    (∀ x, x ≠ d → (run (ps ++ [.call d op])).heap.view x = (run ps).heap.view x) := by
  have hk := known_run ps
  obtain ⟨h1, h2⟩ := view_call hk.inv d hd op
  rw [run_concat]
  exact ⟨h1, h2, fun x hx => good_view hk.inv (good_call hk.inv d op) x hx⟩

/-- **C120, independence.**  Whatever came before, a dictionary shows the same after any statements that do not include a changing
call on it and do not change a list that it handed out by `setlistdefault` or `listvalues`: in particular changes
to copies of it, to what it was copied from, to lists given to it, and to lists returned by `getlist`, `lists`,
`to_dict` and `poplist` are not seen. -/
theorem C120_independent (ps qs : List (Stmt K V)) (x : Nat) (hx : x < (run ps).heap.dicts.length)
    (h1 : ∀ q ∈ qs, Changes x q = false)
    (h2 : ∀ l vs, Stmt.write l vs ∈ qs → ∀ p, (ps ++ qs)[l.1]? = some p → Hands x p = false) :
    (run (ps ++ qs)).heap.view x = (run ps).heap.view x := by
  induction qs generalizing ps with
  | nil => simp
  | cons q qs ih =>
    have hk := known_run ps
    have hd := does hk q
    have e : ps ++ q :: qs = (ps ++ [q]) ++ qs := by simp
    rw [e]
    rw [ih (ps ++ [q])]
    · rw [run_concat]
      refine hd.view x hx (h1 q (by simp)) ?_
      intro l vs a hq hv ho
      unfold St.var at hv
      cases hg : (run ps).vars[l.1]? with
      | none => rw [hg] at hv; simp at hv
      | some as =>
        rw [hg] at hv
        simp only [Option.getD_some] at hv
        obtain ⟨p, hp, hh⟩ := (hk.var l.1 as hg a (List.mem_of_getElem? hv)).2 x ho
        have := h2 l vs (by simp [hq]) p (by
          rw [List.getElem?_append_left]
          · exact hp
          · exact (List.getElem?_eq_some_iff.1 hp).1)
        rw [this] at hh
        cases hh
    · rw [run_concat]
      exact Nat.lt_of_lt_of_le hx hd.size
    · exact fun r hr => h1 r (by simp [hr])
    · intro l vs hm p hp
      exact h2 l vs (by simp [hm]) p (by rw [e]; exact hp)

/-- **C120, copies.**  A copy or deep copy is a new dictionary with the same contents, and the others are as before.  So is the result
of pickling, unless some key has no values: then pickling raises `IndexError`. -/
theorem C120_copies (ps : List (Stmt K V)) (d : Nat) (p : Stmt K V) (hp : p = .copy d ∨ p = .deepcopy d ∨ p = .pickle d) :
    (p = .pickle d ∧ (∃ q ∈ (run ps).heap.view d, q.2 = []) →
      (run (ps ++ [p])).heap = (run ps).heap ∧ (exec (run ps) p).2.2 = .error .indexError) ∧
    (¬ (p = .pickle d ∧ ∃ q ∈ (run ps).heap.view d, q.2 = []) →
      (run (ps ++ [p])).heap.dicts.length = (run ps).heap.dicts.length + 1 ∧
      (run (ps ++ [p])).heap.view (run ps).heap.dicts.length = (run ps).heap.view d ∧
      ∀ x, x < (run ps).heap.dicts.length → (run (ps ++ [p])).heap.view x = (run ps).heap.view x) := by
  have hk := known_run ps
  rw [run_concat]
  have good : ∀ items, items = (run ps).heap.view d →
      ((run ps).heap.newDict items).dicts.length = (run ps).heap.dicts.length + 1 ∧
      ((run ps).heap.newDict items).view (run ps).heap.dicts.length = (run ps).heap.view d ∧
      ∀ x, x < (run ps).heap.dicts.length → ((run ps).heap.newDict items).view x = (run ps).heap.view x := by
    intro items e
    refine ⟨by simp [Heap.newDict], by rw [new_view_self, e], fun x hx => new_view hk.inv items x (by omega)⟩
  rcases hp with rfl | rfl | rfl
  · exact ⟨fun h => by simp at h, fun _ => good _ rfl⟩
  · refine ⟨fun h => by simp at h, fun _ => ?_⟩
    exact good _ (ofDict_lists _ (nodup_view hk.inv d))
  · have hit : ∀ m : MDict K V, (∃ q ∈ m, q.2 = []) → MD.items m = .error .indexError := by
      intro m hm
      unfold MD.items
      induction m with
      | nil => obtain ⟨q, hq, _⟩ := hm; cases hq
      | cons r m ih =>
        rw [List.mapM_cons]
        obtain ⟨k, l⟩ := r
        cases l with
        | nil => rfl
        | cons v l =>
          obtain ⟨q, hq, e⟩ := hm
          rcases List.mem_cons.1 hq with h1 | h1
          · subst h1; cases e
          · rw [ih ⟨q, h1, e⟩]; rfl
    have hit2 : ∀ m : MDict K V, ¬ (∃ q ∈ m, q.2 = []) → ∃ l, MD.items m = .ok l := by
      intro m hm
      unfold MD.items
      induction m with
      | nil => exact ⟨[], rfl⟩
      | cons r m ih =>
        rw [List.mapM_cons]
        obtain ⟨k, l⟩ := r
        cases l with
        | nil => exact absurd ⟨(k, []), by simp, rfl⟩ hm
        | cons v l =>
          obtain ⟨t, ht⟩ := ih (fun ⟨q, hq, e⟩ => hm ⟨q, by simp [hq], e⟩)
          rw [ht]
          exact ⟨_, rfl⟩
    constructor
    · rintro ⟨_, he⟩
      unfold Heap.step exec
      simp only [hit _ he]
      exact ⟨trivial, trivial⟩
    · intro he
      obtain ⟨l, hl⟩ := hit2 _ (fun h => he ⟨rfl, h⟩)
      unfold Heap.step exec
      simp only [hl]
      exact good _ rfl

/-- Dictionaries made from lists have what the lists have, and pairs are grouped by their keys. -/
theorem C120_made (ps : List (Stmt K V)) (qs : List (K × V)) (m : List (K × (Nat × Nat))) (hm : (m.map (·.1)).Nodup) :
    (run (ps ++ [.new qs])).heap.view (run ps).heap.dicts.length = ofPairs qs ∧
    (run (ps ++ [.fromLists m])).heap.view (run ps).heap.dicts.length = m.map fun p => (p.1, (run ps).vals p.2) := by
  rw [run_concat, run_concat]
  refine ⟨new_view_self _ _, ?_⟩
  show ((run ps).heap.newDict _).view _ = _
  rw [new_view_self]
  have := ofDict_lists (m.map fun p => (p.1, (run ps).vals p.2)) (by simpa [Dict.keys, Function.comp_def] using hm)
  rw [List.map_map] at this
  exact this

/-! ### C121 -/

theorem vars_prefix (qs : List (Stmt K V)) (s : St K V) (i : Nat) (as : List Nat) (h : s.vars[i]? = some as) :
    (qs.foldl Heap.step s).vars[i]? = some as := by
  induction qs generalizing s with
  | nil => exact h
  | cons q qs ih =>
    rw [List.foldl_cons]
    apply ih
    unfold Heap.step
    simp only
    rw [List.getElem?_append_left (List.getElem?_eq_some_iff.1 h).1]
    exact h

theorem handed (ps : List (Stmt K V)) (d : Nat) (hd : d < (run ps).heap.dicts.length) (k : K) (vs : List V) :
    ∃ a, (exec (run ps) (.call d (.setlistdefault k vs))).2.1 = [a] ∧
      Dict.get ((run (ps ++ [.call d (.setlistdefault k vs)])).heap.dict d) k = some a := by
  rw [run_concat]
  unfold Heap.step exec Heap.call
  simp only
  cases e : Dict.get ((run ps).heap.dict d) k with
  | some a => exact ⟨a, rfl, e⟩
  | none =>
    refine ⟨_, rfl, ?_⟩
    simp only
    unfold Heap.store
    rw [dict_put, if_pos ⟨rfl, hd⟩, Dict.get_set, if_pos rfl]

/-- Statements that change a dictionary at most by `add`. -/
def AddsOnly (d : Nat) (q : Stmt K V) : Prop := Changes d q = false ∨ ∃ k v, q = .call d (.add k v)

theorem kept_list (ps qs : List (Stmt K V)) (d : Nat) (hd : d < (run ps).heap.dicts.length) (k : K) (a : Nat)
    (hq : ∀ q ∈ qs, AddsOnly d q) (h : Dict.get ((run ps).heap.dict d) k = some a) :
    Dict.get ((run (ps ++ qs)).heap.dict d) k = some a := by
  induction qs generalizing ps with
  | nil => simpa using h
  | cons q qs ih =>
    have e : ps ++ q :: qs = (ps ++ [q]) ++ qs := by simp
    have hk := known_run ps
    have hdo := does hk q
    rw [e]
    apply ih
    · rw [run_concat]; exact Nat.lt_of_lt_of_le hd hdo.size
    · exact fun r hr => hq r (by simp [hr])
    · rw [run_concat]
      rcases hq q (by simp) with h1 | ⟨k', v, rfl⟩
      · show Dict.get ((exec (run ps) q).1.dict d) k = _
        rw [hdo.dict d hd h1]
        exact h
      · show Dict.get (((run ps).heap.add d k' v).dict d) k = _
        unfold Heap.add
        split
        · exact h
        · rename_i hn
          rw [dict_put]
          have hd' : d < ((run ps).heap.alloc [v]).dicts.length := hd
          rw [if_pos ⟨rfl, hd'⟩, Dict.get_set, if_neg, h]
          rintro rfl
          rw [hn] at h
          cases h

theorem var_handed (ps qs : List (Stmt K V)) (d : Nat) (hd : d < (run ps).heap.dicts.length) (k : K) (vs : List V)
    (hq : ∀ q ∈ qs, AddsOnly d q) :
    ∃ a, (run (ps ++ .call d (.setlistdefault k vs) :: qs)).var (ps.length, 0) = some a ∧
      Dict.get ((run (ps ++ .call d (.setlistdefault k vs) :: qs)).heap.dict d) k = some a := by
  obtain ⟨a, h1, h2⟩ := handed ps d hd k vs
  have e : ps ++ .call d (.setlistdefault k vs) :: qs = (ps ++ [.call d (.setlistdefault k vs)]) ++ qs := by simp
  refine ⟨a, ?_, ?_⟩
  · unfold St.var
    rw [e, run_append, vars_prefix qs _ ps.length [a]]
    · rfl
    · rw [run_concat]
      unfold Heap.step
      simp only
      rw [h1, ← (known_run ps).len]
      simp
  · rw [e]
    apply kept_list _ _ _ _ _ _ hq h2
    rw [run_concat]
    exact Nat.lt_of_lt_of_le hd (does (known_run ps) _).size

/-- **C121.**  The list that `setlistdefault` returns stays the list of the key: whatever is done afterwards, except for changing calls on
the dictionary other than `add`, the list has the values of the key, and changing the list changes these values
and nothing else. -/
theorem C121_live (ps qs : List (Stmt K V)) (d : Nat) (hd : d < (run ps).heap.dicts.length) (k : K) (vs ws : List V)
    (hq : ∀ q ∈ qs, AddsOnly d q) :
    let now := ps ++ .call d (.setlistdefault k vs) :: qs
    (run now).vals (ps.length, 0) = MD.getlist ((run now).heap.view d) k ∧
    (run (now ++ [.write (ps.length, 0) ws])).heap.view d = Dict.set ((run now).heap.view d) k ws ∧
    ∀ x, x ≠ d → (run (now ++ [.write (ps.length, 0) ws])).heap.view x = (run now).heap.view x := by
  intro now
  obtain ⟨a, h1, h2⟩ := var_handed ps qs d hd k vs hq
  have hi := (known_run now).inv
  have hw : (run (now ++ [.write (ps.length, 0) ws])).heap = (run now).heap.write a ws := by
    rw [run_concat]
    unfold Heap.step exec
    simp only
    rw [show (run now).var (ps.length, 0) = some a from h1]
  refine ⟨?_, ?_, ?_⟩
  · unfold St.vals MD.getlist
    rw [show (run now).var (ps.length, 0) = some a from h1, get_view, show Dict.get ((run now).heap.dict d) k = some a from h2]
    rfl
  · rw [hw]
    exact view_write hi d a k ws h2
  · intro x hx
    rw [hw]
    exact good_view hi (good_write hi d a ws (own_of_get h2)) x hx

/-- **C121, `listvalues`.**  The lists that `listvalues` returns are those of the keys, in their order: changing one changes the values of
its key and nothing else. -/
theorem C121_listvalues (ps : List (Stmt K V)) (d j : Nat) (k : K) (vs ws : List V) (hj : ((run ps).heap.view d)[j]? = some (k, vs)) :
    (run (ps ++ [.listvalues d])).vals (ps.length, j) = vs ∧
    (run (ps ++ [.listvalues d, .write (ps.length, j) ws])).heap.view d = ((run ps).heap.view d).set j (k, ws) ∧
    ∀ x, x ≠ d → (run (ps ++ [.listvalues d, .write (ps.length, j) ws])).heap.view x = (run ps).heap.view x := by
  have hk := known_run ps
  have hi := hk.inv
  have hj0 := hj
  unfold Heap.view at hj
  rw [List.getElem?_map] at hj
  cases e : ((run ps).heap.dict d)[j]? with
  | none => rw [e] at hj; cases hj
  | some q =>
  rw [e] at hj
  simp only [Option.map_some, Option.some.injEq, Prod.mk.injEq] at hj
  obtain ⟨rfl, rfl⟩ := hj
  have hv : (run (ps ++ [.listvalues d])).var (ps.length, j) = some q.2 := by
    rw [run_concat]
    unfold St.var Heap.step exec
    simp only
    rw [← hk.len]
    simp [e]
  have hh : (run (ps ++ [.listvalues d])).heap = (run ps).heap := by rw [run_concat]; rfl
  have hmem : q ∈ (run ps).heap.dict d := List.mem_of_getElem? e
  have hown : Own (run ps).heap d q.2 := List.mem_map.2 ⟨q, hmem, rfl⟩
  have e2 : ps ++ [.listvalues d, .write (ps.length, j) ws] = (ps ++ [.listvalues d]) ++ [.write (ps.length, j) ws] := by simp
  have hw : (run (ps ++ [.listvalues d, .write (ps.length, j) ws])).heap = (run ps).heap.write q.2 ws := by
    rw [e2, run_concat]
    unfold Heap.step
    rw [show exec (run (ps ++ [.listvalues d])) (.write (ps.length, j) ws) = ((run (ps ++ [.listvalues d])).heap.write q.2 ws, [], .ok .unit) by
      unfold exec; simp only; rw [hv]]
    simp only
    rw [hh]
  refine ⟨?_, ?_, ?_⟩
  · unfold St.vals
    rw [hv, hh]
  · rw [hw]
    have hget : Dict.get ((run ps).heap.dict d) q.1 = some q.2 := Dict.get_of_mem (hi.names d) hmem
    rw [view_write hi d q.2 q.1 ws hget]
    have hn := nodup_view hi d
    generalize (run ps).heap.view d = l at hn hj0
    clear hw hv hh hget hmem hown e e2
    induction l generalizing j with
    | nil => simp at hj0
    | cons r l ih =>
      simp only [Dict.keys_cons, List.nodup_cons] at hn
      cases j with
      | zero =>
        simp only [List.getElem?_cons_zero, Option.some.injEq] at hj0
        subst hj0
        simp [Dict.set]
      | succ j =>
        simp only [List.getElem?_cons_succ] at hj0
        obtain ⟨b, w⟩ := r
        have : b ≠ q.1 := by
          rintro rfl
          exact hn.1 (List.mem_map.2 ⟨_, List.mem_of_getElem? hj0, rfl⟩)
        simp only [Dict.set, List.set_cons_succ]
        rw [if_neg this, ih j hn.2 hj0]
  · intro x hx
    rw [hw]
    exact good_view hi (good_write hi d q.2 ws hown) x hx

/-! ### Other dictionaries -/

theorem ordered_of (ps : List (K × V)) :
    OMD.itemsMulti (orderedOf ps) = ps ∧ (∀ k, OMD.getlist (orderedOf ps) k = valuesFor ps k) ∧
    OMD.keys (orderedOf ps) = firstKeys (ps.map (·.1)) := by
  have e1 : orderedOf ps = OMD.runOps OMD.empty (ps.map fun p => Op.add p.1 p.2) := by
    unfold orderedOf OMD.runOps
    rw [List.foldl_map]
    rfl
  have e2 : ∀ acc : List (K × V), (ps.map fun p => Op.add p.1 p.2).foldl (fun L op => (logCall L op).1) acc = acc ++ ps := by
    induction ps with
    | nil => intro acc; simp
    | cons p ps ih =>
      intro acc
      rw [List.map_cons, List.foldl_cons]
      have := ih (by unfold orderedOf OMD.runOps; rw [List.foldl_map]; rfl) (acc ++ [p])
      rw [show (acc ++ p :: ps) = (acc ++ [p]) ++ ps by simp]
      exact this
  have h := C26_order_partial (ps.map fun p => Op.add p.1 p.2) (by
    intro op hop
    obtain ⟨p, _, rfl⟩ := List.mem_map.1 hop
    simp [notClear])
  rw [← e1] at h
  unfold logAfter at h
  rw [e2, List.nil_append] at h
  exact ⟨h.1, h.2.2.2.1, h.2.2.1⟩

theorem firstKeys_block (k : K) (m : Nat) (rest : List K) (h : k ∉ rest) :
    firstKeys (List.replicate (m + 1) k ++ rest) = k :: firstKeys rest := by
  have hf : (firstKeys rest).filter (· ≠ k) = firstKeys rest := by
    rw [List.filter_eq_self]
    intro x hx
    rw [OMDAux.mem_firstKeys] at hx
    simp only [ne_eq, decide_not, Bool.not_eq_eq_eq_not, Bool.not_true, decide_eq_false_iff_not]
    rintro rfl
    exact h hx
  induction m with
  | zero =>
    simp only [List.replicate, List.cons_append, List.nil_append, firstKeys]
    rw [hf]
  | succ m ih =>
    rw [List.replicate_succ, List.cons_append]
    simp only [firstKeys]
    rw [ih]
    simp only [ne_eq, List.filter_cons, not_true_eq_false, decide_false, Bool.false_eq_true, if_false]
    rw [hf]

theorem grouped_keys (ks : List K) (f : K → List V) (hn : ks.Nodup) (hf : ∀ k ∈ ks, f k ≠ []) :
    firstKeys ((ks.flatMap fun k => (f k).map fun v => (k, v)).map (·.1)) = ks := by
  induction ks with
  | nil => rfl
  | cons k ks ih =>
    rw [List.nodup_cons] at hn
    rw [List.flatMap_cons, List.map_append, List.map_map]
    have h1 : (f k).map ((·.1) ∘ fun v => (k, v)) = List.replicate ((f k).length - 1 + 1) k := by
      have : (f k).length ≠ 0 := by
        intro e
        exact hf k (by simp) (List.length_eq_zero_iff.1 e)
      rw [show (f k).length - 1 + 1 = (f k).length by omega]
      exact List.map_const
    rw [h1, firstKeys_block, ih hn.2 (fun x hx => hf x (by simp [hx]))]
    intro hm
    obtain ⟨q, hq, e⟩ := List.mem_map.1 hm
    obtain ⟨x, hx, hq⟩ := List.mem_flatMap.1 hq
    obtain ⟨v, _, rfl⟩ := List.mem_map.1 hq
    simp only at e
    subst e
    exact hn.1 hx

theorem grouped_values (ks : List K) (f : K → List V) (hn : ks.Nodup) (x : K) :
    valuesFor (ks.flatMap fun k => (f k).map fun v => (k, v)) x = if x ∈ ks then f x else [] := by
  induction ks with
  | nil => rfl
  | cons k ks ih =>
    rw [List.nodup_cons] at hn
    rw [List.flatMap_cons]
    unfold valuesFor at ih ⊢
    rw [List.filter_append, List.map_append, ih hn.2]
    by_cases e : x = k
    · subst e
      rw [if_neg hn.1, if_pos (by simp), List.append_nil, List.filter_eq_self.2, List.map_map]
      · exact List.map_id _
      · intro q hq
        obtain ⟨v, _, rfl⟩ := List.mem_map.1 hq
        simp
    · rw [List.filter_eq_nil_iff.2]
      · simp [e]
      · intro q hq
        obtain ⟨v, _, rfl⟩ := List.mem_map.1 hq
        simpa using fun h => e h.symm

/-- A copy or a pickled copy of an ordered dictionary has the same pairs in the same order.  A deep copy has
the same keys in the same order, each with the same values. -/
theorem C120_ordered_partial (ops : List (Op K V)) (h : ∀ op ∈ ops, notClear op) :
    OMD.itemsMulti (orderedCopy (OMD.runOps OMD.empty ops)) = OMD.itemsMulti (OMD.runOps OMD.empty ops) ∧
    OMD.keys (orderedDeepcopy (OMD.runOps OMD.empty ops)) = OMD.keys (OMD.runOps OMD.empty ops) ∧
    ∀ k, OMD.getlist (orderedDeepcopy (OMD.runOps OMD.empty ops)) k = OMD.getlist (OMD.runOps OMD.empty ops) k := by
  obtain ⟨h1, _, h3, h4, h5, _⟩ := C26_order_partial ops h
  have hn := OMDAux.nodup_firstKeys ((logAfter ops).map (·.1))
  have hg : MD.itemsMulti (OMD.lists (OMD.runOps OMD.empty ops)) =
      (firstKeys ((logAfter ops).map (·.1))).flatMap fun k => (valuesFor (logAfter ops) k).map fun v => (k, v) := by
    rw [h5]
    unfold MD.itemsMulti
    rw [List.flatMap_map]
  refine ⟨(ordered_of _).1, ?_, ?_⟩
  · unfold orderedDeepcopy
    rw [(ordered_of _).2.2, h3, hg]
    apply grouped_keys _ _ hn
    intro k hk
    rw [OMDAux.mem_firstKeys] at hk
    obtain ⟨v, vs, e⟩ := OMDAux.valuesFor_present hk
    rw [e]
    exact List.cons_ne_nil _ _
  · intro k
    unfold orderedDeepcopy
    rw [(ordered_of _).2.1, h4, hg, grouped_values _ _ hn]
    split
    · rfl
    · rename_i hk
      rw [OMDAux.mem_firstKeys] at hk
      rw [OMDAux.valuesFor_absent hk]

/-- It is not so that a deep copy of an ordered dictionary has the same order: pairs with the same key are moved together. -/
theorem C120_order_false : ¬ ∀ (ops : List (Op Char Nat)), (∀ op ∈ ops, notClear op) →
    OMD.itemsMulti (orderedDeepcopy (OMD.runOps OMD.empty ops)) = OMD.itemsMulti (OMD.runOps OMD.empty ops) := by
  intro h
  have := h [.add 'a' 1, .add 'b' 2, .add 'a' 3] (by simp [notClear])
  revert this
  decide

theorem within_self (k : Str) : within k k = true := by
  cases k with
  | nil => rfl
  | cons c k => simp [within]

theorem keys_foldl_set {A : Type} (l acc : List (K × A)) (k : K) (h : k ∈ Dict.keys acc ∨ k ∈ Dict.keys l) :
    k ∈ Dict.keys (l.foldl (fun rv p => Dict.set rv p.1 p.2) acc) := by
  induction l generalizing acc with
  | nil => simpa using h
  | cons p l ih =>
    rw [List.foldl_cons]
    apply ih
    simp only [Dict.keys_cons, List.mem_cons] at h
    rw [← Dict.has_iff, Dict.has, Dict.get_set]
    by_cases e : k = p.1
    · rw [if_pos e]; exact .inl rfl
    · rw [if_neg e]
      rcases h with h | h | h
      · exact .inl (by rw [← Dict.has, Dict.has_iff]; exact h)
      · exact absurd h e
      · exact .inr h

theorem keys_toDict (c : CMD.CDict K V) (k : K) (h : CMD.has c k = true) : k ∈ Dict.keys (CMD.toDictLists c) := by
  unfold CMD.toDictLists CMD.has at *
  have key : ∀ (ds : List (MDict K V)) (acc : MDict K V), (k ∈ Dict.keys acc ∨ ∃ d ∈ ds, k ∈ Dict.keys d) →
      k ∈ Dict.keys (ds.foldl (fun rv d => (MD.lists d).foldl (fun rv p => Dict.set rv p.1 p.2) rv) acc) := by
    intro ds
    induction ds with
    | nil =>
      intro acc h
      rcases h with h | ⟨_, h, _⟩
      · exact h
      · cases h
    | cons d ds ih =>
      intro acc h
      rw [List.foldl_cons]
      apply ih
      rcases h with h | ⟨e, he, hk⟩
      · exact .inl (keys_foldl_set _ _ _ (.inl h))
      · rcases List.mem_cons.1 he with rfl | he
        · exact .inl (keys_foldl_set _ _ _ (.inr hk))
        · exact .inr ⟨e, he, hk⟩
  apply key
  obtain ⟨d, hd, hk⟩ := List.any_eq_true.1 h
  exact .inr ⟨d, by simp [hd], Dict.has_iff.1 hk⟩

/-- The deep copy of a combined dictionary cannot be used: looking up any of its keys raises `TypeError`. -/
theorem C120_combined_false (c : CMD.CDict Str V) (key : Str) (h : CMD.has c key = true) :
    combinedDeepGetitem c key = .error .typeError := by
  unfold combinedDeepGetitem
  rw [if_pos]
  exact List.any_eq_true.2 ⟨key, keys_toDict c key h, within_self key⟩

/-! ### Examples -/

/-- A program that copies a dictionary, takes out lists of both, and changes them. -/
def demoProg : List (Stmt Char Nat) :=
  [.new [('a', 1), ('b', 2)], .copy 0, .call 1 (.add 'a' 5), .getlist 1 'a', .write (3, 0) [9], .listvalues 0, .write (5, 1) [7, 8],
   .newList [4], .setlist 1 'c' (7, 0), .write (7, 0) []]

example : (run demoProg).heap.view 0 = [('a', [1]), ('b', [7, 8])] ∧
    (run demoProg).heap.view 1 = [('a', [1, 5]), ('b', [2]), ('c', [4])] := by decide

/-- The hypotheses of `C120_independent` hold of the copy and everything done afterwards to the original and to lists. -/
example : 1 < (run (demoProg.take 4)).heap.dicts.length ∧ (∀ q ∈ [Stmt.write (3, 0) [9], .listvalues 0, .write (5, 1) [7, 8]], Changes 1 (q : Stmt Char Nat) = false) ∧
    (run (demoProg.take 4)).heap.view 1 = [('a', [1, 5]), ('b', [2])] ∧
    (demoProg[3]?).map (Hands 1) = some false ∧ (demoProg[5]?).map (Hands 1) = some false := by decide

/-- The hypotheses of `C121_live` and `C121_listvalues` hold. -/
example : AddsOnly 0 (.call 0 (.add 'a' 3) : Stmt Char Nat) ∧ 0 < (run (demoProg.take 2)).heap.dicts.length ∧
    ((run (demoProg.take 2)).heap.view 0)[1]? = some ('b', [2]) := ⟨.inr ⟨_, _, rfl⟩, by decide, by decide⟩

/-- Some key has no values: pickling raises. -/
example : (exec (run [.new [('a', 1)], .call 0 (.setlist 'b' [])]) (.pickle 0 : Stmt Char Nat)).2.2 = .error .indexError ∧
    (('b', []) : Char × List Nat) ∈ (run [.new [('a', 1)], .call 0 (.setlist 'b' [])]).heap.view 0 := by decide

example : CMD.has ([ofPairs [(s%"a", 1)], ofPairs [(s%"b", 2)]] : CMD.CDict Str Nat) s%"b" = true := by decide

example : ∀ op ∈ ([.add 'a' 1, .add 'b' 2, .pop 'a', .add 'a' 3] : List (Op Char Nat)), notClear op := by simp [notClear]

end Verif.Props.CopiesP
