import Verif.Model.MultiCompare
import Verif.Props.Combined
import Verif.Props.OrderedMultiDict
/-! Property theorems C128: comparing multi dictionaries, and updating one with itself. -/
namespace Verif.Props.MultiCmpP
open Verif Verif.MultiCmp Verif.Log
open Verif.MD (MDict Op)
open Verif.OMD (ODict)
variable {K V : Type} [DecidableEq K] [DecidableEq V]

/-- The ordered dictionary that a history of calls makes. -/
abbrev made (ops : List (Op K V)) : Obj K V := .ordered (OMD.runOps OMD.empty ops)

/-- Two dictionaries hold the same lists of values under the same keys. -/
def SameLists (a b : MDict K V) : Prop := ∀ k, Dict.get a k = Dict.get b k

/-- A dictionary has the keys of a log, each with the values that the log has for it. -/
def Holds (d : MDict K V) (L : List (K × V)) : Prop :=
  ∀ k, (k ∈ Dict.keys d ↔ k ∈ L.map (·.1)) ∧ MD.getlist d k = valuesFor L k

theorem nodup_le (l : List K) : ∀ m : List K, l.Nodup → (∀ x ∈ l, x ∈ m) → l.length ≤ m.length := by
  induction l with
  | nil => intro m _ _; simp
  | cons a l ih =>
    intro m hn hs
    rw [List.nodup_cons] at hn
    have ham : a ∈ m := hs a (by simp)
    have := ih (m.erase a) hn.2 fun x hx => by
      have hne : x ≠ a := by rintro rfl; exact hn.1 hx
      exact (List.mem_erase_of_ne hne).2 (hs x (by simp [hx]))
    rw [List.length_erase_of_mem ham] at this
    have hp := List.length_pos_iff.2 (List.ne_nil_of_mem ham)
    simp only [List.length_cons]
    omega

omit [DecidableEq V] in
theorem get_map (d : MDict K V) (k : K) (f : List V → Cell V) :
    Dict.get (d.map fun p => (p.1, f p.2)) k = (Dict.get d k).map f := by
  induction d with
  | nil => rfl
  | cons p d ih =>
    obtain ⟨a, l⟩ := p
    simp only [List.map_cons, Dict.get, ih]
    split <;> rfl

theorem holds_list (b : MDict K V) (p : K × List V) :
    holds (b.map fun p => (p.1, Cell.list p.2)) (p.1, Cell.list p.2) = true ↔
      Dict.get b p.1 = some p.2 := by
  unfold holds
  simp only [get_map]
  cases hg : Dict.get b p.1 with
  | none => simp
  | some l =>
    simp only [Option.map_some, cellEq, beq_iff_eq, Option.some.injEq]
    exact ⟨Eq.symm, Eq.symm⟩

theorem dictEq_multi (a b : MDict K V) (ia ib : Bool) (ha : (Dict.keys a).Nodup)
    (hb : (Dict.keys b).Nodup) :
    dictEq (storage (.multi ia a)) (storage (.multi ib b)) = true ↔ SameLists a b := by
  simp only [dictEq, storage, List.length_map, Bool.and_eq_true, beq_iff_eq, List.all_map,
    List.all_eq_true, Function.comp]
  constructor
  · rintro ⟨hlen, hall⟩
    have hall' : ∀ p ∈ a, Dict.get b p.1 = some p.2 := fun p hp => (holds_list b p).1 (hall p hp)
    have hsub : Dict.keys a ⊆ Dict.keys b := by
      intro k hk
      obtain ⟨p, hp, rfl⟩ := List.mem_map.1 hk
      exact List.mem_map.2 ⟨(p.1, p.2), Dict.mem_of_get (hall' p hp), rfl⟩
    have hback : Dict.keys b ⊆ Dict.keys a :=
      CMDAux.subset_back _ _ ha hsub (by simp [Dict.keys, hlen])
    intro k
    cases hg : Dict.get a k with
    | some l => exact (hall' (k, l) (Dict.mem_of_get hg)).symm
    | none =>
      symm
      rw [Dict.get_eq_none] at hg ⊢
      exact fun hk => hg (hback hk)
  · intro h
    have hk : ∀ k, k ∈ Dict.keys a ↔ k ∈ Dict.keys b := by
      intro k
      rw [← Decidable.not_iff_not, ← Dict.get_eq_none, ← Dict.get_eq_none, h k]
    refine ⟨?_, fun p hp => (holds_list b p).2 ?_⟩
    · have h1 := nodup_le (Dict.keys a) (Dict.keys b) ha (fun k => (hk k).1)
      have h2 := nodup_le (Dict.keys b) (Dict.keys a) hb (fun k => (hk k).2)
      simp only [Dict.keys, List.length_map] at h1 h2
      omega
    · rw [← h]; exact Dict.get_of_mem ha hp

theorem eqOrdered_iff (a b : List (K × V)) : Imm.eqOrdered a b = true ↔ a = b := by
  induction a generalizing b with
  | nil => cases b <;> simp [Imm.eqOrdered]
  | cons x a ih => cases b with
    | nil => simp [Imm.eqOrdered]
    | cons y b =>
      simp only [Imm.eqOrdered]
      split
      · rename_i h
        simp only [Bool.false_eq_true, false_iff]
        intro e
        injection e with e1 e2
        subst e1
        simp at h
      · rename_i h
        simp only [not_or, Decidable.not_not] at h
        rw [ih, List.cons.injEq]
        exact ⟨fun e => ⟨Prod.ext h.1 h.2, e⟩, fun e => e.2⟩

theorem mixed_iff (ops : List (Op K V)) (h : ∀ op ∈ ops, notClear op) (im : Bool) (d : MDict K V)
    (hd : (Dict.keys d).Nodup) :
    orderedEq (OMD.runOps OMD.empty ops) (.multi im d) = some true ↔ Holds d (logAfter ops) := by
  obtain ⟨_, _, _, _, hlists, _, _, _, hlen, _⟩ := C26_order_partial ops h
  simp only [orderedEq, hlists, hlen, Option.some.injEq, Bool.and_eq_true, beq_iff_eq, List.all_map,
    List.all_eq_true, Function.comp, MD.len]
  generalize logAfter ops = L
  have hn : (firstKeys (L.map (·.1))).Nodup := OMDAux.nodup_firstKeys _
  constructor
  · rintro ⟨hl, hall⟩
    have hsub : firstKeys (L.map (·.1)) ⊆ Dict.keys d := by
      intro k hk
      obtain ⟨v, vs, hv⟩ := OMDAux.valuesFor_present (OMDAux.mem_firstKeys.1 hk)
      have := hall k hk
      rw [hv] at this
      unfold MD.getlist at this
      cases hg : Dict.get d k with
      | none => rw [hg] at this; simp at this
      | some l => exact List.mem_map.2 ⟨(k, l), Dict.mem_of_get hg, rfl⟩
    have hback := CMDAux.subset_back _ _ hn hsub (by simp [Dict.keys, hl])
    intro k
    refine ⟨⟨fun hk => OMDAux.mem_firstKeys.1 (hback hk), fun hk => hsub (OMDAux.mem_firstKeys.2 hk)⟩, ?_⟩
    by_cases hk : k ∈ L.map (·.1)
    · exact hall k (OMDAux.mem_firstKeys.2 hk)
    · rw [OMDAux.valuesFor_absent hk]
      unfold MD.getlist
      rw [Dict.get_eq_none.2 (fun hk' => hk (OMDAux.mem_firstKeys.1 (hback hk')))]
      rfl
  · intro hh
    refine ⟨?_, fun k _ => (hh k).2⟩
    have h1 := nodup_le (Dict.keys d) (firstKeys (L.map (·.1))) hd
      (fun k hk => OMDAux.mem_firstKeys.2 ((hh k).1.1 hk))
    have h2 := nodup_le (firstKeys (L.map (·.1))) (Dict.keys d) hn
      (fun k hk => (hh k).1.2 (OMDAux.mem_firstKeys.1 hk))
    simp only [Dict.keys, List.length_map] at h1 h2
    omega

omit [DecidableEq K] [DecidableEq V] in
theorem or_some (a : Option Bool) (x : Bool) : ((some x).or a) = some x := rfl

/-- C128.  Two `MultiDict`s, immutable or not, are equal exactly if they hold the same lists
under the same keys: the order of the values of a key counts, that of the keys does not. -/
theorem C128_multi (ia ib : Bool) (a b : MDict K V) (ha : (Dict.keys a).Nodup)
    (hb : (Dict.keys b).Nodup) :
    (eq (.multi ia a) (.multi ib b) = true ↔ ∀ k, Dict.get a k = Dict.get b k) ∧
    (ne (.multi ia a) (.multi ib b) = true ↔ ∃ k, Dict.get a k ≠ Dict.get b k) := by
  have h := dictEq_multi a b ia ib ha hb
  have hr : rightFirst (.multi ia a : Obj K V) (.multi ib b) = false := by cases ia <;> rfl
  constructor
  · simpa [eq, hr, eqMethod, SameLists] using h
  · simp only [ne, hr, neMethod, or_some, Option.getD_some, Bool.false_eq_true, if_false,
      Bool.not_eq_true', ← Bool.not_eq_true, h, SameLists]
    exact ⟨Classical.not_forall.1, fun ⟨k, hk⟩ hh => hk (hh k)⟩

/-- C128.  Two ordered dictionaries are equal exactly if the same pairs have been added, and
not removed since, in the same order. -/
theorem C128_ordered (p q : List (Op K V)) (hp : ∀ op ∈ p, notClear op) (hq : ∀ op ∈ q, notClear op) :
    (eq (made p) (made q) = true ↔ logAfter p = logAfter q) ∧
    (ne (made p) (made q) = true ↔ logAfter p ≠ logAfter q) := by
  have e : orderedEq (OMD.runOps OMD.empty p) (made q) =
      some (Imm.eqOrdered (logAfter p) (logAfter q)) := by
    simp only [orderedEq, (C26_order_partial p hp).1, (C26_order_partial q hq).1]
  have h := eqOrdered_iff (logAfter p) (logAfter q)
  constructor
  · simp only [eq, rightFirst, eqMethod, e]
    simpa using h
  · simp only [ne, rightFirst, neMethod, e]
    rw [ne_eq, ← h]
    simp

/-- C128.  An ordered dictionary is equal to a `MultiDict`, immutable or not, exactly if both
have the same keys and the same values for each in the same order; a mutable `MultiDict` to
the left gives the same answer. -/
theorem C128_mixed (ops : List (Op K V)) (h : ∀ op ∈ ops, notClear op) (im : Bool) (d : MDict K V)
    (hd : (Dict.keys d).Nodup) :
    (eq (made ops) (.multi im d) = true ↔ Holds d (logAfter ops)) ∧
    (eq (.multi false d) (made ops) = true ↔ Holds d (logAfter ops)) ∧
    (ne (made ops) (.multi im d) = true ↔ ¬ Holds d (logAfter ops)) ∧
    (ne (.multi false d) (made ops) = true ↔ ¬ Holds d (logAfter ops)) := by
  have key : ∀ im, ∃ r, orderedEq (OMD.runOps OMD.empty ops) (.multi im d) = some r ∧
      (r = true ↔ Holds d (logAfter ops)) := by
    intro im
    have := mixed_iff ops h im d hd
    refine ⟨_, rfl, ?_⟩
    rw [← this]
    exact ⟨fun e => congrArg some e, fun e => Option.some.inj e⟩
  obtain ⟨r, hr, hri⟩ := key im
  obtain ⟨s, hs, hsi⟩ := key false
  refine ⟨?_, ?_, ?_, ?_⟩
  · simp only [eq, rightFirst, eqMethod, hr]; simpa using hri
  · simp only [eq, rightFirst, eqMethod, hs]; simpa using hsi
  · simp only [ne, rightFirst, neMethod, hr]; rw [← hri]; cases r <;> simp
  · simp only [ne, rightFirst, neMethod, hs]; rw [← hsi]; cases s <;> simp

/-- Neither combined nor anything else than a multi dictionary. -/
inductive Plain : Obj K V → Prop where
  | multi (im : Bool) (d : MDict K V) (hd : (Dict.keys d).Nodup) : Plain (.multi im d)
  | ordered (ops : List (Op K V)) (h : ∀ op ∈ ops, notClear op) : Plain (made ops)

/-- `getlist(key)` of either kind. -/
def listOf : Obj K V → K → List V
  | .multi _ d, k => MD.getlist d k
  | .ordered o, k => OMD.getlist o k
  | _, _ => []

/-- `key in d` of either kind. -/
def hasKey : Obj K V → K → Bool
  | .multi _ d, k => Dict.has d k
  | .ordered o, k => OMD.has o k
  | _, _ => false

omit [DecidableEq V] in
theorem buckets_nonempty (ops : List (Op K V)) (h : ∀ op ∈ ops, notClear op) (k : K) (bs : List Nat)
    (hg : Dict.get (OMD.runOps OMD.empty ops).dict k = some bs) : bs ≠ [] := by
  have hh : OMDAux.Holds (OMD.runOps OMD.empty ops) (logAfter ops) :=
    OMDAux.run_holds ops OMDAux.holds_empty h
  obtain ⟨v, vs, hv⟩ := OMDAux.valuesFor_present ((OMDAux.holds_has hh k).1 ⟨bs, hg⟩)
  have := OMDAux.holds_values hh k
  rw [hg, hv] at this
  rintro rfl
  simp [OMD.valuesOf] at this

omit [DecidableEq V] in
theorem get_buckets (m : List (K × List Nat)) (k : K) :
    Dict.get (m.map fun p => (p.1, (Cell.buckets p.2 : Cell V))) k =
      (Dict.get m k).map Cell.buckets := by
  induction m with
  | nil => rfl
  | cons q m ih =>
    obtain ⟨a, l⟩ := q
    simp only [List.map_cons, Dict.get, ih]
    split <;> rfl

/-- The mistaken case: an immutable dictionary to the left of an ordered one. -/
theorem imm_left (ops : List (Op K V)) (h : ∀ op ∈ ops, notClear op) (d : MDict K V) :
    eq (.multi true d) (made ops) = true ↔ d = [] ∧ logAfter ops = [] := by
  have hlen := (C26_order_partial ops h).2.2.2.2.2.2.2.2.1
  have hl : logAfter ops = [] ↔ (OMD.runOps OMD.empty ops).dict.length = 0 := by
    unfold OMD.len at hlen
    rw [hlen, List.length_eq_zero_iff]
    constructor
    · intro e; rw [e]; rfl
    · intro e
      cases hL : logAfter ops with
      | nil => rfl
      | cons p L =>
        have : p.1 ∈ firstKeys ((logAfter ops).map (·.1)) :=
          OMDAux.mem_firstKeys.2 (by simp [hL])
        rw [e] at this; cases this
  have e : eq (.multi true d) (made ops) =
      dictEq (storage (.multi true d : Obj K V)) (storage (made ops)) := rfl
  rw [e]
  simp only [dictEq, storage, List.length_map, Bool.and_eq_true, beq_iff_eq, List.all_map,
    List.all_eq_true, Function.comp]
  constructor
  · rintro ⟨h1, h2⟩
    cases hd : d with
    | nil => subst hd; exact ⟨rfl, hl.2 (by simpa using h1.symm)⟩
    | cons p d' =>
      exfalso
      have := h2 p (by simp [hd])
      unfold holds at this
      rw [get_buckets] at this
      cases hg : Dict.get (OMD.runOps OMD.empty ops).dict p.1 with
      | none => rw [hg] at this; simp at this
      | some bs =>
        rw [hg] at this
        simp only [Option.map_some, cellEq, Bool.and_eq_true, List.isEmpty_iff] at this
        exact buckets_nonempty ops h _ _ hg this.2
  · rintro ⟨rfl, h2⟩
    exact ⟨(hl.1 h2).symm, by simp⟩

/-- C128.  Dictionaries of either kind that are equal answer alike: they have the same keys,
and `getlist` returns the same for every key. -/
theorem C128_answers (a b : Obj K V) (ha : Plain a) (hb : Plain b) (h : eq a b = true) (k : K) :
    hasKey a k = hasKey b k ∧ listOf a k = listOf b k := by
  have ho : ∀ (d : MDict K V) (ops : List (Op K V)), (∀ op ∈ ops, notClear op) →
      Holds d (logAfter ops) → Dict.has d k = OMD.has (OMD.runOps OMD.empty ops) k ∧
        MD.getlist d k = OMD.getlist (OMD.runOps OMD.empty ops) k := by
    intro d ops hops hh
    obtain ⟨_, _, _, hget, _, hhas, _⟩ := C26_order_partial ops hops
    refine ⟨?_, (hh k).2.trans (hget k).symm⟩
    rw [Bool.eq_iff_iff, Dict.has_iff, hhas, (hh k).1]
  cases ha with
  | multi ia a ha' => cases hb with
    | multi ib b hb' =>
      have := ((C128_multi ia ib a b ha' hb').1.1 h) k
      simp only [hasKey, listOf, Dict.has, MD.getlist, this, and_self]
    | ordered q hq => cases ia with
      | false => exact ho a q hq ((C128_mixed q hq false a ha').2.1.1 h)
      | true =>
        obtain ⟨rfl, hL⟩ := (imm_left q hq a).1 h
        apply ho [] q hq
        intro x
        rw [hL]
        exact ⟨by simp [Dict.keys], rfl⟩
  | ordered p hp => cases hb with
    | multi ib b hb' =>
      obtain ⟨h1, h2⟩ := ho b p hp ((C128_mixed p hp ib b hb').1.1 h)
      exact ⟨h1.symm, h2.symm⟩
    | ordered q hq =>
      have := (C128_ordered p q hp hq).1.1 h
      have g := (C26_order_partial p hp)
      have g' := (C26_order_partial q hq)
      refine ⟨?_, ?_⟩
      · simp only [hasKey]
        rw [Bool.eq_iff_iff, g.2.2.2.2.2.1, g'.2.2.2.2.2.1, this]
      · simp only [listOf]
        rw [g.2.2.2.1, g'.2.2.2.1, this]

/-- C128.  Comparison is reflexive and symmetric, except that an immutable dictionary to the
left of a non-empty ordered one is never equal to it. -/
theorem C128_symm_partial (a b : Obj K V) (ha : Plain a) (hb : Plain b) :
    eq a a = true ∧
    ((∀ d ops, a = .multi true d → b ≠ made ops) → (∀ d ops, b = .multi true d → a ≠ made ops) →
      eq a b = eq b a) ∧
    (∀ d ops, a = .multi true d → b = made ops → (∀ op ∈ ops, notClear op) →
      (eq a b = true ↔ d = [] ∧ logAfter ops = [])) := by
  refine ⟨?_, ?_, ?_⟩
  · cases ha with
    | multi ia a ha' => exact (C128_multi ia ia a a ha' ha').1.2 fun _ => rfl
    | ordered p hp => exact (C128_ordered p p hp hp).1.2 rfl
  · intro h1 h2
    cases ha with
    | multi ia a ha' => cases hb with
      | multi ib b hb' =>
        rw [Bool.eq_iff_iff, (C128_multi ia ib a b ha' hb').1, (C128_multi ib ia b a hb' ha').1]
        exact ⟨fun h k => (h k).symm, fun h k => (h k).symm⟩
      | ordered q hq => cases ia with
        | false => rw [Bool.eq_iff_iff, (C128_mixed q hq false a ha').1, (C128_mixed q hq false a ha').2.1]
        | true => exact absurd rfl (h1 a q rfl)
    | ordered p hp => cases hb with
      | multi ib b hb' => cases ib with
        | false => rw [Bool.eq_iff_iff, (C128_mixed p hp false b hb').1, (C128_mixed p hp false b hb').2.1]
        | true => exact absurd rfl (h2 b p rfl)
      | ordered q hq =>
        rw [Bool.eq_iff_iff, (C128_ordered p q hp hq).1, (C128_ordered q p hq hp).1, eq_comm]
  · rintro d ops rfl rfl hops
    exact imm_left ops hops d

/-- C128.  `!=` is the opposite of `==`, unless an ordered dictionary is compared with
something that is no multi dictionary. -/
theorem C128_ne_partial (a b : Obj K V)
    (h : ∀ o, (a = .ordered o → ∀ d n, b ≠ .dict d ∧ b ≠ .other n) ∧
      (b = .ordered o → ∀ d n, a ≠ .dict d ∧ a ≠ .other n)) :
    ne a b = !eq a b := by
  cases a with
  | ordered o => cases b with
    | dict d => exact absurd rfl ((h o).1 rfl d 0).1
    | other n => exact absurd rfl ((h o).1 rfl [] n).2
    | multi im d => rfl
    | ordered o' => rfl
    | combined c => rfl
  | dict a => cases b with
    | ordered o => exact absurd rfl ((h o).2 rfl a 0).1
    | dict d => rfl
    | multi im d => rfl
    | combined c => rfl
    | other n => rfl
  | multi im a => cases im <;> cases b <;> rfl
  | combined a => cases b <;> rfl
  | other n => cases b with
    | ordered o => exact absurd rfl ((h o).2 rfl [] n).2
    | dict d => rfl
    | multi im d => rfl
    | combined c => rfl
    | other m => rfl

/-- C128.  Where that fails: neither `==` nor `!=` holds between an ordered dictionary and a
plain one or something else. -/
theorem C128_ne_false (ops : List (Op K V)) (h : ∀ op ∈ ops, notClear op) (n : Nat)
    (d : List (K × (V ⊕ List V))) (hd : d ≠ []) :
    eq (made ops) (.other n) = false ∧ ne (made ops) (.other n) = false ∧
    eq (made ops) (.dict d) = false ∧ ne (made ops) (.dict d) = false ∧
    eq (.dict d) (made ops) = false ∧ ne (.dict d) (made ops) = false := by
  have key : dictEq (storage (.dict d : Obj K V)) (storage (made ops)) = false := by
    cases d with
    | nil => exact absurd rfl hd
    | cons p d =>
      simp only [dictEq, storage, Bool.and_eq_false_iff]
      right
      rw [← Bool.not_eq_true, List.all_eq_true]
      intro hall
      have := hall _ (List.mem_cons_self ..)
      unfold holds at this
      rw [get_buckets] at this
      cases hg : Dict.get (OMD.runOps OMD.empty ops).dict p.1 with
      | none => rw [hg] at this; simp at this
      | some bs =>
        rw [hg] at this
        have hb := buckets_nonempty ops h _ _ hg
        cases hv : p.2 with
        | inl v => simp only [hv, Option.map_some] at this; simp [cellEq] at this
        | inr l =>
          simp only [hv, Option.map_some, cellEq, Bool.and_eq_true, List.isEmpty_iff] at this
          exact hb this.2
  exact ⟨rfl, rfl, key, rfl, key, rfl⟩

/-- C128.  What does not hold of `==`: it is not transitive, an immutable dictionary is not
equal to an ordered one that is equal to it, and any two combined dictionaries are equal. -/
theorem C128_false :
    (∃ p q : List (Op Char Nat), ∃ d : MDict Char Nat,
      eq (made p) (.multi false d) = true ∧ eq (.multi false d) (made q) = true ∧
      eq (made p) (made q) = false) ∧
    (∃ p : List (Op Char Nat), ∃ d : MDict Char Nat,
      eq (made p) (.multi true d) = true ∧ eq (.multi true d) (made p) = false) ∧
    (∀ c c' : CMD.CDict K V, eq (.combined c) (.combined c') = true) ∧
    (∀ (c : CMD.CDict K V) (im : Bool) (d : MDict K V), eq (.combined c) (.multi im d) = d.isEmpty) := by
  refine ⟨⟨[.add 'a' 1, .add 'b' 2], [.add 'b' 2, .add 'a' 1], [('a', [1]), ('b', [2])], by decide⟩,
    ⟨[.add 'a' 1], [('a', [1])], by decide⟩, fun _ _ => rfl, ?_⟩
  intro c im d
  cases d <;> rfl

/-! ### updating with itself -/

omit [DecidableEq V] in
theorem add_at (d : MDict K V) (hd : (Dict.keys d).Nodup) (i : Nat) (k : K) (vs : List V) (v : V)
    (h : d[i]? = some (k, vs)) : (MD.add d k v)[i]? = some (k, vs ++ [v]) := by
  have hg : Dict.get d k = some vs := Dict.get_of_mem hd (List.mem_of_getElem? h)
  unfold MD.add
  rw [hg]
  simp only [Option.getD_some]
  clear hg
  induction d generalizing i with
  | nil => simp at h
  | cons p d ih =>
    obtain ⟨a, l⟩ := p
    simp only [Dict.keys_cons, List.nodup_cons] at hd
    cases i with
    | zero =>
      simp only [List.getElem?_cons_zero, Option.some.injEq, Prod.mk.injEq] at h
      simp [Dict.set, h.1]
    | succ i =>
      simp only [List.getElem?_cons_succ] at h
      have hne : a ≠ k := by
        rintro rfl
        exact hd.1 (List.mem_map.2 ⟨_, List.mem_of_getElem? h, rfl⟩)
      simp only [Dict.set, if_neg hne, List.getElem?_cons_succ]
      exact ih hd.2 i h

omit [DecidableEq V] in
theorem updateSelf_none (fuel : Nat) : ∀ (d : MDict K V) (i j : Nat), (Dict.keys d).Nodup →
    (∃ i' k vs, i ≤ i' ∧ d[i']? = some (k, vs) ∧ vs ≠ [] ∧ (i' = i → j < vs.length)) →
    updateSelf fuel d i j = none := by
  induction fuel with
  | zero => intros; rfl
  | succ fuel ih =>
    rintro d i j hd ⟨i', k', vs', hle, hi', hne', hj⟩
    unfold updateSelf
    cases hi : d[i]? with
    | none =>
      have := List.getElem?_eq_none_iff.1 hi
      have := (List.getElem?_eq_some_iff.1 hi').1
      omega
    | some p =>
      obtain ⟨k, vs⟩ := p
      simp only
      cases hv : vs[j]? with
      | none =>
        simp only
        refine ih d (i + 1) 0 hd ⟨i', k', vs', ?_, hi', hne', fun _ => List.length_pos_iff.2 hne'⟩
        rcases Nat.lt_or_ge i i' with hlt | hge
        · exact hlt
        · have e : i' = i := by omega
          have hj' := hj e
          rw [e, hi] at hi'
          injection hi' with hi'
          injection hi' with _ e2
          rw [← e2] at hj'
          have := List.getElem?_eq_none_iff.1 hv
          omega
      | some v =>
        simp only
        have hlt := (List.getElem?_eq_some_iff.1 hv).1
        refine ih _ i (j + 1) (Dict.nodup_set hd _ _) ⟨i, k, vs ++ [v], Nat.le_refl _,
          add_at d hd i k vs v hi, by simp, fun _ => by simp; omega⟩

omit [DecidableEq V] in
theorem updateSelf_end (d : MDict K V) (h : ∀ p ∈ d, p.2 = []) : ∀ (fuel i : Nat),
    d.length < fuel + i → i ≤ d.length → updateSelf fuel d i 0 = some d := by
  intro fuel
  induction fuel with
  | zero => intro i h1 h2; omega
  | succ fuel ih =>
    intro i h1 h2
    unfold updateSelf
    cases hi : d[i]? with
    | none => rfl
    | some p =>
      obtain ⟨k, vs⟩ := p
      have : vs = [] := h _ (List.mem_of_getElem? hi)
      subst this
      have := (List.getElem?_eq_some_iff.1 hi).1
      simp only [List.getElem?_nil]
      exact ih (i + 1) (by omega) (by omega)

omit [DecidableEq V] in
theorem updateSelfOrdered_none (fuel : Nat) : ∀ (o : ODict K V) (pre suf : List Nat) (i : Nat),
    OMDAux.Chain o.heap o.first o.last (pre ++ i :: suf) →
    updateSelfOrdered fuel o (some i) = none := by
  induction fuel with
  | zero => intros; rfl
  | succ fuel ih =>
    intro o pre suf i hc
    obtain ⟨b, hb, _, _⟩ := hc.link pre i suf rfl
    unfold updateSelfOrdered
    simp only [hb]
    have hc' := OMDAux.newBucket_chain b.key b.value hc
    have hc'' : OMDAux.Chain (OMD.add o b.key b.value).heap (OMD.add o b.key b.value).first
        (OMD.add o b.key b.value).last (pre ++ i :: (suf ++ [o.heap.length])) := by
      have e : pre ++ i :: (suf ++ [o.heap.length]) = pre ++ i :: suf ++ [o.heap.length] := by simp
      rw [e]; exact hc'
    obtain ⟨b', hb', _, hn⟩ := hc''.link pre i (suf ++ [o.heap.length]) rfl
    rw [hb']
    simp only [Option.bind_some, hn]
    cases suf with
    | nil => exact ih _ (pre ++ [i]) [] _ (by simpa using hc'')
    | cons s suf => exact ih _ (pre ++ [i]) (suf ++ [o.heap.length]) s (by simpa using hc'')

omit [DecidableEq V] in
/-- C128.  `d.update(d)` never ends, for either kind of dictionary, if it holds any value:
the loop has not ended after any number of steps. -/
theorem C128_update_self_false (d : MDict K V) (hd : (Dict.keys d).Nodup)
    (k : K) (h : MD.getlist d k ≠ []) (ops : List (Op K V)) (hops : ∀ op ∈ ops, notClear op)
    (hl : logAfter ops ≠ []) (fuel : Nat) :
    updateSelf fuel d 0 0 = none ∧
    updateSelfOrdered fuel (OMD.runOps OMD.empty ops) (OMD.runOps OMD.empty ops).first = none := by
  constructor
  · unfold MD.getlist at h
    cases hg : Dict.get d k with
    | none => rw [hg] at h; exact absurd rfl h
    | some vs =>
      rw [hg] at h
      obtain ⟨i, hi, e⟩ := List.getElem_of_mem (Dict.mem_of_get hg)
      exact updateSelf_none fuel d 0 0 hd ⟨i, k, vs, Nat.zero_le _,
        List.getElem?_eq_some_iff.2 ⟨hi, e⟩, h, fun _ => List.length_pos_iff.2 h⟩
  · have hh : OMDAux.Holds (OMD.runOps OMD.empty ops) (logAfter ops) :=
      OMDAux.run_holds ops OMDAux.holds_empty hops
    obtain ⟨ids, hi, e⟩ := hh.elim
    cases ids with
    | nil => exact absurd e.symm hl
    | cons i ids =>
      rw [hi.chain.first_eq]
      exact updateSelfOrdered_none fuel _ [] ids i hi.chain

omit [DecidableEq V] in
/-- C128.  It ends, and changes nothing, if every list is empty. -/
theorem C128_update_self_partial (d : MDict K V) (h : ∀ k, MD.getlist d k = [])
    (hd : (Dict.keys d).Nodup) : updateSelf (d.length + 1) d 0 0 = some d := by
  refine updateSelf_end d (fun p hp => ?_) _ 0 (by omega) (Nat.zero_le _)
  have := h p.1
  unfold MD.getlist at this
  rw [Dict.get_of_mem hd hp] at this
  exact this

example : eq (.multi false [('a', [1, 2]), ('b', [3])]) (.multi true [('b', [3]), ('a', [1, 2])]) = true ∧
    ne (.multi false [('a', [1, 2])]) (.multi true [('a', [2, 1])]) = true ∧
    eq (made [.add 'a' 1, .add 'b' 2, .add 'a' 3]) (.multi true [('b', [2]), ('a', [1, 3])]) = true ∧
    eq (made [.add 'a' 1, .add 'b' 2]) (made [.add 'b' 5, .add 'a' 1, .setitem 'b' 2]) = true := by decide

example : Plain (.multi true [('a', [1, 2])] : Obj Char Nat) ∧
    Plain (made [.add 'a' 1, .add 'a' 2] : Obj Char Nat) ∧
    eq (made [.add 'a' 1, .add 'a' 2]) (.multi true [('a', [1, 2])]) = true ∧
    (∀ o : ODict Char Nat, Obj.multi true [('a', [1, 2])] ≠ Obj.ordered o) :=
  ⟨.multi _ _ (by decide), .ordered _ (by simp [notClear]), by decide, fun _ => nofun⟩

example : eq (.dict [('a', .inl 1)]) (made [.add 'a' 1]) = false ∧
    MD.getlist [('a', [1])] 'a' ≠ [] ∧ logAfter [.add 'a' 1] ≠ [] ∧
    (∀ k, MD.getlist ([('a', [])] : MDict Char Nat) k = []) :=
  ⟨by decide, by decide, by decide, fun k => by simp only [MD.getlist, Dict.get]; split <;> rfl⟩

end Verif.Props.MultiCmpP
