import Verif.Model.HeaderViews
import Verif.Props.Headers
import Verif.Utf8Lemmas
import Verif.Props.Descriptors
import Verif.Props.Urls
/-! Property theorems C126: comparing, copying, slicing and listing headers. -/
namespace Verif.Props.HViewP
open Verif Verif.Headers Verif.HeaderViews Verif.Spec

/-! ### Comparison -/

theorem toSet_aux (l s : HList) (hs : s.Nodup) :
    (l.foldl (fun s p => if s.contains p then s else s ++ [p]) s).Nodup ∧
    ∀ p, p ∈ l.foldl (fun s p => if s.contains p then s else s ++ [p]) s ↔ p ∈ s ∨ p ∈ l := by
  induction l generalizing s with
  | nil => exact ⟨hs, by simp⟩
  | cons q l ih =>
    simp only [List.foldl_cons]
    by_cases hq : q ∈ s
    · have e : (if s.contains q then s else s ++ [q]) = s := by simp [hq]
      rw [e]
      refine ⟨(ih s hs).1, fun p => ?_⟩
      rw [(ih s hs).2 p]
      constructor
      · rintro (h | h)
        · exact .inl h
        · exact .inr (List.mem_cons_of_mem _ h)
      · rintro (h | h)
        · exact .inl h
        · rcases List.mem_cons.1 h with rfl | h
          · exact .inl hq
          · exact .inr h
    · have e : (if s.contains q then s else s ++ [q]) = s ++ [q] := by simp [hq]
      have hs' : (s ++ [q]).Nodup := by
        rw [List.nodup_append]
        refine ⟨hs, by simp, ?_⟩
        intro a ha b hb
        rcases List.mem_singleton.1 hb with rfl
        rintro rfl
        exact hq ha
      rw [e]
      refine ⟨(ih _ hs').1, fun p => ?_⟩
      rw [(ih _ hs').2 p]
      simp only [List.mem_append, List.mem_cons, List.not_mem_nil, or_false, or_assoc]

theorem nodup_toSet (l : HList) : (toSet l).Nodup := (toSet_aux l [] List.nodup_nil).1

theorem mem_toSet (l : HList) (p : Str × Str) : p ∈ toSet l ↔ p ∈ l := by
  have := (toSet_aux l [] List.nodup_nil).2 p
  simpa [toSet] using this

theorem nodup_le (a b : HList) (na : a.Nodup) (h : ∀ p ∈ a, p ∈ b) :
    a.length ≤ b.length ∧ (b.length ≤ a.length → ∀ p ∈ b, p ∈ a) := by
  induction a generalizing b with
  | nil =>
    refine ⟨Nat.zero_le _, fun hb p hp => ?_⟩
    rw [List.eq_nil_of_length_eq_zero (Nat.le_zero.1 hb)] at hp
    exact hp
  | cons x a ih =>
    obtain ⟨hx, na⟩ := List.nodup_cons.1 na
    have hxb := h x List.mem_cons_self
    have hl := List.length_erase_of_mem hxb
    have hpos : 0 < b.length := List.length_pos_of_mem hxb
    have := ih (b.erase x) na fun p hp =>
      (List.mem_erase_of_ne (fun (e : p = x) => hx (e ▸ hp))).2 (h p (List.mem_cons_of_mem _ hp))
    rw [hl] at this
    refine ⟨by simp only [List.length_cons]; omega, fun hb p hp => ?_⟩
    simp only [List.length_cons] at hb
    by_cases e : p = x
    · exact e ▸ List.mem_cons_self
    · exact List.mem_cons_of_mem _ (this.2 (by omega) p ((List.mem_erase_of_ne e).2 hp))

theorem setEq_iff (a b : HList) (na : a.Nodup) (nb : b.Nodup) :
    setEq a b = true ↔ ∀ p, p ∈ a ↔ p ∈ b := by
  simp only [setEq, Bool.and_eq_true, beq_iff_eq, List.all_eq_true, List.contains_iff_mem]
  constructor
  · rintro ⟨hl, hs⟩ p
    exact ⟨hs p, (nodup_le a b na hs).2 (by omega) p⟩
  · intro h
    refine ⟨?_, fun p hp => (h p).1 hp⟩
    have h1 := (nodup_le a b na fun p hp => (h p).1 hp).1
    have h2 := (nodup_le b a nb fun p hp => (h p).2 hp).1
    omega

/-- C126: two headers objects of one class are equal exactly when every pair of name and
value in one is in the other, in whatever order and however often; `!=` is the opposite.
Objects of different classes are not equal. -/
theorem C126_equal (c c' : Nat) (l l' : HList) :
    (eq c l c' l' = true ↔ c = c' ∧ ∀ k v, (k, v) ∈ l ↔ (k, v) ∈ l') ∧
    (ne c l c' l' = true ↔ ¬ (c = c' ∧ ∀ k v, (k, v) ∈ l ↔ (k, v) ∈ l')) := by
  have h : eq c l c' l' = true ↔ c = c' ∧ ∀ k v, (k, v) ∈ l ↔ (k, v) ∈ l' := by
    rw [eq, Bool.and_eq_true, beq_iff_eq, setEq_iff _ _ (nodup_toSet _) (nodup_toSet _)]
    simp only [mem_toSet]
    exact ⟨fun h => ⟨h.1.symm, fun k v => (h.2 (k, v)).symm⟩,
      fun h => ⟨h.1.symm, fun p => (h.2 p.1 p.2).symm⟩⟩
  refine ⟨h, ?_⟩
  rw [← h, ne]
  cases eq c l c' l' <;> simp

example : eq 0 [(s%"A", s%"1"), (s%"B", s%"2")] 0
    [(s%"B", s%"2"), (s%"A", s%"1"), (s%"B", s%"2")] = true := by decide

/-- C126: equal headers have the same names and, for each name, the same values: each value
that `getlist` gives for one it gives for the other. -/
theorem C126_equal_values (lower : Str → Str) (c c' : Nat) (l l' : HList)
    (h : eq c l c' l' = true) (name : Str) :
    (∀ v, v ∈ getlist lower l name ↔ v ∈ getlist lower l' name) ∧
    contains lower l name = contains lower l' name := by
  have hm := ((C126_equal c c' l l').1.1 h).2
  have key : ∀ v, v ∈ getlist lower l name ↔ v ∈ getlist lower l' name := by
    intro v
    simp only [getlist_eq, List.mem_map, List.mem_filter]
    constructor
    · rintro ⟨p, ⟨hp, hn⟩, rfl⟩
      exact ⟨p, ⟨(hm p.1 p.2).1 hp, hn⟩, rfl⟩
    · rintro ⟨p, ⟨hp, hn⟩, rfl⟩
      exact ⟨p, ⟨(hm p.1 p.2).2 hp, hn⟩, rfl⟩
  refine ⟨key, ?_⟩
  simp only [contains, getItem_eq]
  rcases hl : getlist lower l name with _ | ⟨a, as⟩ <;>
    rcases hr : getlist lower l' name with _ | ⟨b, bs⟩
  · rfl
  · have := (key b).2 (by rw [hr]; exact List.mem_cons_self)
    rw [hl] at this; cases this
  · have := (key a).1 (by rw [hl]; exact List.mem_cons_self)
    rw [hr] at this; cases this
  · rfl

example : eq 0 [(s%"A", s%"1"), (s%"B", s%"2")] 0 [(s%"B", s%"2"), (s%"A", s%"1")] = true := by
  decide

/-- C126, the other direction is false: headers that answer every question about a name
alike are not equal when a name is spelled in another case; and equal headers need not
answer alike, as the order of the values of a name is ignored. -/
theorem C126_equal_false :
    ((∀ name, getlist asciiLower [(s%"Accept", s%"a")] name =
        getlist asciiLower [(s%"accept", s%"a")] name) ∧
      eq 0 [(s%"Accept", s%"a")] 0 [(s%"accept", s%"a")] = false) ∧
    (eq 0 [(s%"Via", s%"a"), (s%"Via", s%"b")] 0 [(s%"Via", s%"b"), (s%"Via", s%"a")] = true ∧
      getItem asciiLower [(s%"Via", s%"a"), (s%"Via", s%"b")] s%"Via" = some s%"a" ∧
      getItem asciiLower [(s%"Via", s%"b"), (s%"Via", s%"a")] s%"Via" = some s%"b") := by
  refine ⟨⟨fun name => ?_, by decide⟩, by decide, by decide, by decide⟩
  have h : asciiLower s%"Accept" = asciiLower s%"accept" := by decide
  simp only [getlist, h]

/-! ### Slices -/

/-- Whether position `i` of a list of `n` entries lies in the slice `[a:b]`: a bound that is
not negative is a position, a negative one counts from the far side. -/
def InSlice (n : Nat) (a b : Option Int) (i : Nat) : Prop :=
  (∀ x, a = some x → if x < 0 then x ≤ (i : Int) - n else x ≤ i) ∧
  (∀ y, b = some y → if y < 0 then (i : Int) - n < y else (i : Int) < y)

instance (n : Nat) (a b : Option Int) (i : Nat) : Decidable (InSlice n a b i) := by
  unfold InSlice
  cases a <;> cases b <;> simp only [reduceCtorEq, false_implies, implies_true, true_and,
    and_true, Option.some.injEq, forall_eq'] <;> infer_instance

theorem lo_iff (n : Nat) (a : Option Int) (i : Nat) (hi' : i < n) :
    lo n a ≤ i ↔ ∀ x, a = some x → if x < 0 then x ≤ (i : Int) - n else x ≤ i := by
  cases a with
  | none => simp [lo]
  | some x =>
    simp only [lo, bound, Option.some.injEq, forall_eq']
    split <;> omega

theorem hi_iff (n : Nat) (b : Option Int) (i : Nat) (hi' : i < n) :
    i < hi n b ↔ ∀ y, b = some y → if y < 0 then (i : Int) - n < y else (i : Int) < y := by
  cases b with
  | none => simp [hi, hi']
  | some x =>
    simp only [hi, bound, Option.some.injEq, forall_eq']
    split <;> omega

theorem inSlice_iff (n : Nat) (a b : Option Int) (i : Nat) (hi' : i < n) :
    InSlice n a b i ↔ lo n a ≤ i ∧ i < hi n b := by
  rw [InSlice, ← lo_iff n a i hi', ← hi_iff n b i hi']

theorem filter_range {α} (l : List α) (k m n : Nat) :
    ((l.zipIdx k).filter (fun p => decide (m ≤ p.2 ∧ p.2 < n))).map Prod.fst =
      (l.take (n - k)).drop (m - k) := by
  induction l generalizing k with
  | nil => simp
  | cons x l ih =>
    rw [List.zipIdx_cons, List.filter_cons]
    by_cases h : m ≤ k ∧ k < n
    · simp only [h, and_self, decide_true, if_true, List.map_cons, ih (k + 1)]
      have e1 : m - k = 0 := by omega
      have e2 : m - (k + 1) = 0 := by omega
      have e3 : n - k = (n - (k + 1)) + 1 := by omega
      rw [e1, e2, e3, List.take_succ_cons]; simp
    · simp only [h, decide_false, Bool.false_eq_true, if_false, ih (k + 1)]
      by_cases hn : k < n
      · have e1 : m - k = (m - (k + 1)) + 1 := by omega
        have e3 : n - k = (n - (k + 1)) + 1 := by omega
        rw [e1, e3, List.take_succ_cons, List.drop_succ_cons]
      · have e1 : n - k = 0 := by omega
        have e2 : n - (k + 1) = 0 := by omega
        simp [e1, e2]

theorem filter_not_range {α} (l : List α) (k m n : Nat) :
    ((l.zipIdx k).filter (fun p => decide (¬ (m ≤ p.2 ∧ p.2 < n)))).map Prod.fst =
      l.take (m - k) ++ l.drop (max (m - k) (n - k)) := by
  induction l generalizing k with
  | nil => simp
  | cons x l ih =>
    rw [List.zipIdx_cons, List.filter_cons]
    by_cases h : m ≤ k ∧ k < n
    · simp only [h, and_self, not_true, decide_false, Bool.false_eq_true, if_false, ih (k + 1)]
      have e1 : m - k = 0 := by omega
      have e2 : m - (k + 1) = 0 := by omega
      have e3 : max (m - k) (n - k) = max (m - (k + 1)) (n - (k + 1)) + 1 := by omega
      rw [e3, e1, e2, List.drop_succ_cons]; simp
    · simp only [h, not_false_eq_true, decide_true, if_true, List.map_cons, ih (k + 1)]
      by_cases hm : k < m
      · have e1 : m - k = (m - (k + 1)) + 1 := by omega
        have e3 : max (m - k) (n - k) = max (m - (k + 1)) (n - (k + 1)) + 1 := by omega
        rw [e3, e1, List.take_succ_cons, List.drop_succ_cons]; simp
      · have e1 : m - k = 0 := by omega
        have e2 : m - (k + 1) = 0 := by omega
        have e3 : n - k = 0 := by omega
        have e4 : n - (k + 1) = 0 := by omega
        simp [e1, e2, e3, e4]

theorem filter_idx_congr {α} (l : List α) (f g : Nat → Bool)
    (h : ∀ i, i < l.length → f i = g i) :
    (l.zipIdx.filter (fun p => f p.2)).map Prod.fst =
      (l.zipIdx.filter (fun p => g p.2)).map Prod.fst := by
  congr 1
  apply List.filter_congr
  intro p hp
  have := List.snd_lt_of_mem_zipIdx hp
  exact h p.2 (by simpa using this)

/-- C126: `headers[a:b]` holds the entries at the positions in the slice, in order, and
`del headers[a:b]` leaves the other ones. -/
theorem C126_slice (l : HList) (a b : Option Int) :
    getSlice l a b =
      (l.zipIdx.filter (fun p => decide (InSlice l.length a b p.2))).map Prod.fst ∧
    delSlice l a b =
      (l.zipIdx.filter (fun p => decide (¬ InSlice l.length a b p.2))).map Prod.fst := by
  constructor
  · rw [filter_idx_congr l (fun i => decide (InSlice l.length a b i))
      (fun i => decide (lo l.length a ≤ i ∧ i < hi l.length b))
      (fun i h => decide_eq_decide.2 (inSlice_iff _ _ _ _ h)), filter_range]
    rfl
  · rw [filter_idx_congr l (fun i => decide (¬ InSlice l.length a b i))
      (fun i => decide (¬ (lo l.length a ≤ i ∧ i < hi l.length b)))
      (fun i h => decide_eq_decide.2 (not_congr (inSlice_iff _ _ _ _ h))), filter_not_range]
    rfl

example : getSlice [(s%"A", s%"1"), (s%"B", s%"2"), (s%"C", s%"3")] (some (-2)) (some (-1)) =
    [(s%"B", s%"2")] := by decide

/-- C126: `headers[a:b] = pairs` with legal values puts the pairs where the entries of the
slice were (or before the position `a` if the slice is empty) and keeps the rest, so that
afterwards the pairs stand together there; with a value that has a line break it raises
ValueError and changes nothing. -/
theorem C126_put (pre mid post ps : HList) (a b : Option Int)
    (ha : lo (pre ++ mid ++ post).length a = pre.length)
    (hb : max pre.length (hi (pre ++ mid ++ post).length b) = pre.length + mid.length) :
    ((∀ p ∈ ps, LegalValue p.2) →
      putSlice (pre ++ mid ++ post) a b ps = (pre ++ ps ++ post, .ok ())) ∧
    (¬ (∀ p ∈ ps, LegalValue p.2) →
      putSlice (pre ++ mid ++ post) a b ps = (pre ++ mid ++ post, .error .valueError)) := by
  constructor
  · intro hp
    have := (validateAll_iff ps).2 hp
    simp only [putSlice, this, ha, hb]
    congr 1
    have e1 : (pre ++ mid ++ post).take pre.length = pre := by
      rw [List.append_assoc, List.take_left']; rfl
    have e2 : (pre ++ mid ++ post).drop (pre.length + mid.length) = post := by
      rw [List.drop_left']; simp
    rw [e1, e2]
  · intro hp
    rcases validateAll_ok ps with h | h
    · exact absurd ((validateAll_iff ps).1 h) hp
    · simp only [putSlice, h]

example : putSlice [(s%"A", s%"1"), (s%"B", s%"2"), (s%"C", s%"3")] (some (-2)) (some (-1))
    [(s%"D", s%"4"), (s%"E", s%"5")] =
    ([(s%"A", s%"1"), (s%"D", s%"4"), (s%"E", s%"5"), (s%"C", s%"3")], .ok ()) :=
  (C126_put [(s%"A", s%"1")] [(s%"B", s%"2")] [(s%"C", s%"3")] _ _ _ (by decide)
    (by decide)).1 (by unfold LegalValue; decide)

/-- C126: a negative bound counts from the far side, one beyond the entries means the far
side, and a slice with both bounds left out is everything. -/
theorem C126_bounds (l : HList) (x : Int) :
    (-(l.length : Int) ≤ x → x < 0 → bound l.length x = bound l.length (x + l.length)) ∧
    (l.length ≤ x → bound l.length x = l.length) ∧
    (x < -(l.length : Int) → bound l.length x = 0) ∧
    getSlice l none none = l ∧ delSlice l none none = [] ∧
    getSlice l none (some x) ++ getSlice l (some x) none = l := by
  refine ⟨?_, ?_, ?_, by simp [getSlice, lo, hi], by simp [delSlice, lo, hi], ?_⟩
  · intro h1 h2; simp only [bound]; split <;> split <;> omega
  · intro h1; simp only [bound]; split <;> omega
  · intro h1; simp only [bound]; split <;> omega
  · simp only [getSlice, lo, hi, List.drop_zero, List.take_length, List.take_append_drop]

example : getSlice [(s%"A", s%"1"), (s%"B", s%"2"), (s%"C", s%"3")] none (some (-1)) =
    [(s%"A", s%"1"), (s%"B", s%"2")] := by decide

/-! ### Views -/

/-- C126: `items`, `keys` and `values` go through the entries in order, each entry once:
the entry that `headers[i]` gives is at place `i` of each; there are `len(headers)` of
them.  With `lower=True` the names are in lower case. -/
theorem C126_views (lower : Str → Str) (l : HList) (low : Bool) :
    (items lower l low).length = len l ∧ (keys lower l low).length = len l ∧
    (values lower l).length = len l ∧
    (∀ (i : Nat) k v, at' l i = .ok (k, v) →
      (items lower l low)[i]? = some (if low then lower k else k, v) ∧
      (keys lower l low)[i]? = some (if low then lower k else k) ∧
      (values lower l)[i]? = some v ∧
      at' l ((i : Int) - len l) = .ok (k, v)) ∧
    (∀ i : Int, (∃ p, at' l i = .ok p) ↔ -(len l : Int) ≤ i ∧ i < len l) ∧
    (∀ (i : Int) e, at' l i = .error e → e = .indexError) := by
  have hat : ∀ (i : Nat) p, at' l i = .ok p ↔ l[i]? = some p := by
    intro i p
    unfold at' pyIndex
    by_cases hl : i < l.length
    · have e : (0 ≤ (i : Int) ∧ (i : Int) < l.length) := by omega
      rw [if_pos e]
      simp [List.getElem?_eq_getElem hl]
    · have e : ¬ (0 ≤ (i : Int) ∧ (i : Int) < l.length) := by omega
      have e' : ¬ ((i : Int) < 0 ∧ -(l.length : Int) ≤ i) := by omega
      rw [if_neg e, if_neg e']
      simp [List.getElem?_eq_none (Nat.le_of_not_lt hl)]
  refine ⟨by simp [items, len], by simp [keys, items, len], by simp [values, items, len],
    ?_, ?_, ?_⟩
  · intro i k v h
    have h' := (hat i (k, v)).1 h
    have hl : i < l.length := by
      false_or_by_contra; rename_i hc
      rw [List.getElem?_eq_none (Nat.le_of_not_lt hc)] at h'; cases h'
    refine ⟨?_, ?_, ?_, ?_⟩
    · cases low <;> simp [items, h']
    · cases low <;> simp [keys, items, h']
    · simp [values, items, h']
    · unfold at' pyIndex len
      have e : ¬ (0 ≤ (i : Int) - l.length ∧ (i : Int) - l.length < l.length) := by omega
      have e' : ((i : Int) - l.length < 0 ∧ -(l.length : Int) ≤ (i : Int) - l.length) := by omega
      have e2 : ((i : Int) - l.length + l.length).toNat = i := by omega
      rw [if_neg e, if_pos e', e2]
      simp [h']
  · intro i
    unfold at' pyIndex len
    split
    · rename_i n hn
      split at hn
      · rename_i hc
        have := Option.some.inj hn
        have hl : n < l.length := by omega
        simp [List.getElem?_eq_getElem hl]; omega
      · split at hn
        · have := Option.some.inj hn
          have hl : n < l.length := by omega
          simp [List.getElem?_eq_getElem hl]; omega
        · cases hn
    · rename_i hn
      split at hn
      · cases hn
      · split at hn
        · cases hn
        · simp; omega
  · intro i e h
    unfold at' at h
    split at h
    · split at h
      · cases h
      · cases h; rfl
    · cases h; rfl

example : at' [(s%"A", s%"1"), (s%"B", s%"2")] (1 : Nat) = .ok (s%"B", s%"2") := by decide

/-- C126: the values for a name are those at the places where `keys(lower=True)` has the
lower-case name, in order; a name is present exactly when it is among those keys. -/
theorem C126_by_name (lower : Str → Str) (l : HList) (name : Str) :
    getAll lower l name =
      (((keys lower l true).zip (values lower l)).filter
        (fun p => decide (p.1 = lower name))).map Prod.snd ∧
    (contains lower l name = true ↔ lower name ∈ keys lower l true) := by
  constructor
  · induction l with
    | nil => rfl
    | cons p l ih =>
      obtain ⟨k, v⟩ := p
      simp only [getAll, getlist, keys, values, items, if_true, List.map_cons,
        Bool.false_eq_true, if_false, List.zip_cons_cons, List.filter_cons] at ih ⊢
      by_cases h : lower k = lower name
      · simp [h, ih]
      · simp [h, ih]
  · simp only [contains]
    induction l with
    | nil => simp [getItem, keys, items]
    | cons p l ih =>
      obtain ⟨k, v⟩ := p
      simp only [getItem, keys, items, if_true, List.map_cons, List.mem_cons] at ih ⊢
      by_cases h : lower k = lower name
      · simp [h]
      · rw [if_neg h, ih]
        constructor
        · exact .inr
        · rintro (h' | h')
          · exact absurd h'.symm h
          · exact h'

example : getAll asciiLower [(s%"Via", s%"a"), (s%"B", s%"2"), (s%"VIA", s%"c")] s%"via" =
    [s%"a", s%"c"] := by decide

/-! ### Conversions -/

/-- C126: `getlist` with a type gives the conversions of those values for the name that can
be converted, in order, if no conversion fails with anything but ValueError; `get` looks at
the first value only. -/
theorem C126_convert {α β} (lower : Str → Str) (enc : Str → Except PyErr β)
    (conv : β → Except PyErr α) (default : α) (l : HList) (name : Str)
    (hv : ∀ v ∈ getlist lower l name, ∃ b, enc v = .ok b ∧
      ∀ e, conv b = .error e → e = .valueError ∨ e = .unicodeError) :
    getlistConv lower enc conv name l =
      .ok ((getlist lower l name).filterMap
        (fun v => ((enc v).toOption).bind (fun b => (conv b).toOption))) ∧
    getConv lower enc conv default l name =
      .ok (((getlist lower l name).head?.bind
        (fun v => ((enc v).toOption).bind (fun b => (conv b).toOption))).getD default) := by
  constructor
  · induction l with
    | nil => rfl
    | cons p l ih =>
      obtain ⟨k, v⟩ := p
      simp only [getlist, getlistConv] at hv ⊢
      by_cases h : lower k = lower name
      · simp only [h, if_true, List.mem_cons, forall_eq_or_imp] at hv ⊢
        obtain ⟨⟨b, hb, hc⟩, hrest⟩ := hv
        simp only [hb, ih hrest, List.filterMap_cons, Except.toOption, Option.bind_some]
        rcases hcb : conv b with e | a
        · have : isValueError e = true := by
            rcases hc e hcb with rfl | rfl <;> rfl
          simp only [this, if_true]
        · simp only [Except.map]
      · simp only [h, if_false] at hv ⊢
        exact ih hv
  · simp only [getConv, getItem_eq]
    rcases hl : getlist lower l name with _ | ⟨v, vs⟩
    · rfl
    · obtain ⟨b, hb, hc⟩ := hv v (by rw [hl]; exact List.mem_cons_self)
      simp only [List.head?_cons, hb, Option.bind_some, Except.toOption]
      rcases hcb : conv b with e | a
      · have : isValueError e = true := by
          rcases hc e hcb with rfl | rfl <;> rfl
        simp [this]
      · rfl

example : getlistConv asciiLower Except.ok
    Py.intOf s%"age"
    [(s%"Age", s%"x"), (s%"Age", s%"12")] = .ok [(12 : Int)] ∧
    getConv asciiLower Except.ok
    Py.intOf 7
    [(s%"Age", s%"x"), (s%"Age", s%"12")] s%"age" = .ok (7 : Int) := by
  decide +kernel

/-- C126: a value with a character beyond latin-1 makes `get(…, as_bytes=True)` raise
UnicodeError even where a default and a type were given. -/
theorem C126_bytes_limits (lower : Str → Str) {α} (conv : Bytes → Except PyErr α) (default : α)
    (l : HList) (name v : Str) (h : getItem lower l name = some v)
    (hc : ∃ c ∈ v, 256 ≤ c.toNat) :
    getConv lower Utf8.toLatin1 conv default l name = .error .unicodeError := by
  obtain ⟨c, hm, hc⟩ := hc
  have : Utf8.toLatin1 v = .error .unicodeError := by
    unfold Utf8.toLatin1
    rw [if_neg]
    simp only [List.all_eq_true, decide_eq_true_eq]
    intro hall
    have := hall c hm
    omega
  simp only [getConv, h, this]

example : getItem asciiLower [(s%"A", [Char.ofNat 8364])] s%"a" = some [Char.ofNat 8364] ∧
    ∃ c ∈ [Char.ofNat 8364], 256 ≤ c.toNat := ⟨by decide, _, List.mem_cons_self, by decide⟩

/-! ### Values that are not text -/

theorem toLatin1_latin1 (b : Bytes) : Utf8.toLatin1 (Utf8.latin1 b) = .ok b := by
  have hlt : ∀ x : UInt8, (Char.ofNat x.toNat).toNat < 256 ∧
      Utf8.byte (Char.ofNat x.toNat).toNat = x := by
    intro x
    have h := Urls.forall_byte (fun x => decide ((Char.ofNat x.toNat).toNat < 256 ∧
      Utf8.byte (Char.ofNat x.toNat).toNat = x)) (by decide +kernel) x
    exact of_decide_eq_true h
  unfold Utf8.toLatin1 Utf8.latin1
  rw [if_pos]
  · rw [List.map_map]
    congr 1
    conv => rhs; rw [← List.map_id b]
    exact List.map_congr_left fun x _ => (hlt x).2
  · simp only [List.all_map, List.all_eq_true, Function.comp, decide_eq_true_eq]
    exact fun x _ => (hlt x).1

theorem set_ok (lower : Str → Str) (l : HList) (k s : Str) (h : LegalValue s) :
    ∃ l', Headers.set lower l k s [] = (l', .ok ()) ∧ getlist lower l' k = [s] := by
  have e : effValue s [] = s := rfl
  have hgl := getlist_set (lower := lower) l k s k h
  have : (Headers.set lower l k s []).2 = .ok () := by
    rcases set_legal (lower := lower) l k s [] (by rw [e]; exact h) with h | ⟨_, _, _, _, _, _, h⟩
    · rw [h.2]
    · rw [h]
  exact ⟨(Headers.set lower l k s []).1, by rw [← this], by simpa using hgl⟩

/-- C126: bytes that are set as a value without line breaks are what
`get(…, as_bytes=True)` gives back; with a line break ValueError is raised. -/
theorem C126_bytes (lower : Str → Str) (l : HList) (k : Str) (b : Bytes) (default : Bytes) :
    ((10 ∉ b ∧ 13 ∉ b) → ∃ l', setVal lower l k (.bytes b) = (l', .ok ()) ∧
      getConv lower Utf8.toLatin1 Except.ok default l' k = .ok b ∧
      getlistConv lower Utf8.toLatin1 Except.ok k l' = .ok [b]) ∧
    (¬ (10 ∉ b ∧ 13 ∉ b) → setVal lower l k (.bytes b) = (l, .error .valueError)) := by
  have hmem : ∀ n : UInt8, n = 10 ∨ n = 13 → (Char.ofNat n.toNat ∈ Utf8.latin1 b ↔ n ∈ b) := by
    intro n hn
    simp only [Utf8.latin1, List.mem_map]
    constructor
    · rintro ⟨x, hx, he⟩
      have : x = n := by
        have h1 : ∀ x : UInt8, (Char.ofNat x.toNat).toNat = x.toNat := fun x =>
          of_decide_eq_true (Urls.forall_byte
            (fun x => decide ((Char.ofNat x.toNat).toNat = x.toNat)) (by decide +kernel) x)
        have := congrArg Char.toNat he
        rw [h1 x, h1 n] at this
        exact UInt8.toNat_inj.1 this
      exact this ▸ hx
    · intro hx; exact ⟨n, hx, rfl⟩
  have hleg : LegalValue (Utf8.latin1 b) ↔ (10 ∉ b ∧ 13 ∉ b) := by
    unfold LegalValue
    have h1 := hmem 10 (.inl rfl)
    have h2 := hmem 13 (.inr rfl)
    have e1 : Char.ofNat (10 : UInt8).toNat = '\n' := by decide
    have e2 : Char.ofNat (13 : UInt8).toNat = '\r' := by decide
    rw [e1] at h1; rw [e2] at h2
    rw [h1, h2]
  have heff : effValue (unicodify (.bytes b)) [] = Utf8.latin1 b := rfl
  constructor
  · intro h
    obtain ⟨l', hok, hg⟩ := set_ok lower l k (Utf8.latin1 b) (hleg.2 h)
    have hc := C126_convert lower Utf8.toLatin1 (Except.ok (ε := PyErr) (α := Bytes)) default l' k
        (by rw [hg]; intro v hv; rcases List.mem_singleton.1 hv with rfl
            exact ⟨b, toLatin1_latin1 b, fun e he => by cases he⟩)
    refine ⟨l', hok, ?_, ?_⟩
    · rw [hc.2, hg]
      simp [toLatin1_latin1, Except.toOption]
    · rw [hc.1, hg]
      simp [toLatin1_latin1, Except.toOption]
  · intro h
    unfold setVal
    rw [set_illegal (lower := lower) l k _ [] (by rw [heff, hleg]; exact h)]

example : (10 ∉ ([200, 1] : Bytes) ∧ 13 ∉ ([200, 1] : Bytes)) := by decide

/-- C126: a number that is set is read back with `type=int`. -/
theorem C126_int (lower : Str → Str) (l : HList) (k : Str) (n : Int) (default : Int) :
    ∃ l', setVal lower l k (.int n) = (l', .ok ()) ∧
      getItem lower l' k = some (Py.intStr n) ∧
      getConv lower Except.ok Py.intOf
        default l' k = .ok n := by
  obtain ⟨l', hok, hg⟩ := set_ok lower l k (Py.intStr n) (Desc.legal_intStr n)
  refine ⟨l', hok, ?_, ?_⟩
  · rw [getItem_eq, hg]; rfl
  · simp only [getConv, getItem_eq, hg, List.head?_cons, Py.intOf_intStr]

/-- C126: `setdefault` with text gives the first value that is then there; that this is so
for other values is false: it returns the number, not the text that was stored. -/
theorem C126_setdefault (lower : Str → Str) (l : HList) (k s : Str) (r : Val) (l' : HList)
    (h : setdefaultVal lower l k (.text s) = (l', .ok r)) :
    ∃ t, r = .text t ∧ getItem lower l' k = some t := by
  unfold setdefaultVal at h
  split at h
  · rename_i t ht
    injection h with h1 h2
    exact ⟨t, (Except.ok.inj h2).symm, h1 ▸ ht⟩
  · by_cases hs : LegalValue s
    · obtain ⟨l'', hok, hg⟩ := set_ok lower l k s hs
      have e : setVal lower l k (.text s) = (l'', .ok ()) := hok
      rw [e] at h
      injection h with h1 h2
      refine ⟨s, (Except.ok.inj h2).symm, ?_⟩
      rw [← h1, getItem_eq, hg]; rfl
    · have e : effValue (unicodify (.text s)) [] = s := rfl
      have hset := set_illegal (lower := lower) l k (unicodify (.text s)) [] (by rw [e]; exact hs)
      simp only [setVal, hset] at h
      cases (Prod.mk.inj h).2

example : setdefaultVal asciiLower [(s%"A", s%"1")] s%"a" (.text s%"2") =
    ([(s%"A", s%"1")], .ok (.text s%"1")) := by decide

/-- C126, what `setdefault` returns is not what the headers then hold. -/
theorem C126_setdefault_false : ∃ l', setdefaultVal asciiLower [] s%"Age" (.int 5) =
      (l', .ok (.int 5)) ∧ getItem asciiLower l' s%"Age" = some s%"5" :=
  ⟨[(s%"Age", s%"5")], by decide +kernel⟩

/-! ### `extend` -/

theorem addAll_eq (l : HList) (k : Str) (vs : List Val)
    (h : ∀ v ∈ vs, LegalValue (unicodify v)) :
    addAll l k vs = (l ++ vs.map (fun v => (k, unicodify v)), .ok ()) := by
  induction vs generalizing l with
  | nil => simp [addAll]
  | cons v vs ih =>
    have hv := h v List.mem_cons_self
    have e : effValue (unicodify v) [] = unicodify v := rfl
    have := add_legal l k (unicodify v) [] (by rw [e]; exact hv)
    simp only [addAll, addVal, this, e]
    rw [ih _ fun v hv => h v (List.mem_cons_of_mem _ hv)]
    simp

/-- C126: `extend` with a dictionary adds one entry for each value of each key, in order. -/
theorem C126_extend_dict (l : HList) (d : List (Str × List Val))
    (h : ∀ p ∈ d, ∀ v ∈ p.2, LegalValue (unicodify v)) :
    extendDict l d = (l ++ d.flatMap (fun p => p.2.map (fun v => (p.1, unicodify v))), .ok ()) := by
  induction d generalizing l with
  | nil => simp [extendDict]
  | cons p d ih =>
    obtain ⟨k, vs⟩ := p
    simp only [extendDict, addAll_eq l k vs (h _ List.mem_cons_self)]
    rw [ih _ fun p hp => h p (List.mem_cons_of_mem _ hp)]
    simp

example : extendDict [(s%"A", s%"1")] [(s%"B", [.int 2, .bytes b%"x"]), (s%"C", [.text s%"y"])] =
    ([(s%"A", s%"1"), (s%"B", s%"2"), (s%"B", s%"x"), (s%"C", s%"y")], .ok ()) := by
  decide +kernel

/-- C126, that headers can be extended with themselves is false: the loop never ends. -/
theorem C126_extend_self_false (l : HList) (hl : ∀ p ∈ l, LegalValue p.2) (hne : l ≠ []) :
    ∀ fuel, extendSelf fuel l 0 = none := by
  have key : ∀ fuel (l : HList) i, (∀ p ∈ l, LegalValue p.2) → i < l.length →
      extendSelf fuel l i = none := by
    intro fuel
    induction fuel with
    | zero => intros; rfl
    | succ fuel ih =>
      intro l i hl hi'
      have hp := List.getElem?_eq_getElem hi'
      have hv := hl _ (List.getElem_mem hi')
      have e : ∀ v : Str, effValue v [] = v := fun _ => rfl
      have ha := add_legal l (l[i]).1 (l[i]).2 [] (by rw [e]; exact hv)
      simp only [extendSelf, hp, ha, e]
      apply ih
      · intro p hp'
        rcases List.mem_append.1 hp' with h | h
        · exact hl p h
        · rcases List.mem_singleton.1 h with rfl
          exact hv
      · simp; omega
  exact fun fuel => key fuel l 0 hl (List.length_pos_iff.2 hne)

example : ∀ fuel, extendSelf fuel [(s%"A", s%"1")] 0 = none :=
  C126_extend_self_false _ (by unfold LegalValue; decide) (by decide)

/-- C126: extending headers with a copy of themselves doubles them. -/
theorem C126_extend_copy (l : HList) (hl : ∀ p ∈ l, LegalValue p.2) :
    Headers.extend l l = (l ++ l, .ok ()) := by
  have key : ∀ (ps l : HList), (∀ p ∈ ps, LegalValue p.2) →
      Headers.extend l ps = (l ++ ps, .ok ()) := by
    intro ps
    induction ps with
    | nil => intro l _; simp [Headers.extend]
    | cons p ps ih =>
      intro l h
      have e : ∀ v : Str, effValue v [] = v := fun _ => rfl
      have ha := add_legal l p.1 p.2 [] (by rw [e]; exact h p List.mem_cons_self)
      simp only [Headers.extend, ha, e]
      rw [ih _ fun q hq => h q (List.mem_cons_of_mem _ hq)]
      simp
  exact key l l hl

/-! ### Copies -/

/-- The variables of a program with the values they are to have: every headers object and
every list has contents of its own. -/
structure Values where
  headers : List HList
  lists : List HList
  deriving DecidableEq

/-- What an instruction is to do: only the variable it names changes, new ones start with
the contents of what they are made from. -/
def Values.exec (lower : Str → Str) (s : Values) : Instr → Values
  | .list ps => { s with lists := s.lists ++ [ps] }
  | .push x p => { s with lists := s.lists.modify x (· ++ [p]) }
  | .empty x => { s with lists := s.lists.modify x (fun _ => []) }
  | .ofList x => { s with headers := s.headers ++ (s.lists[x]?).toList }
  | .ofHeaders h => { s with headers := s.headers ++ (s.headers[h]?).toList }
  | .ofIter ps =>
    if ps.all (fun p => !p.2.contains '\n' && !p.2.contains '\r')
    then { s with headers := s.headers ++ [ps] } else s
  | .copy h => { s with headers := s.headers ++ (s.headers[h]?).toList }
  | .slice h a b =>
    { s with headers := s.headers ++ ((s.headers[h]?).toList.map fun l => getSlice l a b) }
  | .toList h => { s with lists := s.lists ++ (s.headers[h]?).toList }
  | .call h c => { s with headers := s.headers.modify h (fun l => callList lower l c) }

/-- No two variables share a list object, and all addresses are in use. -/
def Apart (s : State) : Prop :=
  (s.headers ++ s.lists).Nodup ∧ ∀ a ∈ s.headers ++ s.lists, a < s.heap.length

/-- What the variables hold. -/
def read (s : State) : Values := ⟨s.headers.map s.at, s.lists.map s.at⟩

theorem at_append (s : State) (l : HList) (as : List Nat) (hs ls : List Nat)
    (h : ∀ a ∈ as, a < s.heap.length) :
    as.map (State.at ⟨s.heap ++ [l], hs, ls⟩) = as.map s.at := by
  apply List.map_congr_left
  intro a ha
  simp only [State.at, List.getElem?_append_left (h a ha)]

theorem at_new (s : State) (l : HList) (hs ls : List Nat) :
    State.at ⟨s.heap ++ [l], hs, ls⟩ s.heap.length = l := by
  simp [State.at]

theorem newHeaders_ok (s : State) (l : HList) (h : Apart s) :
    Apart (s.newHeaders l) ∧
    read (s.newHeaders l) = { read s with headers := (read s).headers ++ [l] } := by
  obtain ⟨nd, lt⟩ := h
  constructor
  · constructor
    · show ((s.headers ++ [s.heap.length]) ++ s.lists).Nodup
      obtain ⟨n1, n2, n3⟩ := List.nodup_append.1 nd
      rw [List.append_assoc, List.nodup_append]
      refine ⟨n1, ?_, ?_⟩
      · rw [List.singleton_append, List.nodup_cons]
        refine ⟨fun hm => ?_, n2⟩
        have := lt _ (List.mem_append_right _ hm); omega
      · intro a ha b hb
        rcases List.mem_cons.1 hb with rfl | hb
        · have := lt _ (List.mem_append_left _ ha); omega
        · exact n3 a ha b hb
    · intro a ha
      show a < (s.heap ++ [l]).length
      have ha' : a ∈ (s.headers ++ [s.heap.length]) ++ s.lists := ha
      simp only [List.mem_append, List.mem_singleton, List.length_append, List.length_cons,
        List.length_nil] at ha' lt ⊢
      rcases ha' with (h | rfl) | h
      · have := lt a (.inl h); omega
      · omega
      · have := lt a (.inr h); omega
  · simp only [read, State.newHeaders, List.map_append, List.map_cons, List.map_nil, at_new]
    rw [at_append s l s.headers _ _ fun a ha => lt a (List.mem_append_left _ ha),
      at_append s l s.lists _ _ fun a ha => lt a (List.mem_append_right _ ha)]

theorem newList_ok (s : State) (l : HList) (h : Apart s) :
    Apart (s.newList l) ∧
    read (s.newList l) = { read s with lists := (read s).lists ++ [l] } := by
  obtain ⟨nd, lt⟩ := h
  constructor
  · constructor
    · show (s.headers ++ (s.lists ++ [s.heap.length])).Nodup
      rw [← List.append_assoc, List.nodup_append]
      refine ⟨nd, by simp, ?_⟩
      intro a ha b hb
      rcases List.mem_singleton.1 hb with rfl
      have := lt a ha; omega
    · intro a ha
      show a < (s.heap ++ [l]).length
      have ha' : a ∈ s.headers ++ (s.lists ++ [s.heap.length]) := ha
      simp only [List.mem_append, List.mem_singleton, List.length_append, List.length_cons,
        List.length_nil] at ha' lt ⊢
      rcases ha' with h | h | rfl
      · have := lt a (.inl h); omega
      · have := lt a (.inr h); omega
      · omega
  · simp only [read, State.newList, List.map_append, List.map_cons, List.map_nil, at_new]
    rw [at_append s l s.headers _ _ fun a ha => lt a (List.mem_append_left _ ha),
      at_append s l s.lists _ _ fun a ha => lt a (List.mem_append_right _ ha)]

theorem map_write (s : State) (a : Nat) (l : HList) (as : List Nat) (i : Nat)
    (hi' : as[i]? = some a) (nd : as.Nodup) (lt : a < s.heap.length) :
    as.map (s.write a l).at = (as.map s.at).modify i (fun _ => l) := by
  apply List.ext_getElem?
  intro j
  rw [List.getElem?_modify, List.getElem?_map, List.getElem?_map]
  rcases hj : as[j]? with _ | b
  · simp
  · by_cases e : i = j
    · subst e
      have hab : a = b := Option.some.inj (hi'.symm.trans hj)
      subst hab
      simp [State.at, State.write, lt]
    · have hab : a ≠ b := by
        rintro rfl
        obtain ⟨hl1, h1⟩ := List.getElem?_eq_some_iff.1 hi'
        obtain ⟨hl2, h2⟩ := List.getElem?_eq_some_iff.1 hj
        exact e ((List.getElem_inj nd).1 (h1.trans h2.symm))
      simp [e, State.at, State.write, List.getElem?_set_ne hab]

theorem map_write_other (s : State) (a : Nat) (l : HList) (as : List Nat) (h : a ∉ as) :
    as.map (s.write a l).at = as.map s.at := by
  apply List.map_congr_left
  intro b hb
  have hab : a ≠ b := fun e => h (e ▸ hb)
  simp [State.at, State.write, List.getElem?_set_ne hab]

theorem modify_const {α} (l : List α) (i : Nat) (f : α → α) (x : α) (h : l[i]? = some x) :
    l.modify i f = l.modify i (fun _ => f x) := by
  apply List.ext_getElem?
  intro j
  rw [List.getElem?_modify, List.getElem?_modify]
  by_cases e : i = j
  · subst e; simp [h]
  · simp [e]

theorem modify_none {α} (l : List α) (i : Nat) (f : α → α) (h : l[i]? = none) :
    l.modify i f = l := by
  apply List.ext_getElem?
  intro j
  rw [List.getElem?_modify]
  by_cases e : i = j
  · subst e; simp [h]
  · simp [e]

theorem writeHeaders_ok (s : State) (i a : Nat) (f : HList → HList) (h : Apart s)
    (hi' : s.headers[i]? = some a) :
    Apart (s.write a (f (s.at a))) ∧
    read (s.write a (f (s.at a))) = { read s with headers := (read s).headers.modify i f } := by
  obtain ⟨nd, lt⟩ := h
  obtain ⟨n1, n2, n3⟩ := List.nodup_append.1 nd
  have hm : a ∈ s.headers := List.mem_of_getElem? hi'
  have hl := lt a (List.mem_append_left _ hm)
  refine ⟨⟨nd, fun b hb => ?_⟩, ?_⟩
  · have := lt b hb
    simpa [State.write] using this
  · have e1 := map_write s a (f (s.at a)) s.headers i hi' n1 hl
    have e2 := map_write_other s a (f (s.at a)) s.lists fun hb => n3 a hm a hb rfl
    have e3 := modify_const (s.headers.map s.at) i f (s.at a) (by simp [hi'])
    simp only [read]
    rw [e3, ← e1, ← e2]
    rfl

theorem writeLists_ok (s : State) (i a : Nat) (f : HList → HList) (h : Apart s)
    (hi' : s.lists[i]? = some a) :
    Apart (s.write a (f (s.at a))) ∧
    read (s.write a (f (s.at a))) = { read s with lists := (read s).lists.modify i f } := by
  obtain ⟨nd, lt⟩ := h
  obtain ⟨n1, n2, n3⟩ := List.nodup_append.1 nd
  have hm : a ∈ s.lists := List.mem_of_getElem? hi'
  have hl := lt a (List.mem_append_right _ hm)
  refine ⟨⟨nd, fun b hb => ?_⟩, ?_⟩
  · have := lt b hb
    simpa [State.write] using this
  · have e1 := map_write s a (f (s.at a)) s.lists i hi' n2 hl
    have e2 := map_write_other s a (f (s.at a)) s.headers fun hb => n3 a hb a hm rfl
    have e3 := modify_const (s.lists.map s.at) i f (s.at a) (by simp [hi'])
    simp only [read]
    rw [e3, ← e1, ← e2]
    rfl

theorem extend_nil (ps : HList) :
    (ps.all (fun p => !p.2.contains '\n' && !p.2.contains '\r') = true →
      Headers.extend [] ps = (ps, .ok ())) ∧
    (ps.all (fun p => !p.2.contains '\n' && !p.2.contains '\r') = false →
      ∃ l e, Headers.extend [] ps = (l, .error e)) := by
  have key : ∀ (ps l : HList),
      (ps.all (fun p => !p.2.contains '\n' && !p.2.contains '\r') = true →
        Headers.extend l ps = (l ++ ps, .ok ())) ∧
      (ps.all (fun p => !p.2.contains '\n' && !p.2.contains '\r') = false →
        ∃ l' e, Headers.extend l ps = (l', .error e)) := by
    intro ps
    induction ps with
    | nil => intro l; simp [Headers.extend]
    | cons p ps ih =>
      intro l
      have e : ∀ v : Str, effValue v [] = v := fun _ => rfl
      by_cases hv : LegalValue p.2
      · have ha := add_legal l p.1 p.2 [] (by rw [e]; exact hv)
        have hb : (!p.2.contains '\n' && !p.2.contains '\r') = true := by
          obtain ⟨h1, h2⟩ := hv; simp [h1, h2]
        simp only [Headers.extend, ha, e, List.all_cons, hb, Bool.true_and]
        have := ih (l ++ [(p.1, p.2)])
        simpa using this
      · have ha := add_illegal l p.1 p.2 [] (by rw [e]; exact hv)
        have hb : (!p.2.contains '\n' && !p.2.contains '\r') = false := by
          by_cases h1 : '\n' ∈ p.2
          · simp [h1]
          · by_cases h2 : '\r' ∈ p.2
            · simp [h2]
            · exact absurd ⟨h1, h2⟩ hv
        simp only [Headers.extend, ha, List.all_cons, hb, Bool.false_and]
        exact ⟨by simp, fun _ => ⟨_, _, rfl⟩⟩
  simpa using key ps []

theorem exec_ok (lower : Str → Str) (s : State) (i : Instr) (h : Apart s) :
    Apart (s.exec lower i) ∧ read (s.exec lower i) = (read s).exec lower i := by
  have hh : ∀ (j a : Nat), s.headers[j]? = some a → (read s).headers[j]? = some (s.at a) := by
    intro j a hj; simp [read, hj]
  have hn : ∀ j : Nat, s.headers[j]? = none → (read s).headers[j]? = none := by
    intro j hj
    show (s.headers.map s.at)[j]? = none
    rw [List.getElem?_map, hj]; rfl
  have lh : ∀ (j a : Nat), s.lists[j]? = some a → (read s).lists[j]? = some (s.at a) := by
    intro j a hj; simp [read, hj]
  have ln : ∀ j : Nat, s.lists[j]? = none → (read s).lists[j]? = none := by
    intro j hj
    show (s.lists.map s.at)[j]? = none
    rw [List.getElem?_map, hj]; rfl
  cases i with
  | list ps => exact newList_ok s ps h
  | push x p =>
    rcases hx : s.lists[x]? with _ | a
    · simp only [State.exec, hx, Values.exec, modify_none _ _ _ (ln x hx)]
      exact ⟨h, trivial⟩
    · simp only [State.exec, hx, Values.exec]
      exact writeLists_ok s x a (· ++ [p]) h hx
  | empty x =>
    rcases hx : s.lists[x]? with _ | a
    · simp only [State.exec, hx, Values.exec, modify_none _ _ _ (ln x hx)]
      exact ⟨h, trivial⟩
    · simp only [State.exec, hx, Values.exec]
      exact writeLists_ok s x a (fun _ => []) h hx
  | ofList x =>
    rcases hx : s.lists[x]? with _ | a
    · simp only [State.exec, hx, Values.exec, ln x hx, Option.toList, List.append_nil]
      exact ⟨h, trivial⟩
    · simp only [State.exec, hx, Values.exec, lh x a hx, Option.toList]
      exact newHeaders_ok s _ h
  | ofHeaders x =>
    rcases hx : s.headers[x]? with _ | a
    · simp only [State.exec, hx, Values.exec, hn x hx, Option.toList, List.append_nil]
      exact ⟨h, trivial⟩
    · simp only [State.exec, hx, Values.exec, hh x a hx, Option.toList]
      exact newHeaders_ok s _ h
  | ofIter ps =>
    rcases hb : ps.all (fun p => !p.2.contains '\n' && !p.2.contains '\r') with _ | _
    · obtain ⟨l, e, he⟩ := (extend_nil ps).2 hb
      simp only [State.exec, he, Values.exec, hb, Bool.false_eq_true, if_false]
      exact ⟨h, trivial⟩
    · have he := (extend_nil ps).1 hb
      simp only [State.exec, he, Values.exec, hb, if_true]
      exact newHeaders_ok s _ h
  | copy x =>
    rcases hx : s.headers[x]? with _ | a
    · simp only [State.exec, hx, Values.exec, hn x hx, Option.toList, List.append_nil]
      exact ⟨h, trivial⟩
    · simp only [State.exec, hx, Values.exec, hh x a hx, Option.toList]
      exact newHeaders_ok s _ h
  | slice x y z =>
    rcases hx : s.headers[x]? with _ | a
    · simp only [State.exec, hx, Values.exec, hn x hx, Option.toList, List.map_nil,
        List.append_nil]
      exact ⟨h, trivial⟩
    · simp only [State.exec, hx, Values.exec, hh x a hx, Option.toList, List.map_cons,
        List.map_nil]
      exact newHeaders_ok s _ h
  | toList x =>
    rcases hx : s.headers[x]? with _ | a
    · simp only [State.exec, hx, Values.exec, hn x hx, Option.toList, List.append_nil]
      exact ⟨h, trivial⟩
    · simp only [State.exec, hx, Values.exec, hh x a hx, Option.toList]
      exact newList_ok s _ h
  | call x c =>
    rcases hx : s.headers[x]? with _ | a
    · simp only [State.exec, hx, Values.exec, modify_none _ _ _ (hn x hx)]
      exact ⟨h, trivial⟩
    · simp only [State.exec, hx, Values.exec]
      exact writeHeaders_ok s x a (fun l => callList lower l c) h hx

/-- C126: in every program, copies of headers, slices of them, headers made from lists and
from other headers, and the lists that `to_wsgi_list` hands out are independent: what each
variable holds is what it was made with, changed only by the calls on that variable. -/
theorem C126_independent (lower : Str → Str) (p : List Instr) :
    read (State.run lower ⟨[], [], []⟩ p) = p.foldl (Values.exec lower) ⟨[], []⟩ := by
  have key : ∀ (p : List Instr) (s : State), Apart s →
      read (s.run lower p) = p.foldl (Values.exec lower) (read s) := by
    intro p
    induction p with
    | nil => intro s _; rfl
    | cons i p ih =>
      intro s h
      have := exec_ok lower s i h
      simp only [State.run, List.foldl_cons] at ih ⊢
      rw [ih _ this.1, this.2]
  exact key p ⟨[], [], []⟩ ⟨by simp, by simp⟩

/-- A program that copies headers, changes the copy and a list taken from it. -/
def demoPrograms : List Instr :=
  [.list [(s%"A", s%"1"), (s%"B", s%"2")], .ofList 0, .copy 0, .call 1 (.op (.delKey s%"a")),
   .slice 0 (some (-1)) none, .toList 1, .push 1 (s%"C", s%"3"), .empty 0]

example : read (State.run asciiLower ⟨[], [], []⟩ demoPrograms) =
    ⟨[[(s%"A", s%"1"), (s%"B", s%"2")], [(s%"B", s%"2")], [(s%"B", s%"2")]],
     [[], [(s%"B", s%"2"), (s%"C", s%"3")]]⟩ := by
  rw [C126_independent]; decide

end Verif.Props.HViewP
