import Verif.Py
/-!
CPython's `dict` (3.6: insertion ordered) as a list of items with pairwise distinct keys.
Not code from `/repo`; the builtin its containers are made of.
-/
namespace Verif.Dict
variable {K V : Type} [DecidableEq K]

/-- `d.get(k)` with `none` for a missing key. -/
def get : List (K × V) → K → Option V
  | [], _ => none
  | (a, v) :: r, k => if a = k then some v else get r k

/-- `d[k] = v`: an existing key keeps its position. -/
def set : List (K × V) → K → V → List (K × V)
  | [], k, v => [(k, v)]
  | (a, w) :: r, k, v => if a = k then (a, v) :: r else (a, w) :: set r k v

/-- `del d[k]` (nothing happens if `k` is missing). -/
def del : List (K × V) → K → List (K × V)
  | [], _ => []
  | (a, w) :: r, k => if a = k then r else (a, w) :: del r k

/-- `k in d`. -/
def has (d : List (K × V)) (k : K) : Bool := (get d k).isSome

/-- `list(d)`. -/
def keys (d : List (K × V)) : List K := d.map (·.1)

omit [DecidableEq K] in
@[simp] theorem keys_nil : keys ([] : List (K × V)) = [] := rfl
omit [DecidableEq K] in
@[simp] theorem keys_cons (p : K × V) (d : List (K × V)) : keys (p :: d) = p.1 :: keys d := rfl
omit [DecidableEq K] in
@[simp] theorem keys_append (d e : List (K × V)) : keys (d ++ e) = keys d ++ keys e := by simp [keys]
@[simp] theorem get_nil (k : K) : get ([] : List (K × V)) k = none := rfl

theorem get_eq_none {d : List (K × V)} {k : K} : get d k = none ↔ k ∉ keys d := by
  induction d with
  | nil => simp
  | cons p d ih =>
    obtain ⟨a, w⟩ := p
    simp only [get, keys_cons, List.mem_cons]
    split
    · rename_i h; simp [h]
    · rename_i h; rw [ih]; simp [Ne.symm h]

theorem has_iff {d : List (K × V)} {k : K} : has d k = true ↔ k ∈ keys d := by
  unfold has
  cases h : get d k with
  | none => simp [get_eq_none.1 h]
  | some v =>
    simp only [Option.isSome_some, true_iff]
    apply Classical.byContradiction
    intro hn
    rw [get_eq_none.2 hn] at h; cases h

theorem get_set (d : List (K × V)) (k : K) (v : V) (x : K) :
    get (set d k v) x = if x = k then some v else get d x := by
  induction d with
  | nil => simp [set, get, eq_comm]
  | cons p d ih =>
    obtain ⟨a, w⟩ := p
    simp only [set]
    split
    · rename_i h
      subst h
      simp only [get]
      by_cases hx : a = x
      · simp [hx]
      · simp [hx, Ne.symm hx]
    · rename_i h
      simp only [get, ih]
      by_cases hx : a = x
      · subst hx; simp [h]
      · simp [hx]

theorem keys_set (d : List (K × V)) (k : K) (v : V) :
    keys (set d k v) = if k ∈ keys d then keys d else keys d ++ [k] := by
  induction d with
  | nil => simp [set]
  | cons p d ih =>
    obtain ⟨a, w⟩ := p
    simp only [set]
    split
    · rename_i h; subst h; simp
    · rename_i h
      simp only [keys_cons, ih, List.mem_cons, Ne.symm h, false_or]
      split <;> simp

theorem keys_del (d : List (K × V)) (k : K) : keys (del d k) = (keys d).erase k := by
  induction d with
  | nil => simp [del]
  | cons p d ih =>
    obtain ⟨a, w⟩ := p
    simp only [del, keys_cons, List.erase_cons]
    by_cases h : a = k
    · simp [h]
    · simp [h, ih]

theorem nodup_set {d : List (K × V)} (h : (keys d).Nodup) (k : K) (v : V) : (keys (set d k v)).Nodup := by
  rw [keys_set]
  split
  · exact h
  · rename_i hk
    rw [List.nodup_append]
    refine ⟨h, by simp, ?_⟩
    intro a ha b hb
    simp at hb; subst hb
    rintro rfl; exact hk ha

theorem nodup_del {d : List (K × V)} (h : (keys d).Nodup) (k : K) : (keys (del d k)).Nodup := by
  rw [keys_del]; exact h.erase k

theorem get_del {d : List (K × V)} (h : (keys d).Nodup) (k x : K) :
    get (del d k) x = if x = k then none else get d x := by
  induction d with
  | nil => simp [del]
  | cons p d ih =>
    obtain ⟨a, w⟩ := p
    simp only [keys_cons, List.nodup_cons] at h
    simp only [del]
    split
    · rename_i hak
      subst hak
      by_cases hx : x = a
      · subst hx; simp [get_eq_none.2 h.1]
      · simp [hx, get, Ne.symm hx]
    · rename_i hak
      simp only [get, ih h.2]
      by_cases hx : a = x
      · subst hx; simp [hak]
      · simp [hx]

theorem get_of_mem {d : List (K × V)} (h : (keys d).Nodup) {p : K × V} (hp : p ∈ d) :
    get d p.1 = some p.2 := by
  induction d with
  | nil => simp at hp
  | cons q d ih =>
    simp only [keys_cons, List.nodup_cons] at h
    obtain ⟨a, w⟩ := q
    rcases List.mem_cons.1 hp with rfl | hp'
    · simp [get]
    · have : a ≠ p.1 := by
        rintro rfl; exact h.1 (List.mem_map.2 ⟨p, hp', rfl⟩)
      simp [get, this, ih h.2 hp']

theorem mem_of_get {d : List (K × V)} {k : K} {v : V} (h : get d k = some v) : (k, v) ∈ d := by
  induction d with
  | nil => simp at h
  | cons q d ih =>
    obtain ⟨a, w⟩ := q
    simp only [get] at h
    split at h
    · rename_i e; simp only [Option.some.injEq] at h; subst e h; simp
    · simp [ih h]

/-- A dict is determined by its key order and its values. -/
theorem eq_map_keys {d : List (K × V)} (h : (keys d).Nodup) :
    d = (keys d).filterMap fun k => (get d k).map fun v => (k, v) := by
  have aux : ∀ e : List (K × V), (∀ p ∈ e, p ∈ d) →
      e = (keys e).filterMap fun k => (get d k).map fun v => (k, v) := by
    intro e
    induction e with
    | nil => simp
    | cons p e ih =>
      intro hp
      have := get_of_mem h (hp p (by simp))
      simp only [keys_cons, List.filterMap_cons, this, Option.map_some]
      rw [← ih (fun q hq => hp q (by simp [hq]))]
  exact aux d (fun p hp => hp)

end Verif.Dict
