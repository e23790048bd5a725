import Verif.Model.OrderedMultiDict
import Verif.Spec.Log
/-! Property theorem C26: `OrderedMultiDict`. -/
namespace Verif.Props
open Verif Verif.OMD Verif.Log
open Verif.MD (Op Ret)
variable {K V : Type} [DecidableEq K]

namespace OMDAux

def kvAt (heap : List (Bucket K V)) (i : Nat) : Option (K × V) := (heap[i]?).map fun b => (b.key, b.value)

/-- The buckets `ids` form the doubly linked list from `first` to `last`. -/
structure Chain (heap : List (Bucket K V)) (first last : Option Nat) (ids : List Nat) : Prop where
  nodup : ids.Nodup
  first_eq : first = ids.head?
  last_eq : last = ids.getLast?
  link : ∀ pre i suf, ids = pre ++ i :: suf →
    ∃ b, heap[i]? = some b ∧ b.prev = pre.getLast? ∧ b.next = suf.head?

omit [DecidableEq K] in
theorem Chain.lt {heap : List (Bucket K V)} {f l : Option Nat} {ids : List Nat} (h : Chain heap f l ids)
    {i : Nat} (hi : i ∈ ids) : i < heap.length := by
  obtain ⟨pre, suf, rfl⟩ := List.append_of_mem hi
  obtain ⟨b, hb, _⟩ := h.link pre i suf rfl
  exact (List.getElem?_eq_some_iff.1 hb).1

omit [DecidableEq K] in
theorem unlink_get {o : ODict K V} {i : Nat} {b : Bucket K V} (hb : o.heap[i]? = some b) (j : Nat) :
    (unlink o i).heap[j]? = (o.heap[j]?).map fun x =>
      { x with next := if b.prev = some j then b.next else x.next
               prev := if b.next = some j then b.prev else x.prev } := by
  unfold unlink
  rw [hb]
  obtain ⟨bp, bk, bv, bn⟩ := b
  cases bp <;> cases bn <;> simp only [List.getElem?_modify] <;> cases o.heap[j]? <;>
    simp <;> (repeat' split) <;> simp_all

omit [DecidableEq K] in
theorem newBucket_get {o : ODict K V} {k : K} {v : V} (hl : ∀ l, o.last = some l → l < o.heap.length) (j : Nat) :
    (newBucket o k v).1.heap[j]? =
      if j = o.heap.length then some ⟨o.last, k, v, none⟩
      else (o.heap[j]?).map fun x => { x with next := if o.last = some j then some o.heap.length else x.next } := by
  unfold newBucket
  cases h : o.last with
  | none =>
    simp only [List.getElem?_append]
    by_cases hj : j < o.heap.length
    · have : j ≠ o.heap.length := by omega
      simp [hj, this]
    · by_cases hj' : j = o.heap.length
      · simp [hj']
      · have : o.heap[j]? = none := List.getElem?_eq_none (by omega)
        have h2 : o.heap.length ≤ j := by omega
        have : [(⟨none, k, v, none⟩ : Bucket K V)][j - o.heap.length]? = none :=
          List.getElem?_eq_none (by simp; omega)
        simp [hj, hj', this]
  | some l =>
    have hl' := hl l h
    simp only [List.getElem?_modify, List.getElem?_append]
    by_cases hj : j < o.heap.length
    · have : j ≠ o.heap.length := by omega
      rw [if_pos hj, if_neg this, List.getElem?_eq_getElem hj]
      simp only [Option.map_some, Option.map_eq_map, Option.some.injEq]
      split <;> simp
    · by_cases hj' : j = o.heap.length
      · have : l ≠ o.heap.length := by omega
        simp [hj', this]
      · have : [(⟨some l, k, v, none⟩ : Bucket K V)][j - o.heap.length]? = none :=
          List.getElem?_eq_none (by simp; omega)
        simp [hj, hj', this]

omit [DecidableEq K] in
theorem unlink_kv (o : ODict K V) (i j : Nat) : kvAt (unlink o i).heap j = kvAt o.heap j := by
  cases hb : o.heap[i]? with
  | none => unfold unlink; rw [hb]
  | some b =>
    unfold kvAt
    rw [unlink_get hb]
    cases o.heap[j]? <;> simp

omit [DecidableEq K] in
theorem unlink_len (o : ODict K V) (i : Nat) : (unlink o i).heap.length = o.heap.length := by
  unfold unlink
  split
  · rfl
  · simp only
    split <;> split <;> simp

omit [DecidableEq K] in
theorem unlink_dict (o : ODict K V) (i : Nat) : (unlink o i).dict = o.dict := by
  unfold unlink
  split <;> rfl

omit [DecidableEq K] in
theorem unlink_chain {o : ODict K V} {pre suf : List Nat} {i : Nat}
    (h : Chain o.heap o.first o.last (pre ++ i :: suf)) :
    Chain (unlink o i).heap (unlink o i).first (unlink o i).last (pre ++ suf) := by
  obtain ⟨b, hb, hprev, hnext⟩ := h.link pre i suf rfl
  have hnd := h.nodup
  rw [List.nodup_append] at hnd
  obtain ⟨hp, hs, hps⟩ := hnd
  rw [List.nodup_cons] at hs
  have hff : (unlink o i).first = if o.first = some i then b.next else o.first := by
    unfold unlink; rw [hb]
  have hll : (unlink o i).last = if o.last = some i then b.prev else o.last := by
    unfold unlink; rw [hb]
  refine ⟨?_, ?_, ?_, ?_⟩
  · rw [List.nodup_append]
    exact ⟨hp, hs.2, fun a ha c hc => hps a ha c (by simp [hc])⟩
  · rw [hff, h.first_eq, hnext]
    cases pre with
    | nil => simp
    | cons a pre =>
      have : a ≠ i := hps a (by simp) i (by simp)
      simp [this]
  · rw [hll, h.last_eq, hprev]
    rcases List.eq_nil_or_concat suf with rfl | ⟨s, z, rfl⟩
    · simp
    · have : z ≠ i := by rintro rfl; exact hs.1 (by simp)
      simp [List.getLast?_append, List.getLast?_cons, this]
  · intro pre' j suf' hsplit
    rw [unlink_get hb]
    have hA : ∀ as, pre' = pre ++ as → suf = as ++ j :: suf' → ∃ b',
        ((o.heap[j]?).map fun x => { x with next := if b.prev = some j then b.next else x.next
                                            prev := if b.next = some j then b.prev else x.prev }) = some b' ∧
          b'.prev = pre'.getLast? ∧ b'.next = suf'.head? := by
      rintro as rfl rfl
      obtain ⟨c, hc, hcp, hcn⟩ := h.link (pre ++ i :: as) j suf' (by simp)
      refine ⟨_, by rw [hc]; rfl, ?_, ?_⟩
      · simp only [hnext, hprev, hcp]
        cases as with
        | nil => simp
        | cons a as =>
          have : a ≠ j := by
            have := hs.2; simp at this; grind
          simp [this, List.getLast?_append, List.getLast?_cons]
      · have : pre.getLast? ≠ some j := by
          intro e
          exact hps j (List.mem_of_getLast? e) j (by simp) rfl
        simp [hprev, this, hcn]
    rcases List.append_eq_append_iff.1 hsplit with ⟨as, h1, h2⟩ | ⟨bs, h1, h2⟩
    · exact hA as h1 h2
    · cases bs with
      | nil =>
        simp at h1 h2
        exact hA [] (by simp [h1]) (by simp [h2])
      | cons x mid =>
        simp only [List.cons_append, List.cons.injEq] at h2
        obtain ⟨rfl, rfl⟩ := h2
        subst h1
        obtain ⟨c, hc, hcp, hcn⟩ := h.link pre' j (mid ++ i :: suf) (by simp)
        refine ⟨_, by rw [hc]; rfl, ?_, ?_⟩
        · have : suf.head? ≠ some j := by
            intro e
            exact hps j (by simp) j (by simp [List.mem_of_head? e]) rfl
          simp [hnext, this, hcp]
        · simp only [hnext, hprev, hcn]
          rcases List.eq_nil_or_concat mid with rfl | ⟨m, z, rfl⟩
          · simp
          · have hz : z ≠ j := by
              rintro rfl
              rw [List.nodup_append] at hp
              simp at hp
            simp only [List.getLast?_append, List.getLast?_cons]
            simp [hz]

omit [DecidableEq K] in
theorem newBucket_chain {o : ODict K V} {ids : List Nat} (k : K) (v : V)
    (h : Chain o.heap o.first o.last ids) :
    Chain (newBucket o k v).1.heap (newBucket o k v).1.first (newBucket o k v).1.last (ids ++ [o.heap.length]) := by
  have hl : ∀ l, o.last = some l → l < o.heap.length := by
    intro l e
    rw [h.last_eq] at e
    exact h.lt (List.mem_of_getLast? e)
  refine ⟨?_, ?_, ?_, ?_⟩
  · rw [List.nodup_append]
    refine ⟨h.nodup, by simp, ?_⟩
    intro a ha b hb
    simp at hb; subst hb
    have := h.lt ha
    omega
  · show (if o.first.isNone then some o.heap.length else o.first) = _
    rw [h.first_eq]
    cases ids <;> simp
  · simp [newBucket]
  · intro pre j suf hsplit
    rw [newBucket_get hl]
    rcases List.eq_nil_or_concat suf with rfl | ⟨s, z, rfl⟩
    · have := List.append_inj' hsplit rfl
      simp at this
      obtain ⟨rfl, rfl⟩ := this
      rw [if_pos rfl]
      exact ⟨_, rfl, h.last_eq, rfl⟩
    · have e : ids ++ [o.heap.length] = (pre ++ j :: s) ++ [z] := by rw [hsplit]; simp
      have := List.append_inj' e rfl
      simp at this
      obtain ⟨hids, rfl⟩ := this
      obtain ⟨b, hb, hbp, hbn⟩ := h.link pre j s hids
      have hj : j ≠ o.heap.length := by
        have := h.lt (i := j) (by simp [hids]); omega
      rw [if_neg hj, hb]
      refine ⟨_, rfl, hbp, ?_⟩
      simp only [h.last_eq, hids]
      rcases List.eq_nil_or_concat s with rfl | ⟨s, w, rfl⟩
      · simp
      · have hw : w ≠ j := by
          rintro rfl
          have := h.nodup
          rw [hids, List.nodup_append] at this
          simp at this
        have : (s ++ [w] ++ [o.heap.length]).head? = (s ++ [w]).head? := by cases s <;> simp
        simp [List.getLast?_append, List.getLast?_cons, hw]
        rw [hbn]
        cases s <;> simp

omit [DecidableEq K] in
theorem newBucket_kv {o : ODict K V} {ids : List Nat} (k : K) (v : V)
    (h : Chain o.heap o.first o.last ids) (j : Nat) :
    kvAt (newBucket o k v).1.heap j = if j = o.heap.length then some (k, v) else kvAt o.heap j := by
  have hl : ∀ l, o.last = some l → l < o.heap.length := by
    intro l e
    rw [h.last_eq] at e
    exact h.lt (List.mem_of_getLast? e)
  unfold kvAt
  rw [newBucket_get hl]
  split
  · rfl
  · cases o.heap[j]? <;> simp

omit [DecidableEq K] in
theorem newBucket_len (o : ODict K V) (k : K) (v : V) : (newBucket o k v).1.heap.length = o.heap.length + 1 := by
  unfold newBucket
  simp only
  split <;> simp

/-- Following `next` from the first bucket meets all of them. -/
theorem walk_chain {heap : List (Bucket K V)} {f l : Option Nat} {ids : List Nat} (h : Chain heap f l ids) :
    ∀ n suf pre, ids = pre ++ suf → suf.length ≤ n → walk heap n suf.head? = suf := by
  intro n
  induction n with
  | zero => intro suf pre _ hl; simp at hl; subst hl; rfl
  | succ n ih =>
    intro suf pre hs hl
    cases suf with
    | nil => simp [walk]
    | cons i suf =>
      obtain ⟨b, hb, _, hn⟩ := h.link pre i suf hs
      simp only [List.head?_cons, walk, hb, hn]
      rw [ih suf (pre ++ [i]) (by simp [hs]) (by simpa using hl)]

/-! ### the whole structure -/

def keyIs (heap : List (Bucket K V)) (k : K) (i : Nat) : Bool := decide ((kvAt heap i).map (·.1) = some k)

/-- The log of pairs behind a list of buckets. -/
def logOf (heap : List (Bucket K V)) (ids : List Nat) : List (K × V) := ids.filterMap (kvAt heap)

/-- The buckets of the linked list: first those that `clear` has left there, then those of the dictionary. -/
structure Inv (o : ODict K V) (old ids : List Nat) : Prop where
  chain : Chain o.heap o.first o.last (old ++ ids)
  len : (old ++ ids).length ≤ o.heap.length
  dnodup : (Dict.keys o.dict).Nodup
  dkeys : Dict.keys o.dict = firstKeys ((logOf o.heap ids).map (·.1))
  dget : ∀ k, (Dict.get o.dict k).getD [] = ids.filter (keyIs o.heap k)

theorem mem_firstKeys {k : K} {l : List K} : k ∈ firstKeys l ↔ k ∈ l := by
  induction l with
  | nil => simp [firstKeys]
  | cons a l ih =>
    simp only [firstKeys, List.mem_cons, List.mem_filter, ih]
    by_cases h : k = a <;> simp [h]

theorem firstKeys_concat (l : List K) (k : K) :
    firstKeys (l ++ [k]) = if k ∈ l then firstKeys l else firstKeys l ++ [k] := by
  induction l with
  | nil => simp [firstKeys]
  | cons a l ih =>
    simp only [List.cons_append, firstKeys, ih, List.mem_cons]
    by_cases ha : k = a
    · subst ha
      by_cases hl : k ∈ l <;> simp [hl]
    · by_cases hl : k ∈ l <;> simp [hl, ha]

theorem firstKeys_filter (l : List K) (k : K) :
    firstKeys (l.filter (· ≠ k)) = (firstKeys l).filter (· ≠ k) := by
  induction l with
  | nil => simp [firstKeys]
  | cons a l ih =>
    by_cases ha : a = k
    · subst ha
      simp only [List.filter_cons, ne_eq, not_true_eq_false, decide_false, Bool.false_eq_true, if_false, firstKeys,
        List.filter_filter, Bool.and_self]
      exact ih
    · simp only [List.filter_cons, ne_eq, ha, not_false_eq_true, decide_true, if_true, firstKeys,
        List.filter_filter]
      congr 1
      have : firstKeys (l.filter fun x => !decide (x = k)) = (firstKeys l).filter fun x => !decide (x = k) := by
        simpa using ih
      simp only [decide_not]
      rw [this, List.filter_filter]
      congr 1
      funext x
      exact Bool.and_comm _ _

theorem nodup_firstKeys (l : List K) : (firstKeys l).Nodup := by
  induction l with
  | nil => simp [firstKeys]
  | cons a l ih =>
    simp only [firstKeys, List.nodup_cons]
    exact ⟨by simp, ih.filter _⟩

theorem kvAt_mem {o : ODict K V} {ids : List Nat} (h : Chain o.heap o.first o.last ids) {i : Nat} (hi : i ∈ ids) :
    ∃ p, kvAt o.heap i = some p := by
  have := h.lt hi
  exact ⟨_, by simp [kvAt, List.getElem?_eq_getElem this]; rfl⟩

theorem logOf_congr {h1 h2 : List (Bucket K V)} {ids : List Nat} (h : ∀ i ∈ ids, kvAt h1 i = kvAt h2 i) :
    logOf h1 ids = logOf h2 ids := by
  unfold logOf
  induction ids with
  | nil => rfl
  | cons i ids ih =>
    simp only [List.filterMap_cons, h i (by simp), ih (fun j hj => h j (by simp [hj]))]

/-- Selecting buckets by key selects the pairs of the log. -/
theorem logOf_filter (heap : List (Bucket K V)) (q : K → Bool) (ids : List Nat) :
    logOf heap (ids.filter fun i => (kvAt heap i).any fun p => q p.1) =
      (logOf heap ids).filter fun p => q p.1 := by
  induction ids with
  | nil => rfl
  | cons i ids ih =>
    unfold logOf at ih ⊢
    simp only [List.filter_cons, List.filterMap_cons]
    cases hk : kvAt heap i with
    | none => simp [ih]
    | some p =>
      simp only [Option.any_some]
      by_cases hq : q p.1 = true
      · rw [if_pos hq, List.filter_cons, if_pos hq, List.filterMap_cons, hk, ih]
      · rw [if_neg hq, List.filter_cons, if_neg hq, ih]

theorem valuesOf_eq (o : ODict K V) (bs : List Nat) : valuesOf o bs = (logOf o.heap bs).map (·.2) := by
  unfold valuesOf logOf
  induction bs with
  | nil => rfl
  | cons b bs ih =>
    simp only [List.filterMap_cons, kvAt]
    cases o.heap[b]? with
    | none => simpa using ih
    | some x => simpa using ih

theorem keyIs_eq (heap : List (Bucket K V)) (k : K) (i : Nat) :
    keyIs heap k i = (kvAt heap i).any fun p => decide (p.1 = k) := by
  unfold keyIs
  cases kvAt heap i <;> simp

theorem keyIs_congr {h1 h2 : List (Bucket K V)} {x : K} {i : Nat} (h : kvAt h1 i = kvAt h2 i) :
    keyIs h1 x i = keyIs h2 x i := by
  unfold keyIs; rw [h]

theorem values_bucket {o : ODict K V} {old ids : List Nat} (h : Inv o old ids) (k : K) :
    valuesOf o ((Dict.get o.dict k).getD []) = valuesFor (logOf o.heap ids) k := by
  rw [h.dget, valuesOf_eq]
  have : ids.filter (keyIs o.heap k) = ids.filter fun i => (kvAt o.heap i).any fun p => decide (p.1 = k) := by
    congr 1; funext i; exact keyIs_eq _ _ _
  rw [this, logOf_filter o.heap (fun x => decide (x = k))]
  rfl

theorem unlinkAll_chain (bs : List Nat) : ∀ {o : ODict K V} {ids : List Nat},
    Chain o.heap o.first o.last ids → (∀ b ∈ bs, b ∈ ids) → bs.Nodup →
    Chain (unlinkAll o bs).heap (unlinkAll o bs).first (unlinkAll o bs).last (ids.filter (· ∉ bs)) ∧
    (unlinkAll o bs).dict = o.dict ∧ (∀ j, kvAt (unlinkAll o bs).heap j = kvAt o.heap j) ∧
    (unlinkAll o bs).heap.length = o.heap.length := by
  induction bs with
  | nil =>
    intro o ids h _ _
    have : ids.filter (· ∉ ([] : List Nat)) = ids := by simp
    rw [this]
    exact ⟨h, rfl, fun _ => rfl, rfl⟩
  | cons b bs ih =>
    intro o ids h hb hn
    rw [List.nodup_cons] at hn
    obtain ⟨pre, suf, rfl⟩ := List.append_of_mem (hb b (by simp))
    have h1 := unlink_chain h
    have hnd := h.nodup
    rw [List.nodup_append, List.nodup_cons] at hnd
    obtain ⟨c1, c2, c3, c4⟩ := ih h1 (by
      intro x hx
      have := hb x (by simp [hx])
      have hxb : x ≠ b := by rintro rfl; exact hn.1 hx
      simp only [List.mem_append, List.mem_cons] at this ⊢
      rcases this with h | h | h
      · exact .inl h
      · exact absurd h hxb
      · exact .inr h) hn.2
    refine ⟨?_, ?_, ?_, ?_⟩
    · have : (pre ++ b :: suf).filter (· ∉ b :: bs) = (pre ++ suf).filter (· ∉ bs) := by
        have hpre : pre.filter (· ∉ b :: bs) = pre.filter (· ∉ bs) := by
          apply List.filter_congr
          intro x hx
          have : x ≠ b := hnd.2.2 x hx b (by simp)
          simp [this]
        have hsuf : suf.filter (· ∉ b :: bs) = suf.filter (· ∉ bs) := by
          apply List.filter_congr
          intro x hx
          have : x ≠ b := by rintro rfl; exact hnd.2.1.1 hx
          simp [this]
        rw [List.filter_append, List.filter_append, List.filter_cons, hpre, hsuf]
        simp
      rw [this]
      exact c1
    · show (unlinkAll (unlink o b) bs).dict = _
      rw [c2, unlink_dict]
    · intro j
      show kvAt (unlinkAll (unlink o b) bs).heap j = _
      rw [c3, unlink_kv]
    · show (unlinkAll (unlink o b) bs).heap.length = _
      rw [c4, unlink_len]

/-- Removing a key: its buckets are unlinked and nothing else changes. -/
theorem inv_remove {o : ODict K V} {old ids : List Nat} (h : Inv o old ids) (k : K) :
    ∃ ids', Inv (unlinkAll { o with dict := Dict.del o.dict k } ((Dict.get o.dict k).getD [])) old ids' ∧
      logOf (unlinkAll { o with dict := Dict.del o.dict k } ((Dict.get o.dict k).getD [])).heap old = logOf o.heap old ∧
      logOf (unlinkAll { o with dict := Dict.del o.dict k } ((Dict.get o.dict k).getD [])).heap ids' =
        without (logOf o.heap ids) k := by
  have hbs := h.dget k
  rw [hbs]
  have hnd := h.chain.nodup
  rw [List.nodup_append] at hnd
  obtain ⟨c1, c2, c3, c4⟩ := unlinkAll_chain (ids.filter (keyIs o.heap k))
    (o := { o with dict := Dict.del o.dict k }) (ids := old ++ ids) h.chain
    (by intro b hb; exact List.mem_append_right _ (List.mem_filter.1 hb).1) (hnd.2.1.filter _)
  simp only at c1 c2 c3 c4
  have hold : old.filter (· ∉ ids.filter (keyIs o.heap k)) = old := by
    rw [List.filter_eq_self]
    intro i hi
    have : i ∉ ids := fun hj => hnd.2.2 i hi i hj rfl
    simp [this]
  have hids : ids.filter (· ∉ ids.filter (keyIs o.heap k)) =
      ids.filter fun i => (kvAt o.heap i).any fun p => decide (p.1 ≠ k) := by
    apply List.filter_congr
    intro i hi
    obtain ⟨p, hp⟩ := kvAt_mem h.chain (List.mem_append_right old hi)
    have : i ∈ ids.filter (keyIs o.heap k) ↔ p.1 = k := by
      rw [List.mem_filter, keyIs_eq, hp]; simp [hi]
    simp [this, hp]
  rw [List.filter_append, hold, hids] at c1
  have hlog : logOf (unlinkAll { o with dict := Dict.del o.dict k } (ids.filter (keyIs o.heap k))).heap
      (ids.filter fun i => (kvAt o.heap i).any fun p => decide (p.1 ≠ k)) = without (logOf o.heap ids) k := by
    rw [logOf_congr (h2 := o.heap) (fun i _ => c3 i), logOf_filter o.heap (fun x => decide (x ≠ k))]
    rfl
  refine ⟨_, ⟨c1, ?_, ?_, ?_, ?_⟩, logOf_congr fun i _ => c3 i, hlog⟩
  · rw [c4]
    have h1 := h.len
    have h2 := List.length_filter_le (fun i => (kvAt o.heap i).any fun p => decide (p.1 ≠ k)) ids
    rw [List.length_append] at h1 ⊢
    omega
  · rw [c2]; exact Dict.nodup_del h.dnodup k
  · rw [hlog, c2, Dict.keys_del, h.dnodup.erase_eq_filter, h.dkeys]
    have : (without (logOf o.heap ids) k).map (·.1) = ((logOf o.heap ids).map (·.1)).filter (· ≠ k) := by
      unfold without
      rw [List.filter_map]
      rfl
    rw [this, firstKeys_filter]
    apply List.filter_congr
    intro x _
    by_cases hx : x = k <;> simp [hx]
  · intro x
    rw [c2, Dict.get_del h.dnodup]
    have hkey : ∀ i, keyIs (unlinkAll { o with dict := Dict.del o.dict k } (ids.filter (keyIs o.heap k))).heap x i =
        keyIs o.heap x i := by
      intro i
      exact keyIs_congr (c3 i)
    have e2 : (keyIs (unlinkAll { o with dict := Dict.del o.dict k } (ids.filter (keyIs o.heap k))).heap x) =
        keyIs o.heap x := funext hkey
    rw [e2]
    rw [List.filter_filter]
    by_cases hx : x = k
    · subst hx
      rw [if_pos rfl]
      symm
      simp only [Option.getD_none]
      rw [List.filter_eq_nil_iff]
      intro i hi
      rw [keyIs_eq]
      cases kvAt o.heap i with
      | none => simp
      | some p => simp
    · rw [if_neg hx, h.dget x]
      apply List.filter_congr
      intro i hi
      rw [keyIs_eq]
      cases kvAt o.heap i with
      | none => simp
      | some p =>
        simp only [Option.any_some]
        by_cases hp : p.1 = x
        · simp [hp, hx]
        · simp [hp]

theorem inv_add {o : ODict K V} {old ids : List Nat} (h : Inv o old ids) (k : K) (v : V) :
    ∃ ids', Inv (OMD.add o k v) old ids' ∧ logOf (OMD.add o k v).heap old = logOf o.heap old ∧
      logOf (OMD.add o k v).heap ids' = logOf o.heap ids ++ [(k, v)] := by
  have hc := newBucket_chain k v h.chain
  have hkv := newBucket_kv k v h.chain
  have hlen := newBucket_len o k v
  have hold : ∀ i ∈ old ++ ids, kvAt (newBucket o k v).1.heap i = kvAt o.heap i := by
    intro i hi
    have := h.chain.lt hi
    rw [hkv, if_neg (by omega)]
  have hnew : kvAt (newBucket o k v).1.heap o.heap.length = some (k, v) := by rw [hkv, if_pos rfl]
  have hheap : (OMD.add o k v).heap = (newBucket o k v).1.heap := rfl
  have hdict : (OMD.add o k v).dict = Dict.set o.dict k ((Dict.get o.dict k).getD [] ++ [o.heap.length]) := rfl
  have hlog : logOf (newBucket o k v).1.heap (ids ++ [o.heap.length]) = logOf o.heap ids ++ [(k, v)] := by
    have : logOf (newBucket o k v).1.heap ids = logOf o.heap ids := logOf_congr fun i hi => hold i (List.mem_append_right _ hi)
    unfold logOf at this ⊢
    rw [List.filterMap_append, this]
    simp [hnew]
  refine ⟨ids ++ [o.heap.length], ⟨by rw [← List.append_assoc]; exact hc, ?_, ?_, ?_, ?_⟩,
    logOf_congr fun i hi => hold i (List.mem_append_left _ hi), hlog⟩
  · 
    have := h.len
    rw [hheap, hlen]
    simp only [List.length_append, List.length_cons, List.length_nil] at this ⊢
    omega
  · rw [hdict]; exact Dict.nodup_set h.dnodup _ _
  · rw [hdict, hheap, hlog, Dict.keys_set, h.dkeys]
    simp only [List.map_append, List.map_cons, List.map_nil, firstKeys_concat, mem_firstKeys]
  · intro x
    rw [hdict, hheap, Dict.get_set, List.filter_append]
    have e1 : ids.filter (keyIs (newBucket o k v).1.heap x) = ids.filter (keyIs o.heap x) := by
      apply List.filter_congr
      intro i hi
      unfold keyIs
      rw [hold i (List.mem_append_right _ hi)]
    have e2 : keyIs (newBucket o k v).1.heap x o.heap.length = decide (k = x) := by
      unfold keyIs; rw [hnew]; simp
    rw [e1]
    by_cases hx : x = k
    · subst hx
      simp [h.dget, e2]
    · simp [hx, h.dget, e2, Ne.symm hx]

/-- The dictionary holds exactly the log `L`, and `clear` has left `G` in front of it. -/
def HoldsG (o : ODict K V) (G L : List (K × V)) : Prop :=
  ∃ old ids, Inv o old ids ∧ logOf o.heap old = G ∧ logOf o.heap ids = L

/-- The dictionary holds exactly the log `L`. -/
abbrev Holds (o : ODict K V) (L : List (K × V)) : Prop := HoldsG o [] L

theorem Holds.elim {o : ODict K V} {L : List (K × V)} (h : Holds o L) : ∃ ids, Inv o [] ids ∧ logOf o.heap ids = L := by
  obtain ⟨old, ids, hi, hG, hL⟩ := h
  cases old with
  | nil => exact ⟨ids, hi, hL⟩
  | cons i old =>
    obtain ⟨p, hp⟩ := kvAt_mem hi.chain (i := i) (by simp)
    simp [logOf, hp] at hG

theorem holds_empty : Holds (OMD.empty : ODict K V) [] := by
  refine ⟨[], [], ⟨⟨by simp, rfl, rfl, ?_⟩, by simp [OMD.empty], by simp [OMD.empty], rfl, fun _ => rfl⟩, rfl, rfl⟩
  intro pre i suf h
  simp at h

theorem holds_add {o : ODict K V} {G L : List (K × V)} (h : HoldsG o G L) (k : K) (v : V) :
    HoldsG (OMD.add o k v) G (L ++ [(k, v)]) := by
  obtain ⟨old, ids, hi, rfl, rfl⟩ := h
  obtain ⟨ids', h1, h2, h3⟩ := inv_add hi k v
  exact ⟨old, ids', h1, h2, h3⟩

theorem holds_remove {o : ODict K V} {G L : List (K × V)} (h : HoldsG o G L) (k : K) :
    HoldsG (unlinkAll { o with dict := Dict.del o.dict k } ((Dict.get o.dict k).getD [])) G (without L k) := by
  obtain ⟨old, ids, hi, rfl, rfl⟩ := h
  obtain ⟨ids', h1, h2, h3⟩ := inv_remove hi k
  exact ⟨old, ids', h1, h2, h3⟩

/-- `clear` empties the dictionary and leaves all buckets in the linked list. -/
theorem holds_clear {o : ODict K V} {G L : List (K × V)} (h : HoldsG o G L) :
    HoldsG { o with dict := [] } (G ++ L) [] := by
  obtain ⟨old, ids, hi, rfl, rfl⟩ := h
  refine ⟨old ++ ids, [], ⟨by simpa using hi.chain, by simpa using hi.len, .nil, rfl, fun _ => rfl⟩, ?_, rfl⟩
  simp [logOf]

theorem holds_has {o : ODict K V} {G L : List (K × V)} (h : HoldsG o G L) (k : K) :
    (∃ bs, Dict.get o.dict k = some bs) ↔ k ∈ L.map (·.1) := by
  obtain ⟨old, ids, hi, rfl, rfl⟩ := h
  rw [← mem_firstKeys, ← hi.dkeys, ← Dict.has_iff]
  unfold Dict.has
  cases Dict.get o.dict k <;> simp

theorem holds_values {o : ODict K V} {G L : List (K × V)} (h : HoldsG o G L) (k : K) :
    valuesOf o ((Dict.get o.dict k).getD []) = valuesFor L k := by
  obtain ⟨old, ids, hi, rfl, rfl⟩ := h
  exact values_bucket hi k

theorem without_absent {L : List (K × V)} {k : K} (h : k ∉ L.map (·.1)) : without L k = L := by
  unfold without
  rw [List.filter_eq_self]
  intro p hp
  simp only [decide_eq_true_eq]
  rintro rfl
  exact h (List.mem_map.2 ⟨p, hp, rfl⟩)

theorem valuesFor_absent {L : List (K × V)} {k : K} (h : k ∉ L.map (·.1)) : valuesFor L k = [] := by
  unfold valuesFor
  rw [List.map_eq_nil_iff, List.filter_eq_nil_iff]
  intro p hp
  simp only [decide_eq_true_eq]
  rintro rfl
  exact h (List.mem_map.2 ⟨p, hp, rfl⟩)

theorem valuesFor_present {L : List (K × V)} {k : K} (h : k ∈ L.map (·.1)) : ∃ v vs, valuesFor L k = v :: vs := by
  cases hv : valuesFor L k with
  | cons v vs => exact ⟨v, vs, rfl⟩
  | nil =>
    unfold valuesFor at hv
    rw [List.map_eq_nil_iff, List.filter_eq_nil_iff] at hv
    obtain ⟨p, hp, rfl⟩ := List.mem_map.1 h
    exact absurd (hv p hp) (by simp)

theorem holds_poplist {o : ODict K V} {G L : List (K × V)} (h : HoldsG o G L) (k : K) :
    HoldsG (OMD.poplist o k).1 G (without L k) ∧ (OMD.poplist o k).2 = valuesFor L k := by
  unfold OMD.poplist
  cases hg : Dict.get o.dict k with
  | none =>
    have : k ∉ L.map (·.1) := by rw [← holds_has h]; simp [hg]
    simp only
    rw [without_absent this, valuesFor_absent this]
    exact ⟨h, rfl⟩
  | some bs =>
    have h1 := holds_remove h k
    have h2 := holds_values h k
    rw [hg] at h1 h2
    exact ⟨h1, h2⟩

theorem holds_addAll (ps : List (K × V)) : ∀ {o : ODict K V} {G L : List (K × V)}, HoldsG o G L →
    HoldsG (ps.foldl (fun o p => OMD.add o p.1 p.2) o) G (L ++ ps) := by
  induction ps with
  | nil => intro o G L h; simpa using h
  | cons p ps ih =>
    intro o G L h
    have := ih (holds_add h p.1 p.2)
    simpa using this

theorem foldl_add_map (k : K) (vs : List V) (o : ODict K V) :
    vs.foldl (fun o v => OMD.add o k v) o = (vs.map fun v => (k, v)).foldl (fun o p => OMD.add o p.1 p.2) o := by
  rw [List.foldl_map]

theorem dropLast_del {β : Type} {d : List (K × β)} (h : (Dict.keys d).Nodup) {k : K} {l : β}
    (hl : d.getLast? = some (k, l)) : d.dropLast = Dict.del d k := by
  induction d with
  | nil => simp at hl
  | cons p d ih =>
    obtain ⟨a, w⟩ := p
    cases d with
    | nil => simp at hl; simp [Dict.del, hl]
    | cons q d =>
      simp only [List.getLast?_cons_cons] at hl
      have hne : a ≠ k := by
        rintro rfl
        have := List.mem_of_getLast? hl
        simp only [Dict.keys_cons, List.nodup_cons] at h
        apply h.1
        rw [← Dict.keys_cons]
        exact List.mem_map.2 ⟨_, this, rfl⟩
      simp only [Dict.keys_cons, List.nodup_cons] at h
      have := ih (by simpa using h.2) hl
      simp [List.dropLast_cons_cons, this, Dict.del, hne]

end OMDAux

/-- Specification of the calls on the log (`setlistdefault` is not supported and raises;
`clear` is treated separately). -/
def logCall (L : List (K × V)) : Op K V → List (K × V) × Except PyErr (Ret K V)
  | .setitem k v => (without L k ++ [(k, v)], .ok .unit)
  | .add k v => (L ++ [(k, v)], .ok .unit)
  | .setlist k vs => (without L k ++ vs.map (fun v => (k, v)), .ok .unit)
  | .setdefault k v =>
    match valuesFor L k with
    | w :: _ => (L, .ok (.val w))
    | [] => (L ++ [(k, v)], .ok (.val v))
  | .setlistdefault _ _ => (L, .error .typeError)
  | .update ps => (L ++ ps, .ok .unit)
  | .pop k =>
    match valuesFor L k with
    | w :: _ => (without L k, .ok (.val w))
    | [] => (L, .error .keyError)
  | .popDefault k v =>
    match valuesFor L k with
    | w :: _ => (without L k, .ok (.val w))
    | [] => (L, .ok (.val v))
  | .popitem =>
    match (firstPairs L).getLast? with
    | some (k, v) => (without L k, .ok (.item k v))
    | none => (L, .error .keyError)
  | .poplist k => (without L k, .ok (.vals (valuesFor L k)))
  | .popitemlist =>
    match (firstPairs L).getLast? with
    | some (k, _) => (without L k, .ok (.itemlist k (valuesFor L k)))
    | none => (L, .error .keyError)
  | .delitem k =>
    match valuesFor L k with
    | _ :: _ => (without L k, .ok .unit)
    | [] => (L, .error .keyError)
  | .clear => ([], .ok .unit)
  | .alias _ _ => (L, .ok .unit)


/-- A call other than `clear`. -/
def notClear : Op K V → Prop
  | .clear => False
  | _ => True

namespace OMDAux

theorem firstPairs_cons (k : K) (v : V) (L : List (K × V)) :
    firstPairs ((k, v) :: L) = (k, v) :: (firstPairs L).filter (·.1 ≠ k) := by
  unfold firstPairs
  simp only [List.map_cons, firstKeys, List.filterMap_cons]
  have h1 : valuesFor ((k, v) :: L) k = v :: valuesFor L k := by simp [valuesFor]
  have h2 : ∀ x, x ≠ k → valuesFor ((k, v) :: L) x = valuesFor L x := by
    intro x hx; simp [valuesFor, Ne.symm hx]
  rw [h1]
  simp only [List.head?_cons, Option.map_some]
  congr 1
  generalize firstKeys (L.map (·.1)) = ks
  induction ks with
  | nil => rfl
  | cons a ks ih =>
    by_cases ha : a = k
    · subst ha
      simp only [List.filter_cons, ne_eq, not_true_eq_false, decide_false, Bool.false_eq_true, if_false,
        List.filterMap_cons]
      cases (valuesFor L a).head? with
      | none => simpa using ih
      | some w => simpa using ih
    · simp only [List.filter_cons, ne_eq, ha, not_false_eq_true, decide_true, if_true, List.filterMap_cons, h2 a ha]
      cases (valuesFor L a).head? with
      | none => simpa using ih
      | some w => simpa [ha] using ih

theorem dedup_eq (L : List (K × V)) : ∀ seen : List K,
    dedup seen L = (firstPairs L).filter (·.1 ∉ seen) := by
  induction L with
  | nil => intro seen; rfl
  | cons p L ih =>
    intro seen
    obtain ⟨k, v⟩ := p
    rw [firstPairs_cons]
    simp only [dedup, List.filter_cons, List.filter_filter]
    by_cases hk : k ∈ seen
    · simp only [hk, if_true, not_true_eq_false, decide_false, Bool.false_eq_true, if_false, ih]
      apply List.filter_congr
      intro x _
      by_cases hx : x.1 = k
      · simp [hx, hk]
      · simp [hx]
    · simp only [hk, if_false, not_false_eq_true, decide_true, if_true, ih]
      congr 1
      apply List.filter_congr
      intro x _
      by_cases hx : x.1 = k <;> simp [hx]

theorem items_eq (L : List (K × V)) : dedup [] L = firstPairs L := by
  rw [dedup_eq, List.filter_eq_self]
  intro x _
  simp

theorem firstPairs_keys (L : List (K × V)) : (firstPairs L).map (·.1) = firstKeys (L.map (·.1)) := by
  unfold firstPairs
  have aux : ∀ ks : List K, (∀ k ∈ ks, k ∈ L.map (·.1)) →
      (ks.filterMap fun k => (valuesFor L k).head?.map fun v => (k, v)).map (·.1) = ks := by
    intro ks
    induction ks with
    | nil => intro _; rfl
    | cons k ks ih =>
      intro h
      obtain ⟨v, vs, hv⟩ := valuesFor_present (h k (by simp))
      simp only [List.filterMap_cons, hv, List.head?_cons, Option.map_some, List.map_cons]
      rw [ih (fun x hx => h x (by simp [hx]))]
  exact aux _ (fun k hk => mem_firstKeys.1 hk)

theorem firstPairs_getLast (L : List (K × V)) : (firstPairs L).getLast? =
    (firstKeys (L.map (·.1))).getLast?.bind fun k => (valuesFor L k).head?.map fun v => (k, v) := by
  unfold firstPairs
  have aux : ∀ ks : List K, (∀ k ∈ ks, k ∈ L.map (·.1)) →
      (ks.filterMap fun k => (valuesFor L k).head?.map fun v => (k, v)).getLast? =
        ks.getLast?.bind fun k => (valuesFor L k).head?.map fun v => (k, v) := by
    intro ks h
    rcases List.eq_nil_or_concat ks with rfl | ⟨l, z, rfl⟩
    · rfl
    · obtain ⟨v, vs, hv⟩ := valuesFor_present (h z (by simp))
      simp [List.filterMap_append, hv]
  exact aux _ (fun k hk => mem_firstKeys.1 hk)

theorem holds_pop {o : ODict K V} {G L : List (K × V)} (h : HoldsG o G L) (k : K) :
    (valuesFor L k = [] ∧ OMD.pop o k = none) ∨
    ∃ v vs o', valuesFor L k = v :: vs ∧ OMD.pop o k = some (o', .ok v) ∧ HoldsG o' G (without L k) := by
  unfold OMD.pop
  cases hg : Dict.get o.dict k with
  | none =>
    have : k ∉ L.map (·.1) := by rw [← holds_has h]; simp [hg]
    exact .inl ⟨valuesFor_absent this, rfl⟩
  | some bs =>
    have hk := (holds_has h k).1 ⟨bs, hg⟩
    obtain ⟨v, vs, hv⟩ := valuesFor_present hk
    have h1 := holds_remove h k
    have h2 := holds_values h k
    rw [hg] at h1 h2
    simp only [Option.getD_some] at h1 h2
    exact .inr ⟨v, vs, _, hv, by simp only [h2, hv]; rfl, h1⟩

theorem step_holds {o : ODict K V} {G L : List (K × V)} (h : HoldsG o G L) (op : Op K V) (hc : notClear op) :
    (OMD.step o op).2 = (logCall L op).2 ∧ HoldsG (OMD.step o op).1 G (logCall L op).1 := by
  cases op with
  | setitem k v => exact ⟨rfl, holds_add (holds_poplist h k).1 k v⟩
  | add k v => exact ⟨rfl, holds_add h k v⟩
  | setlist k vs =>
    refine ⟨rfl, ?_⟩
    simp only [OMD.step, foldl_add_map]
    exact holds_addAll _ (holds_poplist h k).1
  | setdefault k v =>
    simp only [OMD.step, logCall]
    cases hg : Dict.get o.dict k with
    | none =>
      have hn : k ∉ L.map (·.1) := by rw [← holds_has h]; simp [hg]
      have hh : ¬ OMD.has o k = true := by simp [OMD.has, Dict.has, hg]
      rw [if_neg hh, valuesFor_absent hn]
      refine ⟨rfl, ?_⟩
      have := holds_add (holds_poplist h k).1 k v
      rw [without_absent hn] at this
      exact this
    | some bs =>
      obtain ⟨w, ws, hw⟩ := valuesFor_present ((holds_has h k).1 ⟨bs, hg⟩)
      have hh : OMD.has o k = true := by simp [OMD.has, Dict.has, hg]
      have h2 := holds_values h k
      rw [hg] at h2
      simp only [Option.getD_some] at h2
      rw [if_pos hh, hw]
      refine ⟨?_, h⟩
      simp only [OMD.getitem, hg, h2, hw]
      rfl
  | setlistdefault k vs => exact ⟨rfl, h⟩
  | update ps => exact ⟨rfl, holds_addAll ps h⟩
  | pop k =>
    simp only [OMD.step, logCall]
    rcases holds_pop h k with ⟨h1, h2⟩ | ⟨v, vs, o', h1, h2, h3⟩
    · rw [h1, h2]; exact ⟨rfl, h⟩
    · rw [h1, h2]; exact ⟨rfl, h3⟩
  | popDefault k v =>
    simp only [OMD.step, logCall]
    rcases holds_pop h k with ⟨h1, h2⟩ | ⟨v, vs, o', h1, h2, h3⟩
    · rw [h1, h2]; exact ⟨rfl, h⟩
    · rw [h1, h2]; exact ⟨rfl, h3⟩
  | popitem =>
    simp only [OMD.step, logCall, firstPairs_getLast]
    obtain ⟨old, ids, hi, rfl, rfl⟩ := h
    rw [← hi.dkeys]
    have hkl : (Dict.keys o.dict).getLast? = o.dict.getLast?.map (·.1) := by simp [Dict.keys]
    rw [hkl]
    cases hl : o.dict.getLast? with
    | none => exact ⟨rfl, old, ids, hi, rfl, rfl⟩
    | some p =>
      obtain ⟨k, bs⟩ := p
      have hg : Dict.get o.dict k = some bs := Dict.get_of_mem hi.dnodup (List.mem_of_getLast? hl)
      have hh : HoldsG o (logOf o.heap old) (logOf o.heap ids) := ⟨old, ids, hi, rfl, rfl⟩
      obtain ⟨w, ws, hw⟩ := valuesFor_present ((holds_has hh k).1 ⟨bs, hg⟩)
      have h2 := holds_values hh k
      have h1 := holds_remove hh k
      rw [hg] at h1 h2
      simp only [Option.getD_some] at h1 h2
      simp only [Option.map_some, Option.bind_some, hw, List.head?_cons, dropLast_del hi.dnodup hl, h2]
      exact ⟨rfl, h1⟩
  | poplist k =>
    obtain ⟨h1, h2⟩ := holds_poplist h k
    simp only [OMD.step, logCall, h2]
    exact ⟨trivial, h1⟩
  | popitemlist =>
    simp only [OMD.step, logCall, firstPairs_getLast]
    obtain ⟨old, ids, hi, rfl, rfl⟩ := h
    rw [← hi.dkeys]
    have hkl : (Dict.keys o.dict).getLast? = o.dict.getLast?.map (·.1) := by simp [Dict.keys]
    rw [hkl]
    cases hl : o.dict.getLast? with
    | none => exact ⟨rfl, old, ids, hi, rfl, rfl⟩
    | some p =>
      obtain ⟨k, bs⟩ := p
      have hg : Dict.get o.dict k = some bs := Dict.get_of_mem hi.dnodup (List.mem_of_getLast? hl)
      have hh : HoldsG o (logOf o.heap old) (logOf o.heap ids) := ⟨old, ids, hi, rfl, rfl⟩
      obtain ⟨w, ws, hw⟩ := valuesFor_present ((holds_has hh k).1 ⟨bs, hg⟩)
      have h2 := holds_values hh k
      have h1 := holds_remove hh k
      rw [hg] at h1 h2
      simp only [Option.getD_some] at h1 h2
      simp only [Option.map_some, Option.bind_some, hw, List.head?_cons, dropLast_del hi.dnodup hl, h2]
      exact ⟨trivial, h1⟩
  | delitem k =>
    simp only [OMD.step, logCall]
    rcases holds_pop h k with ⟨h1, h2⟩ | ⟨v, vs, o', h1, h2, h3⟩
    · rw [h1, h2]; exact ⟨rfl, h⟩
    · rw [h1, h2]; exact ⟨rfl, h3⟩
  | clear => exact hc.elim
  | «alias» k vs => exact ⟨rfl, h⟩

theorem run_holds (ops : List (Op K V)) : ∀ {o : ODict K V} {G L : List (K × V)}, HoldsG o G L →
    (∀ op ∈ ops, notClear op) →
    HoldsG (OMD.runOps o ops) G (ops.foldl (fun L op => (logCall L op).1) L) := by
  induction ops with
  | nil => intro o G L h _; exact h
  | cons op ops ih =>
    intro o G L h hc
    exact ih (step_holds h op (hc op (by simp))).2 (fun x hx => hc x (by simp [hx]))

end OMDAux

/-- The log after a history of calls, starting from nothing. -/
def logAfter (ops : List (Op K V)) : List (K × V) := ops.foldl (fun L op => (logCall L op).1) []

/-- The pairs held after a history, behind those that `clear` has left in the linked list. -/
def logsAfter (ops : List (Op K V)) : List (K × V) × List (K × V) :=
  ops.foldl (fun s op => match op with
    | .clear => (s.1 ++ s.2, [])
    | op => (s.1, (logCall s.2 op).1)) ([], [])

namespace OMDAux

theorem run_holds_all (ops : List (Op K V)) : ∀ {o : ODict K V} {s : List (K × V) × List (K × V)}, HoldsG o s.1 s.2 →
    HoldsG (OMD.runOps o ops) (ops.foldl (fun s op => match op with
      | .clear => (s.1 ++ s.2, [])
      | op => (s.1, (logCall s.2 op).1)) s).1 (ops.foldl (fun s op => match op with
      | .clear => (s.1 ++ s.2, [])
      | op => (s.1, (logCall s.2 op).1)) s).2 := by
  induction ops with
  | nil => intro o s h; exact h
  | cons op ops ih =>
    intro o s h
    cases op with
    | clear => exact ih (s := (s.1 ++ s.2, [])) (holds_clear h)
    | _ => exact ih (s := (s.1, _)) (step_holds h _ (by simp [notClear])).2

end OMDAux

/-- **C26** with `clear`: after any history whatsoever, all that is looked up is as in the log of the pairs added and
not removed since the last `clear`; iteration gives these pairs behind all that were there at the calls of `clear`,
which nothing removes any more. -/
theorem C26_history (ops : List (Op K V)) :
    itemsMulti (OMD.runOps OMD.empty ops) = (logsAfter ops).1 ++ (logsAfter ops).2 ∧
    items (OMD.runOps OMD.empty ops) = firstPairs ((logsAfter ops).1 ++ (logsAfter ops).2) ∧
    OMD.keys (OMD.runOps OMD.empty ops) = firstKeys (((logsAfter ops).1 ++ (logsAfter ops).2).map (·.1)) ∧
    (∀ k, OMD.getlist (OMD.runOps OMD.empty ops) k = valuesFor (logsAfter ops).2 k) ∧
    OMD.lists (OMD.runOps OMD.empty ops) =
      (firstKeys (((logsAfter ops).1 ++ (logsAfter ops).2).map (·.1))).map (fun k => (k, valuesFor (logsAfter ops).2 k)) ∧
    (∀ k, OMD.has (OMD.runOps OMD.empty ops) k = true ↔ k ∈ (logsAfter ops).2.map (·.1)) ∧
    (∀ k v vs, valuesFor (logsAfter ops).2 k = v :: vs → OMD.getitem (OMD.runOps OMD.empty ops) k = .ok v) ∧
    (∀ k, valuesFor (logsAfter ops).2 k = [] → OMD.getitem (OMD.runOps OMD.empty ops) k = .error .keyError) ∧
    OMD.len (OMD.runOps OMD.empty ops) = (firstKeys ((logsAfter ops).2.map (·.1))).length ∧
    (∀ op, (OMD.step (OMD.runOps OMD.empty ops) op).2 = (logCall (logsAfter ops).2 op).2) := by
  have hh : OMDAux.HoldsG (OMD.runOps OMD.empty ops) (logsAfter ops).1 (logsAfter ops).2 :=
    OMDAux.run_holds_all ops (s := ([], [])) OMDAux.holds_empty
  generalize OMD.runOps OMD.empty ops = o at hh ⊢
  generalize (logsAfter ops).1 = G at hh ⊢
  generalize (logsAfter ops).2 = L at hh ⊢
  have hmulti : itemsMulti o = G ++ L := by
    obtain ⟨old, ids, hi, rfl, rfl⟩ := hh
    unfold itemsMulti
    rw [hi.chain.first_eq, OMDAux.walk_chain hi.chain _ (old ++ ids) [] rfl hi.len]
    show OMDAux.logOf o.heap (old ++ ids) = _
    simp [OMDAux.logOf]
  have hitems : items o = firstPairs (G ++ L) := by unfold items; rw [hmulti, OMDAux.items_eq]
  have hkeys : OMD.keys o = firstKeys ((G ++ L).map (·.1)) := by
    unfold OMD.keys; rw [hitems, OMDAux.firstPairs_keys]
  have hget : ∀ k, OMD.getlist o k = valuesFor L k := fun k => OMDAux.holds_values hh k
  refine ⟨hmulti, hitems, hkeys, hget, ?_, ?_, ?_, ?_, ?_, ?_⟩
  · unfold OMD.lists
    rw [hitems, ← OMDAux.firstPairs_keys]
    simp [hget]
  · intro k
    rw [← OMDAux.holds_has hh]
    simp only [OMD.has, Dict.has]
    cases Dict.get o.dict k <;> simp
  · intro k v vs hv
    have h2 := OMDAux.holds_values hh k
    unfold OMD.getitem
    cases hg : Dict.get o.dict k with
    | none =>
      rw [hg] at h2
      rw [hv] at h2
      simp [valuesOf] at h2
    | some bs =>
      rw [hg] at h2
      simp only [Option.getD_some] at h2
      simp only [h2, hv]; rfl
  · intro k hv
    unfold OMD.getitem
    cases hg : Dict.get o.dict k with
    | none => rfl
    | some bs =>
      obtain ⟨w, ws, hw⟩ := OMDAux.valuesFor_present ((OMDAux.holds_has hh k).1 ⟨bs, hg⟩)
      rw [hw] at hv; cases hv
  · obtain ⟨old, ids, hi, rfl, rfl⟩ := hh
    unfold OMD.len
    rw [← hi.dkeys]; simp [Dict.keys]
  · intro op
    cases op with
    | clear => rfl
    | _ => exact (OMDAux.step_holds hh _ (by simp [notClear])).1

example : (logsAfter ([.add 'a' 1, .clear, .add 'a' 2, .add 'b' 3, .pop 'a', .clear, .add 'c' 4] : List (Op Char Nat))) =
    ([('a', 1), ('b', 3)], [('c', 4)]) ∧
    itemsMulti (OMD.runOps OMD.empty ([.add 'a' 1, .clear, .add 'a' 2, .add 'b' 3, .pop 'a', .clear, .add 'c' 4] : List (Op Char Nat))) =
      [('a', 1), ('b', 3), ('c', 4)] := by decide

/-- C26.  After any history of calls other than `clear`, `items(multi=True)` is exactly the
log of the pairs added and not removed since, every other view is its projection, and the
next call returns or raises what the log says. -/
theorem C26_order_partial (ops : List (Op K V)) (h : ∀ op ∈ ops, notClear op) :
    itemsMulti (OMD.runOps OMD.empty ops) = logAfter ops ∧
    items (OMD.runOps OMD.empty ops) = firstPairs (logAfter ops) ∧
    OMD.keys (OMD.runOps OMD.empty ops) = firstKeys ((logAfter ops).map (·.1)) ∧
    (∀ k, OMD.getlist (OMD.runOps OMD.empty ops) k = valuesFor (logAfter ops) k) ∧
    OMD.lists (OMD.runOps OMD.empty ops) =
      (firstKeys ((logAfter ops).map (·.1))).map (fun k => (k, valuesFor (logAfter ops) k)) ∧
    (∀ k, OMD.has (OMD.runOps OMD.empty ops) k = true ↔ k ∈ (logAfter ops).map (·.1)) ∧
    (∀ k v vs, valuesFor (logAfter ops) k = v :: vs → OMD.getitem (OMD.runOps OMD.empty ops) k = .ok v) ∧
    (∀ k, valuesFor (logAfter ops) k = [] → OMD.getitem (OMD.runOps OMD.empty ops) k = .error .keyError) ∧
    OMD.len (OMD.runOps OMD.empty ops) = (firstKeys ((logAfter ops).map (·.1))).length ∧
    (∀ op, notClear op →
      (OMD.step (OMD.runOps OMD.empty ops) op).2 = (logCall (logAfter ops) op).2) := by
  have e : ∀ (ops : List (Op K V)) (L : List (K × V)), (∀ op ∈ ops, notClear op) → ops.foldl (fun s op => match op with
      | .clear => (s.1 ++ s.2, [])
      | op => (s.1, (logCall s.2 op).1)) (([] : List (K × V)), L) = ([], ops.foldl (fun L op => (logCall L op).1) L) := by
    intro ops
    induction ops with
    | nil => intro L _; rfl
    | cons op ops ih =>
      intro L h
      have h1 := h op (.head _)
      cases op with
      | clear => simp [notClear] at h1
      | _ => exact ih _ fun x hx => h x (.tail _ hx)
  have e' : logsAfter ops = ([], logAfter ops) := e ops [] h
  have := C26_history ops
  rw [e'] at this
  obtain ⟨h1, h2, h3, h4, h5, h6, h7, h8, h9, h10⟩ := this
  exact ⟨h1, h2, h3, h4, h5, h6, h7, h8, h9, fun op _ => h10 op⟩

/-- C26 fails for `clear`, which is inherited from `dict`: the dictionary says it is empty
but iteration still yields the old pairs, and a later `add` is listed after them. -/
theorem C26_clear_false :
    OMD.len (OMD.runOps (OMD.empty : ODict Char Nat) [.add 'a' 1, .clear]) = 0 ∧
    itemsMulti (OMD.runOps (OMD.empty : ODict Char Nat) [.add 'a' 1, .clear]) = [('a', 1)] ∧
    OMD.keys (OMD.runOps (OMD.empty : ODict Char Nat) [.add 'a' 1, .clear, .add 'b' 2]) = ['a', 'b'] ∧
    OMD.getlist (OMD.runOps (OMD.empty : ODict Char Nat) [.add 'a' 1, .clear]) 'a' = [] := by decide

example : (∀ op ∈ ([.add 'a' 1, .add 'b' 2, .add 'a' 3, .setitem 'b' 4, .popitem, .add 'c' 5] : List (Op Char Nat)), notClear op) ∧
    itemsMulti (OMD.runOps OMD.empty [.add 'a' 1, .add 'b' 2, .add 'a' 3, .setitem 'b' 4, .popitem, .add 'c' 5]) =
      [('a', 1), ('a', 3), ('c', 5)] := ⟨by simp [notClear], by decide⟩

end Verif.Props
