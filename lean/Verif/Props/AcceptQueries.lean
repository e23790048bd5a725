import Verif.Model.AcceptQueries
import Verif.Props.AcceptHeader
/-!
C130: what a parsed Accept header says about a value.
-/
namespace Verif.Props.AcceptQ
open Verif Verif.Accept Verif.Negotiation

/-- A range speaks of a value. -/
def Says : Kind → Str → Str → Prop
  | .contentType, v, r => Covers r v
  | .language, v, r => r = s%"*" ∨ subtags r <+: subtags v
  | .charset, v, r => r = s%"*" ∨ r = v

/-- How specifically it does: for content types whether it names the type (2) and the subtype (1), for
languages the number of subtags it names, for charsets whether it names the charset. -/
def rank : Kind → Str → Str → Nat
  | .contentType, v, r =>
    (if (Py.split1 '/' r).1 = (Py.split1 '/' v).1 then 2 else 0) + (if (Py.split1 '/' r).2 = (Py.split1 '/' v).2 then 1 else 0)
  | .language, v, r => if subtags r <+: subtags v then (subtags r).length else 0
  | .charset, _, r => if r = s%"*" then 0 else 1

/-- Values and ranges that are content types have one slash. -/
def Formed (k : Kind) (v : Str) (os : List Rng) : Prop :=
  k = .contentType → (∃ t s, IsMedia v t s) ∧ ∀ o ∈ os, ∃ t s, IsMedia o.value t s

/-! ### Ranks -/

/-- The match that stands for a rank. -/
def mqOf (k : Kind) (v : Str) (n : Nat) : List Int :=
  match k with
  | .contentType => [n / 2, n % 2]
  | .language => [-(((subtags v).length : Int) - n), n]
  | .charset => [n]

theorem split1_media {v t s : Str} (h : IsMedia v t s) : Py.split1 '/' v = (t, some s) := by
  obtain ⟨rfl, h1, _⟩ := h
  exact Py.split1_some '/' t s h1

theorem rank_media {v r t s rt rs : Str} (hv : IsMedia v t s) (hr : IsMedia r rt rs) :
    rank .contentType v r = (if rt = t then 2 else 0) + (if rs = s then 1 else 0) := by
  simp only [rank, split1_media hv, split1_media hr, Option.some.injEq]

/-- What one range answers. -/
theorem option_says {k : Kind} {v : Str} {os : List Rng} (hf : Formed k v os) {o : Rng} (ho : o ∈ os) :
    (Says k v o.value ∧ matchOption k v o.value = .ok (mqOf k v (rank k v o.value))) ∨
    (¬ Says k v o.value ∧ matchOption k v o.value = .error .notAcceptable) := by
  cases k with
  | contentType =>
    obtain ⟨hv, hos⟩ := hf rfl
    rcases matchOption_media hv (hos o ho) with ⟨mq, h, hc⟩ | ⟨h, hc⟩
    · refine Or.inl ⟨hc, ?_⟩
      obtain ⟨t, s, hv⟩ := hv
      obtain ⟨rt, rs, hr⟩ := hos o ho
      rw [rank_media hv hr]
      have e1 := slashPair_ok.2 hv
      have e2 := slashPair_ok.2 hr
      simp only [matchOption, e1, e2] at h ⊢
      rcases partMatch_spec rt t with ⟨h1, h2⟩ | ⟨h1, h2, _⟩ | ⟨h1, _, _⟩
      · rcases partMatch_spec rs s with ⟨h3, h4⟩ | ⟨h3, h4, _⟩ | ⟨h3, _, _⟩
        · rw [h1, h3]; simp [h2, h4, mqOf]
        · rw [h1, h3]; simp [h2, h4, mqOf]
        · simp [h1, h3] at h
      · rcases partMatch_spec rs s with ⟨h3, h4⟩ | ⟨h3, h4, _⟩ | ⟨h3, _, _⟩
        · rw [h1, h3]; simp [h2, h4, mqOf]
        · rw [h1, h3]; simp [h2, h4, mqOf]
        · simp [h1, h3] at h
      · simp [h1] at h
    · exact Or.inr ⟨hc, h⟩
  | language =>
    rw [C70_language_range]
    simp only [Says, rank, mqOf]
    by_cases h1 : subtags o.value <+: subtags v
    · left; simp [h1]
    · by_cases h2 : o.value = s%"*"
      · left; simp [h1, h2]
        rw [h2] at h1
        simp [h1]
      · right; simp [h1, h2]
  | charset =>
    simp only [Says, rank, mqOf, matchOption]
    by_cases h1 : o.value = s%"*"
    · left; simp [h1]
    · by_cases h2 : v = o.value
      · left; simp [h1, h2]
      · right; simp [h1, h2]; exact fun h => h2 h.symm

theorem rank_bound (v r : Str) : rank .contentType v r < 4 := by
  simp only [rank]
  split <;> split <;> omega

theorem rank_gt (k : Kind) (v r r' : Str) :
    tupleGt (mqOf k v (rank k v r)) (mqOf k v (rank k v r')) = decide (rank k v r' < rank k v r) := by
  cases k with
  | contentType =>
    have h : ∀ n < 4, ∀ m < 4, tupleGt (mqOf .contentType [] n) (mqOf .contentType [] m) = decide (m < n) := by decide
    exact h _ (rank_bound v r) _ (rank_bound v r')
  | language =>
    generalize rank .language v r = n
    generalize rank .language v r' = m
    simp only [mqOf, tupleGt]
    by_cases h : n = m
    · subst h; simp
    · rw [if_neg (by omega)]
      simp
  | charset =>
    generalize rank .charset v r = n
    generalize rank .charset v r' = m
    simp only [mqOf, tupleGt]
    by_cases h : n = m
    · subst h; simp
    · rw [if_neg (by omega)]
      simp

theorem exact_rank {k : Kind} {v : Str} {os : List Rng} (hf : Formed k v os) {o : Rng} (ho : o ∈ os) (hs : Says k v o.value)
    (hv : v ≠ s%"*") (q : Flt) : exactMatch k ⟨mqOf k v (rank k v o.value), q⟩ = true ↔ o.value = v := by
  cases k with
  | contentType =>
    obtain ⟨⟨t, s, hm⟩, hos⟩ := hf rfl
    obtain ⟨rt, rs, hr⟩ := hos o ho
    rw [rank_media hm hr]
    constructor
    · intro h
      have h1 : rt = t := by
        false_or_by_contra; rename_i hne
        simp [hne, exactMatch, mqOf, Acc.part] at h
        split at h <;> simp at h
      have h2 : rs = s := by
        false_or_by_contra; rename_i hne
        simp [hne, exactMatch, mqOf, Acc.part] at h
        split at h <;> simp at h
      rw [hr.1, hm.1, h1, h2]
    · intro h
      rw [h] at hr
      obtain ⟨h1, h2⟩ := media_unique hr hm
      simp [h1, h2, exactMatch, mqOf, Acc.part]
  | language =>
    simp only [exactMatch, mqOf, Acc.part, rank, List.getD_cons_zero, decide_eq_true_eq]
    by_cases h1 : subtags o.value <+: subtags v
    · rw [if_pos h1]
      constructor
      · intro h
        exact splitOn_inj (h1.eq_of_length (by omega))
      · intro h; rw [h]; omega
    · rw [if_neg h1]
      have : (subtags v).length ≠ 0 := by
        intro h0; exact Py.splitOn_ne_nil '-' v (List.eq_nil_of_length_eq_zero h0)
      constructor
      · intro h; omega
      · intro h; rw [h] at h1; exact absurd (List.prefix_refl _) h1
  | charset =>
    simp only [exactMatch, mqOf, Acc.part, rank]
    rcases hs with h | h
    · rw [h]; simp; exact fun h => hv h.symm
    · rw [h]; simp [hv]

/-! ### The loop -/

/-- What a range gives. -/
def accOf (mul : Flt → Flt → Flt) (k : Kind) (v : Str) (qs : Option Flt) (o : Rng) : Acc :=
  ⟨mqOf k v (rank k v o.value), Counts mul o.q qs⟩

theorem acc_gt (mul : Flt → Flt → Flt) (k : Kind) (v : Str) (qs : Option Flt) (o o' : Rng) :
    (accOf mul k v qs o).gt (accOf mul k v qs o') = (decide (rank k v o'.value < rank k v o.value) ||
      Flt.lt (Counts mul o'.q qs) (Counts mul o.q qs)) := by
  simp only [Acc.gt, accOf, rank_gt]

theorem loop {mul : Flt → Flt → Flt} {k : Kind} {v : Str} {qs : Option Flt} : ∀ (os : List Rng), Formed k v os → ∀ b : Rng,
    ∃ a, bestMatch mul k v qs (some (accOf mul k v qs b)) os = .ok (some (accOf mul k v qs a)) ∧
      ((a = b ∧ ∀ o ∈ os, Says k v o.value → (accOf mul k v qs o).gt (accOf mul k v qs b) = false) ∨
       ∃ pre post, os = pre ++ a :: post ∧ Says k v a.value ∧
        ∀ o ∈ post, Says k v o.value → (accOf mul k v qs o).gt (accOf mul k v qs a) = false)
  | [], _, b => ⟨b, rfl, Or.inl ⟨rfl, by simp⟩⟩
  | o :: os, hf, b => by
    have hf' : Formed k v os := fun hk => ⟨(hf hk).1, fun o' h => (hf hk).2 o' (by simp [h])⟩
    rcases option_says hf (o := o) (by simp) with ⟨hs, hm⟩ | ⟨hs, hm⟩
    · simp only [bestMatch, hm, quality_counts]
      have e : (⟨mqOf k v (rank k v o.value), Counts mul o.q qs⟩ : Acc) = accOf mul k v qs o := rfl
      rw [e]
      by_cases hg : (accOf mul k v qs o).gt (accOf mul k v qs b) = true
      · rw [if_pos hg]
        obtain ⟨a, h1, h2⟩ := loop os hf' o
        refine ⟨a, h1, Or.inr ?_⟩
        rcases h2 with ⟨rfl, h2⟩ | ⟨pre, post, rfl, h2⟩
        · exact ⟨[], os, rfl, hs, h2⟩
        · exact ⟨o :: pre, post, rfl, h2⟩
      · rw [if_neg hg]
        obtain ⟨a, h1, h2⟩ := loop os hf' b
        refine ⟨a, h1, ?_⟩
        rcases h2 with ⟨rfl, h2⟩ | ⟨pre, post, rfl, h2⟩
        · left
          refine ⟨rfl, ?_⟩
          intro o' ho' hs'
          rcases List.mem_cons.1 ho' with rfl | h
          · simpa using hg
          · exact h2 o' h hs'
        · exact Or.inr ⟨o :: pre, post, rfl, h2⟩
    · simp only [bestMatch, hm]
      obtain ⟨a, h1, h2⟩ := loop os hf' b
      refine ⟨a, h1, ?_⟩
      rcases h2 with ⟨rfl, h2⟩ | ⟨pre, post, rfl, h2⟩
      · left
        refine ⟨rfl, ?_⟩
        intro o' ho' hs'
        rcases List.mem_cons.1 ho' with rfl | h
        · exact absurd hs' hs
        · exact h2 o' h hs'
      · exact Or.inr ⟨o :: pre, post, rfl, h2⟩

theorem lookup_cases {mul : Flt → Flt → Flt} {k : Kind} {v : Str} {qs : Option Flt} : ∀ {os : List Rng}, Formed k v os →
    (lookup mul k v qs os = .error .keyError ∧ ∀ o ∈ os, ¬ Says k v o.value) ∨
    ∃ a pre post, lookup mul k v qs os = .ok (accOf mul k v qs a) ∧ os = pre ++ a :: post ∧ Says k v a.value ∧
      ∀ o ∈ post, Says k v o.value → (accOf mul k v qs o).gt (accOf mul k v qs a) = false
  | [], _ => Or.inl ⟨rfl, by simp⟩
  | o :: os, hf => by
    have hf' : Formed k v os := fun hk => ⟨(hf hk).1, fun o' h => (hf hk).2 o' (by simp [h])⟩
    rcases option_says hf (o := o) (by simp) with ⟨hs, hm⟩ | ⟨hs, hm⟩
    · right
      obtain ⟨a, h1, h2⟩ := loop (mul := mul) (qs := qs) os hf' o
      have : lookup mul k v qs (o :: os) = .ok (accOf mul k v qs a) := by
        unfold lookup acceptability
        simp only [bestMatch, hm, quality_counts]
        have e : (⟨mqOf k v (rank k v o.value), Counts mul o.q qs⟩ : Acc) = accOf mul k v qs o := rfl
        rw [e, h1]
      rcases h2 with ⟨rfl, h2⟩ | ⟨pre, post, rfl, h2⟩
      · exact ⟨a, [], os, this, rfl, hs, h2⟩
      · exact ⟨a, o :: pre, post, this, rfl, h2⟩
    · have : lookup mul k v qs (o :: os) = lookup mul k v qs os := by
        unfold lookup acceptability
        simp only [bestMatch, hm]
      rw [this]
      rcases lookup_cases (mul := mul) (qs := qs) hf' with ⟨h1, h2⟩ | ⟨a, pre, post, h1, rfl, h2⟩
      · refine Or.inl ⟨h1, ?_⟩
        intro o' ho'
        rcases List.mem_cons.1 ho' with rfl | h
        · exact hs
        · exact h2 o' h
      · exact Or.inr ⟨a, o :: pre, post, h1, rfl, h2⟩

/-! ### The answers -/

/-- The quality a range gives to the value, as a number. -/
def gives (mul : Flt → Flt → Flt) (qs : Option Flt) (o : Rng) : Flt := Counts mul o.q qs

/-- **C130, the answer.**  `accept[value]` raises `KeyError` exactly if no range speaks of the value.
Otherwise it is about one of the ranges that do: it has the quality that this range gives, it is an
exact match exactly if this range is the value, and no later range is more specific or gives more. -/
theorem C130_answer (mul : Flt → Flt → Flt) (k : Kind) (v : Str) (qs : Option Flt) (os : List Rng) (hf : Formed k v os)
    (hv : v ≠ s%"*") :
    (lookup mul k v qs os = .error .keyError ∧ ∀ o ∈ os, ¬ Says k v o.value) ∨
    ∃ a o pre post, lookup mul k v qs os = .ok a ∧ os = pre ++ o :: post ∧ Says k v o.value ∧
      a.quality = gives mul qs o ∧ (exactMatch k a = true ↔ o.value = v) ∧
      ∀ o' ∈ post, Says k v o'.value → rank k v o'.value ≤ rank k v o.value ∧ Flt.lt (gives mul qs o) (gives mul qs o') = false := by
  rcases lookup_cases (mul := mul) (qs := qs) hf with h | ⟨o, pre, post, h1, h2, h3, h4⟩
  · exact Or.inl h
  · refine Or.inr ⟨_, o, pre, post, h1, h2, h3, rfl, exact_rank hf (by rw [h2]; simp) h3 hv _, ?_⟩
    intro o' ho' hs'
    have := h4 o' ho' hs'
    rw [acc_gt] at this
    simp only [Bool.or_eq_false_iff, decide_eq_false_iff_not] at this
    exact ⟨by omega, this.2⟩

/-- **C130, languages.**  The answer counts the subtags that the range named and those it left open. -/
theorem C130_language (mul : Flt → Flt → Flt) (v : Str) (qs : Option Flt) (os : List Rng) (a : Acc)
    (h : lookup mul .language v qs os = .ok a) : ∃ o ∈ os, Says .language v o.value ∧ a.part 1 = rank .language v o.value ∧
      -(a.part 0) = ((subtags v).length : Int) - rank .language v o.value := by
  rcases lookup_cases (mul := mul) (qs := qs) (k := .language) (v := v) (os := os) (fun h => by cases h) with h' | ⟨o, pre, post, h1, h2, h3, h4⟩
  · rw [h'.1] at h; cases h
  · rw [h1] at h
    cases h
    refine ⟨o, by rw [h2]; simp, h3, by simp [accOf, Acc.part, mqOf], by simp [accOf, Acc.part, mqOf]⟩

/-- The most specific range that speaks of the value, and of these the one that gives most. -/
def Best (mul : Flt → Flt → Flt) (k : Kind) (v : Str) (qs : Option Flt) (os : List Rng) (o : Rng) : Prop :=
  o ∈ os ∧ Says k v o.value ∧ ∀ o' ∈ os, Says k v o'.value → rank k v o'.value < rank k v o.value ∨
    (rank k v o'.value = rank k v o.value ∧ Flt.le (gives mul qs o') (gives mul qs o) = true)

/-- A range does not give more than a more specific one that stands before it. -/
def Settled (mul : Flt → Flt → Flt) (k : Kind) (v : Str) (qs : Option Flt) (os : List Rng) : Prop :=
  os.Pairwise fun o o' => Says k v o.value → Says k v o'.value → rank k v o'.value < rank k v o.value →
    Flt.le (gives mul qs o') (gives mul qs o) = true

/-- A range does not give more than a more specific one, wherever they stand. -/
def Agree (mul : Flt → Flt → Flt) (k : Kind) (v : Str) (qs : Option Flt) (os : List Rng) : Prop :=
  ∀ o ∈ os, ∀ o' ∈ os, Says k v o.value → Says k v o'.value → rank k v o'.value < rank k v o.value →
    Flt.le (gives mul qs o') (gives mul qs o) = true

/-- The second range is at least as good an answer as the first. -/
def Below (mul : Flt → Flt → Flt) (k : Kind) (v : Str) (qs : Option Flt) (o' o : Rng) : Prop :=
  rank k v o'.value < rank k v o.value ∨ (rank k v o'.value = rank k v o.value ∧ Flt.le (gives mul qs o') (gives mul qs o) = true)

theorem Below.trans {mul : Flt → Flt → Flt} {k : Kind} {v : Str} {qs : Option Flt} {a b c : Rng} (h1 : Below mul k v qs a b)
    (h2 : Below mul k v qs b c) : Below mul k v qs a c := by
  rcases h1 with h1 | ⟨h1, h1'⟩ <;> rcases h2 with h2 | ⟨h2, h2'⟩
  · exact Or.inl (by omega)
  · exact Or.inl (by omega)
  · exact Or.inl (by omega)
  · exact Or.inr ⟨by omega, flt_le_trans h1' h2'⟩

theorem flt_le_antisymm {a b : Flt} (h1 : Flt.le a b = true) (h2 : Flt.le b a = true) : a = b := by
  cases a with
  | nan => simp [Flt.le] at h1
  | inf x =>
    cases b with
    | nan => simp [Flt.le] at h2
    | inf y => cases x <;> cases y <;> simp_all [Flt.le]
    | fin y => cases x <;> simp_all [Flt.le]
  | fin x =>
    cases b with
    | nan => simp [Flt.le] at h2
    | inf y => cases y <;> simp_all [Flt.le]
    | fin y =>
      simp [Flt.le] at h1 h2
      rw [Int.le_antisymm h1 h2]

theorem flt_lt_not_le {a b : Flt} (h1 : Flt.lt a b = true) : Flt.le b a = false := by
  cases a with
  | nan => simp [Flt.lt] at h1
  | inf x =>
    cases b with
    | nan => simp [Flt.le]
    | inf y => cases x <;> cases y <;> simp_all [Flt.le, Flt.lt]
    | fin y => cases x <;> simp_all [Flt.le, Flt.lt]
  | fin x =>
    cases b with
    | nan => simp [Flt.le]
    | inf y => cases y <;> simp_all [Flt.le, Flt.lt]
    | fin y =>
      simp [Flt.le, Flt.lt] at h1 ⊢
      exact h1

theorem loop_best {mul : Flt → Flt → Flt} {k : Kind} {v : Str} {qs : Option Flt} : ∀ (os : List Rng), Formed k v os →
    ∀ b : Rng, Says k v b.value → (∀ o ∈ b :: os, gives mul qs o ≠ .nan) → Settled mul k v qs (b :: os) →
    ∃ a ∈ b :: os, Says k v a.value ∧
      bestMatch mul k v qs (some (accOf mul k v qs b)) os = .ok (some (accOf mul k v qs a)) ∧
      ∀ o ∈ b :: os, Says k v o.value → Below mul k v qs o a
  | [], _, b, hb, hn, _ => ⟨b, by simp, hb, rfl, by
      intro o ho _
      rw [List.mem_singleton.1 ho]
      exact Or.inr ⟨rfl, flt_le_refl (hn b (by simp))⟩⟩
  | o :: os, hf, b, hb, hn, ha => by
    have hf' : Formed k v os := fun hk => ⟨(hf hk).1, fun o' h => (hf hk).2 o' (by simp [h])⟩
    have ha1 : Settled mul k v qs (o :: os) := (List.pairwise_cons.1 ha).2
    have ha2 : Settled mul k v qs (b :: os) :=
      List.pairwise_cons.2 ⟨fun x hx => (List.pairwise_cons.1 ha).1 x (by simp [hx]), (List.pairwise_cons.1 ha1).2⟩
    have hn1 : ∀ x ∈ o :: os, gives mul qs x ≠ .nan := fun x hx => hn x (List.mem_cons_of_mem _ hx)
    have hn2 : ∀ x ∈ b :: os, gives mul qs x ≠ .nan := by
      intro x hx
      rcases List.mem_cons.1 hx with rfl | hx
      · exact hn _ (by simp)
      · exact hn x (by simp [hx])
    have hbb : Below mul k v qs b b := Or.inr ⟨rfl, flt_le_refl (hn b (by simp))⟩
    rcases option_says hf (o := o) (by simp) with ⟨hs, hm⟩ | ⟨hs, hm⟩
    · simp only [bestMatch, hm, quality_counts]
      have e : (⟨mqOf k v (rank k v o.value), Counts mul o.q qs⟩ : Acc) = accOf mul k v qs o := rfl
      have hp := (List.pairwise_cons.1 ha).1 o (by simp) hb hs
      rw [e]
      by_cases hg : (accOf mul k v qs o).gt (accOf mul k v qs b) = true
      · rw [if_pos hg]
        obtain ⟨a, h1, h2, h3, h4⟩ := loop_best os hf' o hs hn1 ha1
        refine ⟨a, List.mem_cons_of_mem _ h1, h2, h3, ?_⟩
        intro x hx hxs
        rcases List.mem_cons.1 hx with rfl | hx
        · refine Below.trans ?_ (h4 o (by simp) hs)
          rw [acc_gt] at hg
          simp only [Bool.or_eq_true, decide_eq_true_eq] at hg
          rcases hg with hg | hg
          · exact Or.inl hg
          · rcases Nat.lt_trichotomy (rank k v x.value) (rank k v o.value) with h | h | h
            · exact Or.inl h
            · exact Or.inr ⟨h, flt_le_of_lt hg⟩
            · have h6 := flt_lt_not_le hg
              have h5 := hp h
              unfold gives at h5
              rw [h6] at h5; cases h5
        · exact h4 x hx hxs
      · rw [if_neg hg]
        obtain ⟨a, h1, h2, h3, h4⟩ := loop_best os hf' b hb hn2 ha2
        refine ⟨a, ?_, h2, h3, ?_⟩
        · rcases List.mem_cons.1 h1 with rfl | h1 <;> simp_all
        · intro x hx hxs
          rcases List.mem_cons.1 hx with rfl | hx
          · exact h4 _ (by simp) hxs
          rcases List.mem_cons.1 hx with rfl | hx
          · refine Below.trans ?_ (h4 b (by simp) hb)
            rw [acc_gt] at hg
            simp only [Bool.or_eq_true, decide_eq_true_eq, not_or, Nat.not_lt, Bool.not_eq_true] at hg
            rcases Nat.lt_or_eq_of_le hg.1 with h | h
            · exact Or.inl h
            · exact Or.inr ⟨h, flt_le_of_not_lt (hn b (by simp)) (hn x (by simp)) hg.2⟩
          · exact h4 x (by simp [hx]) hxs
    · simp only [bestMatch, hm]
      obtain ⟨a, h1, h2, h3, h4⟩ := loop_best os hf' b hb hn2 ha2
      refine ⟨a, ?_, h2, h3, ?_⟩
      · rcases List.mem_cons.1 h1 with rfl | h1 <;> simp_all
      · intro x hx hxs
        rcases List.mem_cons.1 hx with rfl | hx
        · exact h4 _ (by simp) hxs
        rcases List.mem_cons.1 hx with rfl | hx
        · exact absurd hxs hs
        · exact h4 x (by simp [hx]) hxs

theorem lookup_best {mul : Flt → Flt → Flt} {k : Kind} {v : Str} {qs : Option Flt} : ∀ {os : List Rng}, Formed k v os →
    (∀ o ∈ os, gives mul qs o ≠ .nan) → Settled mul k v qs os → (∃ o ∈ os, Says k v o.value) →
    ∃ a, Best mul k v qs os a ∧ lookup mul k v qs os = .ok (accOf mul k v qs a)
  | [], _, _, _, h => by obtain ⟨o, ho, _⟩ := h; cases ho
  | o :: os, hf, hn, ha, he => by
    have hf' : Formed k v os := fun hk => ⟨(hf hk).1, fun o' h => (hf hk).2 o' (by simp [h])⟩
    rcases option_says hf (o := o) (by simp) with ⟨hs, hm⟩ | ⟨hs, hm⟩
    · obtain ⟨a, h1, h2, h3, h4⟩ := loop_best (mul := mul) (qs := qs) os hf' o hs hn ha
      refine ⟨a, ⟨h1, h2, h4⟩, ?_⟩
      unfold lookup acceptability
      simp only [bestMatch, hm, quality_counts]
      have e : (⟨mqOf k v (rank k v o.value), Counts mul o.q qs⟩ : Acc) = accOf mul k v qs o := rfl
      rw [e, h3]
    · obtain ⟨a, ⟨h1, h2, h3⟩, h4⟩ := lookup_best (mul := mul) (qs := qs) hf' (fun x hx => hn x (by simp [hx])) (List.pairwise_cons.1 ha).2 (by
        obtain ⟨x, hx, hxs⟩ := he
        rcases List.mem_cons.1 hx with rfl | hx
        · exact absurd hxs hs
        · exact ⟨x, hx, hxs⟩)
      refine ⟨a, ⟨by simp [h1], h2, ?_⟩, ?_⟩
      · intro x hx hxs
        rcases List.mem_cons.1 hx with rfl | hx
        · exact absurd hxs hs
        · exact h3 x hx hxs
      · rw [← h4]
        unfold lookup acceptability
        simp only [bestMatch, hm]

/-- **C130, the most specific range** (partial: the header must not let a general range give more
than a more specific one that stands before it, and qualities are numbers).  The answer is about the
most specific range that speaks of the value and, if there are several, about the one that gives
most: it has the quality which that range gives, and is exact exactly if that range is the value. -/
theorem C130_best_partial (mul : Flt → Flt → Flt) (k : Kind) (v : Str) (qs : Option Flt) (os : List Rng) (hf : Formed k v os)
    (hv : v ≠ s%"*") (hn : ∀ o ∈ os, gives mul qs o ≠ .nan) (hs : Settled mul k v qs os) (he : ∃ o ∈ os, Says k v o.value) :
    ∃ a o, lookup mul k v qs os = .ok a ∧ Best mul k v qs os o ∧ a.quality = gives mul qs o ∧
      (exactMatch k a = true ↔ o.value = v) := by
  obtain ⟨o, h1, h2⟩ := lookup_best hf hn hs he
  exact ⟨_, o, h2, h1, rfl, exact_rank hf h1.1 h1.2.1 hv _⟩

/-- **C130, order** (partial: as above, wherever the ranges stand).  The order in which the ranges are
listed makes no difference to the answer. -/
theorem C130_order_partial (mul : Flt → Flt → Flt) (k : Kind) (v : Str) (qs : Option Flt) (os os' : List Rng)
    (hp : os.Perm os') (hf : Formed k v os) (hn : ∀ o ∈ os, gives mul qs o ≠ .nan) (ha : Agree mul k v qs os) :
    lookup mul k v qs os' = lookup mul k v qs os := by
  have hf' : Formed k v os' := fun hk => ⟨(hf hk).1, fun o h => (hf hk).2 o (hp.mem_iff.2 h)⟩
  have settled : ∀ {xs : List Rng}, (∀ x ∈ xs, x ∈ os) → Settled mul k v qs xs := by
    intro xs hx
    unfold Settled
    exact List.pairwise_iff_forall_sublist.2 fun {a b} h => ha a (hx a (h.subset (by simp))) b (hx b (h.subset (by simp)))
  by_cases he : ∃ o ∈ os, Says k v o.value
  · have he' : ∃ o ∈ os', Says k v o.value := by
      obtain ⟨o, h1, h2⟩ := he
      exact ⟨o, hp.mem_iff.1 h1, h2⟩
    obtain ⟨a, ⟨a1, a2, a3⟩, h2⟩ := lookup_best hf hn (settled fun x h => h) he
    obtain ⟨b, ⟨b1, b2, b3⟩, h4⟩ := lookup_best hf' (fun o h => hn o (hp.mem_iff.2 h)) (settled fun x h => hp.mem_iff.2 h) he'
    rw [h2, h4]
    rcases a3 b (hp.mem_iff.2 b1) b2 with h | ⟨h, h'⟩ <;> rcases b3 a (hp.mem_iff.1 a1) a2 with g | ⟨g, g'⟩
    · omega
    · omega
    · omega
    · have := flt_le_antisymm h' g'
      unfold gives at this
      simp only [accOf, h, this]
  · rcases lookup_cases (mul := mul) (qs := qs) hf with ⟨h1, _⟩ | ⟨a, pre, post, _, rfl, h, _⟩
    · rcases lookup_cases (mul := mul) (qs := qs) hf' with ⟨h2, _⟩ | ⟨a, pre, post, _, rfl, h, _⟩
      · rw [h1, h2]
      · exact absurd ⟨a, hp.mem_iff.2 (by simp), h⟩ he
    · exact absurd ⟨a, by simp, h⟩ he

/-- **C130, what goes wrong otherwise.**  Whenever a range is followed by one that is less specific but
gives more, the answer is about the second. -/
theorem C130_override (mul : Flt → Flt → Flt) (k : Kind) (v : Str) (qs : Option Flt) (o o' : Rng) (hf : Formed k v [o, o'])
    (hs : Says k v o.value) (hs' : Says k v o'.value) (hv : v ≠ s%"*")
    (hlt : rank k v o'.value < rank k v o.value) (hq : Flt.lt (gives mul qs o) (gives mul qs o') = true) :
    ∃ a, lookup mul k v qs [o, o'] = .ok a ∧ a.quality = gives mul qs o' ∧ (exactMatch k a = true ↔ o'.value = v) ∧
      ¬ Best mul k v qs [o, o'] o' := by
  rcases option_says hf (o := o) (by simp) with ⟨_, hm⟩ | ⟨h, _⟩
  · rcases option_says hf (o := o') (by simp) with ⟨_, hm'⟩ | ⟨h, _⟩
    · refine ⟨accOf mul k v qs o', ?_, rfl, exact_rank hf (by simp) hs' hv _, ?_⟩
      · have hg : (accOf mul k v qs o').gt (accOf mul k v qs o) = true := by
          rw [acc_gt]
          unfold gives at hq
          simp [hq]
        unfold lookup acceptability
        simp only [bestMatch, hm, hm', quality_counts]
        have e : ∀ o : Rng, (⟨mqOf k v (rank k v o.value), Counts mul o.q qs⟩ : Acc) = accOf mul k v qs o := fun _ => rfl
        rw [e, e, if_pos hg]
      · rintro ⟨_, _, h⟩
        rcases h o (by simp) hs with h | ⟨h, _⟩ <;> omega
    · exact absurd hs' h
  · exact absurd hs h

/-- What an `Accept` header says about a content type: the quality, and whether it names the type. -/
def ask (header v : Str) : Except PyErr (Flt × Bool) :=
  match parseAccept demoFloat .contentType header with
  | .error e => .error e
  | .ok os => (lookup demoMul .contentType v none os).map fun (a : Acc) => (a.quality, exactMatch .contentType a)

/-- **C130 is false in general**: `text/html;q=0.5, */*` says 0.5 about HTML, the answer is 1.0 and not
exact; listed the other way round, the same ranges give 0.5 and an exact match. -/
theorem C130_best_false :
    ask s%"text/html;q=0.5, */*" s%"text/html" = .ok (.one, false) ∧
    ask s%"*/*, text/html;q=0.5" s%"text/html" = .ok (.fin (2 ^ 1073), true) := by
  constructor <;> decide +kernel

/-- **C130, headers of values.**  A content type is written as it was given exactly if it has one slash;
languages and charsets always are. -/
theorem C130_header (k : Kind) (v : Str) :
    k = .contentType ∧ (¬ ∃ t s, IsMedia v t s) ∧ valueHeader k v = .error .valueError ∨
    (k = .contentType → ∃ t s, IsMedia v t s) ∧ valueHeader k v = .ok v := by
  cases k with
  | contentType =>
    by_cases h : ∃ t s, IsMedia v t s
    · right
      refine ⟨fun _ => h, ?_⟩
      obtain ⟨t, s, h⟩ := h
      simp only [valueHeader, slashPair_ok.2 h]
      rw [h.1]
    · left
      refine ⟨rfl, h, ?_⟩
      have : slashPair v = .error .valueError := by
        cases e : slashPair v with
        | ok p => exact absurd ⟨p.1, p.2, slashPair_ok.1 e⟩ h
        | error x =>
          unfold slashPair at e
          split at e
          · cases e
          · cases e; rfl
      simp only [valueHeader, this]
  | language => right; exact ⟨(by simp), rfl⟩
  | charset => right; exact ⟨(by simp), rfl⟩

/-- **C130, where content types have no single slash** the question fails: such a header is accepted
when it is read, since the check of its ranges does not look at what follows. -/
theorem C130_slash_limits :
    (parseAccept demoFloat .contentType s%"text/html/x").toOption.isSome ∧
    ask s%"text/html/x" s%"text/html" = .error .valueError := by
  constructor <;> decide +kernel

/-! ### Examples -/

/-- `text/*;q=0.5, text/html, */*;q=0`. -/
def demoRanges : List Rng := [⟨s%"text/*", .fin (2 ^ 1073), []⟩, ⟨s%"text/html", .one, []⟩, ⟨s%"*/*", .zero, []⟩]

theorem demo_formed : Formed .contentType s%"text/html" demoRanges := by
  intro _
  refine ⟨⟨s%"text", s%"html", by decide, by decide, by decide⟩, ?_⟩
  intro o ho
  simp only [demoRanges, List.mem_cons, List.not_mem_nil, or_false] at ho
  rcases ho with rfl | rfl | rfl
  · exact ⟨s%"text", s%"*", by decide, by decide, by decide⟩
  · exact ⟨s%"text", s%"html", by decide, by decide, by decide⟩
  · exact ⟨s%"*", s%"*", by decide, by decide, by decide⟩

theorem demo_agree : Agree demoMul .contentType s%"text/html" none demoRanges := by
  intro o ho o' ho' _ _ h
  simp only [demoRanges, List.mem_cons, List.not_mem_nil, or_false] at ho ho'
  rcases ho with rfl | rfl | rfl <;> rcases ho' with rfl | rfl | rfl <;> revert h <;> decide +kernel

theorem demo_number : ∀ o ∈ demoRanges, gives demoMul none o ≠ .nan := by decide +kernel

example : ∃ a, lookup demoMul .contentType s%"text/html" none demoRanges = .ok a ∧ a.quality = .one ∧
    exactMatch .contentType a = true := ⟨⟨[1, 1], .one⟩, by decide +kernel⟩
example : lookup demoMul .contentType s%"text/html" none demoRanges.reverse = lookup demoMul .contentType s%"text/html" none demoRanges :=
  C130_order_partial demoMul _ _ none _ _ (List.reverse_perm _).symm demo_formed demo_number demo_agree
example : lookup demoMul .language s%"de-CH" none [⟨s%"de", .one, []⟩, ⟨s%"*", .zero, []⟩] = .ok ⟨[-1, 1], .one⟩ := by decide +kernel
example : lookup demoMul .language s%"fr" none [⟨s%"de", .one, []⟩] = .error .keyError := by decide +kernel
example : lookup demoMul .charset s%"utf-8" none [⟨s%"*", .zero, []⟩, ⟨s%"utf-8", .one, []⟩] = .ok ⟨[1], .one⟩ := by decide +kernel
example : valueHeader .contentType s%"text/html" = .ok s%"text/html" := by decide +kernel
example : valueHeader .contentType s%"text" = .error .valueError := by decide +kernel

end Verif.Props.AcceptQ
