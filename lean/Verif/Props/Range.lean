import Verif.PyLemmas
import Verif.Model.Range
import Verif.Spec.Ranges
import Verif.Props.Headers
/-! Property theorems C11-C15: byte ranges. -/
namespace Verif.Props
open Verif Verif.Range Verif.Spec

/-! ### C11 -/

theorem RangeAux.valid_iff (s e l : Int) :
    isByteRangeValid (some s) (some e) (some l) = true ↔ 0 ≤ s ∧ s < e ∧ s < l := by
  simp only [isByteRangeValid]
  by_cases h : s ≥ e
  · simp [h]; omega
  · simp [h]; omega

theorem RangeAux.rfl_iff (s : Int) (e : Option Int) (length a b : Int) :
    Range.rangeForLength ⟨s%"bytes", [(s, e)]⟩ (some length) = some (a, b) ↔
      a = (if e = none ∧ s < 0 then s + length else s) ∧ b = min (e.getD length) length ∧
      0 ≤ a ∧ a < e.getD length ∧ a < length := by
  cases e with
  | none =>
    by_cases hs : s < 0
    · simp only [Range.rangeForLength, ne_eq, not_true_eq_false, if_false, hs, if_true]
      by_cases hv : isByteRangeValid (some (s + length)) (some length) (some length) = true
      · rw [if_pos hv]; rw [RangeAux.valid_iff] at hv; simp; omega
      · rw [if_neg hv]; rw [RangeAux.valid_iff] at hv; simp; omega
    · simp only [Range.rangeForLength, ne_eq, not_true_eq_false, if_false, hs]
      by_cases hv : isByteRangeValid (some s) (some length) (some length) = true
      · rw [if_pos hv]; rw [RangeAux.valid_iff] at hv; simp; omega
      · rw [if_neg hv]; rw [RangeAux.valid_iff] at hv; simp; omega
  | some e =>
    simp only [Range.rangeForLength, ne_eq, not_true_eq_false, if_false]
    by_cases hv : isByteRangeValid (some s) (some e) (some length) = true
    · rw [if_pos hv]; rw [RangeAux.valid_iff] at hv; simp; omega
    · rw [if_neg hv]; rw [RangeAux.valid_iff] at hv; simp; omega

/-- C11.  Whenever a range is resolved against a length, the result is a non-empty
interval inside the resource. -/
theorem C11_range_in_bounds (r : Range) (length : Int) (a b : Int)
    (h : r.rangeForLength (some length) = some (a, b)) : 0 ≤ a ∧ a < b ∧ b ≤ length := by
  obtain ⟨units, ranges⟩ := r
  by_cases hu : units = s%"bytes"
  · subst hu
    match ranges, h with
    | [(s, e)], h =>
      rw [RangeAux.rfl_iff] at h
      cases e <;> simp only [Option.getD] at h <;> omega
    | [], h => simp [Range.rangeForLength] at h
    | _ :: _ :: _, h => simp [Range.rangeForLength] at h
  · exfalso
    simp only [Range.rangeForLength] at h
    split at h
    · simp [hu] at h
    · simp at h

/-- C11.  The resolved interval consists of exactly the requested positions, and a single
bytes range is resolved whenever it requests at least one position and does not reach
before the start of the resource. -/
theorem C11_range_exact_partial (s : Int) (e : Option Int) (length : Int) :
    (∀ a b, Range.rangeForLength ⟨s%"bytes", [(s, e)]⟩ (some length) = some (a, b) →
      ∀ p, (a ≤ p ∧ p < b) ↔ Requested (s, e) length p) ∧
    ((∃ p, Requested (s, e) length p) →
      (match e with | some _ => 0 ≤ s | none => 0 ≤ s ∨ 0 ≤ length + s) →
      ∃ a b, Range.rangeForLength ⟨s%"bytes", [(s, e)]⟩ (some length) = some (a, b)) := by
  constructor
  · intro a b h p
    rw [RangeAux.rfl_iff] at h
    cases e with
    | none => by_cases hs : s < 0 <;> simp [Requested, hs] at h ⊢ <;> omega
    | some e => simp [Requested] at h ⊢; omega
  · rintro ⟨p, hp⟩ hs
    refine ⟨if e = none ∧ s < 0 then s + length else s, min (e.getD length) length, ?_⟩
    rw [RangeAux.rfl_iff]
    refine ⟨rfl, rfl, ?_⟩
    cases e with
    | none => by_cases hs' : s < 0 <;> simp [Requested, hs'] at hp ⊢ <;> omega
    | some e => simp [Requested] at hp hs ⊢; omega

/-- C11 fails for some suffixes.  One longer than the resource, which asks for all of it, is
resolved to nothing, and one of length zero, which asks for nothing, to the whole resource. -/
theorem C11_suffix_false :
    ((∀ p, Requested (-10, none) 5 p ↔ 0 ≤ p ∧ p < 5) ∧
      Range.rangeForLength ⟨s%"bytes", [(-10, none)]⟩ (some 5) = none) ∧
    (parseRangeHeader asciiLower s%"bytes=-10").toOption.bind id = some ⟨s%"bytes", [(-10, none)]⟩ ∧
    (parseRangeHeader asciiLower s%"bytes=-0").toOption.bind
      (fun r => r.bind (fun r => r.rangeForLength (some 5))) = some (0, 5) := by
  refine ⟨⟨fun p => ?_, by decide⟩, by decide, by decide⟩
  simp [Requested]
  omega

example : Range.rangeForLength ⟨s%"bytes", [(-3, none)]⟩ (some 10) = some (7, 10) := by decide
example : Range.rangeForLength ⟨s%"bytes", [(4, some 100)]⟩ (some 10) = some (4, 10) := by decide

/-! ### C12 -/

theorem RangeAux.intOf_neg (s : Str) (b : Int) (h : (Py.strip s).head? = some '-')
    (hb : Py.intOf s = .ok b) : b ≤ 0 := by
  unfold Py.intOf at hb
  cases hs : Py.strip s with
  | nil => rw [hs] at h; simp at h
  | cons c cs =>
    rw [hs] at h; simp at h; subst h
    rw [hs] at hb
    simp only at hb
    split at hb
    · simp at hb; omega
    · simp at hb

theorem RangeAux.parse_wf (items : List Str) (le : Option Int) (acc rs : List (Int × Option Int))
    (h : parseItems le acc items = .ok (some rs))
    (hacc : match le with
      | none => WellFormed 0 acc
      | some le => (le < 0 ∧ WellFormed 0 acc) ∨ (0 ≤ le ∧ ∀ r, WellFormed le r → WellFormed 0 (acc ++ r))) :
    WellFormed 0 rs := by
  induction items generalizing le acc with
  | nil =>
    simp only [parseItems, Except.ok.injEq, Option.some.injEq] at h
    subst h
    cases le with
    | none => exact hacc
    | some le =>
      rcases hacc with hacc | hacc
      · exact hacc.2
      · simpa using hacc.2 [] (.nil le)
  | cons item items ih =>
    simp only [parseItems] at h
    split at h
    · simp at h
    · split at h
      · rename_i hhead
        cases le with
        | none => simp at h
        | some le =>
          simp only at h
          split at h
          · simp at h
          · rename_i hle
            cases hi : Py.intOf (Py.strip item) with
            | error e => rw [hi] at h; simp at h
            | ok b =>
              rw [hi] at h
              simp only at h
              refine ih _ _ h ?_
              left
              refine ⟨by omega, ?_⟩
              rcases hacc with hacc | hacc
              · omega
              · apply hacc.2
                apply WellFormed.suffix
                apply RangeAux.intOf_neg (Py.strip item) b _ hi
                unfold Py.strip at hhead ⊢
                rw [Py.stripP_idem]; exact hhead
      · cases hb : Py.intOf (Py.split1 '-' (Py.strip item)).1 with
        | error e => rw [hb] at h; simp at h
        | ok b =>
          rw [hb] at h
          simp only at h
          cases le with
          | none => simp at h
          | some le =>
            simp only at h
            split at h
            · simp at h
            · rename_i hlt
              have hle : 0 ≤ le := by omega
              have hacc' : ∀ r, WellFormed le r → WellFormed 0 (acc ++ r) := by
                rcases hacc with hacc | hacc
                · omega
                · exact hacc.2
              split at h
              · cases he : Py.intOf ((Py.split1 '-' (Py.strip item)).2.getD []) with
                | error e => rw [he] at h; simp at h
                | ok e =>
                  rw [he] at h
                  simp only at h
                  split at h
                  · simp at h
                  · refine ih _ _ h ?_
                    right
                    refine ⟨by omega, ?_⟩
                    intro r hr
                    have := hacc' ((b, some (e + 1)) :: r) (.closed _ _ _ _ (by omega) (by omega) hr)
                    simpa using this
              · refine ih _ _ h ?_
                exact hacc' _ (.openEnd _ _ (by omega))

/-- C12.  Whenever a Range header is accepted, its ranges are non-negative, non-empty,
increasing and disjoint, and only the last may be open ended or a suffix. -/
theorem C12_parsed_ranges_wellformed (lower : Str → Str) (value : Str) (r : Range)
    (h : parseRangeHeader lower value = .ok (some r)) : WellFormed 0 r.ranges ∧ r.ranges ≠ [] := by
  unfold parseRangeHeader at h
  split at h
  · simp at h
  · rename_i units rng hs
    split at h
    · simp at h
    · simp at h
    · rename_i rs hp
      simp at h; subst h
      refine ⟨RangeAux.parse_wf _ _ _ _ hp (Or.inr ⟨by omega, fun r hr => by simpa using hr⟩), ?_⟩
      have : ∀ (items : List Str) le acc rs, parseItems le acc items = .ok (some rs) →
          acc.length + items.length ≤ rs.length := by
        intro items
        induction items with
        | nil => intro le acc rs h; simp [parseItems] at h; subst h; simp
        | cons i is ih =>
          intro le acc rs h
          simp only [parseItems] at h
          repeat' (first | (split at h) | (simp at h; done))
          all_goals (first | (have := ih _ _ _ h; simp at this ⊢; omega) | (simp at h))
      have h1 := this _ _ _ _ hp
      have h2 := Py.splitOn_ne_nil ',' rng
      cases hsp : Py.splitOn ',' rng with
      | nil => exact absurd hsp h2
      | cons a b =>
        rw [hsp] at h1
        intro he; simp only at he; subst he; simp at h1

example : parseRangeHeader asciiLower s%"Bytes=0-4,10-19,-5" =
    .ok (some ⟨s%"bytes", [(0, some 5), (10, some 20), (-5, none)]⟩) := by decide

/-! ### C13 -/

/-- C13 (refutation).  Malformed Range headers can raise instead of giving `None`. -/
theorem C13_total_false :
    parseRangeHeader asciiLower s%"bytes=a-b" = .error .valueError ∧
    parseRangeHeader asciiLower s%"bytes=-" = .error .valueError ∧
    parseRangeHeader asciiLower s%"bytes=0-,5-" = .error .typeError := by decide

/-- No open ended item before the last one. -/
def RangeAux.NoEarlyOpen : List RangeItem → Prop
  | [] => True
  | [_] => True
  | .openEnd _ :: _ :: _ => False
  | _ :: rest => RangeAux.NoEarlyOpen rest

namespace RangeAux

theorem noSpaceNat (n : Nat) : ∀ c ∈ Py.natStr n, Py.isSpace c = false :=
  fun c hc => Py.isDig_not_space c (Py.natStr_digits n c hc)

theorem dash_notin (n : Nat) : '-' ∉ Py.natStr n := Py.natStr_not_mem n '-' (by decide)

theorem natStr_head (n : Nat) (t : Str) : (Py.natStr n ++ t).head? ≠ some '-' := by
  cases h : Py.natStr n with
  | nil => exact absurd h (Py.natStr_ne_nil n)
  | cons c cs =>
    intro hc
    simp at hc; subst hc
    exact dash_notin n (by rw [h]; simp)

/-- One parsing step on a closed item. -/
theorem step_closed (le : Int) (acc) (a b : Nat) (rest : List Str) :
    parseItems (some le) acc ((Py.natStr a ++ ['-'] ++ Py.natStr b) :: rest) =
      if (a : Int) < le ∨ le < 0 then .ok none
      else if (a : Int) ≥ b + 1 then .ok none
      else parseItems (some ((b : Int) + 1)) (acc ++ [((a : Int), some ((b : Int) + 1))]) rest := by
  have hst : Py.strip (Py.natStr a ++ ['-'] ++ Py.natStr b) = Py.natStr a ++ '-' :: Py.natStr b := by
    rw [Py.strip_nospace]
    · simp
    · intro c hc
      simp only [List.mem_append, List.mem_singleton] at hc
      rcases hc with (hc | rfl) | hc
      · exact noSpaceNat a c hc
      · decide
      · exact noSpaceNat b c hc
  have hspl := Py.split1_some '-' (Py.natStr a) (Py.natStr b) (dash_notin a)
  simp only [parseItems, hst, hspl, Py.intOf_natStr, Option.getD_some]
  rw [if_neg (by simp), if_neg (natStr_head a _)]
  simp [Py.natStr_ne_nil]

/-- One parsing step on an open ended item. -/
theorem step_open (le : Int) (acc) (a : Nat) (rest : List Str) :
    parseItems (some le) acc ((Py.natStr a ++ ['-']) :: rest) =
      if (a : Int) < le ∨ le < 0 then .ok none
      else parseItems none (acc ++ [((a : Int), none)]) rest := by
  have hst : Py.strip (Py.natStr a ++ ['-']) = Py.natStr a ++ '-' :: [] := by
    rw [Py.strip_nospace]
    intro c hc
    simp only [List.mem_append, List.mem_singleton] at hc
    rcases hc with hc | rfl
    · exact noSpaceNat a c hc
    · decide
  have hspl := Py.split1_some '-' (Py.natStr a) [] (dash_notin a)
  simp only [parseItems, hst, hspl, Py.intOf_natStr, Option.getD_some]
  rw [if_neg (by simp), if_neg (natStr_head a _)]
  simp

/-- One parsing step on a suffix item. -/
theorem step_suffix (le : Int) (acc) (n : Nat) (rest : List Str) :
    parseItems (some le) acc (('-' :: Py.natStr n) :: rest) =
      if le < 0 then .ok none
      else parseItems (some (-1)) (acc ++ [(-(n : Int), none)]) rest := by
  have hst : Py.strip ('-' :: Py.natStr n) = '-' :: Py.natStr n := by
    rw [Py.strip_nospace]
    intro c hc
    simp only [List.mem_cons] at hc
    rcases hc with rfl | hc
    · decide
    · exact noSpaceNat n c hc
  simp only [parseItems, hst, Py.intOf_neg_natStr]
  rw [if_neg (by simp), if_pos (by simp)]

theorem comma_notin (n : Nat) : ',' ∉ Py.natStr n := Py.natStr_not_mem n ',' (by decide)

theorem comma_notin_int (i : Int) : ',' ∉ Py.intStr i := by
  cases i <;> simp [Py.intStr, comma_notin]

end RangeAux

/-- C13.  For every list of syntactically valid (RFC 7233) items in any order and with any
numbers, provided no open ended item comes before the last one, parsing does not raise. -/
theorem C13_total_partial (lower : Str → Str) (units : Str) (hu : '=' ∉ units)
    (items : List RangeItem) (h : RangeAux.NoEarlyOpen items) :
    ∃ r, parseRangeHeader lower (units ++ '=' :: Py.join [','] (items.map RangeItem.text)) = .ok r := by
  have key : ∀ (items : List RangeItem) (le : Int) acc, RangeAux.NoEarlyOpen items →
      ∃ r, parseItems (some le) acc (items.map RangeItem.text) = .ok r := by
    intro items
    induction items with
    | nil => intro le acc _; exact ⟨some acc, rfl⟩
    | cons it its ih =>
      intro le acc hne
      have hne' : RangeAux.NoEarlyOpen its := by
        cases its with
        | nil => trivial
        | cons x xs => cases it <;> simp [RangeAux.NoEarlyOpen] at hne <;> exact hne
      simp only [List.map_cons]
      cases it with
      | closed a b =>
        simp only [RangeItem.text]
        rw [RangeAux.step_closed]
        split
        · exact ⟨_, rfl⟩
        · split
          · exact ⟨_, rfl⟩
          · exact ih _ _ hne'
      | openEnd a =>
        simp only [RangeItem.text]
        rw [RangeAux.step_open]
        split
        · exact ⟨_, rfl⟩
        · cases its with
          | nil => exact ⟨_, rfl⟩
          | cons x xs => simp [RangeAux.NoEarlyOpen] at hne
      | suffix n =>
        simp only [RangeItem.text, List.singleton_append]
        rw [RangeAux.step_suffix]
        split
        · exact ⟨_, rfl⟩
        · exact ih _ _ hne'
  unfold parseRangeHeader
  rw [Py.split1_some '=' units _ hu]
  simp only
  cases items with
  | nil => simp [Py.join, Py.splitOn, parseItems, Py.strip, Py.stripP, Py.lstripP, Py.rstripP]
  | cons it its =>
    rw [Py.splitOn_join ',' _ (by simp) (by
      intro p hp
      simp only [List.mem_map] at hp
      obtain ⟨x, _, rfl⟩ := hp
      cases x <;> simp [RangeItem.text, RangeAux.comma_notin])]
    obtain ⟨r, hr⟩ := key (it :: its) 0 [] h
    rw [hr]
    cases r <;> exact ⟨_, rfl⟩

example : RangeAux.NoEarlyOpen [.closed 5 2, .suffix 0, .closed 1 1, .openEnd 7] := by
  simp [RangeAux.NoEarlyOpen]

theorem RangeAux.mem_first {c : Char} {p : Str} (h : c ∈ p) : ∃ a b, p = a ++ c :: b ∧ c ∉ a := by
  induction p with
  | nil => simp at h
  | cons d p ih =>
    by_cases hd : d = c
    · exact ⟨[], p, by simp [hd], by simp⟩
    · obtain ⟨a, b, e, ha⟩ := ih (by simpa [Ne.symm hd] using h)
      exact ⟨d :: a, b, by simp [e], by simp [ha, Ne.symm hd]⟩

theorem RangeAux.mem_strip {c : Char} {s : Str} (h : c ∈ Py.strip s) : c ∈ s := by
  unfold Py.strip Py.stripP Py.rstripP Py.lstripP at h
  rw [List.mem_reverse] at h
  have := (List.dropWhile_sublist _).subset h
  rw [List.mem_reverse] at this
  exact (List.dropWhile_sublist _).subset this

/-- An item with a hyphen and something that is not a number where a number should be. -/
def RangeAux.BadItem (t : Str) : Prop :=
  (∃ r, Py.strip t = '-' :: r ∧ ∀ n, Py.intOf (Py.strip t) ≠ .ok n) ∨
  ∃ a b, Py.strip t = a ++ '-' :: b ∧ a ≠ [] ∧ '-' ∉ a ∧ ((∀ n, Py.intOf a ≠ .ok n) ∨ b ≠ [] ∧ ∀ n, Py.intOf b ≠ .ok n)

/-- `n-`. -/
def RangeAux.OpenItem (t : Str) : Prop := ∃ a n, Py.strip t = a ++ ['-'] ∧ a ≠ [] ∧ '-' ∉ a ∧ Py.intOf a = .ok n

namespace RangeAux

theorem intOf_error {s : Str} {e : PyErr} (h : Py.intOf s = .error e) : e = .valueError := by
  unfold Py.intOf at h
  split at h <;> split at h <;> first | cases h; done | exact (Except.error.inj h).symm

theorem not_ok_of_error {s : Str} {e : PyErr} (h : Py.intOf s = .error e) : ∀ n, Py.intOf s ≠ .ok n := by
  intro n hn; rw [h] at hn; cases hn

theorem parseItems_raises : ∀ (items : List Str) (le : Option Int) (acc : List (Int × Option Int)) (e : PyErr),
    parseItems le acc items = .error e →
    (e = .valueError ∧ ∃ t ∈ items, BadItem t) ∨
    (e = .typeError ∧ ((le = none ∧ ∃ u r, items = u :: r ∧ '-' ∈ u) ∨
      ∃ l t u r, items = l ++ t :: u :: r ∧ OpenItem t ∧ '-' ∈ u))
  | [], le, acc, e, h => by simp [parseItems] at h
  | t :: rest, le, acc, e, h => by
    have later : ∀ le' acc', (le' = none → OpenItem t) → parseItems le' acc' rest = .error e →
        (e = .valueError ∧ ∃ x ∈ t :: rest, BadItem x) ∨
        (e = .typeError ∧ ((le = none ∧ ∃ u r, t :: rest = u :: r ∧ '-' ∈ u) ∨
          ∃ l x u r, t :: rest = l ++ x :: u :: r ∧ OpenItem x ∧ '-' ∈ u)) := by
      intro le' acc' hle h'
      rcases parseItems_raises rest le' acc' e h' with ⟨h1, x, hx, hb⟩ | ⟨h1, ⟨h2, u, r, rfl, hu⟩ | ⟨l, x, u, r, rfl, ho, hu⟩⟩
      · exact .inl ⟨h1, x, by simp [hx], hb⟩
      · exact .inr ⟨h1, .inr ⟨[], t, u, r, rfl, hle h2, hu⟩⟩
      · exact .inr ⟨h1, .inr ⟨t :: l, x, u, r, rfl, ho, hu⟩⟩
    have hyph : '-' ∈ Py.strip t → '-' ∈ t := fun hm => mem_strip hm
    simp only [parseItems] at h
    split at h
    · cases h
    · rename_i hc
      have hm : '-' ∈ Py.strip t := by simpa using hc
      split at h
      · rename_i hh
        obtain ⟨r, hr⟩ : ∃ r, Py.strip t = '-' :: r := by
          cases hs : Py.strip t with
          | nil => rw [hs] at hh; simp at hh
          | cons c r => rw [hs] at hh; simp at hh; exact ⟨r, by rw [hh]⟩
        cases le with
        | none => exact .inr ⟨(Except.error.inj h).symm, .inl ⟨rfl, t, rest, rfl, hyph hm⟩⟩
        | some le =>
          simp only at h
          split at h
          · cases h
          · cases hi : Py.intOf (Py.strip t) with
            | error e' =>
              rw [hi] at h
              refine .inl ⟨?_, t, by simp, .inl ⟨r, hr, not_ok_of_error hi⟩⟩
              rw [← Except.error.inj h]; exact intOf_error hi
            | ok b => rw [hi] at h; exact later _ _ (by simp) h
      · rename_i hh
        obtain ⟨a, b, hab, ha⟩ := mem_first hm
        have hs : Py.split1 '-' (Py.strip t) = (a, some b) := by rw [hab, Py.split1_some _ _ _ ha]
        have hne : a ≠ [] := by rintro rfl; rw [hab] at hh; simp at hh
        rw [hs] at h
        simp only [Option.getD_some] at h
        cases hi : Py.intOf a with
        | error e' =>
          rw [hi] at h
          refine .inl ⟨?_, t, by simp, .inr ⟨a, b, hab, hne, ha, .inl (not_ok_of_error hi)⟩⟩
          rw [← Except.error.inj h]; exact intOf_error hi
        | ok n =>
          rw [hi] at h
          cases le with
          | none => exact .inr ⟨(Except.error.inj h).symm, .inl ⟨rfl, t, rest, rfl, hyph hm⟩⟩
          | some le =>
            simp only at h
            split at h
            · cases h
            · split at h
              · rename_i hb
                cases hj : Py.intOf b with
                | error e' =>
                  rw [hj] at h
                  refine .inl ⟨?_, t, by simp, .inr ⟨a, b, hab, hne, ha, .inr ⟨hb, not_ok_of_error hj⟩⟩⟩
                  rw [← Except.error.inj h]; exact intOf_error hj
                | ok m =>
                  rw [hj] at h
                  simp only at h
                  split at h
                  · cases h
                  · exact later _ _ (by simp) h
              · rename_i hb
                have : b = [] := by simpa using hb
                subst this
                exact later _ _ (fun _ => ⟨a, n, hab, hne, ha, hi⟩) h

end RangeAux

/-- C13, for every text: nothing but ValueError and TypeError is raised, the first only if some item
with a hyphen has something else than a number in it, and the second only if an item with a hyphen
follows an open ended one. -/
theorem C13_raises_partial (lower : Str → Str) (value : Str) (e : PyErr) (h : parseRangeHeader lower value = .error e) :
    ∃ units rng, value = units ++ '=' :: rng ∧ '=' ∉ units ∧
      ((e = .valueError ∧ ∃ t ∈ Py.splitOn ',' rng, RangeAux.BadItem t) ∨
       (e = .typeError ∧ ∃ l t u r, Py.splitOn ',' rng = l ++ t :: u :: r ∧ RangeAux.OpenItem t ∧ '-' ∈ u)) := by
  by_cases hm : '=' ∈ value
  · obtain ⟨units, rng, rfl, hu⟩ := RangeAux.mem_first hm
    refine ⟨units, rng, rfl, hu, ?_⟩
    unfold parseRangeHeader at h
    rw [Py.split1_some _ _ _ hu] at h
    simp only at h
    cases hp : parseItems (some 0) [] (Py.splitOn ',' rng) with
    | error e' =>
      rw [hp] at h
      obtain rfl := Except.error.inj h
      rcases RangeAux.parseItems_raises _ _ _ _ hp with h1 | ⟨h1, ⟨h2, _⟩ | h2⟩
      · exact .inl h1
      · cases h2
      · exact .inr ⟨h1, h2⟩
    | ok r => rw [hp] at h; cases r <;> cases h
  · unfold parseRangeHeader at h
    rw [Py.split1_none _ _ hm] at h
    cases h

/-- Both happen. -/
example : parseRangeHeader asciiLower s%"bytes=1-2, 3-x" = .error .valueError ∧
    parseRangeHeader asciiLower s%"bytes=1- , -3" = .error .typeError := by decide

/-! ### C14 -/

/-- C14.  Every well formed range set survives serialising and parsing.  (A final range
`(0, none)` is read as "from 0", so it has to be alone.) -/
theorem C14_range_roundtrip (lower : Str → Str) (r : Range)
    (hu : '=' ∉ r.units) (hul : lower (Py.strip r.units) = r.units)
    (hne : r.ranges ≠ []) (hwf : WellFormed 0 r.ranges)
    (h0 : (0, none) ∈ r.ranges → r.ranges = [(0, none)]) :
    parseRangeHeader lower r.toHeader = .ok (some r) := by
  have key : ∀ (le : Int) (rs : List (Int × Option Int)), WellFormed le rs → 0 ≤ le →
      ((0, none) ∉ rs ∨ (le = 0 ∧ rs = [(0, none)])) → ∀ acc,
      parseItems (some le) acc (rs.map dumpRange) = .ok (some (acc ++ rs)) := by
    intro le rs hwf
    have hopen : ∀ (lo b : Int), lo ≤ b → 0 ≤ lo → ∀ acc,
        parseItems (some lo) acc ([(b, none)].map dumpRange) = .ok (some (acc ++ [(b, none)])) := by
      intro lo b h1 hlo acc
      obtain ⟨n, rfl⟩ := Int.eq_ofNat_of_zero_le (show 0 ≤ b by omega)
      have htxt : dumpRange ((n : Int), none) = Py.natStr n ++ ['-'] := by
        simp only [dumpRange]; rw [if_pos (by omega)]; rfl
      simp only [List.map_cons, List.map_nil, htxt]
      rw [RangeAux.step_open, if_neg (by omega)]
      simp [parseItems]
    induction hwf with
    | nil lo => intro _ _ acc; simp [parseItems]
    | closed lo b e rest h1 h2 _ ih =>
      intro hlo hz acc
      obtain ⟨n, rfl⟩ := Int.eq_ofNat_of_zero_le (show 0 ≤ b by omega)
      obtain ⟨m, hm⟩ := Int.eq_ofNat_of_zero_le (show 0 ≤ e - 1 by omega)
      have he : e = (m : Int) + 1 := by omega
      subst he
      have htxt : dumpRange ((n : Int), some ((m : Int) + 1)) = Py.natStr n ++ ['-'] ++ Py.natStr m := by
        have : ((m : Int) + 1 - 1) = (m : Int) := by omega
        simp only [dumpRange, this]; rfl
      simp only [List.map_cons, htxt]
      rw [RangeAux.step_closed, if_neg (by omega), if_neg (by omega), ih (by omega)]
      · simp
      · left
        rcases hz with hz | hz
        · intro hm; exact hz (by simp [hm])
        · simp at hz
    | openEnd lo b h1 =>
      intro hlo _ acc
      exact hopen lo b h1 hlo acc
    | suffix lo b h1 =>
      intro hlo hz acc
      rcases hz with hz | ⟨rfl, hz⟩
      · have hb : b ≠ 0 := by rintro rfl; simp at hz
        obtain ⟨n, hn⟩ := Int.eq_ofNat_of_zero_le (show 0 ≤ -b by omega)
        have hbn : b = -(n : Int) := by omega
        subst hbn
        have htxt : dumpRange (-(n : Int), none) = '-' :: Py.natStr n := by
          simp only [dumpRange]; rw [if_neg (by omega)]
          cases n with
          | zero => simp at hb
          | succ k => rfl
        simp only [List.map_cons, List.map_nil, htxt]
        rw [RangeAux.step_suffix, if_neg (by omega)]
        simp [parseItems]
      · simp at hz; subst hz
        exact hopen 0 0 (by omega) (by omega) acc
  have hk := key 0 r.ranges hwf (by omega)
    (by by_cases h : (0, none) ∈ r.ranges
        · right; exact ⟨rfl, h0 h⟩
        · left; exact h) []
  unfold parseRangeHeader Range.toHeader
  simp only [List.append_assoc, List.singleton_append]
  rw [Py.split1_some '=' r.units _ hu]
  simp only
  rw [Py.splitOn_join ',' _ (by simp [hne]) (by
    intro p hp
    simp only [List.mem_map] at hp
    obtain ⟨⟨b, e⟩, _, rfl⟩ := hp
    cases e <;> simp only [dumpRange] <;> (repeat' split) <;>
      simp [RangeAux.comma_notin_int])]
  rw [hk, hul]
  rfl

example : WellFormed 0 [(0, some 5), (10, some 20), (-5, none)] :=
  .closed _ _ _ _ (by decide) (by decide) (.closed _ _ _ _ (by decide) (by decide) (.suffix _ _ (by decide)))

/-! ### C15 -/

namespace RangeAux

theorem isValid_iff (a b l : Option Int) :
    isByteRangeValid a b l = true ↔ ValidContentRange a b l := by
  unfold ValidContentRange
  cases a <;> cases b <;> cases l <;> simp [isByteRangeValid] <;>
    (try (split <;> simp <;> omega)) <;> omega

theorem mk_ok (u : Option Str) (a b l : Option Int) (c : ContentRange) :
    ContentRange.mk? u a b l = .ok c ↔ ValidContentRange a b l ∧ c = ⟨u, a, b, l⟩ := by
  unfold ContentRange.mk?
  rw [← isValid_iff]
  split
  · rename_i h; simp [h, eq_comm]
  · rename_i h; simp [h]

end RangeAux

/-- The calls `set` and `unset` (as opposed to raw attribute assignment). -/
def RangeAux.Checked : Range.Op → Prop
  | .set .. => True
  | .unset => True
  | _ => False

/-- C15.  A content range built by the constructor and changed by any sequence of `set` and
`unset` calls, including rejected ones, always describes a valid range. -/
theorem C15_content_range_valid (u : Option Str) (a b l : Option Int) (c : ContentRange)
    (h : ContentRange.mk? u a b l = .ok c) (ops : List Range.Op) (hops : ∀ o ∈ ops, RangeAux.Checked o) :
    let c' := ops.foldl ContentRange.step c
    ValidContentRange c'.start c'.stop c'.length := by
  have step : ∀ (c : ContentRange) (o : Range.Op), RangeAux.Checked o →
      ValidContentRange c.start c.stop c.length →
      ValidContentRange (c.step o).start (c.step o).stop (c.step o).length := by
    intro c o ho hc
    cases o with
    | set s e l u =>
      simp only [ContentRange.step]
      split
      · rename_i c' h
        rw [RangeAux.mk_ok] at h; rw [h.2]; exact h.1
      · exact hc
    | unset =>
      simp only [ContentRange.step]
      split
      · rename_i c' h
        rw [RangeAux.mk_ok] at h; rw [h.2]; exact h.1
      · exact hc
    | _ => exact absurd ho (by simp [RangeAux.Checked])
  have base : ValidContentRange c.start c.stop c.length := by
    rw [RangeAux.mk_ok] at h; rw [h.2]; exact h.1
  clear h
  induction ops generalizing c with
  | nil => exact base
  | cons o os ih =>
    simp only [List.foldl_cons]
    exact ih (c.step o) (fun o' ho' => hops o' (by simp [ho'])) (step c o (hops o (by simp)) base)

/-- C15.  The constructor and `set` accept exactly the valid ranges. -/
theorem C15_accepts_iff (u : Option Str) (a b l : Option Int) :
    (∃ c, ContentRange.mk? u a b l = .ok c) ↔ ValidContentRange a b l := by
  constructor
  · rintro ⟨c, h⟩; exact ((RangeAux.mk_ok ..).mp h).1
  · intro h; exact ⟨_, (RangeAux.mk_ok ..).mpr ⟨h, rfl⟩⟩

/-- C15.  A content range made from a requested range never raises, covers exactly the
resolved interval and ends inside the resource. -/
theorem C15_make_content_range (r : Range) (length : Int) :
    ∃ c, r.makeContentRange (some length) = .ok c ∧
      (c = none ↔ r.rangeForLength (some length) = none) ∧
      ∀ c', c = some c' → ∃ a b, r.rangeForLength (some length) = some (a, b) ∧
        c' = ⟨some r.units, some a, some b, some length⟩ ∧ 0 ≤ a ∧ a < b ∧ b ≤ length := by
  unfold Range.makeContentRange
  cases h : r.rangeForLength (some length) with
  | none => exact ⟨none, rfl, by simp, by simp⟩
  | some ab =>
    obtain ⟨a, b⟩ := ab
    have hb := C11_range_in_bounds r length a b h
    refine ⟨some ⟨some r.units, some a, some b, some length⟩, ?_, by simp, ?_⟩
    · have : ContentRange.mk? (some r.units) (some a) (some b) (some length) =
          .ok ⟨some r.units, some a, some b, some length⟩ := by
        rw [RangeAux.mk_ok]
        refine ⟨Or.inr ⟨a, b, rfl, rfl, hb.1, hb.2.1, ?_⟩, rfl⟩
        intro l hl; simp at hl; omega
      simp [this, Except.map]
    · intro c' hc'
      simp at hc'; subst hc'
      exact ⟨a, b, rfl, rfl, hb⟩

/-- C15.  Everything the parser accepts is valid. -/
theorem C15_parsed_valid (value : Str) (c : ContentRange)
    (h : parseContentRangeHeader value = .ok (some c)) :
    ValidContentRange c.start c.stop c.length := by
  have hmap : ∀ u a b l, (ContentRange.mk? u a b l).map some = .ok (some c) →
      ValidContentRange c.start c.stop c.length := by
    intro u a b l h
    cases hm : ContentRange.mk? u a b l with
    | error e => rw [hm] at h; simp [Except.map] at h
    | ok c' =>
      rw [hm] at h; simp [Except.map] at h; subst h
      rw [RangeAux.mk_ok] at hm; rw [hm.2]; exact hm.1
  unfold parseContentRangeHeader at h
  repeat' (first | (split at h) | (dsimp only at h; split at h) | exact hmap _ _ _ _ h | (simp at h; done))

namespace RangeAux

theorem dropWhile_all {α} (p : α → Bool) (a b : List α) (h : ∀ x ∈ a, p x = true) :
    (a ++ b).dropWhile p = b.dropWhile p := by
  induction a with
  | nil => rfl
  | cons x xs ih => simp [h x (by simp), ih (fun y hy => h y (by simp [hy]))]

theorem splitWs1_units (u r : Str) (hu : ∀ c ∈ u, Py.isSpace c = false) (hne : u ≠ [])
    (hr : ∀ c ∈ r, Py.isSpace c = false) (hrne : r ≠ []) :
    splitWs1 (Py.strip (u ++ ' ' :: r)) = some (u, r) := by
  have hst : Py.strip (u ++ ' ' :: r) = u ++ ' ' :: r := by
    apply Py.stripP_id
    · intro c hc
      cases u with
      | nil => exact absurd rfl hne
      | cons x xs => simp at hc; subst hc; exact hu _ (by simp)
    · intro c hc
      have : (u ++ ' ' :: r).getLast? = r.getLast? := by
        rw [List.getLast?_append, List.getLast?_cons]
        cases h : r.getLast? with
        | none => rw [List.getLast?_eq_none_iff] at h; exact absurd h hrne
        | some x => simp
      rw [this] at hc
      exact hr c (List.mem_of_getLast? hc)
  have hl : ∀ s : Str, (∀ c, s.head? = some c → Py.isSpace c = false) → Py.lstrip s = s :=
    fun s h => Py.lstripP_of_head _ s h
  have h1 : Py.lstrip (u ++ ' ' :: r) = u ++ ' ' :: r := by
    apply hl
    intro c hc
    cases u with
    | nil => exact absurd rfl hne
    | cons x xs => simp at hc; subst hc; exact hu _ (by simp)
  have h2 : (u ++ ' ' :: r).dropWhile (fun c => !Py.isSpace c) = ' ' :: r := by
    rw [dropWhile_all _ _ _ (by intro x hx; simp [hu x hx])]
    rw [List.dropWhile_cons_of_neg]; decide
  have h3 : (u ++ ' ' :: r).takeWhile (fun c => !Py.isSpace c) = u := by
    rw [List.takeWhile_append_of_pos (by intro x hx; simp [hu x hx])]
    rw [List.takeWhile_cons_of_neg (by decide)]; simp
  have h4 : Py.lstrip (' ' :: r) = r := by
    have : Py.lstrip (' ' :: r) = Py.lstrip r := Py.lstripP_cons _ _ _ (by decide)
    rw [this]
    apply hl
    intro c hc
    exact hr c (List.mem_of_head? hc)
  simp only [splitWs1, hst, h1, h2, h3, h4, if_neg hrne]

/-- The length part of the header. -/
def lenTxt : Option Int → Str
  | none => s%"*"
  | some l => Py.intStr l

theorem intStr_nat (n : Nat) : Py.intStr (n : Int) = Py.natStr n := rfl

end RangeAux

/-- C15.  Every valid content range whose unit is a token survives serialising and parsing. -/
theorem C15_content_range_roundtrip (u : Str) (a b l : Option Int)
    (hu : ∀ c ∈ u, Py.isSpace c = false) (hne : u ≠ []) (hv : ValidContentRange a b l) :
    ∃ h, ContentRange.toHeader ⟨some u, a, b, l⟩ = some h ∧
      parseContentRangeHeader h = .ok (some ⟨some u, a, b, l⟩) := by
  have hlen : ∀ (len : Str), len = (RangeAux.lenTxt l) →
      (∀ c ∈ len, Py.isSpace c = false) ∧ '/' ∉ len := by
    intro len hlen
    subst hlen
    cases l with
    | none => simp [RangeAux.lenTxt]; decide
    | some l =>
      have hl : 0 ≤ l := by rcases hv with ⟨_, _, h⟩ | ⟨a, b, _, _, h1, h2, h3⟩
                            · exact h l rfl
                            · have := h3 l rfl; omega
      obtain ⟨n, rfl⟩ := Int.eq_ofNat_of_zero_le hl
      exact ⟨RangeAux.noSpaceNat n, Py.natStr_not_mem n '/' (by decide)⟩
  have hlp : ∀ (k : Option Int → Except PyErr (Option ContentRange)),
      (if (RangeAux.lenTxt l) = s%"*" then k none
       else if (RangeAux.lenTxt l) ≠ [] ∧
          (RangeAux.lenTxt l).all isDigit then
        match Py.intOf (RangeAux.lenTxt l) with
        | .ok l => k (some l)
        | .error e => .error e
       else .ok none) = k l := by
    intro k
    cases l with
    | none => simp [RangeAux.lenTxt]
    | some l =>
      have hl : 0 ≤ l := by rcases hv with ⟨_, _, h⟩ | ⟨a, b, _, _, h1, h2, h3⟩
                            · exact h l rfl
                            · have := h3 l rfl; omega
      obtain ⟨n, rfl⟩ := Int.eq_ofNat_of_zero_le hl
      simp only [RangeAux.lenTxt, RangeAux.intStr_nat, Py.intOf_natStr]
      rw [if_neg, if_pos]
      · refine ⟨Py.natStr_ne_nil n, ?_⟩
        rw [List.all_eq_true]
        intro c hc
        have := Py.natStr_digits n c hc
        simp only [Py.IsDig] at this
        simp [isDigit, this]
      · intro h
        exact absurd (show '*' ∈ Py.natStr n by rw [h]; simp) (Py.natStr_not_mem n '*' (by decide))
  obtain ⟨hsp, hsl⟩ := hlen _ rfl
  have hmk : ContentRange.mk? (some u) a b l = .ok ⟨some u, a, b, l⟩ :=
    (RangeAux.mk_ok ..).mpr ⟨hv, rfl⟩
  have hval : isByteRangeValid a b l = true := (RangeAux.isValid_iff ..).mpr hv
  rcases hv with ⟨rfl, rfl, _⟩ | ⟨s, e, rfl, rfl, h1, h2, _⟩
  · refine ⟨u ++ ' ' :: ('*' :: '/' :: (RangeAux.lenTxt l)),
      by cases l <;> simp [ContentRange.toHeader, RangeAux.lenTxt], ?_⟩
    unfold parseContentRangeHeader
    rw [RangeAux.splitWs1_units u _ hu hne (by
      intro c hc
      simp only [List.mem_cons] at hc
      rcases hc with rfl | rfl | hc
      · decide
      · decide
      · exact hsp c hc) (by simp)]
    simp only
    have := Py.split1_some '/' ['*'] (RangeAux.lenTxt l) (by decide)
    rw [List.singleton_append] at this
    rw [this]
    simp only [if_true]
    refine (hlp (fun length => (ContentRange.mk? (some u) none none length).map some)).trans ?_
    simp [hmk, Except.map]
  · obtain ⟨n, rfl⟩ := Int.eq_ofNat_of_zero_le h1
    obtain ⟨m, hm⟩ := Int.eq_ofNat_of_zero_le (show 0 ≤ e - 1 by omega)
    have he : e = (m : Int) + 1 := by omega
    subst he
    refine ⟨u ++ ' ' :: ((Py.natStr n ++ '-' :: Py.natStr m) ++ '/' ::
      (RangeAux.lenTxt l)), ?_, ?_⟩
    · simp only [ContentRange.toHeader, hm, RangeAux.intStr_nat, List.append_assoc,
        List.cons_append, List.nil_append]
      cases l <;> rfl
    · unfold parseContentRangeHeader
      rw [RangeAux.splitWs1_units u _ hu hne (by
        intro c hc
        simp only [List.mem_cons, List.mem_append] at hc
        rcases hc with (hc | rfl | hc) | rfl | hc
        · exact RangeAux.noSpaceNat n c hc
        · decide
        · exact RangeAux.noSpaceNat m c hc
        · decide
        · exact hsp c hc) (by simp)]
      simp only
      rw [Py.split1_some '/' (Py.natStr n ++ '-' :: Py.natStr m) _ (by
        simp only [List.mem_append, List.mem_cons, not_or]
        exact ⟨Py.natStr_not_mem n '/' (by decide), by decide, Py.natStr_not_mem m '/' (by decide)⟩)]
      simp only
      have hstar : Py.natStr n ++ '-' :: Py.natStr m ≠ s%"*" := by
        intro h
        have : '-' ∈ s%"*" := by rw [← h]; simp
        simp at this
      simp only [if_neg hstar, Py.split1_some '-' (Py.natStr n) (Py.natStr m) (RangeAux.dash_notin n),
        Py.intOf_natStr]
      refine (hlp (fun length => if isByteRangeValid (some (n : Int)) (some ((m : Int) + 1)) length = true then
        (ContentRange.mk? (some u) (some (n : Int)) (some ((m : Int) + 1)) length).map some else .ok none)).trans ?_
      simp [hmk, hval, Except.map]

/-- C15 (limits).  Raw attribute assignment is not checked, so it can produce an invalid
range and even one that cannot be serialised; the stop may lie beyond the length; and a
superscript digit as length makes the parser raise. -/
theorem C15_limits :
    (¬ ValidContentRange (some 5) none (some 3) ∧
      (ContentRange.step ⟨some s%"bytes", some 5, some 6, some 9⟩ (.assignStop none)).toHeader = none) ∧
    parseContentRangeHeader s%"bytes 0-9/5" =
      .ok (some ⟨some s%"bytes", some 0, some 10, some 5⟩) ∧
    parseContentRangeHeader s%"bytes 0-9/²" = .error .valueError := by
  refine ⟨⟨?_, by decide⟩, by decide, by decide⟩
  rintro (⟨h, _⟩ | ⟨a, b, _, h, _⟩) <;> simp at h

example : ValidContentRange (some 0) (some 10) (some 20) :=
  Or.inr ⟨0, 10, rfl, rfl, by decide, by decide, by intro l h; cases h; decide⟩
example : RangeAux.Checked (.set (some 3) (some 2) none (some s%"bytes")) := trivial

end Verif.Props
