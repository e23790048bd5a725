import Verif.Props.Accept
import Verif.PyMore
/-!
C70, C71, C72: language and charset ranges, Accept headers as text, qualities
(`/repo/verktyg/accept/`).
-/
namespace Verif.Accept
open Verif Verif.Negotiation

/-! ### Language and charset ranges -/

/-- `value in accept`, _base.py:110-116. -/
def contains (mul : Flt → Flt → Flt) (k : Kind) (v : Str) (os : List Rng) : Except PyErr Bool :=
  match acceptability mul k v none os with
  | .ok _ => .ok true
  | .error .notAcceptable => .ok false
  | .error e => .error e

/-- The subtags of a language tag. -/
def subtags (s : Str) : List Str := Py.splitOn '-' s

theorem splitOn_inj {c : Char} {a b : Str} (h : Py.splitOn c a = Py.splitOn c b) : a = b := by
  rw [← Py.join_splitOn c a, ← Py.join_splitOn c b, h]

theorem join_append (c : Char) : ∀ {a b : List Str}, a ≠ [] → b ≠ [] →
    Py.join [c] (a ++ b) = Py.join [c] a ++ c :: Py.join [c] b
  | [], _, h, _ => absurd rfl h
  | [x], y :: ys, _, _ => by simp [Py.join]
  | [x], [], _, h => absurd rfl h
  | x :: y :: r, b, _, hb => by
    have ih := join_append c (a := y :: r) (b := b) (by simp) hb
    simp only [List.cons_append] at ih ⊢
    simp [Py.join, ih]

/-- Being followed by a hyphen is the same as having further subtags. -/
theorem prefix_iff (r v : Str) : (r ++ s%"-").isPrefixOf v = true ↔ ∃ ts, ts ≠ [] ∧ subtags v = subtags r ++ ts := by
  rw [List.isPrefixOf_iff_prefix]
  constructor
  · rintro ⟨rest, rfl⟩
    refine ⟨subtags rest, Py.splitOn_ne_nil _ _, ?_⟩
    have : r ++ s%"-" ++ rest = r ++ '-' :: rest := by simp
    rw [this]
    exact Py.splitOn_append_sep '-' r rest
  · rintro ⟨ts, hts, h⟩
    refine ⟨Py.join s%"-" ts, ?_⟩
    have := congrArg (Py.join s%"-") h
    unfold subtags at this
    rw [Py.join_splitOn, join_append '-' (Py.splitOn_ne_nil _ _) hts, Py.join_splitOn] at this
    rw [this]
    simp

/-- **C70, language ranges.**  A range matches a tag exactly when its subtags are the first
subtags of the tag, or it is `*`; the match records how many subtags are left over and how
many were given. -/
theorem C70_language_range (v r : Str) : matchOption .language v r =
    if subtags r <+: subtags v then
      .ok [-(((subtags v).length : Int) - (subtags r).length), (subtags r).length]
    else if r = s%"*" then .ok [-((subtags v).length : Int), 0]
    else .error .notAcceptable := by
  simp only [matchOption]
  by_cases h : v = r
  · subst h
    rw [if_pos rfl, if_pos (List.prefix_refl _)]
    simp [subtags]
  · rw [if_neg h]
    by_cases h2 : (r ++ s%"-").isPrefixOf v = true
    · obtain ⟨ts, _, hts⟩ := (prefix_iff r v).1 h2
      rw [if_pos h2, if_pos ⟨ts, hts.symm⟩]
      rfl
    · rw [if_neg h2]
      have : ¬ subtags r <+: subtags v := by
        rintro ⟨ts, hts⟩
        by_cases h0 : ts = []
        · subst h0
          simp at hts
          exact h (splitOn_inj hts).symm
        · exact h2 ((prefix_iff r v).2 ⟨ts, h0, hts.symm⟩)
      rw [if_neg this]
      rfl

theorem bestMatch_total {mul k v} (hk : k ≠ .contentType) : ∀ (os : List Rng) (best : Option Acc),
    ∃ x, bestMatch mul k v none best os = .ok x ∧
      (x = none ↔ best = none ∧ ∀ o ∈ os, matchOption k v o.value = .error .notAcceptable)
  | [], best => ⟨best, rfl, by simp⟩
  | o :: os, best => by
    simp only [bestMatch]
    have hcases : (∃ mq, matchOption k v o.value = .ok mq) ∨ matchOption k v o.value = .error .notAcceptable := by
      cases k with
      | contentType => exact absurd rfl hk
      | language =>
        rw [C70_language_range]
        split
        · exact Or.inl ⟨_, rfl⟩
        · split
          · exact Or.inl ⟨_, rfl⟩
          · exact Or.inr rfl
      | charset =>
        simp only [matchOption]
        split
        · exact Or.inl ⟨_, rfl⟩
        · split
          · exact Or.inl ⟨_, rfl⟩
          · exact Or.inr rfl
    rcases hcases with ⟨mq, h⟩ | h
    · simp only [h]
      cases best with
      | none =>
        obtain ⟨x, e, hx⟩ := bestMatch_total hk os (some ⟨mq, quality mul o.q none⟩)
        exact ⟨x, e, hx.trans (by simp [h])⟩
      | some b =>
        obtain ⟨x, e, hx⟩ := bestMatch_total hk os _
        exact ⟨x, e, hx.trans (by simp)⟩
    · simp only [h]
      obtain ⟨x, e, hx⟩ := bestMatch_total hk os best
      exact ⟨x, e, hx.trans (by simp [h])⟩

theorem contains_total {mul k v os} (hk : k ≠ .contentType) :
    ∃ b, contains mul k v os = .ok b ∧ (b = true ↔ ∃ o ∈ os, matchOption k v o.value ≠ .error .notAcceptable) := by
  obtain ⟨x, e, hx⟩ := bestMatch_total (mul := mul) (v := v) hk os none
  unfold contains acceptability
  rw [e]
  cases x with
  | none =>
    refine ⟨false, rfl, ?_⟩
    have := (hx.1 rfl).2
    simp
    exact this
  | some a =>
    refine ⟨true, rfl, ?_⟩
    simp only [true_iff]
    apply Classical.byContradiction
    intro hn
    have : (some a : Option Acc) = none := hx.2 ⟨rfl, fun o ho => by
      apply Classical.byContradiction
      intro hne
      exact hn ⟨o, ho, hne⟩⟩
    simp at this

/-- **C70, membership.**  `language in accept` holds exactly when some range is `*` or a list
of leading subtags; `charset in accept` exactly when some range is `*` or equal.  Never an
error. -/
theorem C70_membership (mul : Flt → Flt → Flt) (v : Str) (os : List Rng) :
    (∃ b, contains mul .language v os = .ok b ∧
      (b = true ↔ ∃ o ∈ os, o.value = s%"*" ∨ subtags o.value <+: subtags v)) ∧
    (∃ b, contains mul .charset v os = .ok b ∧ (b = true ↔ ∃ o ∈ os, o.value = s%"*" ∨ o.value = v)) := by
  constructor
  · obtain ⟨b, e, h⟩ := contains_total (mul := mul) (v := v) (os := os) (k := .language) (by simp)
    refine ⟨b, e, h.trans ?_⟩
    constructor
    · rintro ⟨o, ho, hm⟩
      refine ⟨o, ho, ?_⟩
      rw [C70_language_range] at hm
      by_cases h1 : subtags o.value <+: subtags v
      · exact Or.inr h1
      · rw [if_neg h1] at hm
        by_cases h2 : o.value = s%"*"
        · exact Or.inl h2
        · rw [if_neg h2] at hm; exact absurd rfl hm
    · rintro ⟨o, ho, hm⟩
      refine ⟨o, ho, ?_⟩
      rw [C70_language_range]
      split
      · simp
      · rename_i h1
        rcases hm with hm | hm
        · rw [if_pos hm]; simp
        · exact absurd hm h1
  · obtain ⟨b, e, h⟩ := contains_total (mul := mul) (v := v) (os := os) (k := .charset) (by simp)
    refine ⟨b, e, h.trans ?_⟩
    constructor
    · rintro ⟨o, ho, hm⟩
      refine ⟨o, ho, ?_⟩
      simp only [matchOption] at hm
      by_cases h1 : o.value = s%"*"
      · exact Or.inl h1
      · rw [if_neg h1] at hm
        by_cases h2 : v = o.value
        · exact Or.inr h2.symm
        · rw [if_neg h2] at hm; exact absurd rfl hm
    · rintro ⟨o, ho, hm⟩
      refine ⟨o, ho, ?_⟩
      simp only [matchOption]
      rcases hm with hm | hm
      · rw [if_pos hm]; simp
      · split
        · simp
        · rw [if_pos hm.symm]; simp

example : contains demoMul .language s%"de-CH-1996" [⟨s%"en", .one, []⟩, ⟨s%"de-CH", .one, []⟩] = .ok true := by
  decide +kernel
example : contains demoMul .language s%"deu" [⟨s%"de", .one, []⟩] = .ok false := by decide +kernel

/-! ### Headers as text -/

/-- A text that survives splitting and stripping. -/
def Clean (s : Str) : Prop := Py.strip s = s ∧ ',' ∉ s ∧ ';' ∉ s

/-- A range that can be written down: what `Range` accepts, with clean parts, parameter names
distinct, without `=` and not `q`. -/
structure Writable (float : Str → Option Flt) (repr : Flt → Str) (k : Kind) (r : Rng) : Prop where
  value : Clean r.value ∧ validValue k r.value = true
  quality : Flt.eq r.q .one = false → Clean (repr r.q) ∧ ∃ x, float (repr r.q) = some x ∧ x.clamp = r.q
  names : (Dict.keys r.params).Nodup ∧ s%"q" ∉ Dict.keys r.params
  params : ∀ p ∈ r.params, Clean p.1 ∧ Clean p.2 ∧ '=' ∉ p.1
  none : k ≠ .contentType → r.params = []

theorem splitOn_items (c : Char) (v : Str) (items : List Str) (hv : c ∉ v) (hi : ∀ i ∈ items, c ∉ i) :
    Py.splitOn c (v ++ items.flatMap (c :: ·)) = v :: items := by
  induction items generalizing v with
  | nil => simpa using Py.splitOn_single c v hv
  | cons i is ih =>
    simp only [List.flatMap_cons, List.cons_append]
    rw [Py.splitOn_append c v _ hv, ih i (hi i (by simp)) fun x hx => hi x (by simp [hx])]

theorem set_fresh {d : List (Str × Str)} {k v : Str} (h : k ∉ Dict.keys d) : Dict.set d k v = d ++ [(k, v)] := by
  induction d with
  | nil => rfl
  | cons p d ih =>
    obtain ⟨a, w⟩ := p
    simp at h
    simp [Dict.set, Ne.symm h.1, ih h.2]

theorem splitParams_items (d ps : List (Str × Str)) (hn : (Dict.keys (d ++ ps)).Nodup)
    (h : ∀ p ∈ ps, Clean p.1 ∧ Clean p.2 ∧ '=' ∉ p.1) :
    splitParams d (ps.map fun p => p.1 ++ '=' :: p.2) = .ok (d ++ ps) := by
  induction ps generalizing d with
  | nil => simp [splitParams]
  | cons p ps ih =>
    obtain ⟨h1, h2, h3⟩ := h p (by simp)
    simp only [List.map_cons, splitParams, Py.split1_some '=' p.1 p.2 h3, h1.1, h2.1]
    have hf : p.1 ∉ Dict.keys d := by
      rw [Dict.keys_append, List.nodup_append] at hn
      intro hm
      exact hn.2.2 p.1 hm p.1 (by simp) rfl
    rw [set_fresh hf, ih (d ++ [(p.1, p.2)]) (by simpa using hn) fun x hx => h x (by simp [hx])]
    simp

theorem get_fresh {d : List (Str × Str)} {k : Str} (h : k ∉ Dict.keys d) : Dict.get d k = none :=
  Dict.get_eq_none.2 h

theorem del_fresh {d : List (Str × Str)} {k : Str} (h : k ∉ Dict.keys d) : Dict.del d k = d := by
  induction d with
  | nil => rfl
  | cons p d ih =>
    obtain ⟨a, w⟩ := p
    simp at h
    simp [Dict.del, Ne.symm h.1, ih h.2]

theorem clean_lit {s : Str} (h : Py.strip s = s ∧ ',' ∉ s ∧ ';' ∉ s) : Clean s := h

theorem clamp_one : Flt.clamp .one = .one := by decide +kernel

theorem eq_one {q : Flt} (h : Flt.eq q .one = true) : q = .one := by
  simp [Flt.eq] at h
  exact h.2

/-- The pieces of a written range. -/
def pieces (repr : Flt → Str) (r : Rng) : List (Str × Str) :=
  (if Flt.eq r.q .one then [] else [(s%"q", repr r.q)]) ++ r.params

theorem rangeHeader_eq (repr : Flt → Str) (r : Rng) : rangeHeader repr r =
    r.value ++ ((pieces repr r).map fun p => p.1 ++ '=' :: p.2).flatMap (';' :: ·) := by
  unfold rangeHeader pieces
  have : r.params.flatMap (fun p => ';' :: p.1 ++ '=' :: p.2) =
      (r.params.map fun p => p.1 ++ '=' :: p.2).flatMap (';' :: ·) := by
    simp [List.flatMap_map]
  rw [this]
  split <;> simp

theorem pieces_clean {float repr k r} (h : Writable float repr k r) :
    ∀ p ∈ pieces repr r, Clean p.1 ∧ Clean p.2 ∧ '=' ∉ p.1 := by
  intro p hp
  unfold pieces at hp
  rcases List.mem_append.1 hp with hp | hp
  · by_cases hq : Flt.eq r.q .one = true
    · rw [if_pos hq] at hp; simp at hp
    · rw [if_neg hq] at hp
      simp at hp
      subst hp
      have hc : Clean s%"q" ∧ '=' ∉ s%"q" := ⟨⟨by decide, by decide, by decide⟩, by decide⟩
      exact ⟨hc.1, (h.quality (by simpa using hq)).1, hc.2⟩
  · exact h.params p hp

theorem pieces_nodup {float repr k r} (h : Writable float repr k r) : (Dict.keys (pieces repr r)).Nodup := by
  unfold pieces
  rw [Dict.keys_append]
  split
  · simpa using h.names.1
  · simp
    exact ⟨h.names.2, h.names.1⟩

theorem splitRange_header {float repr k r} (h : Writable float repr k r) : splitRange (rangeHeader repr r) =
    .ok (r.value, if Flt.eq r.q .one then s%"1.0" else repr r.q, r.params) := by
  unfold splitRange
  rw [rangeHeader_eq, splitOn_items ';' _ _ h.value.1.2.2]
  · simp only
    rw [splitParams_items [] (pieces repr r) (by simpa using pieces_nodup h) (pieces_clean h)]
    simp only [List.nil_append, h.value.1.1]
    unfold pieces
    split
    · simp [get_fresh h.names.2, del_fresh h.names.2]
    · simp [Dict.get, Dict.del]
  · intro i hi
    obtain ⟨p, hp, rfl⟩ := List.mem_map.1 hi
    obtain ⟨h1, h2, _⟩ := pieces_clean h p hp
    simp [h1.2.2, h2.2.2]

theorem mkRange_header {float repr k r} (h : Writable float repr k r) (h1 : float s%"1.0" = some .one) :
    mkRange float k r.value (if Flt.eq r.q .one then s%"1.0" else repr r.q) r.params = .ok r := by
  unfold mkRange
  rw [if_pos h.value.2]
  by_cases hq : Flt.eq r.q .one = true
  · rw [if_pos hq, h1]
    simp only
    rw [if_neg (by rintro ⟨h1, h2⟩; exact h2 (h.none h1)), clamp_one, ← eq_one hq]
  · rw [if_neg hq]
    obtain ⟨_, x, h2, h3⟩ := h.quality (by simpa using hq)
    rw [h2]
    simp only
    rw [if_neg (by rintro ⟨h1, h2⟩; exact h2 (h.none h1)), h3]

theorem rangeHeader_no_comma {float repr k r} (h : Writable float repr k r) : ',' ∉ rangeHeader repr r := by
  rw [rangeHeader_eq]
  intro hm
  rcases List.mem_append.1 hm with hm | hm
  · exact h.value.1.2.1 hm
  · obtain ⟨i, hi, hm⟩ := List.mem_flatMap.1 hm
    obtain ⟨p, hp, rfl⟩ := List.mem_map.1 hi
    obtain ⟨h1, h2, _⟩ := pieces_clean h p hp
    simp [h1.2.1, h2.2.1] at hm

/-- **C71.**  Writing an Accept header and parsing it again gives the same ranges, with their
qualities and parameters in order, provided every part is free of separators and surrounding
space (nothing is quoted).  `repr` is Python's `str` of a float, of which only
`float(repr(q)) = q` is used. -/
theorem C71_roundtrip_partial (float : Str → Option Flt) (repr : Flt → Str) (k : Kind) (rs : List Rng)
    (h1 : float s%"1.0" = some .one) (hne : rs ≠ []) (h : ∀ r ∈ rs, Writable float repr k r) :
    parseAccept float k (toHeader repr rs) = .ok rs := by
  unfold parseAccept toHeader
  rw [Py.splitOn_join ',' _ (by simpa using hne) (by
    intro p hp
    obtain ⟨r, hr, rfl⟩ := List.mem_map.1 hp
    exact rangeHeader_no_comma (h r hr))]
  clear hne
  induction rs with
  | nil => rfl
  | cons r rs ih =>
    have hr := h r (by simp)
    simp only [List.map_cons, parseRanges, splitRange_header hr, mkRange_header hr h1,
      ih fun x hx => h x (by simp [hx])]

/-- The writer used in the example: it is the inverse of `demoFloat` at one half. -/
def demoRepr (_ : Flt) : Str := s%"0.5"

example : Writable demoFloat demoRepr .contentType ⟨s%"text/html", .fin (2 ^ 1073), [(s%"level", s%"1")]⟩ where
  value := ⟨⟨by decide, by decide, by decide⟩, by decide⟩
  quality := fun _ => ⟨⟨by decide, by decide, by decide⟩, .fin (2 ^ 1073), by decide +kernel, by decide +kernel⟩
  names := by decide
  params := by
    intro p hp
    simp at hp
    subst hp
    exact ⟨⟨by decide, by decide, by decide⟩, ⟨by decide, by decide, by decide⟩, by decide⟩
  none := by simp

/-- **C71 fails** for parameters with separators: they are written without quoting. -/
theorem C71_roundtrip_false :
    parseAccept demoFloat .contentType (toHeader demoRepr [⟨s%"text/html", .one, [(s%"title", s%"a,b/c")]⟩])
      = .ok [⟨s%"text/html", .one, [(s%"title", s%"a")]⟩, ⟨s%"b/c", .one, []⟩] := by decide +kernel

/-! ### Qualities -/

theorem clamp_bounds (x : Flt) : x.clamp = .nan ∨ (Flt.le .zero x.clamp = true ∧ Flt.le x.clamp .one = true) := by
  have e : ∀ y : Flt, Flt.lt y .zero = true → Flt.le .zero .zero = true ∧ Flt.le .zero .one = true :=
    fun _ _ => by decide +kernel
  have hone : Flt.lt .one .zero = false ∧ Flt.le .zero .one = true ∧ Flt.le .one .one = true := by decide +kernel
  unfold Flt.clamp
  simp only
  by_cases h : Flt.lt .one x = true
  · rw [if_pos h]
    right
    rw [if_neg (by simp [hone.1])]
    exact hone.2
  · rw [if_neg h]
    by_cases h2 : Flt.lt x .zero = true
    · rw [if_pos h2]; exact Or.inr (e x h2)
    · rw [if_neg h2]
      by_cases hn : x = .nan
      · exact Or.inl hn
      · right
        exact ⟨flt_le_of_not_lt hn (by simp [Flt.zero]) (by simpa using h2),
          flt_le_of_not_lt (by simp [Flt.one]) hn (by simpa using h)⟩

theorem parseRanges_mem {float k} : ∀ (ss : List Str) {rs}, parseRanges float k ss = .ok rs →
    ∀ r ∈ rs, ∃ x, r.q = Flt.clamp x ∧ ∃ t, float t = some x
  | [], rs, h => by simp [parseRanges] at h; subst h; simp
  | s :: ss, rs, h => by
    simp only [parseRanges] at h
    cases h1 : splitRange s with
    | error e => simp [h1] at h
    | ok p =>
      obtain ⟨v, q, ps⟩ := p
      simp only [h1] at h
      cases h2 : mkRange float k v q ps with
      | error e => simp [h2] at h
      | ok r =>
        simp only [h2] at h
        cases h3 : parseRanges float k ss with
        | error e => simp [h3] at h
        | ok rs' =>
          simp [h3] at h
          subst h
          intro r' hr'
          rcases List.mem_cons.1 hr' with rfl | hr'
          · unfold mkRange at h2
            split at h2
            · cases hf : float q with
              | none => simp [hf] at h2
              | some x =>
                simp only [hf] at h2
                split at h2
                · simp at h2
                · simp at h2
                  exact ⟨x, by rw [← h2], q, hf⟩
            · simp at h2
          · exact parseRanges_mem ss h3 r' hr'

/-- **C72.**  Every quality of a parsed header lies between 0 and 1, or is NaN: it is a multiple of `2^-1074`, and
not more than `2^1074` of these. -/
theorem C72_quality_partial (float : Str → Option Flt) (k : Kind) (header : Str) (rs : List Rng)
    (h : parseAccept float k header = .ok rs) :
    ∀ r ∈ rs, r.q = .nan ∨ ∃ n : Nat, r.q = .fin n ∧ n ≤ 2 ^ 1074 := by
  intro r hr
  obtain ⟨x, hx, _⟩ := parseRanges_mem _ h r hr
  rw [hx]
  rcases clamp_bounds x with e | ⟨h1, h2⟩
  · exact .inl e
  · right
    generalize x.clamp = y at h1 h2
    cases y with
    | nan => simp [Flt.le] at h2
    | inf b => cases b <;> simp [Flt.le, Flt.zero, Flt.one] at h1 h2
    | fin n =>
      simp only [Flt.le, Flt.zero, Flt.one, decide_eq_true_eq] at h1 h2
      refine ⟨n.toNat, by rw [Int.toNat_of_nonneg h1], ?_⟩
      have e : ((2 : Int) ^ 1074) = ((2 ^ 1074 : Nat) : Int) := by rw [Int.natCast_pow]; rfl
      rw [e] at h2
      generalize (2 : Nat) ^ 1074 = M at h2 ⊢
      omega

/-- **C72 fails** as stated: `q=nan` is accepted and kept. -/
theorem C72_quality_false : parseAccept demoFloat .contentType s%"text/html;q=nan" = .ok [⟨s%"text/html", .nan, []⟩] := by
  decide +kernel

end Verif.Accept
