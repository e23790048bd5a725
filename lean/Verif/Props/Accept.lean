import Verif.Model.Accept
import Verif.Spec.Negotiation
import Verif.PyLemmas
/-!
C41, C42, C43: content negotiation (`/repo/verktyg/accept/`).
-/
namespace Verif.Accept
open Verif Verif.Negotiation

/-! ### Matching one range -/

theorem slashPair_ok {v a b : Str} : slashPair v = .ok (a, b) ↔ IsMedia v a b := by
  unfold slashPair IsMedia
  constructor
  · intro h
    split at h
    · rename_i x y hs
      simp at h
      obtain ⟨rfl, rfl⟩ := h
      have hj := Py.join_splitOn '/' v
      rw [hs] at hj
      refine ⟨by simpa [Py.join] using hj.symm, ?_, ?_⟩
      · exact Py.splitOn_no_sep '/' v x (by rw [hs]; simp)
      · exact Py.splitOn_no_sep '/' v y (by rw [hs]; simp)
    · simp at h
  · rintro ⟨rfl, ha, hb⟩
    have := Py.splitOn_join '/' (ps := [a, b]) (by simp) (by simp [ha, hb])
    simp only [Py.join] at this
    have e : a ++ ['/'] ++ b = a ++ '/' :: b := by simp
    rw [e] at this
    rw [this]

theorem media_unique {v a b c d : Str} (h1 : IsMedia v a b) (h2 : IsMedia v c d) : a = c ∧ b = d := by
  have := (slashPair_ok.2 h1).symm.trans (slashPair_ok.2 h2)
  simpa using this

theorem partMatch_spec (r v : Str) : (partMatch r v = .ok 1 ∧ r = v) ∨ (partMatch r v = .ok 0 ∧ r ≠ v ∧ r = s%"*") ∨
    (partMatch r v = .error .notAcceptable ∧ r ≠ v ∧ r ≠ s%"*") := by
  unfold partMatch
  by_cases h : r = v
  · simp [h]
  · by_cases h2 : r = s%"*"
    · right; left; exact ⟨by rw [if_neg h, if_pos h2], h, h2⟩
    · right; right; exact ⟨by rw [if_neg h, if_neg h2], h, h2⟩

/-- What one range says about one media type. -/
theorem matchOption_ok {v r : Str} {mq : List Int} (h : matchOption .contentType v r = .ok mq) : Covers r v := by
  simp only [matchOption] at h
  cases hr : slashPair r with
  | error e => simp [hr] at h
  | ok p =>
    obtain ⟨rt, rs⟩ := p
    cases hv : slashPair v with
    | error e => simp [hr, hv] at h
    | ok p =>
      obtain ⟨t, s⟩ := p
      simp only [hr, hv] at h
      refine ⟨rt, rs, t, s, slashPair_ok.1 hr, slashPair_ok.1 hv, ?_, ?_⟩
      · rcases partMatch_spec rt t with ⟨_, h1⟩ | ⟨_, _, h1⟩ | ⟨h1, _, _⟩
        · exact Or.inl h1
        · exact Or.inr h1
        · simp [h1] at h
      · rcases partMatch_spec rt t with ⟨h0, _⟩ | ⟨h0, _, _⟩ | ⟨h0, _, _⟩ <;> simp only [h0] at h
        · rcases partMatch_spec rs s with ⟨_, h1⟩ | ⟨_, _, h1⟩ | ⟨h1, _, _⟩
          · exact Or.inl h1
          · exact Or.inr h1
          · simp [h1] at h
        · rcases partMatch_spec rs s with ⟨_, h1⟩ | ⟨_, _, h1⟩ | ⟨h1, _, _⟩
          · exact Or.inl h1
          · exact Or.inr h1
          · simp [h1] at h
        · simp at h

/-- For well formed ones the answer is a match exactly when the range covers the type. -/
theorem matchOption_media {v r : Str} (hv : ∃ t s, IsMedia v t s) (hr : ∃ t s, IsMedia r t s) :
    (∃ mq, matchOption .contentType v r = .ok mq ∧ Covers r v) ∨
    (matchOption .contentType v r = .error .notAcceptable ∧ ¬ Covers r v) := by
  obtain ⟨t, s, hv⟩ := hv
  obtain ⟨rt, rs, hr⟩ := hr
  have e1 := slashPair_ok.2 hv
  have e2 := slashPair_ok.2 hr
  have hcov : Covers r v → (rt = t ∨ rt = s%"*") ∧ (rs = s ∨ rs = s%"*") := by
    rintro ⟨a, b, c, d, h1, h2, h3, h4⟩
    obtain ⟨rfl, rfl⟩ := media_unique h1 hr
    obtain ⟨rfl, rfl⟩ := media_unique h2 hv
    exact ⟨h3, h4⟩
  by_cases hc : (rt = t ∨ rt = s%"*") ∧ (rs = s ∨ rs = s%"*")
  · left
    have : ∃ mq, matchOption .contentType v r = .ok mq := by
      simp only [matchOption, e1, e2]
      rcases partMatch_spec rt t with ⟨h1, _⟩ | ⟨h1, _, _⟩ | ⟨_, h1, h2⟩
      · rcases partMatch_spec rs s with ⟨h3, _⟩ | ⟨h3, _, _⟩ | ⟨_, h3, h4⟩
        · exact ⟨[1, 1], by simp [h1, h3]⟩
        · exact ⟨[1, 0], by simp [h1, h3]⟩
        · exact absurd hc.2 (by simp [h3, h4])
      · rcases partMatch_spec rs s with ⟨h3, _⟩ | ⟨h3, _, _⟩ | ⟨_, h3, h4⟩
        · exact ⟨[0, 1], by simp [h1, h3]⟩
        · exact ⟨[0, 0], by simp [h1, h3]⟩
        · exact absurd hc.2 (by simp [h3, h4])
      · exact absurd hc.1 (by simp [h1, h2])
    obtain ⟨mq, h⟩ := this
    exact ⟨mq, h, matchOption_ok h⟩
  · right
    refine ⟨?_, fun h => hc (hcov h)⟩
    simp only [matchOption, e1, e2]
    rcases partMatch_spec rt t with ⟨h1, h2⟩ | ⟨h1, _, h2⟩ | ⟨h1, _, _⟩
    · rcases partMatch_spec rs s with ⟨_, h4⟩ | ⟨_, _, h4⟩ | ⟨h3, _, _⟩
      · exact absurd ⟨Or.inl h2, Or.inl h4⟩ hc
      · exact absurd ⟨Or.inl h2, Or.inr h4⟩ hc
      · simp [h1, h3]
    · rcases partMatch_spec rs s with ⟨_, h4⟩ | ⟨_, _, h4⟩ | ⟨h3, _, _⟩
      · exact absurd ⟨Or.inr h2, Or.inl h4⟩ hc
      · exact absurd ⟨Or.inr h2, Or.inr h4⟩ hc
      · simp [h1, h3]
    · simp [h1]

/-! ### Matching all ranges -/

/-- The best match so far, or one of the ranges. -/
theorem bestMatch_ok {mul k v qs} : ∀ (os : List Rng) (best : Option Acc) {a : Acc},
    bestMatch mul k v qs best os = .ok (some a) →
    best = some a ∨ ∃ o ∈ os, ∃ mq, matchOption k v o.value = .ok mq ∧ a = ⟨mq, quality mul o.q qs⟩
  | [], best, a, h => by simp [bestMatch] at h; exact Or.inl h
  | o :: os, best, a, h => by
    simp only [bestMatch] at h
    have lift : ∀ {P : Rng → Prop}, (∃ x ∈ os, P x) → ∃ x ∈ o :: os, P x :=
      fun ⟨x, hx, hp⟩ => ⟨x, by simp [hx], hp⟩
    cases hm : matchOption k v o.value with
    | error e =>
      rw [hm] at h
      cases e
      case notAcceptable =>
        rcases bestMatch_ok os best h with h | h
        · exact Or.inl h
        · exact Or.inr (lift h)
      all_goals simp at h
    | ok mq =>
      rw [hm] at h
      cases best with
      | none =>
        rcases bestMatch_ok os _ h with h | h
        · simp at h; exact Or.inr ⟨o, by simp, mq, hm, h.symm⟩
        · exact Or.inr (lift h)
      | some b =>
        rcases bestMatch_ok os _ h with h | h
        · simp only [Option.some.injEq] at h
          split at h
          · exact Or.inr ⟨o, by simp, mq, hm, h.symm⟩
          · exact Or.inl (by rw [h])
        · exact Or.inr (lift h)

theorem acceptability_ok {mul k v qs os a} (h : acceptability mul k v qs os = .ok a) :
    ∃ o ∈ os, ∃ mq, matchOption k v o.value = .ok mq ∧ a = ⟨mq, quality mul o.q qs⟩ := by
  unfold acceptability at h
  cases hb : bestMatch mul k v qs none os with
  | error e => simp [hb] at h
  | ok x =>
    cases x with
    | none => simp [hb] at h
    | some b =>
      simp [hb] at h
      subst h
      rcases bestMatch_ok os none hb with h | h
      · simp at h
      · exact h

/-- With well formed ranges there is a match exactly when a range covers the type. -/
theorem bestMatch_media {mul v qs} (hv : ∃ t s, IsMedia v t s) : ∀ (os : List Rng) (best : Option Acc),
    (∀ o ∈ os, ∃ t s, IsMedia o.value t s) →
    ∃ x, bestMatch mul .contentType v qs best os = .ok x ∧
      (x = none ↔ best = none ∧ ∀ o ∈ os, ¬ Covers o.value v)
  | [], best, _ => ⟨best, rfl, by simp⟩
  | o :: os, best, h => by
    have hos : ∀ o ∈ os, ∃ t s, IsMedia o.value t s := fun x hx => h x (by simp [hx])
    simp only [bestMatch]
    rcases matchOption_media hv (h o (by simp)) with ⟨mq, h1, h2⟩ | ⟨h1, h2⟩
    · simp only [h1]
      cases best with
      | none =>
        obtain ⟨x, e, hx⟩ := bestMatch_media hv os (some ⟨mq, quality mul o.q qs⟩) hos
        exact ⟨x, e, hx.trans (by simp [h2])⟩
      | some b =>
        obtain ⟨x, e, hx⟩ := bestMatch_media hv os _ hos
        exact ⟨x, e, hx.trans (by simp)⟩
    · simp only [h1]
      obtain ⟨x, e, hx⟩ := bestMatch_media hv os best hos
      refine ⟨x, e, hx.trans ?_⟩
      simp [h2]

theorem acceptability_media {mul v qs os} (hv : ∃ t s, IsMedia v t s) (hos : ∀ o ∈ os, ∃ t s, IsMedia o.value t s) :
    (∃ a, acceptability mul .contentType v qs os = .ok a ∧ ∃ o ∈ os, Covers o.value v) ∨
    (acceptability mul .contentType v qs os = .error .notAcceptable ∧ ∀ o ∈ os, ¬ Covers o.value v) := by
  obtain ⟨x, e, hx⟩ := bestMatch_media (mul := mul) (qs := qs) hv os none hos
  unfold acceptability
  rw [e]
  cases x with
  | none => right; exact ⟨rfl, (hx.1 rfl).2⟩
  | some a =>
    left
    refine ⟨a, rfl, ?_⟩
    by_cases h : ∃ o ∈ os, Covers o.value v
    · exact h
    · have : (some a : Option Acc) = none := hx.2 ⟨rfl, fun o ho hc => h ⟨o, ho, hc⟩⟩
      simp at this

/-! ### Selection -/

theorem selectGo_ok {mul os} : ∀ (rs : List Rep) (best : Option (RepAcc × Rep)) {a r},
    selectGo mul os best rs = .ok (some (a, r)) →
    (best = some (a, r) ∧ ∀ r' ∈ rs, ∀ a', repAcceptability mul r' os = .ok a' → a'.ge a = .ok false) ∨
    ∃ pre post, rs = pre ++ r :: post ∧ repAcceptability mul r os = .ok a ∧
      ∀ r' ∈ post, ∀ a', repAcceptability mul r' os = .ok a' → a'.ge a = .ok false
  | [], best, a, r, h => by simp [selectGo] at h; exact Or.inl ⟨h, by simp⟩
  | x :: xs, best, a, r, h => by
    simp only [selectGo] at h
    have lift : (∃ pre post, xs = pre ++ r :: post ∧ repAcceptability mul r os = .ok a ∧
        ∀ r' ∈ post, ∀ a', repAcceptability mul r' os = .ok a' → a'.ge a = .ok false) →
      ∃ pre post, x :: xs = pre ++ r :: post ∧ repAcceptability mul r os = .ok a ∧
        ∀ r' ∈ post, ∀ a', repAcceptability mul r' os = .ok a' → a'.ge a = .ok false :=
      fun ⟨pre, post, e, h⟩ => ⟨x :: pre, post, by rw [e]; rfl, h⟩
    cases hx : repAcceptability mul x os with
    | error e =>
      rw [hx] at h
      cases e
      case notAcceptable =>
        rcases selectGo_ok xs best h with ⟨h1, h2⟩ | h
        · left
          refine ⟨h1, ?_⟩
          intro r' hr' a' ha'
          rcases List.mem_cons.1 hr' with rfl | hr'
          · rw [hx] at ha'; simp at ha'
          · exact h2 r' hr' a' ha'
        · exact Or.inr (lift h)
      all_goals simp at h
    | ok ax =>
      rw [hx] at h
      have fresh : ∀ {b}, selectGo mul os (some (ax, x)) xs = .ok (some (a, r)) → b ∨
          ∃ pre post, x :: xs = pre ++ r :: post ∧ repAcceptability mul r os = .ok a ∧
            ∀ r' ∈ post, ∀ a', repAcceptability mul r' os = .ok a' → a'.ge a = .ok false := by
        intro b h
        rcases selectGo_ok xs _ h with ⟨h1, h2⟩ | h
        · simp at h1
          obtain ⟨rfl, rfl⟩ := h1
          exact Or.inr ⟨[], xs, rfl, hx, h2⟩
        · exact Or.inr (lift h)
      cases best with
      | none => exact fresh h
      | some p =>
        obtain ⟨b, r0⟩ := p
        simp only at h
        cases hg : ax.ge b with
        | error e => simp [hg] at h
        | ok t =>
          cases t with
          | true => rw [hg] at h; exact fresh h
          | false =>
            rw [hg] at h
            rcases selectGo_ok xs _ h with ⟨h1, h2⟩ | h
            · left
              refine ⟨h1, ?_⟩
              simp at h1
              obtain ⟨rfl, rfl⟩ := h1
              intro r' hr' a' ha'
              rcases List.mem_cons.1 hr' with rfl | hr'
              · rw [hx] at ha'; simp at ha'; rw [← ha']; exact hg
              · exact h2 r' hr' a' ha'
            · exact Or.inr (lift h)

/-- The list form of the selection. -/
theorem selectParsed_ok {mul os reps r} (h : selectParsed mul os reps = .ok r) :
    ∃ a pre post, reps = pre ++ r :: post ∧ repAcceptability mul r os = .ok a ∧
      ∀ r' ∈ post, ∀ a', repAcceptability mul r' os = .ok a' → a'.ge a = .ok false := by
  unfold selectParsed at h
  cases hg : selectGo mul os none reps with
  | error e => simp [hg] at h
  | ok x =>
    cases x with
    | none => simp [hg] at h
    | some p =>
      obtain ⟨a, r'⟩ := p
      simp [hg] at h
      subst h
      rcases selectGo_ok reps none hg with ⟨h1, _⟩ | ⟨pre, post, h⟩
      · simp at h1
      · exact ⟨a, pre, post, h⟩

theorem select_parsed {float mul reps accept language charset r}
    (h : select float mul reps accept language charset = .ok r) :
    ∃ os, parseAccept float .contentType (accept.getD s%"*/*") = .ok os ∧ selectParsed mul os reps = .ok r := by
  unfold select at h
  cases h1 : parseAccept float .contentType (accept.getD s%"*/*") with
  | error e => simp [h1] at h
  | ok os =>
    rw [h1] at h
    refine ⟨os, rfl, ?_⟩
    cases h2 : parseAccept float .language (language.getD s%"*") with
    | error e => simp [h2] at h
    | ok _ =>
      cases h3 : parseAccept float .charset (charset.getD s%"*") with
      | error e => simp [h2, h3] at h
      | ok _ => simpa [h2, h3] using h

/-- **C41, soundness.**  Whatever is offered and whatever the headers say: the representation
returned is one of those offered, and if it has a content type, a range of the Accept header
covers it. -/
theorem C41_sound (float : Str → Option Flt) (mul : Flt → Flt → Flt) (reps : List Rep)
    (accept language charset : Option Str) (r : Rep)
    (h : select float mul reps accept language charset = .ok r) :
    r ∈ reps ∧ ∀ v qs, r.contentType = some (v, qs) →
      ∃ os, parseAccept float .contentType (accept.getD s%"*/*") = .ok os ∧ ∃ o ∈ os, Covers o.value v := by
  obtain ⟨os, hp, hs⟩ := select_parsed h
  obtain ⟨a, pre, post, e, hr, _⟩ := selectParsed_ok hs
  refine ⟨by rw [e]; simp, ?_⟩
  intro v qs hv
  refine ⟨os, hp, ?_⟩
  unfold repAcceptability at hr
  rw [hv] at hr
  simp only at hr
  cases ha : acceptability mul .contentType v qs os with
  | error e => simp [ha] at hr
  | ok x =>
    obtain ⟨o, ho, mq, hm, _⟩ := acceptability_ok ha
    exact ⟨o, ho, matchOption_ok hm⟩

/-- Offered with a well formed content type or none, and without language and charset. -/
def Plain (r : Rep) : Prop :=
  r.language = none ∧ r.charset = none ∧ ∀ v qs, r.contentType = some (v, qs) → ∃ t s, IsMedia v t s

/-- A range covers the content type, if there is one. -/
def Acceptable (os : List Rng) (r : Rep) : Prop :=
  ∀ v qs, r.contentType = some (v, qs) → ∃ o ∈ os, Covers o.value v

theorem repAcceptability_plain {mul os} {r : Rep} (hr : Plain r) (hos : ∀ o ∈ os, ∃ t s, IsMedia o.value t s) :
    (∃ a, repAcceptability mul r os = .ok ⟨a, none, false, r.qs⟩ ∧ (a = none ↔ r.contentType = none) ∧ Acceptable os r) ∨
    (repAcceptability mul r os = .error .notAcceptable ∧ ¬ Acceptable os r) := by
  obtain ⟨h1, h2, h3⟩ := hr
  unfold repAcceptability Acceptable
  cases hc : r.contentType with
  | none => left; exact ⟨none, by simp [h1, h2], by simp, by simp⟩
  | some p =>
    obtain ⟨v, qs⟩ := p
    rcases acceptability_media (mul := mul) (qs := qs) (h3 v qs hc) hos with ⟨a, e, ho⟩ | ⟨e, ho⟩
    · left
      refine ⟨some a, by simp [e, h1, h2], by simp, ?_⟩
      intro v' qs' h
      simp at h
      rw [← h.1]
      exact ho
    · right
      refine ⟨by simp [e], ?_⟩
      intro h
      obtain ⟨o, ho', hc⟩ := h v qs rfl
      exact ho o ho' hc

theorem ge_plain {a b : RepAcc} (ha : a.charset = false) (hb : b.charset = false) : ∃ t, a.ge b = .ok t := by
  unfold RepAcc.ge RepAcc.gt
  simp only [ha, hb]
  by_cases h1 : optGt a.contentType b.contentType = true
  · exact ⟨true, by rw [if_pos h1]⟩
  · rw [if_neg h1]
    by_cases h2 : optGt a.language b.language = true
    · exact ⟨true, by rw [if_pos h2]⟩
    · rw [if_neg h2]
      simp only [Bool.or_self, Bool.false_eq_true, if_false]
      cases !(Flt.le a.qs b.qs) with
      | true => exact ⟨true, rfl⟩
      | false => exact ⟨a.eq b, rfl⟩

theorem selectGo_plain {mul os} (hos : ∀ o ∈ os, ∃ t s, IsMedia o.value t s) : ∀ (rs : List Rep) (best : Option (RepAcc × Rep)),
    (∀ r ∈ rs, Plain r) → (∀ b r, best = some (b, r) → b.charset = false) →
    ∃ x, selectGo mul os best rs = .ok x ∧ (x = none ↔ best = none ∧ ∀ r ∈ rs, ¬ Acceptable os r)
  | [], best, _, _ => ⟨best, rfl, by simp⟩
  | r :: rs, best, h, hb => by
    have hrs : ∀ r ∈ rs, Plain r := fun x hx => h x (by simp [hx])
    simp only [selectGo]
    rcases repAcceptability_plain (mul := mul) (h r (by simp)) hos with ⟨a, e, _, hacc⟩ | ⟨e, hacc⟩
    · simp only [e]
      cases best with
      | none =>
        obtain ⟨x, e, hx⟩ := selectGo_plain hos rs (some (⟨a, none, false, r.qs⟩, r)) hrs
          (by intro b r h; simp at h; rw [← h.1])
        exact ⟨x, e, hx.trans (by simp [hacc])⟩
      | some p =>
        obtain ⟨b, r0⟩ := p
        have hbc := hb b r0 rfl
        obtain ⟨t, ht⟩ := ge_plain (a := ⟨a, none, false, r.qs⟩) (b := b) rfl hbc
        simp only [ht]
        cases t with
        | true =>
          obtain ⟨x, e, hx⟩ := selectGo_plain hos rs (some (⟨a, none, false, r.qs⟩, r)) hrs
            (by intro b r h; simp at h; rw [← h.1])
          exact ⟨x, e, hx.trans (by simp)⟩
        | false =>
          obtain ⟨x, e, hx⟩ := selectGo_plain hos rs (some (b, r0)) hrs
            (by intro b' r' h; simp at h; rw [← h.1]; exact hbc)
          exact ⟨x, e, hx.trans (by simp)⟩
    · simp only [e]
      obtain ⟨x, e, hx⟩ := selectGo_plain hos rs best hrs hb
      refine ⟨x, e, hx.trans ?_⟩
      simp [hacc]

/-- **C41, completeness.**  If all ranges are well formed and the representations offered have
well formed content types (or none), no language and no charset, something is returned exactly
when something is acceptable, and otherwise `NotAcceptable` is raised. -/
theorem C41_complete_partial (mul : Flt → Flt → Flt) (os : List Rng) (reps : List Rep)
    (hos : ∀ o ∈ os, ∃ t s, IsMedia o.value t s) (hreps : ∀ r ∈ reps, Plain r) :
    (∃ r ∈ reps, selectParsed mul os reps = .ok r ∧ Acceptable os r) ∨
    (selectParsed mul os reps = .error .notAcceptable ∧ ∀ r ∈ reps, ¬ Acceptable os r) := by
  obtain ⟨x, e, hx⟩ := selectGo_plain (mul := mul) hos reps none hreps (by simp)
  cases x with
  | none => right; exact ⟨by simp [selectParsed, e], (hx.1 rfl).2⟩
  | some p =>
    obtain ⟨a, r⟩ := p
    left
    have hs : selectParsed mul os reps = .ok r := by simp [selectParsed, e]
    obtain ⟨a', pre, post, he, hr, _⟩ := selectParsed_ok hs
    have hmem : r ∈ reps := by rw [he]; simp
    refine ⟨r, hmem, hs, ?_⟩
    rcases repAcceptability_plain (mul := mul) (hreps r hmem) hos with ⟨_, _, _, h⟩ | ⟨h, _⟩
    · exact h
    · rw [h] at hr; simp at hr

/-- `float` on the texts used in the examples below. -/
def demoFloat (s : Str) : Option Flt :=
  if s = s%"1.0" ∨ s = s%"1" then some .one
  else if s = s%"0" then some .zero
  else if s = s%"0.5" then some (.fin (2 ^ 1073))
  else if s = s%"0.9" then some (.fin (8106479329266893 * 2 ^ 1021))
  else if s = s%"nan" then some .nan
  else none

/-- A stand-in for the product of doubles, not used when offers have no quality of their own. -/
def demoMul (a _ : Flt) : Flt := a

/-- An offered content type. -/
def offer (id : Nat) (ct : Str) : Rep := ⟨id, some (ct, none), none, none, .one⟩

example : select demoFloat demoMul [offer 0 s%"text/html", offer 1 s%"application/json"]
    (some s%"application/json, text/*;q=0.5") none none = .ok (offer 1 s%"application/json") := by decide +kernel

example : select demoFloat demoMul [offer 0 s%"text/html"] (some s%"image/png") none none
    = .error .notAcceptable := by decide +kernel

/-- **C41 fails** in full: Accept-Language and Accept-Charset are ignored; an offered language
without content type raises `AttributeError`; two offered charsets raise `TypeError`; a header
with an additional slash or an empty header raises `ValueError`. -/
theorem C41_complete_false (mul : Flt → Flt → Flt) :
    (∃ r, r.language = some s%"de" ∧ select demoFloat mul [r] none (some s%"en") none = .ok r) ∧
    (∃ r, r.charset = some s%"utf-8" ∧ select demoFloat mul [r] none none (some s%"latin1") = .ok r) ∧
    (∃ r, r.language = some s%"de" ∧ select demoFloat mul [r] none (some s%"de") none = .error .attributeError) ∧
    (∃ r r', select demoFloat mul [r, r'] none none (some s%"utf-8") = .error .typeError) ∧
    (∃ r h, select demoFloat mul [r] (some h) none none = .error .valueError ∧
      select demoFloat mul [r] (some []) none none = .error .valueError) := by
  refine ⟨⟨⟨0, some (s%"text/html", none), some s%"de", none, .one⟩, rfl, by rfl⟩,
    ⟨⟨0, some (s%"text/html", none), none, some s%"utf-8", .one⟩, rfl, by rfl⟩,
    ⟨⟨0, none, some s%"de", none, .one⟩, rfl, by rfl⟩,
    ⟨⟨0, none, none, some s%"utf-8", .one⟩, ⟨1, none, none, some s%"utf-8", .one⟩, by rfl⟩,
    ⟨offer 0 s%"text/html", s%"text/html/x", by rfl, by rfl⟩⟩

/-! ### The best one -/

/-- **C42, what holds always.**  Every acceptable representation offered after the selected one
compares as worse: it is not `>=`. -/
theorem C42_later_partial (mul : Flt → Flt → Flt) (os : List Rng) (reps : List Rep) (r : Rep)
    (h : selectParsed mul os reps = .ok r) : ∃ a pre post, reps = pre ++ r :: post ∧
      repAcceptability mul r os = .ok a ∧
      ∀ r' ∈ post, ∀ a', repAcceptability mul r' os = .ok a' → a'.ge a = .ok false :=
  selectParsed_ok h

/-- No wildcard range, all qualities numbers. -/
def ConcreteRanges (os : List Rng) : Prop := ∀ o ∈ os, Concrete o.value ∧ o.q ≠ .nan

theorem covers_concrete {r v : Str} (hr : Concrete r) (h : Covers r v) : r = v := by
  obtain ⟨rt, rs, h1, h2, h3⟩ := hr
  obtain ⟨a, b, c, d, k1, k2, k3, k4⟩ := h
  obtain ⟨rfl, rfl⟩ := media_unique h1 k1
  rw [k1.1, k2.1]
  rcases k3 with rfl | k3
  · rcases k4 with rfl | k4
    · rfl
    · exact absurd k4 h3
  · exact absurd k3 h2

theorem matchOption_concrete {r v : Str} (hr : Concrete r) {mq} (h : matchOption .contentType v r = .ok mq) :
    r = v ∧ mq = [1, 1] := by
  have e := covers_concrete hr (matchOption_ok h)
  refine ⟨e, ?_⟩
  subst e
  obtain ⟨rt, rs, h1, _, _⟩ := hr
  simp only [matchOption, slashPair_ok.2 h1, partMatch, if_true, Except.ok.injEq] at h
  exact h.symm

theorem matchOption_self {v : Str} (hv : Concrete v) : matchOption .contentType v v = .ok [1, 1] := by
  obtain ⟨rt, rs, h1, _, _⟩ := hv
  simp [matchOption, slashPair_ok.2 h1, partMatch]

theorem flt_le_of_not_lt {a b : Flt} (ha : a ≠ .nan) (hb : b ≠ .nan) (h : Flt.lt a b = false) : Flt.le b a = true := by
  cases a <;> cases b <;> simp_all [Flt.lt, Flt.le]
  · rename_i x y
    cases x <;> cases y <;> simp_all [Flt.lt, Flt.le]
  · rename_i x y
    cases x <;> simp_all [Flt.lt]

theorem flt_le_trans {a b c : Flt} (h1 : Flt.le a b = true) (h2 : Flt.le b c = true) : Flt.le a c = true := by
  cases a with
  | nan => simp [Flt.le] at h1
  | inf x =>
    cases b with
    | nan => cases x <;> simp [Flt.le] at h1
    | inf y =>
      cases c with
      | nan => cases y <;> simp [Flt.le] at h2
      | inf z => cases x <;> cases y <;> cases z <;> simp_all [Flt.le]
      | fin z => cases x <;> cases y <;> simp_all [Flt.le]
    | fin y =>
      cases c with
      | nan => simp [Flt.le] at h2
      | inf z => cases x <;> cases z <;> simp_all [Flt.le]
      | fin z => cases x <;> simp_all [Flt.le]
  | fin x =>
    cases b with
    | nan => simp [Flt.le] at h1
    | inf y =>
      cases c with
      | nan => cases y <;> simp [Flt.le] at h2
      | inf z => cases y <;> cases z <;> simp_all [Flt.le]
      | fin z => cases y <;> simp_all [Flt.le]
    | fin y =>
      cases c with
      | nan => simp [Flt.le] at h2
      | inf z => cases z <;> simp_all [Flt.le]
      | fin z => simp_all [Flt.le]; omega

theorem flt_le_of_lt {a b : Flt} (h : Flt.lt a b = true) : Flt.le a b = true := by
  cases a with
  | nan => simp [Flt.lt] at h
  | inf x =>
    cases b with
    | nan => cases x <;> simp [Flt.lt] at h
    | inf y => cases x <;> cases y <;> simp_all [Flt.lt, Flt.le]
    | fin y => cases x <;> simp_all [Flt.lt, Flt.le]
  | fin x =>
    cases b with
    | nan => simp [Flt.lt] at h
    | inf y => cases y <;> simp_all [Flt.lt, Flt.le]
    | fin y => simp_all [Flt.lt, Flt.le]; omega

theorem flt_le_refl {a : Flt} (h : a ≠ .nan) : Flt.le a a = true := by
  cases a with
  | nan => exact absurd rfl h
  | inf x => cases x <;> rfl
  | fin x => simp [Flt.le]

/-- With concrete ranges the best match of a type is its largest quality. -/
theorem bestMatch_concrete {mul v qs} : ∀ (os : List Rng) (best : Option Acc), ConcreteRanges os →
    (∀ o ∈ os, quality mul o.q qs ≠ .nan) →
    (∀ b, best = some b → b.mq = [1, 1] ∧ b.quality ≠ .nan) → ∀ a,
    bestMatch mul .contentType v qs best os = .ok (some a) →
    a.mq = [1, 1] ∧ a.quality ≠ .nan ∧ (∀ b, best = some b → Flt.le b.quality a.quality = true) ∧
      ∀ o ∈ os, o.value = v → Flt.le (quality mul o.q qs) a.quality = true
  | [], best, _, _, hb, a, h => by
    simp [bestMatch] at h
    obtain ⟨h1, h2⟩ := hb a h
    refine ⟨h1, h2, ?_, by simp⟩
    intro b hb'
    rw [h] at hb'
    simp at hb'
    rw [← hb']
    exact flt_le_refl h2
  | o :: os, best, hos, hN, hb, a, h => by
    have hos' : ConcreteRanges os := fun x hx => hos x (by simp [hx])
    have hN' : ∀ x ∈ os, quality mul x.q qs ≠ .nan := fun x hx => hN x (by simp [hx])
    have hc := (hos o (by simp)).1
    have hq := hN o (by simp)
    simp only [bestMatch] at h
    cases hm : matchOption .contentType v o.value with
    | error e =>
      rw [hm] at h
      cases e
      case notAcceptable =>
        obtain ⟨h1, h2, h3, h4⟩ := bestMatch_concrete os best hos' hN' hb a h
        refine ⟨h1, h2, h3, ?_⟩
        intro x hx hv
        rcases List.mem_cons.1 hx with rfl | hx
        · rw [← hv, matchOption_self hc] at hm; simp at hm
        · exact h4 x hx hv
      all_goals simp at h
    | ok mq =>
      obtain ⟨_, rfl⟩ := matchOption_concrete hc hm
      rw [hm] at h
      have key : ∀ {c : Acc}, c.mq = [1, 1] → c.quality ≠ .nan → Flt.le (quality mul o.q qs) c.quality = true →
          (∀ b, best = some b → Flt.le b.quality c.quality = true) →
          bestMatch mul .contentType v qs (some c) os = .ok (some a) →
          a.mq = [1, 1] ∧ a.quality ≠ .nan ∧ (∀ b, best = some b → Flt.le b.quality a.quality = true) ∧
            ∀ x ∈ o :: os, x.value = v → Flt.le (quality mul x.q qs) a.quality = true := by
        intro c c1 c2 c3 c4 h
        obtain ⟨h1, h2, h3, h4⟩ := bestMatch_concrete os (some c) hos' hN'
          (by intro b hb; simp at hb; rw [← hb]; exact ⟨c1, c2⟩) a h
        have h5 := h3 c rfl
        refine ⟨h1, h2, fun b hb => flt_le_trans (c4 b hb) h5, ?_⟩
        intro x hx hv
        rcases List.mem_cons.1 hx with rfl | hx
        · exact flt_le_trans c3 h5
        · exact h4 x hx hv
      cases best with
      | none => exact key (c := ⟨[1, 1], quality mul o.q qs⟩) rfl hq (flt_le_refl hq) (by simp) h
      | some b =>
        obtain ⟨b1, b2⟩ := hb b rfl
        simp only at h
        by_cases hg : Acc.gt ⟨[1, 1], quality mul o.q qs⟩ b = true
        · rw [if_pos hg] at h
          refine key (c := ⟨[1, 1], quality mul o.q qs⟩) rfl hq (flt_le_refl hq) ?_ h
          intro b' hb'
          simp at hb'
          subst hb'
          simp only [Acc.gt, b1, tupleGt, Bool.or_eq_true] at hg
          simp at hg
          exact flt_le_of_lt hg
        · rw [if_neg hg] at h
          refine key b1 b2 ?_ ?_ h
          · simp only [Acc.gt, b1, tupleGt, Bool.or_eq_true] at hg
            simp at hg
            exact flt_le_of_not_lt b2 hq hg
          · intro b' hb'
            simp at hb'
            rw [← hb']
            exact flt_le_refl b2

/-- What an offer counts for: the quality the client lists, times the quality the server gives
the type when it gives one. -/
def Counts (mul : Flt → Flt → Flt) (q : Flt) : Option Flt → Flt
  | none => q
  | some x => mul q x

theorem quality_counts (mul : Flt → Flt → Flt) (q : Flt) (qs : Option Flt) : quality mul q qs = Counts mul q qs := by
  cases qs <;> rfl

/-- Offered with a content type only, whose server side quality, if any, multiplies with every
listed quality to a number. -/
def Simple (mul : Flt → Flt → Flt) (os : List Rng) (r : Rep) : Prop :=
  ∃ v qs, (∃ t s, IsMedia v t s) ∧ r = ⟨r.id, some (v, qs), none, none, .one⟩ ∧ ∀ o ∈ os, Counts mul o.q qs ≠ .nan

theorem repAcceptability_simple {mul os} {r : Rep} (hr : Simple mul os r) (hos : ConcreteRanges os) {a}
    (h : repAcceptability mul r os = .ok a) :
    ∃ v qs q, r.contentType = some (v, qs) ∧ a = ⟨some ⟨[1, 1], q⟩, none, false, .one⟩ ∧ q ≠ .nan ∧
      (∃ o ∈ os, o.value = v ∧ Counts mul o.q qs = q) ∧ ∀ o ∈ os, o.value = v → Flt.le (Counts mul o.q qs) q = true := by
  obtain ⟨v, qs, hm, hr, hN⟩ := hr
  rw [hr] at h
  simp only [repAcceptability] at h
  cases ha : acceptability mul .contentType v qs os with
  | error e => simp [ha] at h
  | ok x =>
    simp [ha] at h
    obtain ⟨o, ho, mq, hmo, hx⟩ := acceptability_ok ha
    obtain ⟨e1, e2⟩ := matchOption_concrete (hos o ho).1 hmo
    unfold acceptability at ha
    cases hb : bestMatch mul .contentType v qs none os with
    | error e => simp [hb] at ha
    | ok y =>
      cases y with
      | none => simp [hb] at ha
      | some z =>
        simp [hb] at ha
        subst ha
        obtain ⟨h1, h2, _, h4⟩ := bestMatch_concrete os none hos
          (fun o ho => by rw [quality_counts]; exact hN o ho) (by simp) z hb
        simp only [quality_counts] at h4 hx
        refine ⟨v, qs, z.quality, by rw [hr], ?_, h2, ⟨o, ho, e1, by rw [hx]⟩, h4⟩
        rw [← h, ← h1]

/-- A quality can be compared with another one of the same match. -/
theorem ge_simple (q q' : Flt) (hq : q ≠ .nan) (hq' : q' ≠ .nan) :
    (RepAcc.ge ⟨some ⟨[1, 1], q'⟩, none, false, .one⟩ ⟨some ⟨[1, 1], q⟩, none, false, .one⟩ = .ok true ∧ Flt.le q q' = true) ∨
    (RepAcc.ge ⟨some ⟨[1, 1], q'⟩, none, false, .one⟩ ⟨some ⟨[1, 1], q⟩, none, false, .one⟩ = .ok false ∧ Flt.le q' q = true) := by
  have h1 : Flt.le .one .one = true := by decide +kernel
  have h2 : Flt.eq .one .one = true := by decide +kernel
  cases h : Flt.lt q q' with
  | true =>
    left
    exact ⟨by simp [RepAcc.ge, RepAcc.gt, optGt, Acc.gt, tupleGt, h], flt_le_of_lt h⟩
  | false =>
    have hle := flt_le_of_not_lt hq hq' h
    by_cases he : q' = q
    · left
      subst he
      refine ⟨?_, flt_le_refl hq⟩
      have h3 : Flt.eq q' q' = true := by simp [Flt.eq, hq]
      simp [RepAcc.ge, RepAcc.gt, optGt, Acc.gt, tupleGt, h, h1, RepAcc.eq, optEq, Acc.eq, h2, h3]
    · right
      refine ⟨?_, hle⟩
      have h3 : Flt.eq q' q = false := by simp [Flt.eq, he]
      simp [RepAcc.ge, RepAcc.gt, optGt, Acc.gt, tupleGt, h, h1, RepAcc.eq, optEq, Acc.eq, h3]

theorem selectGo_simple {mul os} (hos : ConcreteRanges os) : ∀ (rs : List Rep) (q0 : Flt) (r0 : Rep),
    (∀ r ∈ rs, Simple mul os r) → q0 ≠ .nan → ∀ a r,
    selectGo mul os (some (⟨some ⟨[1, 1], q0⟩, none, false, .one⟩, r0)) rs = .ok (some (a, r)) →
    ∃ q, a = ⟨some ⟨[1, 1], q⟩, none, false, .one⟩ ∧ Flt.le q0 q = true ∧
      ∀ r' ∈ rs, ∀ v qs, r'.contentType = some (v, qs) → ∀ o ∈ os, o.value = v → Flt.le (Counts mul o.q qs) q = true
  | [], q0, r0, _, hq, a, r, h => by
    simp [selectGo] at h
    exact ⟨q0, h.1.symm, flt_le_refl hq, by simp⟩
  | x :: xs, q0, r0, hrs, hq, a, r, h => by
    have hxs : ∀ r ∈ xs, Simple mul os r := fun y hy => hrs y (by simp [hy])
    simp only [selectGo] at h
    have hxs' := hrs x (by simp)
    cases hx : repAcceptability mul x os with
    | error e =>
      rw [hx] at h
      cases e
      case notAcceptable =>
        obtain ⟨q, e1, e2, e3⟩ := selectGo_simple hos xs q0 r0 hxs hq a r h
        refine ⟨q, e1, e2, ?_⟩
        intro r' hr' v qs hv o ho hov
        rcases List.mem_cons.1 hr' with rfl | hr'
        · -- it would have been acceptable
          obtain ⟨w, qw, hw, hr', _⟩ := hxs'
          have hvw : v = w := by rw [hr'] at hv; simp at hv; exact hv.1.symm
          subst hvw
          have hcov : Covers o.value v := by
            obtain ⟨t, s, hm⟩ := hw
            exact ⟨t, s, t, s, hov ▸ hm, hm, Or.inl rfl, Or.inl rfl⟩
          have := acceptability_media (mul := mul) (qs := qw) (os := os) hw
            (fun o ho => by obtain ⟨a, b, h, _⟩ := (hos o ho).1; exact ⟨a, b, h⟩)
          rcases this with ⟨y, hy, _⟩ | ⟨_, hn⟩
          · rw [hr'] at hx; simp [repAcceptability, hy] at hx
          · exact absurd hcov (hn o ho)
        · exact e3 r' hr' v qs hv o ho hov
      all_goals simp at h
    | ok ax =>
      obtain ⟨v, qv, q', hv, rfl, hq', _, hmax⟩ := repAcceptability_simple hxs' hos hx
      rw [hx] at h
      have fin : ∀ q, (∀ r' ∈ xs, ∀ v qs, r'.contentType = some (v, qs) → ∀ o ∈ os, o.value = v → Flt.le (Counts mul o.q qs) q = true) →
          Flt.le q' q = true → ∀ r' ∈ x :: xs, ∀ v qs, r'.contentType = some (v, qs) →
            ∀ o ∈ os, o.value = v → Flt.le (Counts mul o.q qs) q = true := by
        intro q h1 h2 r' hr' w qw hw o ho hov
        rcases List.mem_cons.1 hr' with rfl | hr'
        · rw [hv] at hw
          simp at hw
          obtain ⟨rfl, rfl⟩ := hw
          exact flt_le_trans (hmax o ho hov) h2
        · exact h1 r' hr' w qw hw o ho hov
      simp only at h
      rcases ge_simple q0 q' hq hq' with ⟨hg, hl⟩ | ⟨hg, hl⟩
      · rw [hg] at h
        obtain ⟨q, e1, e2, e3⟩ := selectGo_simple hos xs q' x hxs hq' a r h
        exact ⟨q, e1, flt_le_trans hl e2, fin q e3 e2⟩
      · rw [hg] at h
        obtain ⟨q, e1, e2, e3⟩ := selectGo_simple hos xs q0 r0 hxs hq a r h
        exact ⟨q, e1, e2, fin q e3 (flt_le_trans hl e2)⟩

/-- **C42, with concrete ranges.**  When the Accept header lists media types without wildcards
and the offers differ only in content type, each with or without a quality of its own (the
`qs` of the type), the selected one counts for at least as much as every offered type: what an
offer counts for is the quality listed by the client times that of the server. -/
theorem C42_concrete_partial (mul : Flt → Flt → Flt) (os : List Rng) (reps : List Rep) (r : Rep)
    (hos : ConcreteRanges os) (hreps : ∀ r ∈ reps, Simple mul os r) (h : selectParsed mul os reps = .ok r) :
    ∃ v qs q, r.contentType = some (v, qs) ∧ (∃ o ∈ os, o.value = v ∧ Counts mul o.q qs = q) ∧
      ∀ r' ∈ reps, ∀ v' qs', r'.contentType = some (v', qs') →
        ∀ o ∈ os, o.value = v' → Flt.le (Counts mul o.q qs') q = true := by
  obtain ⟨a, pre, post, e, hr, _⟩ := selectParsed_ok h
  have hmem : r ∈ reps := by rw [e]; simp
  obtain ⟨v, qs, q, hv, rfl, hq, ho, hmax⟩ := repAcceptability_simple (hreps r hmem) hos hr
  refine ⟨v, qs, q, hv, ho, ?_⟩
  clear e hmem
  -- run the loop up to the first acceptable one
  have go : ∀ (rs : List Rep), (∀ r ∈ rs, Simple mul os r) → ∀ a, selectGo mul os none rs = .ok (some (a, r)) →
      ∃ q, a = ⟨some ⟨[1, 1], q⟩, none, false, .one⟩ ∧ ∀ r' ∈ rs, ∀ v' qs', r'.contentType = some (v', qs') →
        ∀ o ∈ os, o.value = v' → Flt.le (Counts mul o.q qs') q = true := by
    intro rs
    induction rs with
    | nil => intro _ a h; simp [selectGo] at h
    | cons x xs ih =>
      intro hs a h
      have hxs : ∀ r ∈ xs, Simple mul os r := fun y hy => hs y (by simp [hy])
      have hxs' := hs x (by simp)
      simp only [selectGo] at h
      cases hx : repAcceptability mul x os with
      | error e =>
        rw [hx] at h
        cases e
        case notAcceptable =>
          obtain ⟨q, e1, e3⟩ := ih hxs a h
          refine ⟨q, e1, ?_⟩
          intro r' hr' v qs hv o ho hov
          rcases List.mem_cons.1 hr' with rfl | hr'
          · obtain ⟨w, qw, hw, hr', _⟩ := hxs'
            have hvw : v = w := by rw [hr'] at hv; simp at hv; exact hv.1.symm
            subst hvw
            have hcov : Covers o.value v := by
              obtain ⟨t, s, hm⟩ := hw
              exact ⟨t, s, t, s, hov ▸ hm, hm, Or.inl rfl, Or.inl rfl⟩
            have := acceptability_media (mul := mul) (qs := qw) (os := os) hw
              (fun o ho => by obtain ⟨a, b, h, _⟩ := (hos o ho).1; exact ⟨a, b, h⟩)
            rcases this with ⟨y, hy, _⟩ | ⟨_, hn⟩
            · rw [hr'] at hx; simp [repAcceptability, hy] at hx
            · exact absurd hcov (hn o ho)
          · exact e3 r' hr' v qs hv o ho hov
        all_goals simp at h
      | ok ax =>
        obtain ⟨v, qv, q', hv, rfl, hq', _, hmax⟩ := repAcceptability_simple hxs' hos hx
        rw [hx] at h
        obtain ⟨q, e1, e2, e3⟩ := selectGo_simple hos xs q' x hxs hq' a r h
        refine ⟨q, e1, ?_⟩
        intro r' hr' w qw hw o ho hov
        rcases List.mem_cons.1 hr' with rfl | hr'
        · rw [hv] at hw
          simp at hw
          obtain ⟨rfl, rfl⟩ := hw
          exact flt_le_trans (hmax o ho hov) e2
        · exact e3 r' hr' w qw hw o ho hov
  unfold selectParsed at h
  cases hg : selectGo mul os none reps with
  | error e => simp [hg] at h
  | ok x =>
    cases x with
    | none => simp [hg] at h
    | some p =>
      obtain ⟨a, r'⟩ := p
      simp [hg] at h
      subst h
      obtain ⟨q', e1, e2⟩ := go reps hreps a hg
      -- the acceptability recorded is the one of the selected representation
      have hrr : repAcceptability mul r' os = .ok a := by
        rcases selectGo_ok reps none hg with ⟨h1, _⟩ | ⟨_, _, _, h, _⟩
        · simp at h1
        · exact h
      rw [hr, e1] at hrr
      simp at hrr
      rw [hrr]
      exact e2

example : Simple demoMul [⟨s%"a/x", .one, []⟩] ⟨0, some (s%"a/x", some (.fin (2 ^ 1073))), none, none, .one⟩ :=
  ⟨_, _, ⟨s%"a", s%"x", ⟨rfl, by decide, by decide⟩⟩, rfl, by decide +kernel⟩

example : ConcreteRanges [⟨s%"text/html", .one, []⟩] :=
  fun o ho => by simp at ho; subst ho; exact ⟨⟨s%"text", s%"html", ⟨rfl, by decide, by decide⟩, by decide, by decide⟩, by decide⟩

/-- **C42 fails** with wildcards: with the header `*/*;q=0.9, a/*;q=1, b/y;q=0.5` and `a/x`,
`b/y`, `c/z` offered in this order, `c/z` is selected, although `a/x` is matched by a more
specific range of higher quality.  And the outcome depends on the order of the ranges in the
header. -/
theorem C42_best_false :
    select demoFloat demoMul [offer 0 s%"a/x", offer 1 s%"b/y", offer 2 s%"c/z"]
      (some s%"*/*;q=0.9, a/*;q=1, b/y;q=0.5") none none = .ok (offer 2 s%"c/z") ∧
    select demoFloat demoMul [offer 0 s%"a/x", offer 1 s%"b/y"]
      (some s%"*/*;q=0.9, a/*;q=0.9, b/y;q=0.5") none none = .ok (offer 1 s%"b/y") ∧
    select demoFloat demoMul [offer 0 s%"a/x", offer 1 s%"b/y"]
      (some s%"b/y;q=0.5, */*;q=0.9, a/*;q=0.9") none none = .ok (offer 0 s%"a/x") := by
  refine ⟨by decide +kernel, by decide +kernel, by decide +kernel⟩

/-! ### Zero quality -/

/-- **C43, with concrete ranges.**  If some offered type counts for more than nothing
(it is listed with a positive quality and the server gives it none or a positive one), so does
the selected one. -/
theorem C43_zero_partial (mul : Flt → Flt → Flt) (os : List Rng) (reps : List Rep) (r : Rep)
    (hos : ConcreteRanges os) (hreps : ∀ r ∈ reps, Simple mul os r) (h : selectParsed mul os reps = .ok r)
    (r' : Rep) (hr' : r' ∈ reps) (v' : Str) (qs' : Option Flt) (hv' : r'.contentType = some (v', qs'))
    (o : Rng) (ho : o ∈ os) (hov : o.value = v') (hpos : Flt.lt .zero (Counts mul o.q qs') = true) :
    ∃ v qs, r.contentType = some (v, qs) ∧ ∃ o ∈ os, o.value = v ∧ Flt.lt .zero (Counts mul o.q qs) = true := by
  obtain ⟨v, qs, q, hv, ⟨o', ho', e1, e2⟩, hmax⟩ := C42_concrete_partial mul os reps r hos hreps h
  refine ⟨v, qs, hv, o', ho', e1, ?_⟩
  have hle := hmax r' hr' v' qs' hv' o ho hov
  rw [e2]
  generalize Counts mul o.q qs' = a at hpos hle
  clear e2 hmax
  cases a with
  | nan => simp [Flt.lt, Flt.zero] at hpos
  | inf x =>
    cases x
    · cases q with
      | nan => simp [Flt.le] at hle
      | inf y => simp [Flt.le] at hle; simp [Flt.lt, Flt.zero, hle]
      | fin y => simp [Flt.le] at hle
    · simp [Flt.lt, Flt.zero] at hpos
  | fin x =>
    cases q with
    | nan => simp [Flt.le] at hle
    | inf y => simp [Flt.le] at hle; simp [Flt.lt, Flt.zero, hle]
    | fin y =>
      simp [Flt.le, Flt.lt, Flt.zero] at hle hpos ⊢
      omega

/-- **C43 fails**: a type that is explicitly refused is delivered when nothing else is offered,
and also instead of another one that a wildcard permits. -/
theorem C43_zero_false :
    select demoFloat demoMul [offer 0 s%"text/html"] (some s%"text/html;q=0") none none
      = .ok (offer 0 s%"text/html") ∧
    select demoFloat demoMul [offer 0 s%"a/x", offer 1 s%"text/html"] (some s%"*/*, text/html;q=0") none none
      = .ok (offer 1 s%"text/html") :=
  ⟨by decide +kernel, by decide +kernel⟩

end Verif.Accept
