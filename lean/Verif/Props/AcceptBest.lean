import Verif.Props.AcceptQueries
/-!
C42, C43: the representation that is selected when the Accept header has wildcards.
-/
namespace Verif.Props.AcceptB
open Verif Verif.Accept Verif.Negotiation Verif.Props.AcceptQ

/-- Offered with a content type only. -/
def Offers (r : Rep) (v : Str) (qs : Option Flt) : Prop := r = ⟨r.id, some (v, qs), none, none, .one⟩

/-- The range of the header that decides about an offer: the most specific one that covers its type,
and of these the one that gives most. -/
def Decides (mul : Flt → Flt → Flt) (os : List Rng) (r : Rep) (o : Rng) : Prop :=
  ∃ v qs, Offers r v qs ∧ Best mul .contentType v qs os o

/-- How specifically a range names the type of an offer: 0 for `*/*` up to 3 for the type itself. -/
def specificity (r : Rep) (o : Rng) : Nat :=
  match r.contentType with
  | some (v, _) => rank .contentType v o.value
  | none => 0

/-- What an offer counts for, with a range: the quality given by the client times that of the server. -/
def worth (mul : Flt → Flt → Flt) (r : Rep) (o : Rng) : Flt :=
  match r.contentType with
  | some (_, qs) => Counts mul o.q qs
  | none => .zero

/-- An offer of a content type, of which no general range gives more than a more specific one before
it, and for which all qualities are numbers. -/
def Plain (mul : Flt → Flt → Flt) (os : List Rng) (r : Rep) : Prop :=
  ∃ v qs, Offers r v qs ∧ (∃ t s, IsMedia v t s) ∧ (∀ o ∈ os, Counts mul o.q qs ≠ .nan) ∧ Settled mul .contentType v qs os

/-- Of two offers, the one named more specifically does not count for less. -/
def Harmony (mul : Flt → Flt → Flt) (os : List Rng) (reps : List Rep) : Prop :=
  ∀ r ∈ reps, ∀ r' ∈ reps, ∀ o o', Decides mul os r o → Decides mul os r' o' → specificity r' o' < specificity r o →
    Flt.le (worth mul r' o') (worth mul r o) = true

theorem Offers.ct {r : Rep} {v : Str} {qs : Option Flt} (h : Offers r v qs) : r.contentType = some (v, qs) := by
  rw [h]

theorem best_same {mul : Flt → Flt → Flt} {k : Kind} {v : Str} {qs : Option Flt} {os : List Rng} {a b : Rng}
    (ha : Best mul k v qs os a) (hb : Best mul k v qs os b) :
    rank k v a.value = rank k v b.value ∧ gives mul qs a = gives mul qs b := by
  rcases ha.2.2 b hb.1 hb.2.1 with h | ⟨h, h'⟩ <;> rcases hb.2.2 a ha.1 ha.2.1 with g | ⟨g, g'⟩
  · omega
  · omega
  · omega
  · exact ⟨g, flt_le_antisymm g' h'⟩

/-- The acceptability of an offer, given the range that decides. -/
def told (mul : Flt → Flt → Flt) (r : Rep) (o : Rng) : RepAcc :=
  ⟨some ⟨mqOf .contentType [] (specificity r o), worth mul r o⟩, none, false, .one⟩

theorem plain_cases {mul : Flt → Flt → Flt} {os : List Rng} {r : Rep} (hos : ∀ o ∈ os, ∃ t s, IsMedia o.value t s)
    (h : Plain mul os r) :
    (repAcceptability mul r os = .error .notAcceptable ∧ ∀ o, ¬ Decides mul os r o) ∨
    ∃ o, Decides mul os r o ∧ repAcceptability mul r os = .ok (told mul r o) ∧ worth mul r o ≠ .nan := by
  obtain ⟨v, qs, hr, hm, hn, hs⟩ := h
  have hf : Formed .contentType v os := fun _ => ⟨hm, hos⟩
  have hacc : ∀ x, acceptability mul .contentType v qs os = .ok x →
      repAcceptability mul r os = .ok ⟨some x, none, false, .one⟩ := by
    intro x hx
    rw [hr]; simp [repAcceptability, hx]
  by_cases he : ∃ o ∈ os, Says .contentType v o.value
  · obtain ⟨o, h1, h2⟩ := lookup_best hf hn hs he
    refine Or.inr ⟨o, ⟨v, qs, hr, h1⟩, ?_, ?_⟩
    · unfold lookup at h2
      cases ha : acceptability mul .contentType v qs os with
      | error e => rw [ha] at h2; cases e <;> simp at h2
      | ok x =>
        rw [ha] at h2
        have hx : x = accOf mul .contentType v qs o := by simpa using h2
        rw [hacc x ha, hx]
        simp only [told, specificity, worth, hr.ct, accOf, mqOf]
    · simp only [worth, hr.ct]
      exact hn o h1.1
  · left
    refine ⟨?_, ?_⟩
    · rcases lookup_cases (mul := mul) (qs := qs) hf with ⟨h1, _⟩ | ⟨a, pre, post, _, rfl, h, _⟩
      · unfold lookup at h1
        rcases acceptability_media (mul := mul) (qs := qs) (os := os) hm hos with ⟨y, hy, _⟩ | ⟨hy, _⟩
        · rw [hy] at h1; simp at h1
        · rw [hr]; simp [repAcceptability, hy]
      · exact absurd ⟨a, by simp, h⟩ he
    · rintro o ⟨v', qs', hr', hb⟩
      have := hr'.ct
      rw [hr.ct] at this
      simp at this
      obtain ⟨rfl, rfl⟩ := this
      exact he ⟨o, hb.1, hb.2.1⟩

theorem decides_same {mul : Flt → Flt → Flt} {os : List Rng} {r : Rep} {a b : Rng} (ha : Decides mul os r a)
    (hb : Decides mul os r b) : specificity r a = specificity r b ∧ worth mul r a = worth mul r b := by
  obtain ⟨v, qs, hr, ha⟩ := ha
  obtain ⟨v', qs', hr', hb⟩ := hb
  have := hr'.ct
  rw [hr.ct] at this
  simp at this
  obtain ⟨rfl, rfl⟩ := this
  simp only [specificity, worth, hr.ct]
  exact best_same ha hb

theorem spec_bound (r : Rep) (o : Rng) : specificity r o < 4 := by
  unfold specificity
  split
  · exact rank_bound _ _
  · omega

theorem mq_gt : ∀ n < 4, ∀ m < 4, tupleGt (mqOf .contentType [] n) (mqOf .contentType [] m) = decide (m < n) := by decide

theorem mq_inj : ∀ n < 4, ∀ m < 4, mqOf .contentType [] n = mqOf .contentType [] m → n = m := by decide

/-- The second offer is at least as good as the first, in both respects. -/
def Upto (mul : Flt → Flt → Flt) (r : Rep) (o : Rng) (r' : Rep) (o' : Rng) : Prop :=
  specificity r o ≤ specificity r' o' ∧ Flt.le (worth mul r o) (worth mul r' o') = true

theorem Upto.trans {mul : Flt → Flt → Flt} {a b c : Rep} {oa ob oc : Rng} (h : Upto mul a oa b ob) (g : Upto mul b ob c oc) :
    Upto mul a oa c oc := ⟨Nat.le_trans h.1 g.1, flt_le_trans h.2 g.2⟩

theorem told_ge {mul : Flt → Flt → Flt} {r r' : Rep} {o o' : Rng} (hn : worth mul r o ≠ .nan) (hn' : worth mul r' o' ≠ .nan)
    (h1 : specificity r' o' < specificity r o → Flt.le (worth mul r' o') (worth mul r o) = true)
    (h2 : specificity r o < specificity r' o' → Flt.le (worth mul r o) (worth mul r' o') = true) :
    ((told mul r o).ge (told mul r' o') = .ok true ∧ Upto mul r' o' r o) ∨
    ((told mul r o).ge (told mul r' o') = .ok false ∧ Upto mul r o r' o' ∧
      (specificity r o < specificity r' o' ∨ Flt.lt (worth mul r o) (worth mul r' o') = true)) := by
  have hg : (told mul r o).gt (told mul r' o') = .ok (decide (specificity r' o' < specificity r o) ||
      Flt.lt (worth mul r' o') (worth mul r o)) := by
    simp only [RepAcc.gt, told, optGt, Acc.gt, mq_gt _ (spec_bound r o) _ (spec_bound r' o')]
    cases hb : (decide (specificity r' o' < specificity r o) || Flt.lt (worth mul r' o') (worth mul r o)) with
    | true => rfl
    | false =>
      simp [flt_le_refl (show Flt.one ≠ .nan from nofun)]
  unfold RepAcc.ge
  rw [hg]
  cases hb : (decide (specificity r' o' < specificity r o) || Flt.lt (worth mul r' o') (worth mul r o)) with
  | true =>
    left
    refine ⟨rfl, ?_⟩
    simp only [Bool.or_eq_true, decide_eq_true_eq] at hb
    rcases hb with hb | hb
    · exact ⟨Nat.le_of_lt hb, h1 hb⟩
    · refine ⟨?_, flt_le_of_lt hb⟩
      rcases Nat.lt_or_ge (specificity r o) (specificity r' o') with h | h
      · have := h2 h
        rw [flt_lt_not_le hb] at this
        cases this
      · exact h
  | false =>
    simp only [Bool.or_eq_false_iff, decide_eq_false_iff_not, Nat.not_lt] at hb
    have hle := flt_le_of_not_lt hn' hn hb.2
    by_cases he : (told mul r o).eq (told mul r' o') = true
    · left
      refine ⟨by simp [he], ?_⟩
      simp only [RepAcc.eq, told, optEq, Acc.eq, Bool.and_eq_true, decide_eq_true_eq, Flt.eq] at he
      have e1 := mq_inj _ (spec_bound r o) _ (spec_bound r' o') he.1.1.1
      have e2 : worth mul r o = worth mul r' o' := by simpa using he.1.1.2.2
      exact ⟨by omega, by rw [e2]; exact flt_le_refl hn'⟩
    · right
      refine ⟨by simp [he], ⟨hb.1, hle⟩, ?_⟩
      false_or_by_contra; rename_i hne
      simp only [not_or, Nat.not_lt, Bool.not_eq_true] at hne
      have e1 : specificity r o = specificity r' o' := by omega
      have e2 : worth mul r o = worth mul r' o' := flt_le_antisymm hle (flt_le_of_not_lt hn hn' hne.2)
      apply he
      simp only [RepAcc.eq, told, optEq, Acc.eq, e1, e2, Flt.eq]
      simp [hn', show Flt.one ≠ .nan from nofun]

theorem selectGo_best {mul : Flt → Flt → Flt} {os : List Rng} (hos : ∀ o ∈ os, ∃ t s, IsMedia o.value t s) (all : List Rep)
    (hh : Harmony mul os all) : ∀ (rs : List Rep), (∀ r ∈ rs, r ∈ all ∧ Plain mul os r) → ∀ (r0 : Rep) (o0 : Rng),
    r0 ∈ all → Decides mul os r0 o0 → worth mul r0 o0 ≠ .nan →
    ∃ r o, selectGo mul os (some (told mul r0 o0, r0)) rs = .ok (some (told mul r o, r)) ∧ Decides mul os r o ∧
      Upto mul r0 o0 r o ∧ ∀ r' ∈ rs, ∀ o', Decides mul os r' o' → Upto mul r' o' r o
  | [], _, r0, o0, _, hd, hn => ⟨r0, o0, rfl, hd, ⟨Nat.le_refl _, flt_le_refl hn⟩, by simp⟩
  | x :: xs, hrs, r0, o0, h0, hd, hn => by
    have hxs : ∀ r ∈ xs, r ∈ all ∧ Plain mul os r := fun y hy => hrs y (by simp [hy])
    obtain ⟨hx, hp⟩ := hrs x (by simp)
    simp only [selectGo]
    rcases plain_cases hos hp with ⟨ha, hno⟩ | ⟨ox, hdx, ha, hnx⟩
    · rw [ha]
      obtain ⟨r, o, e1, e2, e3, e4⟩ := selectGo_best hos all hh xs hxs r0 o0 h0 hd hn
      refine ⟨r, o, e1, e2, e3, ?_⟩
      intro r' hr' o' hd'
      rcases List.mem_cons.1 hr' with rfl | hr'
      · exact absurd hd' (hno o')
      · exact e4 r' hr' o' hd'
    · rw [ha]
      have same : ∀ {o'}, Decides mul os x o' → ∀ {r o}, Upto mul x ox r o → Upto mul x o' r o := by
        intro o' hd' r o h
        obtain ⟨g1, g2⟩ := decides_same hd' hdx
        exact ⟨by rw [g1]; exact h.1, by rw [g2]; exact h.2⟩
      rcases told_ge hnx hn (hh x hx r0 h0 ox o0 hdx hd) (hh r0 h0 x hx o0 ox hd hdx) with ⟨hg, hu⟩ | ⟨hg, hu, _⟩
      · simp only [hg]
        obtain ⟨r, o, e1, e2, e3, e4⟩ := selectGo_best hos all hh xs hxs x ox hx hdx hnx
        refine ⟨r, o, e1, e2, hu.trans e3, ?_⟩
        intro r' hr' o' hd'
        rcases List.mem_cons.1 hr' with rfl | hr'
        · exact same hd' e3
        · exact e4 r' hr' o' hd'
      · simp only [hg]
        obtain ⟨r, o, e1, e2, e3, e4⟩ := selectGo_best hos all hh xs hxs r0 o0 h0 hd hn
        refine ⟨r, o, e1, e2, e3, ?_⟩
        intro r' hr' o' hd'
        rcases List.mem_cons.1 hr' with rfl | hr'
        · exact same hd' (hu.trans e3)
        · exact e4 r' hr' o' hd'

theorem selectGo_start {mul : Flt → Flt → Flt} {os : List Rng} (hos : ∀ o ∈ os, ∃ t s, IsMedia o.value t s) (all : List Rep)
    (hh : Harmony mul os all) : ∀ (rs : List Rep), (∀ r ∈ rs, r ∈ all ∧ Plain mul os r) →
    (selectGo mul os none rs = .ok none ∧ ∀ r ∈ rs, ∀ o, ¬ Decides mul os r o) ∨
    ∃ r o, selectGo mul os none rs = .ok (some (told mul r o, r)) ∧ Decides mul os r o ∧
      ∀ r' ∈ rs, ∀ o', Decides mul os r' o' → Upto mul r' o' r o
  | [], _ => Or.inl ⟨rfl, by simp⟩
  | x :: xs, hrs => by
    have hxs : ∀ r ∈ xs, r ∈ all ∧ Plain mul os r := fun y hy => hrs y (by simp [hy])
    obtain ⟨hx, hp⟩ := hrs x (by simp)
    simp only [selectGo]
    rcases plain_cases hos hp with ⟨ha, hno⟩ | ⟨ox, hdx, ha, hnx⟩
    · rw [ha]
      rcases selectGo_start hos all hh xs hxs with ⟨e1, e2⟩ | ⟨r, o, e1, e2, e3⟩
      · refine Or.inl ⟨e1, ?_⟩
        intro r hr o
        rcases List.mem_cons.1 hr with rfl | hr
        · exact hno o
        · exact e2 r hr o
      · refine Or.inr ⟨r, o, e1, e2, ?_⟩
        intro r' hr' o' hd'
        rcases List.mem_cons.1 hr' with rfl | hr'
        · exact absurd hd' (hno o')
        · exact e3 r' hr' o' hd'
    · rw [ha]
      right
      obtain ⟨r, o, e1, e2, e3, e4⟩ := selectGo_best hos all hh xs hxs x ox hx hdx hnx
      refine ⟨r, o, e1, e2, ?_⟩
      intro r' hr' o' hd'
      rcases List.mem_cons.1 hr' with rfl | hr'
      · obtain ⟨g1, g2⟩ := decides_same hd' hdx
        exact ⟨by rw [g1]; exact e3.1, by rw [g2]; exact e3.2⟩
      · exact e4 r' hr' o' hd'

/-- **C42, with wildcards** (partial: offers of content types only, a header in which the more specific
range does not give less).  If any offer is covered by the header, one is selected.  No offer is named
more specifically by the range that decides about it, and none counts for more; of those that are equal
in both the last one is selected. -/
theorem C42_wildcards_partial (mul : Flt → Flt → Flt) (os : List Rng) (reps : List Rep)
    (hos : ∀ o ∈ os, ∃ t s, IsMedia o.value t s) (hreps : ∀ r ∈ reps, Plain mul os r) (hh : Harmony mul os reps) :
    (selectParsed mul os reps = .error .notAcceptable ∧ ∀ r ∈ reps, ∀ o, ¬ Decides mul os r o) ∨
    ∃ r o pre post, selectParsed mul os reps = .ok r ∧ reps = pre ++ r :: post ∧ Decides mul os r o ∧
      (∀ r' ∈ reps, ∀ o', Decides mul os r' o' →
        specificity r' o' ≤ specificity r o ∧ Flt.le (worth mul r' o') (worth mul r o) = true) ∧
      ∀ r' ∈ post, ∀ o', Decides mul os r' o' →
        specificity r' o' < specificity r o ∨ Flt.lt (worth mul r' o') (worth mul r o) = true := by
  rcases selectGo_start hos reps hh reps (fun r hr => ⟨hr, hreps r hr⟩) with ⟨e1, e2⟩ | ⟨r, o, e1, e2, e3⟩
  · exact Or.inl ⟨by simp [selectParsed, e1], e2⟩
  · right
    have hsel : selectParsed mul os reps = .ok r := by simp [selectParsed, e1]
    obtain ⟨a, pre, post, e, ha, hlater⟩ := C42_later_partial mul os reps r hsel
    refine ⟨r, o, pre, post, hsel, e, e2, e3, ?_⟩
    intro r' hr' o' hd'
    have hmem : r' ∈ reps := by rw [e]; simp [hr']
    have hmem0 : r ∈ reps := by rw [e]; simp
    rcases plain_cases hos (hreps r hmem0) with ⟨_, hno⟩ | ⟨o1, hd1, ha1, hn1⟩
    · exact absurd e2 (hno o)
    rcases plain_cases hos (hreps r' hmem) with ⟨_, hno⟩ | ⟨o2, hd2, ha2, hn2⟩
    · exact absurd hd' (hno o')
    rw [ha1] at ha
    cases ha
    have hge := hlater r' hr' _ ha2
    obtain ⟨g1, g2⟩ := decides_same hd' hd2
    obtain ⟨k1, k2⟩ := decides_same e2 hd1
    rw [g1, g2, k1, k2]
    rcases told_ge hn2 hn1 (hh r' hmem r hmem0 o2 o1 hd2 hd1) (hh r hmem0 r' hmem o1 o2 hd1 hd2) with ⟨hg, _⟩ | ⟨_, _, h⟩
    · rw [hg] at hge; simp at hge
    · exact h

theorem flt_lt_of_lt_of_le {a b c : Flt} (h1 : Flt.lt a b = true) (h2 : Flt.le b c = true) : Flt.lt a c = true := by
  cases a with
  | nan => simp [Flt.lt] at h1
  | inf x =>
    cases x <;> cases b <;> cases c <;> simp_all [Flt.lt, Flt.le]
    all_goals (rename_i y; cases y <;> simp_all [Flt.lt, Flt.le])
    all_goals (rename_i z; first | (cases z <;> simp_all [Flt.lt, Flt.le]) | skip)
  | fin x =>
    cases b with
    | nan => simp [Flt.lt] at h1
    | inf y => cases y <;> cases c <;> simp_all [Flt.lt, Flt.le]
    | fin y =>
      cases c with
      | nan => simp [Flt.le] at h2
      | inf z => cases z <;> simp_all [Flt.lt, Flt.le]
      | fin z => simp [Flt.lt, Flt.le] at h1 h2 ⊢; omega

/-- **C43, with wildcards** (partial: as above).  If some offer counts for more than nothing, an offer is
selected that does: one refused with the quality zero is not. -/
theorem C43_wildcards_partial (mul : Flt → Flt → Flt) (os : List Rng) (reps : List Rep)
    (hos : ∀ o ∈ os, ∃ t s, IsMedia o.value t s) (hreps : ∀ r ∈ reps, Plain mul os r) (hh : Harmony mul os reps)
    (r' : Rep) (hr' : r' ∈ reps) (o' : Rng) (hd : Decides mul os r' o') (hpos : Flt.lt .zero (worth mul r' o') = true) :
    ∃ r o, selectParsed mul os reps = .ok r ∧ Decides mul os r o ∧ Flt.lt .zero (worth mul r o) = true := by
  rcases C42_wildcards_partial mul os reps hos hreps hh with ⟨_, h⟩ | ⟨r, o, pre, post, h1, _, h2, h3, _⟩
  · exact absurd hd (h r' hr' o')
  · exact ⟨r, o, h1, h2, flt_lt_of_lt_of_le hpos (h3 r' hr' o' hd).2⟩

theorem flt_le_self {q : Flt} (h : q ≠ .nan) : Flt.le q q = true := by
  cases q with
  | nan => exact absurd rfl h
  | inf x => cases x <;> rfl
  | fin x => simp [Flt.le]

theorem selectGo_typed (mul : Flt → Flt → Flt) (os : List Rng) (q : Flt) (hos : ∀ o ∈ os, ∃ t s, IsMedia o.value t s) (hn : q ≠ .nan) :
    ∀ (rs : List Rep) (best : Option (RepAcc × Rep)), (∀ r ∈ rs, Accept.Plain r ∧ r.qs = q) →
    (∀ b r, best = some (b, r) → b.language = none ∧ b.charset = false ∧ b.qs = q ∧ (b.contentType = none ↔ r.contentType = none)) →
    ((∃ r ∈ rs, r.contentType ≠ none ∧ Accept.Acceptable os r) ∨ ∃ b r, best = some (b, r) ∧ r.contentType ≠ none) →
    ∃ a r, selectGo mul os best rs = .ok (some (a, r)) ∧ r.contentType ≠ none := by
  intro rs
  induction rs with
  | nil =>
    intro best _ _ h
    rcases h with ⟨_, h, _⟩ | ⟨b, r, rfl, h⟩
    · cases h
    · exact ⟨b, r, rfl, h⟩
  | cons x xs ih =>
    intro best hrs hb h
    have hxs : ∀ r ∈ xs, Accept.Plain r ∧ r.qs = q := fun r hr => hrs r (.tail _ hr)
    obtain ⟨hx, hxq⟩ := hrs x (.head _)
    simp only [selectGo]
    rcases repAcceptability_plain (mul := mul) hx hos with ⟨a, e, ha, _⟩ | ⟨e, hna⟩
    · simp only [e]
      have hnew : ∀ b r, some ((⟨a, none, false, x.qs⟩ : RepAcc), x) = some (b, r) →
          b.language = none ∧ b.charset = false ∧ b.qs = q ∧ (b.contentType = none ↔ r.contentType = none) := by
        intro b r h
        cases h
        exact ⟨rfl, rfl, hxq, ha⟩
      cases best with
      | none =>
        refine ih _ hxs hnew ?_
        rcases h with ⟨r, hr, h1, h2⟩ | ⟨_, _, h, _⟩
        · cases hr with
          | head => exact .inr ⟨_, _, rfl, h1⟩
          | tail _ hr => exact .inl ⟨r, hr, h1, h2⟩
        · cases h
      | some p =>
        obtain ⟨b, r0⟩ := p
        obtain ⟨b1, b2, b3, b4⟩ := hb b r0 rfl
        obtain ⟨bc, bl, bch, bq⟩ := b
        simp only at b1 b2 b3 b4
        subst b1 b2 b3
        rw [hxq] at hnew ⊢
        by_cases hxn : x.contentType = none
        · -- an offer without a type replaces only offers without one
          have han := ha.2 hxn
          subst han
          have keep : ((∃ r ∈ xs, r.contentType ≠ none ∧ Accept.Acceptable os r) ∨ r0.contentType ≠ none) := by
            rcases h with ⟨r, hr, h1, h2⟩ | ⟨_, _, h, h1⟩
            · cases hr with
              | head => exact absurd hxn h1
              | tail _ hr => exact .inl ⟨r, hr, h1, h2⟩
            · cases h; exact .inr h1
          cases bc with
          | none =>
            have hr0 := b4.1 rfl
            have hx' := keep.resolve_right (fun h => h hr0)
            obtain ⟨t, ht⟩ := ge_plain (a := ⟨none, none, false, bq⟩) (b := ⟨none, none, false, bq⟩) rfl rfl
            simp only [ht]
            cases t with
            | true => exact ih _ hxs hnew (.inl hx')
            | false => exact ih _ hxs hb (.inl hx')
          | some c =>
            have hg : RepAcc.ge ⟨none, none, false, bq⟩ ⟨some c, none, false, bq⟩ = .ok false := by
              simp [RepAcc.ge, RepAcc.gt, RepAcc.eq, optGt, optEq, flt_le_self hn]
            simp only [hg]
            exact ih _ hxs hb (.inr ⟨_, _, rfl, fun h => by cases b4.2 h⟩)
        · cases a with
          | none => exact absurd (ha.1 rfl) hxn
          | some a =>
            cases bc with
            | none =>
              have hg : RepAcc.ge ⟨some a, none, false, bq⟩ ⟨none, none, false, bq⟩ = .ok true := by
                simp [RepAcc.ge, RepAcc.gt, optGt]
              simp only [hg]
              exact ih _ hxs hnew (.inr ⟨_, _, rfl, hxn⟩)
            | some c =>
              obtain ⟨t, ht⟩ := ge_plain (a := ⟨some a, none, false, bq⟩) (b := ⟨some c, none, false, bq⟩) rfl rfl
              simp only [ht]
              cases t with
              | true => exact ih _ hxs hnew (.inr ⟨_, _, rfl, hxn⟩)
              | false => exact ih _ hxs hb (.inr ⟨_, _, rfl, fun h => by cases b4.2 h⟩)
    · simp only [e]
      refine ih best hxs hb ?_
      rcases h with ⟨r, hr, h1, h2⟩ | h
      · cases hr with
        | head => exact absurd h2 hna
        | tail _ hr => exact .inl ⟨r, hr, h1, h2⟩
      · exact .inr h

/-- **C42, with and without types** (partial: no languages and charsets, one quality for all).  If some offer has a
content type that the header covers, the one selected has a content type as well. -/
theorem C42_typed_partial (mul : Flt → Flt → Flt) (os : List Rng) (reps : List Rep) (q : Flt)
    (hos : ∀ o ∈ os, ∃ t s, IsMedia o.value t s) (hreps : ∀ r ∈ reps, Accept.Plain r) (hq : ∀ r ∈ reps, r.qs = q) (hn : q ≠ .nan)
    (r' : Rep) (hr' : r' ∈ reps) (hc : r'.contentType ≠ none) (hacc : Accept.Acceptable os r') :
    ∃ r ∈ reps, selectParsed mul os reps = .ok r ∧ r.contentType ≠ none := by
  obtain ⟨a, r, e, h⟩ := selectGo_typed mul os q hos hn reps none (fun r hr => ⟨hreps r hr, hq r hr⟩) (by simp) (.inl ⟨r', hr', hc, hacc⟩)
  have hsel : selectParsed mul os reps = .ok r := by simp [selectParsed, e]
  obtain ⟨_, pre, post, he, _⟩ := C42_later_partial mul os reps r hsel
  exact ⟨r, by rw [he]; simp, hsel, h⟩

/-- C42 without the condition on the qualities: an offer without a type is selected in place of one with a type that
the header asks for, if it has a higher quality of its own and comes later; not if it comes first. -/
theorem C42_typed_limits :
    select demoFloat demoMul [⟨0, some (s%"a/x", none), none, none, .fin (2 ^ 1073)⟩, ⟨1, none, none, none, .one⟩] (some s%"a/x") none none =
      .ok ⟨1, none, none, none, .one⟩ ∧
    select demoFloat demoMul [⟨1, none, none, none, .one⟩, ⟨0, some (s%"a/x", none), none, none, .fin (2 ^ 1073)⟩] (some s%"a/x") none none =
      .ok ⟨0, some (s%"a/x", none), none, none, .fin (2 ^ 1073)⟩ := by
  refine ⟨by decide +kernel, by decide +kernel⟩

/-- The header `*/*;q=0.5, a/*;q=0.9, a/x` with three offers. -/
def ranges : List Rng := [⟨s%"*/*", .fin (2 ^ 1073), []⟩, ⟨s%"a/*", .fin (8106479329266893 * 2 ^ 1021), []⟩, ⟨s%"a/x", .one, []⟩]

def offers : List Rep := [offer 0 s%"a/y", offer 1 s%"a/x", offer 2 s%"b/z"]

theorem ranges_media : ∀ o ∈ ranges, ∃ t s, IsMedia o.value t s := by
  intro o ho
  simp [ranges] at ho
  rcases ho with rfl | rfl | rfl
  · exact ⟨s%"*", s%"*", rfl, by decide, by decide⟩
  · exact ⟨s%"a", s%"*", rfl, by decide, by decide⟩
  · exact ⟨s%"a", s%"x", rfl, by decide, by decide⟩

theorem offers_media : ∀ r ∈ offers, ∃ v t s, Offers r v none ∧ IsMedia v t s := by
  intro o ho
  simp [offers] at ho
  rcases ho with rfl | rfl | rfl
  · exact ⟨s%"a/y", s%"a", s%"y", rfl, rfl, by decide, by decide⟩
  · exact ⟨s%"a/x", s%"a", s%"x", rfl, rfl, by decide, by decide⟩
  · exact ⟨s%"b/z", s%"b", s%"z", rfl, rfl, by decide, by decide⟩

/-- A test for `Decides`, for the example. -/
def covered (r : Rep) (o : Rng) : Bool :=
  match r.contentType with
  | some (v, _) => matchOption .contentType v o.value != .error .notAcceptable
  | none => false

theorem decides_covered {r : Rep} {o : Rng} (hr : r ∈ offers) (h : Decides demoMul ranges r o) : o ∈ ranges ∧ covered r o = true := by
  obtain ⟨v, qs, h1, h2⟩ := h
  obtain ⟨v', t, s, h3, h4⟩ := offers_media r hr
  have e := h1.ct
  rw [h3.ct] at e
  simp at e
  obtain ⟨rfl, rfl⟩ := e
  refine ⟨h2.1, ?_⟩
  simp only [covered, h1.ct]
  rcases option_says (k := .contentType) (v := v') (os := ranges) (fun _ => ⟨⟨t, s, h4⟩, ranges_media⟩) h2.1 with ⟨_, e⟩ | ⟨e, _⟩
  · rw [e]; rfl
  · exact absurd h2.2.1 e

example : parseAccept demoFloat .contentType s%"*/*;q=0.5, a/*;q=0.9, a/x" = .ok ranges := by decide +kernel
example : selectParsed demoMul ranges offers = .ok (offer 1 s%"a/x") := by decide +kernel

example : ∀ r ∈ offers, Plain demoMul ranges r := by
  intro r hr
  obtain ⟨v, t, s, h1, h2⟩ := offers_media r hr
  refine ⟨v, none, h1, ⟨t, s, h2⟩, ?_, ?_⟩
  · intro o ho
    simp [ranges] at ho
    rcases ho with rfl | rfl | rfl <;> simp [Counts, Flt.one]
  · have hv : v = s%"a/y" ∨ v = s%"a/x" ∨ v = s%"b/z" := by
      have := h1.ct
      simp [offers] at hr
      rcases hr with rfl | rfl | rfl <;> simp [offer] at this <;> simp [← this]
    unfold Settled ranges
    rcases hv with rfl | rfl | rfl
    · refine .cons ?_ (.cons ?_ (.cons (by simp) .nil)) <;> intro o ho _ _ h <;> simp at ho <;>
        (first | (rcases ho with rfl | rfl) | subst ho) <;> exact absurd h (by decide)
    · refine .cons ?_ (.cons ?_ (.cons (by simp) .nil)) <;> intro o ho _ _ h <;> simp at ho <;>
        (first | (rcases ho with rfl | rfl) | subst ho) <;> exact absurd h (by decide)
    · refine .cons ?_ (.cons ?_ (.cons (by simp) .nil)) <;> intro o ho _ _ h <;> simp at ho <;>
        (first | (rcases ho with rfl | rfl) | subst ho) <;> exact absurd h (by decide)

example : Harmony demoMul ranges offers := by
  intro r hr r' hr' o o' h h' hlt
  obtain ⟨h1, h2⟩ := decides_covered hr h
  obtain ⟨h3, h4⟩ := decides_covered hr' h'
  have all : ∀ r ∈ offers, ∀ r' ∈ offers, ∀ o ∈ ranges, ∀ o' ∈ ranges, covered r o = true → covered r' o' = true →
      specificity r' o' < specificity r o → Flt.le (worth demoMul r' o') (worth demoMul r o) = true := by decide +kernel
  exact all r hr r' hr' o h1 o' h3 h2 h4 hlt

example : (∀ r ∈ [offer 0 s%"a/x", ⟨1, none, none, none, .one⟩], Accept.Plain r ∧ r.qs = .one) ∧
    Accept.Acceptable ranges (offer 0 s%"a/x") := by
  refine ⟨?_, ?_⟩
  · intro r hr
    simp at hr
    rcases hr with rfl | rfl
    · exact ⟨⟨rfl, rfl, fun v qs h => by cases h; exact ⟨s%"a", s%"x", rfl, by decide, by decide⟩⟩, rfl⟩
    · exact ⟨⟨rfl, rfl, nofun⟩, rfl⟩
  · intro v qs h
    cases h
    exact ⟨⟨s%"a/x", .one, []⟩, by simp [ranges], s%"a", s%"x", s%"a", s%"x", ⟨rfl, by decide, by decide⟩, ⟨rfl, by decide, by decide⟩, .inl rfl, .inl rfl⟩

end Verif.Props.AcceptB
