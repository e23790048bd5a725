import Verif.Model.FromApp
import Verif.Props.Response
import Verif.Props.RunApp
import Verif.Props.Application
import Verif.Props.Descriptors
/-!
C119: applications as response objects.
-/
namespace Verif.Props.FromAppP
open Verif Verif.Response Verif.FromApp Verif.Props Verif.Props.Resp Verif.Spec Verif.Headers

variable {lower : Str → Str}

/-! ### Headers that are set stay what they are -/

/-- The entries of a name. -/
def entries (lower : Str → Str) (l : HList) (k : Str) : HList := l.filter fun p => decide (lower p.1 = lower k)

theorem entries_set_other (l : HList) (k k' v : Str) (hk : lower k' ≠ lower k) :
    entries lower (Headers.set lower l k' v []).1 k = entries lower l k := by
  by_cases hv : LegalValue (effValue v [])
  · rcases set_legal lower l k' v [] hv with ⟨_, e⟩ | ⟨pre, p, post, e, _, hp, e'⟩
    · rw [e]; simp [entries, hk]
    · rw [e', e]
      have hp' : lower p.1 ≠ lower k := by rw [hp]; exact hk
      simp only [entries, List.filter_append, List.filter_cons, hk, hp', decide_false, Bool.false_eq_true, if_false,
        List.filter_filter]
      congr 1
      apply List.filter_congr
      intro x _
      by_cases hx : lower x.1 = lower k
      · have : lower x.1 ≠ lower k' := by rw [hx]; exact fun h => hk h.symm
        simp [hx, this]
        exact fun h => hk h.symm
      · simp [hx]
  · rw [set_illegal lower l k' v [] hv]

theorem entries_set_same (l : HList) (k v : Str) (hv : LegalValue v) :
    entries lower (Headers.set lower l k v []).1 k = [(k, v)] := by
  have he : effValue v [] = v := by simp [effValue]
  rcases set_legal lower l k v [] (by rw [he]; exact hv) with ⟨h1, e⟩ | ⟨pre, p, post, _, h1, _, e'⟩
  · rw [e, he]
    simp only [entries, List.filter_append]
    rw [List.filter_eq_nil_iff.2 (by intro a ha; simpa using h1 a ha)]
    simp
  · rw [e', he]
    simp only [entries, List.filter_append, List.filter_cons, decide_true, if_true, List.filter_filter]
    rw [List.filter_eq_nil_iff.2 (by intro a ha; simpa using h1 a ha)]
    rw [List.filter_eq_nil_iff.2 (by intro a _; simp)]
    rfl

theorem set_id (l : HList) (k v : Str) (hv : LegalValue v) (h : entries lower l k = [(k, v)]) :
    Headers.set lower l k v [] = (l, .ok ()) := by
  have he : effValue v [] = v := by simp [effValue]
  obtain ⟨l1, l2, e, h1, _, h2⟩ := List.filter_eq_cons_iff.1 h
  rcases set_legal lower l k v [] (by rw [he]; exact hv) with ⟨h3, _⟩ | ⟨pre, p, post, e1, h3, h4, e4⟩
  · exact absurd rfl (h3 (k, v) (by rw [e]; simp))
  · have hpre : pre = l1 ∧ p = (k, v) ∧ post = l2 := by
      rw [e] at e1
      clear h e4 e
      induction l1 generalizing pre with
      | nil =>
        cases pre with
        | nil => simp only [List.nil_append, List.cons.injEq] at e1; exact ⟨rfl, e1.1.symm, e1.2.symm⟩
        | cons q qs =>
          simp only [List.nil_append, List.cons_append, List.cons.injEq] at e1
          exact absurd (by rw [← e1.1]) (h3 q (by simp))
      | cons q qs ih =>
        cases pre with
        | nil =>
          simp only [List.nil_append, List.cons_append, List.cons.injEq] at e1
          have := h1 q (by simp)
          rw [e1.1, h4] at this
          simp at this
        | cons a as =>
          simp only [List.cons_append, List.cons.injEq] at e1
          obtain ⟨i1, i2, i3⟩ := ih (fun x hx => h1 x (by simp [hx])) as e1.2 (fun x hx => h3 x (by simp [hx]))
          exact ⟨by rw [e1.1, i1], i2, i3⟩
    obtain ⟨rfl, rfl, rfl⟩ := hpre
    rw [e4, he, e1]
    congr 3
    rw [List.filter_eq_self]
    intro a ha
    have := List.filter_eq_nil_iff.1 h2 a ha
    simpa using this

theorem lastValue_entries (cfg : Cfg) (name k : Str) (hk : cfg.lower k = name) (h : HList) :
    lastValue cfg name h = ((entries cfg.lower h k).getLast?).map (·.2) := by
  subst hk
  unfold lastValue
  have gen : ∀ (h : HList) (acc : Option Str),
      h.foldl (fun acc p => if cfg.lower p.1 = cfg.lower k then some p.2 else acc) acc =
        (((entries cfg.lower h k).getLast?).map (·.2)).or acc := by
    intro h
    induction h with
    | nil => intro acc; rfl
    | cons p ps ih =>
      intro acc
      rw [List.foldl_cons, ih]
      by_cases hp : cfg.lower p.1 = cfg.lower k
      · have : entries cfg.lower (p :: ps) k = p :: entries cfg.lower ps k := by simp [entries, hp]
        rw [this, if_pos hp, List.getLast?_cons]
        cases (entries cfg.lower ps k).getLast? <;> rfl
      · have : entries cfg.lower (p :: ps) k = entries cfg.lower ps k := by simp [entries, hp]
        rw [this, if_neg hp]
  rw [gen h none]
  cases ((entries cfg.lower h k).getLast?).map (·.2) <;> rfl

theorem getlist_entries (l : HList) (k : Str) : getlist lower l k = (entries lower l k).map (·.2) := getlist_eq lower l k

theorem contains_entries (l : HList) (k k' : Str) (hk : lower k = lower k') :
    Headers.contains lower l k = !(entries lower l k').isEmpty := by
  unfold Headers.contains
  rw [getItem_eq, getlist_eq, hk]
  show ((entries lower l k').map (·.2)).head?.isSome = _
  cases entries lower l k' <;> rfl

theorem entries_filter (l : HList) (k : Str) (f : Str × Str → Bool) (hf : ∀ p, lower p.1 = lower k → f p = true) :
    entries lower (l.filter f) k = entries lower l k := by
  unfold entries
  rw [List.filter_filter]
  apply List.filter_congr
  intro x _
  by_cases hx : lower x.1 = lower k
  · simp [hx, hf x hx]
  · simp [hx]

/-! ### What is sent is sent again -/

/-- The names a response looks at. -/
structure Names (lower : Str → Str) : Prop where
  length : lower s%"Content-Length" = s%"content-length"
  location : lower s%"Location" = s%"location"
  contentLocation : lower s%"Content-Location" = s%"content-location"
  contentType : lower s%"Content-Type" = s%"content-type"
  ctype : lower s%"content-type" = s%"content-type"
  expires : lower s%"expires" = s%"expires"
  clower : lower s%"content-location" = s%"content-location"

theorem names_of {lower : Str → Str} (hl : IriP.LowerOk lower) : Names lower := by
  constructor <;> (rw [hl.ascii _ (by unfold IriP.Ascii; decide)]; decide)

/-- The addresses in the headers stay what they are once they were made absolute. -/
def Stable (cfg : Cfg) (iri absolute : Str → Except PyErr Str) (h : HList) : Prop :=
  (∀ l a b, lastValue cfg s%"location" h = some l → iri l = .ok a → absolute a = .ok b → iri b = .ok b ∧ absolute b = .ok b) ∧
  ∀ l a, lastValue cfg s%"content-location" h = some l → iri l = .ok a → iri a = .ok a

theorem fixLocation_spec (cfg : Cfg) (hn : Names cfg.lower) {iri absolute : Str → Except PyErr Str} {h h1 : HList} (hs : Stable cfg iri absolute h)
    (e : fixLocation cfg iri absolute (lastValue cfg s%"location" h) h = .ok h1) :
    (lastValue cfg s%"location" h1 = none ∨ ∃ l, lastValue cfg s%"location" h1 = some l ∧ iri l = .ok l ∧ absolute l = .ok l) ∧
    ∀ k, cfg.lower k ≠ s%"location" → entries cfg.lower h1 k = entries cfg.lower h k := by
  cases hv : lastValue cfg s%"location" h with
  | none =>
    rw [hv] at e
    cases e
    exact ⟨.inl hv, fun _ _ => rfl⟩
  | some old =>
    rw [hv] at e
    unfold fixLocation at e
    simp only at e
    cases hi : iri old with
    | error x => rw [hi] at e; cases e
    | ok a =>
      simp only [hi] at e
      cases ha : absolute a with
      | error x => rw [ha] at e; cases e
      | ok b =>
        simp only [ha] at e
        have hst := hs.1 old a b hv hi ha
        by_cases hb : b = old
        · rw [if_pos hb] at e
          cases e
          subst hb
          exact ⟨.inr ⟨b, hv, hst⟩, fun _ _ => rfl⟩
        · rw [if_neg hb] at e
          by_cases hl : LegalValue b
          · have e2 := entries_set_same (lower := cfg.lower) h s%"Location" b hl
            have e3 := fun k (hk : cfg.lower k ≠ s%"location") => entries_set_other (lower := cfg.lower) h k s%"Location" b (by
              rw [hn.location]; exact fun x => hk x.symm)
            have e4 := Desc.set_ok cfg.lower h s%"Location" b hl
            generalize Headers.set cfg.lower h s%"Location" b [] = r at e e2 e3 e4
            obtain ⟨x, y⟩ := r
            simp only at e4
            subst e4
            simp only [Except.ok.injEq] at e
            subst e
            refine ⟨.inr ⟨b, ?_, hst⟩, e3⟩
            rw [lastValue_entries cfg _ _ hn.location, e2]
            rfl
          · rw [Desc.set_bad cfg.lower h s%"Location" b hl] at e
            cases e

theorem fixContentLocation_spec (cfg : Cfg) (hn : Names cfg.lower) {iri : Str → Except PyErr Str}
    {cl : Option Str} {h h1 : HList} (hs : ∀ l a, cl = some l → iri l = .ok a → iri a = .ok a) (e : fixContentLocation cfg iri cl h = .ok h1) (h0 : cl = none → entries cfg.lower h s%"Content-Location" = []) :
    (entries cfg.lower h1 s%"Content-Location" = [] ∨
      ∃ v, entries cfg.lower h1 s%"Content-Location" = [(s%"Content-Location", v)] ∧ LegalValue v ∧ iri v = .ok v) ∧
    ∀ k, cfg.lower k ≠ s%"content-location" → entries cfg.lower h1 k = entries cfg.lower h k := by
  cases cl with
  | none => cases e; exact ⟨.inl (h0 rfl), fun _ _ => rfl⟩
  | some v =>
    unfold fixContentLocation at e
    simp only at e
    cases hi : iri v with
    | error x => rw [hi] at e; cases e
    | ok a =>
      simp only [hi] at e
      by_cases hl : LegalValue a
      · have e2 := entries_set_same (lower := cfg.lower) h s%"Content-Location" a hl
        have e3 := fun k (hk : cfg.lower k ≠ s%"content-location") => entries_set_other (lower := cfg.lower) h k s%"Content-Location" a (by
          rw [hn.contentLocation]; exact fun x => hk x.symm)
        have e4 := Desc.set_ok cfg.lower h s%"Content-Location" a hl
        generalize Headers.set cfg.lower h s%"Content-Location" a [] = r at e e2 e3 e4
        obtain ⟨x, y⟩ := r
        simp only at e4
        subst e4
        simp only [Except.ok.injEq] at e
        subst e
        exact ⟨.inr ⟨a, e2, hl, hs v a rfl hi⟩, e3⟩
      · rw [Desc.set_bad cfg.lower h s%"Content-Location" a hl] at e
        cases e

/-- The headers kept with status 304. -/
def kept (lower : Str → Str) (p : Str × Str) : Bool :=
  !isEntityHeader lower p.1 || ([s%"expires", s%"content-location"].map lower).contains (lower p.1)

theorem validateAll_ok (l : HList) : validateAll l = .ok () ↔ ∀ p ∈ l, LegalValue p.2 := by
  induction l with
  | nil => simp [validateAll]
  | cons p ps ih =>
    unfold validateAll
    rw [validate_ok]
    by_cases h : LegalValue p.2
    · simp [h, ih]
    · simp [h]

theorem dropEntity_spec (cfg : Cfg) (h h1 : HList) :
    dropEntity cfg h = .ok h1 ↔ h1 = h.filter (kept cfg.lower) ∧ ∀ p ∈ h.filter (kept cfg.lower), LegalValue p.2 := by
  unfold dropEntity setSlice
  have e : removeEntityHeaders cfg.lower h [s%"expires", s%"content-location"] = h.filter (kept cfg.lower) := rfl
  rw [e]
  have := validateAll_ok (h.filter (kept cfg.lower))
  cases hv : validateAll (h.filter (kept cfg.lower)) with
  | error x =>
    rw [hv] at this
    simp only [reduceCtorEq, false_iff] at this ⊢
    exact fun hh => this hh.2
  | ok u =>
    have h2 := this.1 (by rw [hv])
    simp only [List.take_zero, List.nil_append, Nat.max_eq_right (Nat.zero_le _), List.drop_length, List.append_nil, Except.ok.injEq]
    exact ⟨fun hh => ⟨hh.symm, h2⟩, fun hh => hh.1.symm⟩

/-- Headers that were sent are sent again as they are, with the same status code, by a response whose body is an
iterator; or a list, but for a length that was missing. -/
theorem resent (cfg : Cfg) (hn : Names cfg.lower) {iri absolute : Str → Except PyErr Str}
    (default : Str) (hd : LegalValue default) {r r' : Resp} (hs : Stable cfg iri absolute r.headers) {H : HList} (e : wsgiHeaders cfg iri absolute r = .ok H)
    (ht : r.code ≠ 304 → entries cfg.lower r.headers s%"Content-Type" ≠ []) (hc : r'.code = r.code)
    (hh : r'.headers = if Headers.contains cfg.lower H s%"content-type" then H else (Headers.set cfg.lower H s%"Content-Type" default []).1) :
    wsgiHeaders cfg iri absolute r' = .ok (
      if cfg.autoLength = true ∧ r'.body.isSequence = true ∧ getlist cfg.lower H s%"Content-Length" = [] ∧ r.code ≠ 304 then
        H ++ [(s%"Content-Length", Py.natStr (r'.body.items.map Item.len).sum)]
      else H) := by
  unfold wsgiHeaders at e
  cases e1 : fixLocation cfg iri absolute (lastValue cfg s%"location" r.headers) r.headers with
  | error x => rw [e1] at e; cases e
  | ok h1 =>
  simp only [e1] at e
  obtain ⟨a1, a2⟩ := fixLocation_spec cfg hn hs e1
  cases e2 : fixContentLocation cfg iri (lastValue cfg s%"content-location" r.headers) h1 with
  | error x => rw [e2] at e; cases e
  | ok h2 =>
  simp only [e2] at e
  obtain ⟨b1, b2⟩ := fixContentLocation_spec cfg hn hs.2 e2 (by
    intro hnone
    rw [lastValue_entries cfg _ _ hn.contentLocation, Option.map_eq_none_iff, List.getLast?_eq_none_iff] at hnone
    rw [a2 _ (by rw [hn.contentLocation]; decide)]
    exact hnone)
  -- the entries of `H`
  have hloc : lastValue cfg s%"location" h2 = lastValue cfg s%"location" h1 := by
    rw [lastValue_entries cfg _ _ hn.location, lastValue_entries cfg _ _ hn.location, b2 _ (by rw [hn.location]; decide)]
  have hlen : entries cfg.lower h2 s%"Content-Length" = entries cfg.lower r.headers s%"Content-Length" := by
    rw [b2 _ (by rw [hn.length]; decide), a2 _ (by rw [hn.length]; decide)]
  have htype : entries cfg.lower h2 s%"Content-Type" = entries cfg.lower r.headers s%"Content-Type" := by
    rw [b2 _ (by rw [hn.contentType]; decide), a2 _ (by rw [hn.contentType]; decide)]
  have keptAll : ∀ k, k = s%"Location" ∨ k = s%"Content-Location" → ∀ p : Str × Str, cfg.lower p.1 = cfg.lower k → kept cfg.lower p = true := by
    intro k hk p hp
    unfold kept isEntityHeader
    rcases hk with rfl | rfl
    · rw [hp, hn.location]
      have : entityHeaders.contains s%"location" = false := by decide
      rw [this]; rfl
    · rw [hp, hn.contentLocation]
      simp [hn.expires, hn.clower]
  -- the last step for `r`
  have hH : (∀ k, k = s%"Location" ∨ k = s%"Content-Location" → entries cfg.lower H k = entries cfg.lower h2 k) ∧
      (r.code ≠ 304 → entries cfg.lower H s%"Content-Type" = entries cfg.lower h2 s%"Content-Type") ∧
      ((informational r.code || r.code == 204) = true → entries cfg.lower H s%"Content-Length" = [(s%"Content-Length", s%"0")]) ∧
      (r.code = 304 → (informational r.code || r.code == 204) = false → H = h2.filter (kept cfg.lower) ∧ ∀ p ∈ H, LegalValue p.2) := by
    have keyLoc : ∀ k, k = s%"Location" ∨ k = s%"Content-Location" → cfg.lower s%"Content-Length" ≠ cfg.lower k := by
      intro k hk
      rw [hn.length]
      rcases hk with rfl | rfl
      · rw [hn.location]; decide
      · rw [hn.contentLocation]; decide
    have keyType : cfg.lower s%"Content-Length" ≠ cfg.lower s%"Content-Type" := by rw [hn.length, hn.contentType]; decide
    unfold fixLength at e
    by_cases c1 : (informational r.code || r.code == 204) = true
    · rw [if_pos c1] at e
      cases e
      refine ⟨fun k hk => entries_set_other h2 k _ _ (keyLoc k hk), fun _ => entries_set_other h2 _ _ _ keyType,
        fun _ => entries_set_same h2 _ _ (by decide), fun _ hf => by rw [c1] at hf; cases hf⟩
    · rw [if_neg c1] at e
      by_cases c2 : (r.code == 304) = true
      · rw [if_pos c2] at e
        obtain ⟨d1, d2⟩ := (dropEntity_spec cfg h2 H).1 e
        refine ⟨fun k hk => by rw [d1]; exact entries_filter h2 k _ (keptAll k hk), fun hf => absurd (by simpa using c2) hf,
          fun hf => absurd hf c1, fun _ _ => ⟨d1, by rw [d1]; exact d2⟩⟩
      · rw [if_neg c2] at e
        have hnot : r.code ≠ 304 := by simpa using c2
        split at e
        · cases e
          exact ⟨fun k hk => entries_set_other h2 k _ _ (keyLoc k hk), fun _ => entries_set_other h2 _ _ _ keyType,
            fun hf => absurd hf c1, fun hf => absurd hf hnot⟩
        · cases e
          exact ⟨fun _ _ => rfl, fun _ => rfl, fun hf => absurd hf c1, fun hf => absurd hf hnot⟩
  obtain ⟨f1, f2, f3, f4⟩ := hH
  -- the headers of `r'`
  have hcont : Headers.contains cfg.lower H s%"content-type" = !(entries cfg.lower H s%"Content-Type").isEmpty :=
    contains_entries H _ _ (by rw [hn.ctype, hn.contentType])
  have hsame : ∀ k, k = s%"Location" ∨ k = s%"Content-Location" ∨ k = s%"Content-Length" →
      entries cfg.lower r'.headers k = entries cfg.lower H k := by
    intro k hk
    rw [hh]
    split
    · rfl
    · apply entries_set_other
      rw [hn.contentType]
      rcases hk with rfl | rfl | rfl
      · rw [hn.location]; decide
      · rw [hn.contentLocation]; decide
      · rw [hn.length]; decide
  have g1 : lastValue cfg s%"location" r'.headers = lastValue cfg s%"location" h1 := by
    rw [lastValue_entries cfg _ _ hn.location, hsame _ (.inl rfl), f1 _ (.inl rfl), ← lastValue_entries cfg _ _ hn.location, hloc]
  have s1 : fixLocation cfg iri absolute (lastValue cfg s%"location" r'.headers) r'.headers = .ok r'.headers := by
    rw [g1]
    rcases a1 with a1 | ⟨l, a1, a3, a4⟩
    · rw [a1]; rfl
    · rw [a1]
      simp only [fixLocation, a3, a4, if_true]
  have g2 : entries cfg.lower r'.headers s%"Content-Location" = entries cfg.lower h2 s%"Content-Location" := by
    rw [hsame _ (.inr (.inl rfl)), f1 _ (.inr rfl)]
  have s2 : fixContentLocation cfg iri (lastValue cfg s%"content-location" r'.headers) r'.headers = .ok r'.headers := by
    rw [lastValue_entries cfg _ _ hn.contentLocation, g2]
    rcases b1 with b1 | ⟨v, b1, b3, b4⟩
    · rw [b1]; rfl
    · rw [b1]
      simp only [List.getLast?_singleton, Option.map_some, fixContentLocation, b4]
      rw [set_id r'.headers _ _ b3 (by rw [g2, b1])]
  unfold wsgiHeaders
  rw [s1]
  simp only
  rw [s2]
  simp only
  have g3 : entries cfg.lower r'.headers s%"Content-Length" = entries cfg.lower H s%"Content-Length" := hsame _ (.inr (.inr rfl))
  have hlenH : getlist cfg.lower H s%"Content-Length" = [] ↔ entries cfg.lower H s%"Content-Length" = [] := by
    rw [getlist_entries, List.map_eq_nil_iff]
  by_cases h304 : r.code = 304
  · -- entity headers are dropped again
    have hni : (informational r.code || r.code == 204) = false := by rw [h304]; decide
    obtain ⟨d1, d2⟩ := f4 h304 hni
    have hnt : entries cfg.lower H s%"Content-Type" = [] := by
      unfold entries
      rw [List.filter_eq_nil_iff]
      intro p hp
      rw [d1] at hp
      have hk := (List.mem_filter.1 hp).2
      intro hx
      have hx : cfg.lower p.1 = s%"content-type" := by simpa [hn.contentType] using hx
      unfold kept isEntityHeader at hk
      rw [hx] at hk
      simp only [List.map_cons, List.map_nil, hn.expires, hn.clower] at hk
      revert hk
      decide
    rw [hcont, hnt] at hh
    simp only [List.isEmpty_nil, Bool.not_true, Bool.false_eq_true, if_false] at hh
    rw [AppP.set_new (by
      intro p hp hx
      have : p ∈ entries cfg.lower H s%"Content-Type" := by simp [entries, hp, hx]
      rw [hnt] at this; cases this) hd] at hh
    unfold fixLength
    rw [hc, hni, if_neg (by simp), h304, if_pos (by decide), if_neg (by simp)]
    rw [(dropEntity_spec cfg r'.headers H).2]
    have hfil : r'.headers.filter (kept cfg.lower) = H := by
      rw [hh]
      simp only [List.filter_append]
      have k1 : H.filter (kept cfg.lower) = H := by
        rw [d1, List.filter_filter]
        apply List.filter_congr
        intro x _; simp
      have k2 : kept cfg.lower (s%"Content-Type", default) = false := by
        unfold kept isEntityHeader
        simp only [hn.contentType, List.map_cons, List.map_nil, hn.expires, hn.clower]
        decide
      rw [k1]
      simp [k2]
    rw [hfil]
    exact ⟨rfl, d2⟩
  · have htH : entries cfg.lower H s%"Content-Type" ≠ [] := by rw [f2 h304, htype]; exact ht h304
    have hne : (entries cfg.lower H s%"Content-Type").isEmpty = false := by
      cases he : entries cfg.lower H s%"Content-Type" with
      | nil => exact absurd he htH
      | cons _ _ => rfl
    rw [hcont, hne] at hh
    simp only [Bool.not_false, if_true] at hh
    rw [hh]
    unfold fixLength
    rw [hc]
    by_cases c1 : (informational r.code || r.code == 204) = true
    · rw [if_pos c1, set_id H _ _ (by decide) (f3 c1), if_neg (by
        rintro ⟨_, _, h3, _⟩
        rw [hlenH, f3 c1] at h3
        cases h3)]
    · rw [if_neg c1, if_neg (by simpa using h304)]
      have hln : (lastValue cfg s%"content-length" H).isNone = true ↔ getlist cfg.lower H s%"Content-Length" = [] := by
        rw [Option.isNone_iff_eq_none, lastValue_none cfg hn.length]
      by_cases c3 : cfg.autoLength = true ∧ r'.body.isSequence = true ∧ getlist cfg.lower H s%"Content-Length" = []
      · rw [if_pos (by simp only [Bool.and_eq_true]; exact ⟨⟨c3.1, c3.2.1⟩, hln.2 c3.2.2⟩), if_pos ⟨c3.1, c3.2.1, c3.2.2, h304⟩]
        unfold setLength
        rw [AppP.set_new (by
          intro p hp hx
          have : p ∈ entries cfg.lower H s%"Content-Length" := by simp [entries, hp, hx]
          rw [hlenH.1 c3.2.2] at this; cases this) (natStr_legal _)]
      · rw [if_neg (by
          intro hx
          simp only [Bool.and_eq_true] at hx
          exact c3 ⟨hx.1.1, hx.1.2, hln.1 hx.2⟩), if_neg (fun hx => c3 ⟨hx.1, hx.2.1, hx.2.2.1⟩)]

/-! ### C119 -/

theorem status_ok (r : Resp) (status : Str) (code : Int) (h : Coherent status code) :
    setStatus r status = ({ r with status := status, code := code }, .ok ()) := by
  obtain ⟨w, h1, h2⟩ := h
  unfold setStatus
  rw [h1]
  simp only [h2]

/-- What a response without passthrough and with bytes in its body sends as its body. -/
theorem yields_bytes (cfg : Cfg) (method : Str) (r : Resp) (bs : List Bytes) (hd : r.direct = false) (hb : r.body.items = bs.map .bytes)
    (hn : Bodyless method r.code → bs = []) : (appIter method r).yields cfg = .ok (bs.map .bytes) := by
  by_cases h : Bodyless method r.code
  · rw [C51_no_body cfg method r h, hn h]; rfl
  · rw [C51_otherwise_body cfg method r h, hd, hb, Desc.encodeAll_bytes]
    rfl

/-- **C119.**  A response that is run as an application and made a response again sends the same to the same
request: status, headers and body.  If the output is buffered and had no length, it gets the one it has.
(`_partial`: for responses with a content type, whose status line goes with its code, that send bytes, and whose addresses are kept
by encoding them again, see `C119_type_false`, `C119_status_false` and `C119_address_false`.) -/
theorem C119_same_partial (cfg : Cfg) (hl : IriP.LowerOk cfg.lower) (iri absolute : Str → Except PyErr Str) (method : Str)
    (default : Str) (hd : LegalValue default) (r : Resp) (hs : Stable cfg iri absolute r.headers) (hc : Coherent r.status r.code)
    (ht : r.code = 304 ∨ getlist cfg.lower r.headers s%"Content-Type" ≠ []) (H : HList) (bs : List Bytes)
    (e : sent cfg iri absolute method r = .ok (r.status, H, bs.map .bytes)) (hasClose ownIter : Bool) :
    (∃ r', fromApp cfg default (asApp r.status H bs hasClose ownIter) false = .ok r' ∧ r'.body.hasClose = hasClose ∧
      sent cfg iri absolute method r' = .ok (r.status, H, bs.map .bytes)) ∧
    ∃ r', fromApp cfg default (asApp r.status H bs hasClose ownIter) true = .ok r' ∧
      sent cfg iri absolute method r' = .ok (r.status,
        (if cfg.autoLength = true ∧ getlist cfg.lower H s%"Content-Length" = [] ∧ r.code ≠ 304 then
          H ++ [(s%"Content-Length", Py.natStr (bs.map List.length).sum)] else H), bs.map .bytes) := by
  have hn := names_of hl
  -- what `r` sends
  unfold sent at e
  cases e1 : wsgiHeaders cfg iri absolute r with
  | error x => rw [e1] at e; cases e
  | ok H' =>
  simp only [e1] at e
  cases e2 : (appIter method r).yields cfg with
  | error x => rw [e2] at e; cases e
  | ok ys =>
  simp only [e2, Except.ok.injEq, Prod.mk.injEq, true_and] at e
  obtain ⟨rfl, rfl⟩ := e
  have hless : Bodyless method r.code → bs = [] := by
    intro h
    rw [C51_no_body cfg method r h] at e2
    cases bs with
    | nil => rfl
    | cons _ _ => simp at e2
  have ht' : r.code ≠ 304 → entries cfg.lower r.headers s%"Content-Type" ≠ [] := by
    intro h he
    rcases ht with ht | ht
    · exact h ht
    · rw [getlist_entries, he] at ht
      exact ht rfl
  have quiet : ∀ p ∈ bs.map (fun b => (([] : List RunApp.Act), b)), RunApp.Act.startExc ∉ p.1 := by
    intro p hp
    obtain ⟨b, _, rfl⟩ := List.mem_map.1 hp
    simp
  have hst := fun h => status_ok ⟨h, [], 0, .list [], [], false⟩ r.status r.code hc
  constructor
  · have hrun : RunApp.run (asApp r.status H' bs hasClose ownIter) false =
        (⟨some (r.status, H'), [], 0⟩, .ok ⟨[], bs.map fun b => ([], b), [], hasClose && !ownIter, ownIter, r.status, H'⟩) := by
      unfold RunApp.run asApp
      simp only [RunApp.acts, RunApp.act, Bool.false_eq_true, if_false]
      cases bs <;> simp [RunApp.await]
    unfold fromApp
    rw [hrun]
    simp only [ofResult, hst, Bool.false_eq_true, if_false, List.nil_append, List.map_map]
    refine ⟨_, rfl, ?_, ?_⟩
    · simp only [Body.hasClose, asApp]
      cases hasClose <;> cases ownIter <;> rfl
    · unfold sent
      rw [resent (r := r) cfg hn default hd hs e1 ht' ?_ ?_]; rotate_left
      · rfl
      · rfl
      simp only [Body.isSequence, Bool.false_eq_true, false_and, and_false, if_false]
      rw [yields_bytes cfg method _ bs ?_ ?_ ?_]
      · rfl
      · rfl
      · exact hless
  · have hrun : ∃ w, RunApp.run (asApp r.status H' bs hasClose ownIter) true =
        (w, .ok ⟨bs, [], [], false, false, r.status, H'⟩) := by
      unfold RunApp.run asApp
      simp only [RunApp.acts, RunApp.act, if_true]
      have hnone : RunAppP.started (((bs.map fun b => (([] : List RunApp.Act), b)).map Prod.fst).flatten ++ []) = none := by
        clear hless quiet e2
        induction bs with
        | nil => rfl
        | cons b bs ih => simpa using ih
      obtain ⟨d1, d2, d3⟩ := RunAppP.drain_quiet ⟨some (r.status, H'), [], 0⟩ [] (bs.map fun b => ([], b)) quiet (by simp)
      generalize RunApp.drain ⟨some (r.status, H'), [], 0⟩ [] (bs.map fun b => ([], b)) = d at d1 d2 d3
      obtain ⟨w, x, y⟩ := d
      simp only [Prod.mk.injEq, List.map_map, Function.comp_def, List.map_id'] at d1
      obtain ⟨hx, hy⟩ := d1
      rw [hx, hy]
      rw [hnone] at d3
      simp only [Option.or] at d3
      simp only
      refine ⟨RunApp.close ⟨[.start r.status H'], bs.map fun b => ([], b), [], hasClose, ownIter⟩ w, ?_⟩
      have : (RunApp.close ⟨[.start r.status H'], bs.map fun b => ([], b), [], hasClose, ownIter⟩ w).response = some (r.status, H') := by
        unfold RunApp.close
        split <;> exact d3
      rw [this]
    obtain ⟨w, hrun⟩ := hrun
    unfold fromApp
    rw [hrun]
    simp only [ofResult, hst, if_true]
    refine ⟨_, rfl, ?_⟩
    unfold sent
    rw [resent (r := r) cfg hn default hd hs e1 ht' ?_ ?_]; rotate_left
    · rfl
    · rfl
    simp only [Body.isSequence, true_and]
    rw [yields_bytes cfg method _ bs ?_ ?_ ?_]; rotate_left
    · rfl
    · rfl
    · exact hless
    simp only [Body.items, List.map_map, Function.comp_def, Item.len]

/-- What is left of an application that raises nothing is what it yields. -/
theorem drain_ok (w w' : RunApp.World) (final : List RunApp.Act) (steps : List (List RunApp.Act × Bytes)) (bs : List Bytes)
    (h : RunApp.drain w final steps = (w', bs, none)) : bs = steps.map Prod.snd := by
  induction steps generalizing w w' bs with
  | nil => unfold RunApp.drain at h; simp only [Prod.mk.injEq] at h; exact h.2.1.symm
  | cons p steps ih =>
    obtain ⟨as, b⟩ := p
    unfold RunApp.drain at h
    cases e : RunApp.acts w as with
    | mk w1 o =>
      cases o with
      | some x => rw [e] at h; simp at h
      | none =>
        cases e2 : RunApp.drain w1 final steps with
        | mk w2 q =>
          obtain ⟨bs', o'⟩ := q
          simp only [e, e2, Prod.mk.injEq] at h
          obtain ⟨rfl, rfl, rfl⟩ := h
          rw [ih w1 w2 bs' e2]; rfl

theorem run_close (a : RunApp.App) (w : RunApp.World) (r : RunApp.Result) (h : RunApp.run a false = (w, .ok r)) :
    (r.wrapped || (r.own && a.hasClose)) = a.hasClose := by
  unfold RunApp.run at h
  split at h
  · simp at h
  · simp only [Bool.false_eq_true, if_false] at h
    split at h
    · simp at h
    · split at h
      · simp at h
      · simp only [Prod.mk.injEq, Except.ok.injEq] at h
        obtain ⟨_, rfl⟩ := h
        simp only
        cases a.hasClose
        · simp
        · simp only [Bool.true_and, Bool.and_true]
          exact Bool.not_or_self _

/-- The headers that an application started with, and a content type if it gave none. -/
def typed (lower : Str → Str) (default : Str) (h : HList) : HList :=
  if h.any (fun p => decide (lower p.1 = lower s%"Content-Type")) then h else h ++ [(s%"Content-Type", default)]

theorem typed_eq (hn : Names lower) (default : Str) (hd : LegalValue default) (h : HList) :
    (if Headers.contains lower h s%"content-type" then h else (Headers.set lower h s%"Content-Type" default []).1) =
      typed lower default h := by
  rw [contains_entries h s%"content-type" s%"Content-Type" (by rw [hn.ctype, hn.contentType])]
  unfold typed
  cases hx : h.any (fun p => decide (lower p.1 = lower s%"Content-Type")) with
  | true =>
    obtain ⟨p, hp, hq⟩ := List.any_eq_true.1 hx
    have : entries lower h s%"Content-Type" ≠ [] := by
      intro e
      exact List.filter_eq_nil_iff.1 e p hp hq
    cases he : entries lower h s%"Content-Type" with
    | nil => exact absurd he this
    | cons _ _ => simp
  | false =>
    have hall : ∀ p ∈ h, lower p.1 ≠ lower s%"Content-Type" := by
      intro p hp e
      have := List.any_eq_false.1 hx p hp
      simp [e] at this
    have he : entries lower h s%"Content-Type" = [] := by
      unfold entries
      rw [List.filter_eq_nil_iff]
      intro p hp
      simpa using hall p hp
    rw [he, AppP.set_new hall hd]
    simp

/-- **C119, applications.**  An application that raises nothing, starts its response in the call or before some bytes it yields and does
not write later is made a response with its status and code, its headers (and a content type if it gave none), everything it
writes and yields as the body, and a `close` if it has one.  Making it of the wanted type does the same; a response is
left as it is, and without the environment of a request no application can be made a response.
(`_partial`: see `C99_write_false` and `C99_empty_false` for the other applications, and `C119_status_false`.) -/
theorem C119_app_partial (cfg : Cfg) (hl : IriP.LowerOk cfg.lower) (default : Str) (hd : LegalValue default)
    (a : RunApp.App) (hq : RunAppP.Quiet a) (status : Str) (code : Int) (h : HList)
    (hs : RunAppP.first ((a.call, none) :: a.steps.map fun p => (p.1, some p.2)) = some (status, h))
    (hp : RunAppP.Prompt (RunAppP.phases a)) (hc : Coherent status code) :
    fromApp cfg default a false = .ok ⟨typed cfg.lower default h, status, code,
      .stream ((RunAppP.output (RunAppP.phases a)).map .bytes) a.hasClose, [], false⟩ ∧
    forceType cfg default true (.app a) = fromApp cfg default a false ∧
    forceType cfg default false (.app a) = .error .typeError ∧
    ∀ r b, forceType cfg default b (.response r) = .ok r := by
  obtain ⟨w, r, e, rfl, rfl, _, h2, _, h4⟩ := RunAppP.C99_unbuffered_partial a hq status h hs
  refine ⟨?_, rfl, rfl, fun _ _ => rfl⟩
  have hb : r.pre ++ r.steps.map Prod.snd = RunAppP.output (RunAppP.phases a) := by
    rw [← h4 hp]
    unfold RunApp.consume at h2 ⊢
    cases ed : RunApp.drain w r.final r.steps with
    | mk w1 q =>
      obtain ⟨bs, o⟩ := q
      simp only [ed, Prod.mk.injEq] at h2 ⊢
      rw [h2.2] at ed
      rw [drain_ok _ _ _ _ _ ed]
  unfold fromApp
  rw [e]
  simp only [ofResult]
  rw [typed_eq (names_of hl) default hd, status_ok _ _ _ hc]
  simp only [Bool.false_eq_true, if_false, hb, run_close a w r e]

/-- With buffering the body is what the application yields, and the application is closed, so that the response has no `close`. -/
theorem C119_buffered_partial (cfg : Cfg) (hl : IriP.LowerOk cfg.lower) (default : Str) (hd : LegalValue default)
    (a : RunApp.App) (hq : RunAppP.Quiet a) (status : Str) (code : Int) (h : HList)
    (hs : RunAppP.started (a.call ++ (a.steps.map Prod.fst).flatten ++ a.final) = some (status, h)) (hc : Coherent status code) :
    fromApp cfg default a true = .ok ⟨typed cfg.lower default h, status, code, .list (a.steps.map fun p => .bytes p.2), [], false⟩ ∧
    (RunApp.run a true).1.closes = if a.hasClose then 1 else 0 := by
  obtain ⟨c1, _, c3⟩ := RunAppP.C99_buffered_partial a hq.1
  refine ⟨?_, c1⟩
  obtain ⟨w, r, e, rfl, rfl, h2⟩ := c3 hq status h hs
  have hb : r.pre = a.steps.map Prod.snd := by
    have : r.steps = [] := by
      unfold RunApp.run at e
      split at e
      · simp at e
      · simp only [if_true] at e
        split at e
        · simp at e
        · split at e
          · simp at e
          · simp only [Prod.mk.injEq, Except.ok.injEq] at e
            obtain ⟨_, rfl⟩ := e
            rfl
    have h2 := h2 w
    unfold RunApp.consume at h2
    rw [this] at h2
    unfold RunApp.drain at h2
    simp only [Prod.mk.injEq, List.append_nil] at h2
    exact h2.1
  unfold fromApp
  rw [e]
  simp only [ofResult]
  rw [typed_eq (names_of hl) default hd, status_ok _ _ _ hc]
  simp only [if_true, hb, List.map_map, Function.comp_def]

/-! ### What is not kept -/

/-- The application that starts with the given status and headers, and yields `hi`. -/
def hiApp (status : Str) (h : HList) : RunApp.App := ⟨[.start status h], [([], b%"hi")], [], false, false⟩

/-- It is not so that an application made a response keeps its headers: one without content type gets one. -/
theorem C119_type_false : ¬ ∀ (a : RunApp.App) (status : Str) (h : HList) (r : Resp), RunAppP.started a.call = some (status, h) →
    fromApp JoinP.locCfg s%"text/plain; charset=utf-8" a false = .ok r → r.headers = h := by
  intro h
  have := h (hiApp s%"200 OK" []) s%"200 OK" [] ⟨[(s%"Content-Type", s%"text/plain; charset=utf-8")], s%"200 OK", 200,
    .stream [.bytes b%"hi"] false, [], false⟩ rfl (by decide +kernel)
  revert this
  decide +kernel

/-- It is not so that every status is kept: one that does not start with a number is sent with a zero in front, and
with an empty one there is no response. -/
theorem C119_status_false :
    fromApp JoinP.locCfg s%"text/plain" (hiApp s%"OK" [(s%"Content-Type", s%"a/b")]) false =
      .ok ⟨[(s%"Content-Type", s%"a/b")], s%"0 OK", 0, .stream [.bytes b%"hi"] false, [], false⟩ ∧
    fromApp JoinP.locCfg s%"text/plain" (hiApp s%" " [(s%"Content-Type", s%"a/b")]) false = .error .indexError := by decide +kernel

/-- A streamed page and its status. -/
def streamed : Resp := ⟨[(s%"Content-Type", s%"text/html")], s%"200 OK", 200, .stream [.bytes b%"hello"] false, [], false⟩

set_option synthInstance.maxSize 1000 in
/-- It is not so that the response made of the answer to a `HEAD` request announces the length of the page: if the answer is
buffered, the length is that of the missing body. -/
theorem C119_head_false : ∃ r',
    sent JoinP.locCfg .ok .ok s%"HEAD" streamed = .ok (s%"200 OK", [(s%"Content-Type", s%"text/html")], []) ∧
    sent JoinP.locCfg .ok .ok s%"GET" streamed = .ok (s%"200 OK", [(s%"Content-Type", s%"text/html")], [.bytes b%"hello"]) ∧
    fromApp JoinP.locCfg s%"text/plain" (asApp s%"200 OK" [(s%"Content-Type", s%"text/html")] [] true true) true = .ok r' ∧
    sent JoinP.locCfg .ok .ok s%"HEAD" r' =
      .ok (s%"200 OK", [(s%"Content-Type", s%"text/html"), (s%"Content-Length", s%"0")], []) :=
  ⟨⟨[(s%"Content-Type", s%"text/html")], s%"200 OK", 200, .list [], [], false⟩, by decide +kernel⟩

set_option synthInstance.maxSize 1000 in
/-- It is not so that addresses are always kept: a content location with several slashes in front loses two each time. -/
theorem C119_address_false : ∃ (r r' : Resp) (H H' : HList),
    sent JoinP.locCfg (Iri.iriToUri IriP.demoIdna IriP.demoLower IriP.demoUses) .ok s%"GET" r = .ok (r.status, H, []) ∧
    fromApp JoinP.locCfg s%"text/plain" (asApp r.status H [] true true) false = .ok r' ∧
    sent JoinP.locCfg (Iri.iriToUri IriP.demoIdna IriP.demoLower IriP.demoUses) .ok s%"GET" r' = .ok (r.status, H', []) ∧
    getlist IriP.demoLower H s%"Content-Location" = [s%"////evil.com"] ∧
    getlist IriP.demoLower H' s%"Content-Location" = [s%"//evil.com"] :=
  ⟨⟨[(s%"Content-Type", s%"a/b"), (s%"Content-Location", s%"//////evil.com")], s%"200 OK", 200, .stream [] false, [], false⟩,
   ⟨[(s%"Content-Type", s%"a/b"), (s%"Content-Location", s%"////evil.com")], s%"200 OK", 200, .stream [] true, [], false⟩,
   [(s%"Content-Type", s%"a/b"), (s%"Content-Location", s%"////evil.com")],
   [(s%"Content-Type", s%"a/b"), (s%"Content-Location", s%"//evil.com")], by decide +kernel⟩

/-- A page at an address. -/
def placed : Resp :=
  ⟨[(s%"Content-Type", s%"text/html"), (s%"Location", s%"http://a.org/x y")], s%"201 CREATED", 201, .stream [.bytes b%"hello"] true, [], false⟩

/-- The hypotheses of `C119_same_partial` hold of a page with an address, with the real encoding of addresses. -/
example : Stable JoinP.locCfg (Iri.iriToUri IriP.demoIdna IriP.demoLower IriP.demoUses) .ok placed.headers ∧
    Coherent placed.status placed.code ∧ getlist JoinP.locCfg.lower placed.headers s%"Content-Type" ≠ [] ∧
    sent JoinP.locCfg (Iri.iriToUri IriP.demoIdna IriP.demoLower IriP.demoUses) .ok s%"GET" placed =
      .ok (s%"201 CREATED", [(s%"Content-Type", s%"text/html"), (s%"Location", s%"http://a.org/x%20y")], [.bytes b%"hello"]) := by
  refine ⟨⟨?_, ?_⟩, ⟨s%"201", by decide, by decide +kernel⟩, by decide +kernel, by decide +kernel⟩
  · intro l a b h1 h2 h3
    have : lastValue JoinP.locCfg s%"location" placed.headers = some s%"http://a.org/x y" := by decide +kernel
    rw [this] at h1
    cases h1
    have : Iri.iriToUri IriP.demoIdna IriP.demoLower IriP.demoUses s%"http://a.org/x y" = .ok s%"http://a.org/x%20y" := by decide +kernel
    rw [this] at h2
    cases h2
    cases h3
    decide +kernel
  · intro l a h1
    have : lastValue JoinP.locCfg s%"content-location" placed.headers = none := by decide +kernel
    rw [this] at h1
    cases h1

/-- The hypotheses of `C119_app_partial` and `C119_buffered_partial` hold of an application that starts while it is iterated over. -/
example :
    let a : RunApp.App := ⟨[], [([.start s%"200 OK" [], .write b%"a"], b%"b"), ([], b%"c")], [], true, true⟩
    RunAppP.Quiet a ∧ RunAppP.Prompt (RunAppP.phases a) ∧ Coherent s%"200 OK" 200 ∧
    RunAppP.first ((a.call, none) :: a.steps.map fun p => (p.1, some p.2)) = some (s%"200 OK", []) ∧
    RunAppP.started (a.call ++ (a.steps.map Prod.fst).flatten ++ a.final) = some (s%"200 OK", []) ∧
    RunAppP.output (RunAppP.phases a) = [b%"a", b%"b", b%"c"] ∧ LegalValue s%"text/plain" := by
  refine ⟨by unfold RunAppP.Quiet; decide, ?_, ⟨s%"200", by decide, by decide +kernel⟩, by decide +kernel, by decide +kernel, by decide +kernel, by decide⟩
  simp [RunAppP.phases, RunAppP.Prompt, RunAppP.started, RunAppP.writes]

end Verif.Props.FromAppP
