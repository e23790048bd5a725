import Verif.Props.AcceptHeader
import Verif.RegexLang
import Verif.Spec.Log
import Verif.Props.OrderedMultiDict
/-!
Which `Accept`, `Accept-Language` and `Accept-Charset` headers can be read, and what they are read as.
-/
namespace Verif.Accept
open Verif Verif.Log

/-! ### Specification -/

/-- Words of letters and digits with single hyphens between them. -/
def Token (t : Str) : Prop := ∀ w ∈ Py.splitOn '-' t, w ≠ [] ∧ ∀ c ∈ w, c.isAlphanum = true

/-- What is asked of the value of a range.  Nothing is asked of what follows. -/
def ValueOk : Kind → Str → Prop
  | .contentType, v => ∃ t c r, v = t ++ '/' :: c :: r ∧ (t = s%"*" ∨ Token t) ∧ (c = '*' ∨ c.isAlphanum = true)
  | _, v => v = s%"*" ∨ ∃ c r, v = c :: r ∧ c.isAlphanum = true

/-- `name=value`, with space around either. -/
def Param (p : Str) (nv : Str × Str) : Prop :=
  ∃ a b, p = a ++ '=' :: b ∧ '=' ∉ a ∧ nv = (Py.strip a, Py.strip b)

/-- Two lists related element by element. -/
def Each {α β : Type} (R : α → β → Prop) : List α → List β → Prop
  | [], [] => True
  | a :: as, b :: bs => R a b ∧ Each R as bs
  | _, _ => False

/-- What is between two commas and the range it stands for: a value, then parameters.  Of a name
given several times the last value counts, at the first place. -/
def Reads (float : Str → Option Flt) (k : Kind) (item : Str) (r : Rng) : Prop :=
  ∃ v ps nvs, Py.splitOn ';' item = v :: ps ∧ Each Param ps nvs ∧
    r.value = Py.strip v ∧ ValueOk k r.value ∧
    (∃ x, float (((valuesFor nvs s%"q").getLast?).getD s%"1.0") = some x ∧ r.q = x.clamp) ∧
    r.params.map (·.1) = (firstKeys (nvs.map (·.1))).filter (· ≠ s%"q") ∧
    (∀ p ∈ r.params, (valuesFor nvs p.1).getLast? = some p.2) ∧
    (k ≠ .contentType → ∀ nv ∈ nvs, nv.1 = s%"q")

/-! ### Values -/

theorem lang_word (w : Str) : Re.Lang (.plus (.cls alnum)) w ↔ w ≠ [] ∧ ∀ c ∈ w, c.isAlphanum = true := by
  constructor
  · rintro ⟨u, v, rfl, ⟨c, rfl, hc⟩, ts, rfl, hts⟩
    refine ⟨by simp, ?_⟩
    intro x hx
    rcases List.mem_append.1 hx with hx | hx
    · simp at hx; subst hx; exact hc
    · obtain ⟨t, ht, hx⟩ := List.mem_flatten.1 hx
      obtain ⟨_, d, rfl, hd⟩ := hts t ht
      simp at hx; subst hx; exact hd
  · rintro ⟨h1, h2⟩
    obtain ⟨c, r, rfl⟩ := List.exists_cons_of_ne_nil h1
    refine ⟨[c], r, rfl, ⟨c, rfl, h2 c (by simp)⟩, r.map ([·]), ?_, ?_⟩
    · induction r with
      | nil => rfl
      | cons d r ih => simp at h2 ⊢; exact ih (by simp) (by simpa [h2.1] using h2.2.2)
    · intro u hu
      obtain ⟨d, hd, rfl⟩ := List.mem_map.1 hu
      exact ⟨by simp, d, rfl, h2 d (by simp [hd])⟩

theorem alnum_ne_hyphen {c : Char} (h : c.isAlphanum = true) : c ≠ '-' := by
  rintro rfl; revert h; decide

theorem lang_token (t : Str) : Re.Lang tokenRe t ↔ Token t := by
  constructor
  · rintro ⟨u, v, rfl, hu, ts, rfl, hts⟩
    rw [lang_word] at hu
    have key : ∀ (ts : List Str) (u : Str), (u ≠ [] ∧ ∀ c ∈ u, c.isAlphanum = true) →
        (∀ x ∈ ts, x ≠ [] ∧ Re.Lang (.seq (.cls (· == '-')) (.plus (.cls alnum))) x) → Token (u ++ ts.flatten) := by
      intro ts
      induction ts with
      | nil =>
        intro u hu _ w hw
        rw [List.flatten_nil, List.append_nil, Py.splitOn_single _ _ fun hm => alnum_ne_hyphen (hu.2 _ hm) rfl] at hw
        simp at hw; subst hw; exact hu
      | cons x ts ih =>
        intro u hu hts w hw
        obtain ⟨_, a, b, rfl, ⟨c, rfl, hc⟩, hb⟩ := hts x (by simp)
        rw [lang_word] at hb
        simp at hc; subst hc
        simp only [List.flatten_cons, List.cons_append, List.nil_append] at hw
        rw [Py.splitOn_append '-' u _ fun hm => alnum_ne_hyphen (hu.2 _ hm) rfl] at hw
        rcases List.mem_cons.1 hw with rfl | hw
        · exact hu
        · exact ih b hb (fun y hy => hts y (by simp [hy])) w hw
    exact key ts u hu hts
  · intro h
    have key : ∀ (ws : List Str), ws ≠ [] → (∀ w ∈ ws, w ≠ [] ∧ ∀ c ∈ w, c.isAlphanum = true) →
        Re.Lang tokenRe (Py.join s%"-" ws) := by
      intro ws
      cases ws with
      | nil => simp
      | cons w ws =>
        intro _ hw
        refine ⟨w, (ws.map ('-' :: ·)).flatten, ?_, (lang_word w).2 (hw w (by simp)), ws.map ('-' :: ·), rfl, ?_⟩
        · clear hw
          induction ws generalizing w with
          | nil => simp [Py.join]
          | cons v ws ih => simp [Py.join, ih]
        · intro u hu
          obtain ⟨v, hv, rfl⟩ := List.mem_map.1 hu
          exact ⟨by simp, ['-'], v, rfl, ⟨'-', rfl, rfl⟩, (lang_word v).2 (hw v (by simp [hv]))⟩
    have := key (Py.splitOn '-' t) (Py.splitOn_ne_nil _ _) h
    rwa [show s%"-" = ['-'] from rfl, Py.join_splitOn] at this

theorem first_isSome {r : Re Char} (hr : Re.Pure r) (v : Str) :
    (Re.first r none v).isSome = true ↔ ∃ t s, v = t ++ s ∧ Re.Lang r t := by
  unfold Re.first
  constructor
  · intro h
    cases hm : Re.run r none v with
    | nil => rw [hm] at h; simp at h
    | cons m ms =>
      have := (Re.mem_run hr none v m).1 (by rw [hm]; simp)
      exact ⟨m.txt, m.rest, this.1.symm, this.2.2⟩
  · rintro ⟨t, s, rfl, ht⟩
    have := (Re.mem_run hr none (t ++ s) ⟨t, s, []⟩).2 ⟨rfl, rfl, ht⟩
    cases hm : Re.run r none (t ++ s) with
    | nil => rw [hm] at this; simp at this
    | cons m ms => simp

theorem token_head {t : Str} (h : Token t) : ∃ c r, t = c :: r ∧ c.isAlphanum = true := by
  cases t with
  | nil => exact absurd rfl (h [] (by simp [Py.splitOn])).1
  | cons c r =>
    refine ⟨c, r, rfl, ?_⟩
    cases hs : Py.splitOn '-' (c :: r) with
    | nil => exact absurd hs (Py.splitOn_ne_nil _ _)
    | cons w ws =>
      obtain ⟨h1, h2⟩ := h w (by rw [hs]; simp)
      have hj := Py.join_splitOn '-' (c :: r)
      rw [hs] at hj
      obtain ⟨d, w', rfl⟩ := List.exists_cons_of_ne_nil h1
      have : d = c := by
        cases ws with
        | nil => simp [Py.join] at hj; exact hj.1
        | cons => simp [Py.join] at hj; exact hj.1
      exact this ▸ h2 d (by simp)

theorem token_single {c : Char} (h : c.isAlphanum = true) : Token [c] := by
  intro w hw
  rw [Py.splitOn_single _ _ (by simp; exact fun e => alnum_ne_hyphen h e.symm)] at hw
  simp at hw; subst hw
  exact ⟨by simp, by simp [h]⟩

theorem strip_last {s : Str} (h : Py.strip s = s) : ∀ a c, s = a ++ [c] → Py.isSpace c = false := by
  rintro a c rfl
  cases hc : Py.isSpace c with
  | false => rfl
  | true =>
    exfalso
    have hl : (Py.strip (a ++ [c])).length ≤ a.length := by
      unfold Py.strip Py.stripP Py.rstripP Py.lstripP
      have key : ∀ l : Str, ((l ++ [c]).dropWhile Py.isSpace).reverse.dropWhile Py.isSpace =
          (l.dropWhile Py.isSpace).reverse.dropWhile Py.isSpace := by
        intro l
        rw [List.dropWhile_append]
        split
        · rename_i he
          simp only [List.isEmpty_iff] at he
          simp [he, List.dropWhile, hc]
        · simp [hc]
      rw [key, List.length_reverse]
      refine Nat.le_trans (List.dropWhile_sublist _).length_le ?_
      rw [List.length_reverse]
      exact (List.dropWhile_sublist _).length_le
    rw [h] at hl
    simp at hl
    omega

/-- The pattern of plain values. -/
theorem valid_plain {v : Str} (hv : Py.strip v = v) : (Re.first valueRe none v).isSome = true ↔
    v = s%"*" ∨ ∃ c r, v = c :: r ∧ c.isAlphanum = true := by
  have hp : Re.Pure tokenRe := by simp [tokenRe, Re.Pure, Re.plus]
  have h1 : (Re.first valueRe none v).isSome = ((Re.first tokenRe none v).isSome ||
      (Re.first (.seq (.cls (· == '*')) (.eos (· == '\n'))) none v).isSome) := by
    unfold Re.first valueRe
    simp only [Re.run]
    cases Re.run tokenRe none v <;> simp
  rw [h1, Bool.or_eq_true, first_isSome hp]
  constructor
  · rintro (⟨t, s, rfl, ht⟩ | h)
    · obtain ⟨c, r, rfl, hc⟩ := token_head ((lang_token t).1 ht)
      exact .inr ⟨c, r ++ s, by simp, hc⟩
    · left
      unfold Re.first at h
      cases v with
      | nil => simp [Re.run] at h
      | cons c r =>
        by_cases hc : c = '*'
        · subst hc
          cases r with
          | nil => rfl
          | cons d r =>
            by_cases hd : d = '\n' ∧ r = []
            · obtain ⟨rfl, rfl⟩ := hd
              exact absurd (strip_last hv ['*'] '\n' rfl) (by decide)
            · exfalso
              simp [Re.run, Re.andThen] at h
              exact hd h
        · simp [Re.run, hc] at h
  · rintro (rfl | ⟨c, r, rfl, hc⟩)
    · right; decide
    · exact .inl ⟨[c], r, rfl, (lang_token _).2 (token_single hc)⟩

/-- The pattern of content types. -/
theorem valid_content (v : Str) : (Re.first contentTypeRe none v).isSome = true ↔ ValueOk .contentType v := by
  have hp : Re.Pure contentTypeRe := by
    simp [contentTypeRe, tokenRe, Re.cat, Re.opt, Re.Pure, Re.plus]
  rw [first_isSome hp]
  constructor
  · rintro ⟨t, s, rfl, u, w, rfl, hu, x, y, rfl, ⟨c, rfl, hc⟩, hy⟩
    simp at hc; subst hc
    have hy' : ∃ c r, y = c :: r ∧ (c = '*' ∨ c.isAlphanum = true) := by
      rcases hy with ⟨a, b, rfl, ha, b1, b2, rfl, hb, _⟩ | ⟨c, rfl, hc⟩
      · obtain ⟨c, r, rfl, hc⟩ := token_head ((lang_token _).1 hb)
        rcases ha with ⟨a1, a2, rfl, ha, _⟩ | ha
        · obtain ⟨d, r', rfl, hd⟩ := token_head ((lang_token _).1 ha)
          exact ⟨d, _, rfl, .inr hd⟩
        · have : a = [] := ha
          subst this
          exact ⟨c, _, rfl, .inr hc⟩
      · exact ⟨c, [], rfl, .inl (by simpa using hc)⟩
    obtain ⟨c, r, rfl, hc⟩ := hy'
    refine ⟨u, c, r ++ s, by simp, ?_, hc⟩
    rcases hu with hu | ⟨d, rfl, hd⟩
    · exact .inr ((lang_token u).1 hu)
    · left; simp at hd; rw [hd]
  · rintro ⟨t, c, r, rfl, ht, hc⟩
    refine ⟨t ++ ['/', c], r, by simp, t, ['/', c], rfl, ?_, ['/'], [c], rfl, ⟨'/', rfl, rfl⟩, ?_⟩
    · rcases ht with rfl | ht
      · exact .inr ⟨'*', rfl, rfl⟩
      · exact .inl ((lang_token t).2 ht)
    · rcases hc with rfl | hc
      · exact .inr ⟨'*', rfl, rfl⟩
      · exact .inl ⟨[], [c], rfl, .inr rfl, [c], [], rfl, (lang_token _).2 (token_single hc), .inr rfl⟩

theorem validValue_iff (k : Kind) {v : Str} (hv : Py.strip v = v) : validValue k v = true ↔ ValueOk k v := by
  cases k with
  | contentType => exact valid_content v
  | language => exact valid_plain hv
  | charset => exact valid_plain hv

/-! ### Parameters -/

theorem first_split {c : Char} {p : Str} (h : c ∈ p) : ∃ a b, p = a ++ c :: b ∧ c ∉ a := by
  induction p with
  | nil => simp at h
  | cons d p ih =>
    by_cases hd : d = c
    · exact ⟨[], p, by simp [hd], by simp⟩
    · obtain ⟨a, b, e, ha⟩ := ih (by simpa [Ne.symm hd] using h)
      exact ⟨d :: a, b, by simp [e], by simp [ha, Ne.symm hd]⟩

theorem param_eq (p : Str) : (∃ a b, Py.split1 '=' p = (a, some b) ∧ p = a ++ '=' :: b ∧ '=' ∉ a) ∨
    (∃ a, Py.split1 '=' p = (a, none) ∧ '=' ∉ p) := by
  by_cases h : '=' ∈ p
  · left
    obtain ⟨a, b, rfl, ha⟩ := first_split h
    exact ⟨a, b, Py.split1_some _ _ _ ha, rfl, ha⟩
  · exact .inr ⟨p, Py.split1_none _ _ h, h⟩

theorem param_unique {a b a' b' : Str} (h : a ++ '=' :: b = a' ++ '=' :: b') (ha : '=' ∉ a) (ha' : '=' ∉ a') :
    a = a' ∧ b = b' := by
  have := congrArg (Py.split1 '=') h
  rw [Py.split1_some _ _ _ ha, Py.split1_some _ _ _ ha'] at this
  simpa using this

/-- The dictionary that assigning pairs in turn makes. -/
def assign (d nvs : List (Str × Str)) : List (Str × Str) := nvs.foldl (fun d p => Dict.set d p.1 p.2) d

theorem splitParams_ok (ps : List Str) : ∀ (acc d : List (Str × Str)), splitParams acc ps = .ok d ↔
    ∃ nvs, Each Param ps nvs ∧ d = assign acc nvs := by
  induction ps with
  | nil =>
    intro acc d
    simp only [splitParams]
    constructor
    · intro h; exact ⟨[], trivial, (Except.ok.inj h).symm⟩
    · rintro ⟨nvs, h, rfl⟩
      cases nvs with
      | nil => rfl
      | cons => exact h.elim
  | cons p ps ih =>
    intro acc d
    simp only [splitParams]
    rcases param_eq p with ⟨a, b, h1, h2, h3⟩ | ⟨a, h1, h2⟩
    · rw [h1]
      simp only
      rw [ih]
      constructor
      · rintro ⟨nvs, h, rfl⟩
        exact ⟨(Py.strip a, Py.strip b) :: nvs, ⟨⟨a, b, h2, h3, rfl⟩, h⟩, rfl⟩
      · rintro ⟨nvs, h, rfl⟩
        cases nvs with
        | nil => exact h.elim
        | cons nv nvs =>
          obtain ⟨⟨a', b', h4, h5, rfl⟩, h⟩ := h
          obtain ⟨rfl, rfl⟩ := param_unique (h2.symm.trans h4) h3 h5
          exact ⟨nvs, h, rfl⟩
    · rw [h1]
      simp only [reduceCtorEq, false_iff]
      rintro ⟨nvs, h, rfl⟩
      cases nvs with
      | nil => exact h.elim
      | cons nv nvs =>
        obtain ⟨⟨a', b', h4, h5, rfl⟩, h⟩ := h
        exact h2 (h4 ▸ by simp)

theorem splitParams_error (ps : List Str) : ∀ (acc : List (Str × Str)) e, splitParams acc ps = .error e → e = .valueError := by
  induction ps with
  | nil => intro acc e h; simp [splitParams] at h
  | cons p ps ih =>
    intro acc e h
    simp only [splitParams] at h
    rcases param_eq p with ⟨a, b, h1, h2, h3⟩ | ⟨a, h1, h2⟩
    · rw [h1] at h; exact ih _ _ h
    · rw [h1] at h; exact (Except.error.inj h).symm

theorem assign_concat (d nvs : List (Str × Str)) (p : Str × Str) : assign d (nvs ++ [p]) = Dict.set (assign d nvs) p.1 p.2 := by
  simp [assign]

theorem list_snoc {α : Type} {P : List α → Prop} (h0 : P []) (h1 : ∀ l a, P l → P (l ++ [a])) (l : List α) : P l := by
  have : ∀ l : List α, P l.reverse := by
    intro l
    induction l with
    | nil => exact h0
    | cons a l ih => rw [List.reverse_cons]; exact h1 _ _ ih
  simpa using this l.reverse

theorem assign_keys (nvs : List (Str × Str)) : Dict.keys (assign [] nvs) = firstKeys (nvs.map (·.1)) := by
  refine list_snoc (P := fun nvs => Dict.keys (assign [] nvs) = firstKeys (nvs.map (·.1))) rfl ?_ nvs
  intro l p ih
  rw [assign_concat, Dict.keys_set, ih, List.map_append, List.map_singleton, Verif.Props.OMDAux.firstKeys_concat]
  by_cases h : p.1 ∈ l.map (·.1) <;> simp only [Verif.Props.OMDAux.mem_firstKeys, h, if_true, if_false]

theorem assign_get (nvs : List (Str × Str)) (n : Str) : Dict.get (assign [] nvs) n = (valuesFor nvs n).getLast? := by
  refine list_snoc (P := fun nvs => Dict.get (assign [] nvs) n = (valuesFor nvs n).getLast?) rfl ?_ nvs
  intro l p ih
  rw [assign_concat, Dict.get_set, ih]
  unfold valuesFor
  rw [List.filter_append, List.map_append]
  by_cases h : n = p.1
  · subst h; simp
  · simp [h, Ne.symm h]

theorem assign_nodup (nvs : List (Str × Str)) : (Dict.keys (assign [] nvs)).Nodup := by
  rw [assign_keys]; exact Verif.Props.OMDAux.nodup_firstKeys _

theorem del_keys (nvs : List (Str × Str)) : (Dict.del (assign [] nvs) s%"q").map (·.1) =
    (firstKeys (nvs.map (·.1))).filter (· ≠ s%"q") := by
  have h1 := Dict.keys_del (assign [] nvs) s%"q"
  have h2 := assign_nodup nvs
  refine h1.trans (Eq.trans (@List.Nodup.erase_eq_filter Str instBEqOfDecidableEq inferInstance _ h2 _) ?_)
  rw [assign_keys]
  congr 1
  funext x
  simp [bne]
  rfl

theorem del_values (nvs : List (Str × Str)) : ∀ p ∈ Dict.del (assign [] nvs) s%"q", (valuesFor nvs p.1).getLast? = some p.2 := by
  intro p hp
  have h1 := Dict.get_of_mem (Dict.nodup_del (assign_nodup nvs) s%"q") hp
  rw [Dict.get_del (assign_nodup nvs)] at h1
  split at h1
  · simp at h1
  · rw [← assign_get]; exact h1

/-- A dictionary is its names and the value of each. -/
theorem params_unique {d e : List (Str × Str)} {f : Str → Option Str} (hk : d.map (·.1) = e.map (·.1))
    (hd : ∀ p ∈ d, f p.1 = some p.2) (he : ∀ p ∈ e, f p.1 = some p.2) : d = e := by
  induction d generalizing e with
  | nil => simp at hk; exact hk.symm
  | cons p d ih =>
    cases e with
    | nil => simp at hk
    | cons r e =>
      simp only [List.map_cons, List.cons.injEq] at hk
      have h1 := hd p (by simp)
      have h2 := he r (by simp)
      rw [hk.1, h2] at h1
      rw [ih hk.2 (fun x hx => hd x (by simp [hx])) fun x hx => he x (by simp [hx])]
      congr 1
      exact Prod.ext hk.1 (Option.some.inj h1).symm

theorem del_nil_iff (nvs : List (Str × Str)) : Dict.del (assign [] nvs) s%"q" = [] ↔ ∀ nv ∈ nvs, nv.1 = s%"q" := by
  have h := del_keys nvs
  constructor
  · intro hn
    rw [hn] at h
    intro nv hm
    false_or_by_contra
    rename_i hne
    have : nv.1 ∈ (firstKeys (nvs.map (·.1))).filter (· ≠ s%"q") := by
      rw [List.mem_filter]
      exact ⟨Verif.Props.OMDAux.mem_firstKeys.2 (List.mem_map_of_mem hm), by simpa using hne⟩
    rw [← h] at this
    simp at this
  · intro ha
    have : (firstKeys (nvs.map (·.1))).filter (· ≠ s%"q") = [] := by
      rw [List.filter_eq_nil_iff]
      intro x hx
      obtain ⟨nv, hm, rfl⟩ := List.mem_map.1 (Verif.Props.OMDAux.mem_firstKeys.1 hx)
      simp [ha nv hm]
    rw [this] at h
    exact List.map_eq_nil_iff.1 h

/-! ### Items and headers -/

/-- One item as the code reads it. -/
def readItem (float : Str → Option Flt) (k : Kind) (item : Str) : Except PyErr Rng :=
  match splitRange item with
  | .error e => .error e
  | .ok (v, q, ps) => mkRange float k v q ps

theorem mkRange_ok {float : Str → Option Flt} {k : Kind} {v q : Str} {d : List (Str × Str)} (hv : Py.strip v = v) (r : Rng) :
    mkRange float k v q d = .ok r ↔ ValueOk k v ∧ (∃ x, float q = some x ∧ r = ⟨v, x.clamp, d⟩) ∧ (k ≠ .contentType → d = []) := by
  unfold mkRange
  rw [← validValue_iff k hv]
  by_cases h1 : validValue k v = true
  · rw [if_pos h1]
    cases hf : float q with
    | none => simp
    | some x =>
      simp only [h1, true_and, Option.some.injEq]
      by_cases h2 : k ≠ .contentType ∧ d ≠ []
      · rw [if_pos h2]
        simp only [reduceCtorEq, false_iff]
        rintro ⟨_, h⟩
        exact h2.2 (h h2.1)
      · rw [if_neg h2]
        constructor
        · intro h
          refine ⟨⟨x, rfl, (Except.ok.inj h).symm⟩, fun hk => ?_⟩
          false_or_by_contra
          rename_i hd
          exact h2 ⟨hk, hd⟩
        · rintro ⟨⟨y, rfl, rfl⟩, _⟩; rfl
  · rw [if_neg h1]
    simp [h1]

theorem mkRange_error {float : Str → Option Flt} {k : Kind} {v q : Str} {d : List (Str × Str)} {e : PyErr}
    (h : mkRange float k v q d = .error e) : e = .valueError := by
  unfold mkRange at h
  split at h
  · cases hf : float q with
    | none => rw [hf] at h; exact (Except.error.inj h).symm
    | some x =>
      rw [hf] at h
      simp only at h
      split at h
      · exact (Except.error.inj h).symm
      · cases h
  · exact (Except.error.inj h).symm

theorem readItem_ok (float : Str → Option Flt) (k : Kind) (item : Str) (r : Rng) :
    readItem float k item = .ok r ↔ Reads float k item r := by
  unfold readItem splitRange Reads
  cases hs : Py.splitOn ';' item with
  | nil => exact absurd hs (Py.splitOn_ne_nil _ _)
  | cons v ps =>
    simp only
    constructor
    · intro h
      cases hp : splitParams [] ps with
      | error e => rw [hp] at h; simp at h
      | ok d =>
        rw [hp] at h
        simp only at h
        obtain ⟨nvs, h1, rfl⟩ := (splitParams_ok ps [] d).1 hp
        obtain ⟨h2, ⟨x, h3, rfl⟩, h4⟩ := (mkRange_ok (Py.stripP_idem _ v) r).1 h
        refine ⟨v, ps, nvs, rfl, h1, rfl, h2, ⟨x, ?_, rfl⟩, del_keys nvs, del_values nvs, fun hk => (del_nil_iff nvs).1 (h4 hk)⟩
        rw [assign_get] at h3; exact h3
    · rintro ⟨v', ps', nvs, he, h1, h2, h3, ⟨x, h4, h5⟩, h6, h7, h8⟩
      obtain ⟨rfl, rfl⟩ : v = v' ∧ ps = ps' := by simpa using he
      rw [(splitParams_ok ps [] (assign [] nvs)).2 ⟨nvs, h1, rfl⟩]
      simp only
      refine (mkRange_ok (Py.stripP_idem _ v) r).2 ?_
      have h3' : ValueOk k (Py.strip v) := h2 ▸ h3
      refine ⟨h3', ⟨x, by rw [assign_get]; exact h4, ?_⟩, fun hk => (del_nil_iff nvs).2 (h8 hk)⟩
      have := params_unique (f := fun n => (valuesFor nvs n).getLast?) (h6.trans (del_keys nvs).symm) h7 (del_values nvs)
      obtain ⟨rv, rq, rp⟩ := r
      simp only at h2 h5 this
      rw [h5, this]
      exact congrArg (fun w => Rng.mk w _ _) h2

theorem readItem_error {float : Str → Option Flt} {k : Kind} {item : Str} {e : PyErr}
    (h : readItem float k item = .error e) : e = .valueError := by
  unfold readItem splitRange at h
  cases hs : Py.splitOn ';' item with
  | nil => exact absurd hs (Py.splitOn_ne_nil _ _)
  | cons v ps =>
    rw [hs] at h
    simp only at h
    cases hp : splitParams [] ps with
    | error e' =>
      rw [hp] at h
      simp only at h
      rw [← Except.error.inj h]
      exact splitParams_error ps [] e' hp
    | ok d => rw [hp] at h; exact mkRange_error h

theorem parseRanges_cons (float : Str → Option Flt) (k : Kind) (s : Str) (ss : List Str) :
    parseRanges float k (s :: ss) = match readItem float k s with
      | .error e => .error e
      | .ok r => match parseRanges float k ss with
        | .error e => .error e
        | .ok rs => .ok (r :: rs) := by
  simp only [parseRanges, readItem]
  cases splitRange s with
  | error e => rfl
  | ok p =>
    obtain ⟨v, q, ps⟩ := p
    simp only
    cases mkRange float k v q ps with
    | error e => rfl
    | ok r =>
      simp only
      cases parseRanges float k ss <;> rfl

/-- **C134, reading.**  Reading one of the three headers gives the ranges that its items, divided by
commas, stand for, and gives something only when each item stands for a range. -/
theorem C134_reading (float : Str → Option Flt) (k : Kind) (header : Str) (rs : List Rng) :
    parseAccept float k header = .ok rs ↔ Each (Reads float k) (Py.splitOn ',' header) rs := by
  unfold parseAccept
  generalize Py.splitOn ',' header = items
  induction items generalizing rs with
  | nil => cases rs <;> simp [parseRanges, Each]
  | cons s ss ih =>
    rw [parseRanges_cons]
    cases h1 : readItem float k s with
    | error e =>
      simp only [reduceCtorEq, false_iff]
      intro h
      cases rs with
      | nil => exact h
      | cons r rs => rw [(readItem_ok float k s r).2 h.1] at h1; cases h1
    | ok r =>
      simp only
      cases h2 : parseRanges float k ss with
      | error e =>
        simp only [reduceCtorEq, false_iff]
        intro h
        cases rs with
        | nil => exact h
        | cons r' rs => rw [(ih rs).2 h.2] at h2; cases h2
      | ok rs' =>
        simp only
        constructor
        · intro h
          rw [← Except.ok.inj h]
          exact ⟨(readItem_ok float k s r).1 h1, (ih rs').1 h2⟩
        · intro h
          cases rs with
          | nil => exact h.elim
          | cons r' rs =>
            have h3 := (readItem_ok float k s r').2 h.1
            have h4 := (ih rs).2 h.2
            rw [h1] at h3; rw [h2] at h4
            rw [Except.ok.inj h3, Except.ok.inj h4]

/-- **C134, refusing.**  Every other header is refused with ValueError. -/
theorem C134_refused (float : Str → Option Flt) (k : Kind) (header : Str)
    (h : ∃ item ∈ Py.splitOn ',' header, ∀ r, ¬ Reads float k item r) : parseAccept float k header = .error .valueError := by
  unfold parseAccept
  generalize Py.splitOn ',' header = items at h
  induction items with
  | nil => simp at h
  | cons s ss ih =>
    rw [parseRanges_cons]
    cases h1 : readItem float k s with
    | error e => simp only; rw [readItem_error h1]
    | ok r =>
      obtain ⟨item, hm, hr⟩ := h
      rcases List.mem_cons.1 hm with rfl | hm
      · exact absurd ((readItem_ok float k item r).1 h1) (hr r)
      · simp only
        rw [ih ⟨item, hm, hr⟩]

/-- **C134 fails** where it says that the values read have the form that the header asks for: what
follows the beginning of a value is not looked at, so `en us` is a language and `text/html/xml` a
content type. -/
theorem C134_form_false : parseAccept demoFloat .language s%"en us" = .ok [⟨s%"en us", .one, []⟩] ∧
    parseAccept demoFloat .contentType s%"text/html/xml" = .ok [⟨s%"text/html/xml", .one, []⟩] ∧
    ¬ Token s%"en us" := by
  refine ⟨by decide +kernel, by decide +kernel, fun h => ?_⟩
  have := (h s%"en us" (by decide)).2 ' ' (by decide)
  revert this; decide

/-! ### Examples -/

example : Each (Reads demoFloat .contentType) [s%"text/html ; level = 1; q=0.5;level=2;q=0", s%" */*"]
    [⟨s%"text/html", .zero, [(s%"level", s%"2")]⟩, ⟨s%"*/*", .one, []⟩] :=
  (C134_reading demoFloat .contentType s%"text/html ; level = 1; q=0.5;level=2;q=0, */*" _).1 (by decide +kernel)

/-- Items that stand for nothing: no quality that is a number, a parameter without a value, no
subtype, an empty item, and a parameter of a language. -/
example : parseAccept demoFloat .contentType s%"text/html;q=high" = .error .valueError ∧
    parseAccept demoFloat .contentType s%"text/html;level" = .error .valueError ∧
    parseAccept demoFloat .contentType s%"text/html, text" = .error .valueError ∧
    parseAccept demoFloat .charset s%"utf-8," = .error .valueError ∧
    parseAccept demoFloat .language s%"en;level=1" = .error .valueError := by decide +kernel

/-- The hypothesis of `C134_refused` for one of these. -/
example : ∃ item ∈ Py.splitOn ',' s%"text/html, text", ∀ r, ¬ Reads demoFloat .contentType item r := by
  refine ⟨s%" text", by decide, fun r h => ?_⟩
  rw [← readItem_ok] at h
  have : readItem demoFloat .contentType s%" text" = .error .valueError := by decide +kernel
  rw [this] at h
  cases h

end Verif.Accept
