import Verif.Model.CacheControl
import Verif.HeadersLemmas
import Verif.Props.Quote
import Verif.Props.Headers
/-! Property theorems C58 and C74: cache control directives. -/
namespace Verif.Props.CacheP
open Verif Verif.Quote Verif.Headers Verif.CacheControl

theorem prop_key_inj (p q : Directive) (h : p.key = q.key) : p = q := by
  revert h; cases p <;> cases q <;> decide

/-- The effect of a successful assignment on the stored directives. -/
theorem set_cases (d d' : CC) (b : Bool) (p : Directive) (v : Val) (h : CacheControl.set d p v = .ok (d', b)) :
    (∃ w, d' = Dict.set d p.key w) ∨ d' = Dict.del d p.key := by
  unfold CacheControl.set setValue at h
  split at h
  · split at h
    · cases h; exact .inl ⟨_, rfl⟩
    · cases h; exact .inr rfl
  · split at h
    · split at h
      · cases h; exact .inr rfl
      · cases h
    · cases h; exact .inl ⟨_, rfl⟩
    · cases h; exact .inl ⟨_, rfl⟩

theorem mem_keys_del (d : CC) (hd : (Dict.keys d).Nodup) (p k : Str) :
    k ∈ Dict.keys (Dict.del d p) ↔ k ∈ Dict.keys d ∧ k ≠ p := by
  rw [← Dict.has_iff, ← Dict.has_iff, Dict.has, Dict.get_del hd]
  by_cases h : k = p <;> simp [h, Dict.has]

theorem getValue_congr (d e : CC) (k : Str) (kind : Kind) (h : Dict.get d k = Dict.get e k) :
    getValue d k kind = getValue e k kind := by
  cases kind <;> simp only [getValue, Dict.has, h]

/-- Flags (`no_store`, `public`, `must_revalidate`, `proxy_revalidate`) read as set. -/
theorem C58_flag (d : CC) (hd : (Dict.keys d).Nodup) (p : Directive)
    (hp : p = .noStore ∨ p = .pub ∨ p = .mustRevalidate ∨ p = .proxyRevalidate) (b : Bool) :
    ∃ d' u, CacheControl.set d p (.bool b) = .ok (d', u) ∧ CacheControl.get d' p = .bool b := by
  have hk : p.kind = .flag := by rcases hp with h | h | h | h <;> subst h <;> rfl
  unfold CacheControl.set CacheControl.get setValue
  rw [hk]
  cases b with
  | true =>
    refine ⟨_, _, rfl, ?_⟩
    simp [getValue, Dict.has, Dict.get_set]
  | false =>
    refine ⟨_, _, rfl, ?_⟩
    simp [getValue, Dict.has, Dict.get_del hd]

/-- Text other than for `max_age`, and numbers, read as set. -/
theorem C58_value_partial (d : CC) (p : Directive)
    (hp : p = .noCache ∨ p = .maxAge ∨ p = .noTransform ∨ p = .priv ∨ p = .sMaxage) (v : Val)
    (hv : (∃ i, v = .int i) ∨ (p ≠ .maxAge ∧ ∃ s, v = .str s)) :
    ∃ d', CacheControl.set d p v = .ok (d', true) ∧ CacheControl.get d' p = v := by
  unfold CacheControl.set CacheControl.get
  rcases hp with h | h | h | h | h <;> subst h <;> rcases hv with ⟨i, rfl⟩ | ⟨hne, s, rfl⟩ <;>
    first
    | exact absurd rfl hne
    | refine ⟨_, rfl, ?_⟩; simp [getValue, Directive.key, Directive.kind, Dict.get_set, Val.toInt]

theorem digitsGo_none (s : Str) (h : ∀ c ∈ s, ¬ Py.IsDig c) : ∀ acc prev, s ≠ [] ∨ prev = false →
    Py.digitsGo prev acc s = none := by
  induction s with
  | nil => intro acc prev hp; simp at hp; simp [Py.digitsGo, hp]
  | cons c cs ih =>
    intro acc prev _
    have hd : Py.digitVal c = none := by
      have := h c (by simp)
      unfold Py.IsDig at this
      unfold Py.digitVal
      rw [if_neg this]
    unfold Py.digitsGo
    rw [hd]
    simp only
    split
    · exact ih (fun c hc => h c (by simp [hc])) _ _ (Or.inr rfl)
    · rfl

/-- Text assigned to `max_age`: the decimal text of an integer reads as that integer, text
without any digit reads as it is. -/
theorem C58_max_age_text (d : CC) :
    (∀ i, ∃ d', CacheControl.set d .maxAge (.str (Py.intStr i)) = .ok (d', true) ∧
      CacheControl.get d' .maxAge = .int i) ∧
    (∀ s, (∀ c ∈ s, ¬ Py.IsDig c) → ∃ d', CacheControl.set d .maxAge (.str s) = .ok (d', true) ∧
      CacheControl.get d' .maxAge = .str s) := by
  refine ⟨fun i => ⟨_, rfl, ?_⟩, fun s hs => ⟨_, rfl, ?_⟩⟩
  · simp [CacheControl.get, getValue, Directive.key, Directive.kind, Dict.get_set, Val.toInt, Py.intOf_intStr,
      Except.toOption]
  · have hs' : ∀ c ∈ Py.strip s, ¬ Py.IsDig c := fun c hc => hs c (Py.stripP_mem _ _ c hc)
    have : Py.intOf s = .error .valueError := by
      unfold Py.intOf
      generalize Py.strip s = t at hs'
      split
      · rw [digitsGo_none _ (fun c hc => hs' c (by simp [hc])) _ _ (Or.inr rfl)]
      · rw [digitsGo_none _ (fun c hc => hs' c (by simp [hc])) _ _ (Or.inr rfl)]
      · rw [digitsGo_none _ hs' _ _ (Or.inr rfl)]
    simp [CacheControl.get, getValue, Directive.key, Directive.kind, Dict.get_set, Val.toInt, this, Except.toOption]

/-- Not every set value is read back: `no_transform = True` and `s_maxage = True` read as
`None`, as if unset, and `no_cache = False` puts the directive into the header. -/
theorem C58_value_false :
    ((CacheControl.set [] .noTransform (.bool true)).toOption.map fun r =>
      (CacheControl.get r.1 .noTransform, toHeader r.1)) = some (.none, s%"no-transform") ∧
    ((CacheControl.set [] .noCache (.bool false)).toOption.map fun r =>
      (CacheControl.get r.1 .noCache, toHeader r.1)) = some (.bool false, s%"no-cache=False") := by
  decide +kernel

/-- Setting one directive does not change any other. -/
theorem C58_other (d d' : CC) (hd : (Dict.keys d).Nodup) (b : Bool) (p q : Directive) (v : Val) (hpq : p ≠ q)
    (h : CacheControl.set d p v = .ok (d', b)) :
    CacheControl.get d' q = CacheControl.get d q ∧ ∀ k, k ≠ p.key → Dict.get d' k = Dict.get d k := by
  have key : ∀ k, k ≠ p.key → Dict.get d' k = Dict.get d k := by
    intro k hk
    rcases set_cases d d' b p v h with ⟨w, rfl⟩ | rfl
    · rw [Dict.get_set, if_neg hk]
    · rw [Dict.get_del hd, if_neg hk]
  exact ⟨getValue_congr _ _ _ _ (key _ fun e => hpq (prop_key_inj _ _ e).symm), key⟩

/-- Assigning `None` to a directive that is present removes it, and nothing else. -/
theorem C58_unset_partial (d : CC) (hd : (Dict.keys d).Nodup) (p : Directive) (h : p.key ∈ Dict.keys d) :
    ∃ d', CacheControl.set d p .none = .ok (d', true) ∧ (∀ k, k ∈ Dict.keys d' ↔ k ∈ Dict.keys d ∧ k ≠ p.key) ∧
      Dict.get d' p.key = none := by
  have hh := Dict.has_iff.2 h
  refine ⟨Dict.del d p.key, ?_, mem_keys_del d hd _, by rw [Dict.get_del hd, if_pos rfl]⟩
  unfold CacheControl.set setValue
  cases p <;> simp [Directive.kind, Val.truth, hh]

/-- Assigning `None` to an absent directive that is not a flag raises. -/
theorem C58_unset_false (d : CC) (p : Directive)
    (hp : p = .noCache ∨ p = .maxAge ∨ p = .noTransform ∨ p = .priv ∨ p = .sMaxage)
    (h : p.key ∉ Dict.keys d) : CacheControl.set d p .none = .error .keyError := by
  have hh : Dict.has d p.key = false := by
    rw [← Bool.not_eq_true, Dict.has_iff]; exact h
  unfold CacheControl.set setValue
  rcases hp with e | e | e | e | e <;> subst e <;> simp [Directive.kind, hh]

/-- Deleting a property always removes the directive. -/
theorem C58_del (d : CC) (hd : (Dict.keys d).Nodup) (p : Directive) :
    (∀ k, k ∈ Dict.keys (delValue d p.key).1 ↔ k ∈ Dict.keys d ∧ k ≠ p.key) ∧
    (CacheControl.get (delValue d p.key).1 p = .none ∨ CacheControl.get (delValue d p.key).1 p = .bool false) := by
  unfold delValue
  have key : ∀ e : CC, Dict.get e p.key = none →
      CacheControl.get e p = .none ∨ CacheControl.get e p = .bool false := by
    intro e he
    cases p <;> simp_all [CacheControl.get, getValue, Directive.kind, Dict.has]
  split
  · exact ⟨mem_keys_del d hd _, key _ (by rw [Dict.get_del hd, if_pos rfl])⟩
  · rename_i h
    have h' : p.key ∉ Dict.keys d := fun e => h (Dict.has_iff.2 e)
    exact ⟨fun k => ⟨fun hk => ⟨hk, fun e => h' (e ▸ hk)⟩, fun hk => hk.1⟩, key _ (Dict.get_eq_none.2 h')⟩

example : (Dict.keys [(s%"max-age", Val.int 60), (s%"no-store", .none)]).Nodup ∧
    Directive.key .maxAge ∈ Dict.keys [(s%"max-age", Val.int 60), (s%"no-store", .none)] := by decide

/-! ### C74: through the header -/

/-- Directives that can be written into a header: proper names, values that are text or numbers. -/
def Storable (d : CC) : Prop :=
  (Dict.keys d).Nodup ∧
  ∀ k v, (k, v) ∈ d → (k ≠ [] ∧ (∀ c ∈ k, c ≠ ',' ∧ c ≠ '"' ∧ c ≠ '=') ∧ Py.strip k = k) ∧
    (v = .none ∨ (∃ i, v = .int i) ∨ ∃ s, v = .str s ∧ ¬ (s.head? = some '"' ∧ s.getLast? = some '"'))

/-- What a stored value becomes in the header. -/
def written : Val → Val
  | .none => .none
  | v => .str v.text

theorem intStr_no_quote (i : Int) : (Py.intStr i).head? ≠ some '"' := by
  intro h
  have hm := List.mem_of_head? h
  unfold Py.intStr at hm
  split at hm
  · exact Py.natStr_not_mem _ '"' (by decide) hm
  · rcases List.mem_cons.1 hm with h1 | h1
    · cases h1
    · exact Py.natStr_not_mem _ '"' (by decide) h1

theorem parse_toHeader (d : CC) (h : Storable d) : parse (toHeader d) = d.map fun kv => (kv.1, written kv.2) := by
  have hk : ∀ kv ∈ d.map (fun kv : Str × Val => (kv.1, kv.2.field)),
      kv.1 ≠ [] ∧ (∀ c ∈ kv.1, c ≠ ',' ∧ c ≠ '"' ∧ c ≠ '=') ∧ Py.strip kv.1 = kv.1 := by
    intro kv hkv
    obtain ⟨⟨k, v⟩, hm, rfl⟩ := List.mem_map.1 hkv
    exact (h.2 k v hm).1
  have hrt := (Verif.Props.C04_dict_roundtrip_partial _ true hk (by
    rw [List.map_map]; exact h.1)).2 (by
    intro k v hm hq
    obtain ⟨⟨k', w⟩, hm', e⟩ := List.mem_map.1 hm
    have hw := (h.2 k' w hm').2
    cases w with
    | none => cases e
    | bool b => rcases hw with hw | ⟨i, hw⟩ | ⟨s, hw, _⟩ <;> cases hw
    | int i =>
      cases e
      exact intStr_no_quote i hq.1
    | str s =>
      cases e
      rcases hw with hw | ⟨i, hw⟩ | ⟨s', hw, hw'⟩
      · cases hw
      · cases hw
      · cases hw; exact hw' hq)
  have hmap : (d.map (fun kv : Str × Val => (kv.1, kv.2.field))).map
      (fun kv => (kv.1, ofParsed kv.2)) = d.map fun kv => (kv.1, written kv.2) := by
    rw [List.map_map]
    apply List.map_congr_left
    rintro ⟨k, v⟩ _
    cases v <;> rfl
  unfold parse
  by_cases he : toHeader d = []
  · rw [if_pos he]
    unfold toHeader at he
    rw [he] at hrt
    rw [← hmap, ← hrt]; rfl
  · rw [if_neg he]
    unfold toHeader
    rw [hrt, hmap]

theorem get_written (d : CC) (k : Str) : Dict.get (d.map fun kv => (kv.1, written kv.2)) k =
    (Dict.get d k).map written := by
  induction d with
  | nil => rfl
  | cons p d ih =>
    obtain ⟨a, v⟩ := p
    simp only [List.map_cons, Dict.get]
    split <;> simp [ih]

/-- C74 fails for text that is enclosed in quotes: it comes back without them. -/
theorem C74_quoted_false : ∃ d : CC, CacheControl.get d .priv = .str s%"\"a\"" ∧
    CacheControl.get (parse (toHeader d)) .priv = .str s%"a" :=
  ⟨[(s%"private", .str s%"\"a\"")], by decide, by decide +kernel⟩

/-- Writing the directives into a header and parsing it keeps the flags and `max_age`; the
other directives keep their value as text. -/
theorem C74_header_partial (d : CC) (h : Storable d) (p : Directive) :
    (p = .noStore ∨ p = .pub ∨ p = .mustRevalidate ∨ p = .proxyRevalidate ∨ p = .maxAge →
      CacheControl.get (parse (toHeader d)) p = CacheControl.get d p) ∧
    (p = .noCache ∨ p = .priv ∨ p = .noTransform ∨ p = .sMaxage →
      CacheControl.get (parse (toHeader d)) p = CacheControl.get d p ∨
      CacheControl.get (parse (toHeader d)) p = .str (CacheControl.get d p).text) := by
  rw [parse_toHeader d h]
  have hg := get_written d p.key
  have hv : ∀ v, Dict.get d p.key = some v →
      (v = .none ∨ (∃ i, v = .int i) ∨ ∃ s, v = .str s ∧ ¬ (s.head? = some '"' ∧ s.getLast? = some '"')) :=
    fun v hv => (h.2 p.key v (Dict.mem_of_get hv)).2
  constructor
  · rintro (e | e | e | e | e) <;> subst e
    · simp only [CacheControl.get, Directive.kind, getValue, Dict.has, hg]; cases Dict.get d _ <;> rfl
    · simp only [CacheControl.get, Directive.kind, getValue, Dict.has, hg]; cases Dict.get d _ <;> rfl
    · simp only [CacheControl.get, Directive.kind, getValue, Dict.has, hg]; cases Dict.get d _ <;> rfl
    · simp only [CacheControl.get, Directive.kind, getValue, Dict.has, hg]; cases Dict.get d _ <;> rfl
    · simp only [CacheControl.get, Directive.kind, getValue, hg]
      cases hd : Dict.get d (Directive.key .maxAge) with
      | none => rfl
      | some v =>
        rcases hv v hd with rfl | ⟨i, rfl⟩ | ⟨s, rfl, _⟩
        · rfl
        · simp [written, Val.text, Val.toInt, Py.intOf_intStr, Except.toOption]
        · simp [written, Val.text]
  · intro hp
    obtain ⟨empty, hk⟩ : ∃ e, p.kind = .plain e := by
      rcases hp with e | e | e | e <;> subst e <;> exact ⟨_, rfl⟩
    simp only [CacheControl.get, hk, getValue, hg]
    cases hd : Dict.get d p.key with
    | none => exact .inl rfl
    | some v =>
      rcases hv v hd with rfl | ⟨i, rfl⟩ | ⟨s, rfl, _⟩
      · exact .inl rfl
      · exact .inr rfl
      · exact .inl rfl

theorem getItem_set (lower : Str → Str) (h : HList) (k k' v : Str) (hk : lower k = lower k')
    (hv : Spec.LegalValue v) : getItem lower (Headers.set lower h k v []).1 k' = some v := by
  rw [getItem_eq, getlist_set lower h k v k' hv, if_pos hk.symm]; rfl

/-- Assigning to a directive of `response.cache_control` rewrites the header so that the next
read of any directive sees the changed object, and touches no other header. -/
theorem C74_response (lower : Str → Str) (hl : lower s%"Cache-Control" = lower s%"cache-control")
    (h : HList) (p : Directive) (v : Val) (d' : CC) (hset : CacheControl.set (ofHeaders lower h) p v = .ok (d', true))
    (hst : Storable d') (hlegal : '\n' ∉ toHeader d' ∧ '\r' ∉ toHeader d') :
    (assign lower h p v).2 = .ok () ∧
    (∀ q, q = .noStore ∨ q = .pub ∨ q = .mustRevalidate ∨ q = .proxyRevalidate ∨ q = .maxAge →
      CacheControl.read lower (assign lower h p v).1 q = CacheControl.get d' q) ∧
    (∀ q, q = .noCache ∨ q = .priv ∨ q = .noTransform ∨ q = .sMaxage →
      CacheControl.read lower (assign lower h p v).1 q = CacheControl.get d' q ∨
      CacheControl.read lower (assign lower h p v).1 q = .str (CacheControl.get d' q).text) ∧
    ∀ k, lower k ≠ lower s%"cache-control" → getlist lower (assign lower h p v).1 k = getlist lower h k := by
  have ha : assign lower h p v = onUpdate lower h d' := by unfold assign; rw [hset]
  rw [ha]
  by_cases hd : d' = []
  · subst hd
    have hgi : getItem lower (onUpdate lower h []).1 s%"cache-control" = none := by
      unfold onUpdate
      rw [if_pos rfl]
      show getItem lower (if _ then _ else _) _ = _
      split
      · rw [getItem_eq, getlist_delKey, if_pos rfl]; rfl
      · rename_i hc
        unfold Headers.contains at hc
        cases hg : getItem lower h s%"cache-control" with
        | none => rfl
        | some x => rw [hg] at hc; exact absurd rfl hc
    have hof : ofHeaders lower (onUpdate lower h []).1 = [] := by
      unfold ofHeaders
      rw [hgi]
    refine ⟨rfl, ?_, ?_, ?_⟩
    · intro q _
      unfold CacheControl.read; rw [hof]
    · intro q _
      left; unfold CacheControl.read; rw [hof]
    · intro k hk
      unfold onUpdate
      rw [if_pos rfl]
      simp only
      split
      · rw [getlist_delKey, if_neg hk]
      · rfl
  · have ho : onUpdate lower h d' = Headers.set lower h s%"Cache-Control" (toHeader d') [] := by
      unfold onUpdate; rw [if_neg hd]
    have hof : ofHeaders lower (onUpdate lower h d').1 = parse (toHeader d') := by
      unfold ofHeaders
      rw [ho, getItem_set lower h _ _ _ hl hlegal]
    refine ⟨?_, ?_, ?_, ?_⟩
    · rw [ho]
      rcases set_legal lower h s%"Cache-Control" (toHeader d') [] (by simpa [effValue, Spec.LegalValue] using hlegal) with
        ⟨_, e⟩ | ⟨_, _, _, _, _, _, e⟩ <;> rw [e]
    · intro q hq
      unfold CacheControl.read; rw [hof]
      exact (C74_header_partial d' hst q).1 hq
    · intro q hq
      unfold CacheControl.read; rw [hof]
      exact (C74_header_partial d' hst q).2 hq
    · intro k hk
      rw [ho, getlist_set lower h _ _ _ hlegal, if_neg (fun e => hk (e.trans hl))]

theorem mem_set (d : CC) (k : Str) (w : Val) (x : Str × Val) (h : x ∈ Dict.set d k w) : x = (k, w) ∨ x ∈ d := by
  induction d with
  | nil => simp [Dict.set] at h; exact .inl h
  | cons p d ih =>
    obtain ⟨a, u⟩ := p
    simp only [Dict.set] at h
    split at h
    · rename_i e
      rcases List.mem_cons.1 h with h | h
      · exact .inl (by rw [h, e])
      · exact .inr (.tail _ h)
    · rcases List.mem_cons.1 h with h | h
      · exact .inr (h ▸ .head _)
      · rcases ih h with h | h
        · exact .inl h
        · exact .inr (.tail _ h)

/-- `response.cache_control.max_age = n` is read back as `n` from the response, whatever other
directives its header has. -/
theorem C74_max_age (lower : Str → Str) (hl : lower s%"Cache-Control" = lower s%"cache-control")
    (h : HList) (n : Int) (hs : Storable (ofHeaders lower h))
    (hlegal : '\n' ∉ toHeader (Dict.set (ofHeaders lower h) s%"max-age" (.int n)) ∧
      '\r' ∉ toHeader (Dict.set (ofHeaders lower h) s%"max-age" (.int n))) :
    CacheControl.read lower (assign lower h .maxAge (.int n)).1 .maxAge = .int n := by
  have hst : Storable (Dict.set (ofHeaders lower h) s%"max-age" (.int n)) := by
    refine ⟨Dict.nodup_set hs.1 _ _, ?_⟩
    intro k v hkv
    rcases mem_set _ _ _ _ hkv with e | e
    · cases e
      exact ⟨by decide, .inr (.inl ⟨n, rfl⟩)⟩
    · exact hs.2 k v e
  have := (C74_response lower hl h .maxAge (.int n) _ rfl hst hlegal).2.1 .maxAge (by simp)
  rw [this]
  simp [CacheControl.get, getValue, Directive.kind, Directive.key, Dict.get_set, Val.toInt]

theorem mem_of_del {d : CC} {k : Str} {x : Str × Val} (h : x ∈ Dict.del d k) : x ∈ d := by
  induction d with
  | nil => exact h
  | cons p d ih =>
    obtain ⟨a, w⟩ := p
    simp only [Dict.del] at h
    split at h
    · simp [h]
    · rcases List.mem_cons.mp h with h | h
      · simp [h]
      · simp [ih h]

/-- A flag assigned through `response.cache_control` is read back from the response; `False`
takes the directive out of the header. -/
theorem C74_flag (lower : Str → Str) (hl : lower s%"Cache-Control" = lower s%"cache-control")
    (h : HList) (p : Directive) (hp : p = .noStore ∨ p = .pub ∨ p = .mustRevalidate ∨ p = .proxyRevalidate)
    (b : Bool) (hs : Storable (ofHeaders lower h))
    (hlegal : ∀ d', CacheControl.set (ofHeaders lower h) p (.bool b) = .ok (d', true) →
      '\n' ∉ toHeader d' ∧ '\r' ∉ toHeader d') :
    (assign lower h p (.bool b)).2 = .ok () ∧
    CacheControl.read lower (assign lower h p (.bool b)).1 p = .bool b := by
  have hk : p.kind = .flag := by rcases hp with h | h | h | h <;> subst h <;> rfl
  have hclean : ∀ k v, (k, v) ∈ Dict.set (ofHeaders lower h) p.key Val.none →
      (k ≠ [] ∧ (∀ c ∈ k, c ≠ ',' ∧ c ≠ '"' ∧ c ≠ '=') ∧ Py.strip k = k) ∧
        (v = .none ∨ (∃ i, v = .int i) ∨ ∃ s, v = .str s ∧ ¬ (s.head? = some '"' ∧ s.getLast? = some '"')) := by
    intro k v hkv
    rcases mem_set _ _ _ _ hkv with e | e
    · cases e
      refine ⟨?_, .inl rfl⟩
      rcases hp with h | h | h | h <;> subst h <;> decide
    · exact hs.2 k v e
  have hp' : p = .noStore ∨ p = .pub ∨ p = .mustRevalidate ∨ p = .proxyRevalidate ∨ p = .maxAge := by
    rcases hp with h | h | h | h <;> simp [h]
  cases b with
  | true =>
    have hset : CacheControl.set (ofHeaders lower h) p (.bool true) =
        .ok (Dict.set (ofHeaders lower h) p.key .none, true) := by
      unfold CacheControl.set setValue; rw [hk]; rfl
    have hst : Storable (Dict.set (ofHeaders lower h) p.key Val.none) := ⟨Dict.nodup_set hs.1 _ _, hclean⟩
    have := C74_response lower hl h p (.bool true) _ hset hst (hlegal _ hset)
    refine ⟨this.1, ?_⟩
    rw [this.2.1 p hp']
    simp [CacheControl.get, hk, getValue, Dict.has, Dict.get_set]
  | false =>
    by_cases hh : Dict.has (ofHeaders lower h) p.key = true
    · have hset : CacheControl.set (ofHeaders lower h) p (.bool false) =
          .ok (Dict.del (ofHeaders lower h) p.key, true) := by
        unfold CacheControl.set setValue; rw [hk]; simp [Val.truth, hh]
      have hst : Storable (Dict.del (ofHeaders lower h) p.key) :=
        ⟨Dict.nodup_del hs.1 _, fun k v hkv => hs.2 k v (mem_of_del hkv)⟩
      have := C74_response lower hl h p (.bool false) _ hset hst (hlegal _ hset)
      refine ⟨this.1, ?_⟩
      rw [this.2.1 p hp']
      simp [CacheControl.get, hk, getValue, Dict.has, Dict.get_del hs.1]
    · have hset : ∃ d', CacheControl.set (ofHeaders lower h) p (.bool false) = .ok (d', false) := by
        unfold CacheControl.set setValue; rw [hk]; exact ⟨_, by simp [Val.truth, hh]; rfl⟩
      obtain ⟨d', hset⟩ := hset
      have : assign lower h p (.bool false) = (h, .ok ()) := by unfold assign; rw [hset]
      rw [this]
      refine ⟨rfl, ?_⟩
      unfold CacheControl.read CacheControl.get
      rw [hk]
      simp [getValue, hh]

example : (assign asciiLower [(s%"Cache-Control", s%"public, max-age=60")] .pub (.bool false)).1 =
    [(s%"Cache-Control", s%"max-age=60")] := by decide +kernel

example : ofHeaders asciiLower [(s%"CACHE-control", s%"public, foo=\"a b\"")] =
    [(s%"public", .none), (s%"foo", .str s%"a b")] ∧
    (assign asciiLower [(s%"CACHE-control", s%"public, foo=\"a b\"")] .maxAge (.int 60)).1 =
      [(s%"Cache-Control", s%"public, foo=\"a b\", max-age=60")] := by decide +kernel

end Verif.Props.CacheP
