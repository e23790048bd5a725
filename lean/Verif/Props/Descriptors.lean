import Verif.HeadersLemmas
import Verif.Model.Descriptors
import Verif.Props.Headers
import Verif.Props.Response
import Verif.Props.Etag
import Verif.Props.Date
/-! Property theorems C78-C80, C84 and C86: entity tags, conditional responses and typed header
properties of responses, and `If-Range`. -/
namespace Verif.Props.Desc
open Verif Verif.Headers Verif.Spec Verif.Desc Verif.Date Verif.Response Verif.Props.Resp
  Verif.Spec.Calendar Verif.Props.DateP

/-- `lower` maps the header names the library writes as `str.lower` does. -/
structure Names (lower : Str → Str) : Prop where
  etag : lower s%"ETag" = s%"etag"
  etag' : lower s%"etag" = s%"etag"
  date : lower s%"Date" = s%"date"
  date' : lower s%"date" = s%"date"
  length : lower s%"Content-Length" = s%"content-length"
  length' : lower s%"content-length" = s%"content-length"
  modified : lower s%"last-modified" = s%"last-modified"
  ctype : lower s%"Content-Type" = s%"content-type"
  ctype' : lower s%"content-type" = s%"content-type"
  crange : lower s%"Content-Range" = s%"content-range"
  crange' : lower s%"content-range" = s%"content-range"
  retry : lower s%"Retry-After" = s%"retry-after"
  retry' : lower s%"retry-after" = s%"retry-after"
  www : lower s%"WWW-Authenticate" = s%"www-authenticate"
  www' : lower s%"www-authenticate" = s%"www-authenticate"
  cookie : lower s%"Set-Cookie" = s%"set-cookie"

theorem names_ascii : Names asciiLower := by constructor <;> decide

theorem getItem_set (lower : Str → Str) (h : HList) (k v x : Str) (hv : LegalValue v) :
    getItem lower (Headers.set lower h k v []).1 x = if lower x = lower k then some v else getItem lower h x := by
  rw [getItem_eq, getlist_set lower h k v x hv, getItem_eq]
  split <;> rfl

theorem set_ok (lower : Str → Str) (h : HList) (k v : Str) (hv : LegalValue v) :
    (Headers.set lower h k v []).2 = .ok () := by
  rcases set_legal lower h k v [] (by simpa [effValue] using hv) with ⟨_, e⟩ | ⟨_, _, _, _, _, _, e⟩ <;> rw [e]

theorem set_bad (lower : Str → Str) (h : HList) (k v : Str) (hv : ¬ LegalValue v) :
    Headers.set lower h k v [] = (h, .error .valueError) :=
  set_illegal lower h k v [] (by simpa [effValue] using hv)

theorem getItem_del (lower : Str → Str) (h : HList) (k x : Str) :
    getItem lower (delKey lower h k) x = if lower x = lower k then none else getItem lower h x := by
  rw [getItem_eq, getlist_delKey, getItem_eq]
  split <;> rfl

/-- The entries of all names other than `k` are the same in both, in the same order. -/
def SameOthers (lower : Str → Str) (k : Str) (h h' : HList) : Prop :=
  h'.filter (fun p => decide (lower p.1 ≠ lower k)) = h.filter (fun p => decide (lower p.1 ≠ lower k))

theorem sameOthers_set (lower : Str → Str) (h : HList) (k v : Str) :
    SameOthers lower k h (Headers.set lower h k v []).1 := by
  by_cases hv : LegalValue v
  · exact (C08_set_unique lower h k v hv).2
  · rw [set_bad lower h k v hv]; rfl

theorem sameOthers_del (lower : Str → Str) (h : HList) (k : Str) : SameOthers lower k h (delKey lower h k) := by
  unfold SameOthers delKey
  rw [List.filter_filter]; simp

theorem sameOthers_refl (lower : Str → Str) (h : HList) (k : Str) : SameOthers lower k h h := rfl

theorem sameOthers_name (lower : Str → Str) {k k' : Str} (e : lower k = lower k') {h h' : HList}
    (H : SameOthers lower k h h') : SameOthers lower k' h h' := by
  unfold SameOthers at *; rw [← e]; exact H

theorem sameOthers_get (lower : Str → Str) (k x : Str) {h h' : HList} (H : SameOthers lower k h h')
    (hx : lower x ≠ lower k) : getlist lower h' x = getlist lower h x := by
  have key : ∀ l : HList, getlist lower l x = ((l.filter (fun p => decide (lower p.1 ≠ lower k))).filter
      (fun p => decide (lower p.1 = lower x))).map (·.2) := by
    intro l
    rw [getlist_eq, List.filter_filter]
    congr 1
    apply List.filter_congr
    intro p _
    by_cases e : lower p.1 = lower x <;> simp [e, hx]
  rw [key, key, H]

/-! ### legal values -/

theorem legal_append {a b : Str} (ha : LegalValue a) (hb : LegalValue b) : LegalValue (a ++ b) := by
  unfold LegalValue at *; simp [ha.1, ha.2, hb.1, hb.2]

theorem legal_natStr (n : Nat) : LegalValue (Py.natStr n) := by
  constructor
  · intro h; exact absurd (Py.natStr_digits n _ h) (by unfold Py.IsDig; decide)
  · intro h; exact absurd (Py.natStr_digits n _ h) (by unfold Py.IsDig; decide)

theorem legal_intStr (i : Int) : LegalValue (Py.intStr i) := by
  cases i with
  | ofNat n => exact legal_natStr n
  | negSucc n => exact legal_append (a := ['-']) (by decide) (legal_natStr _)

theorem legal_pad2 (n : Nat) : LegalValue (pad2 n) := by
  unfold pad2
  split
  · exact legal_append (a := ['0']) (by decide) (legal_natStr n)
  · exact legal_natStr n

theorem legal_getD (l : List Str) (h : ∀ x ∈ l, LegalValue x) (i : Nat) : LegalValue (l.getD i []) := by
  rw [List.getD_eq_getElem?_getD]
  cases e : l[i]? with
  | none => exact (by decide : LegalValue [])
  | some x => exact h x (List.mem_of_getElem? e)

theorem legal_httpDate (t : DateTime) : LegalValue (httpDate t) := by
  unfold httpDate dumpDate
  have h1 := legal_getD dayNames (by decide) (weekday t)
  have h2 := legal_getD monthNames (by decide) (t.month - 1)
  have hs : LegalValue s%" " := by decide
  have hc : LegalValue s%":" := by decide
  refine legal_append (legal_append (legal_append (legal_append (legal_append (legal_append (legal_append
    (legal_append (legal_append (legal_append (legal_append (legal_append (legal_append h1 ?_) (legal_pad2 _)) hs) h2) hs)
    (legal_natStr _)) hs) (legal_pad2 _)) hc) (legal_pad2 _)) hc) (legal_pad2 _)) ?_ <;> decide

/-! ### C78 -/

theorem quote_legal (e : Str) (w : Bool) (he : '"' ∉ e) :
    ∃ q, Etag.quoteEtag e w = .ok q ∧ (LegalValue q ↔ LegalValue e) := by
  have hc : ¬ (e.contains '"' = true) := by simpa using he
  cases w
  · exact ⟨_, by unfold Etag.quoteEtag; rw [if_neg hc], by unfold LegalValue; simp⟩
  · exact ⟨_, by unfold Etag.quoteEtag; rw [if_neg hc], by unfold LegalValue; simp⟩

/-- C78.  `get_etag` returns what `set_etag` was given; all other headers stay as they were. -/
theorem C78_set_get (lower : Str → Str) (h : HList) (e : Str) (w : Bool)
    (he : '"' ∉ e) (hl : '\n' ∉ e ∧ '\r' ∉ e) :
    (setEtag lower h e w).2 = .ok () ∧ getEtag lower (setEtag lower h e w).1 = (some e, some w) ∧
      SameOthers lower s%"ETag" h (setEtag lower h e w).1 := by
  obtain ⟨q, hq, hql⟩ := quote_legal e w he
  have hv := hql.mpr hl
  obtain ⟨q', hq', hu⟩ := (C16_etag_quote_roundtrip e w).1 he
  rw [hq] at hq'
  have hqq := Except.ok.inj hq'
  unfold setEtag
  rw [hq]
  refine ⟨set_ok lower h _ q hv, ?_, sameOthers_set lower h _ q⟩
  unfold getEtag
  rw [getItem_set lower h _ q _ hv, if_pos rfl]
  simpa [hqq] using hu

/-- C78.  A tag with a quote or a line break is rejected and nothing changes. -/
theorem C78_rejects (lower : Str → Str) (h : HList) (e : Str) (w : Bool)
    (he : '"' ∈ e ∨ '\n' ∈ e ∨ '\r' ∈ e) : setEtag lower h e w = (h, .error .valueError) := by
  by_cases hq : '"' ∈ e
  · unfold setEtag; rw [(C16_etag_quote_roundtrip e w).2 hq]
  · obtain ⟨q, h1, h2⟩ := quote_legal e w hq
    unfold setEtag; rw [h1]
    apply set_bad
    rw [h2]
    unfold LegalValue
    rcases he with he | he | he
    · exact absurd he hq
    · intro x; exact x.1 he
    · intro x; exact x.2 he

theorem encodeAll_bytes (cfg : Cfg) (bs : List Bytes) : encodeAll cfg (bs.map .bytes) = .ok bs := by
  induction bs with
  | nil => rfl
  | cons b bs ih => simp [encodeAll, encodeItem, ih]

/-- What `get_data` returns: the encoded elements, however the body is held. -/
theorem getData_eq (cfg : Cfg) (r r' : Resp) (b : Bytes) (h : getData cfg r = (r', .ok b)) :
    ∃ bs, encodeAll cfg r.body.items = .ok bs ∧ b = bs.flatten ∧ encodeAll cfg r'.body.items = .ok bs ∧
      r'.headers = r.headers ∧ r'.code = r.code ∧ r'.status = r.status := by
  unfold getData ensureSequence at h
  by_cases hs : r.body.isSequence = true
  · simp only [hs, if_true, Bool.false_eq_true, if_false] at h
    cases hb : encodeAll cfg r.body.items with
    | error e => rw [hb] at h; simp at h
    | ok bs =>
      rw [hb] at h
      simp only [Prod.mk.injEq, Except.ok.injEq] at h
      obtain ⟨rfl, rfl⟩ := h
      exact ⟨bs, rfl, rfl, hb, rfl, rfl, rfl⟩
  · simp only [hs, Bool.false_eq_true, if_false] at h
    by_cases hd : r.direct = true
    · simp [hd] at h
    simp only [hd, Bool.false_eq_true, if_false] at h
    by_cases hi : cfg.implicitSeq = true
    · simp only [hi, Bool.not_true, Bool.false_eq_true, if_false] at h
      unfold makeSequence at h
      simp only [hs, Bool.false_eq_true, if_false] at h
      cases hb : encodeAll cfg r.body.items with
      | error e => rw [hb] at h; simp at h
      | ok bs =>
        rw [hb] at h
        simp only [Body.items, encodeAll_bytes, Prod.mk.injEq, Except.ok.injEq] at h
        obtain ⟨rfl, rfl⟩ := h
        exact ⟨bs, rfl, rfl, encodeAll_bytes cfg bs, rfl, rfl, rfl⟩
    · simp [hi] at h

/-- C78.  `add_etag` leaves a response that has a tag alone unless told to overwrite; otherwise,
if it succeeds, the tag is the hash of the complete body, however the body is divided, and the
other headers and the bytes of the body stay as they were. -/
theorem C78_add (cfg : Cfg) (hn : Names cfg.lower) (md5 : Bytes → Str)
    (hmd5 : ∀ b, '"' ∉ md5 b ∧ '\n' ∉ md5 b ∧ '\r' ∉ md5 b) (r : Resp) (overwrite weak : Bool) :
    (overwrite = false → getlist cfg.lower r.headers s%"ETag" ≠ [] →
      addEtag cfg md5 r overwrite weak = (r, .ok ())) ∧
    (overwrite = true ∨ getlist cfg.lower r.headers s%"ETag" = [] → ∀ r',
      addEtag cfg md5 r overwrite weak = (r', .ok ()) →
      ∃ bs, encodeAll cfg r.body.items = .ok bs ∧ encodeAll cfg r'.body.items = .ok bs ∧
        getEtag cfg.lower r'.headers = (some (md5 bs.flatten), some weak) ∧
        SameOthers cfg.lower s%"ETag" r.headers r'.headers ∧ r'.code = r.code ∧ r'.status = r.status) := by
  have hc : contains cfg.lower r.headers s%"etag" = !(getlist cfg.lower r.headers s%"ETag").isEmpty := by
    have := (C07_lookups cfg.lower r.headers s%"ETag" s%"etag" (by rw [hn.etag, hn.etag']))
    rw [← this.2.2.2.2]
    unfold contains; rw [getItem_eq]
    cases getlist cfg.lower r.headers s%"ETag" <;> rfl
  constructor
  · intro ho hne
    unfold addEtag
    rw [hc, ho]
    cases hg : getlist cfg.lower r.headers s%"ETag" with
    | nil => exact absurd hg hne
    | cons a as => rfl
  · intro hor r' hr'
    unfold addEtag at hr'
    have hcond : (overwrite || !contains cfg.lower r.headers s%"etag") = true := by
      rw [hc]; rcases hor with h | h
      · simp [h]
      · simp [h]
    rw [if_pos hcond] at hr'
    cases hg : getData cfg r with
    | mk r1 res =>
      rw [hg] at hr'
      cases res with
      | error e => simp at hr'
      | ok b =>
        obtain ⟨bs, h1, h2, h3, h4, h5, h6⟩ := getData_eq cfg r r1 b hg
        simp only [Prod.mk.injEq] at hr'
        obtain ⟨rfl, hok⟩ := hr'
        have hm := hmd5 b
        obtain ⟨_, hget, hso⟩ := C78_set_get cfg.lower r1.headers (md5 b) weak hm.1 hm.2
        refine ⟨bs, h1, h3, ?_, ?_, h5, h6⟩
        · simpa [h2] using hget
        · rw [← h4]; exact hso

example : getEtag asciiLower (setEtag asciiLower [(s%"etag", s%"\"old\""), (s%"X", s%"1")] s%"v2" true).1 =
    (some s%"v2", some true) := by decide
example : (addEtag demo (fun _ => s%"hash") ⟨[], s%"200 OK", 200, .list [.bytes b%"ab"], [], false⟩ false false).2 =
    .ok () := by decide

/-! ### C79 -/

/-- Making the body a sequence, as far as reading the length needs it. -/
theorem ensure_spec (cfg : Cfg) (r : Resp) (bs : List Bytes) (hb : encodeAll cfg r.body.items = .ok bs) :
    (ensureSequence cfg r false).1.headers = r.headers ∧ (ensureSequence cfg r false).1.code = r.code ∧
    (ensureSequence cfg r false).1.status = r.status ∧
    encodeAll cfg (ensureSequence cfg r false).1.body.items = .ok bs ∧
    ((ensureSequence cfg r false).2 = .ok () ∨ (ensureSequence cfg r false).2 = .error .runtimeError) := by
  unfold ensureSequence
  by_cases hs : r.body.isSequence = true
  · simp [hs, hb]
  · simp only [hs, Bool.false_eq_true, if_false]
    by_cases hd : r.direct = true
    · simp [hd, hb]
    simp only [hd, Bool.false_eq_true, if_false]
    by_cases hi : cfg.implicitSeq = true
    · simp only [hi, Bool.not_true, Bool.false_eq_true, if_false]
      unfold makeSequence
      simp only [hs, hb, Bool.false_eq_true, if_false]
      exact ⟨trivial, trivial, trivial, encodeAll_bytes cfg bs, .inl trivial⟩
    · simp [hi, hb]

theorem calc_spec (cfg : Cfg) (r : Resp) (bs : List Bytes) (hb : encodeAll cfg r.body.items = .ok bs) :
    ∃ r' o, calcLength cfg r = (r', .ok o) ∧ r'.headers = r.headers ∧ r'.code = r.code ∧ r'.status = r.status ∧
      encodeAll cfg r'.body.items = .ok bs := by
  obtain ⟨h1, h2, h3, h4, h5⟩ := ensure_spec cfg r bs hb
  unfold calcLength
  cases he : ensureSequence cfg r false with
  | mk r' res =>
    rw [he] at h1 h2 h3 h4 h5
    rcases h5 with h5 | h5
    · simp only at h5; subst h5; exact ⟨r', _, rfl, h1, h2, h3, h4⟩
    · simp only at h5; subst h5; exact ⟨r', _, rfl, h1, h2, h3, h4⟩

/-- The same values for all names except those whose folded form is listed. -/
def SameExcept (lower : Str → Str) (names : List Str) (h h' : HList) : Prop :=
  ∀ x, lower x ∉ names → getlist lower h' x = getlist lower h x

theorem length_spec (cfg : Cfg) (hn : Names cfg.lower) (r : Resp) (bs : List Bytes)
    (hb : encodeAll cfg r.body.items = .ok bs) :
    ∃ r', conditionalLength cfg r = (r', .ok ()) ∧ r'.code = r.code ∧ r'.status = r.status ∧
      encodeAll cfg r'.body.items = .ok bs ∧ SameExcept cfg.lower [s%"content-length"] r.headers r'.headers ∧
      (getlist cfg.lower r.headers s%"Content-Length" ≠ [] → r'.headers = r.headers) := by
  unfold conditionalLength
  have hc : contains cfg.lower r.headers s%"content-length" = !(getlist cfg.lower r.headers s%"Content-Length").isEmpty := by
    rw [← (C07_lookups cfg.lower r.headers s%"Content-Length" s%"content-length" (by rw [hn.length, hn.length'])).2.2.2.2]
    unfold contains; rw [getItem_eq]
    cases getlist cfg.lower r.headers s%"Content-Length" <;> rfl
  by_cases h : (cfg.autoLength && !contains cfg.lower r.headers s%"content-length") = true
  · rw [if_pos h]
    obtain ⟨r', o, h1, h2, h3, h4, h5⟩ := calc_spec cfg r bs hb
    rw [h1]
    have hnil : getlist cfg.lower r.headers s%"Content-Length" = [] := by
      rw [hc] at h
      cases hg : getlist cfg.lower r.headers s%"Content-Length" with
      | nil => rfl
      | cons a as => rw [hg] at h; simp at h
    cases o with
    | none => exact ⟨r', rfl, h3, h4, h5, by intro x _; rw [h2], fun hx => absurd hnil hx⟩
    | some n =>
      refine ⟨_, rfl, h3, h4, h5, ?_, fun hx => absurd hnil hx⟩
      intro x hx
      simp only [setLength, h2]
      rw [getlist_set cfg.lower _ _ _ _ (legal_natStr n), if_neg]
      rw [hn.length]; simpa using hx
  · rw [if_neg h]
    exact ⟨r, rfl, rfl, rfl, hb, fun _ _ => rfl, fun _ => rfl⟩

theorem date_spec (cfg : Cfg) (hn : Names cfg.lower) (now : DateTime) (r : Resp) :
    (conditionalDate cfg now r).code = r.code ∧ (conditionalDate cfg now r).status = r.status ∧
      (conditionalDate cfg now r).body = r.body ∧
      SameExcept cfg.lower [s%"date"] r.headers (conditionalDate cfg now r).headers ∧
      getlist cfg.lower (conditionalDate cfg now r).headers s%"Date" =
        if getlist cfg.lower r.headers s%"Date" = [] then [httpDate now]
        else getlist cfg.lower r.headers s%"Date" := by
  unfold conditionalDate
  have hc : contains cfg.lower r.headers s%"date" = !(getlist cfg.lower r.headers s%"Date").isEmpty := by
    rw [← (C07_lookups cfg.lower r.headers s%"Date" s%"date" (by rw [hn.date, hn.date'])).2.2.2.2]
    unfold contains; rw [getItem_eq]
    cases getlist cfg.lower r.headers s%"Date" <;> rfl
  cases hg : getlist cfg.lower r.headers s%"Date" with
  | cons a as =>
    rw [if_pos (by rw [hc, hg]; rfl)]
    exact ⟨rfl, rfl, rfl, fun _ _ => rfl, by rw [hg]; rfl⟩
  | nil =>
    rw [if_neg (by rw [hc, hg]; simp)]
    refine ⟨rfl, rfl, rfl, ?_, ?_⟩
    · intro x hx
      simp only
      rw [getlist_set cfg.lower _ _ _ _ (legal_httpDate now), if_neg]
      rw [hn.date]; simpa using hx
    · simp only
      rw [getlist_set cfg.lower _ _ _ _ (legal_httpDate now), if_pos rfl]; rfl

theorem dateMicros_http (t : DateTime) (hv : Valid t) (hy : 100 ≤ t.year) :
    dateMicros (some (httpDate t)) = .ok (some (t.total * 1000000)) := by
  simp only [dateMicros, C59_roundtrip t hv hy]

theorem dateMicros_map (o : Option DateTime) (h : ∀ t, o = some t → Valid t ∧ 100 ≤ t.year) :
    dateMicros (o.map httpDate) = .ok (o.map fun t => t.total * 1000000) := by
  cases o with
  | none => rfl
  | some t => exact dateMicros_http t (h t rfl).1 (h t rfl).2

theorem dateMicros_ok (v : Option Str) : ∃ o, dateMicros v = .ok o := by
  cases v with
  | none => exact ⟨_, rfl⟩
  | some v =>
    rcases C76_total v with h | ⟨t, h, _⟩ <;> exact ⟨_, by simp only [dateMicros, h]; rfl⟩

/-- When the copy of the client is still good: If-None-Match decides when it is present and the
response has a tag, otherwise the dates do. -/
def StillGood (inm : Option (List Str × List Str)) (star : Bool) (ims : Option DateTime)
    (etag : Option (Str × Bool)) (lastModified : Option DateTime) : Prop :=
  let byDate := ∃ i l, ims = some i ∧ lastModified = some l ∧ l.total ≤ i.total
  match etag with
  | some (t, weak) =>
    if star then True
    else match inm with
      | some (S, W) => t ∈ S ∨ (weak = true ∧ t ∈ W)
      | none => byDate
  | none => byDate

theorem notModified_iff (inm : Option (List Str × List Str)) (star : Bool) (ims : Option DateTime)
    (etag : Option (Str × Bool)) (lm : Option DateTime) :
    EtagAux.NotModified inm star (ims.map fun t => t.total * 1000000) etag (lm.map fun t => t.total * 1000000) ↔
      StillGood inm star ims etag lm := by
  have hd : (∃ i l, (ims.map fun t => t.total * 1000000) = some i ∧ (lm.map fun t => t.total * 1000000) = some l ∧
      l - l % 1000000 ≤ i) ↔ ∃ i l, ims = some i ∧ lm = some l ∧ l.total ≤ i.total := by
    constructor
    · rintro ⟨i, l, h1, h2, h3⟩
      cases ims with
      | none => simp at h1
      | some a =>
        cases lm with
        | none => simp at h2
        | some b =>
          simp only [Option.map_some, Option.some.injEq] at h1 h2
          subst h1 h2
          exact ⟨a, b, rfl, rfl, by omega⟩
    · rintro ⟨i, l, rfl, rfl, h⟩
      exact ⟨_, _, rfl, rfl, by simp only; omega⟩
  unfold EtagAux.NotModified StillGood
  cases etag with
  | none => exact hd
  | some e =>
    obtain ⟨t, w⟩ := e
    simp only
    cases star with
    | true => simp
    | false =>
      simp only [Bool.false_eq_true, if_false]
      cases inm with
      | none => exact hd
      | some x => rfl

/-- C79.  For other methods than GET and HEAD nothing happens. -/
theorem C79_other_methods (cfg : Cfg) (now : DateTime) (n : Nat) (method : Str)
    (hm : method ≠ s%"GET" ∧ method ≠ s%"HEAD") (inm ims : Option Str) (r : Resp) :
    makeConditional cfg now n method inm ims r = some (r, .ok ()) := by
  unfold makeConditional; rw [if_pos hm]

theorem conditional_core (cfg : Cfg) (hn : Names cfg.lower) (now : DateTime) (method : Str) (r : Resp)
    (bs : List Bytes) (hb : encodeAll cfg r.body.items = .ok bs) :
    ∃ r2, conditionalLength cfg (conditionalDate cfg now r) = (r2, .ok ()) ∧ r2.code = r.code ∧ r2.status = r.status ∧
      encodeAll cfg r2.body.items = .ok bs ∧
      SameExcept cfg.lower [s%"date", s%"content-length"] r.headers r2.headers ∧
      getlist cfg.lower r2.headers s%"Date" = (if getlist cfg.lower r.headers s%"Date" = [] then [httpDate now]
        else getlist cfg.lower r.headers s%"Date") ∧
      (getlist cfg.lower r.headers s%"Content-Length" ≠ [] →
        getlist cfg.lower r2.headers s%"Content-Length" = getlist cfg.lower r.headers s%"Content-Length") := by
  obtain ⟨d1, d2, d3, d4, d5⟩ := date_spec cfg hn now r
  obtain ⟨r2, l1, l2, l3, l4, l5, l6⟩ := length_spec cfg hn (conditionalDate cfg now r) bs (by rw [d3]; exact hb)
  refine ⟨r2, l1, by rw [l2, d1], by rw [l3, d2], l4, ?_, ?_, ?_⟩
  · intro x hx
    simp only [List.mem_cons, List.not_mem_nil, or_false, not_or] at hx
    rw [l5 x (by simpa using hx.2), d4 x (by simpa using hx.1)]
  · rw [l5 _ (by rw [hn.date]; decide), d5]
  · intro hne
    have := d4 s%"Content-Length" (by rw [hn.length]; decide)
    rw [l6 (by rw [this]; exact hne), this]

/-- C79.  The decision for GET and HEAD.  The response is turned into a 304 exactly when the copy
of the client is still good, and keeps its status otherwise; the bytes of the body and all headers
except Date and Content-Length stay as they were; a Date is added when there is none. -/
theorem C79_decision_partial (cfg : Cfg) (hn : Names cfg.lower) (now : DateTime) (method : Str)
    (hm : method = s%"GET" ∨ method = s%"HEAD")
    (inm : Option (List Str × List Str)) (star : Bool) (ims lm : Option DateTime)
    (hinm : ∀ S W, inm = some (S, W) → S ++ W ≠ [] ∧ ∀ t ∈ S ++ W, t ≠ [] ∧ '"' ∉ t ∧ '\n' ∉ t)
    (hims : ∀ t, ims = some t → Valid t ∧ 100 ≤ t.year) (hlm : ∀ t, lm = some t → Valid t ∧ 100 ≤ t.year)
    (etag : Option (Str × Bool)) (hetag : ∀ t w, etag = some (t, w) → '"' ∉ t)
    (n : Nat) (hlen : ∀ S W, inm = some (S, W) → (S ++ W).length < n) (hpos : 0 < n)
    (r : Resp) (bs : List Bytes) (hb : encodeAll cfg r.body.items = .ok bs)
    (hre : getItem cfg.lower r.headers s%"etag" = etag.map fun e => (Etag.quoteEtag e.1 e.2).toOption.getD [])
    (hrl : getItem cfg.lower r.headers s%"last-modified" = lm.map httpDate) :
    ∃ r', makeConditional cfg now n method (EtagAux.header inm star) (ims.map httpDate) r = some (r', .ok ()) ∧
      (StillGood inm star ims etag lm → r'.code = 304 ∧
        r'.status = s%"304 " ++ (cfg.reason 304).getD s%"UNKNOWN") ∧
      (¬ StillGood inm star ims etag lm → r'.code = r.code ∧ r'.status = r.status) ∧
      encodeAll cfg r'.body.items = .ok bs ∧
      SameExcept cfg.lower [s%"date", s%"content-length"] r.headers r'.headers ∧
      getlist cfg.lower r'.headers s%"Date" = (if getlist cfg.lower r.headers s%"Date" = [] then [httpDate now]
        else getlist cfg.lower r.headers s%"Date") ∧
      (getlist cfg.lower r.headers s%"Content-Length" ≠ [] →
        getlist cfg.lower r'.headers s%"Content-Length" = getlist cfg.lower r.headers s%"Content-Length") := by
  obtain ⟨r2, c1, c2, c3, c4, c5, c6, c7⟩ := conditional_core cfg hn now method r bs hb
  have hmeth : ¬ (method ≠ s%"GET" ∧ method ≠ s%"HEAD") := by
    rintro ⟨h1, h2⟩; rcases hm with h | h
    · exact h1 h
    · exact h2 h
  have e1 : getItem cfg.lower r2.headers s%"etag" = getItem cfg.lower r.headers s%"etag" := by
    rw [getItem_eq, getItem_eq, c5 _ (by rw [hn.etag']; decide)]
  have e2 : getItem cfg.lower r2.headers s%"last-modified" = getItem cfg.lower r.headers s%"last-modified" := by
    rw [getItem_eq, getItem_eq, c5 _ (by rw [hn.modified]; decide)]
  obtain ⟨b, hdec, hiff⟩ := C19_decision_partial (D := Unit) (fun _ => []) method hm inm star
    (ims.map fun t => t.total * 1000000) (lm.map fun t => t.total * 1000000) hinm etag hetag n hlen hpos
  rw [notModified_iff] at hiff
  unfold makeConditional
  rw [if_neg hmeth, c1]
  simp only
  rw [e1, e2, hre, hrl, dateMicros_map ims hims, dateMicros_map lm hlm]
  simp only
  rw [hdec]
  cases b with
  | true =>
    have hns : ¬ StillGood inm star ims etag lm := by rw [← hiff]; simp
    exact ⟨r2, rfl, fun h => absurd h hns, fun _ => ⟨c2, c3⟩, c4, c5, c6, c7⟩
  | false =>
    have hs : StillGood inm star ims etag lm := hiff.mp rfl
    refine ⟨_, rfl, fun _ => ⟨rfl, ?_⟩, fun h => absurd hs h, c4, c5, c6, c7⟩
    have h304 : Py.intStr 304 = s%"304" := by decide +kernel
    simp only [setStatusCode, h304]
    cases cfg.reason 304 <;> rfl

/-- C79.  A request without conditional headers never changes the status. -/
theorem C79_unconditional (cfg : Cfg) (hn : Names cfg.lower) (now : DateTime) (n : Nat) (method : Str) (r : Resp)
    (bs : List Bytes) (hb : encodeAll cfg r.body.items = .ok bs) :
    ∃ r', makeConditional cfg now n method none none r = some (r', .ok ()) ∧ r'.code = r.code ∧
      r'.status = r.status ∧ encodeAll cfg r'.body.items = .ok bs := by
  obtain ⟨r2, c1, c2, c3, c4, -⟩ := conditional_core cfg hn now method r bs hb
  unfold makeConditional
  split
  · exact ⟨r, rfl, rfl, rfl, hb⟩
  rename_i hmeth
  rw [c1]
  simp only
  obtain ⟨o, ho⟩ := dateMicros_ok (getItem cfg.lower r2.headers s%"last-modified")
  rw [ho, show dateMicros none = .ok none from rfl]
  simp only [Etag.isResourceModified, if_neg hmeth, Etag.parseEtags]
  cases getItem cfg.lower r2.headers s%"etag" with
  | none => exact ⟨r2, rfl, c2, c3, c4⟩
  | some e =>
    cases e with
    | nil => exact ⟨r2, rfl, c2, c3, c4⟩
    | cons c cs => exact ⟨r2, rfl, c2, c3, c4⟩

/-- C79.  Revalidation.  A client that sends back the tag it was given, strong or weak, receives a
304 without a body. -/
theorem C79_revalidate (cfg : Cfg) (hn : Names cfg.lower) (now : DateTime) (method : Str)
    (hm : method = s%"GET" ∨ method = s%"HEAD") (n : Nat) (hpos : 1 < n) (r : Resp) (e : Str) (w : Bool)
    (he : e ≠ [] ∧ '"' ∉ e ∧ '\n' ∉ e ∧ '\r' ∉ e)
    (bs : List Bytes) (hb : encodeAll cfg r.body.items = .ok bs) :
    let tagged := { r with headers := (setEtag cfg.lower r.headers e w).1 }
    ∃ r', makeConditional cfg now n method (getItem cfg.lower tagged.headers s%"ETag") none tagged =
        some (r', .ok ()) ∧ r'.code = 304 ∧ (appIter method r').yields cfg = .ok [] := by
  intro tagged
  obtain ⟨q, hq, hql⟩ := quote_legal e w he.2.1
  have hset : (setEtag cfg.lower r.headers e w).1 = (Headers.set cfg.lower r.headers s%"ETag" q []).1 := by
    unfold setEtag; rw [hq]
  have hget : ∀ x, cfg.lower x = s%"etag" → getItem cfg.lower tagged.headers x = some q := by
    intro x hx
    show getItem cfg.lower (setEtag cfg.lower r.headers e w).1 x = some q
    rw [hset, getItem_set _ _ _ _ _ (hql.mpr he.2.2), if_pos (by rw [hx, hn.etag])]
  have hhead : EtagAux.header (some (if w then ([], [e]) else ([e], []))) false = some q := by
    have hc : ¬ (e.contains '"' = true) := by simpa using he.2.1
    unfold Etag.quoteEtag at hq; rw [if_neg hc] at hq
    have := Except.ok.inj hq
    subst this
    cases w <;> simp [EtagAux.header, Etag.mk, Etag.ETags.toHeader, Etag.tagText, Py.join]
  obtain ⟨r2, c1, c2, c3, c4, c5, c6, c7⟩ := conditional_core cfg hn now method tagged bs hb
  have hmeth : ¬ (method ≠ s%"GET" ∧ method ≠ s%"HEAD") := by
    rintro ⟨h1, h2⟩; rcases hm with h | h
    · exact h1 h
    · exact h2 h
  have e1 : getItem cfg.lower r2.headers s%"etag" = some q := by
    rw [← hget s%"etag" hn.etag', getItem_eq, getItem_eq, c5 _ (by rw [hn.etag']; decide)]
  obtain ⟨o, ho⟩ := dateMicros_ok (getItem cfg.lower r2.headers s%"last-modified")
  obtain ⟨b, hdec, hiff⟩ := C19_decision_partial (D := Unit) (fun _ => []) method hm
    (some (if w then ([], [e]) else ([e], []))) false none o
    (by
      intro S W h
      cases w
      · simp at h; obtain ⟨rfl, rfl⟩ := h; exact ⟨by simp, by simpa using ⟨he.1, he.2.1, he.2.2.1⟩⟩
      · simp at h; obtain ⟨rfl, rfl⟩ := h; exact ⟨by simp, by simpa using ⟨he.1, he.2.1, he.2.2.1⟩⟩)
    (some (e, w)) (by intro t w' h; simp at h; rw [← h.1]; exact he.2.1) n
    (by
      intro S W h
      cases w
      · simp at h; obtain ⟨rfl, rfl⟩ := h; simpa using hpos
      · simp at h; obtain ⟨rfl, rfl⟩ := h; simpa using hpos) (by omega)
  have hb' : b = false := by
    rw [hiff]
    unfold EtagAux.NotModified
    cases w <;> simp
  subst hb'
  rw [hget s%"ETag" hn.etag]
  rw [hhead] at hdec
  simp only [Option.map_some, hq, Except.toOption, Option.getD_some] at hdec
  unfold makeConditional
  rw [if_neg hmeth, c1]
  simp only
  rw [e1, ho, show dateMicros none = .ok none from rfl]
  simp only
  rw [hdec]
  exact ⟨_, rfl, rfl, C51_no_body cfg method _ (by simp [Bodyless, setStatusCode])⟩

/-- C79 (limit).  The claim does not extend to an empty tag, which never matches, and to a strong
tag the client lists as weak. -/
theorem C79_decision_false :
    let r : Resp := ⟨(setEtag asciiLower [] [] false).1, s%"200 OK", 200, .list [], [], false⟩
    let s : Resp := ⟨(setEtag asciiLower [] s%"x" false).1, s%"200 OK", 200, .list [], [], false⟩
    let now : DateTime := ⟨2020, 1, 1, 0, 0, 0⟩
    ((makeConditional demo now 9 s%"GET" (some s%"\"\"") none r).map (·.1.code) = some 200) ∧
    ((makeConditional demo now 9 s%"GET" (some s%"W/\"x\"") none s).map (·.1.code) = some 200) := by
  decide +kernel

example : StillGood none false (some ⟨2020, 1, 2, 0, 0, 0⟩) none (some ⟨2020, 1, 1, 0, 0, 0⟩) :=
  ⟨_, _, rfl, rfl, by decide⟩
example : (makeConditional demo ⟨2020, 1, 1, 0, 0, 0⟩ 9 s%"GET" (some s%"\"v1\"") none
    ⟨(setEtag asciiLower [] s%"v1" false).1, s%"200 OK", 200, .list [.bytes b%"ab"], [], false⟩).map (·.1.code) =
    some 304 := by decide +kernel

/-! ### C80 -/

theorem prop_assign {α : Type} (lower : Str → Str) (p : HeaderProp α) (h : HList) (v : α)
    (hw : p.readOnly = false) (hd : LegalValue (p.dump v)) (hr : p.load (p.dump v) = .ok (some v)) :
    (p.set lower h v).2 = .ok () ∧ p.get lower (p.set lower h v).1 = .ok (some v) ∧
      SameOthers lower p.name h (p.set lower h v).1 := by
  unfold HeaderProp.set HeaderProp.get
  rw [hw]
  refine ⟨set_ok lower h _ _ hd, ?_, sameOthers_set lower h _ _⟩
  simp only [Bool.false_eq_true, if_false]
  rw [getItem_set lower h _ _ _ hd, if_pos rfl]
  simp only [hr]

/-- C80.  Assigning a number to `content_length`, a date to `date`, `expires` or `last_modified`,
and text without line breaks to one of the text properties, and reading the property, gives back
the value; the headers of all other names stay as they were. -/
theorem C80_assign_read (lower : Str → Str) (h : HList) (name : Str) :
    (∀ i : Int, let h' := contentLength.set lower h i
      h'.2 = .ok () ∧ contentLength.get lower h'.1 = .ok (some i) ∧ SameOthers lower s%"Content-Length" h h'.1) ∧
    (∀ t : DateTime, Valid t → 100 ≤ t.year → let h' := (dateProp name).set lower h t
      h'.2 = .ok () ∧ (dateProp name).get lower h'.1 = .ok (some t) ∧ SameOthers lower name h h'.1) ∧
    (∀ v : Str, '\n' ∉ v → '\r' ∉ v → let h' := (textProp name).set lower h v
      h'.2 = .ok () ∧ (textProp name).get lower h'.1 = .ok (some v) ∧ SameOthers lower name h h'.1) := by
  refine ⟨?_, ?_, ?_⟩
  · intro i
    refine prop_assign lower contentLength h i rfl (legal_intStr i) ?_
    have := Py.intOf_intStr i
    show (Py.intOf (Py.intStr i)).map some = _
    rw [this]
    rfl
  · intro t hv hy
    have e1 : LegalValue ((dateProp name).dump t) := by simp only [dateProp]; exact legal_httpDate t
    have e2 : (dateProp name).load ((dateProp name).dump t) = .ok (some t) := by
      simp only [dateProp]; exact C59_roundtrip t hv hy
    exact prop_assign lower (dateProp name) h t rfl e1 e2
  · intro v h1 h2
    exact prop_assign lower (textProp name) h v rfl ⟨h1, h2⟩ rfl

/-- C80.  Text with a line break is refused and nothing changes. -/
theorem C80_rejects (lower : Str → Str) (h : HList) (name v : Str) (hv : '\n' ∈ v ∨ '\r' ∈ v) :
    (textProp name).set lower h v = (h, .error .valueError) := by
  unfold HeaderProp.set textProp
  simp only [Bool.false_eq_true, if_false, id]
  apply set_bad
  rintro ⟨h1, h2⟩
  rcases hv with hv | hv
  · exact h1 hv
  · exact h2 hv

/-- C80.  Deleting a property removes all headers of that name, in whatever case, and no others;
the property then reads as `None`. -/
theorem C80_delete {α : Type} (lower : Str → Str) (p : HeaderProp α) (hw : p.readOnly = false)
    (hd : p.default = none) (h : HList) :
    (p.delete lower h).2 = .ok () ∧ p.get lower (p.delete lower h).1 = .ok none ∧
      getlist lower (p.delete lower h).1 p.name = [] ∧ SameOthers lower p.name h (p.delete lower h).1 := by
  have key : (p.delete lower h) = (delKey lower h p.name, .ok ()) := by
    unfold HeaderProp.delete popKey
    rw [hw]
    simp only [Bool.false_eq_true, if_false]
    cases hg : getItem lower h p.name with
    | some v => rfl
    | none =>
      simp only [Prod.mk.injEq, and_true]
      unfold delKey
      symm
      rw [List.filter_eq_self]
      intro q hq
      rw [getItem_eq, getlist_eq] at hg
      simp only [decide_eq_true_eq]
      intro e
      have : q.2 ∈ (h.filter (fun p_1 => decide (lower p_1.1 = lower p.name))).map (·.2) :=
        List.mem_map_of_mem (List.mem_filter.mpr ⟨hq, by simpa using e⟩)
      cases hx : (h.filter (fun p_1 => decide (lower p_1.1 = lower p.name))).map (·.2) with
      | nil => rw [hx] at this; simp at this
      | cons a as => rw [hx] at hg; simp at hg
  rw [key]
  refine ⟨rfl, ?_, by rw [getlist_delKey, if_pos rfl], sameOthers_del lower h p.name⟩
  unfold HeaderProp.get
  simp only
  rw [getItem_del, if_pos rfl]
  simp only [hd]

/-- C80.  Assigning to or deleting a read-only property fails and nothing changes. -/
theorem C80_read_only {α : Type} (lower : Str → Str) (p : HeaderProp α) (hw : p.readOnly = true) (h : HList) (v : α) :
    p.set lower h v = (h, .error .attributeError) ∧ p.delete lower h = (h, .error .attributeError) := by
  simp [HeaderProp.set, HeaderProp.delete, hw]

theorem intOf_err (s : Str) (e : PyErr) (h : Py.intOf s = .error e) : e = .valueError := by
  unfold Py.intOf at h
  split at h <;> split at h <;> simp at h <;> exact h.symm

/-- C80.  Reading never raises, whatever the header says; a length that is not a number reads as
`None`. -/
theorem C80_total (lower : Str → Str) (h : HList) (name : Str) :
    (∃ o, contentLength.get lower h = .ok o ∧
      (∀ i, o = some i → ∃ v, getItem lower h s%"Content-Length" = some v ∧ Py.intOf v = .ok i)) ∧
    (∃ o, (dateProp name).get lower h = .ok o) ∧ (∃ o, (textProp name).get lower h = .ok o) := by
  refine ⟨?_, ?_, ?_⟩
  · unfold HeaderProp.get contentLength
    simp only
    cases hg : getItem lower h s%"Content-Length" with
    | none => exact ⟨none, rfl, by simp⟩
    | some v =>
      cases hi : Py.intOf v with
      | ok i =>
        refine ⟨some i, ?_, by intro j hj; cases hj; exact ⟨v, rfl, hi⟩⟩
        simp only [hi]
        rfl
      | error e =>
        refine ⟨none, ?_, by simp⟩
        simp only [hi, intOf_err v e hi]
        rfl
  · unfold HeaderProp.get dateProp
    simp only
    cases hg : getItem lower h name with
    | none => exact ⟨none, rfl⟩
    | some v => rcases C76_total v with hp | ⟨t, hp, _⟩ <;> exact ⟨_, by simp only [hp]; rfl⟩
  · unfold HeaderProp.get textProp
    simp only
    cases hg : getItem lower h name with
    | none => exact ⟨none, rfl⟩
    | some v => exact ⟨some v, rfl⟩

/-- C80 (refutation).  `age` does not hold a number of seconds: an `Age` header that follows the
standard reads as `None`, and what the property writes is not a number. -/
theorem C80_age_false :
    age.get asciiLower [(s%"Age", s%"30")] = .ok none ∧
    (age.set asciiLower [] ⟨1970, 1, 1, 0, 0, 30⟩).1 = [(s%"Age", s%"Thu, 01 Jan 1970 00:00:30 GMT")] := by
  decide +kernel

example : Valid ⟨2024, 2, 29, 12, 0, 0⟩ := by unfold Valid; decide
example : contentLength.get asciiLower [(s%"content-LENGTH", s%"x12")] = .ok none := by decide

/-! ### C84 -/

theorem dropDay_length (ws : List Str) (h : ws.length ≤ 1) : (dropDay ws).length ≤ 1 := by
  match ws, h with
  | [], _ => simp [dropDay]
  | [w], _ =>
    simp only [dropDay]
    split
    · simp
    · split <;> simp

/-- A single word is not a date. -/
theorem parseDate_word (v : Str) (hv : ∀ c ∈ v, Py.isSpace c = false) : parseDate v = .ok none := by
  have hs : Py.strip v = v := Py.strip_nospace v hv
  have hws : (Utils.words v).length ≤ 1 := by
    unfold Utils.words
    rw [Utils.wordsGo_plain v [] hv]
    split <;> simp
  have key : parsedateTz v = .ok none := by
    unfold parsedateTz
    cases hws' : Utils.words v with
    | nil => rfl
    | cons w ws =>
      have hl := dropDay_length (w :: ws) (by rw [← hws']; exact hws)
      simp only
      match hd : dropDay (w :: ws), hl with
      | [], _ => rfl
      | [a], _ => rfl
  unfold parseDate
  rw [hs, key]
  simp

theorem total_pos (t : DateTime) (h : Valid t) : 86400 ≤ t.total := by
  have := ord_bound t h
  unfold DateTime.total
  omega

/-- C84.  A number of seconds assigned to `retry_after` reads as that many seconds from now, as
long as that is before the year 10000; a date reads as that date; assigning `None` removes the
header; other headers stay as they were. -/
theorem C84_assign_read (lower : Str → Str) (hn : Names lower) (now : DateTime) (hnow : Valid now) (h : HList) :
    (∀ n : Nat, now.total + n ≤ DateTime.total ⟨9999, 12, 31, 23, 59, 59⟩ →
      ∃ t, getRetryAfter lower now (setRetryAfter lower h (.seconds n)).1 = .ok (some t) ∧ Valid t ∧
        t.total = now.total + n) ∧
    (∀ t, Valid t → 100 ≤ t.year → getRetryAfter lower now (setRetryAfter lower h (.date t)).1 = .ok (some t)) ∧
    getRetryAfter lower now (setRetryAfter lower h .none).1 = .ok none ∧
    getlist lower (setRetryAfter lower h .none).1 s%"Retry-After" = [] ∧
    (∀ v, (setRetryAfter lower h v).2 = .ok () ∧ SameOthers lower s%"Retry-After" h (setRetryAfter lower h v).1) := by
  have hnil : getlist lower (setRetryAfter lower h .none).1 s%"Retry-After" = [] := by
    simp only [setRetryAfter]
    split
    · rw [getlist_delKey, if_pos (by rw [hn.retry, hn.retry'])]
    · rename_i hc
      rw [← (C07_lookups lower h s%"Retry-After" s%"retry-after" (by rw [hn.retry, hn.retry'])).2.2.2.2,
        (C07_lookups lower h s%"Retry-After" s%"Retry-After" rfl).2.1] at hc
      simpa using hc
  refine ⟨?_, ?_, ?_, hnil, ?_⟩
  · intro n h1
    rw [show DateTime.total ⟨9999, 12, 31, 23, 59, 59⟩ = 3652060 * 86400 - 1 by decide +kernel] at h1
    have h2 := total_pos now hnow
    unfold getRetryAfter
    simp only [setRetryAfter]
    rw [getItem_set lower h _ _ _ (legal_intStr n), if_pos (by rw [hn.retry, hn.retry'])]
    have hd : Py.intStr (n : Int) ≠ [] ∧ (Py.intStr (n : Int)).all Range.isDigit = true := by
      refine ⟨Py.natStr_ne_nil n, ?_⟩
      rw [List.all_eq_true]
      intro c hc
      have := Py.natStr_digits n c hc
      unfold Py.IsDig at this
      unfold Range.isDigit
      simp [this]
    simp only
    rw [if_pos hd, Py.intOf_intStr]
    simp only
    cases ho : ofTotal (now.total + n) with
    | none =>
      unfold ofTotal at ho
      simp only at ho
      split at ho
      · cases ho
      · omega
    | some t =>
      obtain ⟨hv, ht⟩ := total_ofTotal _ t ho
      exact ⟨t, rfl, hv, ht⟩
  · intro t hv hy
    unfold getRetryAfter
    simp only [setRetryAfter]
    rw [getItem_set lower h _ _ _ (legal_httpDate t), if_pos (by rw [hn.retry, hn.retry'])]
    simp only
    rw [if_neg, C59_roundtrip t hv hy]
    rintro ⟨_, hall⟩
    rw [List.all_eq_true] at hall
    have hm : ' ' ∈ httpDate t := by unfold httpDate dumpDate; simp
    exact absurd (hall _ hm) (by decide)
  · unfold getRetryAfter
    rw [getItem_eq, ← (C07_lookups lower _ s%"Retry-After" s%"retry-after" (by rw [hn.retry, hn.retry'])).2.2.1, hnil]
    rfl
  · intro v
    cases v with
    | none =>
      simp only [setRetryAfter]
      refine ⟨trivial, ?_⟩
      split
      · exact sameOthers_name lower (by rw [hn.retry, hn.retry']) (sameOthers_del lower h s%"retry-after")
      · exact sameOthers_refl lower h _
    | date t =>
      simp only [setRetryAfter]
      exact ⟨set_ok lower h _ _ (legal_httpDate t), sameOthers_set lower h _ _⟩
    | seconds n =>
      simp only [setRetryAfter]
      exact ⟨set_ok lower h _ _ (legal_intStr n), sameOthers_set lower h _ _⟩

/-- C84.  A negative number of seconds reads as `None`. -/
theorem C84_negative (lower : Str → Str) (hn : Names lower) (now : DateTime) (h : HList) (i : Int) (hi : i < 0) :
    getRetryAfter lower now (setRetryAfter lower h (.seconds i)).1 = .ok none := by
  unfold getRetryAfter
  simp only [setRetryAfter]
  rw [getItem_set lower h _ _ _ (legal_intStr i), if_pos (by rw [hn.retry, hn.retry'])]
  simp only
  rw [if_neg]
  · exact parseDate_word _ (intStr_nospace i)
  · rintro ⟨_, hall⟩
    cases i with
    | ofNat n => simp at hi; omega
    | negSucc n => simp only [Py.intStr, List.all_cons] at hall; exact absurd hall (by simp [Range.isDigit])

/-- C84 (refutation of "reading never raises").  A header of superscript digits or with too large
a number raises an error. -/
theorem C84_total_false : ∃ now, Valid now ∧
    getRetryAfter asciiLower now [(s%"Retry-After", s%"²")] = .error .valueError ∧
    getRetryAfter asciiLower now [(s%"Retry-After", s%"999999999999")] = .error .overflowError :=
  ⟨⟨2020, 1, 1, 0, 0, 0⟩, by unfold Valid; decide, by decide +kernel, by decide +kernel⟩

/-- C84.  Reading raises in no other case: not when the value is something else than digits, and
not when it is a number of seconds within the calendar.  (Missing from "never raises": the two cases
of the refutation.) -/
theorem C84_total_partial (lower : Str → Str) (now : DateTime) (h : HList)
    (hok : ∀ v, getItem lower h s%"retry-after" = some v → v.all Range.isDigit = true → v ≠ [] →
      ∃ n, Py.intOf v = .ok n ∧ DateTime.total ⟨1, 1, 1, 0, 0, 0⟩ ≤ now.total + n ∧
        now.total + n ≤ DateTime.total ⟨9999, 12, 31, 23, 59, 59⟩) :
    ∃ o, getRetryAfter lower now h = .ok o := by
  unfold getRetryAfter
  cases hg : getItem lower h s%"retry-after" with
  | none => exact ⟨none, rfl⟩
  | some v =>
    simp only
    split
    · rename_i hd
      obtain ⟨n, h1, h2, h3⟩ := hok v hg hd.2 hd.1
      rw [show DateTime.total ⟨1, 1, 1, 0, 0, 0⟩ = 86400 by decide +kernel] at h2
      rw [show DateTime.total ⟨9999, 12, 31, 23, 59, 59⟩ = 3652060 * 86400 - 1 by decide +kernel] at h3
      rw [h1]
      simp only
      cases ho : ofTotal (now.total + n) with
      | none =>
        unfold ofTotal at ho
        simp only at ho
        split at ho
        · cases ho
        · omega
      | some t => exact ⟨_, rfl⟩
    · rcases C76_total v with hp | ⟨t, hp, _⟩ <;> exact ⟨_, hp⟩

example : getRetryAfter asciiLower ⟨2020, 1, 1, 0, 0, 0⟩ (setRetryAfter asciiLower [] (.seconds 90)).1 =
    .ok (some ⟨2020, 1, 1, 0, 1, 30⟩) := by decide +kernel

/-! ### C86 -/

theorem strip_quote (s : Str) : ∃ r, Py.strip ('"' :: s) = '"' :: r ∧ ∀ c ∈ r, c ∈ s := by
  have hl : Py.lstripP Py.isSpace ('"' :: s) = '"' :: s := by
    unfold Py.lstripP
    rw [List.dropWhile_cons, if_neg (by decide)]
  have hp := Py.rstripP_prefix Py.isSpace ('"' :: s)
  have hne : Py.rstripP Py.isSpace ('"' :: s) ≠ [] := by
    intro h0
    unfold Py.rstripP at h0
    rw [List.reverse_eq_nil_iff] at h0
    have hall : ∀ (l : Str), l.dropWhile Py.isSpace = [] → ∀ c ∈ l, Py.isSpace c = true := by
      intro l
      induction l with
      | nil => simp
      | cons a as ih =>
        intro hl c hc
        rw [List.dropWhile_cons] at hl
        split at hl
        · rename_i ha
          rcases List.mem_cons.mp hc with rfl | hc
          · exact ha
          · exact ih hl c hc
        · cases hl
    exact absurd (hall _ h0 '"' (by simp)) (by decide)
  unfold Py.strip Py.stripP
  rw [hl]
  cases hr : Py.rstripP Py.isSpace ('"' :: s) with
  | nil => exact absurd hr hne
  | cons a as =>
    rw [hr, List.cons_prefix_cons] at hp
    obtain ⟨rfl, hp⟩ := hp
    exact ⟨as, rfl, fun c hc => hp.subset hc⟩

theorem wordsGo_start : ∀ (s cur : Str), cur ≠ [] →
    ∃ x ws, Utils.wordsGo cur s = (cur ++ x) :: ws ∧ ∀ c ∈ x, c ∈ s
  | [], cur, h => ⟨[], [], by simp [Utils.wordsGo, h], by simp⟩
  | c :: cs, cur, h => by
    unfold Utils.wordsGo
    cases hc : Py.isSpace c with
    | true => exact ⟨[], Utils.wordsGo [] cs, by simp [h], by simp⟩
    | false =>
      obtain ⟨x, ws, h1, h2⟩ := wordsGo_start cs (cur ++ [c]) (by simp)
      refine ⟨c :: x, ws, by simp [h1], ?_⟩
      intro y hy
      rcases List.mem_cons.mp hy with rfl | hy
      · simp
      · simp [h2 y hy]

theorem intOf_quote (s : Str) : Py.intOf ('"' :: s) = .error .valueError := by
  obtain ⟨r, hr, _⟩ := strip_quote s
  unfold Py.intOf
  rw [hr]
  rfl

theorem splitOn_quote (s : Str) : ∃ x l, Py.splitOn '-' ('"' :: s) = ('"' :: x) :: l ∧ ∀ c ∈ x, c ∈ s := by
  have hsub : ∀ (s : Str), ∀ p ∈ Py.splitOn '-' s, ∀ c ∈ p, c ∈ s := by
    intro s
    induction s with
    | nil => simp [Py.splitOn]
    | cons a as ih =>
      intro p hp c hc
      simp only [Py.splitOn] at hp
      split at hp
      · rcases List.mem_cons.mp hp with rfl | hp
        · simp at hc
        · simp [ih p hp c hc]
      · split at hp
        · simp at hp; subst hp; simp at hc; simp [hc]
        · rename_i q qs hq
          rcases List.mem_cons.mp hp with rfl | hp
          · rcases List.mem_cons.mp hc with rfl | hc
            · simp
            · have := ih q (by rw [hq]; simp) c hc
              simp [this]
          · have := ih p (by rw [hq]; simp [hp]) c hc
            simp [this]
  have h : ('"' == '-') = false := by decide
  unfold Py.splitOn
  cases hq : Py.splitOn '-' s with
  | nil => exact absurd hq (Py.splitOn_ne_nil _ _)
  | cons q qs =>
    refine ⟨q, qs, by simp, fun c hc => hsub s q (by rw [hq]; simp) c hc⟩

/-- Text that starts with a quote and has no comma is not a date. -/
theorem parseDate_quote (s : Str) (hs : ',' ∉ s) : parseDate ('"' :: s) = .ok none := by
  have hfin : ∀ x mm yy tm tz, ',' ∉ x → ∀ r, fields ('"' :: x) mm yy tm tz = .ok r → r = none := by
    intro x mm yy tm tz hx r h
    have hlow : monthNumber (lower ('"' :: x)) = none := by
      unfold monthNumber
      rw [if_neg]
      unfold lower
      rw [List.map_cons]
      simp [months]
    unfold fields at h
    split at h
    · cases h; rfl
    · unfold dayMonth at h
      rw [hlow] at h
      have hdc : dropComma ('"' :: x) = .ok ('"' :: x) := by
        unfold dropComma
        cases hg : List.getLast? ('"' :: x) with
        | none => simp at hg
        | some c =>
          have : c ∈ '"' :: x := List.mem_of_getLast? hg
          simp only
          rw [if_neg]
          rintro rfl
          simp [hx] at this
      cases hm : monthNumber (lower mm) with
      | none => rw [hm] at h; cases h; rfl
      | some m =>
        rw [hm] at h
        simp only [hdc] at h
        have hnum : ∀ yy h m' s' tz, numbers yy m ('"' :: x) h m' s' tz = none := by
          intro yy h m' s' tz
          unfold numbers
          rw [intOf_quote]
          cases Py.intOf yy <;> rfl
        cases hy : dropComma (if colonInside yy = true then tm else yy) with
        | error e => rw [hy] at h; cases h
        | ok y =>
          rw [hy] at h
          simp only at h
          by_cases hye : y = []
          · rw [if_pos hye] at h; cases h; rfl
          · rw [if_neg hye] at h
            unfold finish at h
            cases hf : firstDigit y with
            | error e => rw [hf] at h; cases h
            | ok isd =>
              rw [hf] at h
              simp only at h
              cases ht : dropComma (if colonInside yy = true then yy else tm) with
              | error e => rw [ht] at h; cases h
              | ok t =>
                rw [ht] at h
                simp only at h
                cases hs : splitTime t with
                | none => rw [hs] at h; cases h; rfl
                | some q =>
                  obtain ⟨a, b, c⟩ := q
                  rw [hs] at h
                  simp only [hnum] at h
                  cases h
                  rfl
  have key : ∀ r, parsedateTz (Py.strip ('"' :: s)) = .ok r → r = none := by
    obtain ⟨t, ht, hsub⟩ := strip_quote s
    rw [ht]
    have hw : ∃ x ws, Utils.words ('"' :: t) = ('"' :: x) :: ws ∧ ',' ∉ x := by
      obtain ⟨x, ws, h1, h2⟩ := wordsGo_start t ['"'] (by simp)
      refine ⟨x, ws, ?_, fun h => hs (hsub _ (h2 _ h))⟩
      unfold Utils.words Utils.wordsGo
      rw [if_neg (by decide)]
      exact h1
    obtain ⟨x, ws, h1, h2⟩ := hw
    intro r hr
    unfold parsedateTz at hr
    rw [h1] at hr
    have hd : dropDay (('"' :: x) :: ws) = ('"' :: x) :: ws := by
      simp only [dropDay]
      rw [if_neg, Py.rsplit1_none.mpr (by simp [h2])]
      rintro (hl | hl)
      · have := List.mem_of_getLast? hl
        simp [h2] at this
      · unfold lower at hl
        rw [List.map_cons] at hl
        simp [days] at hl
    have hu : ∃ y ys, unhyphen (('"' :: x) :: ws) = ('"' :: y) :: ys ∧ ',' ∉ y := by
      unfold unhyphen
      split
      · rename_i a b c he
        simp only [List.cons.injEq] at he
        obtain ⟨rfl, rfl⟩ := he
        split
        · obtain ⟨y, l, hy, hyy⟩ := splitOn_quote x
          rw [hy]
          exact ⟨y, l ++ [b, c], rfl, fun h => h2 (hyy _ h)⟩
        · exact ⟨x, [b, c], rfl, h2⟩
      · exact ⟨x, ws, rfl, h2⟩
    obtain ⟨y, ys, hy, hyc⟩ := hu
    have ha : ∃ zs, addZone (('"' :: y) :: ys) = ('"' :: y) :: zs := by
      unfold addZone
      split
      · rename_i a b c d he
        simp only [List.cons.injEq] at he
        obtain ⟨rfl, rfl⟩ := he
        simp only
        split <;> split <;> exact ⟨_, rfl⟩
      · exact ⟨ys, rfl⟩
    obtain ⟨zs, hz⟩ := ha
    simp only [hd, hy, hz] at hr
    split at hr
    · rename_i he
      simp only [List.cons.injEq] at he
      obtain ⟨rfl, rfl⟩ := he
      exact hfin _ _ _ _ _ hyc r hr
    · cases hr; rfl
  rcases C76_total ('"' :: s) with h | ⟨t, h, _⟩
  · exact h
  · unfold parseDate at h
    rw [if_neg (by simp)] at h
    split at h
    · cases h
    · cases h
    · rename_i he
      cases key _ he

/-- C86.  An `If-Range` with a date is read back as that date, and one with an entity tag without
commas as that tag.  (Missing: tags with commas, which may read as a date; see the refutation.) -/
theorem C86_roundtrip_partial :
    (∀ t, Valid t → 100 ≤ t.year → ∃ s, IfRange.toHeader ⟨none, some t⟩ = .ok s ∧
      parseIfRange s = .ok ⟨none, some t⟩) ∧
    (∀ e : Str, '"' ∉ e → ',' ∉ e → ∃ s, IfRange.toHeader ⟨some e, none⟩ = .ok s ∧
      parseIfRange s = .ok ⟨some e, none⟩) ∧
    (∃ s, IfRange.toHeader ⟨none, none⟩ = .ok s ∧ parseIfRange s = .ok ⟨none, none⟩) := by
  refine ⟨?_, ?_, ⟨[], rfl, rfl⟩⟩
  · intro t hv hy
    refine ⟨_, rfl, ?_⟩
    unfold parseIfRange
    rw [if_neg, C59_roundtrip t hv hy]
    unfold httpDate dumpDate
    simp
  · intro e hq hc
    obtain ⟨q, h1, h2⟩ := (C16_etag_quote_roundtrip e false).1 hq
    refine ⟨q, h1, ?_⟩
    have hqe : q = '"' :: (e ++ ['"']) := by
      unfold Etag.quoteEtag at h1
      rw [if_neg (by simpa using hq)] at h1
      simpa using h1.symm
    unfold parseIfRange
    rw [h2, hqe, parseDate_quote _ (by simp [hc])]
    simp

/-- C86, exactly: a tag without quotes, empty or not, is read back unless it reads as a date with its quotes around it. -/
theorem C86_tag (e : Str) (hq : '"' ∉ e) : ∃ s, IfRange.toHeader ⟨some e, none⟩ = .ok s ∧ s = '"' :: e ++ s%"\"" ∧
    (parseDate s = .ok none → parseIfRange s = .ok ⟨some e, none⟩) ∧
    (∀ t, parseDate s = .ok (some t) → parseIfRange s = .ok ⟨none, some t⟩) := by
  obtain ⟨q, h1, h2⟩ := (C16_etag_quote_roundtrip e false).1 hq
  have hqe : q = '"' :: (e ++ ['"']) := by
    unfold Etag.quoteEtag at h1
    rw [if_neg (by simpa using hq)] at h1
    simpa using h1.symm
  have hne : q ≠ [] := by rw [hqe]; simp
  refine ⟨q, h1, by rw [hqe]; simp, ?_, ?_⟩
  · intro h
    unfold parseIfRange
    rw [if_neg hne, h, h2]
  · intro t h
    unfold parseIfRange
    rw [if_neg hne, h]

/-- C86.  Parsing never raises and never gives both a tag and a date; the date is a real one. -/
theorem C86_parse (v : Str) : ∃ r, parseIfRange v = .ok r ∧ (r.etag = none ∨ r.date = none) ∧
    (∀ t, r.date = some t → Valid t) ∧ (v ≠ [] → r.etag ≠ none ∨ r.date ≠ none) := by
  unfold parseIfRange
  split
  · rename_i h
    exact ⟨_, rfl, Or.inl rfl, by simp, fun h' => absurd h h'⟩
  · rename_i hne
    rcases C76_total v with h | ⟨t, h, hv⟩
    · rw [h]
      refine ⟨_, rfl, Or.inr rfl, by simp, fun _ => Or.inl ?_⟩
      unfold Etag.unquoteEtag
      rw [if_neg hne]
      simp
    · rw [h]
      exact ⟨_, rfl, Or.inl rfl, by intro t' h'; cases h'; exact hv, fun _ => Or.inr (by simp)⟩

/-- C86 (refutation for tags with commas).  The quoted tag is taken for a date. -/
theorem C86_roundtrip_false : ∃ e t s, '"' ∉ e ∧ IfRange.toHeader ⟨some e, none⟩ = .ok s ∧
    parseIfRange s = .ok ⟨none, some t⟩ :=
  ⟨s%"Mon, 01 Jan 2000 00:00:00 x", ⟨2000, 1, 1, 0, 0, 0⟩, s%"\"Mon, 01 Jan 2000 00:00:00 x\"",
    by decide, by decide, by decide +kernel⟩

example : parseIfRange s%"\"ab-c d\"" = .ok ⟨some s%"ab-c d", none⟩ := by decide +kernel

end Verif.Props.Desc
