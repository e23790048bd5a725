import Verif.Model.RequestDesc
import Verif.Props.CacheControl
import Verif.Props.DescriptorViews
import Verif.Props.EnvironHeaders
/-! C122: the typed headers of a request are what the client sent. -/
namespace Verif.Props.ReqDescP
open Verif Verif.ReqDesc Verif.Props.EnvHeadersP

/-- What a server passes to the application for the headers a client sent, by the rule of WSGI: one entry for each, with the
key `serverKey`, and no other entries that look like headers. -/
structure Sent (environ sent : List (Str × Str)) : Prop where
  names : ∀ p ∈ sent, Name p.1
  entries : environ.filter (fun p => isHeaderKey p.1) = sent.map fun p => (serverKey p.1, p.2)

section
variable {upper lower title : Str → Str} (hc : AsciiCase upper lower title) {environ sent : List (Str × Str)} (hs : Sent environ sent)
include hc hs

theorem arrives (name key : Str) (hn : Name name) (hk : serverKey name = key) :
    Dict.get environ key = Headers.get lower sent name := by
  subst hk
  rw [← ((C93_view hc environ sent hs.names hs.entries).1 name hn).1, ← envKey_eq hc name hn]
  rfl

/-- **C122, entity tags.**  `if_match` and `if_none_match` have the tags of the sets that were sent, the star, or nothing if
no such header was sent. -/
theorem C122_etags (strong weak : List Str) (h1 : ∀ t ∈ strong ++ weak, t ≠ [] ∧ '"' ∉ t ∧ '\n' ∉ t) (n : Nat)
    (hn : strong.length + weak.length < n) :
    (Headers.get lower sent s%"If-Match" = some (Etag.mk (strong.map some) (weak.map some) false).toHeader →
      ifMatch n environ = some ⟨strong.map some, weak.map some, false⟩) ∧
    (Headers.get lower sent s%"If-None-Match" = some (Etag.mk (strong.map some) (weak.map some) false).toHeader →
      ifNoneMatch n environ = some ⟨strong.map some, weak.map some, false⟩) ∧
    (Headers.get lower sent s%"If-Match" = some s%"*" → ifMatch n environ = some ⟨[], [], true⟩) ∧
    (Headers.get lower sent s%"If-None-Match" = some s%"*" → ifNoneMatch n environ = some ⟨[], [], true⟩) ∧
    (Headers.get lower sent s%"If-Match" = none → ifMatch n environ = some ⟨[], [], false⟩) ∧
    (Headers.get lower sent s%"If-None-Match" = none → ifNoneMatch n environ = some ⟨[], [], false⟩) := by
  have e1 := arrives hc hs s%"If-Match" s%"HTTP_IF_MATCH" (by unfold Name; decide) (by decide)
  have e2 := arrives hc hs s%"If-None-Match" s%"HTTP_IF_NONE_MATCH" (by unfold Name; decide) (by decide)
  have hr := C17_header_roundtrip_partial strong weak (fun t ht => h1 t (by simp [ht])) (fun t ht => h1 t (by simp [ht])) n hn
  have star : Etag.parseEtags n (some s%"*") = some ⟨[], [], true⟩ := hr.2
  have none' : Etag.parseEtags n none = some ⟨[], [], false⟩ := rfl
  unfold ifMatch ifNoneMatch
  rw [e1, e2]
  refine ⟨?_, ?_, ?_, ?_, ?_, ?_⟩ <;> intro h <;> rw [h]
  · exact hr.1
  · exact hr.1
  · exact star
  · exact star
  · exact none'
  · exact none'

/-- **C122, dates.**  `if_modified_since`, `if_unmodified_since` and `date` are the moments that were sent, and `None` if there was no such header. -/
theorem C122_dates (t : Date.DateTime) (hv : Spec.Calendar.Valid t) (hy : 100 ≤ t.year) :
    (Headers.get lower sent s%"If-Modified-Since" = some (Date.httpDate t) → ifModifiedSince environ = .ok (some t)) ∧
    (Headers.get lower sent s%"If-Unmodified-Since" = some (Date.httpDate t) → ifUnmodifiedSince environ = .ok (some t)) ∧
    (Headers.get lower sent s%"Date" = some (Date.httpDate t) → ReqDesc.date environ = .ok (some t)) ∧
    (Headers.get lower sent s%"If-Modified-Since" = none → ifModifiedSince environ = .ok none) ∧
    (Headers.get lower sent s%"If-Unmodified-Since" = none → ifUnmodifiedSince environ = .ok none) ∧
    (Headers.get lower sent s%"Date" = none → ReqDesc.date environ = .ok none) := by
  have e1 := arrives hc hs s%"If-Modified-Since" s%"HTTP_IF_MODIFIED_SINCE" (by unfold Name; decide) (by decide)
  have e2 := arrives hc hs s%"If-Unmodified-Since" s%"HTTP_IF_UNMODIFIED_SINCE" (by unfold Name; decide) (by decide)
  have e3 := arrives hc hs s%"Date" s%"HTTP_DATE" (by unfold Name; decide) (by decide)
  have hr := DateP.C59_roundtrip t hv hy
  unfold ifModifiedSince ifUnmodifiedSince ReqDesc.date dateOf
  rw [e1, e2, e3]
  refine ⟨?_, ?_, ?_, ?_, ?_, ?_⟩ <;> intro h <;> rw [h]
  · exact hr
  · exact hr
  · exact hr

omit hc hs in
/-- Reading these dates never raises, whatever the client sent, and what is read is a moment of the calendar. -/
theorem C122_dates_any (environ : List (Str × Str)) : ∀ r ∈ [ifModifiedSince environ, ifUnmodifiedSince environ, ReqDesc.date environ],
    r = .ok none ∨ ∃ t, r = .ok (some t) ∧ Spec.Calendar.Valid t := by
  have key : ∀ k, dateOf environ k = .ok none ∨ ∃ t, dateOf environ k = .ok (some t) ∧ Spec.Calendar.Valid t := by
    intro k
    unfold dateOf
    cases Dict.get environ k with
    | none => exact .inl rfl
    | some v => exact DateP.C76_total v
  intro r hr
  simp only [List.mem_cons, List.not_mem_nil, or_false] at hr
  rcases hr with rfl | rfl | rfl <;> exact key _

/-- **C122, ranges.**  `range` has the units and ranges that were sent. -/
theorem C122_range (r : Range.Range) (hu : '=' ∉ r.units) (hul : lower (Py.strip r.units) = r.units)
    (hne : r.ranges ≠ []) (hwf : Spec.WellFormed 0 r.ranges) (h0 : (0, none) ∈ r.ranges → r.ranges = [(0, none)]) :
    (Headers.get lower sent s%"Range" = some r.toHeader → ReqDesc.range lower environ = .ok (some r)) ∧
    (Headers.get lower sent s%"Range" = none → ReqDesc.range lower environ = .ok none) := by
  have e1 := arrives hc hs s%"Range" s%"HTTP_RANGE" (by unfold Name; decide) (by decide)
  unfold ReqDesc.range
  rw [e1]
  refine ⟨?_, ?_⟩ <;> intro h <;> rw [h]
  · exact C14_range_roundtrip lower r hu hul hne hwf h0
  · rfl

/-- **C122, `If-Range`.**  `if_range` has the moment or the tag that was sent.  (Missing: tags with commas, see `C86_roundtrip_false`.) -/
theorem C122_if_range_partial (t : Date.DateTime) (hv : Spec.Calendar.Valid t) (hy : 100 ≤ t.year) (tag : Str) (hq : '"' ∉ tag) (hk : ',' ∉ tag) :
    (Headers.get lower sent s%"If-Range" = some (Date.httpDate t) → ifRange environ = .ok ⟨none, some t⟩) ∧
    (Headers.get lower sent s%"If-Range" = some ('"' :: tag ++ s%"\"") → ifRange environ = .ok ⟨some tag, none⟩) ∧
    (Headers.get lower sent s%"If-Range" = none → ifRange environ = .ok ⟨none, none⟩) := by
  have e1 := arrives hc hs s%"If-Range" s%"HTTP_IF_RANGE" (by unfold Name; decide) (by decide)
  unfold ifRange
  rw [e1]
  refine ⟨?_, ?_, ?_⟩ <;> intro h <;> rw [h]
  · obtain ⟨x, h1, h2⟩ := Desc.C86_roundtrip_partial.1 t hv hy
    have e : x = Date.httpDate t := by
      unfold Verif.Desc.IfRange.toHeader at h1
      exact (Except.ok.inj h1).symm
    rw [Option.getD_some, ← e]
    exact h2
  · obtain ⟨x, h1, h2⟩ := Desc.C86_roundtrip_partial.2.1 tag hq hk
    have : x = '"' :: tag ++ s%"\"" := by
      unfold Verif.Desc.IfRange.toHeader at h1
      simp only at h1
      unfold Etag.quoteEtag at h1
      rw [if_neg (by simpa using hq)] at h1
      simpa using (Except.ok.inj h1).symm
    rw [Option.getD_some, ← this]
    exact h2
  · rfl

/-- **C122, cache control.**  The directives that were sent are read: flags and numbers as they were, other values at least as text. -/
theorem C122_cache (d : CacheControl.CC) (hd : CacheP.Storable d) (p : Directive) :
    (Headers.get lower sent s%"Cache-Control" = some (CacheControl.toHeader d) →
      (p ≠ .noCache ∧ p ≠ .noTransform → directive (cacheControl environ) p = directive d p) ∧
      (directive (cacheControl environ) p = directive d p ∨ directive (cacheControl environ) p = .str (directive d p).text)) ∧
    (Headers.get lower sent s%"Cache-Control" = none → cacheControl environ = []) := by
  have e1 := arrives hc hs s%"Cache-Control" s%"HTTP_CACHE_CONTROL" (by unfold Name; decide) (by decide)
  unfold cacheControl
  rw [e1]
  refine ⟨?_, ?_⟩ <;> intro h <;> rw [h]
  · rw [Option.getD_some, CacheP.parse_toHeader d hd]
    have hg := CacheP.get_written d p.key
    have hv : ∀ v, Dict.get d p.key = some v →
        (v = .none ∨ (∃ i, v = .int i) ∨ ∃ s, v = .str s ∧ ¬ (s.head? = some '"' ∧ s.getLast? = some '"')) :=
      fun v hv => (hd.2 p.key v (Dict.mem_of_get hv)).2
    have flag : p.kind = .flag → directive (d.map fun kv => (kv.1, CacheP.written kv.2)) p = directive d p := by
      intro hk
      unfold directive
      rw [hk]
      simp only [CacheControl.getValue, Dict.has, hg]
      cases Dict.get d p.key <;> rfl
    have int : ∀ e, p.kind = .int e → directive (d.map fun kv => (kv.1, CacheP.written kv.2)) p = directive d p := by
      intro e hk
      unfold directive
      rw [hk]
      simp only [CacheControl.getValue, hg]
      cases hd : Dict.get d p.key with
      | none => rfl
      | some v =>
        rcases hv v hd with rfl | ⟨i, rfl⟩ | ⟨s, rfl, _⟩
        · rfl
        · simp [CacheP.written, CacheControl.Val.text, CacheControl.Val.toInt, Py.intOf_intStr, Except.toOption]
        · simp [CacheP.written, CacheControl.Val.text]
    have plain : ∀ e, p.kind = .plain e → directive (d.map fun kv => (kv.1, CacheP.written kv.2)) p = directive d p ∨
        directive (d.map fun kv => (kv.1, CacheP.written kv.2)) p = .str (directive d p).text := by
      intro e hk
      unfold directive
      rw [hk]
      simp only [CacheControl.getValue, hg]
      cases hd : Dict.get d p.key with
      | none => exact .inl rfl
      | some v =>
        rcases hv v hd with rfl | ⟨i, rfl⟩ | ⟨s, rfl, _⟩
        · exact .inl rfl
        · exact .inr rfl
        · exact .inl rfl
    constructor
    · rintro ⟨h1, h2⟩
      cases p with
      | noCache => exact absurd rfl h1
      | noTransform => exact absurd rfl h2
      | noStore => exact flag rfl
      | onlyIfCached => exact flag rfl
      | maxAge => exact int _ rfl
      | maxStale => exact int _ rfl
      | minFresh => exact int _ rfl
    · cases p with
      | noCache => exact plain _ rfl
      | noTransform => exact plain _ rfl
      | noStore => exact .inl (flag rfl)
      | onlyIfCached => exact .inl (flag rfl)
      | maxAge => exact .inl (int _ rfl)
      | maxStale => exact .inl (int _ rfl)
      | minFresh => exact .inl (int _ rfl)
  · rfl

omit hc hs in
/-- The cache control of a request cannot be changed: assigning to any directive raises `TypeError`, as does deleting one
that is there, and the directives stay. -/
theorem C122_cache_frozen (d : CacheControl.CC) (p : Directive) (v : CacheControl.Val) :
    assignDirective d p v = (d, .error .typeError) ∧
    deleteDirective d p = (d, if (Dict.get d p.key).isSome then .error .typeError else .ok ()) := by
  constructor
  · unfold assignDirective
    cases p <;> simp only [Directive.kind] <;> split <;> rfl
  · unfold deleteDirective Dict.has
    split <;> rfl

/-- **C122, credentials.**  `authorization` has the user name and the password that were sent, in Latin-1, or the complete digest
credentials. -/
theorem C122_authorization (u p : Bytes) (hu : (58 : UInt8) ∉ u) (d : List (Str × Option Str))
    (hk : ∀ kv ∈ d, kv.1 ≠ [] ∧ (∀ c ∈ kv.1, c ≠ ',' ∧ c ≠ '"' ∧ c ≠ '=') ∧ Py.strip kv.1 = kv.1)
    (hnd : (d.map (·.1)).Nodup)
    (hv : ∀ k v, (k, some v) ∈ d → ¬ (v.head? = some '"' ∧ v.getLast? = some '"'))
    (hl : ∀ c ∈ Quote.dumpHeaderDict d, c.toNat < 256) :
    (Headers.get lower sent s%"Authorization" = some (Spec.Base64.octets (b%"Basic " ++ Spec.Base64.encode (u ++ 58 :: p))) →
      authorization environ = .ok (some ⟨s%"basic", [(s%"username", some (Spec.Base64.octets u)), (s%"password", some (Spec.Base64.octets p))]⟩)) ∧
    (Headers.get lower sent s%"Authorization" = some (s%"Digest " ++ Quote.dumpHeaderDict d) →
      (AuthP.Complete d → authorization environ = .ok (some ⟨s%"digest", d⟩)) ∧
      (¬ AuthP.Complete d → authorization environ = .ok none)) ∧
    (Headers.get lower sent s%"Authorization" = none → authorization environ = .ok none) := by
  have e1 := arrives hc hs s%"Authorization" s%"HTTP_AUTHORIZATION" (by unfold Name; decide) (by decide)
  unfold authorization
  rw [e1]
  refine ⟨?_, ?_, ?_⟩ <;> intro h <;> rw [h]
  · exact AuthP.C56_basic b%"Basic" b%" " u p (by decide) (by decide) (by simp [AuthP.IsWs]) hu
  · exact AuthP.C57_digest d hk hnd hv hl
  · rfl

/-- **C122, plain headers.**  `content_type`, `content_encoding`, `content_md5` and `referrer` are the texts that were sent. -/
theorem C122_text : contentType environ = Headers.get lower sent s%"Content-Type" ∧
    contentEncoding environ = Headers.get lower sent s%"Content-Encoding" ∧
    contentMd5 environ = Headers.get lower sent s%"Content-MD5" ∧
    referrer environ = Headers.get lower sent s%"Referer" :=
  ⟨arrives hc hs _ _ (by unfold Name; decide) (by decide), arrives hc hs _ _ (by unfold Name; decide) (by decide),
   arrives hc hs _ _ (by unfold Name; decide) (by decide), arrives hc hs _ _ (by unfold Name; decide) (by decide)⟩

/-- **C122, media type.**  `mimetype` is the media type in lower case and `mimetype_params` the parameters that were sent; both
are empty if no type was sent. -/
theorem C122_mimetype_partial (m : Str) (opts : List (Str × Option Str)) (hm : OptAux.CleanName m)
    (hk : ∀ kv ∈ opts, OptAux.CleanName kv.1) (hnd : (opts.map (·.1)).Nodup)
    (hv : ∀ k v, (k, some v) ∈ opts → v ≠ [] ∧ (k = s%"filename" → v.head? ≠ some '\\')) :
    (Headers.get lower sent s%"Content-Type" = some (Quote.dumpOptionsHeader (some m) opts) →
      mimetype lower environ = .ok (lower m) ∧ mimetypeParams environ = .ok opts) ∧
    (Headers.get lower sent s%"Content-Type" = none → mimetype lower environ = .ok [] ∧ mimetypeParams environ = .ok []) := by
  have e1 := arrives hc hs s%"Content-Type" s%"CONTENT_TYPE" (by unfold Name; decide) (by decide)
  unfold mimetype mimetypeParams parsedType
  rw [e1]
  refine ⟨?_, ?_⟩ <;> intro h <;> rw [h]
  · rw [Option.getD_some, (C05_roundtrip_partial m opts hm hk hnd).2 hv]
    exact ⟨rfl, rfl⟩
  · refine ⟨?_, rfl⟩
    show Except.ok (lower []) = _
    rw [hc.lower [] (by simp)]
    rfl

/-- **C122, `Pragma`.**  `pragma` has the directives that were sent, in their order, without regard to case. -/
theorem C122_pragma (xs : List Str) (hx : ∀ x ∈ xs, Desc.ListItem x) :
    (Headers.get lower sent s%"Pragma" = some (Quote.dumpHeaderList xs) →
      (pragma lower environ).headers = xs ∧
      ∀ y, HeaderSet.contains lower (pragma lower environ) y = true ↔ ∃ x ∈ xs, lower x = lower y) ∧
    (Headers.get lower sent s%"Pragma" = none → (pragma lower environ).headers = [] ∧
      ∀ y, HeaderSet.contains lower (pragma lower environ) y = false) := by
  have e1 := arrives hc hs s%"Pragma" s%"HTTP_PRAGMA" (by unfold Name; decide) (by decide)
  unfold pragma
  rw [e1]
  refine ⟨?_, ?_⟩ <;> intro h <;> rw [h]
  · rw [Option.getD_some, Desc.parse_items xs hx]
    refine ⟨rfl, fun y => ?_⟩
    have h2 := (Desc.C82_assign lower [] s%"x" xs hx).2.2.2.2 y
    have h1 := (Desc.C82_assign lower [] s%"x" xs hx).2.1
    have : Verif.Desc.setView lower (Verif.Desc.assignSet lower [] s%"x" (.names xs)).1 s%"x" = HeaderSet.init lower xs := by
      unfold Verif.Desc.setView at h1 ⊢
      rw [show (HeaderSet.init lower (Quote.parseListHeader _)).headers = Quote.parseListHeader _ from rfl] at h1
      rw [h1]
    rw [← this]
    exact h2
  · exact ⟨rfl, fun _ => rfl⟩

end

/-! ### Examples -/

/-- Headers of a request. -/
def demoSent : List (Str × Str) :=
  [(s%"Host", s%"x"), (s%"if-none-match", s%"\"a\", w/\"b\""), (s%"If-Modified-Since", s%"Sun, 06 Nov 1994 08:49:37 GMT"), (s%"Range", s%"bytes=0-499"),
   (s%"Cache-Control", s%"max-stale=5, only-if-cached"), (s%"Content-Type", s%"text/HTML; charset=utf-8"), (s%"Pragma", s%"no-cache"),
   (s%"If-Range", s%"\"v1\""), (s%"Authorization", s%"Basic QTpi")]

/-- The environ a server makes of them. -/
def demoEnviron' : List (Str × Str) := (s%"REQUEST_METHOD", s%"GET") :: demoSent.map fun p => (serverKey p.1, p.2)

example : Sent demoEnviron' demoSent := ⟨by unfold Name; decide +kernel, by decide +kernel⟩

example : Headers.get asciiLower demoSent s%"If-None-Match" = some (Etag.mk ([s%"a"].map some) ([s%"b"].map some) false).toHeader ∧
    ifNoneMatch 3 demoEnviron' = some ⟨[some s%"a"], [some s%"b"], false⟩ ∧
    Headers.get asciiLower demoSent s%"If-Modified-Since" = some (Date.httpDate ⟨1994, 11, 6, 8, 49, 37⟩) ∧
    ifModifiedSince demoEnviron' = .ok (some ⟨1994, 11, 6, 8, 49, 37⟩) ∧
    Headers.get asciiLower demoSent s%"Range" = some (Range.Range.toHeader ⟨s%"bytes", [(0, some 500)]⟩) ∧
    ReqDesc.range asciiLower demoEnviron' = .ok (some ⟨s%"bytes", [(0, some 500)]⟩) ∧
    Headers.get asciiLower demoSent s%"If-Range" = some s%"\"v1\"" ∧ ifRange demoEnviron' = .ok ⟨some s%"v1", none⟩ := by decide +kernel

example : Headers.get asciiLower demoSent s%"Cache-Control" = some (CacheControl.toHeader [(s%"max-stale", .int 5), (s%"only-if-cached", .none)]) ∧
    directive (cacheControl demoEnviron') .maxStale = .int 5 ∧ directive (cacheControl demoEnviron') .onlyIfCached = .bool true ∧
    Headers.get asciiLower demoSent s%"Authorization" = some (Spec.Base64.octets (b%"Basic " ++ Spec.Base64.encode (b%"A" ++ 58 :: b%"b"))) ∧
    Headers.get asciiLower demoSent s%"Content-Type" = some (Quote.dumpOptionsHeader (some s%"text/HTML") [(s%"charset", some s%"utf-8")]) ∧
    mimetype asciiLower demoEnviron' = .ok s%"text/html" ∧ mimetypeParams demoEnviron' = .ok [(s%"charset", some s%"utf-8")] ∧
    Headers.get asciiLower demoSent s%"Pragma" = some (Quote.dumpHeaderList [s%"no-cache"]) ∧
    HeaderSet.contains asciiLower (pragma asciiLower demoEnviron') s%"No-Cache" = true := by decide +kernel

/-- **C122 fails** for some values that the library itself writes: an empty entity tag is read as no tag, an entity tag can be
read as a date, and a parameter with an empty value is read as one without. -/
theorem C122_sent_false :
    (Headers.get asciiLower [(s%"If-Match", s%"\"\"")] s%"If-Match" = some (Etag.mk [some []] [] false).toHeader ∧
      ifMatch 3 [(s%"HTTP_IF_MATCH", s%"\"\"")] = some ⟨[none], [], false⟩) ∧
    (Verif.Desc.IfRange.toHeader ⟨some s%"Mon, 01 Jan 2000 00:00:00 x", none⟩ = .ok s%"\"Mon, 01 Jan 2000 00:00:00 x\"" ∧
      ifRange [(s%"HTTP_IF_RANGE", s%"\"Mon, 01 Jan 2000 00:00:00 x\"")] = .ok ⟨none, some ⟨2000, 1, 1, 0, 0, 0⟩⟩) ∧
    (Quote.dumpOptionsHeader (some s%"text/html") [(s%"a", some [])] = s%"text/html; a=" ∧
      mimetypeParams [(s%"CONTENT_TYPE", s%"text/html; a=")] = .ok [(s%"a", none)]) := by
  refine ⟨?_, ?_, ?_⟩ <;> decide +kernel

end Verif.Props.ReqDescP
