import Verif.Model.EnvironBuilder
import Verif.Props.Iri
import Verif.Props.Multipart
/-!
C97 and C98: the builder of environs for tests.
-/
namespace Verif.Props.BuilderP
open Verif Verif.Py Verif.ReqUrl Verif.Iri Verif.Builder Verif.Props.IriP Verif.Props.ReqUrlP

/-! ### The entries of the environ -/

/-- The last value given for a key in a list of pairs. -/
def lastOf (l : List (Str × Str)) (k : Str) : Option Str := (l.reverse.find? fun p => p.1 = k).map (·.2)

theorem get_update (d e : List (Str × Str)) (k : Str) : Dict.get (update d e) k = (lastOf e k).or (Dict.get d k) := by
  unfold update lastOf
  induction e generalizing d with
  | nil => rfl
  | cons p e ih =>
    rw [List.foldl_cons, ih, List.reverse_cons, List.find?_append, Dict.get_set]
    cases h : e.reverse.find? fun q => q.1 = k with
    | some q => simp
    | none =>
      by_cases hk : k = p.1
      · subst hk; simp
      · simp [hk, Ne.symm hk]

theorem lastOf_none {l : List (Str × Str)} {k : Str} (h : ∀ p ∈ l, p.1 ≠ k) : lastOf l k = none := by
  unfold lastOf
  rw [List.find?_eq_none.2]
  · rfl
  · intro p hp; simpa using h p (List.mem_reverse.1 hp)

/-- What `get_environ` makes when nothing is raised. -/
theorem getEnviron_ok {upper lower : Str → Str} {guess : Str → Option Str} {boundary : Str} {b : Builder} {e : Environ}
    (h : getEnviron upper lower guess boundary b = .ok e) :
    ∃ data len type qs port, body lower guess boundary b = .ok (data, len, type) ∧ getQueryString b = .ok qs ∧
      serverPort b = .ok port ∧ e.input = data ∧ ∀ k, Dict.get e.vars k =
        (lastOf b.overrides k).or ((lastOf (headerEntries upper b.headers) k).or
          ((lastOf (entries b qs port type len) k).or (lastOf b.base k))) := by
  unfold getEnviron at h
  cases hb : body lower guess boundary b with
  | error x => rw [hb] at h; cases h
  | ok bd =>
    rw [hb] at h
    cases hq : getQueryString b with
    | error x => rw [hq] at h; cases h
    | ok qs =>
      rw [hq] at h
      cases hp : serverPort b with
      | error x => rw [hp] at h; cases h
      | ok port =>
        rw [hp] at h
        obtain ⟨data, len, type⟩ := bd
        cases h
        refine ⟨data, len, type, qs, port, rfl, rfl, rfl, rfl, ?_⟩
        intro k
        simp only [get_update]
        simp

/-- Headers only make entries that begin with `HTTP_`. -/
theorem header_none (upper : Str → Str) (hs : Headers.HList) {k : Str} (hk : ¬ s%"HTTP_" <+: k) :
    lastOf (headerEntries upper hs) k = none := by
  apply lastOf_none
  intro p hp
  obtain ⟨q, _, rfl⟩ := List.mem_map.1 hp
  intro h
  exact hk (h ▸ List.prefix_append _ _)

/-- An entry that is not overridden and whose key is not that of a header. -/
theorem get_entry {upper lower : Str → Str} {guess : Str → Option Str} {boundary : Str} {b : Builder} {e : Environ}
    (h : getEnviron upper lower guess boundary b = .ok e) {k : Str} (ho : k ∉ b.overrides.map Prod.fst) (hk : ¬ s%"HTTP_" <+: k) :
    ∃ data len type qs port, body lower guess boundary b = .ok (data, len, type) ∧ getQueryString b = .ok qs ∧
      serverPort b = .ok port ∧ e.input = data ∧ Dict.get e.vars k = (lastOf (entries b qs port type len) k).or (lastOf b.base k) := by
  obtain ⟨data, len, type, qs, port, h1, h2, h3, h4, h5⟩ := getEnviron_ok h
  refine ⟨data, len, type, qs, port, h1, h2, h3, h4, ?_⟩
  rw [h5, header_none upper _ hk, lastOf_none]
  · rfl
  · intro p hp h0; exact ho (List.mem_map.2 ⟨p, hp, h0⟩)

/-- **C97, precedence.**  An entry of the environ is the last override given for it; else the last
header sent under that name; else what the builder itself makes; else what the base has. -/
theorem C97_precedence {upper lower : Str → Str} {guess : Str → Option Str} {boundary : Str} {b : Builder} {e : Environ}
    (h : getEnviron upper lower guess boundary b = .ok e) (k v : Str) :
    (lastOf b.overrides k = some v → Dict.get e.vars k = some v) ∧
    (lastOf b.overrides k = none → ∀ name, k = s%"HTTP_" ++ (upper name).map (fun c => if c = '-' then '_' else c) →
      (∃ before after, b.headers = before ++ (name, v) :: after ∧
        ∀ q ∈ after, s%"HTTP_" ++ (upper q.1).map (fun c => if c = '-' then '_' else c) ≠ k) → Dict.get e.vars k = some v) ∧
    (lastOf b.overrides k = none → lastOf b.base k = some v →
      k ∉ [s%"REQUEST_METHOD", s%"SCRIPT_NAME", s%"PATH_INFO", s%"QUERY_STRING", s%"SERVER_NAME", s%"SERVER_PORT", s%"HTTP_HOST",
        s%"SERVER_PROTOCOL", s%"CONTENT_TYPE", s%"CONTENT_LENGTH", s%"wsgi.url_scheme"] →
      (∀ q ∈ b.headers, s%"HTTP_" ++ (upper q.1).map (fun c => if c = '-' then '_' else c) ≠ k) → Dict.get e.vars k = some v) := by
  obtain ⟨data, len, type, qs, port, h1, h2, h3, h4, h5⟩ := getEnviron_ok h
  refine ⟨fun ho => by rw [h5, ho]; rfl, ?_, ?_⟩
  · rintro ho name rfl ⟨before, after, hh, ha⟩
    rw [h5, ho]
    have : lastOf (headerEntries upper b.headers) (s%"HTTP_" ++ (upper name).map (fun c => if c = '-' then '_' else c)) = some v := by
      unfold lastOf headerEntries
      rw [hh, List.map_append, List.map_cons, List.reverse_append, List.reverse_cons, List.find?_append, List.find?_append]
      rw [List.find?_eq_none.2]
      · simp
      · intro p hp
        obtain ⟨q, hq, rfl⟩ := List.mem_map.1 (List.mem_reverse.1 hp)
        simpa using ha q hq
    rw [this]; rfl
  · intro ho hb hk hh
    have e1 : lastOf (headerEntries upper b.headers) k = none := by
      apply lastOf_none
      intro p hp
      obtain ⟨q, hq, rfl⟩ := List.mem_map.1 hp
      exact hh q hq
    have e2 : lastOf (entries b qs port type len) k = none := by
      apply lastOf_none
      intro p hp h0
      apply hk
      rw [← h0]
      have : p.1 ∈ (entries b qs port type len).map Prod.fst := List.mem_map.2 ⟨p, hp, rfl⟩
      exact this
    rw [h5, ho, e1, e2, hb]; rfl

/-- **C97, repeated headers.**  Of headers sent under one name, only the last arrives. -/
theorem C97_repeated_limits {upper lower : Str → Str} {guess : Str → Option Str} {boundary : Str} {b : Builder} {e : Environ}
    (h : getEnviron upper lower guess boundary b = .ok e) (name v : Str) (before : Headers.HList)
    (hh : b.headers = before ++ [(name, v)]) (ho : b.overrides = []) :
    Dict.get e.vars (s%"HTTP_" ++ (upper name).map (fun c => if c = '-' then '_' else c)) = some v :=
  (C97_precedence h _ v).2.1 (by rw [ho]; rfl) name rfl ⟨before, [], hh, by simp⟩

/-! ### Paths -/

theorem quote_no37 (safe : List UInt8) (s : Bytes) (h : (37 : UInt8) ∉ s) : Urls.quote safe s = Urls.quote (safe.filter (· ≠ 37)) s := by
  induction s with
  | nil => rfl
  | cons b s ih =>
    have hb : b ≠ 37 := fun h0 => h (by simp [h0])
    rw [Urls.quote_cons, Urls.quote_cons, ih (fun h0 => h (by simp [h0]))]
    congr 1
    have : b ∈ safe.filter (· ≠ 37) ↔ b ∈ safe := by simp [hb]
    simp only [this]

theorem mem_encode_ascii {s : Str} {n : Nat} (hn : n < 128) (h : Utf8.byte n ∈ Utf8.encode s) : Char.ofNat n ∈ s := by
  unfold Utf8.encode at h
  simp only [List.mem_flatMap] at h
  obtain ⟨c, hc, hb⟩ := h
  by_cases hl : c.toNat < 128
  · rw [Utf8.encChar_ascii hl, List.mem_singleton] at hb
    have : (Utf8.byte n).toNat = (Utf8.byte c.toNat).toNat := by rw [hb]
    rw [Utf8.byte_toNat (by omega), Utf8.byte_toNat (by omega)] at this
    rw [this, Utf8.ofNat_toNat]; exact hc
  · have := Utf8.encChar_high (by omega : 128 ≤ c.toNat) _ hb
    rw [Utf8.byte_toNat (by omega)] at this
    omega

/-- Quoted text decodes to itself. -/
theorem unquote_quoteText {safe : List UInt8} (hs : ∀ b ∈ safe, b.toNat < 128) {s : Str} (h : '%' ∉ s) : unquote (quoteText safe s) = s := by
  unfold unquote
  rw [unquoteGo_ascii _ _ (quoteText_ascii hs s), List.nil_append]
  unfold quoteText
  rw [latin1_bytes, quote_no37 safe _ (fun h0 => h (by
    have := mem_encode_ascii (n := 37) (by decide) (by exact h0)
    exact this)), unquote_quote [] _ (by simp) (by simp), escBytes_nil, Utf8.decode_encode]

/-- Quoted text means what the text means, with the escapes that it has itself. -/
theorem unquote_quoteText_meaning {safe : List UInt8} (hs : ∀ b ∈ safe, b.toNat < 128) (h37 : (37 : UInt8) ∈ safe) (s : Str) :
    unquote (quoteText safe s) = Utf8.decode (Percent.meaning (Utf8.encode s)) := by
  unfold unquote
  rw [unquoteGo_ascii _ _ (quoteText_ascii hs s), List.nil_append]
  unfold quoteText
  rw [latin1_bytes, Urls.C39_scan]
  exact congrArg Utf8.decode (Urls.meaning_quote safe h37 _)

/-- A local path: it begins with one slash, and has neither query nor fragment. -/
structure LocalPath (p : Str) : Prop where
  slash : ∃ t, p = '/' :: t ∧ t.head? ≠ some '/'
  plain : '?' ∉ p ∧ '#' ∉ p

theorem urlsplit_local {lower : Str → Str} {p : Str} (h : LocalPath p) : urlsplit lower p = .ok ⟨[], [], p, [], []⟩ := by
  obtain ⟨t, rfl, ht⟩ := h.slash
  have hr : splitRest [] ('/' :: t) = .ok ⟨[], [], '/' :: t, [], []⟩ := by
    unfold splitRest
    have h1 : ¬ s%"//" <+: '/' :: t := by
      rintro ⟨s, hs⟩
      simp at hs
      apply ht
      rw [← hs]; rfl
    simp only
    rw [if_neg h1, if_neg (by simp), split1_none _ _ h.plain.2]
    simp only
    rw [split1_none _ _ h.plain.1]
    rfl
  unfold urlsplit
  have hhead : ∃ x, (split1 ':' ('/' :: t)).1 = '/' :: x := by
    simp only [split1]
    rw [if_neg (by decide)]
    exact ⟨_, rfl⟩
  obtain ⟨x, hx⟩ := hhead
  generalize split1 ':' ('/' :: t) = r at hx
  obtain ⟨a, o⟩ := r
  simp only at hx
  subst hx
  cases o with
  | none => exact hr
  | some rest =>
    simp only
    rw [if_neg (by simp), if_neg (by
      have : schemeChar '/' = false := by decide
      simp [this])]
    exact hr

/-- `iri_to_uri` of a local path is its escape. -/
theorem iriToUri_local {idna : Str → Except PyErr Bytes} {lower : Str → Str} {usesNetloc : Str → Bool} (hu : usesNetloc [] = false)
    (hl : lower [] = []) {p : Str} (h : LocalPath p) : iriToUri idna lower usesNetloc p = .ok (quoteText Urls.pathSafe p) := by
  unfold iriToUri
  rw [urlsplit_local h]
  have e : encodeNetloc idna lower [] = .ok [] := by
    unfold encodeNetloc hostUri authUri
    have h1 : (hostInfo []) = ([], []) := by decide
    have h2 : portOf [] = .ok none := by decide
    have h3 : userSplit [] = (none, []) := by decide
    rw [h2, h3]
    simp [h1, hl]
  have e' : quoteText Urls.querySafe [] = [] := by decide
  have e'' : quoteText Urls.fragmentSafe [] = [] := by decide
  simp only [e, e', e'']
  unfold urlunsplit
  simp [hu]

/-! ### What the builder is made with -/

/-- The attributes that later steps leave alone. -/
def front (b : Builder) : Str × Str × Str × Str × Str × Option Str × Option (MD.MDict Str Str) × List (Str × Str) × List (Str × Str) :=
  (b.method, b.scheme, b.host, b.scriptRoot, b.path, b.queryString, b.args, b.base, b.overrides)

theorem front_setHeader (lower : Str → Str) (b : Builder) (n : Str) (v : Option Str) : front (setHeader lower b n v).1 = front b := by
  unfold setHeader
  cases v <;> rfl

theorem front_setData (lower : Str → Str) (b : Builder) (d : Bytes) : front (setData lower b d) = front b := by
  unfold setData
  simp only
  split
  · rfl
  · rw [front_setHeader]; rfl

theorem front_addPairs (b : Builder) (l : List (Str × Multipart.Value)) : front (addPairs b l) = front b := by
  unfold addPairs
  induction l generalizing b with
  | nil => rfl
  | cons p l ih => rw [List.foldl_cons, ih]; split <;> rfl

theorem front_withType {lower : Str → Str} {b b' : Builder} {t : Option Str} (h : withType lower b t = .ok b') : front b' = front b := by
  cases t with
  | none => cases h; rfl
  | some t =>
    simp only [withType] at h
    have := front_setHeader lower b s%"Content-Type" (some t)
    split at h
    · rename_i c _ hc; cases h; rw [hc] at this; exact this
    · cases h

theorem front_withData {lower : Str → Str} {b b' : Builder} {t : Bool} {d : Data} (h : withData lower b t d = .ok b') :
    front b' = front b := by
  cases d with
  | missing => cases h; rfl
  | text s =>
    simp only [withData] at h
    split at h
    · cases h; rfl
    · split at h
      · cases h
      · cases h; exact front_setData _ _ _
  | bytes s =>
    simp only [withData] at h
    split at h
    · cases h; rfl
    · split at h
      · cases h
      · cases h; exact front_setData _ _ _
  | pairs l =>
    simp only [withData] at h
    split at h
    · cases h; rfl
    · split at h
      · cases h
      · cases h; exact front_addPairs _ _

/-- The attributes of a new builder. -/
theorem init_front {lower : Str → Str} {iri fix : Str → Except PyErr Str} {path : Str} {base : Option Str} {query : Query}
    {method : Str} {headers : Headers.HList} {ct : Option Str} {stream : Option (Bytes × Nat)} {cl : Option Int} {data : Data}
    {eb eo : List (Str × Str)} {b : Builder}
    (h : init lower iri fix path base query method headers ct stream cl data eb eo = .ok b) :
    ∃ p base' b0, iri (splitQuery path query).1 = .ok p ∧ fixBase fix base = .ok base' ∧
      setBaseUrl lower ⟨method, [], [], [], p, none, none, headers, none, none, none, eb, eo⟩ base' = .ok b0 ∧
      front b = front (withQuery b0 (splitQuery path query).2) := by
  unfold init at h
  split at h
  · cases h
  · rename_i p hp
    split at h
    · cases h
    · rename_i base' hbase
      split at h
      · cases h
      · rename_i b0 hb0
        split at h
        · cases h
        · rename_i b1 hb1
          refine ⟨p, base', b0, hp, hbase, hb0, ?_⟩
          rw [front_withData h, front_setHeader, ← front_withType hb1]
          rfl

theorem setBaseUrl_front {lower : Str → Str} {b b0 : Builder} {v : Option Str} (h : setBaseUrl lower b v = .ok b0) :
    b0.method = b.method ∧ b0.path = b.path ∧ b0.base = b.base ∧ b0.overrides = b.overrides := by
  unfold setBaseUrl at h
  split at h
  · cases h; exact ⟨rfl, rfl, rfl, rfl⟩
  · split at h
    · cases h
    · split at h
      · cases h
      · cases h; exact ⟨rfl, rfl, rfl, rfl⟩

theorem front_eq {b b' : Builder} (h : front b = front b') : b.method = b'.method ∧ b.scheme = b'.scheme ∧ b.host = b'.host ∧
    b.scriptRoot = b'.scriptRoot ∧ b.path = b'.path ∧ b.queryString = b'.queryString ∧ b.args = b'.args ∧ b.base = b'.base ∧
    b.overrides = b'.overrides := by
  unfold front at h
  simpa using h

theorem withQuery_front (b : Builder) (q : Query) : (withQuery b q).method = b.method ∧ (withQuery b q).scheme = b.scheme ∧
    (withQuery b q).host = b.host ∧ (withQuery b q).scriptRoot = b.scriptRoot ∧ (withQuery b q).path = b.path ∧
    (withQuery b q).base = b.base ∧ (withQuery b q).overrides = b.overrides := by
  cases q <;> exact ⟨rfl, rfl, rfl, rfl, rfl, rfl, rfl⟩

/-! ### From the arguments to the request -/

theorem get_of_entries {upper lower : Str → Str} {guess : Str → Option Str} {boundary : Str} {b : Builder} {e : Environ}
    (h : getEnviron upper lower guess boundary b = .ok e)
    (ho : ∀ k ∈ [s%"REQUEST_METHOD", s%"SCRIPT_NAME", s%"PATH_INFO", s%"QUERY_STRING", s%"wsgi.url_scheme", s%"SERVER_NAME", s%"SERVER_PORT",
      s%"CONTENT_LENGTH"], k ∉ b.overrides.map Prod.fst) :
    ∃ data len type qs port, body lower guess boundary b = .ok (data, len, type) ∧ getQueryString b = .ok qs ∧ serverPort b = .ok port ∧
      e.input = data ∧
      Dict.get e.vars s%"REQUEST_METHOD" = some b.method ∧ Dict.get e.vars s%"SCRIPT_NAME" = some (pathEncode b.scriptRoot) ∧
      Dict.get e.vars s%"PATH_INFO" = some (pathEncode b.path) ∧ Dict.get e.vars s%"QUERY_STRING" = some (encodingDance qs) ∧
      Dict.get e.vars s%"wsgi.url_scheme" = some b.scheme ∧ Dict.get e.vars s%"SERVER_NAME" = some (serverName b) ∧
      Dict.get e.vars s%"SERVER_PORT" = some (intStr port) ∧
      Dict.get e.vars s%"CONTENT_LENGTH" = some (if len.getD 0 = 0 then s%"0" else intStr (len.getD 0)) := by
  obtain ⟨data, len, type, qs, port, h1, h2, h3, h4, h5⟩ := getEnviron_ok h
  have hov : ∀ k, k ∉ b.overrides.map Prod.fst → lastOf b.overrides k = none := fun k hk =>
    lastOf_none fun p hp h0 => hk (List.mem_map.2 ⟨p, hp, h0⟩)
  refine ⟨data, len, type, qs, port, h1, h2, h3, h4, ?_, ?_, ?_, ?_, ?_, ?_, ?_, ?_⟩ <;>
    (rw [h5, hov _ (ho _ (by simp)), header_none upper _ (by decide)]; rfl)

theorem init_query {lower : Str → Str} {iri fix : Str → Except PyErr Str} {p q : Str} {query : Query} {path : Str} (hp : '?' ∉ p)
    (hq : (path = p ∧ query = .text q) ∨ (path = p ++ '?' :: q ∧ query = .missing) ∨ (path = p ∧ query = .missing ∧ q = []))
    {base : Option Str} {method : Str} {headers : Headers.HList} {ct : Option Str} {stream : Option (Bytes × Nat)} {cl : Option Int}
    {data : Data} {eb eo : List (Str × Str)} {b : Builder}
    (h : init lower iri fix path base query method headers ct stream cl data eb eo = .ok b) :
    iri p = .ok b.path ∧ Builder.getQueryString b = .ok q ∧ b.method = method ∧ b.overrides = eo ∧ b.base = eb := by
  obtain ⟨pp, base', b0, h1, h2, h3, h4⟩ := init_front h
  obtain ⟨g1, g2, g3, g4⟩ := setBaseUrl_front h3
  obtain ⟨f1, f2, f3, f4, f5, f6, f7, f8, f9⟩ := front_eq h4
  obtain ⟨w1, w2, w3, w4, w5, w6, w7⟩ := withQuery_front b0 (splitQuery path query).2
  have hsp : (splitQuery path query).1 = p ∧ Builder.getQueryString b = .ok q := by
    rcases hq with ⟨rfl, rfl⟩ | ⟨rfl, rfl⟩ | ⟨rfl, rfl, rfl⟩
    · refine ⟨rfl, ?_⟩
      unfold Builder.getQueryString
      rw [f6]; rfl
    · have hs := split1_some '?' p q hp
      have hs' : splitQuery (p ++ '?' :: q) .missing = (p, .text q) := by unfold splitQuery; rw [hs]
      rw [hs'] at f6 ⊢
      refine ⟨rfl, ?_⟩
      unfold Builder.getQueryString
      rw [f6]; rfl
    · have hs := split1_none '?' path hp
      have hs' : splitQuery path .missing = (path, .missing) := by unfold splitQuery; rw [hs]
      rw [hs'] at f6 f7 ⊢
      refine ⟨rfl, ?_⟩
      unfold Builder.getQueryString
      rw [f6, f7]; rfl
  rw [hsp.1] at h1
  exact ⟨by rw [h1, f5, w5, g2], hsp.2, by rw [f1, w1, g1], by rw [f9, w7, g4], by rw [f8, w6, g3]⟩

/-- **C97, path, method and query.**  A request built with a path has that path, with its escapes
decoded and without further slashes in front, and the method in upper case; a query given as text,
or after a question mark in the path, is its query string. -/
theorem C97_request_partial {idna : Str → Except PyErr Bytes} {upper lower : Str → Str} {usesNetloc : Str → Bool} {fix : Str → Except PyErr Str}
    {guess : Str → Option Str} {boundary : Str} (hu : usesNetloc [] = false) (hl : lower [] = [])
    {p q : Str} {query : Query} {path : Str} (hp : LocalPath p)
    (hq : (path = p ∧ query = .text q) ∨ (path = p ++ '?' :: q ∧ query = .missing) ∨ (path = p ∧ query = .missing ∧ q = []))
    {base : Option Str} {method : Str} {headers : Headers.HList} {ct : Option Str} {stream : Option (Bytes × Nat)} {cl : Option Int}
    {data : Data} {eb eo : List (Str × Str)} {b : Builder} {e : Environ}
    (h : init lower (iriToUri idna lower usesNetloc) fix path base query method headers ct stream cl data eb eo = .ok b)
    (ho : ∀ k ∈ [s%"REQUEST_METHOD", s%"SCRIPT_NAME", s%"PATH_INFO", s%"QUERY_STRING", s%"wsgi.url_scheme", s%"SERVER_NAME", s%"SERVER_PORT",
      s%"CONTENT_LENGTH"], k ∉ eo.map Prod.fst)
    (he : getEnviron upper lower guess boundary b = .ok e) :
    ReqUrl.path e.vars = .ok ('/' :: (Utf8.decode (Percent.meaning (Utf8.encode p))).dropWhile (· = '/')) ∧
    ('%' ∉ p → ReqUrl.path e.vars = .ok p) ∧ ReqUrl.queryString e.vars = .ok q ∧
    ReqUrl.method upper e.vars = upper method := by
  obtain ⟨h1, h2, h3, h4, h5⟩ := init_query hp.plain.1 hq h
  rw [iriToUri_local hu hl hp] at h1
  injection h1 with h1
  obtain ⟨data, len, type, qs, port, e1, e2, e3, e4, k1, k2, k3, k4, k5, k6, k7, _⟩ := get_of_entries he
    (by rw [h4]; exact ho)
  rw [h2] at e2
  cases e2
  have hpath : pathEncode b.path = encodingDance (Utf8.decode (Percent.meaning (Utf8.encode p))) := by
    rw [← h1]
    unfold pathEncode
    rw [unquote_quoteText_meaning pathSafe_low (by decide)]
  have hres : ReqUrl.path e.vars = .ok ('/' :: (Utf8.decode (Percent.meaning (Utf8.encode p))).dropWhile (· = '/')) := by
    unfold ReqUrl.path envText
    rw [k3, hpath, Option.getD_some, (C88_round_trip _).1]
    rfl
  refine ⟨hres, ?_, ?_, ?_⟩
  · intro hpc
    rw [hres, ← unquote_quoteText_meaning pathSafe_low (by decide), unquote_quoteText pathSafe_low hpc]
    obtain ⟨t, rfl, ht'⟩ := hp.slash
    rw [List.dropWhile_cons, if_pos (by decide)]
    have : t.dropWhile (· = '/') = t := by
      cases t with
      | nil => rfl
      | cons c t =>
        rw [List.dropWhile_cons, if_neg]
        intro h0
        simp at h0
        exact ht' (by simp [h0])
    rw [this]
  · unfold ReqUrl.queryString envText
    rw [k4, Option.getD_some, (C88_round_trip _).1]
  · unfold ReqUrl.method
    rw [k1, h3]; rfl

/-- **C97, without a base.**  A request built without a base has no script root, the scheme `http`,
the server name `localhost` and the port 80. -/
theorem C97_default {upper lower : Str → Str} {iri fix : Str → Except PyErr Str}
    {guess : Str → Option Str} {boundary : Str} {query : Query} {path : Str}
    {method : Str} {headers : Headers.HList} {ct : Option Str} {stream : Option (Bytes × Nat)} {cl : Option Int}
    {data : Data} {eb eo : List (Str × Str)} {b : Builder} {e : Environ}
    (h : init lower iri fix path none query method headers ct stream cl data eb eo = .ok b)
    (ho : ∀ k ∈ [s%"REQUEST_METHOD", s%"SCRIPT_NAME", s%"PATH_INFO", s%"QUERY_STRING", s%"wsgi.url_scheme", s%"SERVER_NAME", s%"SERVER_PORT",
      s%"CONTENT_LENGTH"], k ∉ eo.map Prod.fst)
    (he : getEnviron upper lower guess boundary b = .ok e) :
    ReqUrl.scriptRoot e.vars = .ok [] ∧ Dict.get e.vars s%"wsgi.url_scheme" = some s%"http" ∧ b.host = s%"localhost" ∧
    Dict.get e.vars s%"SERVER_NAME" = some s%"localhost" ∧ Dict.get e.vars s%"SERVER_PORT" = some s%"80" := by
  obtain ⟨pp, base', b0, h1, h2, h3, h4⟩ := init_front h
  cases h2
  obtain ⟨g1, g2, g3, g4⟩ := setBaseUrl_front h3
  obtain ⟨f1, f2, f3, f4, f5, f6, f7, f8, f9⟩ := front_eq h4
  obtain ⟨w1, w2, w3, w4, w5, w6, w7⟩ := withQuery_front b0 (splitQuery path query).2
  cases h3
  obtain ⟨data, len, type, qs, port, e1, e2, e3, e4, k1, k2, k3, k4, k5, k6, k7, _⟩ := get_of_entries he
    (by rw [f9, w7]; exact ho)
  have hroot : b.scriptRoot = [] := by rw [f4, w4]
  have hhost : b.host = s%"localhost" := by rw [f3, w3]
  have hscheme : b.scheme = s%"http" := by rw [f2, w2]
  refine ⟨?_, by rw [k5, hscheme], hhost, ?_, ?_⟩
  · unfold ReqUrl.scriptRoot envText
    rw [k2, hroot]
    decide
  · rw [k6]; unfold serverName; rw [hhost]; decide
  · unfold serverPort at e3
    rw [hhost, hscheme] at e3
    have : (split1 ':' s%"localhost").2 = none := by decide
    rw [this] at e3
    cases e3
    rw [k7]; decide +kernel

theorem last_append {a b : Str} (h : b ≠ []) : (a ++ b).getLast? = b.getLast? := by
  rw [List.getLast?_append]
  cases hb : b.getLast? with
  | none => exact absurd (List.getLast?_eq_none_iff.1 hb) h
  | some x => rfl

/-- The escape of a text in two parts. -/
theorem quoteText_append (safe : List UInt8) (a b : Str) : quoteText safe (a ++ b) = quoteText safe a ++ quoteText safe b := by
  unfold quoteText Utf8.latin1
  rw [Utf8.encode_append]
  unfold Urls.quote
  rw [List.map_append, List.flatten_append, List.map_append]

theorem quoteText_slashes {safe : List UInt8} (h : (47 : UInt8) ∈ safe) (n : Nat) :
    quoteText safe (List.replicate n '/') = List.replicate n '/' := by
  induction n with
  | zero => rfl
  | succ n ih =>
    rw [List.replicate_succ, show '/' :: List.replicate n '/' = ['/'] ++ List.replicate n '/' from rfl, quoteText_append, ih]
    congr 1
    unfold quoteText
    rw [show Utf8.encode ['/'] = [47] by decide, Urls.quote_cons, if_pos (Or.inr h)]
    rfl

theorem rstrip_slashes (s : Str) (n : Nat) : rstripP (· = '/') (s ++ List.replicate n '/') = rstripP (· = '/') s := by
  induction n with
  | zero => simp
  | succ n ih =>
    rw [List.replicate_succ', ← List.append_assoc, rstripP_append _ _ _ (by decide), ih]

/-- Trailing slashes go, as they do in the escape. -/
theorem rstrip_quote {safe : List UInt8} (hs : ∀ b ∈ safe, b.toNat < 128) (h47 : (47 : UInt8) ∈ safe) {root : Str}
    (hr : root.getLast? ≠ some '/') (n : Nat) :
    rstripP (· = '/') (quoteText safe (root ++ List.replicate n '/')) = quoteText safe root := by
  rw [quoteText_append, quoteText_slashes h47, rstrip_slashes]
  apply rstripP_of_last
  intro c hc
  rcases List.eq_nil_or_concat root with h0 | ⟨a, x, h0⟩
  · subst h0; simp [quoteText_nil.2 rfl] at hc
  · rw [List.concat_eq_append] at h0
    subst h0
    have hx : x ≠ '/' := by intro h; apply hr; simp [h]
    rw [quoteText_append] at hc
    have hne : quoteText safe [x] ≠ [] := by intro h; simpa using quoteText_nil.1 h
    rw [last_append hne] at hc
    have hm : c ∈ quoteText safe [x] := List.mem_of_getLast? hc
    apply decide_eq_false
    intro h; subst h
    exact quoteText_no hs (by decide) (by decide) (Or.inr (by simp; exact Ne.symm hx)) hm

/-- What becomes of a base URL. -/
theorem base_web {idna : Str → Except PyErr Bytes} {lower : Str → Str} {usesNetloc : Str → Bool} {isAlpha : Char → Bool}
    (hl : LowerOk lower)
    {scheme host root : Str} (n : Nat) (hs : scheme = s%"http" ∨ scheme = s%"https") (hne : host ≠ []) (hh : ∀ c ∈ s%"/?#\\", c ∉ host)
    (hb : '[' ∈ host ↔ ']' ∈ host) (hhost : encodeNetloc idna lower host = .ok host)
    (hroot : root = [] ∨ root.head? = some '/') (hlast : root.getLast? ≠ some '/') (hplain : ∀ c ∈ s%"?#%\\", c ∉ root) :
    ∃ base', fixBase (urlFix idna lower usesNetloc isAlpha) (some (scheme ++ s%"://" ++ host ++ root ++ List.replicate n '/')) = .ok base' ∧
      ∀ b, setBaseUrl lower b base' = .ok { b with scheme := scheme, host := host, scriptRoot := quoteText fixPathSafe root } := by
  have hroot' : root ++ List.replicate n '/' = [] ∨ (root ++ List.replicate n '/').head? = some '/' := by
    rcases hroot with rfl | hroot
    · cases n with
      | zero => exact Or.inl rfl
      | succ n => exact Or.inr rfl
    · right
      cases root with
      | nil => simp at hroot
      | cons c r => simpa using hroot
  have hmem : ∀ c ∈ s%"?#%\\", c ∉ root ++ List.replicate n '/' := by
    intro c hc h0
    rcases List.mem_append.1 h0 with h0 | h0
    · exact hplain c hc h0
    · have := (List.mem_replicate.1 h0).2
      subst this; revert hc; decide
  have hl' : lower s%"https" = s%"https" := by
    rw [hl.ascii _ (by unfold Ascii; decide)]; decide
  have hh3 : ∀ c ∈ s%"/?#", c ∉ host := fun c hc => hh c (by
    revert hc; generalize c = x; intro hc
    simp only [List.mem_cons, List.not_mem_nil, or_false] at hc ⊢
    rcases hc with rfl | rfl | rfl <;> simp)
  have e0 : scheme ++ s%"://" ++ host ++ root ++ List.replicate n '/' =
      scheme ++ s%"://" ++ (host ++ ((root ++ List.replicate n '/') ++ optText '?' [] ++ optText '#' [])) := by
    simp [optText]
  have hbs : '\\' ∉ scheme ++ s%"://" ++ host ++ root ++ List.replicate n '/' := by
    simp only [List.mem_append, not_or]
    refine ⟨⟨⟨⟨?_, by decide⟩, hh _ (by decide)⟩, hplain _ (by decide)⟩, ?_⟩
    · rcases hs with rfl | rfl <;> decide
    · intro h0; have := (List.mem_replicate.1 h0).2; revert this; decide
  have hfx : fixSlashes isAlpha (scheme ++ s%"://" ++ host ++ root ++ List.replicate n '/') =
      scheme ++ s%"://" ++ host ++ root ++ List.replicate n '/' := by
    apply fixSlashes_self isAlpha hbs
    rcases hs with rfl | rfl <;> simp
  have hq0 : quotePlusText fixQuerySafe [] = [] := by decide
  have hq1 : quoteText fixPathSafe (root ++ List.replicate n '/') = [] ∨
      (quoteText fixPathSafe (root ++ List.replicate n '/')).head? = some '/' := by
    rcases hroot' with h0 | h0
    · rw [h0]; exact Or.inl (by decide)
    · exact Or.inr (quoteText_head (by decide) h0)
  have hfixlow : ∀ b ∈ fixPathSafe, b.toNat < 128 := by decide
  have hsp : urlsplit lower (urlunsplit usesNetloc ⟨scheme, host, quoteText fixPathSafe (root ++ List.replicate n '/'), [], []⟩) =
      .ok ⟨scheme, host, quoteText fixPathSafe (root ++ List.replicate n '/'), [], []⟩ := by
    apply urlsplit_urlunsplit hl usesNetloc hs hne hh3 hb hq1
    · exact quoteText_no hfixlow (by decide) (by decide) (Or.inl (by decide))
    · exact quoteText_no hfixlow (by decide) (by decide) (Or.inl (by decide))
    · simp
  have hfix : urlFix idna lower usesNetloc isAlpha (scheme ++ s%"://" ++ host ++ root ++ List.replicate n '/') =
      .ok (urlunsplit usesNetloc ⟨scheme, host, quoteText fixPathSafe (root ++ List.replicate n '/'), [], []⟩) := by
    unfold urlFix
    rw [hfx, e0, urlsplit_web lower hl' hs, splitRest_web scheme host (root ++ List.replicate n '/') [] [] hh3 hb hroot' (hmem _ (by decide))
      (hmem _ (by decide)) (by simp)]
    simp only [hhost, hq0]
  refine ⟨_, by simp only [fixBase, hfix]; rfl, ?_⟩
  intro b
  unfold setBaseUrl
  simp only [hsp]
  rw [if_neg (by simp), rstrip_quote hfixlow (by decide) hlast]

/-- **C97, base.**  A request built with a base URL has its scheme, its host and its path as the
script root, without trailing slashes. -/
theorem C97_base_partial {idna : Str → Except PyErr Bytes} {upper lower : Str → Str} {usesNetloc : Str → Bool} {isAlpha : Char → Bool}
    {iri : Str → Except PyErr Str} {guess : Str → Option Str} {boundary : Str} (hl : LowerOk lower)
    {scheme host root : Str} (n : Nat) (hs : scheme = s%"http" ∨ scheme = s%"https") (hne : host ≠ []) (hh : ∀ c ∈ s%"/?#\\", c ∉ host)
    (hb : '[' ∈ host ↔ ']' ∈ host) (hhost : encodeNetloc idna lower host = .ok host)
    (hroot : root = [] ∨ root.head? = some '/') (hlast : root.getLast? ≠ some '/') (hplain : ∀ c ∈ s%"?#%\\", c ∉ root)
    {path : Str} {query : Query}
    {method : Str} {headers : Headers.HList} {ct : Option Str} {stream : Option (Bytes × Nat)} {cl : Option Int} {data : Data}
    {eb eo : List (Str × Str)} {b : Builder} {e : Environ}
    (h : init lower iri (urlFix idna lower usesNetloc isAlpha) path (some (scheme ++ s%"://" ++ host ++ root ++ List.replicate n '/')) query
      method headers ct stream cl data eb eo = .ok b)
    (ho : ∀ k ∈ [s%"REQUEST_METHOD", s%"SCRIPT_NAME", s%"PATH_INFO", s%"QUERY_STRING", s%"wsgi.url_scheme", s%"SERVER_NAME", s%"SERVER_PORT",
      s%"CONTENT_LENGTH"], k ∉ eo.map Prod.fst)
    (he : getEnviron upper lower guess boundary b = .ok e) :
    b.scheme = scheme ∧ b.host = host ∧ Dict.get e.vars s%"wsgi.url_scheme" = some scheme ∧ ReqUrl.scriptRoot e.vars = .ok root ∧
    Builder.baseUrl usesNetloc b = scheme ++ s%"://" ++ host ++ quoteText fixPathSafe root ++ s%"/" := by
  obtain ⟨pp, base', b0, h1, h2, h3, h4⟩ := init_front h
  have hfixlow : ∀ b ∈ fixPathSafe, b.toNat < 128 := by decide
  obtain ⟨base'', k1, k0⟩ := base_web (idna := idna) (usesNetloc := usesNetloc) (isAlpha := isAlpha) hl n hs hne hh hb hhost hroot hlast hplain
  rw [k1] at h2
  cases h2
  rw [k0] at h3
  obtain ⟨f1, f2, f3, f4, f5, f6, f7, f8, f9⟩ := front_eq h4
  obtain ⟨w1, w2, w3, w4, w5, w6, w7⟩ := withQuery_front b0 (splitQuery path query).2
  cases h3
  have k2 : b.scheme = scheme := by rw [f2, w2]
  have k3 : b.host = host := by rw [f3, w3]
  have k4 : b.scriptRoot = quoteText fixPathSafe root := by rw [f4, w4]
  obtain ⟨data, len, type, qs, port, e1, e2, e3, e4, m1, m2, m3, m4, m5, m6, m7, _⟩ := get_of_entries he
    (by rw [f9, w7]; exact ho)
  refine ⟨k2, k3, by rw [m5, k2], ?_, ?_⟩
  · have hpe : pathEncode b.scriptRoot = encodingDance root := by
      unfold pathEncode
      rw [k4, unquote_quoteText hfixlow (hplain _ (by decide))]
    unfold ReqUrl.scriptRoot envText
    rw [m2, hpe, Option.getD_some, (C88_round_trip _).1]
    simp only
    rw [rstripP_of_last]
    intro c hc
    apply decide_eq_false
    intro h0; subst h0; exact hlast hc
  · unfold Builder.baseUrl
    have hroot2 : quoteText fixPathSafe root = [] ∨ (quoteText fixPathSafe root).head? = some '/' := by
      rcases hroot with h0 | h0
      · rw [h0]; exact Or.inl (by decide)
      · exact Or.inr (quoteText_head (by decide) h0)
    rw [k2, k3, k4, urlunsplit_parts usesNetloc hs hne hroot2]
    have hr := rstrip_quote hfixlow (by decide : (47 : UInt8) ∈ fixPathSafe) hlast 0
    simp only [List.replicate_zero, List.append_nil] at hr
    rw [rstripP_of_last]
    · simp [optText]
    · intro c hc
      apply decide_eq_false
      intro h0
      subst h0
      by_cases hq : quoteText fixPathSafe root = []
      · simp only [hq, optText, List.nil_append, List.append_nil, if_true] at hc
        rw [last_append hne] at hc
        exact hh '/' (by decide) (List.mem_of_getLast? hc)
      · have : (scheme ++ s%"://" ++ (host ++ (quoteText fixPathSafe root ++ optText '?' [] ++ optText '#' []))) =
            (scheme ++ s%"://" ++ host) ++ quoteText fixPathSafe root := by simp [optText]
        rw [this, last_append hq] at hc
        rw [← hr] at hc
        have := rstripP_last _ _ _ hc
        simp at this

theorem items_first {V : Type} (l : List (Str × V × List V)) :
    MD.items (l.map fun x => (x.1, x.2.1 :: x.2.2)) = .ok (l.map fun x => (x.1, x.2.1)) := by
  unfold MD.items
  induction l with
  | nil => rfl
  | cons x l ih => rw [List.map_cons, List.mapM_cons, ih]; rfl

/-- **C97, parameters.**  A request built with a mapping of query parameters has the first value of
each of them, in order, as far as it is not empty.  Missing from the claim: the other values of a
parameter (`C97_args_false`) and empty values, which no request keeps (C90). -/
theorem C97_args_partial {upper lower : Str → Str} {iri fix : Str → Except PyErr Str} {guess : Str → Option Str} {boundary : Str} (semi : Bool)
    (l : List (Str × Str × List Str)) {path : Str} {base : Option Str}
    {method : Str} {headers : Headers.HList} {ct : Option Str} {stream : Option (Bytes × Nat)} {cl : Option Int} {data : Data}
    {eb eo : List (Str × Str)} {b : Builder} {e : Environ}
    (h : init lower iri fix path base (.args (l.map fun x => (x.1, x.2.1 :: x.2.2))) method headers ct stream cl data eb eo = .ok b)
    (ho : s%"QUERY_STRING" ∉ eo.map Prod.fst) (he : getEnviron upper lower guess boundary b = .ok e) :
    ReqUrl.argPairs semi e.vars = .ok ((l.map fun x => (x.1, x.2.1)).filter fun p => p.2 ≠ []) := by
  obtain ⟨pp, base', b0, h1, h2, h3, h4⟩ := init_front h
  obtain ⟨g1, g2, g3, g4⟩ := setBaseUrl_front h3
  obtain ⟨f1, f2, f3, f4, f5, f6, f7, f8, f9⟩ := front_eq h4
  obtain ⟨w1, w2, w3, w4, w5, w6, w7⟩ := withQuery_front b0 (splitQuery path (.args (l.map fun x => (x.1, x.2.1 :: x.2.2)))).2
  obtain ⟨data, len, type, qs, port, e1, e2, e3, e4, e5⟩ := get_entry he (k := s%"QUERY_STRING") (by rw [f9, w7, g4]; exact ho) (by decide)
  have e6 : Dict.get e.vars s%"QUERY_STRING" = some (encodingDance qs) := e5
  have hq : Builder.getQueryString b = .ok (urlencode (l.map fun x => (x.1, x.2.1))) := by
    unfold Builder.getQueryString
    rw [f6, f7]
    show encodeArgs (l.map fun x => (x.1, x.2.1 :: x.2.2)) = _
    unfold encodeArgs
    rw [items_first]
  rw [hq] at e2
  cases e2
  have hd : encodingDance (urlencode (l.map fun x => (x.1, x.2.1))) = urlencode (l.map fun x => (x.1, x.2.1)) := by
    have ha : ∀ c ∈ urlencode (l.map fun x => (x.1, x.2.1)), c.toNat < 128 := fun c hc => (urlencode_mem hc).1
    unfold encodingDance
    rw [Utf8.encode_ascii ha]
    unfold Utf8.latin1
    rw [List.map_map]
    apply map_eq_self.2
    intro c hc
    simp only [Function.comp_apply]
    rw [Utf8.byte_toNat (by have := ha c hc; omega), Utf8.ofNat_toNat]
  rw [hd] at e6
  exact C90_args_partial semi e.vars _ e6

/-- A builder with these query parameters, and nothing else. -/
def demoArgs (d : MD.MDict Str Str) : Except PyErr Environ :=
  match init demoLower (iriToUri demoIdna demoLower demoUses) (urlFix demoIdna demoLower demoUses Char.isAlpha) s%"/a b" none (.args d)
    s%"get" [] none none none .missing [] [] with
  | .error e => .error e
  | .ok b => getEnviron demoLower demoLower (fun _ => none) [] b

example : ∃ e, demoArgs [(s%"q", [s%"a&b"]), (s%"r", [s%"é", s%"2"])] = .ok e ∧
    ReqUrl.argPairs false e.vars = .ok [(s%"q", s%"a&b"), (s%"r", s%"é")] ∧ ReqUrl.path e.vars = .ok s%"/a b" :=
  ⟨_, rfl, by decide +kernel, by decide +kernel⟩

/-- **C97 fails** for a parameter with two values: only the first is in the request. -/
theorem C97_args_false : ∃ e, demoArgs [(s%"a", [s%"1", s%"2"])] = .ok e ∧
    ReqUrl.argPairs false e.vars = .ok [(s%"a", s%"1")] := ⟨_, rfl, by decide +kernel⟩

/-- **C97, host.**  The host of a request is that of the builder, unless a header, an override or
the base of the environ says otherwise. -/
theorem C97_host {upper lower : Str → Str} {guess : Str → Option Str} {boundary : Str} {b : Builder} {e : Environ}
    (he : getEnviron upper lower guess boundary b = .ok e)
    (hh : ∀ p ∈ b.headers, (upper p.1).map (fun c => if c = '-' then '_' else c) ∉ [s%"HOST", s%"X_FORWARDED_HOST"])
    (ho : s%"HTTP_HOST" ∉ b.overrides.map Prod.fst ∧ s%"HTTP_X_FORWARDED_HOST" ∉ b.overrides.map Prod.fst)
    (hb : s%"HTTP_X_FORWARDED_HOST" ∉ b.base.map Prod.fst) : Wsgi.hostOf e.vars = .ok b.host := by
  obtain ⟨data, len, type, qs, port, h1, h2, h3, h4, h5⟩ := getEnviron_ok he
  have hno : ∀ (l : List (Str × Str)) k, k ∉ l.map Prod.fst → lastOf l k = none := fun l k hk =>
    lastOf_none fun p hp h0 => hk (List.mem_map.2 ⟨p, hp, h0⟩)
  have hhd : ∀ k ∈ [s%"HOST", s%"X_FORWARDED_HOST"], lastOf (headerEntries upper b.headers) (s%"HTTP_" ++ k) = none := by
    intro k hk
    apply lastOf_none
    intro p hp h0
    obtain ⟨q, hq, rfl⟩ := List.mem_map.1 hp
    exact hh q hq (by rw [List.append_cancel_left h0]; exact hk)
  have hx : Dict.get e.vars s%"HTTP_X_FORWARDED_HOST" = none := by
    rw [h5, hno _ _ ho.2, show s%"HTTP_X_FORWARDED_HOST" = s%"HTTP_" ++ s%"X_FORWARDED_HOST" from rfl, hhd _ (by simp), ← show
      s%"HTTP_X_FORWARDED_HOST" = s%"HTTP_" ++ s%"X_FORWARDED_HOST" from rfl, hno _ _ hb]
    rfl
  have hy : Dict.get e.vars s%"HTTP_HOST" = some b.host := by
    rw [h5, hno _ _ ho.1, show s%"HTTP_HOST" = s%"HTTP_" ++ s%"HOST" from rfl, hhd _ (by simp), ← show
      s%"HTTP_HOST" = s%"HTTP_" ++ s%"HOST" from rfl]
    rfl
  unfold Wsgi.hostOf
  rw [hx, hy]

/-- An example with everything: path with a letter that is not ASCII, base with trailing slashes, a
query, headers and data. -/
def demoFull : Except PyErr Environ :=
  match init demoLower (iriToUri demoIdna demoLower demoUses) (urlFix demoIdna demoLower demoUses Char.isAlpha) s%"/é?q=1"
      (some s%"https://example.org:8080/my app//") .missing s%"post" [(s%"X-A", s%"1"), (s%"X-A", s%"2")] none none none (.text s%"hé")
      [(s%"REMOTE_ADDR", s%"::1")] [] with
  | .error e => .error e
  | .ok b => getEnviron (fun s => s.map Char.toUpper) demoLower (fun _ => none) [] b

example : demoFull.map (fun e => (ReqUrl.path e.vars, ReqUrl.scriptRoot e.vars, ReqUrl.queryString e.vars, Wsgi.hostOf e.vars)) =
    .ok (.ok s%"/é", .ok s%"/my app", .ok s%"q=1", .ok s%"example.org:8080") := by decide +kernel

example : demoFull.map (fun e => (Dict.get e.vars s%"SERVER_PORT", Dict.get e.vars s%"HTTP_X_A", e.input,
    Dict.get e.vars s%"CONTENT_LENGTH")) = .ok (some s%"8080", some s%"2", [104, 195, 169], some s%"3") := by decide +kernel

example : LocalPath s%"/a b/c:d" := ⟨⟨s%"a b/c:d", rfl, by decide⟩, by decide⟩

example : encodeNetloc demoIdna demoLower s%"example.org:8080" = .ok s%"example.org:8080" := by decide +kernel

/-! ### Histories -/

/-- What a test does to a builder. -/
inductive Op where
  | setForm (d : MD.MDict Str Multipart.Value)
  | setFiles (d : MD.MDict Str Multipart.Value)
  | setStream (s : Option (Bytes × Nat))
  | addField (k v : Str)
  | addFile (k : Str) (f : Multipart.FileField)
  | setQuery (q : Option Str)
  | setArgs (d : MD.MDict Str Str)
  | addArg (k v : Str)
  | setType (t : Option Str)
  | setLength (n : Option Int)

/-- One step, and whether it raised. -/
def step (lower : Str → Str) (b : Builder) : Op → Builder × Except PyErr Unit
  | .setForm d => (Builder.setForm b d, .ok ())
  | .setFiles d => (Builder.setFiles b d, .ok ())
  | .setStream s => (Builder.setStream b s, .ok ())
  | .addField k v => match getForm b with
    | (b, .ok d) => (Builder.setForm b (MD.add d k (.text v)), .ok ())
    | (b, .error e) => (b, .error e)
  | .addFile k f => match getFiles b with
    | (b, .ok d) => (Builder.setFiles b (MD.add d k (.file f)), .ok ())
    | (b, .error e) => (b, .error e)
  | .setQuery q => (setQueryString b q, .ok ())
  | .setArgs d => (Builder.setArgs b d, .ok ())
  | .addArg k v => match getArgs b with
    | (b, .ok d) => (Builder.setArgs b (MD.add d k v), .ok ())
    | (b, .error e) => (b, .error e)
  | .setType t => setHeader lower b s%"Content-Type" t
  | .setLength n => setHeader lower b s%"Content-Length" (n.map intStr)

def run (lower : Str → Str) (b : Builder) (ops : List Op) : Builder := ops.foldl (fun b o => (step lower b o).1) b

/-- What the body of the request is made of: a stream, or form fields and files. -/
inductive Source where
  | stream (d : Bytes) (pos : Nat)
  | fields (form files : MD.MDict Str Multipart.Value)

/-- What the query is made of. -/
inductive QSource where
  | text (s : Str)
  | args (d : MD.MDict Str Str)

/-- Setting a stream drops the fields; setting fields or files drops the stream; adding to the
fields or files is possible when there is no stream, and keeps the other ones. -/
def source : Source → Op → Source
  | _, .setStream (some (d, p)) => .stream d p
  | _, .setStream none => .fields [] []
  | .stream _ _, .setForm d => .fields d []
  | .fields _ g, .setForm d => .fields d g
  | .stream _ _, .setFiles d => .fields [] d
  | .fields f _, .setFiles d => .fields f d
  | .fields f g, .addField k v => .fields (MD.add f k (.text v)) g
  | .fields f g, .addFile k v => .fields f (MD.add g k (.file v))
  | s, _ => s

/-- Likewise for query text and parameters. -/
def qsource : QSource → Op → QSource
  | _, .setQuery (some s) => .text s
  | _, .setQuery none => .args []
  | _, .setArgs d => .args d
  | .args d, .addArg k v => .args (MD.add d k v)
  | s, _ => s

/-- The source that a builder holds. -/
def sourceOf (b : Builder) : Source :=
  match b.stream with
  | some (d, p) => .stream d p
  | none => .fields (b.form.getD []) (b.files.getD [])

/-- The query source that a builder holds. -/
def qsourceOf (b : Builder) : QSource :=
  match b.queryString with
  | some s => .text s
  | none => .args (b.args.getD [])

/-- Never both a stream and fields, never both a text and parameters. -/
structure Exclusive (b : Builder) : Prop where
  body : b.stream ≠ none → b.form = none ∧ b.files = none
  query : b.queryString ≠ none → b.args = none

theorem setHeader_rest (lower : Str → Str) (b : Builder) (n : Str) (v : Option Str) :
    (setHeader lower b n v).1.stream = b.stream ∧ (setHeader lower b n v).1.form = b.form ∧ (setHeader lower b n v).1.files = b.files ∧
    (setHeader lower b n v).1.queryString = b.queryString ∧ (setHeader lower b n v).1.args = b.args := by
  unfold setHeader
  cases v <;> exact ⟨rfl, rfl, rfl, rfl, rfl⟩

theorem step_ok (lower : Str → Str) (b : Builder) (o : Op) (h : Exclusive b) :
    Exclusive (step lower b o).1 ∧ sourceOf (step lower b o).1 = source (sourceOf b) o ∧
    qsourceOf (step lower b o).1 = qsource (qsourceOf b) o := by
  obtain ⟨h1, h2⟩ := h
  obtain ⟨m, sc, ho, sr, pa, qs, ar, hd, st, fo, fi, ba, ov⟩ := b
  simp only at h1 h2
  have key : ∀ n v, Exclusive (setHeader lower ⟨m, sc, ho, sr, pa, qs, ar, hd, st, fo, fi, ba, ov⟩ n v).1 ∧
      sourceOf (setHeader lower ⟨m, sc, ho, sr, pa, qs, ar, hd, st, fo, fi, ba, ov⟩ n v).1 =
        sourceOf ⟨m, sc, ho, sr, pa, qs, ar, hd, st, fo, fi, ba, ov⟩ ∧
      qsourceOf (setHeader lower ⟨m, sc, ho, sr, pa, qs, ar, hd, st, fo, fi, ba, ov⟩ n v).1 =
        qsourceOf ⟨m, sc, ho, sr, pa, qs, ar, hd, st, fo, fi, ba, ov⟩ := by
    intro n v
    obtain ⟨r1, r2, r3, r4, r5⟩ := setHeader_rest lower ⟨m, sc, ho, sr, pa, qs, ar, hd, st, fo, fi, ba, ov⟩ n v
    refine ⟨⟨by rw [r1, r2, r3]; exact h1, by rw [r4, r5]; exact h2⟩, ?_, ?_⟩
    · unfold sourceOf; rw [r1, r2, r3]
    · unfold qsourceOf; rw [r4, r5]
  cases st with
  | some x =>
    obtain ⟨rfl, rfl⟩ := h1 (by simp)
    cases qs with
    | some q =>
      cases h2 (by simp)
      cases o with
      | setType t => exact key _ _
      | setLength t => exact key _ _
      | setStream s => cases s <;> exact ⟨⟨by simp [step, Builder.setStream], by simp [step, Builder.setStream]⟩, rfl, rfl⟩
      | setQuery q' => cases q' <;> exact ⟨⟨by simp [step, setQueryString], by simp [step, setQueryString]⟩, rfl, rfl⟩
      | _ => exact ⟨⟨by simp [step, Builder.setForm, Builder.setFiles, getForm, getFiles, getArgs, Builder.setArgs],
          by simp [step, Builder.setForm, Builder.setFiles, getForm, getFiles, getArgs, Builder.setArgs]⟩, rfl, rfl⟩
    | none =>
      cases o with
      | setType t => exact key _ _
      | setLength t => exact key _ _
      | setStream s => cases s <;> exact ⟨⟨by simp [step, Builder.setStream], by simp [step, Builder.setStream]⟩, rfl, rfl⟩
      | setQuery q' => cases q' <;> exact ⟨⟨by simp [step, setQueryString], by simp [step, setQueryString]⟩, rfl, rfl⟩
      | _ => exact ⟨⟨by simp [step, Builder.setForm, Builder.setFiles, getForm, getFiles, getArgs, Builder.setArgs],
          by simp [step, Builder.setForm, Builder.setFiles, getForm, getFiles, getArgs, Builder.setArgs]⟩, rfl, rfl⟩
  | none =>
    cases qs with
    | some q =>
      cases h2 (by simp)
      cases o with
      | setType t => exact key _ _
      | setLength t => exact key _ _
      | setStream s => cases s <;> exact ⟨⟨by simp [step, Builder.setStream], by simp [step, Builder.setStream]⟩, rfl, rfl⟩
      | setQuery q' => cases q' <;> exact ⟨⟨by simp [step, setQueryString], by simp [step, setQueryString]⟩, rfl, rfl⟩
      | _ => exact ⟨⟨by simp [step, Builder.setForm, Builder.setFiles, getForm, getFiles, getArgs, Builder.setArgs],
          by simp [step, Builder.setForm, Builder.setFiles, getForm, getFiles, getArgs, Builder.setArgs]⟩, rfl, rfl⟩
    | none =>
      cases o with
      | setType t => exact key _ _
      | setLength t => exact key _ _
      | setStream s => cases s <;> exact ⟨⟨by simp [step, Builder.setStream], by simp [step, Builder.setStream]⟩, rfl, rfl⟩
      | setQuery q' => cases q' <;> exact ⟨⟨by simp [step, setQueryString], by simp [step, setQueryString]⟩, rfl, rfl⟩
      | _ => exact ⟨⟨by simp [step, Builder.setForm, Builder.setFiles, getForm, getFiles, getArgs, Builder.setArgs],
          by simp [step, Builder.setForm, Builder.setFiles, getForm, getFiles, getArgs, Builder.setArgs]⟩, rfl, rfl⟩

theorem run_ok (lower : Str → Str) (b : Builder) (ops : List Op) (h : Exclusive b) :
    Exclusive (run lower b ops) ∧ sourceOf (run lower b ops) = ops.foldl source (sourceOf b) ∧
    qsourceOf (run lower b ops) = ops.foldl qsource (qsourceOf b) := by
  induction ops generalizing b with
  | nil => exact ⟨h, rfl, rfl⟩
  | cons o ops ih =>
    obtain ⟨h1, h2, h3⟩ := step_ok lower b o h
    obtain ⟨i1, i2, i3⟩ := ih _ h1
    exact ⟨i1, by rw [List.foldl_cons, ← h2]; exact i2, by rw [List.foldl_cons, ← h3]; exact i3⟩

/-! ### A new builder -/

theorem withType_rest {lower : Str → Str} {b b' : Builder} {t : Option Str} (h : withType lower b t = .ok b') :
    b'.queryString = b.queryString ∧ b'.args = b.args := by
  cases t with
  | none => cases h; exact ⟨rfl, rfl⟩
  | some t =>
    simp only [withType] at h
    obtain ⟨_, _, _, h4, h5⟩ := setHeader_rest lower b s%"Content-Type" (some t)
    split at h
    · rename_i c _ hc; cases h; rw [hc] at h4 h5; exact ⟨h4, h5⟩
    · cases h

/-- The source of the body that the arguments give. -/
def given (stream : Option (Bytes × Nat)) : Data → Source
  | .text (c :: s) => .stream (Utf8.encode (c :: s)) 0
  | .bytes (x :: s) => .stream (x :: s) 0
  | .pairs (p :: l) => .fields (MD.ofPairs ((p :: l).filter fun q => match q.2 with | .file _ => false | _ => true))
      (MD.ofPairs ((p :: l).filter fun q => match q.2 with | .file _ => true | _ => false))
  | _ => match stream with
    | some (d, p) => .stream d p
    | none => .fields [] []

theorem setData_source (lower : Str → Str) (b : Builder) (d : Bytes) : sourceOf (setData lower b d) = .stream d 0 ∧
    (setData lower b d).stream = some (d, 0) ∧ (setData lower b d).form = none ∧ (setData lower b d).files = none ∧
    (setData lower b d).queryString = b.queryString ∧ (setData lower b d).args = b.args := by
  unfold setData
  simp only
  split
  · exact ⟨rfl, rfl, rfl, rfl, rfl, rfl⟩
  · obtain ⟨r1, r2, r3, r4, r5⟩ := setHeader_rest lower (Builder.setStream b (some (d, 0))) s%"Content-Length" (some (intStr d.length))
    refine ⟨?_, r1, r2, r3, r4, r5⟩
    unfold sourceOf; rw [r1]; rfl

theorem addPairs_source (b : Builder) (l : List (Str × Multipart.Value)) :
    (addPairs b l).stream = b.stream ∧ (addPairs b l).queryString = b.queryString ∧ (addPairs b l).args = b.args ∧
    (addPairs b l).form.getD [] = (l.filter fun q => match q.2 with | .file _ => false | _ => true).foldl
      (fun d p => MD.add d p.1 p.2) (b.form.getD []) ∧
    (addPairs b l).files.getD [] = (l.filter fun q => match q.2 with | .file _ => true | _ => false).foldl
      (fun d p => MD.add d p.1 p.2) (b.files.getD []) := by
  unfold addPairs
  induction l generalizing b with
  | nil => exact ⟨rfl, rfl, rfl, rfl, rfl⟩
  | cons p l ih =>
    obtain ⟨k, v⟩ := p
    rw [List.foldl_cons]
    cases v with
    | file f => exact ih _
    | text s => exact ih _
    | bytes s => exact ih _

/-- What a new builder holds. -/
theorem init_source {lower : Str → Str} {iri fix : Str → Except PyErr Str} {path : Str} {base : Option Str} {query : Query}
    {method : Str} {headers : Headers.HList} {ct : Option Str} {stream : Option (Bytes × Nat)} {cl : Option Int} {data : Data}
    {eb eo : List (Str × Str)} {b : Builder}
    (h : init lower iri fix path base query method headers ct stream cl data eb eo = .ok b) :
    Exclusive b ∧ sourceOf b = given stream data := by
  unfold init at h
  split at h
  · cases h
  split at h
  · cases h
  split at h
  · cases h
  rename_i b0 hb0
  split at h
  · cases h
  rename_i b1 hb1
  simp only at h
  obtain ⟨q1, q2⟩ := withType_rest hb1
  obtain ⟨r1, r2, r3, r4, r5⟩ := setHeader_rest lower (Builder.setStream b1 stream) s%"Content-Length" (cl.map intStr)
  generalize (setHeader lower (Builder.setStream b1 stream) s%"Content-Length" (cl.map intStr)).1 = b2 at h r1 r2 r3 r4 r5
  have hq : b2.queryString ≠ none → b2.args = none := by
    rw [r4, r5]
    show b1.queryString ≠ none → b1.args = none
    rw [q1, q2]
    cases (splitQuery path query).2 with
    | missing => intro h0; exact absurd rfl h0
    | text s => intro _; rfl
    | args d => intro h0; exact absurd rfl h0
  have plain : Exclusive b2 ∧ sourceOf b2 = given stream .missing := by
    refine ⟨⟨fun _ => ⟨r2, r3⟩, hq⟩, ?_⟩
    unfold sourceOf
    rw [r1, r2, r3]
    cases stream <;> rfl
  have bytes : ∀ d, Exclusive (setData lower b2 d) ∧ sourceOf (setData lower b2 d) = .stream d 0 := by
    intro d
    obtain ⟨s1, s2, s3, s4, s5, s6⟩ := setData_source lower b2 d
    exact ⟨⟨fun _ => ⟨s3, s4⟩, by rw [s5, s6]; exact hq⟩, s1⟩
  cases data with
  | missing => cases h; exact plain
  | text s =>
    simp only [withData] at h
    cases s with
    | nil => simp at h; subst h; exact plain
    | cons c s =>
      rw [if_neg (by simp)] at h
      split at h
      · cases h
      · cases h; exact bytes _
  | bytes s =>
    simp only [withData] at h
    cases s with
    | nil => simp at h; subst h; exact plain
    | cons c s =>
      rw [if_neg (by simp)] at h
      split at h
      · cases h
      · cases h; exact bytes _
  | pairs l =>
    simp only [withData] at h
    cases l with
    | nil => simp at h; subst h; exact plain
    | cons c l =>
      rw [if_neg (by simp)] at h
      split at h
      · cases h
      · rename_i hst
        cases h
        cases stream with
        | some x => simp at hst
        | none =>
          obtain ⟨s1, s2, s3, s4, s5⟩ := addPairs_source b2 (c :: l)
          refine ⟨⟨fun h0 => ?_, by rw [s2, s3]; exact hq⟩, ?_⟩
          · rw [s1, r1] at h0; exact absurd rfl h0
          · unfold sourceOf
            rw [s1, r1, s4, s5, r2, r3]
            rfl

/-- **C98, histories.**  After any history of assignments and additions, the body of the request is
made of what was given last: a stream displaces fields and files, fields or files displace a
stream, and additions go to the fields and files there are.  Text and parameters of the query are
displaced alike. -/
theorem C98_history {lower : Str → Str} {iri fix : Str → Except PyErr Str} {path : Str} {base : Option Str} {query : Query}
    {method : Str} {headers : Headers.HList} {ct : Option Str} {stream : Option (Bytes × Nat)} {cl : Option Int} {data : Data}
    {eb eo : List (Str × Str)} {b : Builder}
    (h : init lower iri fix path base query method headers ct stream cl data eb eo = .ok b) (ops : List Op) :
    sourceOf (run lower b ops) = ops.foldl source (given stream data) ∧
    qsourceOf (run lower b ops) = ops.foldl qsource (qsourceOf b) ∧
    Exclusive (run lower b ops) := by
  obtain ⟨h1, h2⟩ := init_source h
  obtain ⟨r1, r2, r3⟩ := run_ok lower b ops h1
  exact ⟨by rw [r2, h2], r3, r1⟩

/-- **C98, refusals.**  Fields and files can be read and added to exactly when there is no stream;
parameters exactly when there is no query text.  A refused addition raises `AttributeError` and
changes nothing. -/
theorem C98_refusals (lower : Str → Str) (b : Builder) (k v : Str) (f : Multipart.FileField) :
    ((∃ d p, sourceOf b = .stream d p) → step lower b (.addField k v) = (b, .error .attributeError) ∧
      step lower b (.addFile k f) = (b, .error .attributeError)) ∧
    ((∃ x y, sourceOf b = .fields x y) → (step lower b (.addField k v)).2 = .ok () ∧ (step lower b (.addFile k f)).2 = .ok ()) ∧
    ((∃ t, qsourceOf b = .text t) → step lower b (.addArg k v) = (b, .error .attributeError)) ∧
    ((∃ d, qsourceOf b = .args d) → (step lower b (.addArg k v)).2 = .ok ()) := by
  unfold sourceOf qsourceOf
  cases hs : b.stream with
  | some x =>
    refine ⟨fun _ => ?_, fun h => by simp at h, ?_, ?_⟩
    · simp [step, getForm, getFiles, hs]
    · rintro ⟨t, ht⟩
      split at ht
      · rename_i hq; simp [step, getArgs, hq]
      · cases ht
    · rintro ⟨t, ht⟩
      split at ht
      · cases ht
      · rename_i hq; simp [step, getArgs, hq]
  | none =>
    refine ⟨fun h => by simp at h, fun _ => ?_, ?_, ?_⟩
    · simp [step, getForm, getFiles, hs]
    · rintro ⟨t, ht⟩
      split at ht
      · rename_i hq; simp [step, getArgs, hq]
      · cases ht
    · rintro ⟨t, ht⟩
      split at ht
      · cases ht
      · rename_i hq; simp [step, getArgs, hq]

/-! ### The body -/

/-- **C98, streams.**  A stream arrives from where it stands, and the length in the environ is the
number of bytes that arrive, whatever length was set by hand. -/
theorem C98_stream_partial {upper lower : Str → Str} {guess : Str → Option Str} {boundary : Str} {b : Builder} {e : Environ}
    (he : getEnviron upper lower guess boundary b = .ok e) {d : Bytes} {pos : Nat} (hs : sourceOf b = .stream d pos) (hp : pos ≤ d.length)
    (ho : s%"CONTENT_LENGTH" ∉ b.overrides.map Prod.fst) :
    e.input = d.drop pos ∧ Dict.get e.vars s%"CONTENT_LENGTH" = some (natStr e.input.length) := by
  have hst : b.stream = some (d, pos) := by
    unfold sourceOf at hs
    split at hs
    · rename_i h; cases hs; exact h
    · cases hs
  obtain ⟨data, len, type, qs, port, e1, e2, e3, e4, e5⟩ := get_entry he (k := s%"CONTENT_LENGTH") ho (by decide)
  have e6 : Dict.get e.vars s%"CONTENT_LENGTH" = some (if len.getD 0 = 0 then s%"0" else intStr (len.getD 0)) := e5
  unfold body at e1
  rw [hst] at e1
  simp only [Except.ok.injEq, Prod.mk.injEq] at e1
  obtain ⟨rfl, rfl, rfl⟩ := e1
  refine ⟨e4, ?_⟩
  rw [e6, e4, List.length_drop]
  have hi : (d.length : Int) - pos = ((d.length - pos : Nat) : Int) := by omega
  rw [Option.getD_some, hi]
  split
  · rename_i h0
    have : d.length - pos = 0 := by omega
    rw [this]; decide +kernel
  · rfl

/-- **C98 fails** for a stream that stands behind its end: the length is negative. -/
theorem C98_position_false : ∃ (b : Builder) (e : Environ), sourceOf b = .stream [1] 3 ∧
    getEnviron id id (fun _ => none) [] b = .ok e ∧ e.input = [] ∧ Dict.get e.vars s%"CONTENT_LENGTH" = some s%"-2" :=
  ⟨⟨[], s%"http", s%"h", [], s%"/", none, none, [], some ([1], 3), none, none, [], []⟩, _, rfl, rfl, rfl, by decide +kernel⟩

/-- **C98, data.**  Data given as text or bytes arrives as it is (text in UTF-8), with its length. -/
theorem C98_data {upper lower : Str → Str} {iri fix : Str → Except PyErr Str} {guess : Str → Option Str} {boundary : Str}
    {path : Str} {base : Option Str} {query : Query}
    {method : Str} {headers : Headers.HList} {ct : Option Str} {stream : Option (Bytes × Nat)} {cl : Option Int} {data : Data} {d : Bytes}
    {eb eo : List (Str × Str)} {b : Builder} {e : Environ} (hd : d ≠ [])
    (hdata : data = .bytes d ∨ ∃ s, data = .text s ∧ Utf8.encode s = d)
    (h : init lower iri fix path base query method headers ct stream cl data eb eo = .ok b)
    (he : getEnviron upper lower guess boundary b = .ok e) (ho : s%"CONTENT_LENGTH" ∉ eo.map Prod.fst) :
    e.input = d ∧ Dict.get e.vars s%"CONTENT_LENGTH" = some (natStr d.length) := by
  obtain ⟨_, hsrc⟩ := init_source h
  have hg : given stream data = .stream d 0 := by
    rcases hdata with rfl | ⟨s, rfl, rfl⟩
    · cases d with
      | nil => exact absurd rfl hd
      | cons x d => rfl
    · cases s with
      | nil => exact absurd rfl hd
      | cons c s => rfl
  rw [hg] at hsrc
  obtain ⟨pp, base', b0, h1, h2, h3, h4⟩ := init_front h
  obtain ⟨g1, g2, g3, g4⟩ := setBaseUrl_front h3
  obtain ⟨f1, f2, f3, f4, f5, f6, f7, f8, f9⟩ := front_eq h4
  obtain ⟨w1, w2, w3, w4, w5, w6, w7⟩ := withQuery_front b0 (splitQuery path query).2
  obtain ⟨r1, r2⟩ := C98_stream_partial he hsrc (Nat.zero_le _) (by rw [f9, w7, g4]; exact ho)
  rw [List.drop_zero] at r1
  exact ⟨r1, by rw [r2, r1]⟩

theorem source_fields {b : Builder} {f g : MD.MDict Str Multipart.Value} (h : sourceOf b = .fields f g) :
    b.stream = none ∧ b.form.getD [] = f ∧ b.files.getD [] = g := by
  unfold sourceOf at h
  split at h
  · cases h
  · rename_i h0
    simp only [Source.fields.injEq] at h
    exact ⟨h0, h.1, h.2⟩

theorem formPairs_first (l : List (Str × Str × List Multipart.Value)) :
    formPairs (l.map fun x => (x.1, .text x.2.1 :: x.2.2)) = .ok (l.map fun x => (x.1, x.2.1)) := by
  unfold formPairs
  induction l with
  | nil => rfl
  | cons x l ih => rw [List.map_cons, List.mapM_cons, ih]; rfl

/-- **C98, form fields.**  Fields without files arrive as a URL-encoded body: a reader of it finds
the first value of each field, in order, as far as it is not empty. -/
theorem C98_form_partial {upper lower : Str → Str} {guess : Str → Option Str} {boundary : Str} {b : Builder} {e : Environ}
    (he : getEnviron upper lower guess boundary b = .ok e) {l : List (Str × Str × List Multipart.Value)} (hl : l ≠ [])
    (hs : sourceOf b = .fields (l.map fun x => (x.1, .text x.2.1 :: x.2.2)) [])
    (hct : Headers.get lower b.headers s%"Content-Type" = none)
    (ho : s%"CONTENT_LENGTH" ∉ b.overrides.map Prod.fst ∧ s%"CONTENT_TYPE" ∉ b.overrides.map Prod.fst) :
    (∀ semi, parseQsl semi (Utf8.decode e.input) = (l.map fun x => (x.1, x.2.1)).filter fun p => p.2 ≠ []) ∧
    Dict.get e.vars s%"CONTENT_TYPE" = some s%"application/x-www-form-urlencoded" ∧
    Dict.get e.vars s%"CONTENT_LENGTH" = some (natStr e.input.length) := by
  obtain ⟨h1, h2, h3⟩ := source_fields hs
  have ht : contentType lower b = some s%"application/x-www-form-urlencoded" := by
    unfold contentType truthy
    rw [hct, h1, h2, h3]
    cases l with
    | nil => exact absurd rfl hl
    | cons x l => rfl
  obtain ⟨data, len, type, qs, port, e1, e2, e3, e4, e5⟩ := getEnviron_ok he
  have hov : ∀ k, k ∉ b.overrides.map Prod.fst → lastOf b.overrides k = none := fun k hk =>
    lastOf_none fun p hp h0 => hk (List.mem_map.2 ⟨p, hp, h0⟩)
  have c1 : Dict.get e.vars s%"CONTENT_LENGTH" = some (if len.getD 0 = 0 then s%"0" else intStr (len.getD 0)) := by
    rw [e5, hov _ ho.1, header_none upper _ (by decide)]; rfl
  have c2 : Dict.get e.vars s%"CONTENT_TYPE" = some (type.getD []) := by
    rw [e5, hov _ ho.2, header_none upper _ (by decide)]; rfl
  unfold body at e1
  rw [h1, ht] at e1
  simp only [h2, formPairs_first] at e1
  rw [if_neg (by decide), if_pos trivial] at e1
  simp only [Except.ok.injEq, Prod.mk.injEq] at e1
  obtain ⟨rfl, rfl, rfl⟩ := e1
  refine ⟨?_, c2, ?_⟩
  · intro semi
    rw [e4, Utf8.decode_encode, parseQsl_urlencode semi]
  · rw [c1, e4, Option.getD_some]
    split
    · rename_i h0
      have : (Utf8.encode (urlencode (l.map fun x => (x.1, x.2.1)))).length = 0 := by omega
      rw [this]; decide +kernel
    · rfl

theorem lists_two {V : Type} (g : MD.MDict Str V) (hn : (Dict.keys g).Nodup) : CMD.lists [[], g] = g := by
  show g.foldl (fun rv p => Dict.set rv p.1 ((Dict.get rv p.1).getD [] ++ p.2)) [] = g
  have key : ∀ (done rest : MD.MDict Str V), (Dict.keys (done ++ rest)).Nodup →
      rest.foldl (fun rv p => Dict.set rv p.1 ((Dict.get rv p.1).getD [] ++ p.2)) done = done ++ rest := by
    intro done rest
    induction rest generalizing done with
    | nil => intro _; simp
    | cons p rest ih =>
      intro h
      have hp : p.1 ∉ Dict.keys done := by
        rw [Dict.keys_append, Dict.keys_cons] at h
        have := (List.nodup_append.1 h).2.2
        intro h0
        exact this p.1 h0 p.1 (by simp) rfl
      rw [List.foldl_cons, Dict.get_eq_none.2 hp]
      simp only [Option.getD_none, List.nil_append]
      have hset : Dict.set done p.1 p.2 = done ++ [p] := by
        clear h ih
        induction done with
        | nil => rfl
        | cons q done ihd =>
          obtain ⟨a, w⟩ := q
          simp only [Dict.keys_cons, List.mem_cons, not_or] at hp
          simp only [Dict.set]
          rw [if_neg (Ne.symm hp.1), ihd hp.2]; rfl
      rw [hset, ih _ (by simpa using h)]
      simp
  exact key [] g (by simpa using hn)

/-- **C98, files.**  Files without fields arrive as a multipart body with the boundary that the
environ names, and a receiver reads every file back. -/
theorem C98_files_partial {upper lower : Str → Str} {guess : Str → Option Str} {boundary : Str} {b : Builder} {e : Environ}
    (he : getEnviron upper lower guess boundary b = .ok e) {g : MD.MDict Str Multipart.Value} (hg : g ≠ []) (hn : (Dict.keys g).Nodup)
    {l : List (Str × Multipart.FileField)} (hl : MD.itemsMulti g = l.map fun p => (p.1, .file p.2))
    (hs : sourceOf b = .fields [] g) (hct : Headers.get lower b.headers s%"Content-Type" = none)
    (hb : '\r' ∉ boundary) (hsend : ∀ p ∈ l, MultipartP.Sendable guess boundary p.1 p.2)
    (ho : s%"CONTENT_LENGTH" ∉ b.overrides.map Prod.fst ∧ s%"CONTENT_TYPE" ∉ b.overrides.map Prod.fst) :
    Spec.Multipart.read (Utf8.encode boundary) e.input = some (l.map fun p => (Utf8.encode (MultipartP.fileHeader guess p.1 p.2), p.2.data)) ∧
    Dict.get e.vars s%"CONTENT_TYPE" = some (s%"multipart/form-data; boundary=\"" ++ boundary ++ s%"\"") ∧
    Dict.get e.vars s%"CONTENT_LENGTH" = some (natStr e.input.length) := by
  obtain ⟨h1, h2, h3⟩ := source_fields hs
  have ht : contentType lower b = some s%"multipart/form-data" := by
    unfold contentType truthy
    rw [hct, h1, h3]
    cases g with
    | nil => exact absurd rfl hg
    | cons x g => rfl
  obtain ⟨data, len, type, qs, port, e1, e2, e3, e4, e5⟩ := getEnviron_ok he
  have hov : ∀ k, k ∉ b.overrides.map Prod.fst → lastOf b.overrides k = none := fun k hk =>
    lastOf_none fun p hp h0 => hk (List.mem_map.2 ⟨p, hp, h0⟩)
  have c1 : Dict.get e.vars s%"CONTENT_LENGTH" = some (if len.getD 0 = 0 then s%"0" else intStr (len.getD 0)) := by
    rw [e5, hov _ ho.1, header_none upper _ (by decide)]; rfl
  have c2 : Dict.get e.vars s%"CONTENT_TYPE" = some (type.getD []) := by
    rw [e5, hov _ ho.2, header_none upper _ (by decide)]; rfl
  unfold body at e1
  rw [h1, ht, h2, h3, lists_two g hn] at e1
  obtain ⟨bd, b1, b2⟩ := MultipartP.C96_files_partial guess true 512000 boundary g l hl hb hsend
  simp only [b1] at e1
  rw [if_pos trivial] at e1
  simp only [Except.ok.injEq, Prod.mk.injEq] at e1
  obtain ⟨rfl, rfl, rfl⟩ := e1
  refine ⟨by rw [e4]; exact b2, c2, ?_⟩
  rw [c1, e4, Option.getD_some]
  split
  · rename_i h0
    have : bd.length = 0 := by omega
    rw [this]; decide +kernel
  · rfl

/-- **C98 fails** for a form with a text field and a file: no environ can be made of it. -/
theorem C98_mixed_false (upper lower : Str → Str) (guess : Str → Option Str) (boundary k v n : Str) (f : Multipart.FileField) (b : Builder)
    (hk : n ≠ k) (hs : sourceOf b = .fields [(k, [.text v])] [(n, [.file f])])
    (hct : Headers.get lower b.headers s%"Content-Type" = none) :
    getEnviron upper lower guess boundary b = .error .typeError := by
  obtain ⟨h1, h2, h3⟩ := source_fields hs
  have ht : contentType lower b = some s%"multipart/form-data" := by
    unfold contentType truthy
    rw [hct, h1, h3]; rfl
  have hb : body lower guess boundary b = .error .typeError := by
    unfold body
    rw [h1, ht, h2, h3]
    have hlist : CMD.lists [[(k, [Multipart.Value.text v])], [(n, [Multipart.Value.file f])]] =
        [(k, [Multipart.Value.text v]), (n, [Multipart.Value.file f])] := by
      simp [CMD.lists, MD.lists, Dict.set, Dict.get, Ne.symm hk]
    simp only [hlist]
    rw [MultipartP.C96_text_false guess true 512000 boundary _ k v (by simp [MD.itemsMulti])]
    rfl
  unfold getEnviron
  rw [hb]
  rfl

/-- A new builder with a form. -/
def demoNew : Except PyErr Builder :=
  init demoLower (iriToUri demoIdna demoLower demoUses) (urlFix demoIdna demoLower demoUses Char.isAlpha) s%"/" none .missing s%"POST"
    [] none none none (.pairs [(s%"a", .text s%"1"), (s%"f", .file ⟨some s%"x.txt", none, [1, 2]⟩)]) [] []

/-- A history on it: a stream is set, a field refused, fields set, then one added. -/
def demoOps : List Op :=
  [.setStream (some ([9], 0)), .addField s%"b" s%"2", .setForm [(s%"c", [.text s%"x y"])], .addField s%"d" s%"&"]

example : ∃ b, demoNew = .ok b ∧ ∃ e, getEnviron (fun s => s.map Char.toUpper) demoLower (fun _ => none) [] (run demoLower b demoOps) = .ok e ∧
    sourceOf b = .fields [(s%"a", [.text s%"1"])] [(s%"f", [.file ⟨some s%"x.txt", none, [1, 2]⟩])] ∧
    sourceOf (run demoLower b demoOps) = .fields [(s%"c", [.text s%"x y"]), (s%"d", [.text s%"&"])] [] ∧
    e.input = Utf8.encode s%"c=x+y&d=%26" :=
  ⟨_, rfl, _, rfl, rfl, rfl, rfl⟩

example : ∃ b, demoNew = .ok b ∧ getEnviron (fun s => s.map Char.toUpper) demoLower (fun _ => none) [] b = .error .typeError := ⟨_, rfl, rfl⟩

example : ∃ b e, sourceOf b = .fields [] [(s%"up", [.file ⟨some s%"a.txt", none, b%"x\r\n--y"⟩])] ∧
    getEnviron id id (fun _ => some s%"text/plain") s%"bnd" b = .ok e ∧
    Spec.Multipart.read (Utf8.encode s%"bnd") e.input =
      some [(Utf8.encode s%"Content-Disposition: form-data; name=\"up\"; filename=\"a.txt\"\r\nContent-Type: text/plain", b%"x\r\n--y")] :=
  ⟨⟨[], s%"http", s%"h", [], s%"/", none, none, [], none, none, some [(s%"up", [.file ⟨some s%"a.txt", none, b%"x\r\n--y"⟩])], [], []⟩,
    _, rfl, rfl, by decide +kernel⟩

end Verif.Props.BuilderP
