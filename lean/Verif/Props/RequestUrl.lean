import Verif.Model.RequestUrl
import Verif.Utf8Lemmas
import Verif.PyLemmas
import Verif.Props.Urls
import Verif.Props.Headers
/-!
C88-C92: text in the WSGI environ, and how a request presents its address.
-/
namespace Verif.Props.ReqUrlP
open Verif Verif.Py Verif.ReqUrl

/-! ### C88: text in the environ -/

/-- **C88.**  Every text survives the way through the environ, and the text put into the
environ holds only characters up to U+00FF, as the WSGI specification asks for. -/
theorem C88_round_trip (s : Str) :
    decodingDance (encodingDance s) = .ok s ∧ ∀ c ∈ encodingDance s, c.toNat < 256 := by
  constructor
  · unfold decodingDance encodingDance
    rw [Utf8.toLatin1_latin1]
    simp [Except.map, Utf8.decode_encode]
  · intro c hc
    unfold encodingDance Utf8.latin1 at hc
    simp only [List.mem_map] at hc
    obtain ⟨x, _, rfl⟩ := hc
    rw [Utf8.toNat_ofNat (Or.inl (by have := x.toNat_lt; omega))]
    have := x.toNat_lt
    omega

example : encodingDance s%"/é" = s%"/Ã©" := by decide +kernel

/-- **C88, reading.**  Reading succeeds for every text a server may put into the environ, and
raises `UnicodeEncodeError` for every other. -/
theorem C88_reading (s : Str) :
    ((∀ c ∈ s, c.toNat < 256) ↔ ∃ t, decodingDance s = .ok t) ∧
    ((∃ c ∈ s, 256 ≤ c.toNat) ↔ decodingDance s = .error .unicodeError) := by
  unfold decodingDance
  have he := @Utf8.toLatin1_error s
  by_cases h : ∀ c ∈ s, c.toNat < 256
  · have hn : ¬ ∃ c ∈ s, 256 ≤ c.toNat := by
      rintro ⟨c, hc, hh⟩; have := h c hc; omega
    rw [Utf8.toLatin1_ok h]
    simp only [Except.map]
    exact ⟨⟨fun _ => ⟨_, rfl⟩, fun _ => h⟩, ⟨fun h' => absurd h' hn, fun h' => by simp at h'⟩⟩
  · have hn : ∃ c ∈ s, 256 ≤ c.toNat := by
      simp only [Classical.not_forall] at h
      obtain ⟨c, hc, hh⟩ := h
      exact ⟨c, hc, by omega⟩
    rw [he.2 hn]
    simp only [Except.map]
    exact ⟨⟨fun h' => absurd h' h, fun ⟨t, ht⟩ => by simp at ht⟩, ⟨fun _ => trivial, fun _ => hn⟩⟩

theorem map_byte_append (a b : Str) (c : Char) :
    (a ++ c :: b).map (fun c => Utf8.byte c.toNat) =
      a.map (fun c => Utf8.byte c.toNat) ++ Utf8.byte c.toNat :: b.map (fun c => Utf8.byte c.toNat) := by simp

/-- **C88, delimiters.**  An ASCII character in the environ is read as itself, whatever stands
around it: bytes that are not UTF-8 cannot swallow it.  So splitting at it before or after
reading gives the same pieces. -/
theorem C88_delimiters (a b x y : Str) (d : Char) (hd : d.toNat < 128)
    (ha : decodingDance a = .ok x) (hb : decodingDance b = .ok y) :
    decodingDance (a ++ d :: b) = .ok (x ++ d :: y) := by
  unfold decodingDance at *
  cases h1 : Utf8.toLatin1 a with
  | error e => rw [h1] at ha; simp [Except.map] at ha
  | ok p =>
    cases h2 : Utf8.toLatin1 b with
    | error e => rw [h2] at hb; simp [Except.map] at hb
    | ok q =>
      rw [h1] at ha; rw [h2] at hb
      simp only [Except.map, Except.ok.injEq] at ha hb
      subst ha; subst hb
      have e1 := Utf8.latin1_toLatin1 h1
      have e2 := Utf8.latin1_toLatin1 h2
      have : a ++ d :: b = Utf8.latin1 (p ++ Utf8.byte d.toNat :: q) := by
        unfold Utf8.latin1 at *
        rw [List.map_append, List.map_cons, e1, e2, Utf8.byte_toNat (by omega), Utf8.ofNat_toNat]
      rw [this, Utf8.toLatin1_latin1]
      simp only [Except.map]
      rw [Utf8.decode_ascii _ _ _ (by rw [Utf8.byte_toNat (by omega)]; exact hd), Utf8.byte_toNat (by omega),
        Utf8.ofNat_toNat]

example : decodingDance s%"aÃ/b" = .ok s%"a�/b" := by decide +kernel

/-! ### C89: paths -/

theorem dict_get_set (e : List (Str × Str)) (k v : Str) : Dict.get (Dict.set e k v) k = some v := by
  rw [Dict.get_set]; simp

/-- **C89.**  The path of a request begins with exactly one slash, and the script root does
not end in one. -/
theorem C89_slashes (environ : List (Str × Str)) :
    (∀ p, path environ = .ok p → ∃ t, p = '/' :: t ∧ t.head? ≠ some '/') ∧
    (∀ r, scriptRoot environ = .ok r → r.getLast? ≠ some '/') := by
  constructor
  · intro p hp
    unfold path at hp
    cases h : decodingDance (envText environ s%"PATH_INFO") with
    | error e => simp [h] at hp
    | ok raw =>
      simp only [h, Except.ok.injEq] at hp
      refine ⟨_, hp.symm, ?_⟩
      intro hh
      have := lstripP_head (· = '/') raw '/' hh
      simp at this
  · intro r hr
    unfold scriptRoot at hr
    cases h : decodingDance (envText environ s%"SCRIPT_NAME") with
    | error e => simp [h] at hr
    | ok raw =>
      simp only [h, Except.ok.injEq] at hr
      subst hr
      intro hh
      have := rstripP_last (· = '/') raw '/' hh
      simp at this

/-- **C89, the texts.**  For an environ in which a server has put the texts `root`, `p` and `q`
(as the WSGI specification asks for), the request presents those texts: the path is `p` with
its leading slashes made one, the script root is `root` without trailing slashes, the query
string is `q`, and the full path joins path and query. -/
theorem C89_texts (environ : List (Str × Str)) (root p q : Str)
    (h1 : Dict.get environ s%"SCRIPT_NAME" = some (encodingDance root))
    (h2 : Dict.get environ s%"PATH_INFO" = some (encodingDance p))
    (h3 : Dict.get environ s%"QUERY_STRING" = some (encodingDance q)) :
    path environ = .ok ('/' :: p.dropWhile (· = '/')) ∧
    scriptRoot environ = .ok (root.reverse.dropWhile (· = '/')).reverse ∧
    queryString environ = .ok q ∧
    fullPath environ = .ok ('/' :: p.dropWhile (· = '/') ++ '?' :: q) := by
  have e1 : path environ = .ok ('/' :: p.dropWhile (· = '/')) := by
    unfold path envText; rw [h2, Option.getD_some, (C88_round_trip p).1]; rfl
  have e3 : queryString environ = .ok q := by
    unfold queryString envText; rw [h3, Option.getD_some, (C88_round_trip q).1]
  refine ⟨e1, ?_, e3, ?_⟩
  · unfold scriptRoot envText; rw [h1, Option.getD_some, (C88_round_trip root).1]; rfl
  · unfold fullPath; simp only [e1, e3]

/-- **C89, an environ without the keys** is the root of a site. -/
theorem C89_missing (environ : List (Str × Str)) (h1 : Dict.get environ s%"SCRIPT_NAME" = none)
    (h2 : Dict.get environ s%"PATH_INFO" = none) (h3 : Dict.get environ s%"QUERY_STRING" = none) :
    path environ = .ok s%"/" ∧ scriptRoot environ = .ok [] ∧ queryString environ = .ok [] := by
  unfold path scriptRoot queryString envText
  rw [h1, h2, h3]
  decide +kernel

/-- The usual case: a path with one leading slash and a script root without trailing slash are
presented unchanged. -/
theorem C89_usual (environ : List (Str × Str)) (root p : Str)
    (h1 : Dict.get environ s%"SCRIPT_NAME" = some (encodingDance root))
    (h2 : Dict.get environ s%"PATH_INFO" = some (encodingDance ('/' :: p)))
    (hr : root.getLast? ≠ some '/') (hp : p.head? ≠ some '/') :
    path environ = .ok ('/' :: p) ∧ scriptRoot environ = .ok root := by
  constructor
  · unfold path envText; rw [h2, Option.getD_some, (C88_round_trip _).1]
    simp only [Except.ok.injEq, List.cons.injEq, true_and]
    rw [lstripP_cons _ _ _ (by simp)]
    exact lstripP_of_head _ _ (by intro c hc; simp; intro h; exact hp (by rw [hc, h]))
  · unfold scriptRoot envText; rw [h1, Option.getD_some, (C88_round_trip _).1]
    simp only [Except.ok.injEq]
    exact rstripP_of_last _ _ (by intro c hc; simp; intro h; exact hr (by rw [hc, h]))

/-- An environ for examples. -/
def demoEnv : List (Str × Str) :=
  [(s%"SCRIPT_NAME", encodingDance s%"/äpp/"), (s%"PATH_INFO", encodingDance s%"//p?x;€"),
   (s%"QUERY_STRING", encodingDance s%"a=1"), (s%"wsgi.url_scheme", s%"http"), (s%"HTTP_HOST", s%"Example.org:8080")]

example : path demoEnv = .ok s%"/p?x;€" ∧ scriptRoot demoEnv = .ok s%"/äpp" ∧
    fullPath demoEnv = .ok s%"/p?x;€?a=1" := by decide +kernel

/-! ### C90: query parameters -/

theorem latin1_append (a b : Bytes) : Utf8.latin1 (a ++ b) = Utf8.latin1 a ++ Utf8.latin1 b := by
  simp [Utf8.latin1]

theorem ofNat_byte {n : Nat} (h : n < 256) : (Char.ofNat n).toNat = n := Utf8.toNat_ofNat (Or.inl (by omega))

theorem latin1_char (x : UInt8) : (Char.ofNat x.toNat).toNat = x.toNat := ofNat_byte x.toNat_lt

/-- A byte text has a character exactly when it has its byte. -/
theorem mem_latin1 {c : Char} {b : Bytes} (hc : c.toNat < 256) : c ∈ Utf8.latin1 b ↔ Utf8.byte c.toNat ∈ b := by
  unfold Utf8.latin1
  simp only [List.mem_map]
  constructor
  · rintro ⟨x, hx, rfl⟩
    rw [latin1_char, Utf8.byte_of_toNat]; exact hx
  · intro h
    exact ⟨_, h, by rw [Utf8.byte_toNat hc, Utf8.ofNat_toNat]⟩

theorem alwaysSafe_low {b : UInt8} (h : Urls.alwaysSafe b = true) : b.toNat < 128 := by
  have := Urls.forall_byte (fun b => !Urls.alwaysSafe b || decide (b.toNat < 128)) (by decide +kernel) b
  simp [h] at this
  exact this

theorem quote_mem {safe : List UInt8} {s : Bytes} {b : UInt8} (h : b ∈ Urls.quote safe s) :
    Urls.alwaysSafe b = true ∨ b = 37 ∨ (b ∈ safe ∧ b ∈ s) := by
  induction s with
  | nil => simp [Urls.quote] at h
  | cons x s ih =>
    rw [Urls.quote_cons] at h
    rcases List.mem_append.1 h with h | h
    · split at h
      · rename_i hx
        simp at h
        subst h
        rcases hx with hx | hx
        · exact Or.inl hx
        · exact Or.inr (Or.inr ⟨hx, by simp⟩)
      · simp at h
        rcases h with rfl | rfl | rfl
        · exact Or.inr (Or.inl rfl)
        · exact Or.inl (Urls.hexDigit_spec x).2.1
        · exact Or.inl (Urls.hexDigit_spec x).2.2
    · rcases ih h with h | h | ⟨h1, h2⟩
      · exact Or.inl h
      · exact Or.inr (Or.inl h)
      · exact Or.inr (Or.inr ⟨h1, by simp [h2]⟩)

/-- Escapes of the bytes in `u`, the other bytes as they are. -/
def escBytes (u : List UInt8) (s : Bytes) : Bytes :=
  s.flatMap fun b => if b ∈ u then [37, Urls.hexDigit (b / 16), Urls.hexDigit (b % 16)] else [b]

theorem escBytes_cons (u : List UInt8) (b : UInt8) (s : Bytes) : escBytes u (b :: s) =
    (if b ∈ u then [37, Urls.hexDigit (b / 16), Urls.hexDigit (b % 16)] else [b]) ++ escBytes u s := by
  simp [escBytes]

/-- Safe decoding of quoted bytes leaves escapes exactly for the unsafe bytes that were
quoted. -/
theorem unquote_quote (u safe : List UInt8) (h37 : (37 : UInt8) ∉ safe)
    (hu : ∀ b ∈ u, Urls.alwaysSafe b = false ∧ b ∉ safe) (s : Bytes) :
    Urls.safeUnquote u (Urls.quote safe s) = escBytes u s := by
  rw [Urls.C39_scan]
  induction s with
  | nil => rfl
  | cons b s ih =>
    rw [Urls.quote_cons, escBytes_cons]
    split
    · rename_i hb
      have hb37 : b ≠ 37 := by
        intro h; subst h
        rcases hb with hb | hb
        · exact absurd hb (by decide)
        · exact h37 hb
      have hbu : b ∉ u := by
        intro h
        have := hu b h
        rcases hb with hb | hb
        · rw [this.1] at hb; simp at hb
        · exact this.2 hb
      rw [if_neg hbu, List.singleton_append, Urls.decode_ne hb37, ih]; rfl
    · simp only [List.cons_append, List.nil_append]
      rw [Urls.decode_esc (Urls.hexDigit_spec b).1, ih]
      split <;> rfl

theorem escBytes_nil (s : Bytes) : escBytes [] s = s := by
  induction s with
  | nil => rfl
  | cons b s ih => rw [escBytes_cons, ih]; simp

/-- `unquote` of ASCII text decodes the whole text at once. -/
theorem unquoteGo_ascii (acc : Bytes) (s : Str) (h : ∀ c ∈ s, c.toNat < 128) :
    unquoteGo acc s = Utf8.decode (Urls.safeUnquote [] (acc ++ s.map fun c => Utf8.byte c.toNat)) := by
  induction s generalizing acc with
  | nil => simp [unquoteGo]
  | cons c s ih =>
    rw [unquoteGo, if_pos (h c (by simp)), ih _ (fun d hd => h d (by simp [hd]))]
    simp

theorem latin1_bytes (b : Bytes) : (Utf8.latin1 b).map (fun c => Utf8.byte c.toNat) = b := by
  unfold Utf8.latin1
  rw [List.map_map]
  apply map_eq_self.2
  intro x _
  simp only [Function.comp_apply, latin1_char, Utf8.byte_of_toNat]

theorem latin1_low {b : Bytes} (h : ∀ x ∈ b, x.toNat < 128) : ∀ c ∈ Utf8.latin1 b, c.toNat < 128 := by
  intro c hc
  unfold Utf8.latin1 at hc
  simp only [List.mem_map] at hc
  obtain ⟨x, hx, rfl⟩ := hc
  rw [latin1_char]; exact h x hx

/-- The characters of a quoted text. -/
theorem quotePlus_mem {s : Str} {c : Char} (h : c ∈ quotePlus s) :
    c.toNat < 128 ∧ (Urls.alwaysSafe (Utf8.byte c.toNat) = true ∨ c = '%' ∨ c = '+') := by
  unfold quotePlus Utf8.latin1 at h
  simp only [List.map_map, List.mem_map, Function.comp_apply] at h
  obtain ⟨x, hx, rfl⟩ := h
  rw [latin1_char, Utf8.byte_of_toNat]
  split
  · exact ⟨by decide, Or.inr (Or.inr (by decide))⟩
  · rename_i hne
    rcases quote_mem hx with h | h | ⟨h, _⟩
    · exact ⟨alwaysSafe_low h, Or.inl h⟩
    · subst h; exact ⟨by decide, Or.inr (Or.inl (by decide))⟩
    · simp at h; exact absurd h hne

theorem quotePlus_not_mem {s : Str} {c : Char} (hc : c ∈ s%"&;=") : c ∉ quotePlus s := by
  intro h
  have := (quotePlus_mem h).2
  clear h
  revert this
  revert c
  decide

theorem quote_space (s : Bytes) : (43 : UInt8) ∉ Urls.quote [32] s := by
  intro h
  rcases quote_mem h with h | h | ⟨h, _⟩
  · revert h; decide
  · revert h; decide
  · revert h; decide

/-- Reading back a quoted text. -/
theorem unquotePlus_quotePlus (s : Str) : unquotePlus (quotePlus s) = s := by
  have hmap : (quotePlus s).map (fun c => if c = '+' then ' ' else c) = Utf8.latin1 (Urls.quote [32] (Utf8.encode s)) := by
    unfold quotePlus Utf8.latin1
    rw [List.map_map, List.map_map]
    apply List.map_congr_left
    intro x hx
    simp only [Function.comp_apply]
    by_cases h32 : x = 32
    · subst h32; decide
    · rw [if_neg h32, if_neg]
      intro h
      have : x = 43 := by
        have h' := congrArg Char.toNat h
        rw [latin1_char] at h'
        have := Utf8.byte_of_toNat x
        rw [h'] at this
        rw [← this]; decide
      exact quote_space _ (this ▸ hx)
  unfold unquotePlus unquote
  rw [hmap, unquoteGo_ascii, List.nil_append, latin1_bytes, unquote_quote [] [32] (by decide) (by simp),
    escBytes_nil, Utf8.decode_encode]
  apply latin1_low
  intro x hx
  rcases quote_mem hx with h | h | ⟨h, _⟩
  · exact alwaysSafe_low h
  · subst h; decide
  · simp at h; subst h; decide

/-- Reading back a query whose fields are written by any function that keeps delimiters
out and can be undone. -/
theorem parseQsl_enc (enc : Str → Str) (h1 : ∀ s, ∀ c ∈ s%"&;=", c ∉ enc s) (h2 : ∀ s, unquotePlus (enc s) = s)
    (h3 : enc [] = []) (semi : Bool) (pairs : List (Str × Str)) :
    parseQsl semi (join ['&'] (pairs.map fun p => enc p.1 ++ '=' :: enc p.2)) = pairs.filter fun p => p.2 ≠ [] := by
  have hnil : ∀ s, enc s = [] ↔ s = [] := by
    intro s
    constructor
    · intro h
      have := h2 s
      rw [h] at this
      rw [← this]; decide +kernel
    · rintro rfl; exact h3
  have hno : ∀ d ∈ s%"&;", ∀ f ∈ (pairs.map fun p => enc p.1 ++ '=' :: enc p.2), d ∉ f := by
    intro d hd f hf
    simp only [List.mem_map] at hf
    obtain ⟨p, _, rfl⟩ := hf
    have hd' : d ∈ s%"&;=" := by revert d; decide
    simp only [List.mem_append, List.mem_cons, not_or]
    refine ⟨h1 _ _ hd', ?_, h1 _ _ hd'⟩
    revert d; decide
  have hfields : pairs ≠ [] → fields semi (join ['&'] (pairs.map fun p => enc p.1 ++ '=' :: enc p.2)) =
      pairs.map fun p => enc p.1 ++ '=' :: enc p.2 := by
    intro hne
    unfold fields
    rw [splitOn_join _ _ (by simpa using hne) (hno '&' (by decide))]
    generalize (pairs.map fun p => enc p.1 ++ '=' :: enc p.2) = l at hno
    cases semi with
    | false => simp
    | true =>
      simp only [if_true]
      induction l with
      | nil => rfl
      | cons f fs ih =>
        rw [List.flatMap_cons, splitOn_single _ _ (hno ';' (by decide) f (by simp)), ih]
        · rfl
        · intro d hd g hg; exact hno d hd g (by simp [hg])
  by_cases hne : pairs = []
  · subst hne
    have : ∀ b, parseQsl b [] = [] := by decide +kernel
    exact this semi
  · unfold parseQsl
    rw [hfields hne]
    clear hfields hno hne
    induction pairs with
    | nil => rfl
    | cons p ps ih =>
      obtain ⟨k, v⟩ := p
      rw [List.map_cons, List.filterMap_cons, parseField, split1_some _ _ _ (h1 _ _ (by decide)), ih]
      by_cases hv : v = []
      · simp [hv, h3]
      · have : enc v ≠ [] := fun h => hv ((hnil v).1 h)
        simp [this, hv, h2]

theorem parseQsl_urlencode (semi : Bool) (pairs : List (Str × Str)) :
    parseQsl semi (urlencode pairs) = pairs.filter fun p => p.2 ≠ [] :=
  parseQsl_enc quotePlus (fun _ _ hc => quotePlus_not_mem hc) unquotePlus_quotePlus rfl semi pairs

theorem join_mem {sep : Str} {l : List Str} {c : Char} (h : c ∈ join sep l) : c ∈ sep ∨ ∃ p ∈ l, c ∈ p := by
  induction l with
  | nil => simp [join] at h
  | cons x xs ih =>
    cases xs with
    | nil => exact Or.inr ⟨x, by simp, by simpa [join] using h⟩
    | cons y ys =>
      simp only [join, List.mem_append] at h
      rcases h with (h | h) | h
      · exact Or.inr ⟨x, by simp, h⟩
      · exact Or.inl h
      · rcases ih h with h | ⟨p, hp, h⟩
        · exact Or.inl h
        · exact Or.inr ⟨p, by simp [List.mem_cons.1 hp], h⟩

theorem urlencode_mem {pairs : List (Str × Str)} {c : Char} (h : c ∈ urlencode pairs) :
    c.toNat < 128 ∧ (Urls.alwaysSafe (Utf8.byte c.toNat) = true ∨ c ∈ s%"%+=&") := by
  rcases join_mem h with h' | ⟨p, hp, h⟩
  · clear h; revert c; decide
  · simp only [List.mem_map] at hp
    obtain ⟨q, _, rfl⟩ := hp
    have key : ∀ {t : Str}, c ∈ quotePlus t →
        c.toNat < 128 ∧ (Urls.alwaysSafe (Utf8.byte c.toNat) = true ∨ c ∈ s%"%+=&") := by
      intro t ht
      obtain ⟨h1, h2 | rfl | rfl⟩ := quotePlus_mem ht
      · exact ⟨h1, Or.inl h2⟩
      · decide
      · decide
    simp only [List.mem_append, List.mem_cons] at h
    rcases h with h | rfl | h
    · exact key h
    · decide
    · exact key h

theorem dance_ascii {s : Str} (h : ∀ c ∈ s, c.toNat < 128) : decodingDance s = .ok s := by
  unfold decodingDance
  rw [Utf8.toLatin1_ok (fun c hc => by have := h c hc; omega), ← Utf8.encode_ascii h]
  simp [Except.map, Utf8.decode_encode]

/-- **C90, what holds.**  For every list of pairs of texts, the parameters of a request whose
query string is their URL encoding are exactly the pairs whose value is not empty, in order.
Whether the Python in use also splits at `;` makes no difference.  Missing from the full
statement: pairs with empty values. -/
theorem C90_args_partial (semi : Bool) (environ : List (Str × Str)) (pairs : List (Str × Str))
    (h : Dict.get environ s%"QUERY_STRING" = some (urlencode pairs)) :
    argPairs semi environ = .ok (pairs.filter fun p => p.2 ≠ []) := by
  unfold argPairs envText
  rw [h, Option.getD_some, dance_ascii (fun c hc => (urlencode_mem hc).1), ← parseQsl_urlencode semi]

/-- Hence pairs with non-empty values all arrive. -/
theorem C90_args_full_partial (semi : Bool) (environ : List (Str × Str)) (pairs : List (Str × Str))
    (h : Dict.get environ s%"QUERY_STRING" = some (urlencode pairs)) (hv : ∀ p ∈ pairs, p.2 ≠ []) :
    argPairs semi environ = .ok pairs := by
  rw [C90_args_partial semi environ pairs h, List.filter_eq_self.2]
  simpa using hv

/-- **C90 fails** for empty values: a parameter given as `flag=` is not in the parameters. -/
theorem C90_args_false : ∃ (environ : List (Str × Str)) (pairs : List (Str × Str)),
    Dict.get environ s%"QUERY_STRING" = some (urlencode pairs) ∧ argPairs false environ ≠ .ok pairs :=
  ⟨[(s%"QUERY_STRING", s%"flag=")], [(s%"flag", [])], by decide +kernel, by decide +kernel⟩

example : urlencode [(s%"a b", s%"1&2"), (s%"é", []), (s%"c", s%"+=;")] = s%"a+b=1%262&%C3%A9=&c=%2B%3D%3B" := by
  decide +kernel

/-- **C90, reading never fails** for a query string a server may send: anything is read
as some list of pairs with non-empty values. -/
theorem C90_total (semi : Bool) (environ : List (Str × Str))
    (h : ∀ c ∈ envText environ s%"QUERY_STRING", c.toNat < 256) : ∃ l, argPairs semi environ = .ok l := by
  obtain ⟨t, ht⟩ := (C88_reading _).1.1 h
  unfold argPairs
  rw [ht]
  exact ⟨_, rfl⟩

end Verif.Props.ReqUrlP
