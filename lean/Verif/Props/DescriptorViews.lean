import Verif.Props.Descriptors
import Verif.Props.Options
import Verif.Props.Quote
import Verif.Props.HeaderSet
import Verif.Props.Range
import Verif.Props.Auth
import Verif.Props.Cookie
/-! Property theorems C81-C83, C85 and C87: the properties of responses that are live views of a
header, and cookies on responses. -/
namespace Verif.Props.Desc
open Verif Verif.Headers Verif.Spec Verif.Desc Verif.Date Verif.Response Verif.Props.Resp
  Verif.Spec.Calendar Verif.Props.DateP Verif.Quote Verif.Options

/-! ### lemmas -/

theorem legal_join (sep : Str) (hs : LegalValue sep) (l : List Str) (hl : ∀ x ∈ l, LegalValue x) :
    LegalValue (Py.join sep l) := by
  induction l with
  | nil => exact (by decide : LegalValue [])
  | cons a as ih =>
    cases as with
    | nil => exact hl a (by simp)
    | cons b bs =>
      rw [Py.join]
      exact legal_append (legal_append (hl a (by simp)) hs) (ih (fun x hx => hl x (by simp [hx])))

theorem legal_quoteValue (v : Str) (hv : LegalValue v) (e : Str) (b : Bool) : LegalValue (quoteHeaderValue v e b) := by
  unfold quoteHeaderValue
  split
  · exact hv
  · rw [quoteAlways_eq]
    have key : ∀ c : Char, c ≠ '"' → c ≠ '\\' → c ∉ v → c ∉ '"' :: (v.flatMap escChar ++ ['"']) := by
      intro c h1 h2 h3 hm
      simp only [List.mem_cons, List.mem_append, List.mem_flatMap, h1, List.not_mem_nil, or_false,
        false_or] at hm
      obtain ⟨x, hx, hxc⟩ := hm
      unfold escChar at hxc
      split at hxc
      · simp [h1, h2] at hxc
      · split at hxc
        · simp [h1, h2] at hxc
        · simp at hxc; subst hxc; exact h3 hx
    exact ⟨key _ (by decide) (by decide) hv.1, key _ (by decide) (by decide) hv.2⟩

theorem clean_legal (k : Str) (h : OptAux.CleanName k) : LegalValue k :=
  ⟨fun hm => absurd (h.2 _ hm).1 (by decide), fun hm => absurd (h.2 _ hm).1 (by decide)⟩

theorem legal_options (m : Str) (opts : List (Str × Option Str)) (hm : LegalValue m)
    (hk : ∀ kv ∈ opts, OptAux.CleanName kv.1) (hv : ∀ k v, (k, some v) ∈ opts → LegalValue v) :
    LegalValue (dumpOptionsHeader (some m) opts) := by
  unfold dumpOptionsHeader
  apply legal_join _ (by decide)
  intro x hx
  rcases List.mem_append.mp hx with hx | hx
  · simp at hx; rw [hx]; exact hm
  · obtain ⟨⟨k, v⟩, hkv, rfl⟩ := List.mem_map.mp hx
    unfold dumpOption
    cases v with
    | none => exact clean_legal k (hk _ hkv)
    | some v =>
      exact legal_append (legal_append (clean_legal k (hk _ hkv)) (by decide)) (legal_quoteValue v (hv k v hkv) _ _)

theorem strip_clean_name (m : Str) (h : OptAux.CleanName m) : Py.strip m = m :=
  Py.strip_nospace m (fun c hc => (h.2 c hc).1)

theorem takeWhile_stop (m t : Str) (h : ';' ∉ m) : (m ++ ';' :: t).takeWhile (· ≠ ';') = m := by
  induction m with
  | nil => simp
  | cons c cs ih =>
    simp only [List.mem_cons, not_or] at h
    rw [List.cons_append, List.takeWhile_cons, if_pos (by simpa using fun e => h.1 e.symm), ih h.2]

theorem takeWhile_all (m : Str) (h : ';' ∉ m) : m.takeWhile (· ≠ ';') = m := by
  induction m with
  | nil => rfl
  | cons c cs ih =>
    simp only [List.mem_cons, not_or] at h
    rw [List.takeWhile_cons, if_pos (by simpa using fun e => h.1 e.symm), ih h.2]

theorem takeWhile_sep (s : Str) : ';' ∉ s.takeWhile (· ≠ ';') := by
  induction s with
  | nil => simp
  | cons c cs ih =>
    rw [List.takeWhile_cons]
    split
    · rename_i hc
      simp only [List.mem_cons, not_or]
      exact ⟨fun e => by rw [← e] at hc; simp at hc, ih⟩
    · simp

/-! ### C81 -/

/-- Media types that get a charset: text, and XML in its two forms. -/
def Textual (m : Str) : Prop :=
  (∃ r, m = s%"text/" ++ r) ∨ m = s%"application/xml" ∨
    ((∃ r, m = s%"application/" ++ r) ∧ ∃ r, m = r ++ s%"+xml")

theorem contentType_eq (m charset : Str) :
    (Textual m → getContentType m charset = m ++ s%"; charset=" ++ charset) ∧
    (¬ Textual m → getContentType m charset = m) := by
  have key : (s%"text/".isPrefixOf m || m == s%"application/xml" ||
      (s%"application/".isPrefixOf m && s%"+xml".isSuffixOf m)) = true ↔ Textual m := by
    unfold Textual
    rw [Bool.or_eq_true, Bool.or_eq_true, Bool.and_eq_true, List.isPrefixOf_iff_prefix,
      List.isPrefixOf_iff_prefix, List.isSuffixOf_iff_suffix, beq_iff_eq, or_assoc]
    constructor
    · rintro (⟨r, h⟩ | h | ⟨⟨r, h⟩, ⟨r', h'⟩⟩)
      · exact Or.inl ⟨r, h.symm⟩
      · exact Or.inr (Or.inl h)
      · exact Or.inr (Or.inr ⟨⟨r, h.symm⟩, ⟨r', h'.symm⟩⟩)
    · rintro (⟨r, h⟩ | h | ⟨⟨r, h⟩, ⟨r', h'⟩⟩)
      · exact Or.inl ⟨r, h.symm⟩
      · exact Or.inr (Or.inl h)
      · exact Or.inr (Or.inr ⟨⟨r, h.symm⟩, ⟨r', h'.symm⟩⟩)
  unfold getContentType
  constructor
  · intro h; rw [if_pos (key.mpr h)]
  · intro h; rw [if_neg (fun h' => h (key.mp h'))]

/-- C81.  Assigning a media type without line breaks writes it into `Content-Type`, with the charset
of the response for text and XML and without parameters otherwise; other headers are untouched. -/
theorem C81_assign (lower : Str → Str) (hn : Names lower) (h : HList) (charset m : Str)
    (hm : LegalValue m) (hc : LegalValue charset) :
    let r := setMimetype lower charset h m
    r.2 = .ok () ∧ SameOthers lower s%"Content-Type" h r.1 ∧
    (Textual m → getItem lower r.1 s%"content-type" = some (m ++ s%"; charset=" ++ charset)) ∧
    (¬ Textual m → getItem lower r.1 s%"content-type" = some m) := by
  have hl : LegalValue (getContentType m charset) := by
    by_cases ht : Textual m
    · rw [(contentType_eq m charset).1 ht]
      exact legal_append (legal_append hm (by decide)) hc
    · rw [(contentType_eq m charset).2 ht]; exact hm
  unfold setMimetype
  refine ⟨set_ok lower h _ _ hl, sameOthers_set lower h _ _, ?_, ?_⟩
  · intro ht
    rw [getItem_set lower h _ _ _ hl, if_pos (by rw [hn.ctype, hn.ctype']), (contentType_eq m charset).1 ht]
  · intro ht
    rw [getItem_set lower h _ _ _ hl, if_pos (by rw [hn.ctype, hn.ctype']), (contentType_eq m charset).2 ht]

/-- C81.  The media type is read back exactly when it is not empty, has no `;` and no white space
around it.  (Missing from a full round trip: those three cases, where it fails.) -/
theorem C81_roundtrip_partial (lower : Str → Str) (hn : Names lower) (h : HList) (charset m : Str)
    (hm : LegalValue m) (hc : LegalValue charset) :
    getMimetype lower (setMimetype lower charset h m).1 = some m ↔ m ≠ [] ∧ ';' ∉ m ∧ Py.strip m = m := by
  have hA := C81_assign lower hn h charset m hm hc
  simp only at hA
  obtain ⟨_, _, h1, h2⟩ := hA
  unfold getMimetype
  have hsep : ∀ t, Py.strip (t : Str) = m → ';' ∉ t → ';' ∉ m := by
    intro t ht hs hmem
    rw [← ht] at hmem
    exact hs (Py.stripP_mem _ _ _ hmem)
  by_cases ht : Textual m
  · rw [h1 ht]
    have hne : m ≠ [] := by
      rintro rfl
      rcases ht with ⟨r, h⟩ | h | ⟨⟨r, h⟩, _⟩ <;> simp at h
    rw [show m ++ s%"; charset=" ++ charset = m ++ ';' :: (s%" charset=" ++ charset) by simp]
    simp only
    rw [if_neg (by simp)]
    constructor
    · intro he
      have he := Option.some.inj he
      have hs := hsep _ he (takeWhile_sep _)
      rw [takeWhile_stop _ _ hs] at he
      exact ⟨hne, hs, he⟩
    · rintro ⟨_, hs, he⟩
      rw [takeWhile_stop _ _ hs, he]
  · rw [h2 ht]
    simp only
    by_cases hne : m = []
    · simp [hne]
    · rw [if_neg hne]
      constructor
      · intro he
        have he := Option.some.inj he
        have hs := hsep _ he (takeWhile_sep _)
        rw [takeWhile_all _ hs] at he
        exact ⟨hne, hs, he⟩
      · rintro ⟨_, hs, he⟩
        rw [takeWhile_all _ hs, he]

theorem read_canonical (lower : Str → Str) (h : HList) (m : Str) (opts : List (Str × Option Str))
    (hm : OptAux.CleanName m) (hk : ∀ kv ∈ opts, OptAux.CleanName kv.1) (hnd : (opts.map (·.1)).Nodup)
    (hv : ∀ k v, (k, some v) ∈ opts → v ≠ [] ∧ (k = s%"filename" → v.head? ≠ some '\\'))
    (hct : getItem lower h s%"content-type" = some (dumpOptionsHeader (some m) opts)) :
    getMimetype lower h = some m ∧ mimetypeParams lower h = .ok opts := by
  constructor
  · unfold getMimetype
    rw [hct]
    simp only
    have hs : ';' ∉ m := fun hm' => (hm.2 _ hm').2.1 rfl
    unfold dumpOptionsHeader
    cases opts with
    | nil =>
      simp only [Option.toList_some, List.map_nil, List.append_nil, Py.join]
      rw [if_neg hm.1, takeWhile_all m hs, strip_clean_name m hm]
    | cons o os =>
      simp only [Option.toList_some, List.map_cons, List.singleton_append, Py.join]
      rw [List.append_assoc, show s%"; " ++ Py.join s%"; " (dumpOption o :: os.map dumpOption) =
        ';' :: (' ' :: Py.join s%"; " (dumpOption o :: os.map dumpOption)) from rfl]
      rw [if_neg (by simp), takeWhile_stop m _ hs, strip_clean_name m hm]
  · unfold mimetypeParams
    rw [hct]
    simp only [Option.getD_some]
    rw [(C05_roundtrip_partial m opts hm hk hnd).mpr hv]

/-- C81.  On a response whose `Content-Type` is a media type with parameters as the library writes
them, assigning a parameter keeps the media type and the other parameters and is read back.
(Missing: content types not written by the library, and the cases of the refutation.) -/
theorem C81_params_partial (lower : Str → Str) (hn : Names lower) (h : HList) (m : Str)
    (opts : List (Str × Option Str)) (k v : Str) (hm : OptAux.CleanName m)
    (hk : ∀ kv ∈ opts, OptAux.CleanName kv.1) (hnd : (opts.map (·.1)).Nodup)
    (hv : ∀ k v, (k, some v) ∈ opts → v ≠ [] ∧ (k = s%"filename" → v.head? ≠ some '\\'))
    (hct : getItem lower h s%"content-type" = some (dumpOptionsHeader (some m) opts))
    (hvl : ∀ k v, (k, some v) ∈ opts → LegalValue v)
    (hk' : OptAux.CleanName k) (hv' : v ≠ [] ∧ (k = s%"filename" → v.head? ≠ some '\\')) (hvl' : LegalValue v) :
    let r := setParam lower h k v
    r.2 = .ok () ∧ getMimetype lower r.1 = some m ∧ SameOthers lower s%"Content-Type" h r.1 ∧
    ∃ d, mimetypeParams lower r.1 = .ok d ∧ (d.map (·.1)).Nodup ∧
      ∀ x, d.lookup x = if x = k then some (some v) else opts.lookup x := by
  obtain ⟨h1, h2⟩ := read_canonical lower h m opts hm hk hnd hv hct
  obtain ⟨hnd', hmem⟩ := keys_dictSet opts k (some v) hnd
  have hkk : ∀ kv ∈ dictSet opts k (some v), OptAux.CleanName kv.1 := by
    intro kv hkv
    rcases hmem kv hkv with rfl | h
    · exact hk'
    · exact hk kv h
  have hvv : ∀ k₁ v₁, (k₁, some v₁) ∈ dictSet opts k (some v) →
      (v₁ ≠ [] ∧ (k₁ = s%"filename" → v₁.head? ≠ some '\\')) ∧ LegalValue v₁ := by
    intro k₁ v₁ hkv
    rcases hmem _ hkv with h | h
    · cases h; exact ⟨hv', hvl'⟩
    · exact ⟨hv _ _ h, hvl _ _ h⟩
  have hl := legal_options m (dictSet opts k (some v)) (clean_legal m hm) hkk (fun a b c => (hvv a b c).2)
  have he : setParam lower h k v =
      Headers.set lower h s%"Content-Type" (dumpOptionsHeader (some m) (dictSet opts k (some v))) [] := by
    unfold setParam
    simp only [h2, paramsUpdate, h1]
  have hg : getItem lower (setParam lower h k v).1 s%"content-type" =
      some (dumpOptionsHeader (some m) (dictSet opts k (some v))) := by
    rw [he, getItem_set lower h _ _ _ hl, if_pos (by rw [hn.ctype, hn.ctype'])]
  obtain ⟨h3, h4⟩ := read_canonical lower _ m _ hm hkk hnd' (fun a b c => (hvv a b c).1) hg
  refine ⟨by rw [he]; exact set_ok lower h _ _ hl, h3, by rw [he]; exact sameOthers_set lower h _ _, _, h4, hnd', ?_⟩
  intro x
  exact lookup_dictSet opts k (some v) x

theorem lookup_filter (d : List (Str × Option Str)) (k x : Str) :
    (d.filter (fun p => decide (p.1 ≠ k))).lookup x = if x = k then none else d.lookup x := by
  induction d with
  | nil => simp
  | cons p d ih =>
    obtain ⟨a, b⟩ := p
    rw [List.filter_cons]
    by_cases ha : a = k
    · subst ha
      simp only [ne_eq, not_true, decide_false, Bool.false_eq_true, if_false, ih]
      by_cases hx : x = a
      · simp [hx]
      · rw [if_neg hx, if_neg hx, List.lookup_cons]
        have : (x == a) = false := by simpa using hx
        rw [this]
    · simp only [ne_eq, ha, not_false_eq_true, decide_true, if_true, List.lookup_cons, ih]
      by_cases hx : x = a
      · subst hx
        simp [ha]
      · have : (x == a) = false := by simpa using hx
        rw [this]

/-- C81.  Deleting a parameter keeps the media type and the other parameters; one that is not
there is refused, with nothing changed.  (Missing: as above.) -/
theorem C81_delete_partial (lower : Str → Str) (hn : Names lower) (h : HList) (m : Str)
    (opts : List (Str × Option Str)) (k : Str) (hm : OptAux.CleanName m)
    (hk : ∀ kv ∈ opts, OptAux.CleanName kv.1) (hnd : (opts.map (·.1)).Nodup)
    (hv : ∀ k v, (k, some v) ∈ opts → v ≠ [] ∧ (k = s%"filename" → v.head? ≠ some '\\'))
    (hct : getItem lower h s%"content-type" = some (dumpOptionsHeader (some m) opts))
    (hvl : ∀ k v, (k, some v) ∈ opts → LegalValue v) :
    let r := delParam lower h k
    (k ∉ opts.map (·.1) → r = (h, .error .keyError)) ∧
    (k ∈ opts.map (·.1) → r.2 = .ok () ∧ getMimetype lower r.1 = some m ∧ SameOthers lower s%"Content-Type" h r.1 ∧
      ∃ d, mimetypeParams lower r.1 = .ok d ∧ (d.map (·.1)).Nodup ∧
        ∀ x, d.lookup x = if x = k then none else opts.lookup x) := by
  obtain ⟨h1, h2⟩ := read_canonical lower h m opts hm hk hnd hv hct
  have hany : opts.any (fun p => decide (p.1 = k)) = true ↔ k ∈ opts.map (·.1) := by
    simp only [List.any_eq_true, decide_eq_true_eq, List.mem_map]
  intro r
  constructor
  · intro hk0
    show delParam lower h k = _
    unfold delParam
    simp only [h2]
    rw [if_neg (fun h => hk0 (hany.1 h))]
  · intro hk0
    have hsub : ∀ kv ∈ opts.filter (fun p => decide (p.1 ≠ k)), kv ∈ opts := fun kv hkv => (List.mem_filter.1 hkv).1
    have hnd' : ((opts.filter (fun p => decide (p.1 ≠ k))).map (·.1)).Nodup :=
      List.Nodup.sublist (List.Sublist.map _ List.filter_sublist) hnd
    have hl := legal_options m (opts.filter (fun p => decide (p.1 ≠ k))) (clean_legal m hm) (fun kv hkv => hk kv (hsub kv hkv))
      (fun a b c => hvl a b (hsub _ c))
    have he : delParam lower h k =
        Headers.set lower h s%"Content-Type" (dumpOptionsHeader (some m) (opts.filter (fun p => decide (p.1 ≠ k)))) [] := by
      unfold delParam
      simp only [h2]
      rw [if_pos (hany.2 hk0)]
      simp only [paramsUpdate, h1]
    have hg : getItem lower (delParam lower h k).1 s%"content-type" =
        some (dumpOptionsHeader (some m) (opts.filter (fun p => decide (p.1 ≠ k)))) := by
      rw [he, getItem_set lower h _ _ _ hl, if_pos (by rw [hn.ctype, hn.ctype'])]
    obtain ⟨h3, h4⟩ := read_canonical lower _ m _ hm (fun kv hkv => hk kv (hsub kv hkv)) hnd' (fun a b c => hv a b (hsub _ c)) hg
    exact ⟨by show (delParam lower h k).2 = _; rw [he]; exact set_ok lower h _ _ hl, h3,
      by show SameOthers _ _ _ (delParam lower h k).1; rw [he]; exact sameOthers_set lower h _ _, _, h4, hnd', lookup_filter opts k⟩

example : (delParam asciiLower [(s%"content-type", s%"text/html; charset=utf-8; a=b")] s%"charset").1 =
    [(s%"Content-Type", s%"text/html; a=b")] ∧
    (delParam asciiLower [(s%"content-type", s%"text/html; charset=utf-8; a=b")] s%"b").2 = .error .keyError :=
  ⟨by decide +kernel, by rfl⟩

/-- C81 (refutation).  Without a `Content-Type`, assigning a parameter makes the parameter the
media type. -/
theorem C81_params_false :
    (setParam asciiLower [] s%"charset" s%"utf-8").1 = [(s%"Content-Type", s%"charset=utf-8")] ∧
    getMimetype asciiLower (setParam asciiLower [] s%"charset" s%"utf-8").1 = some s%"charset=utf-8" ∧
    mimetypeParams asciiLower (setParam asciiLower [] s%"charset" s%"utf-8").1 = .ok [] := by
  decide +kernel

example : (setParam asciiLower [(s%"content-type", s%"text/html; charset=utf-8; a=b")] s%"charset" s%"x y").1 =
    [(s%"Content-Type", s%"text/html; charset=\"x y\"; a=b")] := by decide +kernel
example : Textual s%"application/atom+xml" :=
  Or.inr (Or.inr ⟨⟨s%"atom+xml", by decide⟩, ⟨s%"application/atom", by decide⟩⟩)
example : (setMimetype asciiLower s%"utf-8" [] s%"text/html").1 =
    [(s%"Content-Type", s%"text/html; charset=utf-8")] := by decide

/-! ### C82 -/

/-- Names that survive being written into a list header: no line breaks, not empty and not quoted
at both ends. -/
def ListItem (x : Str) : Prop := LegalValue x ∧ x ≠ [] ∧ ¬ (x.head? = some '"' ∧ x.getLast? = some '"')

theorem parse_items (xs : List Str) (hx : ∀ x ∈ xs, ListItem x) : parseListHeader (dumpHeaderList xs) = xs := by
  rw [C03_list_roundtrip_partial]
  refine ⟨fun v hv => (hx v hv).2.2, ?_⟩
  rintro ⟨rfl, _⟩
  exact (hx [] (by simp)).2.1 rfl

theorem legal_items (xs : List Str) (hx : ∀ x ∈ xs, ListItem x) : LegalValue (dumpHeaderList xs) := by
  unfold dumpHeaderList
  apply legal_join _ (by decide)
  intro x hxm
  obtain ⟨y, hy, rfl⟩ := List.mem_map.mp hxm
  exact legal_quoteValue y (hx y hy).1 _ _

/-- C82.  Assigning a list of names and reading the property gives the names in that order; an
empty list removes the header; other headers are untouched. -/
theorem C82_assign (lower : Str → Str) (h : HList) (name : Str) (xs : List Str) (hx : ∀ x ∈ xs, ListItem x) :
    let r := assignSet lower h name (.names xs)
    r.2 = .ok () ∧ (setView lower r.1 name).headers = xs ∧ SameOthers lower name h r.1 ∧
    (xs = [] → getlist lower r.1 name = []) ∧
    ∀ y, HeaderSet.contains lower (setView lower r.1 name) y = true ↔ ∃ x ∈ xs, lower x = lower y := by
  have hcont : ∀ (l : List Str) y, HeaderSet.contains lower (HeaderSet.init lower l) y = true ↔
      ∃ x ∈ l, lower x = lower y := by
    intro l y
    have : ∀ (l : List Str) (acc : List Str), lower y ∈ l.foldl (fun s x => HeaderSet.setAdd s (lower x)) acc ↔
        lower y ∈ acc ∨ ∃ x ∈ l, lower x = lower y := by
      intro l
      induction l with
      | nil => simp
      | cons a as ih =>
        intro acc
        rw [List.foldl_cons, ih]
        unfold HeaderSet.setAdd
        split
        · rename_i hc
          simp only [List.mem_cons, exists_eq_or_imp]
          constructor
          · rintro (h | h)
            · exact Or.inl h
            · exact Or.inr (Or.inr h)
          · rintro (h | h | h)
            · exact Or.inl h
            · left; rw [← h]; simpa using hc
            · exact Or.inr h
        · simp only [List.mem_append, List.mem_cons, List.not_mem_nil, or_false, exists_eq_or_imp, or_assoc]
          rw [eq_comm (a := lower y)]
    unfold HeaderSet.contains HeaderSet.init
    simp only [List.contains_iff_mem]
    rw [this l []]
    simp
  have hview : (assignSet lower h name (.names xs)).2 = .ok () ∧
      setView lower (assignSet lower h name (.names xs)).1 name = HeaderSet.init lower xs ∧
      SameOthers lower name h (assignSet lower h name (.names xs)).1 ∧
      (xs = [] → getlist lower (assignSet lower h name (.names xs)).1 name = []) := by
    unfold setView assignSet
    by_cases he : xs = []
    · subst he
      simp only [if_true]
      refine ⟨trivial, ?_, sameOthers_del lower h name, fun _ => by rw [getlist_delKey, if_pos rfl]⟩
      rw [getItem_del, if_pos rfl]
      rfl
    · simp only [if_neg he]
      refine ⟨set_ok lower h _ _ (legal_items xs hx), ?_, sameOthers_set lower h _ _, fun h => absurd h he⟩
      rw [getItem_set lower h _ _ _ (legal_items xs hx), if_pos rfl, Option.getD_some, parse_items xs hx]
  simp only
  rw [hview.2.1]
  exact ⟨hview.1, rfl, hview.2.2.1, hview.2.2.2, hcont xs⟩

/-- C82, assigning a text: it becomes the one value of the header, the empty text removes the
header, and a text with a line break is refused and changes nothing. -/
theorem C82_assign_text (lower : Str → Str) (h : HList) (name s : Str) :
    let r := assignSet lower h name (.text s)
    ('\n' ∉ s ∧ '\r' ∉ s → r.2 = .ok () ∧ getlist lower r.1 name = (if s = [] then [] else [s]) ∧ SameOthers lower name h r.1) ∧
    (¬ ('\n' ∉ s ∧ '\r' ∉ s) → r = (h, .error .valueError)) := by
  simp only
  unfold assignSet
  by_cases he : s = []
  · subst he
    simp only [if_true]
    exact ⟨fun _ => ⟨trivial, by rw [getlist_delKey, if_pos rfl], sameOthers_del lower h name⟩, fun hn => absurd ⟨by simp, by simp⟩ hn⟩
  · simp only [if_neg he]
    exact ⟨fun hl => ⟨set_ok lower h _ _ hl, by rw [getlist_set _ _ _ _ _ hl, if_pos rfl], sameOthers_set lower h _ _⟩,
      fun hn => set_bad lower h name s hn⟩

example : assignSet asciiLower [(s%"vary", s%"Accept"), (s%"A", s%"b")] s%"Vary" (.text []) = ([(s%"A", s%"b")], .ok ()) ∧
    assignSet asciiLower [(s%"vary", s%"Accept")] s%"Vary" (.text s%"*") = ([(s%"Vary", s%"*")], .ok ()) := by decide +kernel

/-- The names a call may add. -/
def addedNames : HeaderSet.Op → List Str
  | .add x => [x]
  | .update xs => xs
  | .setIdx _ v => [v]
  | _ => []

theorem headers_updateOne (lower : Str → Str) (xs : List Str) (s : HeaderSet.HS × Bool) :
    ∀ y ∈ (xs.foldl (HeaderSet.updateOne lower) s).1.headers, y ∈ s.1.headers ∨ y ∈ xs := by
  induction xs generalizing s with
  | nil => intro y hy; exact Or.inl hy
  | cons x xs ih =>
    intro y hy
    rcases ih _ y hy with h | h
    · unfold HeaderSet.updateOne at h
      split at h
      · exact Or.inl h
      · simp only [List.mem_append, List.mem_singleton] at h
        rcases h with h | rfl
        · exact Or.inl h
        · exact Or.inr (by simp)
    · exact Or.inr (by simp [h])

theorem removeLoop_sub (lower : Str → Str) (x : Str) (l : List Str) : ∀ y ∈ HeaderSet.removeLoop lower x l, y ∈ l := by
  induction l with
  | nil => simp [HeaderSet.removeLoop]
  | cons a as ih =>
    intro y hy
    unfold HeaderSet.removeLoop at hy
    split at hy
    · simp [hy]
    · rcases List.mem_cons.mp hy with rfl | hy
      · simp
      · simp [ih y hy]

theorem headers_step (lower : Str → Str) (s : HeaderSet.HS) (op : HeaderSet.Op) :
    ∀ y ∈ (HeaderSet.step lower s op).headers, y ∈ s.headers ∨ y ∈ addedNames op := by
  have hrem : ∀ x, ∀ y ∈ (HeaderSet.remove lower s x).1.headers, y ∈ s.headers := by
    intro x y hy
    unfold HeaderSet.remove at hy
    split at hy
    · exact removeLoop_sub lower x _ y hy
    · exact hy
  cases op with
  | add x => exact headers_updateOne lower [x] (s, false)
  | remove x => exact fun y hy => Or.inl (hrem x y hy)
  | discard x => exact fun y hy => Or.inl (hrem x y hy)
  | update xs => exact headers_updateOne lower xs (s, false)
  | delIdx i =>
    intro y hy
    left
    simp only [HeaderSet.step, HeaderSet.delIdx] at hy
    split at hy
    · exact hy
    · split at hy
      · exact List.mem_of_mem_eraseIdx hy
      · exact List.mem_of_mem_eraseIdx hy
  | setIdx i v =>
    intro y hy
    simp only [HeaderSet.step, HeaderSet.setIdx] at hy
    split at hy
    · exact Or.inl hy
    · split at hy
      · rcases List.mem_or_eq_of_mem_set hy with h | h
        · exact Or.inl h
        · exact Or.inr (by simp [addedNames, h])
      · exact Or.inl hy
  | clear => intro y hy; simp [HeaderSet.step] at hy

theorem silent_step (lower : Str → Str) (s : HeaderSet.HS) (op : HeaderSet.Op) (hc : HSet.Coherent lower s)
    (hn : HeaderSet.notifies lower s op = false) : HeaderSet.step lower s op = s := by
  by_cases hd : ∃ i, op = .delIdx i
  · obtain ⟨i, rfl⟩ := hd
    simp only [HeaderSet.notifies, HeaderSet.delIdx] at hn
    simp only [HeaderSet.step, HeaderSet.delIdx]
    split at hn
    · rfl
    · rename_i rv hi
      split at hn
      · simp [Except.toOption] at hn
      · rename_i hx
        exfalso
        apply hx
        rw [List.contains_iff_mem, hc.1]
        exact List.mem_map_of_mem (List.mem_of_getElem? hi)
  · exact C66_notified_on_change lower s op hn (fun i hi => hd ⟨i, hi⟩)

theorem init_coherent (lower : Str → Str) (s : HeaderSet.HS) (hc : HSet.Coherent lower s) :
    HeaderSet.init lower s.headers = s := by
  have h1 := HSet.coherent_init lower s.headers hc.2
  cases s with
  | mk a b =>
    have e1 : (HeaderSet.init lower a).set = a.map lower := h1.1
    have e2 : b = a.map lower := hc.1
    have e3 : HeaderSet.init lower a = ⟨a, (HeaderSet.init lower a).set⟩ := rfl
    simp only
    rw [e3, e1, e2]

/-- C82.  Whatever is done to the set obtained from the property (adding, updating, clearing,
deleting by position, and removing or discarding names given in lower case), reading the property
again gives the same set, and the headers of other names are untouched.  The names of the header at
first are distinct up to case.  (Missing: removal with an argument that is not in lower case, where
the claim is false, and assignment by position.) -/
theorem C82_live_partial (lower : Str → Str) (name : Str) (h : HList)
    (hd : ((setView lower h name).headers.map lower).Nodup)
    (hi : ∀ x ∈ (setView lower h name).headers, ListItem x) (ops : List HeaderSet.Op)
    (ho : ∀ op ∈ ops, HSet.SafeCall lower op ∧ ∀ x ∈ addedNames op, ListItem x) :
    let r := ops.foldl (setCall lower name) (h, setView lower h name)
    setView lower r.1 name = r.2 ∧ r.2 = HeaderSet.run lower (setView lower h name) ops ∧
      SameOthers lower name h r.1 := by
  have key : ∀ (ops : List HeaderSet.Op) (g : HList) (s : HeaderSet.HS), setView lower g name = s →
      HSet.Coherent lower s → (∀ x ∈ s.headers, ListItem x) →
      (∀ op ∈ ops, HSet.SafeCall lower op ∧ ∀ x ∈ addedNames op, ListItem x) →
      setView lower (ops.foldl (setCall lower name) (g, s)).1 name = (ops.foldl (setCall lower name) (g, s)).2 ∧
      (ops.foldl (setCall lower name) (g, s)).2 = HeaderSet.run lower s ops ∧
      SameOthers lower name g (ops.foldl (setCall lower name) (g, s)).1 := by
    intro ops
    induction ops with
    | nil => intro g s hv hc hi _; exact ⟨hv, rfl, rfl⟩
    | cons op ops ih =>
      intro g s hv hc hi ho
      obtain ⟨hs, ha⟩ := ho op (by simp)
      have hc' := HSet.coherent_step lower s op hs hc
      have hi' : ∀ x ∈ (HeaderSet.step lower s op).headers, ListItem x := by
        intro x hx
        rcases headers_step lower s op x hx with h | h
        · exact hi x h
        · exact ha x h
      have hstep : setView lower (setCall lower name (g, s) op).1 name = HeaderSet.step lower s op ∧
          SameOthers lower name g (setCall lower name (g, s) op).1 := by
        unfold setCall
        simp only
        cases hn : HeaderSet.notifies lower s op with
        | false => simp only [Bool.false_eq_true, if_false]; rw [silent_step lower s op hc hn]; exact ⟨hv, rfl⟩
        | true =>
          simp only [if_true]
          obtain ⟨s', hs'⟩ : ∃ s', s' = HeaderSet.step lower s op := ⟨_, rfl⟩
          rw [← hs'] at hc' hi' ⊢
          have hlen : HeaderSet.len s' = s'.headers.length := by
            unfold HeaderSet.len; rw [hc'.1, List.length_map]
          have hinit := init_coherent lower s' hc'
          unfold setUpdate
          rw [hlen]
          by_cases he : s'.headers = []
          · rw [if_pos (by simp [he])]
            have hempty : HeaderSet.init lower [] = s' := by rw [← hinit, he]
            by_cases hcn : contains lower g name = true
            · simp only [hcn, if_true]
              refine ⟨?_, sameOthers_del lower g name⟩
              unfold setView
              rw [getItem_del, if_pos rfl]
              exact hempty
            · rw [if_neg hcn]
              refine ⟨?_, rfl⟩
              unfold setView
              have : getItem lower g name = none := by
                unfold contains at hcn
                simpa using hcn
              rw [this]
              exact hempty
          · rw [if_neg (by simpa using he)]
            have hto : HeaderSet.toHeader s' = dumpHeaderList s'.headers := rfl
            rw [hto]
            refine ⟨?_, sameOthers_set lower g _ _⟩
            unfold setView
            rw [getItem_set lower g _ _ _ (legal_items _ hi'), if_pos rfl, Option.getD_some, parse_items _ hi']
            exact hinit
      obtain ⟨i1, i2, i3⟩ := ih _ _ hstep.1 hc' hi' (fun o h => ho o (by simp [h]))
      rw [List.foldl_cons]
      have e : setCall lower name (g, s) op = ((setCall lower name (g, s) op).1, HeaderSet.step lower s op) := rfl
      rw [e]
      refine ⟨i1, i2, ?_⟩
      have := hstep.2
      unfold SameOthers at *
      rw [i3, this]
  have hc0 : HSet.Coherent lower (setView lower h name) := HSet.coherent_init lower _ hd
  exact key ops h _ rfl hc0 hi ho

/-- C82 (refutation).  Removing a name with a capital letter from the set leaves it in the
header. -/
theorem C82_live_false :
    let h := [(s%"Vary", s%"Foo, Bar")]
    let r := setCall asciiLower s%"Vary" (h, setView asciiLower h s%"Vary") (.remove s%"Foo")
    HeaderSet.contains asciiLower r.2 s%"Foo" = false ∧ r.1 = h ∧
      HeaderSet.contains asciiLower (setView asciiLower r.1 s%"Vary") s%"Foo" = true := by decide +kernel

example : ([.add s%"Cookie", .remove s%"accept"].foldl (setCall asciiLower s%"Vary")
    ([(s%"vary", s%"Accept")], setView asciiLower [(s%"vary", s%"Accept")] s%"Vary")).1 =
    [(s%"Vary", s%"Cookie")] := by decide +kernel
example : ListItem s%"Accept-Encoding" := ⟨by decide, by decide, by decide⟩

/-! ### C83 -/

theorem takeWhile_mem (p : Char → Bool) (s : Str) : ∀ c ∈ s.takeWhile p, p c = true := by
  induction s with
  | nil => simp
  | cons a as ih =>
    intro c hc
    rw [List.takeWhile_cons] at hc
    split at hc
    · rename_i ha
      rcases List.mem_cons.mp hc with rfl | hc
      · exact ha
      · exact ih c hc
    · simp at hc

theorem range_words (v u r : Str) (h : Range.splitWs1 v = some (u, r)) :
    u ≠ [] ∧ ∀ c ∈ u, Py.isSpace c = false := by
  unfold Range.splitWs1 at h
  simp only at h
  split at h
  · cases h
  · rename_i hr
    simp only [Option.some.injEq, Prod.mk.injEq] at h
    obtain ⟨rfl, _⟩ := h
    refine ⟨?_, ?_⟩
    · cases hl : Py.lstrip v with
      | nil => rw [hl] at hr; exact absurd rfl hr
      | cons a as =>
        have ha : Py.isSpace a = false := Py.lstripP_head Py.isSpace v a (by
          show (Py.lstrip v).head? = some a
          rw [hl]; rfl)
        rw [List.takeWhile_cons, if_pos (by rw [ha]; rfl)]
        simp
    · intro c hc
      have := takeWhile_mem _ _ c hc
      simpa using this

theorem range_parsed (v : Str) (c : Range.ContentRange) (h : Range.parseContentRangeHeader v = .ok (some c)) :
    ∃ u, c.units = some u ∧ u ≠ [] ∧ (∀ x ∈ u, Py.isSpace x = false) ∧
      ValidContentRange c.start c.stop c.length := by
  have hv := C15_parsed_valid v c h
  have hmap : ∀ u a b l, (Range.ContentRange.mk? u a b l).map some = .ok (some c) → c.units = u := by
    intro u a b l h
    unfold Range.ContentRange.mk? at h
    split at h
    · simp [Except.map] at h; rw [← h]
    · simp [Except.map] at h
  unfold Range.parseContentRangeHeader at h
  cases hs : Range.splitWs1 (Py.strip v) with
  | none => rw [hs] at h; simp at h
  | some ur =>
    obtain ⟨u, r⟩ := ur
    rw [hs] at h
    simp only at h
    have hw := range_words _ _ _ hs
    refine ⟨u, ?_, hw.1, hw.2, hv⟩
    split at h
    · simp at h
    · rename_i rng lt _
      have hgo : ∀ l, (if rng = s%"*" then (Range.ContentRange.mk? (some u) none none l).map some
          else match Py.split1 '-' rng with
          | (_, none) => .ok none
          | (startText, some stopText) =>
            match Py.intOf startText, Py.intOf stopText with
            | .ok start, .ok stop =>
              if Range.isByteRangeValid (some start) (some (stop + 1)) l then
                (Range.ContentRange.mk? (some u) (some start) (some (stop + 1)) l).map some
              else .ok none
            | _, _ => .ok none) = .ok (some c) → c.units = some u := by
        intro l h
        split at h
        · exact hmap _ _ _ _ h
        · split at h
          · simp at h
          · split at h
            · split at h
              · exact hmap _ _ _ _ h
              · simp at h
            · simp at h
      split at h
      · exact hgo _ h
      · split at h
        · split at h
          · exact hgo _ h
          · simp at h
        · simp at h

theorem legal_nospace (u : Str) (h : ∀ c ∈ u, Py.isSpace c = false) : LegalValue u :=
  ⟨fun hm => absurd (h _ hm) (by decide), fun hm => absurd (h _ hm) (by decide)⟩

theorem legal_rangeText (c : Range.ContentRange) (u t : Str) (hu : c.units = some u)
    (hs : ∀ x ∈ u, Py.isSpace x = false) (ht : c.toHeader = some t) : LegalValue t := by
  unfold Range.ContentRange.toHeader at ht
  rw [hu] at ht
  simp only at ht
  have hl : LegalValue (match c.length with
      | none => s%"*"
      | some l => Py.intStr l) := by
    cases c.length with
    | none => exact (by decide : LegalValue s%"*")
    | some l => exact legal_intStr l
  split at ht
  · cases ht
    exact legal_append (legal_append (legal_nospace u hs) (by decide)) hl
  · split at ht
    · cases ht
    · cases ht
      exact legal_append (legal_append (legal_append (legal_append (legal_append (legal_append (legal_nospace u hs)
        (by decide)) (legal_intStr _)) (by decide)) (legal_intStr _)) (by decide)) hl

theorem range_canonical (lower : Str → Str) (hn : Names lower) (h : HList) (u : Str) (a b l : Option Int)
    (hu : u ≠ []) (hs : ∀ x ∈ u, Py.isSpace x = false) (hv : ValidContentRange a b l) :
    ∃ t, Range.ContentRange.toHeader ⟨some u, a, b, l⟩ = some t ∧
      rangeUpdate lower h ⟨some u, a, b, l⟩ = ((Headers.set lower h s%"Content-Range" t []).1, .ok ()) ∧
      LegalValue t ∧ Range.parseContentRangeHeader t = .ok (some ⟨some u, a, b, l⟩) := by
  obtain ⟨t, h1, h2⟩ := C15_content_range_roundtrip u a b l hs hu hv
  have hl := legal_rangeText ⟨some u, a, b, l⟩ u t rfl hs h1
  refine ⟨t, h1, ?_, hl, h2⟩
  unfold rangeUpdate
  simp only [h1]
  have := set_ok lower h s%"Content-Range" t hl
  rw [← this]

theorem first_match {α : Type} (P : α → Prop) (a a' : List α) (x x' : α) (b b' : List α)
    (ha : ∀ q ∈ a, ¬ P q) (ha' : ∀ q ∈ a', ¬ P q) (hx : P x) (hx' : P x') (e : a ++ x :: b = a' ++ x' :: b') :
    a = a' ∧ x = x' ∧ b = b' := by
  induction a generalizing a' with
  | nil =>
    cases a' with
    | nil => simpa using e
    | cons q qs => simp only [List.nil_append, List.cons_append, List.cons.injEq] at e; exact absurd (e.1 ▸ hx) (ha' q (by simp))
  | cons q qs ih =>
    cases a' with
    | nil => simp only [List.nil_append, List.cons_append, List.cons.injEq] at e; exact absurd (e.1 ▸ hx') (ha q (by simp))
    | cons r rs =>
      simp only [List.cons_append, List.cons.injEq] at e
      obtain ⟨h1, h2, h3⟩ := ih rs (fun y hy => ha y (by simp [hy])) (fun y hy => ha' y (by simp [hy])) e.2
      exact ⟨by rw [e.1, h1], h2, h3⟩

/-- Setting a header to the value it has alone changes nothing. -/
theorem set_same (lower : Str → Str) (h : HList) (k v : Str) (hv : LegalValue v) :
    (Headers.set lower (Headers.set lower h k v []).1 k v []).1 = (Headers.set lower h k v []).1 := by
  have hv' : LegalValue (effValue v []) := by simpa [effValue] using hv
  have he : effValue v [] = v := by simp [effValue]
  have fixed : ∀ (pre post : HList), (∀ q ∈ pre, lower q.1 ≠ lower k) → (∀ q ∈ post, lower q.1 ≠ lower k) →
      (Headers.set lower (pre ++ (k, v) :: post) k v []).1 = pre ++ (k, v) :: post := by
    intro pre post h1 h2
    rcases set_legal lower (pre ++ (k, v) :: post) k v [] hv' with ⟨hx, _⟩ | ⟨pre', p', post', e1, e2, e3, e4⟩
    · exact absurd rfl (hx (k, v) (by simp))
    · obtain ⟨rfl, _, rfl⟩ := first_match (fun q : Str × Str => lower q.1 = lower k) pre pre' (k, v) p' post post' h1 e2 rfl e3 e1
      rw [e4, he]
      simp only [List.append_cancel_left_eq, List.cons.injEq, true_and]
      rw [List.filter_eq_self]
      intro q hq
      simpa using h2 q hq
  rcases set_legal lower h k v [] hv' with ⟨hx, e⟩ | ⟨pre, p, post, _, e2, _, e4⟩
  · rw [e, he]
    exact fixed h [] hx (by simp)
  · rw [e4, he]
    apply fixed pre _ e2
    intro q hq
    have := (List.mem_filter.mp hq).2
    simpa using this

/-- C83.  A range written through the property is read back, and reading it leaves the headers as
they are; other headers are untouched. -/
theorem C83_set_read (lower : Str → Str) (hn : Names lower) (h : HList) (c : Range.ContentRange) (u : Str)
    (a b l : Option Int) (hu : u ≠ []) (hs : ∀ x ∈ u, Py.isSpace x = false) (hv : ValidContentRange a b l) :
    let r := rangeCall lower h c (.set a b l (some u))
    r.2.2 = .ok () ∧ r.2.1 = ⟨some u, a, b, l⟩ ∧ readRange lower r.1 = (r.1, .ok ⟨some u, a, b, l⟩) ∧
      SameOthers lower s%"Content-Range" h r.1 := by
  obtain ⟨t, h1, h2, h3, h4⟩ := range_canonical lower hn h u a b l hu hs hv
  have hmk : Range.ContentRange.mk? (some u) a b l = .ok ⟨some u, a, b, l⟩ := (RangeAux.mk_ok ..).mpr ⟨hv, rfl⟩
  have hcall : rangeCall lower h c (.set a b l (some u)) =
      ((Headers.set lower h s%"Content-Range" t []).1, ⟨some u, a, b, l⟩, .ok ()) := by
    simp only [rangeCall, Range.ContentRange.step, hmk, h2]
  rw [hcall]
  refine ⟨rfl, rfl, ?_, sameOthers_set lower h _ _⟩
  have hread : ∀ g, g = (Headers.set lower h s%"Content-Range" t []).1 →
      readRange lower g = (g, .ok ⟨some u, a, b, l⟩) := by
    intro g hg
    have hi : getItem lower g s%"content-range" = some t := by
      rw [hg, getItem_set lower h _ _ _ h3, if_pos (by rw [hn.crange, hn.crange'])]
    obtain ⟨t', h1', h2', _⟩ := range_canonical lower hn g u a b l hu hs hv
    rw [h1] at h1'
    cases h1'
    unfold readRange
    simp only [hi, h4, h2']
    rw [hg, set_same lower h _ t h3]
  exact hread _ rfl

/-- C83.  Arguments that are no range are refused and nothing changes. -/
theorem C83_rejects (lower : Str → Str) (h : HList) (c : Range.ContentRange) (u : Option Str)
    (a b l : Option Int) (hv : ¬ ValidContentRange a b l) :
    rangeCall lower h c (.set a b l u) = (h, c, .error .valueError) := by
  have : Range.ContentRange.mk? u a b l = .error .valueError := by
    cases hm : Range.ContentRange.mk? u a b l with
    | ok c' => exact absurd ((RangeAux.mk_ok ..).mp hm).1 hv
    | error e =>
      unfold Range.ContentRange.mk? at hm
      split at hm
      · cases hm
      · rw [← hm]
  simp only [rangeCall, this]

/-- C83.  `unset` removes the header, and the property then reads as no range. -/
theorem C83_unset (lower : Str → Str) (hn : Names lower) (h : HList) (c : Range.ContentRange) :
    let r := rangeCall lower h c .unset
    r.2.2 = .ok () ∧ getlist lower r.1 s%"Content-Range" = [] ∧ SameOthers lower s%"Content-Range" h r.1 ∧
      readRange lower r.1 = (r.1, .ok ⟨none, none, none, none⟩) := by
  have hcall : rangeCall lower h c .unset = (delKey lower h s%"content-range", ⟨none, none, none, none⟩, .ok ()) := rfl
  rw [hcall]
  have hne : lower s%"Content-Range" = lower s%"content-range" := by rw [hn.crange, hn.crange']
  refine ⟨rfl, by rw [getlist_delKey, if_pos hne], sameOthers_name lower hne.symm (sameOthers_del lower h _), ?_⟩
  unfold readRange
  rw [getItem_del, if_pos rfl]
  simp only [rangeUpdate]
  unfold delKey
  rw [List.filter_filter]
  simp

/-- C83.  Reading the property never touches other headers, and reading it twice is the same as
reading it once: a header that can be read is rewritten in canonical form, one that cannot is
removed.  (Missing: that reading changes nothing, which is false.) -/
theorem C83_read_partial (lower : Str → Str) (hn : Names lower) (h : HList) :
    SameOthers lower s%"Content-Range" h (readRange lower h).1 ∧
    ∀ c, (readRange lower h).2 = .ok c →
      readRange lower (readRange lower h).1 = ((readRange lower h).1, .ok c) ∧
      (c.units = none → getlist lower (readRange lower h).1 s%"Content-Range" = []) ∧
      ∀ u, c.units = some u → getItem lower (readRange lower h).1 s%"Content-Range" = c.toHeader := by
  have hne : lower s%"Content-Range" = lower s%"content-range" := by rw [hn.crange, hn.crange']
  have hempty : ∀ g : HList, let g' := delKey lower g s%"content-range"
      SameOthers lower s%"Content-Range" g g' ∧ getlist lower g' s%"Content-Range" = [] ∧
        readRange lower g' = (g', .ok ⟨none, none, none, none⟩) := by
    intro g
    have := C83_unset lower hn g ⟨none, none, none, none⟩
    exact ⟨this.2.2.1, this.2.1, this.2.2.2⟩
  have habs : readRange lower h = (delKey lower h s%"content-range", .ok ⟨none, none, none, none⟩) →
      SameOthers lower s%"Content-Range" h (readRange lower h).1 ∧
      ∀ c, (readRange lower h).2 = .ok c →
        readRange lower (readRange lower h).1 = ((readRange lower h).1, .ok c) ∧
        (c.units = none → getlist lower (readRange lower h).1 s%"Content-Range" = []) ∧
        ∀ u, c.units = some u → getItem lower (readRange lower h).1 s%"Content-Range" = c.toHeader := by
    intro he
    rw [he]
    obtain ⟨h1, h2, h3⟩ := hempty h
    refine ⟨h1, ?_⟩
    intro c hc
    cases hc
    exact ⟨h3, fun _ => h2, by intro u hu; simp at hu⟩
  cases hg : getItem lower h s%"content-range" with
  | none => exact habs (by unfold readRange; rw [hg]; rfl)
  | some v =>
    cases hp : Range.parseContentRangeHeader v with
    | error e =>
      have : readRange lower h = (h, .error e) := by unfold readRange; simp only [hg, hp]
      rw [this]
      exact ⟨rfl, by intro c hc; cases hc⟩
    | ok o =>
      cases o with
      | none => exact habs (by unfold readRange; simp only [hg, hp]; rfl)
      | some c =>
        obtain ⟨u, hu, hune, hus, hv⟩ := range_parsed v c hp
        obtain ⟨cu, ca, cb, cl⟩ := c
        simp only at hu hv
        subst hu
        have hs := C83_set_read lower hn h ⟨none, none, none, none⟩ u ca cb cl hune hus hv
        obtain ⟨t, h1, h2, h3, h4⟩ := range_canonical lower hn h u ca cb cl hune hus hv
        have hmk : Range.ContentRange.mk? (some u) ca cb cl = .ok ⟨some u, ca, cb, cl⟩ :=
          (RangeAux.mk_ok ..).mpr ⟨hv, rfl⟩
        have hcall : rangeCall lower h ⟨none, none, none, none⟩ (.set ca cb cl (some u)) =
            ((Headers.set lower h s%"Content-Range" t []).1, ⟨some u, ca, cb, cl⟩, .ok ()) := by
          simp only [rangeCall, Range.ContentRange.step, hmk, h2]
        have hr : readRange lower h = ((Headers.set lower h s%"Content-Range" t []).1, .ok ⟨some u, ca, cb, cl⟩) := by
          unfold readRange
          simp only [hg, hp, h2]
        rw [hcall] at hs
        rw [hr]
        refine ⟨hs.2.2.2, ?_⟩
        intro c hc
        cases hc
        refine ⟨hs.2.2.1, by simp, ?_⟩
        intro u' _
        rw [h1, getItem_set lower h _ _ _ h3, if_pos rfl]

/-- C83 (refutation).  Reading `content_range` of a response removes a header that cannot be
parsed, and rewrites one that can. -/
theorem C83_read_false :
    readRange asciiLower [(s%"Content-Range", s%"bytes 0-9")] = ([], .ok ⟨none, none, none, none⟩) ∧
    (readRange asciiLower [(s%"Content-Range", s%"bytes  0-09/20")]).1 = [(s%"Content-Range", s%"bytes 0-9/20")] := by
  decide +kernel

/-- C83 (refutation of "every accepted call writes a header").  Assigning `units` or `start` alone
fails after the object has changed, so that object and header disagree. -/
theorem C83_assign_false :
    let r := rangeCall asciiLower [(s%"Content-Range", s%"bytes 0-9/20")] ⟨some s%"bytes", some 0, some 10, some 20⟩
      (.assignStop none)
    r.1 = [(s%"Content-Range", s%"bytes 0-9/20")] ∧ r.2.1 = ⟨some s%"bytes", some 0, none, some 20⟩ ∧
      r.2.2 = .error .typeError := by decide +kernel

/-! ### C85 -/

theorem wsgi_char (b : UInt8) (c : Char) (h : Char.ofNat b.toNat = c) : b.toNat = c.toNat := by
  rw [← h, AuthP.octet_char]

theorem legal_wsgi (b : Bytes) : LegalValue (Auth.bytesToWsgi b) ↔ 10 ∉ b ∧ 13 ∉ b := by
  have key : ∀ (c : Char) (n : UInt8), c.toNat = n.toNat → Char.ofNat n.toNat = c →
      (c ∈ Auth.bytesToWsgi b ↔ n ∈ b) := by
    intro c n hc hn
    unfold Auth.bytesToWsgi
    rw [List.mem_map]
    constructor
    · rintro ⟨x, hx, he⟩
      have := wsgi_char x c he
      rw [hc] at this
      rw [← UInt8.toNat_inj.mp this]
      exact hx
    · intro h; exact ⟨n, h, hn⟩
  unfold LegalValue
  rw [key '\n' 10 (by decide) (by decide), key '\r' 13 (by decide) (by decide)]

/-- The segments of a text have all its bytes besides the separators. -/
theorem mem_segments (x : UInt8) (hx : x ≠ 59) (b : Bytes) : x ∈ b ↔ ∃ s ∈ segmentsOf b, x ∈ s := by
  induction b with
  | nil => simp [segmentsOf]
  | cons c cs ih =>
    unfold segmentsOf
    by_cases hc : c = 59
    · rw [if_pos hc]
      simp only [List.mem_cons, ih, exists_eq_or_imp, List.not_mem_nil, false_or]
      constructor
      · rintro (h | h)
        · exact absurd (h.trans hc) hx
        · exact h
      · exact Or.inr
    · rw [if_neg hc]
      cases hs : segmentsOf cs with
      | nil => rw [hs] at ih; simp at ih; simp [ih]
      | cons s ss =>
        rw [hs] at ih
        simp only [List.mem_cons, ih, exists_eq_or_imp]
        rw [or_assoc]

/-- C85.  `set_cookie` adds one `Set-Cookie` header after all others and changes nothing else.  Split
at the semicolons it consists of the cookie itself and exactly the attributes that were given; no
argument can add one. -/
theorem C85_set_cookie_partial (h : HList) (key value : Bytes) (a : Cookie.Attrs)
    (hk : 59 ∉ key) (he : ∀ e, a.expires = some e → 59 ∉ e) (hm : ∀ e, a.maxAge = some e → 59 ∉ e)
    (hp : ∀ e, a.path = some e → 59 ∉ e) (hl : ∀ s, s = key ∨ a.expires = some s ∨ a.maxAge = some s ∨
      a.path = some s → 10 ∉ s ∧ 13 ∉ s) :
    ∃ text : Bytes, setCookie h key value a = (h ++ [(s%"Set-Cookie", Auth.bytesToWsgi text)], .ok ()) ∧
      segmentsOf text = (key ++ b%"=" ++ Cookie.cookieQuote value) ::
      ((a.domain.map fun v => b%" Domain=" ++ Cookie.cookieQuote v).toList ++
       (a.expires.map fun v => b%" Expires=" ++ v).toList ++
       (a.maxAge.map fun v => b%" Max-Age=" ++ v).toList ++
       (if a.secure then [b%" Secure"] else []) ++
       (if a.httponly then [b%" HttpOnly"] else []) ++
       (a.path.map fun v => b%" Path=" ++ v).toList) := by
  have hseg := C22_no_injection key value a hk he hm hp
  refine ⟨Cookie.dumpCookie key value a, ?_, hseg⟩
  have hq : ∀ v, 10 ∉ Cookie.cookieQuote v ∧ 13 ∉ Cookie.cookieQuote v := by
    intro v
    have := (C22_value_safe v).1
    exact ⟨fun hm => absurd (this _ hm).1 (by decide), fun hm => absurd (this _ hm).1 (by decide)⟩
  have hall : ∀ x : UInt8, x = 10 ∨ x = 13 → x ∉ Cookie.dumpCookie key value a := by
    intro x hx
    have hx59 : x ≠ 59 := by rcases hx with rfl | rfl <;> decide
    have hqx : ∀ v, x ∉ Cookie.cookieQuote v := by
      intro v; rcases hx with rfl | rfl
      · exact (hq v).1
      · exact (hq v).2
    have hlx : ∀ s, s = key ∨ a.expires = some s ∨ a.maxAge = some s ∨ a.path = some s → x ∉ s := by
      intro s hs; rcases hx with rfl | rfl
      · exact (hl s hs).1
      · exact (hl s hs).2
    rw [mem_segments x hx59, hseg]
    rintro ⟨s, hs, hxs⟩
    have hlit : x ∉ b%"=" ∧ x ∉ b%" Domain=" ∧ x ∉ b%" Expires=" ∧ x ∉ b%" Max-Age=" ∧ x ∉ b%" Secure" ∧
        x ∉ b%" HttpOnly" ∧ x ∉ b%" Path=" := by
      rcases hx with rfl | rfl <;> decide
    simp only [List.mem_cons, List.mem_append, Option.mem_toList, Option.map_eq_some_iff] at hs
    rcases hs with rfl | ((((⟨v, hv, rfl⟩ | ⟨v, hv, rfl⟩) | ⟨v, hv, rfl⟩) | hs) | hs) | ⟨v, hv, rfl⟩
    · simp only [List.mem_append] at hxs
      rcases hxs with (hxs | hxs) | hxs
      · exact hlx key (Or.inl rfl) hxs
      · exact hlit.1 hxs
      · exact hqx _ hxs
    · rcases List.mem_append.mp hxs with hxs | hxs
      · exact hlit.2.1 hxs
      · exact hqx _ hxs
    · rcases List.mem_append.mp hxs with hxs | hxs
      · exact hlit.2.2.1 hxs
      · exact hlx v (Or.inr (Or.inl hv)) hxs
    · rcases List.mem_append.mp hxs with hxs | hxs
      · exact hlit.2.2.2.1 hxs
      · exact hlx v (Or.inr (Or.inr (Or.inl hv))) hxs
    · split at hs
      · simp only [List.mem_singleton] at hs; subst hs; exact hlit.2.2.2.2.1 hxs
      · simp at hs
    · split at hs
      · simp only [List.mem_singleton] at hs; subst hs; exact hlit.2.2.2.2.2.1 hxs
      · simp at hs
    · rcases List.mem_append.mp hxs with hxs | hxs
      · exact hlit.2.2.2.2.2.2 hxs
      · exact hlx v (Or.inr (Or.inr (Or.inr hv))) hxs
  unfold setCookie
  rw [add_legal]
  · rfl
  · simpa [effValue] using (legal_wsgi _).mpr ⟨hall 10 (Or.inl rfl), hall 13 (Or.inr rfl)⟩

/-- C85 fails when the arguments themselves have semicolons, which are not quoted (in a path: not
after a question mark, see `C125_path_limits`): a path can add a domain. -/
theorem C85_semicolon_false : ∃ (a : Cookie.Attrs) (text : Bytes), a.domain = none ∧
    setCookie [] b%"id" b%"1" a = ([(s%"Set-Cookie", Auth.bytesToWsgi text)], .ok ()) ∧
    b%"Domain=other.example" ∈ segmentsOf text :=
  ⟨⟨none, none, none, false, false, some b%"/a?;Domain=other.example"⟩, _, rfl, rfl, by decide +kernel⟩

theorem mem_joinSemi {x : UInt8} {s : Bytes} (hx : x ∈ s) : ∀ l : List Bytes, s ∈ l → x ∈ Cookie.joinSemi l
  | [], h => absurd h (by simp)
  | [a], h => by
    rw [List.mem_singleton] at h
    subst h
    exact hx
  | a :: b :: l, h => by
    simp only [Cookie.joinSemi, List.mem_append]
    rcases List.mem_cons.1 h with rfl | h
    · exact Or.inl (Or.inl hx)
    · exact Or.inr (mem_joinSemi hx (b :: l) h)

/-- C85.  A name or attribute with a line break is refused and nothing changes. -/
theorem C85_rejects (h : HList) (key value : Bytes) (a : Cookie.Attrs)
    (hl : ∃ s, (s = key ∨ a.path = some s ∨ a.expires = some s ∨ a.maxAge = some s) ∧ (10 ∈ s ∨ 13 ∈ s)) :
    setCookie h key value a = (h, .error .valueError) := by
  unfold setCookie
  apply add_illegal
  rw [show effValue (Auth.bytesToWsgi (Cookie.dumpCookie key value a)) [] =
    Auth.bytesToWsgi (Cookie.dumpCookie key value a) by simp [effValue], legal_wsgi]
  rintro ⟨h1, h2⟩
  have key' : ∀ (x : UInt8) s, (s = key ∨ a.path = some s ∨ a.expires = some s ∨ a.maxAge = some s) → x ∈ s →
      x ∈ Cookie.dumpCookie key value a := by
    intro x s hs hxs
    unfold Cookie.dumpCookie
    rcases hs with rfl | hs | hs | hs
    · exact mem_joinSemi (s := s ++ [61] ++ Cookie.cookieQuote value) (by simp [hxs]) _ List.mem_cons_self
    · exact mem_joinSemi (s := b%"Path" ++ b%"=" ++ s) (List.mem_append_right _ hxs) _
        (by simp [Cookie.Attrs.segments, hs])
    · exact mem_joinSemi (s := b%"Expires" ++ b%"=" ++ s) (List.mem_append_right _ hxs) _
        (by simp [Cookie.Attrs.segments, hs])
    · exact mem_joinSemi (s := b%"Max-Age" ++ b%"=" ++ s) (List.mem_append_right _ hxs) _
        (by simp [Cookie.Attrs.segments, hs])
  obtain ⟨s, hs, hx | hx⟩ := hl
  · exact h1 (key' 10 s hs hx)
  · exact h2 (key' 13 s hs hx)

/-- C85.  `delete_cookie` adds one `Set-Cookie` header: an empty value for the name, expired at the
start of 1970 and with age zero, for the given path and domain. -/
theorem C85_delete_cookie (h : HList) (key : Bytes) (path domain : Option Bytes)
    (hk : ∀ s, s = key ∨ path = some s → 59 ∉ s ∧ 10 ∉ s ∧ 13 ∉ s) :
    ∃ text : Bytes, deleteCookie h key path domain = (h ++ [(s%"Set-Cookie", Auth.bytesToWsgi text)], .ok ()) ∧
      segmentsOf text = (key ++ b%"=") :: ((domain.map fun v => b%" Domain=" ++ Cookie.cookieQuote v).toList ++
        [b%" Expires=Thu, 01-Jan-1970 00:00:00 GMT", b%" Max-Age=0"] ++
        (path.map fun v => b%" Path=" ++ v).toList) := by
  obtain ⟨t, h1, h2⟩ := C85_set_cookie_partial h key [] ⟨domain, some epochCookieDate, some b%"0", false, false, path⟩
    (hk key (Or.inl rfl)).1 (by rintro e ⟨⟩; decide) (by rintro e ⟨⟩; decide) (fun e he => (hk e (Or.inr he)).1)
    (by
      intro s hs
      rcases hs with hs | hs | hs | hs
      · exact (hk s (Or.inl hs)).2
      · cases hs; decide
      · cases hs; decide
      · exact (hk s (Or.inr hs)).2)
  refine ⟨t, h1, ?_⟩
  rw [h2]
  simp only [Option.map_some, Option.toList_some, Bool.false_eq_true, if_false, List.append_nil]
  rw [show Cookie.cookieQuote [] = [] by decide]
  simp
  rfl

example : (deleteCookie [(s%"Set-Cookie", s%"a=b")] b%"id" (some b%"/") none).1 =
    [(s%"Set-Cookie", s%"a=b"),
     (s%"Set-Cookie", s%"id=; Expires=Thu, 01-Jan-1970 00:00:00 GMT; Max-Age=0; Path=/")] := by decide +kernel
example : dumpDate ⟨1970, 1, 1, 0, 0, 0⟩ s%"-" = Auth.bytesToWsgi epochCookieDate := by decide +kernel

/-! ### C87 -/

/-- C87.  A challenge written through `www_authenticate` is read back: every parameter, and no
others.  Other headers are untouched.  (Missing: parameters without a value and values quoted at
both ends, where the claim is false.) -/
theorem C87_live_partial (lower title : Str → Str) (hn : Names lower) (h : HList) (w : Auth.WWW) (t : Str)
    (hnd : (Dict.keys w).Nodup)
    (ht : Dict.get w s%"__auth_type__" = some (some t)) (ht0 : t ≠ []) (htl : lower (title t) = t)
    (htt : title t ≠ [] ∧ ∀ c ∈ title t, Py.isSpace c = false)
    (hw : ∀ k v, (k, v) ∈ w → k ≠ s%"__auth_type__" →
      (k ≠ [] ∧ (∀ c ∈ k, c ≠ ',' ∧ c ≠ '"' ∧ c ≠ '=') ∧ Py.strip k = k) ∧
      ∃ s, v = some s ∧ ¬ (s.head? = some '"' ∧ s.getLast? = some '"'))
    (hl : ∀ k v, (k, v) ∈ w → LegalValue k ∧ ∀ s, v = some s → LegalValue s) :
    let r := wwwUpdate lower title h w
    r.2 = .ok () ∧ (∀ k, Dict.get (wwwView lower r.1) k = Dict.get w k) ∧
      SameOthers lower s%"WWW-Authenticate" h r.1 := by
  have hne : w ≠ [] := by rintro rfl; simp at ht
  have hscheme : Auth.schemeOf w = t := by
    unfold Auth.schemeOf Auth.typeKey; rw [ht]; simp [ht0]
  have hlegal : LegalValue (Auth.wwwToHeader title w) := by
    unfold Auth.wwwToHeader
    rw [hscheme]
    refine legal_append (legal_append (legal_nospace _ htt.2) (by decide)) (legal_join _ (by decide) _ ?_)
    intro x hx
    obtain ⟨⟨k, v⟩, hkv, rfl⟩ := List.mem_map.mp hx
    have hdel : (k, v) ∈ w ∧ k ≠ s%"__auth_type__" := by
      have hnd' := Dict.nodup_del hnd Auth.typeKey
      have hg := Dict.get_of_mem hnd' hkv
      rw [Dict.get_del hnd] at hg
      split at hg
      · cases hg
      · rename_i hk
        exact ⟨Dict.mem_of_get hg, hk⟩
    obtain ⟨h1, h2⟩ := hl k v hdel.1
    obtain ⟨_, s, rfl, _⟩ := hw k v hdel.1 hdel.2
    exact legal_append (legal_append h1 (by decide)) (legal_quoteValue _ (h2 s rfl) _ _)
  unfold wwwUpdate
  rw [if_neg hne]
  refine ⟨set_ok lower h _ _ hlegal, ?_, sameOthers_set lower h _ _⟩
  intro k
  unfold wwwView
  rw [getItem_set lower h _ _ _ hlegal, if_pos (by rw [hn.www, hn.www']), Option.getD_some]
  exact AuthP.C75_roundtrip_partial title lower w t hnd ht ht0 htl htt hw k

/-- C87.  Clearing the challenge removes the header and nothing else. -/
theorem C87_clear (lower title : Str → Str) (hn : Names lower) (h : HList) :
    let r := wwwUpdate lower title h []
    r.2 = .ok () ∧ wwwView lower r.1 = [] ∧ getlist lower r.1 s%"WWW-Authenticate" = [] ∧
      SameOthers lower s%"WWW-Authenticate" h r.1 := by
  have hne : lower s%"WWW-Authenticate" = lower s%"www-authenticate" := by rw [hn.www, hn.www']
  unfold wwwUpdate
  simp only [if_true]
  by_cases hc : contains lower h s%"www-authenticate" = true
  · simp only [hc, if_true]
    refine ⟨trivial, ?_, by rw [getlist_delKey, if_pos hne], sameOthers_name lower hne.symm (sameOthers_del lower h _)⟩
    unfold wwwView
    rw [getItem_del, if_pos rfl]
    rfl
  · rw [if_neg hc]
    refine ⟨trivial, ?_, ?_, rfl⟩
    · unfold wwwView
      unfold contains at hc
      rw [show getItem lower h s%"www-authenticate" = none by simpa using hc]
      rfl
    · rw [(C07_lookups lower h _ _ hne).2.2.1]
      cases hx : getlist lower h s%"www-authenticate" with
      | nil => rfl
      | cons a as =>
        exact absurd ((C07_lookups lower h s%"www-authenticate" s%"www-authenticate" rfl).2.1.mpr (by rw [hx]; simp)) hc

/-- C87 (refutation for parameters without a value): reading a challenge and writing it back
changes it. -/
theorem C87_live_false :
    let h := [(s%"WWW-Authenticate", s%"Basic foo")]
    wwwView asciiLower h = [(s%"foo", none), (s%"__auth_type__", some s%"basic")] ∧
    (wwwUpdate asciiLower (fun _ => s%"Basic") h (wwwView asciiLower h)).1 =
      [(s%"WWW-Authenticate", s%"Basic foo=None")] := by decide +kernel

example : (wwwUpdate asciiLower (fun _ => s%"Basic") [(s%"Www-Authenticate", s%"x")] (Auth.setBasic s%"a \"b\"")).1 =
    [(s%"WWW-Authenticate", s%"Basic realm=\"a \\\"b\\\"\"")] := by decide +kernel

end Verif.Props.Desc
