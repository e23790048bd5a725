import Verif.Props.Options
import Verif.Props.Etag
import Verif.Spec.HeaderGrammar
/-! Property theorems C143: headers that other programs write. -/
namespace Verif.Props.GrammarP
open Verif Verif.Re Verif.Quote Verif.Spec Verif.Spec.Grammar

theorem tchar_plain (c : Char) (h : IsTChar c) :
    c ≠ ',' ∧ c ≠ '"' ∧ c ≠ '\\' ∧ c ≠ '=' ∧ c ≠ ';' ∧ Py.isSpace c = false := by
  rcases h with h | h
  · have hn : (48 ≤ c.toNat ∧ c.toNat ≤ 57) ∨ (65 ≤ c.toNat ∧ c.toNat ≤ 90) ∨ (97 ≤ c.toNat ∧ c.toNat ≤ 122) := by
      simp only [Char.isAlphanum, Char.isAlpha, Char.isUpper, Char.isLower, Char.isDigit, Bool.or_eq_true,
        Bool.and_eq_true, decide_eq_true_eq, ge_iff_le, UInt32.le_iff_toNat_le] at h
      simp only [Char.toNat]
      rcases h with (h | h) | h
      · exact .inr (.inl h)
      · exact .inr (.inr h)
      · exact .inl h
    refine ⟨?_, ?_, ?_, ?_, ?_, ?_⟩
    · rintro rfl; revert hn; decide
    · rintro rfl; revert hn; decide
    · rintro rfl; revert hn; decide
    · rintro rfl; revert hn; decide
    · rintro rfl; revert hn; decide
    · unfold Py.isSpace
      simp only [Bool.or_eq_false_iff, Bool.and_eq_false_iff, decide_eq_false_iff_not, beq_eq_false_iff_ne]
      omega
  · revert c
    decide

theorem ows_space (s : Str) (h : Ows s) : ∀ c ∈ s, Py.isSpace c = true := by
  intro c hc
  rcases h c hc with rfl | rfl <;> decide

theorem ows_plain (s : Str) (h : Ows s) : ∀ c ∈ s, c ≠ ',' ∧ c ≠ '"' := by
  intro c hc
  rcases h c hc with rfl | rfl <;> decide

theorem dropWhile_pad {p : Char → Bool} (a b : Str) (ha : ∀ c ∈ a, p c = true)
    (hb : ∀ c, b.head? = some c → p c = false) : (a ++ b).dropWhile p = b := by
  induction a with
  | nil =>
    cases b with
    | nil => rfl
    | cons c cs => simp [hb c rfl]
  | cons c cs ih => simp [ha c (by simp), ih (fun d hd => ha d (by simp [hd]))]

/-- White space around a text is stripped. -/
theorem strip_pad (a r b : Str) (ha : Ows a) (hb : Ows b) (hne : r ≠ [])
    (h1 : ∀ c, r.head? = some c → Py.isSpace c = false) (h2 : ∀ c, r.getLast? = some c → Py.isSpace c = false) :
    Py.strip (a ++ r ++ b) = r := by
  unfold Py.strip Py.stripP Py.lstripP Py.rstripP
  rw [List.append_assoc, dropWhile_pad a (r ++ b) (ows_space a ha)]
  · rw [List.reverse_append, dropWhile_pad b.reverse r.reverse]
    · simp
    · intro c hc; exact ows_space b hb c (List.mem_reverse.mp hc)
    · intro c hc; rw [List.head?_reverse] at hc; exact h2 c hc
  · intro c hc
    cases r with
    | nil => exact absurd rfl hne
    | cons d ds => exact h1 c hc

/-! ### Lists -/

theorem go_qtext (part body v rest : Str) (h : QText body v) :
    httpListGo part false true (body ++ '"' :: rest) = httpListGo (part ++ v ++ ['"']) false false rest := by
  induction h generalizing part with
  | nil => simp [httpListGo]
  | plain c b v h1 h2 _ ih => simp [httpListGo, h1, h2, ih]
  | esc c b v _ ih => simp [httpListGo, ih]

theorem go_quotedString (part s v rest : Str) (h : QuotedString s v) :
    httpListGo part false false (s ++ rest) = httpListGo (part ++ '"' :: (v ++ ['"'])) false false rest := by
  obtain ⟨body, rfl, hb⟩ := h
  have := go_qtext (part ++ ['"']) body v rest hb
  simp only [List.append_assoc, List.cons_append, List.nil_append] at this
  simp [httpListGo, this]

/-- What the splitting of a list leaves of a value: quotes stay, escapes are resolved. -/
def rawValue (text value : Str) : Str := if text.head? = some '"' then '"' :: (value ++ ['"']) else text

theorem token_head (t : Str) (h : Token t) (c : Char) (hc : t.head? = some c) : IsTChar c :=
  h.2 c (List.mem_of_head? hc)

theorem token_raw (t v : Str) (h : Token t) : rawValue t v = t := by
  unfold rawValue
  rw [if_neg]
  intro e
  exact (tchar_plain _ (token_head t h _ e)).2.1 rfl

theorem quoted_raw (s v : Str) (h : QuotedString s v) : rawValue s v = '"' :: (v ++ ['"']) := by
  obtain ⟨body, rfl, -⟩ := h
  simp [rawValue]

theorem go_text (part text value rest : Str) (h : Value text value) :
    httpListGo part false false (text ++ rest) = httpListGo (part ++ rawValue text value) false false rest := by
  rcases h with ⟨ht, rfl⟩ | hq
  · rw [token_raw _ _ ht, go_plain]
    intro c hc
    exact ⟨(tchar_plain c (ht.2 c hc)).1, (tchar_plain c (ht.2 c hc)).2.1⟩
  · rw [quoted_raw _ _ hq, go_quotedString _ _ _ _ hq]

theorem raw_ends (text value : Str) (h : Value text value) :
    rawValue text value ≠ [] ∧ (∀ c, (rawValue text value).head? = some c → Py.isSpace c = false) ∧
      ∀ c, (rawValue text value).getLast? = some c → Py.isSpace c = false := by
  rcases h with ⟨ht, rfl⟩ | hq
  · rw [token_raw _ _ ht]
    exact ⟨ht.1, fun c hc => (tchar_plain c (ht.2 c (List.mem_of_head? hc))).2.2.2.2.2,
      fun c hc => (tchar_plain c (ht.2 c (List.mem_of_getLast? hc))).2.2.2.2.2⟩
  · rw [quoted_raw _ _ hq]
    refine ⟨by simp, ?_, ?_⟩
    · intro c hc; simp at hc; subst hc; decide
    · intro c hc
      rw [← List.cons_append, List.getLast?_append] at hc
      simp at hc; subst hc; decide

/-- Items with commas between them come apart. -/
theorem go_items {α : Type} (xs : List α) (txt raw : α → Str)
    (hgo : ∀ x ∈ xs, ∀ part rest, httpListGo part false false (txt x ++ rest) =
      httpListGo (part ++ raw x) false false rest)
    (hne : ∀ x ∈ xs, raw x ≠ []) :
    httpListGo [] false false (Py.join s%"," (xs.map txt)) = xs.map raw := by
  induction xs with
  | nil => simp [Py.join, httpListGo]
  | cons x xs ih =>
    have h1 := hgo x (by simp)
    cases xs with
    | nil =>
      have := h1 [] []
      simp only [List.append_nil, List.nil_append] at this
      simp [Py.join, this, httpListGo, hne x (by simp)]
    | cons y ys =>
      have h2 := ih (fun z hz => hgo z (by simp [hz])) (fun z hz => hne z (by simp [hz]))
      simp only [List.map_cons] at h2 ⊢
      rw [Py.join, List.append_assoc, h1 [], List.nil_append]
      simp only [List.cons_append, List.nil_append, httpListGo, Bool.false_eq_true, if_false, if_true]
      rw [h2]

theorem unquote_raw (text value : Str) (h : Value text value)
    (hv : ¬ (value.head? = some '"' ∧ value.getLast? = some '"')) :
    unquoteItem (rawValue text value) = value := by
  rcases h with ⟨ht, rfl⟩ | hq
  · rw [token_raw _ _ ht]
    unfold unquoteItem quotedBothEnds
    rw [if_neg]
    intro hq
    simp only [Bool.and_eq_true, beq_iff_eq] at hq
    cases hv' : value with
    | nil => exact ht.1 hv'
    | cons c cs =>
      rw [hv'] at hq
      simp only [List.take_succ_cons, List.take_zero, List.cons.injEq, and_true] at hq
      exact (tchar_plain c (ht.2 c (by simp [hv']))).2.1 hq.1
  · rw [quoted_raw _ _ hq]
    unfold unquoteItem quotedBothEnds
    have h1 : ('"' :: (value ++ ['"'])).getLast? = some '"' := by
      rw [← List.cons_append, List.getLast?_append]; simp
    rw [if_pos (by simp [h1])]
    simp only [Py.slice1m1, List.drop_succ_cons, List.drop_zero, List.dropLast_concat]
    apply unquote_id
    by_cases h2 : value.head? = some '"'
    · exact .inr (fun h3 => hv ⟨h2, h3⟩)
    · exact .inl h2

/-- C143, lists: the elements are read as RFC 7230 says, however they are spaced, quoted and
escaped.  Missing: values that begin and end with a quote, and empty elements. -/
theorem C143_list_partial (es : List Element) (h : ∀ e ∈ es, e.Ok)
    (hv : ∀ e ∈ es, ¬ (e.value.head? = some '"' ∧ e.value.getLast? = some '"')) :
    parseListHeader (listText es) = es.map (·.value) := by
  unfold parseListHeader parseHttpList listText
  rw [go_items es _ (fun e => e.before ++ rawValue e.text e.value ++ e.after)]
  · rw [List.map_map, List.map_map]
    apply List.map_congr_left
    intro e he
    obtain ⟨h1, h2, h3⟩ := h e he
    obtain ⟨r1, r2, r3⟩ := raw_ends _ _ h3
    simp only [Function.comp_apply]
    rw [strip_pad _ _ _ h1 h2 r1 r2 r3, unquote_raw _ _ h3 (hv e he)]
  · intro e he part rest
    obtain ⟨h1, h2, h3⟩ := h e he
    rw [List.append_assoc, List.append_assoc, go_plain part _ _ (ows_plain _ h1), go_text _ _ _ _ h3,
      go_plain _ _ _ (ows_plain _ h2)]
    simp only [List.append_assoc]
  · intro e he
    have := (raw_ends _ _ (h e he).2.2).1
    simp [this]

theorem pair_raw (p : Pair) (h : p.Ok) (part rest : Str) :
    httpListGo part false false (p.text ++ rest) =
      httpListGo (part ++ (p.before ++ (p.name ++ (match p.value with
        | none => [] | some x => '=' :: rawValue x.1 x.2)) ++ p.after)) false false rest := by
  obtain ⟨h1, h2, h3, h4⟩ := h
  have hn : ∀ c ∈ p.name, c ≠ ',' ∧ c ≠ '"' := fun c hc =>
    ⟨(tchar_plain c (h3.2 c hc)).1, (tchar_plain c (h3.2 c hc)).2.1⟩
  unfold Pair.text
  cases hv : p.value with
  | none =>
    simp only [List.append_nil]
    rw [List.append_assoc, List.append_assoc, go_plain part _ _ (ows_plain _ h1), go_plain _ _ _ hn,
      go_plain _ _ _ (ows_plain _ h2)]
    simp only [List.append_assoc]
  | some x =>
    simp only [List.append_assoc, List.cons_append]
    rw [go_plain part _ _ (ows_plain _ h1), go_plain _ _ _ hn]
    have := go_plain (part ++ p.before ++ p.name) ['='] (x.1 ++ (p.after ++ rest)) (by decide)
    simp only [List.cons_append, List.nil_append] at this
    rw [this, go_text _ _ _ _ (h4 x hv), go_plain _ _ _ (ows_plain _ h2)]
    simp only [List.append_assoc, List.cons_append, List.nil_append]

theorem pair_parts (p : Pair) (h : p.Ok)
    (hv : ∀ x, p.value = some x → ¬ (x.2.head? = some '"' ∧ x.2.getLast? = some '"')) :
    parseDictItem (Py.strip (p.before ++ (p.name ++ (match p.value with
        | none => [] | some x => '=' :: rawValue x.1 x.2)) ++ p.after)) =
      (p.name, p.value.map (·.2)) := by
  obtain ⟨h1, h2, h3, h4⟩ := h
  have heq : '=' ∉ p.name := fun hc => (tchar_plain _ (h3.2 _ hc)).2.2.2.1 rfl
  have hfirst : ∀ (s : Str) (c : Char), (p.name ++ s).head? = some c → Py.isSpace c = false := by
    intro s c hc
    cases hn : p.name with
    | nil => exact absurd hn h3.1
    | cons d ds =>
      rw [hn] at hc
      simp at hc; subst hc
      exact (tchar_plain d (h3.2 d (by simp [hn]))).2.2.2.2.2
  cases hp : p.value with
  | none =>
    simp only [List.append_nil]
    rw [strip_pad _ _ _ h1 h2 h3.1 (by simpa using hfirst [])
      (fun c hc => (tchar_plain c (h3.2 c (List.mem_of_getLast? hc))).2.2.2.2.2)]
    unfold parseDictItem
    rw [Py.split1_none '=' _ heq]
    rfl
  | some x =>
    obtain ⟨r1, r2, r3⟩ := raw_ends _ _ (h4 x hp)
    simp only
    rw [strip_pad _ _ _ h1 h2 (by simp) (hfirst _) (by
      intro c hc
      apply r3 c
      rw [List.getLast?_append] at hc
      cases hr : rawValue x.1 x.2 with
      | nil => exact absurd hr r1
      | cons d ds =>
        rw [hr] at hc
        simpa [List.getLast?_cons_cons] using hc)]
    unfold parseDictItem
    rw [Py.split1_some '=' _ _ heq]
    simp only [Option.map_some]
    rw [unquote_raw _ _ (h4 x hp) (hv x hp)]

/-- C143, pairs: names and values are read as RFC 7234 and RFC 7235 say; of a name given several
times the last one counts.  Missing: values that begin and end with a quote, white space around
the equals sign, and that names do not depend on case. -/
theorem C143_dict_partial (ps : List Pair) (h : ∀ p ∈ ps, p.Ok)
    (hv : ∀ p ∈ ps, ∀ x, p.value = some x → ¬ (x.2.head? = some '"' ∧ x.2.getLast? = some '"')) :
    (∀ k, (parseDictHeader (dictText ps)).lookup k =
      (ps.map fun p => (p.name, p.value.map (·.2))).reverse.lookup k) ∧
    ((ps.map (·.name)).Nodup → parseDictHeader (dictText ps) = ps.map fun p => (p.name, p.value.map (·.2))) := by
  have e : parseDictHeader (dictText ps) =
      (ps.map fun p => (p.name, p.value.map (·.2))).foldl (fun d kv => dictSet d kv.1 kv.2) [] := by
    unfold parseDictHeader parseHttpList dictText
    rw [go_items ps _ (fun p => p.before ++ (p.name ++ (match p.value with
        | none => [] | some x => '=' :: rawValue x.1 x.2)) ++ p.after)
      (fun p hp part rest => pair_raw p (h p hp) part rest)]
    · rw [List.map_map, List.map_map]
      congr 1
      apply List.map_congr_left
      intro p hp
      exact pair_parts p (h p hp) (hv p hp)
    · intro p hp
      have := (h p hp).2.2.1.1
      simp [this]
  rw [e]
  refine ⟨fun k => ?_, fun hn => ?_⟩
  · rw [lookup_foldl_dictSet]; simp
  · rw [foldl_dictSet]
    · simp
    · simpa [List.map_map, Function.comp_def] using hn

/-! ### Parameters -/

open Verif.Options Verif.Props.OptAux

theorem qplain_esc (b v : Str) (h : QPlain b v) : b = v.flatMap escChar := by
  induction h with
  | nil => rfl
  | plain c b v h1 h2 _ ih => simp [escChar, h1, h2, ← ih]
  | esc c b v hc _ ih => rcases hc with rfl | rfl <;> simp [escChar, ← ih]

theorem token_clean (t : Str) (h : Token t) : CleanName t :=
  ⟨h.1, fun c hc => by
    have := tchar_plain c (h.2 c hc)
    exact ⟨this.2.2.2.2.2, this.2.2.2.2.1, this.2.2.2.1, this.2.1⟩⟩

/-- The text of a parameter value, as the pattern takes it. -/
theorem starts_paramValue (p : Param) (h : p.Ok) (t : Str) (ht : Tail t) (prev : Option Char) :
    Starts (grp 2 (alt quotedRe (plus (cls (· != ';'))))) prev (p.text ++ (p.after ++ t))
      ⟨p.text, p.after ++ t, [(2, p.text)]⟩ ∧
    ∀ c, (p.text ++ (p.after ++ t)).head? = some c → Py.isSpace c = false := by
  obtain ⟨-, -, ⟨htok, -, ha⟩ | ⟨-, b, hb, hq⟩⟩ := h
  · rw [ha, List.nil_append]
    have hno := fun c hc => tchar_plain c (htok.2 c hc)
    constructor
    · refine starts_grp 2 (starts_altr ?_ (starts_plus htok.1 ?_ ?_))
      · apply run_seq_nil; apply run_cls_ne
        intro c hc
        cases hp : p.text with
        | nil => exact absurd hp htok.1
        | cons d ds =>
          rw [hp] at hc
          simp at hc; subst hc
          simpa using (hno d (by simp [hp])).2.1
      · intro c hc; simpa using (hno c hc).2.2.2.2.1
      · intro c hc; rw [ht.head c hc]; decide
    · intro c hc
      cases hp : p.text with
      | nil => exact absurd hp htok.1
      | cons d ds =>
        rw [hp] at hc
        simp at hc; subst hc
        exact (hno d (by simp [hp])).2.2.2.2.2
  · have e : p.text = quoteAlways p.value := by rw [hb, quoteAlways_eq, qplain_esc b _ hq]
    constructor
    · rw [e]
      exact starts_grp 2 (starts_altl (starts_quoted p.value _ prev))
    · intro c hc
      rw [hb] at hc; simp at hc; subst hc; decide

theorem ows_star (w t : Str) (hw : Ows w) (ht : ∀ c, t.head? = some c → Py.isSpace c = false)
    (prev : Option Char) : Starts (star true (cls Py.isSpace)) prev (w ++ t) ⟨w, t, []⟩ :=
  starts_star (ows_space w hw) ht

theorem tail_space {t : Str} (ht : Tail t) : ∀ c, t.head? = some c → Py.isSpace c = false := by
  intro c hc; rw [ht.head c hc]; decide

/-- A piece without a value. -/
theorem starts_bare (prev : Option Char) (sp k w t : Str) (hk : CleanName k) (hsp : Ows sp) (hw : Ows w)
    (ht : Tail t) : ∃ txt, Starts pieceRe prev (';' :: (sp ++ (k ++ (w ++ t)))) ⟨txt, t, [(1, k)]⟩ := by
  have s0 : Starts (cls (· == ';')) prev (';' :: (sp ++ (k ++ (w ++ t)))) ⟨[';'], sp ++ (k ++ (w ++ t)), []⟩ :=
    starts_cls (by decide)
  have s1 : ∀ p, Starts (star true (cls Py.isSpace)) p (sp ++ (k ++ (w ++ t))) ⟨sp, k ++ (w ++ t), []⟩ :=
    fun p => ows_star _ _ hsp (by
      intro c hc
      cases k with
      | nil => exact absurd rfl hk.1
      | cons d ds => simp at hc; subst hc; exact (hk.2 d (by simp)).1) p
  have s2 : ∀ p, Starts (grp 1 (alt quotedRe (plus (cls keyCh)))) p (k ++ (w ++ t)) ⟨k, w ++ t, [(1, k)]⟩ :=
    fun p => starts_key p k _ hk (by
      intro c hc
      cases w with
      | nil => rw [ht.head c hc]; decide
      | cons d ds =>
        simp at hc; subst hc
        have := ows_space _ hw d (by simp)
        simp [keyCh, this])
  have s3 : ∀ p, Starts (star true (cls Py.isSpace)) p (w ++ t) ⟨w, t, []⟩ := fun p =>
    ows_star _ _ hw (tail_space ht) p
  have s4 : ∀ p, Starts (opt (seq (cls (· == '=')) (seq (star true (cls Py.isSpace))
      (grp 2 (alt quotedRe (plus (cls (· != ';')))))))) p t ⟨[], t, []⟩ := fun p =>
    starts_altr (run_seq_nil (run_cls_ne (by intro c hc; rw [ht.head c hc]; decide))) starts_eps
  have s5 : ∀ p, Starts (star true (cls Py.isSpace)) p t ⟨[], t, []⟩ := fun p => starts_spaces p t (tail_space ht)
  have := starts_seq s0 (starts_seq (s1 _) (starts_seq (s2 _) (starts_seq (s3 _) (starts_seq (s4 _) (s5 _)))))
  exact ⟨_, by simpa [M.comb, pieceRe] using this⟩

/-- A parameter. -/
theorem starts_param (prev : Option Char) (p : Param) (h : p.Ok) (t : Str) (ht : Tail t) :
    ∃ txt, Starts pieceRe prev (';' :: (p.before ++ (p.name ++ '=' :: (p.text ++ (p.after ++ t)))))
      ⟨txt, t, [(2, p.text), (1, p.name)]⟩ := by
  have hk := token_clean _ h.2.1
  have hv := starts_paramValue p h t ht
  have haft : Ows p.after := by
    obtain ⟨-, -, ⟨-, -, ha⟩ | ⟨ha, -⟩⟩ := h
    · rw [ha]; intro c hc; cases hc
    · exact ha
  generalize hX : p.text ++ (p.after ++ t) = X at hv
  have s0 : Starts (cls (· == ';')) prev (';' :: (p.before ++ (p.name ++ '=' :: X)))
      ⟨[';'], p.before ++ (p.name ++ '=' :: X), []⟩ := starts_cls (by decide)
  have s1 : ∀ q, Starts (star true (cls Py.isSpace)) q (p.before ++ (p.name ++ '=' :: X))
      ⟨p.before, p.name ++ '=' :: X, []⟩ :=
    fun q => ows_star _ _ h.1 (by
      intro c hc
      cases hn : p.name with
      | nil => exact absurd hn hk.1
      | cons d ds =>
        rw [hn] at hc
        simp at hc; subst hc; exact (hk.2 d (by simp [hn])).1) q
  have s2 : ∀ q, Starts (grp 1 (alt quotedRe (plus (cls keyCh)))) q (p.name ++ '=' :: X)
      ⟨p.name, '=' :: X, [(1, p.name)]⟩ :=
    fun q => starts_key q p.name _ hk (by intro c hc; simp at hc; subst hc; decide)
  have s3 : ∀ q, Starts (star true (cls Py.isSpace)) q ('=' :: X) ⟨[], '=' :: X, []⟩ := fun q =>
    starts_spaces q _ (by intro c hc; simp at hc; subst hc; decide)
  have s4 : ∀ q, Starts (opt (seq (cls (· == '=')) (seq (star true (cls Py.isSpace))
      (grp 2 (alt quotedRe (plus (cls (· != ';')))))))) q ('=' :: X)
      ⟨'=' :: p.text, p.after ++ t, [(2, p.text)]⟩ := by
    intro q
    apply starts_altl
    have a1 : Starts (cls (· == '=')) q ('=' :: X) ⟨['='], X, []⟩ := starts_cls (by decide)
    have := starts_seq a1 (starts_seq (starts_spaces (after q ['=']) X (hv none).2) (hv _).1)
    simpa [M.comb] using this
  have s5 : ∀ q, Starts (star true (cls Py.isSpace)) q (p.after ++ t) ⟨p.after, t, []⟩ := fun q =>
    ows_star _ _ haft (tail_space ht) q
  have := starts_seq s0 (starts_seq (s1 _) (starts_seq (s2 _) (starts_seq (s3 _) (starts_seq (s4 _) (s5 _)))))
  exact ⟨_, by simpa [M.comb, pieceRe] using this⟩

theorem unquote_escaped (v : Str) (f : Bool) (h : f = true → v.head? ≠ some '\\') :
    unquoteHeaderValue (quoteAlways v) f = v := by
  cases f with
  | false => exact unquote_quoteAlways v
  | true =>
    have := unquote_quoteAlways v
    unfold unquoteHeaderValue at this ⊢
    split
    · rename_i hc
      rw [if_pos hc] at this
      simp only [Bool.not_false, Bool.true_or, if_true] at this
      simp only [Bool.not_true, Bool.false_or]
      rw [if_pos, this]
      have hs : Py.slice1m1 (quoteAlways v) = v.flatMap escChar := by
        rw [quoteAlways_eq]; simp [Py.slice1m1]
      rw [hs]
      cases v with
      | nil => decide
      | cons c cs =>
        have hc : c ≠ '\\' := by
          intro e
          exact h rfl (by simp [e])
        by_cases hq : c = '"'
        · subst hq; simp [escChar]
        · simp [escChar, hc, hq]
    · rename_i hc
      rw [if_neg hc] at this
      exact this

/-- The value of a parameter as it is read. -/
theorem unquote_param (p : Param) (h : p.Ok)
    (hf : p.name = s%"filename" → p.value.head? ≠ some '\\') :
    unquoteHeaderValue p.text (p.name = s%"filename") = p.value := by
  obtain ⟨-, -, ⟨htok, hv, -⟩ | ⟨-, b, hb, hq⟩⟩ := h
  · rw [hv]
    apply unquote_id
    left
    intro e
    exact (tchar_plain _ (token_head _ htok _ e)).2.1 rfl
  · have e : p.text = quoteAlways p.value := by rw [hb, quoteAlways_eq, qplain_esc b _ hq]
    rw [e]
    exact unquote_escaped _ _ (by simpa using hf)

/-- The parameters behind a name. -/
def paramsText (ps : List Param) : Str :=
  ps.flatMap fun p => ';' :: (p.before ++ (p.name ++ '=' :: (p.text ++ p.after)))

theorem paramsText_tail (ps : List Param) : Tail (paramsText ps) := by
  cases ps with
  | nil => left; rfl
  | cons p ps => right; rfl

theorem findIter_params (ps : List Param) (h : ∀ p ∈ ps, p.Ok)
    (hf : ∀ p ∈ ps, p.name = s%"filename" → p.value.head? ≠ some '\\') :
    ∀ (n : Nat) (prev : Option Char), (paramsText ps).length < n →
    (findIter pieceRe n prev (paramsText ps)).map (fun m =>
      let key := unquoteHeaderValue ((m.group 1).getD [])
      (key, (m.group 2).map fun v => unquoteHeaderValue v (key = s%"filename"))) =
    ps.map fun p => (p.name, some p.value) := by
  induction ps with
  | nil =>
    intro n prev hn
    obtain ⟨n, rfl⟩ : ∃ k, n = k + 1 := ⟨n - 1, by omega⟩
    have : first pieceRe prev [] = none := by simp [Re.first, pieceRe, run]
    simp [paramsText, findIter, this]
  | cons p ps ih =>
    intro n prev hn
    obtain ⟨n, rfl⟩ : ∃ k, n = k + 1 := ⟨n - 1, by omega⟩
    have hp := h p (by simp)
    obtain ⟨txt, hst⟩ := starts_param prev p hp (paramsText ps) (paramsText_tail ps)
    have htext : paramsText (p :: ps) =
        ';' :: (p.before ++ (p.name ++ '=' :: (p.text ++ (p.after ++ paramsText ps)))) := by
      simp [paramsText]
    have hkey : unquoteHeaderValue p.name = p.name := by
      apply unquote_id
      left
      intro e
      exact (tchar_plain _ (token_head _ hp.2.1 _ e)).2.1 rfl
    have hlen : (paramsText ps).length < n := by
      rw [htext] at hn; simp at hn; omega
    have hg1 : M.group (⟨txt, paramsText ps, [(2, p.text), (1, p.name)]⟩ : M Char) 1 = some p.name := by
      simp [M.group, List.lookup]
    have hg2 : M.group (⟨txt, paramsText ps, [(2, p.text), (1, p.name)]⟩ : M Char) 2 = some p.text := by
      simp [M.group, List.lookup]
    rw [htext]
    simp only [findIter, hst.first, List.map_cons, hg1, hg2, Option.getD_some, hkey, Option.map_some]
    rw [unquote_param p hp (hf p (by simp))]
    congr 1
    exact ih (fun q hq => h q (by simp [hq])) (fun q hq => hf q (by simp [hq])) n _ hlen

/-- C143, parameters: a media type or disposition is read as RFC 7231 says.  Missing: white space
behind a value that is a token, escapes of other characters, file names that begin with a
backslash, and that names do not depend on case. -/
theorem C143_options_partial (before name after : Str) (ps : List Param) (hb : Ows before) (ha : Ows after)
    (hn : CleanName name) (h : ∀ p ∈ ps, p.Ok)
    (hf : ∀ p ∈ ps, p.name = s%"filename" → p.value.head? ≠ some '\\') (hd : (ps.map (·.name)).Nodup) :
    parseOptionsHeader (optionsText before name after ps) = .ok (name, ps.map fun p => (p.name, some p.value)) := by
  have hname : unquoteHeaderValue name = name := by
    apply unquote_id
    left
    intro e
    exact (hn.2 '"' (List.mem_of_head? e)).2.2.2 rfl
  have htext : ';' :: optionsText before name after ps =
      ';' :: (before ++ (name ++ (after ++ paramsText ps))) := rfl
  have hne : optionsText before name after ps ≠ [] := by
    have := hn.1
    simp [optionsText, this]
  unfold parseOptionsHeader
  rw [if_neg hne]
  obtain ⟨txt, hst⟩ := starts_bare none before name after (paramsText ps) hn hb ha (paramsText_tail ps)
  have htok : tokenize (';' :: optionsText before name after ps) =
      (name, none) :: ps.map fun p => (p.name, some p.value) := by
    unfold tokenize
    rw [htext]
    have hg1 : M.group (⟨txt, paramsText ps, [(1, name)]⟩ : M Char) 1 = some name := by
      simp [M.group, List.lookup]
    have hg2 : M.group (⟨txt, paramsText ps, [(1, name)]⟩ : M Char) 2 = none := by
      simp [M.group, List.lookup]
    simp only [findIter, hst.first, List.map_cons, hg1, hg2, Option.getD_some, hname, Option.map_none]
    congr 1
    exact findIter_params ps h hf _ _ (by simp; omega)
  rw [htok]
  simp only
  rw [foldl_dictSet]
  · simp
  · simpa [List.map_map, Function.comp_def] using hd

/-! ### Entity tags -/

open Verif.Etag Verif.Props.EtagAux

theorem tag_ok (t : TagItem) (h : t.Ok) : Tag t.tag :=
  ⟨h.1, fun hc => (h.2.1 _ hc).1 rfl, fun hc => absurd (h.2.1 _ hc).2 (by decide)⟩

theorem starts_comma (prev : Option Char) (a b more : Str) (ha : Ows a) (hb : Ows b)
    (hm : ∀ c, more.head? = some c → Py.isSpace c = false) :
    Starts etagEnd prev (a ++ ',' :: (b ++ more)) ⟨a ++ ',' :: b, more, []⟩ := by
  apply starts_altl
  have h1 : Starts (star true (cls Py.isSpace)) prev (a ++ ',' :: (b ++ more)) ⟨a, ',' :: (b ++ more), []⟩ :=
    ows_star _ _ ha (by intro c hc; simp at hc; subst hc; decide) _
  have h2 : Starts (cls (· == ',')) (after prev a) (',' :: (b ++ more)) ⟨[','], b ++ more, []⟩ :=
    starts_cls (by decide)
  have h3 : Starts (star true (cls Py.isSpace)) (after (after prev a) [',']) (b ++ more) ⟨b, more, []⟩ :=
    ows_star _ _ hb hm _
  simpa [M.comb] using starts_seq h1 (starts_seq h2 h3)

theorem starts_tag (t : TagItem) (tail : Str) (ht : Tag t.tag) (m : M Char)
    (hend : ∀ prev, Starts etagEnd prev tail m) (hm : m.caps = []) :
    ∃ txt, Starts etagRe none (t.text ++ tail)
      ⟨txt, m.rest, [(2, t.tag)] ++ if t.weak then [(1, ['W', '/'])] else []⟩ := by
  have hbody : ∀ prev, Starts (seq (alt etagQuoted (grp 3 (star false (cls dot)))) etagEnd) prev
      ('"' :: (t.tag ++ '"' :: tail)) ⟨'"' :: (t.tag ++ ['"']) ++ m.txt, m.rest, [(2, t.tag)]⟩ := by
    intro prev
    have h1 : Starts (alt etagQuoted (grp 3 (star false (cls dot)))) prev _ _ :=
      starts_altl (EtagAux.starts_quoted prev t.tag tail ht)
    have := starts_seq h1 (hend _)
    simpa [M.comb, hm] using this
  unfold TagItem.text
  cases hw : t.weak with
  | false =>
    have hw : Starts etagWeak none ('"' :: (t.tag ++ '"' :: tail)) ⟨[], '"' :: (t.tag ++ '"' :: tail), []⟩ :=
      starts_altr (run_grp_nil (run_seq_nil (run_cls_ne (by intro c hc; simp at hc; subst hc; decide))))
        starts_eps
    exact ⟨_, by simpa [M.comb, etagRe] using starts_seq hw (hbody _)⟩
  | true =>
    have hw : Starts etagWeak none ('W' :: '/' :: '"' :: (t.tag ++ '"' :: tail))
        ⟨['W', '/'], '"' :: (t.tag ++ '"' :: tail), [(1, ['W', '/'])]⟩ := by
      apply starts_altl
      exact starts_grp 1 (starts_seq (starts_cls (by decide)) (starts_cls (by decide)))
    exact ⟨_, by simpa [M.comb, etagRe] using starts_seq hw (hbody _)⟩

theorem tag_head (t : TagItem) (s : Str) :
    (∀ c, (t.text ++ s).head? = some c → Py.isSpace c = false) ∧ t.text ++ s ≠ [] := by
  unfold TagItem.text
  cases t.weak
  · refine ⟨?_, by simp⟩
    intro c hc; simp at hc; subst hc; decide
  · refine ⟨?_, by simp⟩
    intro c hc; simp at hc; subst hc; decide

theorem tags_head (ts : List TagItem) : ∀ c, (tagsText ts).head? = some c → Py.isSpace c = false := by
  match ts with
  | [] => intro c hc; cases hc
  | [t] => simpa [tagsText] using (tag_head t []).1
  | t :: u :: ts => exact (tag_head t _).1

/-- The tags of one kind. -/
def tagsOf (w : Bool) (ts : List TagItem) : List (Option Str) :=
  (ts.filter (fun t => t.weak == w)).map fun t => some t.tag

theorem parse_tags (ts : List TagItem) (h : ∀ t ∈ ts, t.Ok) :
    ∀ (n : Nat) (S W : List (Option Str)), ts.length < n →
    parseLoop n S W (tagsText ts) = some (Etag.mk (S ++ tagsOf false ts) (W ++ tagsOf true ts) false) := by
  induction ts with
  | nil =>
    intro n S W hn
    cases n with
    | zero => simp at hn
    | succ n => simp [parseLoop, tagsText, tagsOf]
  | cons t ts ih =>
    intro n S W hn
    cases n with
    | zero => simp at hn
    | succ n =>
      have htag := tag_ok t (h t (by simp))
      have hshape : ∃ tail c0, tagsText (t :: ts) = t.text ++ tail ∧
          ∀ prev, Starts etagEnd prev tail ⟨c0, tagsText ts, []⟩ := by
        cases ts with
        | nil => exact ⟨[], [], by simp [tagsText], fun prev => (starts_end prev [] (by simp)).1⟩
        | cons u us =>
          exact ⟨_, _, rfl, fun prev => starts_comma prev _ _ _ (h t (by simp)).2.2.1 (h t (by simp)).2.2.2
            (tags_head _)⟩
      obtain ⟨tail, c0, hj, hend⟩ := hshape
      obtain ⟨txt, hst⟩ := starts_tag t tail htag _ hend rfl
      have next := ih (fun u hu => h u (by simp [hu])) n
      rw [hj]
      simp only [parseLoop, if_neg (tag_head t tail).2, hst.first]
      obtain ⟨c, cs, hc⟩ : ∃ c cs, t.tag = c :: cs := by
        cases hT : t.tag with
        | nil => exact absurd hT htag.1
        | cons c cs => exact ⟨c, cs, rfl⟩
      have hlen : ts.length < n := by simpa using hn
      cases hw : t.weak
      · simp [M.group, List.lookup, hc, next _ _ hlen, tagsOf, hw]
      · simp [M.group, List.lookup, hc, next _ _ hlen, tagsOf, hw]

/-- C143, entity tags: the strong and the weak tags of a list are read as RFC 7232 says, however
the commas are spaced.  Missing: the empty tag and empty elements. -/
theorem C143_etags_partial (ts : List TagItem) (h : ∀ t ∈ ts, t.Ok) (n : Nat) (hn : ts.length < n) :
    ∃ e, parseEtags n (some (tagsText ts)) = some e ∧ e.star = false ∧
      ∀ x, (some x ∈ e.strong ↔ ∃ t ∈ ts, t.weak = false ∧ t.tag = x) ∧
        (some x ∈ e.weak ↔ ∃ t ∈ ts, t.weak = true ∧ t.tag = x) := by
  have e : parseEtags n (some (tagsText ts)) = some (Etag.mk (tagsOf false ts) (tagsOf true ts) false) := by
    unfold parseEtags
    simp only
    split
    · rename_i h0
      have : ts = [] := by
        match ts with
        | [] => rfl
        | [t] => exact absurd (by simpa [tagsText] using h0) (tag_head t []).2
        | t :: u :: us => exact absurd h0 (tag_head t _).2
      subst this
      rfl
    · simpa using parse_tags ts h n [] [] hn
  refine ⟨_, e, rfl, fun x => ?_⟩
  constructor
  · simp [Etag.mk, tagsOf, and_assoc]
  · simp [Etag.mk, tagsOf, and_assoc]

/-! ### What is not read as the RFCs say -/

/-- C143 (refutation), lists: a value that begins and ends with a quote loses them, and an empty
element gives an empty value. -/
theorem C143_list_false :
    (∃ e : Element, e.Ok ∧ parseListHeader (listText [e]) ≠ [e.value]) ∧
    parseListHeader s%"a, ,b" = [s%"a", s%"", s%"b"] := by
  refine ⟨⟨⟨[], s%"\"\\\"x\\\"\"", s%"\"x\"", []⟩, ⟨by simp [Ows], by simp [Ows], .inr ⟨s%"\\\"x\\\"", rfl, ?_⟩⟩,
    by decide +kernel⟩, by decide +kernel⟩
  exact .esc _ _ _ (.plain _ _ _ (by decide) (by decide) (.esc _ _ _ .nil))

/-- C143 (refutation), pairs: white space before an equals sign (RFC 7235 2.1) stays in the name,
and a name in other letters is another one. -/
theorem C143_dict_false :
    (parseDictHeader s%"realm = \"x\"").lookup s%"realm" = none ∧
    (parseDictHeader s%"Max-Age=3").lookup s%"max-age" = none := by
  decide +kernel

/-- C143 (refutation), parameters: white space behind a token stays in the value, the backslash of
an escaped letter stays, a name in other letters is another one, and a file name that begins with
a backslash keeps its escapes. -/
theorem C143_options_false :
    parseOptionsHeader s%"text/html; charset=utf-8 ; q=1" =
      .ok (s%"text/html", [(s%"charset", some s%"utf-8 "), (s%"q", some s%"1")]) ∧
    parseOptionsHeader s%"text/html; charset=\"\\utf-8\"" =
      .ok (s%"text/html", [(s%"charset", some s%"\\utf-8")]) ∧
    parseOptionsHeader s%"text/html; Charset=utf-8" =
      .ok (s%"text/html", [(s%"Charset", some s%"utf-8")]) ∧
    parseOptionsHeader s%"form-data; filename=\"\\\\x\"" =
      .ok (s%"form-data", [(s%"filename", some s%"\\\\x")]) := by
  refine ⟨?_, ?_, ?_, ?_⟩ <;> decide +kernel

/-- C143 (refutation), entity tags: the empty tag is not among the tags that are read. -/
theorem C143_etags_false : parseEtags 9 (some s%"\"\"") = some ⟨[none], [], false⟩ := by decide +kernel

/-! ### Examples -/

example : ∃ es : List Element, (∀ e ∈ es, e.Ok) ∧
    (∀ e ∈ es, ¬ (e.value.head? = some '"' ∧ e.value.getLast? = some '"')) ∧
    listText es = s%"gzip ,\t\"a\\,b, \\\"c\"" ∧ es.map (·.value) = [s%"gzip", s%"a,b, \"c"] := by
  refine ⟨[⟨[], s%"gzip", s%"gzip", s%" "⟩, ⟨s%"\t", s%"\"a\\,b, \\\"c\"", s%"a,b, \"c", []⟩], ?_, by decide, by decide, rfl⟩
  intro e he
  simp only [List.mem_cons, List.not_mem_nil, or_false] at he
  rcases he with rfl | rfl
  · exact ⟨by simp [Ows], by simp [Ows], .inl ⟨⟨by decide, by unfold IsTChar; decide⟩, rfl⟩⟩
  · refine ⟨by simp [Ows], by simp [Ows], .inr ⟨s%"a\\,b, \\\"c", rfl, ?_⟩⟩
    exact .plain _ _ _ (by decide) (by decide) (.esc _ _ _ (.plain _ _ _ (by decide) (by decide)
      (.plain _ _ _ (by decide) (by decide) (.plain _ _ _ (by decide) (by decide) (.esc _ _ _
      (.plain _ _ _ (by decide) (by decide) .nil))))))

example : ∃ ps : List Pair, (∀ p ∈ ps, p.Ok) ∧
    (∀ p ∈ ps, ∀ x, p.value = some x → ¬ (x.2.head? = some '"' ∧ x.2.getLast? = some '"')) ∧
    dictText ps = s%"no-cache , max-age=3,private=\"a\\b\"" ∧
    ps.map (fun p => (p.name, p.value.map (·.2))) =
      [(s%"no-cache", none), (s%"max-age", some s%"3"), (s%"private", some s%"ab")] := by
  refine ⟨[⟨[], s%"no-cache", none, s%" "⟩, ⟨s%" ", s%"max-age", some (s%"3", s%"3"), []⟩,
    ⟨[], s%"private", some (s%"\"a\\b\"", s%"ab"), []⟩], ?_, by decide, by decide, by decide⟩
  intro p hp
  simp only [List.mem_cons, List.not_mem_nil, or_false] at hp
  rcases hp with rfl | rfl | rfl
  · exact ⟨by simp [Ows], by simp [Ows], ⟨by decide, by unfold IsTChar; decide⟩, by simp⟩
  · refine ⟨by simp [Ows], by simp [Ows], ⟨by decide, by unfold IsTChar; decide⟩, ?_⟩
    intro x hx; cases hx
    exact .inl ⟨⟨by decide, by unfold IsTChar; decide⟩, rfl⟩
  · refine ⟨by simp [Ows], by simp [Ows], ⟨by decide, by unfold IsTChar; decide⟩, ?_⟩
    intro x hx; cases hx
    exact .inr ⟨s%"a\\b", rfl, .plain _ _ _ (by decide) (by decide) (.esc _ _ _ .nil)⟩

example : ∃ ps : List Param, (∀ p ∈ ps, p.Ok) ∧
    (∀ p ∈ ps, p.name = s%"filename" → p.value.head? ≠ some '\\') ∧ (ps.map (·.name)).Nodup ∧
    optionsText [] s%"form-data" s%" " ps = s%"form-data ;name=a;\tfilename=\"b\\\"c;\" " ∧
    ps.map (·.value) = [s%"a", s%"b\"c;"] := by
  refine ⟨[⟨[], s%"name", s%"a", s%"a", []⟩, ⟨s%"\t", s%"filename", s%"\"b\\\"c;\"", s%"b\"c;", s%" "⟩],
    ?_, by decide, by decide, by decide, by decide⟩
  intro p hp
  simp only [List.mem_cons, List.not_mem_nil, or_false] at hp
  rcases hp with rfl | rfl
  · exact ⟨by simp [Ows], ⟨by decide, by unfold IsTChar; decide⟩,
      .inl ⟨⟨by decide, by unfold IsTChar; decide⟩, rfl, rfl⟩⟩
  · refine ⟨by simp [Ows], ⟨by decide, by unfold IsTChar; decide⟩, .inr ⟨by simp [Ows], s%"b\\\"c;", rfl, ?_⟩⟩
    exact .plain _ _ _ (by decide) (by decide) (.esc _ _ _ (.inl rfl) (.plain _ _ _ (by decide) (by decide)
      (.plain _ _ _ (by decide) (by decide) .nil)))

example : ∃ ts : List TagItem, (∀ t ∈ ts, t.Ok) ∧ tagsText ts = s%"\"a,b\"\t,W/\"c\" , \"d\"" := by
  refine ⟨[⟨false, s%"a,b", s%"\t", []⟩, ⟨true, s%"c", s%" ", s%" "⟩, ⟨false, s%"d", [], []⟩], ?_, by decide⟩
  intro t ht
  simp only [List.mem_cons, List.not_mem_nil, or_false] at ht
  rcases ht with rfl | rfl | rfl
  · exact ⟨by decide, by decide, by simp [Ows], by simp [Ows]⟩
  · exact ⟨by decide, by decide, by simp [Ows], by simp [Ows]⟩
  · exact ⟨by decide, by decide, by simp [Ows], by simp [Ows]⟩

end Verif.Props.GrammarP
