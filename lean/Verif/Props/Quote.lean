import Verif.QuoteLemmas
/-! Property theorems C01-C04: header quoting, list headers, dictionary headers. -/
namespace Verif.Props
open Verif Verif.Quote Verif.Spec

/-- C01.  Unquoting a quoted header value gives the value back, for every string, with or
without the token shortcut, and for any extra unquoted characters other than `"`. -/
theorem C01_quote_roundtrip (v extra : Str) (allowToken : Bool) (h : '"' ∉ extra) :
    unquoteHeaderValue (quoteHeaderValue v extra allowToken) = v := by
  unfold quoteHeaderValue
  split
  · rename_i ht
    apply unquote_id
    left
    cases v with
    | nil => simp
    | cons c cs =>
      simp only [List.head?_cons, ne_eq, Option.some.injEq]
      intro hc; subst hc
      simp only [Bool.and_eq_true, List.all_cons, Bool.or_eq_true] at ht
      rcases ht.2.1 with h1 | h1
      · revert h1; decide
      · exact h (by simpa using h1)
  · exact unquote_quoteAlways v

example : unquoteHeaderValue (quoteHeaderValue s%"a\\\"b\\" [] true) = s%"a\\\"b\\" :=
  C01_quote_roundtrip _ _ _ (by simp)
example : quoteHeaderValue s%"a\\\"b" [] true = s%"\"a\\\\\\\"b\"" := by decide

/-- C01, file name variant (`is_filename=True`, used for the `filename` option): the
round trip holds exactly for values that are plain tokens or do not start with a
backslash. -/
theorem C01_filename_roundtrip_iff (v : Str) :
    unquoteHeaderValue (quoteHeaderValue v) true = v ↔ v.head? ≠ some '\\' := by
  by_cases ht : (true && v.all (fun c => tokenChars.contains c)) = true
  · rw [quoteHeaderValue_token true v ht]
    have hno := token_no_quote v (by simpa using ht)
    constructor
    · intro _ hb
      exact (hno '\\' (List.mem_of_head? hb)).2.1 rfl
    · intro _
      apply unquote_id
      left; intro hb; exact (hno '"' (List.mem_of_head? hb)).1 rfl
  · rw [quoteHeaderValue_quoted true v ht, quoteAlways_eq]
    have h1 : ('"' :: (v.flatMap escChar ++ ['"'])).getLast? = some '"' := by
      rw [← List.cons_append, List.getLast?_append]; simp
    have h2 : Py.slice1m1 ('"' :: (v.flatMap escChar ++ ['"'])) = v.flatMap escChar := by
      simp [Py.slice1m1]
    unfold unquoteHeaderValue
    rw [if_pos ⟨rfl, h1⟩, h2]
    cases v with
    | nil => simp at ht
    | cons c cs =>
      by_cases hc : c = '\\'
      · subst hc
        simp only [List.flatMap_cons, escChar, if_true, List.cons_append, List.nil_append,
          List.take_succ_cons, List.take_zero, List.head?_cons, ne_eq, not_true_eq_false, iff_false]
        rw [if_neg (by simp)]
        intro he
        have hlen := congrArg List.length he
        have hle : ∀ l : Str, l.length ≤ (l.flatMap escChar).length := by
          intro l
          induction l with
          | nil => simp
          | cons x xs ih =>
            simp only [List.flatMap_cons, List.length_append, List.length_cons]
            have : 1 ≤ (escChar x).length := by unfold escChar; split <;> (try split) <;> simp
            omega
        have := hle cs
        simp only [List.length_cons] at hlen
        omega
      · have hcond : (!true || decide (((c :: cs).flatMap escChar).take 2 ≠ ['\\', '\\'])) = true := by
          simp only [List.flatMap_cons, escChar, hc, if_false]
          by_cases hq : c = '"'
          · subst hq; simp
          · simp [hq]; exact Or.inl hc
        simp only [List.head?_cons, ne_eq, Option.some.injEq, hc, not_false_eq_true, iff_true]
        rw [if_pos (by simpa using hcond), unesc1, unesc2]

example : unquoteHeaderValue (quoteHeaderValue s%"\\\\srv\\x") true ≠ s%"\\\\srv\\x" := by decide

/-- C02.  A quoted header value is either the unchanged value consisting of RFC 7230 token
characters only, or one complete quoted-string denoting exactly the value. -/
theorem C02_quote_wellformed (v : Str) (allowToken : Bool) :
    (quoteHeaderValue v [] allowToken = v ∧ ∀ c ∈ v, IsTChar c) ∨
    QuotedString (quoteHeaderValue v [] allowToken) v := by
  unfold quoteHeaderValue
  split
  · rename_i ht
    left
    refine ⟨rfl, ?_⟩
    intro c hc
    have hall := List.all_eq_true.mp ((Bool.and_eq_true _ _ ▸ ht).2) c hc
    have hc' : c ∈ tokenChars := by simpa using hall
    have key : ∀ c ∈ tokenChars, c.isAlphanum = true ∨ c ∈ ['!', '#', '$', '%', '&', '\'', '*', '+', '-', '.', '^', '_', '`', '|', '~'] := by
      decide
    exact key c hc'
  · right
    refine ⟨v.flatMap escChar, ?_, ?_⟩
    · rw [quoteAlways_eq]; rfl
    · induction v with
      | nil => exact .nil
      | cons c cs ih =>
        have ih' : QText (cs.flatMap escChar) cs := by
          clear ih; rename_i h; clear h
          induction cs with
          | nil => exact .nil
          | cons d ds ih2 =>
            simp only [List.flatMap_cons, escChar]
            split
            · rename_i hb; subst hb; exact .esc _ _ _ ih2
            · split
              · rename_i hq; subst hq; exact .esc _ _ _ ih2
              · rename_i h1 h2; exact .plain d _ _ h2 h1 ih2
        simp only [List.flatMap_cons, escChar]
        split
        · rename_i hb; subst hb; exact .esc _ _ _ ih'
        · split
          · rename_i hq; subst hq; exact .esc _ _ _ ih'
          · rename_i h1 h2; exact .plain c _ _ h2 h1 ih'

/-- A quoted-string denotes only one value, so C02 pins the encoded value down. -/
theorem C02_quoted_string_unique (s v w : Str) (h1 : QuotedString s v) (h2 : QuotedString s w) :
    v = w := by
  obtain ⟨b1, e1, q1⟩ := h1
  obtain ⟨b2, e2, q2⟩ := h2
  have hb : b1 = b2 := by
    have := e1.symm.trans e2
    simpa using this
  subst hb
  clear e1 e2 s
  induction q1 generalizing w with
  | nil => cases q2; rfl
  | plain c b v h1 h2 _ ih =>
    cases q2 with
    | plain _ _ w' _ _ hq => rw [ih _ hq]
    | esc c' _ _ _ => exact absurd rfl h2
  | esc c b v _ ih =>
    cases q2 with
    | plain _ _ _ _ hq _ => exact absurd rfl hq
    | esc _ _ w' hq => rw [ih _ hq]

example : quoteHeaderValue s%"x\"; evil=1" [] true = s%"\"x\\\"; evil=1\"" := by decide

/-- C03 (refutation).  The list header round trip does not hold for every list: a value
that starts and ends with a quote loses characters, and the list holding one empty
string parses as the empty list. -/
theorem C03_list_roundtrip_false :
    (¬ ∀ items, parseListHeader (dumpHeaderList items) = items) ∧
    parseListHeader (dumpHeaderList [s%"\"x\""]) = [s%"x"] ∧
    parseListHeader (dumpHeaderList [[]]) = [] := by
  refine ⟨fun h => ?_, by decide, by decide⟩
  have := h [[]]
  revert this; decide

/-- C03.  Exactly when the list header round trip holds: no item both starts and ends with
a quote, and the list is not the single empty string dumped as a token. -/
theorem C03_list_roundtrip_partial (items : List Str) (allowToken : Bool) :
    parseListHeader (dumpHeaderList items allowToken) = items ↔
      (∀ v ∈ items, ¬ (v.head? = some '"' ∧ v.getLast? = some '"')) ∧
      ¬ (items = [[]] ∧ allowToken = true) := by
  by_cases hbad : items = [[]] ∧ allowToken = true
  · obtain ⟨rfl, rfl⟩ := hbad
    simp; decide
  · have hok : items ≠ [[]] ∨ allowToken = false := by
      by_cases h : items = [[]]
      · right; cases allowToken with
        | false => rfl
        | true => exact absurd ⟨h, rfl⟩ hbad
      · exact Or.inl h
    rw [parse_dump_list items allowToken hok]
    simp only [hbad, not_false_eq_true, and_true]
    constructor
    · intro h v hv hq
      have hm := Py.map_eq_self.mp h v hv
      split at hm
      · rename_i ht
        have := token_no_quote v (by simp at ht; simpa using ht.2) '"' (List.mem_of_head? hq.1)
        exact this.1 rfl
      · have := unquote_shorter v hq.1 hq.2
        rw [hm] at this; omega
    · intro h
      apply Py.map_eq_self.mpr
      intro v hv
      split
      · rfl
      · apply unquote_id
        have := h v hv
        by_cases h1 : v.head? = some '"'
        · right; intro h2; exact this ⟨h1, h2⟩
        · exact Or.inl h1

example : parseListHeader (dumpHeaderList [s%"a, b", [], s%"x\"y", s%" z\\"]) =
    [s%"a, b", [], s%"x\"y", s%" z\\"] :=
  (C03_list_roundtrip_partial _ _).mpr (by decide)

/-- C04 (refutation).  A dictionary header value that starts and ends with a quote is not
preserved. -/
theorem C04_dict_roundtrip_false :
    parseDictHeader (dumpHeaderDict [(s%"k", some s%"\"x\"")]) = [(s%"k", some s%"x")] := by
  decide

/-- C04.  For every mapping whose keys are non-empty, free of `,` `"` `=` and of
surrounding whitespace, parsing the dumped dictionary gives the same mapping (in the same
order) exactly when no value both starts and ends with a quote. -/
theorem C04_dict_roundtrip_partial (d : List (Str × Option Str)) (allowToken : Bool)
    (hk : ∀ kv ∈ d, kv.1 ≠ [] ∧ (∀ c ∈ kv.1, c ≠ ',' ∧ c ≠ '"' ∧ c ≠ '=') ∧ Py.strip kv.1 = kv.1)
    (hnd : (d.map (·.1)).Nodup) :
    parseDictHeader (dumpHeaderDict d allowToken) = d ↔
      ∀ k v, (k, some v) ∈ d → ¬ (v.head? = some '"' ∧ v.getLast? = some '"') := by
  rw [parse_dump_dict d allowToken hk hnd]
  constructor
  · intro h k v hv hq
    have hm := Py.map_eq_self.mp h (k, some v) hv
    simp only [Option.map_some, Prod.mk.injEq, Option.some.injEq, true_and] at hm
    split at hm
    · rename_i ht
      have := token_no_quote v (by simp at ht; simpa using ht.2) '"' (List.mem_of_head? hq.1)
      exact this.1 rfl
    · have := unquote_shorter v hq.1 hq.2
      rw [hm] at this; omega
  · intro h
    apply Py.map_eq_self.mpr
    rintro ⟨k, v⟩ hv
    cases v with
    | none => rfl
    | some v =>
      simp only [Option.map_some, Prod.mk.injEq, Option.some.injEq, true_and]
      split
      · rfl
      · apply unquote_id
        have := h k v hv
        by_cases h1 : v.head? = some '"'
        · right; intro h2; exact this ⟨h1, h2⟩
        · exact Or.inl h1

/-- C04, repeated names.  A name that occurs several times in the header comes back once, with
its last value. -/
theorem C04_last_wins (d : List (Str × Option Str)) (allowToken : Bool)
    (hk : ∀ kv ∈ d, kv.1 ≠ [] ∧ (∀ c ∈ kv.1, c ≠ ',' ∧ c ≠ '"' ∧ c ≠ '=') ∧ Py.strip kv.1 = kv.1)
    (hv : ∀ k v, (k, some v) ∈ d → ¬ (v.head? = some '"' ∧ v.getLast? = some '"')) :
    (∀ x, (parseDictHeader (dumpHeaderDict d allowToken)).lookup x = d.reverse.lookup x) ∧
    ((parseDictHeader (dumpHeaderDict d allowToken)).map (·.1)).Nodup := by
  have e : parseDictHeader (dumpHeaderDict d allowToken) = d.foldl (fun d kv => dictSet d kv.1 kv.2) [] := by
    refine (parse_dump_fold (fun _ => allowToken) d hk).trans (congrArg (fun l => List.foldl _ [] l) ?_)
    apply Py.map_eq_self.mpr
    rintro ⟨k, v⟩ hm
    cases v with
    | none => rfl
    | some v =>
      simp only [Option.map_some, Prod.mk.injEq, Option.some.injEq, true_and]
      split
      · rfl
      · apply unquote_id
        have := hv k v hm
        by_cases h1 : v.head? = some '"'
        · right; intro h2; exact this ⟨h1, h2⟩
        · exact Or.inl h1
  rw [e]
  refine ⟨fun x => ?_, keys_foldl_dictSet d [] (by simp)⟩
  rw [lookup_foldl_dictSet]
  simp

example : parseDictHeader s%"a=1, b=2, a=\"3 4\"" = [(s%"a", some s%"3 4"), (s%"b", some s%"2")] := by decide

example : parseDictHeader (dumpHeaderDict [(s%"max-age", some s%"0"), (s%"no-store", none),
    (s%"x", some s%"a=\"b\", c")]) =
    [(s%"max-age", some s%"0"), (s%"no-store", none), (s%"x", some s%"a=\"b\", c")] :=
  (C04_dict_roundtrip_partial _ _ (by decide) (by decide)).mpr (by
    intro k v h
    simp only [List.mem_cons, Prod.mk.injEq, Option.some.injEq, List.not_mem_nil, or_false] at h
    rcases h with ⟨_, rfl⟩ | ⟨_, h⟩ | ⟨_, rfl⟩ <;> first | decide | cases h)

end Verif.Props
