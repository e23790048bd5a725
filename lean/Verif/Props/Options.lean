import Verif.PyLemmas
import Verif.QuoteLemmas
import Verif.RegexLemmas
import Verif.Model.Options
import Verif.Props.Quote
/-! Property theorem C05: option headers. -/
namespace Verif.Props
open Verif Verif.Re Verif.Quote Verif.Options

namespace OptAux

/-- A name that needs no quoting: non-empty, no white space, `;`, `=` or quote. -/
def CleanName (k : Str) : Prop :=
  k ≠ [] ∧ ∀ c ∈ k, Py.isSpace c = false ∧ c ≠ ';' ∧ c ≠ '=' ∧ c ≠ '"'

/-- Escaped text is matched completely by the inside of the quoted-string pattern. -/
theorem starts_body (v tail : Str) : ∀ prev, ∃ m1 m2 : M Char,
    Starts (star true (cls plainCh)) prev (v.flatMap escChar ++ '"' :: tail) m1 ∧
    Starts (star true (seq (cls (· == '\\')) (seq (cls (· != '\n')) (star true (cls plainCh)))))
      (after prev m1.txt) m1.rest m2 ∧
    m1.txt ++ m2.txt = v.flatMap escChar ∧ m2.rest = '"' :: tail ∧ m1.caps = [] ∧ m2.caps = [] := by
  induction v with
  | nil =>
    intro prev
    refine ⟨⟨[], '"' :: tail, []⟩, ⟨[], '"' :: tail, []⟩, ?_, ?_, rfl, rfl, rfl, rfl⟩
    · exact starts_star (a := []) (by simp) (by intro c hc; simp at hc; subst hc; decide)
    · apply starts_star_stop
      exact run_seq_nil (run_cls_ne (by intro c hc; simp at hc; subst hc; decide))
  | cons c cs ih =>
    intro prev
    by_cases hc : c = '"' ∨ c = '\\'
    · -- an escaped character: the class repetition stops, the outer repetition takes it
      have he : escChar c = ['\\', c] := by
        rcases hc with rfl | rfl <;> decide
      obtain ⟨m1, m2, h1, h2, htxt, hrest, hc1, hc2⟩ := ih (some c)
      refine ⟨⟨[], '\\' :: c :: (cs.flatMap escChar ++ '"' :: tail), []⟩,
        ⟨'\\' :: c :: (m1.txt ++ m2.txt), '"' :: tail, []⟩, ?_, ?_, ?_, rfl, rfl, rfl⟩
      · have := starts_star (p := plainCh) (prev := prev) (a := [])
          (b := '\\' :: c :: (cs.flatMap escChar ++ '"' :: tail)) (by simp)
          (by intro d hd; simp at hd; subst hd; decide)
        simpa [he] using this
      · have hb : Starts (seq (cls (· == '\\')) (seq (cls (· != '\n')) (star true (cls plainCh)))) prev
            ('\\' :: c :: (cs.flatMap escChar ++ '"' :: tail)) ⟨'\\' :: c :: m1.txt, m1.rest, []⟩ := by
          have s1 : Starts (cls (· == '\\')) prev ('\\' :: c :: (cs.flatMap escChar ++ '"' :: tail))
              ⟨['\\'], c :: (cs.flatMap escChar ++ '"' :: tail), []⟩ := starts_cls (by decide)
          have s2 : Starts (cls (· != '\n')) (some '\\') (c :: (cs.flatMap escChar ++ '"' :: tail))
              ⟨[c], cs.flatMap escChar ++ '"' :: tail, []⟩ :=
            starts_cls (by rcases hc with rfl | rfl <;> decide)
          have := starts_seq s1 (starts_seq s2 h1)
          simpa [M.comb, hc1] using this
        have hmore := starts_star_more (by simp) hb (m' := ⟨m2.txt, '"' :: tail, []⟩) (by
          have haft : after prev ('\\' :: c :: m1.txt) = after (some c) m1.txt := by
            simp only [after]
            cases h : m1.txt.getLast? with
            | none => rw [List.getLast?_eq_none_iff] at h; simp [h]
            | some d => simp [List.getLast?_cons, h]
          simp only [haft]
          have : m2 = ⟨m2.txt, '"' :: tail, []⟩ := by
            cases m2; simp at hrest hc2; simp [hrest, hc2]
          rw [← this]; exact h2)
        simpa [M.comb, after] using hmore
      · simp [he, htxt]
    · -- a plain character joins the first run
      have he : escChar c = [c] := by
        simp only [not_or] at hc; simp [escChar, hc.1, hc.2]
      have hp : plainCh c = true := by
        simp only [not_or] at hc; simp [plainCh, hc.1, hc.2]
      obtain ⟨m1, m2, h1, h2, htxt, hrest, hc1, hc2⟩ := ih (some c)
      refine ⟨⟨c :: m1.txt, m1.rest, []⟩, m2, ?_, ?_, ?_, hrest, rfl, hc2⟩
      · have := starts_star_more (prev := prev) (a := cls plainCh) (m := ⟨[c], cs.flatMap escChar ++ '"' :: tail, []⟩)
          (by simp) (starts_cls hp) (by simpa [after] using h1)
        simpa [he, M.comb, hc1] using this
      · have haft : after prev (c :: m1.txt) = after (some c) m1.txt := by
          simp only [after]
          cases h : m1.txt.getLast? with
          | none => rw [List.getLast?_eq_none_iff] at h; simp [h]
          | some d => simp [List.getLast?_cons, h]
        simpa [haft] using h2
      · simp [he, ← htxt]

/-- The quoted-string pattern matches exactly the quoted form. -/
theorem starts_quoted (v tail : Str) (prev : Option Char) :
    Starts quotedRe prev (quoteAlways v ++ tail) ⟨quoteAlways v, tail, []⟩ := by
  rw [quoteAlways_eq]
  obtain ⟨m1, m2, h1, h2, htxt, hrest, hc1, hc2⟩ := starts_body v tail (some '"')
  have s0 : Starts (cls (· == '"')) prev ('"' :: (v.flatMap escChar ++ '"' :: tail))
      ⟨['"'], v.flatMap escChar ++ '"' :: tail, []⟩ := starts_cls (by decide)
  have s3 : ∀ p, Starts (cls (· == '"')) p m2.rest ⟨['"'], tail, []⟩ := by
    intro p; rw [hrest]; exact starts_cls (by decide)
  have := starts_seq s0 (starts_seq h1 (starts_seq h2 (s3 _)))
  simp only [M.comb, hc1, hc2, List.append_nil] at this
  have e : ['"'] ++ (m1.txt ++ (m2.txt ++ ['"'])) = '"' :: (v.flatMap escChar ++ ['"']) := by
    rw [← List.append_assoc m1.txt, htxt]; simp
  rw [e] at this
  simpa [quotedRe] using this

/-- The rest of the header after a piece. -/
def Tail (t : Str) : Prop := t = [] ∨ t.head? = some ';'

theorem Tail.head {t : Str} (h : Tail t) (c : Char) (hc : t.head? = some c) : c = ';' := by
  rcases h with rfl | h
  · simp at hc
  · rw [h] at hc; simpa using hc.symm

theorem starts_spaces (prev : Option Char) (t : Str) (h : ∀ c, t.head? = some c → Py.isSpace c = false) :
    Starts (star true (cls Py.isSpace)) prev t ⟨[], t, []⟩ := starts_star (a := []) (by simp) h

/-- The key group takes the whole name. -/
theorem starts_key (prev : Option Char) (k t : Str) (hk : CleanName k)
    (ht : ∀ c, t.head? = some c → keyCh c = false) :
    Starts (grp 1 (alt quotedRe (plus (cls keyCh)))) prev (k ++ t) ⟨k, t, [(1, k)]⟩ := by
  have hq : run quotedRe prev (k ++ t) = [] := by
    apply run_seq_nil
    apply run_cls_ne
    intro c hc
    cases k with
    | nil => exact absurd rfl hk.1
    | cons d ds =>
      simp at hc; subst hc
      simpa using (hk.2 d (by simp)).2.2.2
  have hp : Starts (plus (cls keyCh)) prev (k ++ t) ⟨k, t, []⟩ := by
    apply starts_plus hk.1 _ ht
    intro c hc
    obtain ⟨h1, h2, h3, _⟩ := hk.2 c hc
    simp [keyCh, h1, h2, h3]
  exact starts_grp 1 (starts_altr hq hp)

/-- What the optional value part does on the serialised value. -/
def valText : Option Str → Str
  | none => []
  | some v => '=' :: quoteHeaderValue v

/-- The value text the second group captures. -/
def valCap (v : Option Str) : List (Nat × Str) :=
  match v with
  | none => []
  | some v => if v = [] then [] else [(2, quoteHeaderValue v)]

/-- Unmatched rest: an empty value leaves its `=` behind. -/
def valRest (v : Option Str) (t : Str) : Str :=
  match v with
  | some [] => '=' :: t
  | _ => t

theorem starts_value (prev : Option Char) (v : Option Str) (t : Str) (ht : Tail t) :
    ∃ txt, Starts (opt (seq (cls (· == '=')) (seq (star true (cls Py.isSpace))
      (grp 2 (alt quotedRe (plus (cls (· != ';')))))))) prev (valText v ++ t)
      ⟨txt, valRest v t, valCap v⟩ := by
  cases v with
  | none =>
    refine ⟨[], starts_altr ?_ starts_eps⟩
    apply run_seq_nil; apply run_cls_ne
    intro c hc
    have := ht.head c (by simpa [valText] using hc)
    subst this; decide
  | some v =>
    have s0 : ∀ x : Str, Starts (cls (· == '=')) prev ('=' :: x) ⟨['='], x, []⟩ := fun x => starts_cls (by decide)
    by_cases hv : v = []
    · subst hv
      refine ⟨[], starts_altr ?_ starts_eps⟩
      have hq : quoteHeaderValue [] = ([] : Str) := by decide
      simp only [valText, hq, List.cons_append, List.nil_append]
      apply run_seq_nil'
      intro m hm
      simp [run] at hm; subst hm
      apply run_seq_nil'
      intro m hm
      rw [run_star_cls, cutsG_stop] at hm
      · simp at hm; subst hm
        apply run_grp_nil
        apply run_alt_nil
        · exact run_seq_nil (run_cls_ne (fun c hc => by rw [ht.head c hc]; decide))
        · exact run_seq_nil (run_cls_ne (fun c hc => by rw [ht.head c hc]; decide))
      · intro c hc; rw [ht.head c hc]; decide
    · have hcap : valCap (some v) = [(2, quoteHeaderValue v)] := by simp [valCap, hv]
      have hrest : valRest (some v) t = t := by
        cases v with
        | nil => exact absurd rfl hv
        | cons => rfl
      rw [hcap, hrest]
      have hg : ∀ p, Starts (grp 2 (alt quotedRe (plus (cls (· != ';'))))) p (quoteHeaderValue v ++ t)
          ⟨quoteHeaderValue v, t, [(2, quoteHeaderValue v)]⟩ ∧
          ∀ c, (quoteHeaderValue v ++ t).head? = some c → Py.isSpace c = false := by
        intro p
        by_cases htok : (true && v.all (fun c => tokenChars.contains c)) = true
        · rw [quoteHeaderValue_token true v htok]
          have hno := token_no_quote v (by simpa using htok)
          constructor
          · refine starts_grp 2 (starts_altr ?_ (starts_plus hv ?_ ?_))
            · apply run_seq_nil; apply run_cls_ne
              intro c hc
              cases v with
              | nil => exact absurd rfl hv
              | cons d ds => simp at hc; subst hc; simpa using (hno d (by simp)).1
            · intro c hc; simpa using (hno c hc).2.2.2.2.1
            · intro c hc; rw [ht.head c hc]; decide
          · intro c hc
            cases v with
            | nil => exact absurd rfl hv
            | cons d ds => simp at hc; subst hc; exact (hno d (by simp)).2.2.2.2.2
        · rw [quoteHeaderValue_quoted true v htok]
          refine ⟨starts_grp 2 (starts_altl (starts_quoted v t p)), ?_⟩
          intro c hc
          rw [quoteAlways_eq] at hc; simp at hc; subst hc; decide
      have h1 := starts_spaces (after prev ['=']) _ (hg none).2
      have := starts_seq (s0 _) (starts_seq h1 (hg _).1)
      exact ⟨_, starts_altl (by simpa [M.comb, valText] using this)⟩

/-- One piece of the header: `;`, optional spaces, name, value. -/
theorem starts_piece (prev : Option Char) (sp k : Str) (v : Option Str) (t : Str) (hk : CleanName k)
    (hsp : ∀ c ∈ sp, Py.isSpace c = true) (ht : Tail t) :
    ∃ txt, Starts pieceRe prev (';' :: (sp ++ (k ++ (valText v ++ t))))
      ⟨txt, valRest v t, valCap v ++ [(1, k)]⟩ := by
  have s0 : Starts (cls (· == ';')) prev (';' :: (sp ++ (k ++ (valText v ++ t))))
    ⟨[';'], sp ++ (k ++ (valText v ++ t)), []⟩ := starts_cls (by decide)
  have s1 : ∀ p, Starts (star true (cls Py.isSpace)) p (sp ++ (k ++ (valText v ++ t)))
      ⟨sp, k ++ (valText v ++ t), []⟩ := fun p => starts_star hsp (by
    intro c hc
    cases k with
    | nil => exact absurd rfl hk.1
    | cons d ds => simp at hc; subst hc; exact (hk.2 d (by simp)).1)
  have hvh : ∀ c, (valText v ++ t).head? = some c → c = ';' ∨ c = '=' := by
    intro c hc
    cases v with
    | none => left; exact ht.head c (by simpa [valText] using hc)
    | some v => right; simpa [valText] using hc.symm
  have s2 : ∀ p, Starts (grp 1 (alt quotedRe (plus (cls keyCh)))) p (k ++ (valText v ++ t))
      ⟨k, valText v ++ t, [(1, k)]⟩ := fun p => starts_key p k _ hk (by
    intro c hc
    rcases hvh c hc with rfl | rfl <;> decide)
  have s3 : ∀ p, Starts (star true (cls Py.isSpace)) p (valText v ++ t) ⟨[], valText v ++ t, []⟩ :=
    fun p => starts_spaces p _ (by intro c hc; rcases hvh c hc with rfl | rfl <;> decide)
  have hr : ∀ c, (valRest v t).head? = some c → c = ';' ∨ c = '=' := by
    intro c hc
    cases v with
    | none => left; exact ht.head c hc
    | some v => cases v with
      | nil => right; simpa [valRest] using hc.symm
      | cons => left; exact ht.head c hc
  have s5 : ∀ p, Starts (star true (cls Py.isSpace)) p (valRest v t) ⟨[], valRest v t, []⟩ :=
    fun p => starts_spaces p _ (by intro c hc; rcases hr c hc with rfl | rfl <;> decide)
  obtain ⟨txt, s4⟩ := starts_value (after (after (after (after prev [';']) sp) k) []) v t ht
  have := starts_seq s0 (starts_seq (s1 _) (starts_seq (s2 _) (starts_seq (s3 _) (starts_seq s4 (s5 _)))))
  exact ⟨_, by simpa [M.comb, pieceRe] using this⟩

/-- What an option comes back as. -/
def norm (kv : Str × Option Str) : Str × Option Str :=
  (kv.1, match kv.2 with
    | none => none
    | some v => if v = [] then none else some (unquoteHeaderValue (quoteHeaderValue v) (kv.1 = s%"filename")))

theorem group_key (txt rest k : Str) (v : Option Str) :
    M.group (⟨txt, rest, valCap v ++ [(1, k)]⟩ : M Char) 1 = some k := by
  cases v with
  | none => simp [M.group, valCap, List.lookup]
  | some v =>
    by_cases h : v = [] <;> simp [M.group, valCap, h, List.lookup]

theorem group_val (txt rest k : Str) (v : Option Str) :
    M.group (⟨txt, rest, valCap v ++ [(1, k)]⟩ : M Char) 2 =
      match v with | none => none | some v => if v = [] then none else some (quoteHeaderValue v) := by
  cases v with
  | none => simp [M.group, valCap, List.lookup]
  | some v =>
    by_cases h : v = [] <;> simp [M.group, valCap, h, List.lookup]

/-- Text of pieces, each introduced by `;` and spaces. -/
def piecesText (l : List (Str × Str × Option Str)) : Str :=
  l.flatMap fun x => ';' :: (x.1 ++ (x.2.1 ++ valText x.2.2))

theorem piecesText_tail (l) : Tail (piecesText l) := by
  cases l with
  | nil => left; rfl
  | cons x xs => right; rfl

/-- Tokenising a sequence of pieces. -/
theorem findIter_pieces (l : List (Str × Str × Option Str))
    (hl : ∀ x ∈ l, CleanName x.2.1 ∧ ∀ c ∈ x.1, Py.isSpace c = true) :
    ∀ (n : Nat) (prev : Option Char), (piecesText l).length < n →
    (findIter pieceRe n prev (piecesText l)).map (fun m =>
      let key := unquoteHeaderValue ((m.group 1).getD [])
      (key, (m.group 2).map fun v => unquoteHeaderValue v (key = s%"filename"))) =
    l.map fun x => norm x.2 := by
  induction l with
  | nil =>
    intro n prev hn
    obtain ⟨n, rfl⟩ : ∃ k, n = k + 1 := ⟨n - 1, by omega⟩
    have : first pieceRe prev [] = none := by simp [Re.first, pieceRe, run]
    simp [piecesText, findIter, this]
  | cons x xs ih =>
    obtain ⟨sp, k, v⟩ := x
    intro n prev hn
    obtain ⟨n, rfl⟩ : ∃ k, n = k + 1 := ⟨n - 1, by omega⟩
    obtain ⟨hk, hsp⟩ := hl (sp, k, v) (by simp)
    have hxs := fun y hy => hl y (List.mem_cons_of_mem _ hy)
    obtain ⟨txt, hst⟩ := starts_piece prev sp k v (piecesText xs) hk hsp (piecesText_tail xs)
    have htext : piecesText ((sp, k, v) :: xs) = ';' :: (sp ++ (k ++ (valText v ++ piecesText xs))) := by
      simp [piecesText]
    have hkey : unquoteHeaderValue k = k := by
      apply unquote_id
      left
      intro h
      exact (hk.2 '"' (List.mem_of_head? h)).2.2.2 rfl
    have hlen : (piecesText xs).length + 1 ≤ n := by
      rw [htext] at hn; simp at hn; omega
    rw [htext]
    simp only [findIter, hst.first, List.map_cons, group_key, group_val, Option.getD_some, hkey]
    congr 1
    · simp only [norm]
      congr 1
      cases v with
      | none => rfl
      | some v => by_cases h : v = [] <;> simp [h]
    · cases v with
      | none => exact ih hxs n _ (by omega)
      | some v =>
        cases v with
        | cons c cs => exact ih hxs n _ (by omega)
        | nil =>
          simp only [valRest]
          obtain ⟨n, rfl⟩ : ∃ k, n = k + 1 := ⟨n - 1, by omega⟩
          have hno : ∀ p, first pieceRe p ('=' :: piecesText xs) = none := by
            intro p
            simp only [Re.first]
            rw [show run pieceRe p ('=' :: piecesText xs) = [] from run_seq_nil (run_cls_ne (by
              intro c hc; simp at hc; subst hc; decide))]
            rfl
          have hlen2 : (piecesText xs).length < n := by
            rw [htext] at hn
            have hq : quoteHeaderValue [] = ([] : Str) := by decide
            have : 0 < k.length := List.length_pos_iff.mpr hk.1
            simp [valText, hq] at hn; omega
          simp only [findIter, hno]
          exact ih hxs n _ hlen2

end OptAux

theorem OptAux.parse_fold (h : Str) (opts : List (Str × Option Str)) (hh : OptAux.CleanName h)
    (hk : ∀ kv ∈ opts, OptAux.CleanName kv.1) :
    parseOptionsHeader (dumpOptionsHeader (some h) opts) =
      .ok (h, (opts.map OptAux.norm).foldl (fun d kv => dictSet d kv.1 kv.2) []) := by
  have hdump : ∀ l : List (Str × Option Str), l.map dumpOption = l.map (fun kv => kv.1 ++ OptAux.valText kv.2) := by
    intro l
    apply List.map_congr_left
    rintro ⟨k, v⟩ _
    cases v <;> simp [dumpOption, OptAux.valText]
  have hjoin : ∀ (x : Str) (l : List (Str × Option Str)),
      Py.join [';', ' '] (x :: l.map dumpOption) =
        x ++ OptAux.piecesText (l.map fun kv => ([' '], kv.1, kv.2)) := by
    intro x l
    rw [hdump]
    induction l generalizing x with
    | nil => simp [Py.join, OptAux.piecesText]
    | cons y ys ih =>
      simp only [List.map_cons]
      rw [show Py.join [';', ' '] (x :: (y.1 ++ OptAux.valText y.2) :: ys.map (fun kv => kv.1 ++ OptAux.valText kv.2)) =
        x ++ [';', ' '] ++ Py.join [';', ' '] ((y.1 ++ OptAux.valText y.2) :: ys.map (fun kv => kv.1 ++ OptAux.valText kv.2)) from rfl]
      rw [ih]
      simp [OptAux.piecesText]
  have htext : ';' :: dumpOptionsHeader (some h) opts =
      OptAux.piecesText (([], h, none) :: opts.map fun kv => ([' '], kv.1, kv.2)) := by
    simp only [dumpOptionsHeader, Option.toList_some, List.singleton_append]
    rw [hjoin]
    simp [OptAux.piecesText, OptAux.valText]
  have hne : dumpOptionsHeader (some h) opts ≠ [] := by
    intro he
    have := congrArg List.length htext
    rw [he] at this
    obtain ⟨c, cs, rfl⟩ : ∃ c cs, h = c :: cs := by
      cases h with
      | nil => exact absurd rfl hh.1
      | cons c cs => exact ⟨c, cs, rfl⟩
    simp [OptAux.piecesText] at this
  have hl : ∀ x ∈ (([], h, none) :: opts.map fun kv => ([' '], kv.1, kv.2) : List (Str × Str × Option Str)),
      OptAux.CleanName x.2.1 ∧ ∀ c ∈ x.1, Py.isSpace c = true := by
    intro x hx
    simp only [List.mem_cons, List.mem_map] at hx
    rcases hx with rfl | ⟨kv, hkv, rfl⟩
    · exact ⟨hh, by simp⟩
    · exact ⟨hk kv hkv, by intro c hc; simp at hc; subst hc; decide⟩
  have := OptAux.findIter_pieces _ hl _ none (Nat.lt_succ_self _)
  unfold parseOptionsHeader
  rw [if_neg hne]
  have htok : tokenize (';' :: dumpOptionsHeader (some h) opts) =
      (h, none) :: opts.map OptAux.norm := by
    unfold tokenize
    rw [htext, this]
    simp [OptAux.norm, Function.comp_def]
  rw [htok]

/-- C05, what parsing does to every dumped header: each option comes back with its value,
except that an empty value comes back as no value, and that a `filename` is unquoted with
the file name rule. -/
theorem C05_parse_dump (h : Str) (opts : List (Str × Option Str)) (hh : OptAux.CleanName h)
    (hk : ∀ kv ∈ opts, OptAux.CleanName kv.1) (hnd : (opts.map (·.1)).Nodup) :
    parseOptionsHeader (dumpOptionsHeader (some h) opts) =
      .ok (h, opts.map fun kv => (kv.1, match kv.2 with
        | none => none
        | some v => if v = [] then none
          else some (unquoteHeaderValue (quoteHeaderValue v) (kv.1 = s%"filename")))) := by
  rw [OptAux.parse_fold h opts hh hk, foldl_dictSet]
  · simp [OptAux.norm]
  · simpa [OptAux.norm, Function.comp_def] using hnd

/-- C05 (refutation).  An empty option value is lost, and a file name starting with a
backslash comes back with its backslashes doubled. -/
theorem C05_roundtrip_false :
    parseOptionsHeader (dumpOptionsHeader (some s%"a") [(s%"k", some [])]) = .ok (s%"a", [(s%"k", none)]) ∧
    parseOptionsHeader (dumpOptionsHeader (some s%"a") [(s%"filename", some s%"\\x")]) =
      .ok (s%"a", [(s%"filename", some s%"\\\\x")]) := by decide

/-- C05.  Header and options round trip, for clean names and arbitrary values, exactly when
no value is empty and no `filename` starts with a backslash.  (Missing: those two cases,
where the claim is false.) -/
theorem C05_roundtrip_partial (h : Str) (opts : List (Str × Option Str)) (hh : OptAux.CleanName h)
    (hk : ∀ kv ∈ opts, OptAux.CleanName kv.1) (hnd : (opts.map (·.1)).Nodup) :
    parseOptionsHeader (dumpOptionsHeader (some h) opts) = .ok (h, opts) ↔
      ∀ k v, (k, some v) ∈ opts → v ≠ [] ∧ (k = s%"filename" → v.head? ≠ some '\\') := by
  rw [C05_parse_dump h opts hh hk hnd]
  simp only [Except.ok.injEq, Prod.mk.injEq, true_and]
  rw [Py.map_eq_self]
  constructor
  · intro hx k v hv
    have := hx _ hv
    simp only [Prod.mk.injEq, true_and] at this
    split at this
    · simp at this
    · rename_i hne
      refine ⟨hne, ?_⟩
      intro hkf
      simp only [hkf, decide_true, Option.some.injEq] at this
      exact (C01_filename_roundtrip_iff v).mp this
  · rintro hx ⟨k, v⟩ hkv
    cases v with
    | none => rfl
    | some v =>
      obtain ⟨hne, hf⟩ := hx k v hkv
      simp only [if_neg hne]
      by_cases hkf : k = s%"filename"
      · simp [hkf, (C01_filename_roundtrip_iff v).mpr (hf hkf)]
      · simp [hkf, C01_quote_roundtrip]

/-- C05, repeated names.  An option that occurs several times comes back once, with its last
value. -/
theorem C05_last_wins (h : Str) (opts : List (Str × Option Str)) (hh : OptAux.CleanName h)
    (hk : ∀ kv ∈ opts, OptAux.CleanName kv.1)
    (hv : ∀ k v, (k, some v) ∈ opts → v ≠ [] ∧ (k = s%"filename" → v.head? ≠ some '\\')) :
    ∃ d, parseOptionsHeader (dumpOptionsHeader (some h) opts) = .ok (h, d) ∧
      (∀ x, d.lookup x = opts.reverse.lookup x) ∧ (d.map (·.1)).Nodup := by
  refine ⟨_, OptAux.parse_fold h opts hh hk, fun x => ?_, keys_foldl_dictSet _ [] (by simp)⟩
  have e : opts.map OptAux.norm = opts := by
    apply Py.map_eq_self.mpr
    rintro ⟨k, v⟩ hkv
    cases v with
    | none => rfl
    | some v =>
      obtain ⟨hne, hf⟩ := hv k v hkv
      simp only [OptAux.norm, if_neg hne]
      by_cases hkf : k = s%"filename"
      · simp [hkf, (C01_filename_roundtrip_iff v).mpr (hf hkf)]
      · simp [hkf, C01_quote_roundtrip]
  rw [lookup_foldl_dictSet, e]
  simp

example : parseOptionsHeader s%"a; x=1; y=2; x=3" = .ok (s%"a", [(s%"x", some s%"3"), (s%"y", some s%"2")]) := by decide

example : parseOptionsHeader (dumpOptionsHeader (some s%"form-data")
      [(s%"name", some s%"a; b=\"c\\\""), (s%"x", none)]) =
    .ok (s%"form-data", [(s%"name", some s%"a; b=\"c\\\""), (s%"x", none)]) := by decide
example : OptAux.CleanName s%"text/html" := ⟨by decide, by decide⟩

end Verif.Props
