import Verif.PyLemmas
import Verif.Model.Quote
import Verif.Spec.Quoted
/-! Helper lemmas for header quoting. -/
namespace Verif.Quote
open Verif Verif.Spec

/-- The escaping of one character. -/
def escChar (c : Char) : Str :=
  if c = '\\' then ['\\', '\\'] else if c = '"' then ['\\', '"'] else [c]

theorem quoteAlways_eq (v : Str) :
    quoteAlways v = '"' :: (v.flatMap escChar ++ ['"']) := by
  unfold quoteAlways
  rw [Py.replace_char, Py.replace_char, List.flatMap_assoc]
  have : (fun x => List.flatMap (fun x => if x = '"' then ['\\', '"'] else [x])
      (if x = '\\' then ['\\', '\\'] else [x])) = escChar := by
    funext x
    unfold escChar
    by_cases h : x = '\\'
    · subst h; simp
    · by_cases h' : x = '"' <;> simp [h, h']
  rw [this]; rfl

theorem unesc1 (v : Str) :
    Py.replace ['\\', '\\'] ['\\'] (v.flatMap escChar) =
      v.flatMap (fun c => if c = '"' then ['\\', '"'] else [c]) := by
  induction v with
  | nil => simp [Py.replace_nil]
  | cons c cs ih =>
    simp only [List.flatMap_cons, escChar]
    by_cases h : c = '\\'
    · subst h
      simp only [if_true, List.cons_append, List.nil_append]
      rw [Py.replace2_hit, ih]; simp
    · by_cases h' : c = '"'
      · subst h'
        simp only [h, if_false, if_true, List.cons_append, List.nil_append]
        rw [Py.replace2_miss _ _ _ _ (by simp), Py.replace2_ne _ _ _ _ _ (by decide), ih]
      · simp only [h, h', if_false, List.cons_append, List.nil_append]
        rw [Py.replace2_ne _ _ _ _ _ h, ih]

theorem half_head (v : Str) :
    (v.flatMap (fun c => if c = '"' then ['\\', '"'] else [c])).head? ≠ some '"' := by
  cases v with
  | nil => simp
  | cons c cs =>
    by_cases h : c = '"' <;> simp [List.flatMap_cons, h]

theorem unesc2 (v : Str) :
    Py.replace ['\\', '"'] ['"'] (v.flatMap (fun c => if c = '"' then ['\\', '"'] else [c])) = v := by
  induction v with
  | nil => simp [Py.replace_nil]
  | cons c cs ih =>
    simp only [List.flatMap_cons]
    by_cases h' : c = '"'
    · subst h'
      simp only [if_true, List.cons_append, List.nil_append]
      rw [Py.replace2_hit, ih]; rfl
    · simp only [h', if_false, List.cons_append, List.nil_append]
      by_cases h : c = '\\'
      · subst h; rw [Py.replace2_miss _ _ _ _ (half_head cs), ih]
      · rw [Py.replace2_ne _ _ _ _ _ h, ih]

theorem unquote_quoteAlways (v : Str) : unquoteHeaderValue (quoteAlways v) = v := by
  rw [quoteAlways_eq]
  unfold unquoteHeaderValue
  have h1 : ('"' :: (v.flatMap escChar ++ ['"'])).getLast? = some '"' := by
    rw [← List.cons_append, List.getLast?_append]; simp
  rw [if_pos ⟨rfl, h1⟩]
  have h2 : Py.slice1m1 ('"' :: (v.flatMap escChar ++ ['"'])) = v.flatMap escChar := by
    simp [Py.slice1m1]
  simp only [h2, Bool.not_false, Bool.true_or, if_true]
  rw [unesc1, unesc2]

theorem token_no_quote (v : Str) (h : v.all (fun c => tokenChars.contains c) = true) :
    ∀ c ∈ v, c ≠ '"' ∧ c ≠ '\\' ∧ c ≠ ',' ∧ c ≠ '=' ∧ c ≠ ';' ∧ Py.isSpace c = false := by
  intro c hc
  have hc' : c ∈ tokenChars := by simpa using List.all_eq_true.mp h c hc
  have key : ∀ c ∈ tokenChars, c ≠ '"' ∧ c ≠ '\\' ∧ c ≠ ',' ∧ c ≠ '=' ∧ c ≠ ';' ∧ Py.isSpace c = false := by
    decide
  exact key c hc'

theorem unquote_id (v : Str) (h : v.head? ≠ some '"' ∨ v.getLast? ≠ some '"') (b : Bool) :
    unquoteHeaderValue v b = v := by
  unfold unquoteHeaderValue
  rw [if_neg]; rintro ⟨h1, h2⟩; rcases h with h | h <;> contradiction

theorem replaceGo_length_le (o n : Str) (ho : o ≠ []) (h : n.length ≤ o.length) (k : Nat) (s : Str) :
    (Py.replaceGo o n k s).length + k ≤ s.length + k := by
  induction s generalizing k with
  | nil => simp [Py.replaceGo]
  | cons c cs ih =>
    cases k with
    | zero =>
      simp only [Py.replaceGo]
      split
      · rename_i hp
        have hlen := (List.isPrefixOf_iff_prefix.mp hp).length_le
        rw [Py.replaceGo_skip]
        have := ih 0
        simp only [List.length_append, List.length_cons] at *
        have h3 : (Py.replaceGo o n 0 (cs.drop (o.length - 1))).length ≤ (cs.drop (o.length - 1)).length := by
          have aux : ∀ t : Str, t.length ≤ cs.length → (Py.replaceGo o n 0 t).length ≤ t.length := by
            intro t
            induction hn : t.length using Nat.strongRecOn generalizing t with
            | ind m IH =>
              intro hle
              cases t with
              | nil => simp [Py.replaceGo]
              | cons d ds =>
                simp only [Py.replaceGo]
                split
                · rename_i hp2
                  have hlen2 := (List.isPrefixOf_iff_prefix.mp hp2).length_le
                  rw [Py.replaceGo_skip]
                  have := IH (ds.drop (o.length - 1)).length
                    (by simp at hn ⊢; omega) (ds.drop (o.length - 1)) rfl
                    (by simp at hn hle ⊢; omega)
                  have hopos : 0 < o.length := by cases o <;> simp_all
                  simp only [List.length_append, List.length_drop, List.length_cons] at *
                  omega
                · have := IH ds.length (by simp at hn; omega) ds rfl (by simp at hn; omega)
                  simp at *; omega
          exact aux _ (by simp)
        have hopos : 0 < o.length := by cases o <;> simp_all
        simp only [List.length_drop] at h3
        omega
      · have := ih 0; simp at *; omega
    | succ k => simp only [Py.replaceGo, List.length_cons]; have := ih k; omega

theorem replace_length_le (o n s : Str) (ho : o ≠ []) (h : n.length ≤ o.length) :
    (Py.replace o n s).length ≤ s.length := by
  have := replaceGo_length_le o n ho h 0 s; simpa [Py.replace] using this

/-- Unquoting a value that starts and ends with a quote makes it shorter. -/
theorem unquote_shorter (v : Str) (h1 : v.head? = some '"') (h2 : v.getLast? = some '"') :
    (unquoteHeaderValue v).length < v.length := by
  unfold unquoteHeaderValue
  rw [if_pos ⟨h1, h2⟩]
  simp only [Bool.not_false, Bool.true_or, if_true]
  have a := replace_length_le ['\\', '"'] ['"'] (Py.replace ['\\', '\\'] ['\\'] (Py.slice1m1 v)) (by simp) (by simp)
  have b := replace_length_le ['\\', '\\'] ['\\'] (Py.slice1m1 v) (by simp) (by simp)
  have c : (Py.slice1m1 v).length < v.length := by
    cases v with
    | nil => simp at h1
    | cons x xs => simp [Py.slice1m1]; omega
  omega

/-! ### the tokenizer -/

theorem go_plain (part w rest : Str) (h : ∀ c ∈ w, c ≠ ',' ∧ c ≠ '"') :
    httpListGo part false false (w ++ rest) = httpListGo (part ++ w) false false rest := by
  induction w generalizing part with
  | nil => simp
  | cons c cs ih =>
    obtain ⟨h1, h2⟩ := h c (by simp)
    simp only [List.cons_append, httpListGo, h1, h2, if_false, Bool.false_eq_true]
    rw [ih _ (fun x hx => h x (by simp [hx]))]; simp

theorem go_quoted_body (part v rest : Str) :
    httpListGo part false true (v.flatMap escChar ++ '"' :: rest) =
      httpListGo (part ++ v ++ ['"']) false false rest := by
  induction v generalizing part with
  | nil => simp [httpListGo]
  | cons c cs ih =>
    simp only [List.flatMap_cons, escChar]
    by_cases h : c = '\\'
    · subst h; simp only [if_true, List.cons_append, List.nil_append, httpListGo, Bool.false_eq_true, if_false]
      rw [ih]; simp
    · by_cases h' : c = '"'
      · subst h'; simp only [h, if_true, List.cons_append, List.nil_append, httpListGo, Bool.false_eq_true, if_false]
        rw [ih]; simp
      · simp only [h, h', if_true, List.cons_append, List.nil_append, httpListGo, Bool.false_eq_true, if_false]
        rw [ih]; simp

theorem go_quoted (part v rest : Str) :
    httpListGo part false false (quoteAlways v ++ rest) =
      httpListGo (part ++ '"' :: (v ++ ['"'])) false false rest := by
  rw [quoteAlways_eq]
  simp only [List.cons_append, httpListGo, Bool.false_eq_true, if_false, if_true, List.append_assoc]
  rw [if_neg (by decide)]
  simp only [List.singleton_append, List.nil_append]
  rw [go_quoted_body]; simp

/-- What the tokenizer accumulates for a dumped value. -/
def rawOf (allowToken : Bool) (v : Str) : Str :=
  if allowToken && v.all (fun c => tokenChars.contains c) then v else '"' :: (v ++ ['"'])

theorem quoteHeaderValue_token (allowToken : Bool) (v : Str)
    (h : (allowToken && v.all (fun c => tokenChars.contains c)) = true) :
    quoteHeaderValue v [] allowToken = v := by
  unfold quoteHeaderValue; rw [if_pos (by simpa using h)]

theorem quoteHeaderValue_quoted (allowToken : Bool) (v : Str)
    (h : ¬ (allowToken && v.all (fun c => tokenChars.contains c)) = true) :
    quoteHeaderValue v [] allowToken = quoteAlways v := by
  unfold quoteHeaderValue; rw [if_neg (by simpa using h)]

theorem go_value (part v rest : Str) (allowToken : Bool) :
    httpListGo part false false (quoteHeaderValue v [] allowToken ++ rest) =
      httpListGo (part ++ rawOf allowToken v) false false rest := by
  unfold rawOf
  by_cases h : (allowToken && v.all (fun c => tokenChars.contains c)) = true
  · rw [quoteHeaderValue_token _ _ h, if_pos h, go_plain]
    intro c hc
    have := token_no_quote v (by simp at h; simpa using h.2) c hc
    exact ⟨this.2.2.1, this.1⟩
  · rw [quoteHeaderValue_quoted _ _ h, if_neg h, go_quoted]

theorem rawOf_strip (allowToken : Bool) (v : Str) : Py.strip (rawOf allowToken v) = rawOf allowToken v := by
  unfold rawOf
  split
  · rename_i h
    apply Py.strip_nospace
    intro c hc
    exact (token_no_quote v (by simp at h; simpa using h.2) c hc).2.2.2.2.2
  · apply Py.stripP_id
    · intro c hc; simp at hc; subst hc; decide
    · intro c hc; rw [← List.cons_append, List.getLast?_append] at hc; simp at hc; subst hc; decide

theorem strip_space (s : Str) (h : Py.strip s = s) : Py.strip (' ' :: s) = s := by
  unfold Py.strip Py.stripP at *
  rw [Py.lstripP_cons _ _ _ (by decide)]; exact h

/-- Generic shape of a dumped header: each item `i` contributes text `txt i` that the
tokenizer accumulates as `raw i`. -/
theorem go_join {α} (P : α → Prop) (txt raw : α → Str)
    (hgo : ∀ part x rest, P x → httpListGo part false false (txt x ++ rest) =
      httpListGo (part ++ raw x) false false rest)
    (hstrip : ∀ x, P x → Py.strip (raw x) = raw x) (x : α) (xs : List α) (part : Str)
    (hall : ∀ y ∈ x :: xs, P y)
    (hp : part = [' '] ∨ (part = [] ∧ (xs ≠ [] ∨ raw x ≠ []))) :
    (httpListGo part false false (Py.join s%", " ((x :: xs).map txt))).map Py.strip =
      (x :: xs).map raw := by
  have hst : Py.strip (part ++ raw x) = raw x := by
    rcases hp with h | h
    · rw [h]; exact strip_space _ (hstrip x (hall x (by simp)))
    · rw [h.1]; exact hstrip x (hall x (by simp))
  induction xs generalizing x part with
  | nil =>
    simp only [List.map_cons, List.map_nil, Py.join]
    have := hgo part x [] (hall x (by simp))
    rw [List.append_nil] at this
    rw [this]
    simp only [httpListGo]
    have hne : part ++ raw x ≠ [] := by
      rcases hp with h | h
      · rw [h]; simp
      · simp; intro hpp; rcases h.2 with h' | h'
        · exact absurd rfl h'
        · exact h'
    rw [if_neg hne]; simp [hst]
  | cons y ys ih =>
    simp only [List.map_cons, Py.join]
    rw [List.append_assoc, hgo _ _ _ (hall x (by simp))]
    simp only [List.cons_append, List.nil_append, httpListGo, Bool.false_eq_true, if_false, if_true]
    rw [if_neg (by decide), if_neg (by decide)]
    simp only [List.map_cons, hst]
    congr 1
    have := ih y [' '] (fun z hz => hall z (by simp only [List.mem_cons] at hz ⊢; exact Or.inr hz))
      (Or.inl rfl) (strip_space _ (hstrip y (hall y (by simp))))
    simpa using this

theorem unquoteItem_raw (allowToken : Bool) (v : Str) :
    unquoteItem (rawOf allowToken v) =
      if allowToken && v.all (fun c => tokenChars.contains c) then v else unquoteHeaderValue v := by
  unfold rawOf
  split
  · rename_i h
    unfold unquoteItem quotedBothEnds
    rw [if_neg]
    intro hq
    simp only [Bool.and_eq_true, beq_iff_eq] at hq
    cases v with
    | nil => simp at hq
    | cons c cs =>
      simp at hq
      exact (token_no_quote (c :: cs) (by simp only [Bool.and_eq_true] at h; exact h.2) c (by simp)).1 hq.1
  · unfold unquoteItem quotedBothEnds
    have h1 : ('"' :: (v ++ ['"'])).getLast? = some '"' := by
      rw [← List.cons_append, List.getLast?_append]; simp
    rw [if_pos (by simp [h1])]
    simp [Py.slice1m1]

theorem parse_dump_list (items : List Str) (allowToken : Bool)
    (h : items ≠ [[]] ∨ allowToken = false) :
    parseListHeader (dumpHeaderList items allowToken) =
      items.map (fun v => if allowToken && v.all (fun c => tokenChars.contains c) then v
        else unquoteHeaderValue v) := by
  unfold parseListHeader dumpHeaderList parseHttpList
  cases items with
  | nil => simp [Py.join, httpListGo]
  | cons x xs =>
    rw [go_join (fun _ => True) (fun x => quoteHeaderValue x [] allowToken) (rawOf allowToken)
      (fun part x rest _ => go_value part x rest allowToken) (fun x _ => rawOf_strip allowToken x) x xs []
      (fun _ _ => trivial) (Or.inr ⟨rfl, ?_⟩)]
    · rw [List.map_map]
      apply List.map_congr_left
      intro v _
      exact unquoteItem_raw allowToken v
    · by_cases hx : xs = []
      · right
        unfold rawOf
        split
        · rename_i ht
          rcases h with h | h
          · intro hx0; subst hx; subst hx0; exact h rfl
          · rw [h] at ht; simp at ht
        · simp
      · exact Or.inl hx

/-! ### dictionary headers -/

/-- Keys that survive the dictionary header syntax. -/
def KeyOk (k : Str) : Prop :=
  k ≠ [] ∧ (∀ c ∈ k, c ≠ ',' ∧ c ≠ '"' ∧ c ≠ '=') ∧ Py.strip k = k

/-- What the tokenizer accumulates for a dumped pair. -/
def rawPair (allowToken : Bool) (kv : Str × Option Str) : Str :=
  match kv.2 with
  | none => kv.1
  | some v => kv.1 ++ '=' :: rawOf allowToken v

theorem strip_append_keep (a b : Str) (ha : Py.strip a = a) (hane : a ≠ [])
    (hb : ∀ c, (a ++ b).getLast? = some c → Py.isSpace c = false) : Py.strip (a ++ b) = a ++ b := by
  apply Py.stripP_id
  · intro c hc
    have := Py.stripP_head Py.isSpace a c
    unfold Py.strip at ha
    rw [ha] at this
    apply this
    cases a with
    | nil => exact absurd rfl hane
    | cons x xs => simpa using hc
  · exact hb

theorem rawOf_last (allowToken : Bool) (v : Str) (c : Char) (h : (rawOf allowToken v).getLast? = some c) :
    Py.isSpace c = false := by
  have := Py.stripP_last Py.isSpace (rawOf allowToken v) c
  have e := rawOf_strip allowToken v
  unfold Py.strip at e
  rw [e] at this
  exact this h

theorem rawPair_strip (allowToken : Bool) (kv : Str × Option Str) (h : KeyOk kv.1) :
    Py.strip (rawPair allowToken kv) = rawPair allowToken kv := by
  obtain ⟨k, v⟩ := kv
  cases v with
  | none => exact h.2.2
  | some v =>
    simp only [rawPair]
    apply strip_append_keep _ _ h.2.2 h.1
    intro c hc
    rw [List.getLast?_append] at hc
    rw [List.getLast?_cons] at hc
    simp at hc
    cases hl : (rawOf allowToken v).getLast? with
    | none => rw [hl] at hc; simp at hc; subst hc; decide
    | some d => rw [hl] at hc; simp at hc; subst hc; exact rawOf_last allowToken v d hl

theorem go_pair (allowToken : Bool) (part : Str) (kv : Str × Option Str) (rest : Str) (h : KeyOk kv.1) :
    httpListGo part false false (dumpPair allowToken kv ++ rest) =
      httpListGo (part ++ rawPair allowToken kv) false false rest := by
  obtain ⟨k, v⟩ := kv
  have hk : ∀ c ∈ k, c ≠ ',' ∧ c ≠ '"' := fun c hc => ⟨(h.2.1 c hc).1, (h.2.1 c hc).2.1⟩
  cases v with
  | none => simp only [dumpPair, rawPair]; exact go_plain part k rest hk
  | some v =>
    simp only [dumpPair, rawPair, List.append_assoc]
    rw [go_plain part k _ hk]
    rw [go_plain (part ++ k) ['='] _ (by simp), go_value]
    simp

theorem parseDictItem_raw (allowToken : Bool) (kv : Str × Option Str) (h : KeyOk kv.1) :
    parseDictItem (rawPair allowToken kv) =
      (kv.1, kv.2.map (fun v => if allowToken && v.all (fun c => tokenChars.contains c) then v
        else unquoteHeaderValue v)) := by
  obtain ⟨k, v⟩ := kv
  have hk : '=' ∉ k := fun hc => (h.2.1 _ hc).2.2 rfl
  cases v with
  | none => simp only [parseDictItem, rawPair, Py.split1_none '=' k hk, Option.map_none]
  | some v =>
    simp only [parseDictItem, rawPair, Py.split1_some '=' k _ hk, Option.map_some, unquoteItem_raw]

theorem lookup_dictSet {β : Type} (d : List (Str × β)) (k : Str) (v : β) (x : Str) :
    (dictSet d k v).lookup x = if x = k then some v else d.lookup x := by
  unfold dictSet
  split
  · rename_i h
    simp only [List.any_eq_true, decide_eq_true_eq] at h
    induction d with
    | nil => obtain ⟨p, hp, _⟩ := h; simp at hp
    | cons q qs ih =>
      obtain ⟨p, hp, hpk⟩ := h
      simp only [List.map_cons]
      by_cases hq : q.1 = k
      · rw [if_pos hq]
        by_cases hx : x = k
        · subst hx; simp [List.lookup_cons, hq]
        · rw [if_neg hx]
          have h1 : (x == q.1) = false := by rw [hq]; simpa using hx
          rw [List.lookup_cons, List.lookup_cons, h1]
          simp only
          clear ih hp hpk h1
          induction qs with
          | nil => rfl
          | cons r rs ih =>
            simp only [List.map_cons]
            by_cases hr : r.1 = k
            · rw [if_pos hr]
              have h1 : (x == r.1) = false := by rw [hr]; simpa using hx
              rw [List.lookup_cons, List.lookup_cons, h1]
              exact ih
            · rw [if_neg hr, List.lookup_cons, List.lookup_cons, ih]
      · rw [if_neg hq]
        have hmem : p ∈ qs := by
          rcases List.mem_cons.mp hp with rfl | h
          · exact absurd hpk hq
          · exact h
        rw [List.lookup_cons, List.lookup_cons, ih ⟨p, hmem, hpk⟩]
        by_cases hx : x = k
        · subst hx
          have : (x == q.1) = false := by simpa using fun e => hq e.symm
          simp [this]
        · simp [hx]
  · rename_i h
    simp only [List.any_eq_true, decide_eq_true_eq, not_exists, not_and] at h
    induction d with
    | nil =>
      by_cases hx : x = k
      · subst hx; simp [List.lookup_cons]
      · have : (x == k) = false := by simpa using hx
        simp [List.lookup_cons, this, hx]
    | cons q qs ih =>
      rw [List.cons_append, List.lookup_cons, List.lookup_cons, ih (fun p hp => h p (by simp [hp]))]
      by_cases hx : x = k
      · subst hx
        have : (x == q.1) = false := by simpa using fun e => h q (by simp) e.symm
        simp [this]
      · simp [hx]

theorem keys_dictSet {β : Type} (d : List (Str × β)) (k : Str) (v : β) (hnd : (d.map (·.1)).Nodup) :
    ((dictSet d k v).map (·.1)).Nodup ∧ ∀ p ∈ dictSet d k v, p = (k, v) ∨ p ∈ d := by
  unfold dictSet
  split
  · refine ⟨?_, ?_⟩
    · have : (d.map (fun p => if p.1 = k then (p.1, v) else p)).map (·.1) = d.map (·.1) := by
        rw [List.map_map]
        apply List.map_congr_left
        intro p _
        simp only [Function.comp]
        split <;> rfl
      rw [this]; exact hnd
    · intro p hp
      obtain ⟨q, hq, rfl⟩ := List.mem_map.mp hp
      split
      · rename_i e; left; rw [e]
      · right; exact hq
  · rename_i h
    simp only [List.any_eq_true, decide_eq_true_eq, not_exists, not_and] at h
    refine ⟨?_, ?_⟩
    · rw [List.map_append, List.nodup_append]
      refine ⟨hnd, by simp, ?_⟩
      intro a ha b hb
      simp at hb
      subst hb
      obtain ⟨p, hp, rfl⟩ := List.mem_map.mp ha
      exact h p hp
    · intro p hp
      rcases List.mem_append.mp hp with h | h
      · exact Or.inr h
      · simp at h; exact Or.inl h

theorem lookup_append' {β : Type} (a b : List (Str × β)) (x : Str) :
    (a ++ b).lookup x = (a.lookup x).or (b.lookup x) := by
  induction a with
  | nil => simp
  | cons p ps ih =>
    obtain ⟨k, v⟩ := p
    simp only [List.cons_append, List.lookup_cons, ih]
    cases x == k <;> rfl

/-- The dict built by assigning pairs in turn: the last value of each name, names once. -/
theorem lookup_foldl_dictSet {β : Type} (l acc : List (Str × β)) (x : Str) :
    (l.foldl (fun d kv => dictSet d kv.1 kv.2) acc).lookup x = (l.reverse.lookup x).or (acc.lookup x) := by
  induction l generalizing acc with
  | nil => simp
  | cons p ps ih =>
    obtain ⟨k, v⟩ := p
    rw [List.foldl_cons, ih, lookup_dictSet, List.reverse_cons, lookup_append']
    by_cases hx : x = k
    · subst hx; cases ps.reverse.lookup x <;> simp [List.lookup_cons]
    · have : (x == k) = false := by simpa using hx
      simp [List.lookup_cons, hx, this]

theorem keys_foldl_dictSet {β : Type} (l acc : List (Str × β)) (h : (acc.map (·.1)).Nodup) :
    ((l.foldl (fun d kv => dictSet d kv.1 kv.2) acc).map (·.1)).Nodup := by
  induction l generalizing acc with
  | nil => exact h
  | cons p ps ih => exact ih _ (keys_dictSet acc p.1 p.2 h).1

theorem foldl_dictSet {α β} [DecidableEq α] (l acc : List (α × β)) (h : ((acc ++ l).map (·.1)).Nodup) :
    l.foldl (fun d kv => dictSet d kv.1 kv.2) acc = acc ++ l := by
  induction l generalizing acc with
  | nil => simp
  | cons x xs ih =>
    simp only [List.foldl_cons]
    have hx : dictSet acc x.1 x.2 = acc ++ [x] := by
      unfold dictSet
      rw [if_neg]
      intro hany
      simp only [List.any_eq_true, decide_eq_true_eq] at hany
      obtain ⟨p, hp, he⟩ := hany
      rw [List.map_append, List.map_cons, List.nodup_append] at h
      exact h.2.2 p.1 (List.mem_map_of_mem hp) x.1 (by simp) he
    rw [hx, ih (acc ++ [x]) (by simpa using h)]; simp

theorem parse_dump_fold (al : Str → Bool) (d : List (Str × Option Str)) (hk : ∀ kv ∈ d, KeyOk kv.1) :
    parseDictHeader (Py.join s%", " (d.map (fun kv => dumpPair (al kv.1) kv))) =
      (d.map (fun kv => (kv.1, kv.2.map (fun v =>
        if al kv.1 && v.all (fun c => tokenChars.contains c) then v else unquoteHeaderValue v)))).foldl
        (fun d kv => dictSet d kv.1 kv.2) [] := by
  unfold parseDictHeader parseHttpList
  cases d with
  | nil => simp [Py.join, httpListGo]
  | cons x xs =>
    rw [go_join (fun kv => KeyOk kv.1) (fun kv => dumpPair (al kv.1) kv) (fun kv => rawPair (al kv.1) kv)
      (fun part x rest h => go_pair (al x.1) part x rest h) (fun x h => rawPair_strip (al x.1) x h)
      x xs [] hk (Or.inr ⟨rfl, Or.inr ?_⟩)]
    · rw [List.map_map]
      have e : (x :: xs).map (parseDictItem ∘ fun kv => rawPair (al kv.1) kv) =
          (x :: xs).map (fun kv => (kv.1, kv.2.map (fun v =>
            if al kv.1 && v.all (fun c => tokenChars.contains c) then v else unquoteHeaderValue v))) := by
        apply List.map_congr_left
        intro kv hkv
        exact parseDictItem_raw (al kv.1) kv (hk kv hkv)
      rw [e]
    · have := (hk x (by simp)).1
      unfold rawPair
      split
      · exact this
      · simp

theorem parse_dump_dictF (al : Str → Bool) (d : List (Str × Option Str))
    (hk : ∀ kv ∈ d, KeyOk kv.1) (hnd : (d.map (·.1)).Nodup) :
    parseDictHeader (Py.join s%", " (d.map (fun kv => dumpPair (al kv.1) kv))) =
      d.map (fun kv => (kv.1, kv.2.map (fun v =>
        if al kv.1 && v.all (fun c => tokenChars.contains c) then v else unquoteHeaderValue v))) := by
  rw [parse_dump_fold al d hk, foldl_dictSet]
  · simp
  · simpa [List.map_map, Function.comp_def] using hnd

theorem parse_dump_dict (d : List (Str × Option Str)) (allowToken : Bool)
    (hk : ∀ kv ∈ d, KeyOk kv.1) (hnd : (d.map (·.1)).Nodup) :
    parseDictHeader (dumpHeaderDict d allowToken) =
      d.map (fun kv => (kv.1, kv.2.map (fun v =>
        if allowToken && v.all (fun c => tokenChars.contains c) then v else unquoteHeaderValue v))) :=
  parse_dump_dictF (fun _ => allowToken) d hk hnd

end Verif.Quote
