import Verif.PyLemmas
import Verif.RegexLemmas
import Verif.Model.Etag
/-! Property theorems C16-C20: entity tags and conditional requests. -/
namespace Verif.Props
open Verif Verif.Re Verif.Etag

/-! ### C16 -/

/-- C16.  Quoting is undone by unquoting, for either strength; an etag is rejected exactly
when it contains a double quote. -/
theorem C16_etag_quote_roundtrip (e : Str) (weak : Bool) :
    ('"' ∉ e → ∃ q, quoteEtag e weak = .ok q ∧ unquoteEtag q = (some e, some weak)) ∧
    ('"' ∈ e → quoteEtag e weak = .error .valueError) := by
  constructor
  · intro h
    have hc : ¬ (e.contains '"' = true) := by simpa using h
    have hlast : ('"' :: (e ++ ['"'])).getLast? = some '"' := by
      rw [← List.cons_append, List.getLast?_append]; rfl
    have hsl : Py.slice1m1 ('"' :: (e ++ ['"'])) = e := by simp [Py.slice1m1]
    cases weak with
    | false =>
      refine ⟨'"' :: (e ++ ['"']), by simp [quoteEtag, h], ?_⟩
      have hst : Py.strip ('"' :: (e ++ ['"'])) = '"' :: (e ++ ['"']) := by
        apply Py.stripP_id
        · intro c hc; simp at hc; subst hc; decide
        · intro c hc; rw [hlast] at hc; simp at hc; subst hc; decide
      have ht : ∀ x, ('"' :: (e ++ ['"'])).take 2 ≠ [x, '/'] ∨ x = '"' := by
        intro x; by_cases hx : x = '"'
        · exact Or.inr hx
        · left; intro h; simp at h; exact hx h.1.symm
      have h1 : ¬ (('"' :: (e ++ ['"'])).take 2 = ['w', '/'] ∨ ('"' :: (e ++ ['"'])).take 2 = ['W', '/']) := by
        rintro (h | h)
        · rcases ht 'w' with h' | h'
          · exact h' h
          · exact absurd h' (by decide)
        · rcases ht 'W' with h' | h'
          · exact h' h
          · exact absurd h' (by decide)
      simp only [unquoteEtag, hst, if_neg h1, hlast, hsl]
      simp
    | true =>
      refine ⟨'w' :: '/' :: '"' :: (e ++ ['"']), by simp [quoteEtag, h], ?_⟩
      have hst : Py.strip ('w' :: '/' :: '"' :: (e ++ ['"'])) = 'w' :: '/' :: '"' :: (e ++ ['"']) := by
        apply Py.stripP_id
        · intro c hc; simp at hc; subst hc; decide
        · intro c hc
          rw [List.getLast?_cons_cons, List.getLast?_cons_cons, hlast] at hc
          simp at hc; subst hc; decide
      simp [unquoteEtag, hst, hlast, hsl]
  · intro h
    simp [quoteEtag, h]

example : quoteEtag s%"w/x" true = .ok s%"w/\"w/x\"" ∧
    unquoteEtag s%"w/\"w/x\"" = (some s%"w/x", some true) := by decide

/-! ### C17 -/

namespace EtagAux

/-- A tag that can be written in a header: not empty, no quote, no newline. -/
def Tag (t : Str) : Prop := t ≠ [] ∧ '"' ∉ t ∧ '\n' ∉ t

/-- A separator or the end matches after a tag. -/
theorem starts_end (prev : Option Char) (more : Str)
    (hm : ∀ c, more.head? = some c → Py.isSpace c = false) :
    Starts etagEnd prev [] ⟨[], [], []⟩ ∧
    Starts etagEnd prev (',' :: ' ' :: more) ⟨[',', ' '], more, []⟩ := by
  constructor
  · apply starts_altr
    · apply run_seq_nil'
      intro m hm
      rw [run_star_cls] at hm
      simp [cutsG] at hm; subst hm
      exact run_seq_nil rfl
    · exact starts_eos
  · apply starts_altl
    have h1 : Starts (star true (cls Py.isSpace)) prev ([] ++ ',' :: ' ' :: more) ⟨[], ',' :: ' ' :: more, []⟩ :=
      starts_star (by simp) (by intro c hc; simp at hc; subst hc; decide)
    have h2 : Starts (cls (· == ',')) prev (',' :: ' ' :: more) ⟨[','], ' ' :: more, []⟩ :=
      starts_cls (by decide)
    have h3 : Starts (star true (cls Py.isSpace)) (after prev [',']) ([' '] ++ more) ⟨[' '], more, []⟩ :=
      starts_star (by decide) hm
    exact starts_seq h1 (starts_seq h2 h3)

/-- The quoted alternative stops at the first quote. -/
theorem starts_quoted (prev : Option Char) (t tail : Str) (ht : Tag t) :
    Starts etagQuoted prev ('"' :: (t ++ '"' :: tail)) ⟨'"' :: (t ++ ['"']), tail, [(2, t)]⟩ := by
  have h1 : Starts (cls (· == '"')) prev ('"' :: (t ++ '"' :: tail)) ⟨['"'], t ++ '"' :: tail, []⟩ :=
    starts_cls (by decide)
  have h2 : Starts (seq (grp 2 (star false (cls dot))) (cls (· == '"'))) (after prev ['"'])
      (t ++ '"' :: tail) ⟨t ++ ['"'], tail, [] ++ [(2, t)]⟩ := by
    refine starts_lazy_grp (m := ⟨['"'], tail, []⟩) ?_ ?_ (starts_cls (by decide))
    · intro c hc
      simp only [dot, bne_iff_ne, ne_eq]
      rintro rfl; exact ht.2.2 hc
    · intro x y hxy hy
      cases y with
      | nil => exact absurd rfl hy
      | cons c cs =>
        apply run_cls_ne
        intro d hd
        simp at hd; subst hd
        have : c ∈ t := by rw [hxy]; simp
        simp; rintro rfl; exact ht.2.1 this
  exact starts_seq h1 h2

theorem starts_etag (w : Bool) (t tail : Str) (ht : Tag t) (m : M Char) 
    (hend : ∀ prev, Starts etagEnd prev tail m) (hm : m.caps = []) :
    ∃ txt, Starts etagRe none ((if w then ['w', '/'] else []) ++ '"' :: (t ++ '"' :: tail))
      ⟨txt, m.rest, [(2, t)] ++ if w then [(1, ['w', '/'])] else []⟩ := by
  have hbody : ∀ prev, Starts (seq (alt etagQuoted (grp 3 (star false (cls dot)))) etagEnd) prev
      ('"' :: (t ++ '"' :: tail)) ⟨'"' :: (t ++ ['"']) ++ m.txt, m.rest, [(2, t)]⟩ := by
    intro prev
    have h1 : Starts (alt etagQuoted (grp 3 (star false (cls dot)))) prev _ _ :=
      starts_altl (starts_quoted prev t tail ht)
    have := starts_seq h1 (hend _)
    simpa [M.comb, hm] using this
  cases w with
  | false =>
    have hw : Starts etagWeak none ('"' :: (t ++ '"' :: tail)) ⟨[], '"' :: (t ++ '"' :: tail), []⟩ :=
      starts_altr (run_grp_nil (run_seq_nil (run_cls_ne (by intro c hc; simp at hc; subst hc; decide))))
        starts_eps
    exact ⟨_, by simpa [M.comb, etagRe] using starts_seq hw (hbody _)⟩
  | true =>
    have hw : Starts etagWeak none ('w' :: '/' :: '"' :: (t ++ '"' :: tail))
        ⟨['w', '/'], '"' :: (t ++ '"' :: tail), [(1, ['w', '/'])]⟩ := by
      apply starts_altl
      exact starts_grp 1 (starts_seq (starts_cls (by decide)) (starts_cls (by decide)))
    exact ⟨_, by simpa [M.comb, etagRe] using starts_seq hw (hbody _)⟩

/-- The header form of one tag. -/
def item (x : Bool × Str) : Str := (if x.1 then ['w', '/'] else []) ++ '"' :: (x.2 ++ ['"'])

theorem item_head (x : Bool × Str) (s : Str) :
    (∀ c, (item x ++ s).head? = some c → Py.isSpace c = false) ∧ item x ++ s ≠ [] := by
  obtain ⟨w, t⟩ := x
  cases w
  · refine ⟨?_, by simp [item]⟩
    intro c hc; simp [item] at hc; subst hc; decide
  · refine ⟨?_, by simp [item]⟩
    intro c hc; simp [item] at hc; subst hc; decide

/-- Strong tags of a list. -/
def strongs (l : List (Bool × Str)) : List (Option Str) := (l.filter (fun x => !x.1)).map (fun x => some x.2)
/-- Weak tags of a list. -/
def weaks (l : List (Bool × Str)) : List (Option Str) := (l.filter (fun x => x.1)).map (fun x => some x.2)

theorem parse_items (l : List (Bool × Str)) (hne : l ≠ []) (ht : ∀ x ∈ l, Tag x.2) :
    ∀ (n : Nat) (S W : List (Option Str)), l.length < n →
    parseLoop n S W (Py.join [',', ' '] (l.map item)) = some (mk (S ++ strongs l) (W ++ weaks l) false) := by
  induction l with
  | nil => exact absurd rfl hne
  | cons x xs ih =>
    intro n S W hn
    obtain ⟨w, t⟩ := x
    have htag : Tag t := ht (w, t) (by simp)
    cases n with
    | zero => simp at hn
    | succ n =>
      -- text after the tag and what the separator leaves
      have hshape : ∃ tail rest caps0, Py.join [',', ' '] (((w, t) :: xs).map item) = item (w, t) ++ tail ∧
          (∀ prev, Starts etagEnd prev tail ⟨caps0, rest, []⟩) ∧
          rest = Py.join [',', ' '] (xs.map item) := by
        cases xs with
        | nil => exact ⟨[], [], [], by simp [Py.join], fun prev => (starts_end prev [] (by simp)).1, rfl⟩
        | cons y ys =>
          refine ⟨',' :: ' ' :: Py.join [',', ' '] ((y :: ys).map item), _, _, by simp [Py.join],
            fun prev => (starts_end prev _ ?_).2, rfl⟩
          intro c hc
          cases ys with
          | nil => exact (item_head y []).1 c (by simpa [Py.join] using hc)
          | cons z zs =>
            refine (item_head y ([',', ' '] ++ Py.join [',', ' '] ((z :: zs).map item))).1 c ?_
            simpa [Py.join] using hc
      obtain ⟨tail, rest, c0, hj, hend, hrest⟩ := hshape
      obtain ⟨txt, hst⟩ := starts_etag w t tail htag ⟨c0, rest, []⟩ hend rfl
      have hs : (if w = true then ['w', '/'] else []) ++ '"' :: (t ++ '"' :: tail) = item (w, t) ++ tail := by
        cases w <;> simp [item]
      rw [hs] at hst
      rw [hj]
      simp only [parseLoop, if_neg (item_head (w, t) tail).2, hst.first]
      have hg3 : M.group (⟨txt, rest, [(2, t)] ++ if w = true then [(1, ['w', '/'])] else []⟩ : M Char) 3 = none := by
        cases w <;> simp [M.group]
      have hg2 : M.group (⟨txt, rest, [(2, t)] ++ if w = true then [(1, ['w', '/'])] else []⟩ : M Char) 2 = some t := by
        cases w <;> simp [M.group]
      have hg1 : (M.group (⟨txt, rest, [(2, t)] ++ if w = true then [(1, ['w', '/'])] else []⟩ : M Char) 1 ≠ none) ↔ w = true := by
        cases w <;> simp [M.group, List.lookup]
      simp only [hg3, hg2]
      rw [if_neg (by simp)]
      obtain ⟨c, cs, rfl⟩ : ∃ c cs, t = c :: cs := by
        cases t with
        | nil => exact absurd rfl htag.1
        | cons c cs => exact ⟨c, cs, rfl⟩
      simp only
      cases xs with
      | nil =>
        simp [Py.join] at hrest
        subst hrest
        cases n with
        | zero => simp at hn
        | succ n =>
          cases w
          · rw [if_neg (by rw [hg1]; simp)]
            simp [parseLoop, strongs, weaks]
          · rw [if_pos (by rw [hg1])]
            simp [parseLoop, strongs, weaks]
      | cons y ys =>
        have := ih (by simp) (fun z hz => ht z (by simp [hz])) n
        subst hrest
        cases w
        · rw [if_neg (by rw [hg1]; simp), this _ _ (by simpa using hn)]
          simp [strongs, weaks]
        · rw [if_pos (by rw [hg1]), this _ _ (by simpa using hn)]
          simp [strongs, weaks]

end EtagAux

/-- C17 (refutation).  An empty tag is written as `""` but read back as `None`; a tag with
a newline is not read back either. -/
theorem C17_roundtrip_false :
    parseEtags 10 (some (mk [some []] [] false).toHeader) = some (mk [none] [] false) ∧
    parseEtags 10 (some (mk [some s%"a\nb"] [] false).toHeader) ≠ some (mk [some s%"a\nb"] [] false) := by
  decide

/-- C17.  For every collection of non-empty tags without quotes and newlines, in whatever
order the sets are iterated, parsing the header gives back exactly the strong and the weak
tags; the wildcard is preserved.  (Missing: empty tags and tags with newlines, where the
claim is false.) -/
theorem C17_header_roundtrip_partial (strong weak : List Str)
    (hs : ∀ t ∈ strong, t ≠ [] ∧ '"' ∉ t ∧ '\n' ∉ t) (hw : ∀ t ∈ weak, t ≠ [] ∧ '"' ∉ t ∧ '\n' ∉ t)
    (n : Nat) (hn : strong.length + weak.length < n) :
    parseEtags n (some (mk (strong.map some) (weak.map some) false).toHeader) =
      some ⟨strong.map some, weak.map some, false⟩ ∧
    parseEtags n (some (mk (strong.map some) (weak.map some) true).toHeader) = some ⟨[], [], true⟩ := by
  constructor
  · by_cases hne : strong = [] ∧ weak = []
    · obtain ⟨rfl, rfl⟩ := hne
      simp [parseEtags, ETags.toHeader, mk, Py.join]
    · have hl : strong.map (fun t => (false, t)) ++ weak.map (fun t => (true, t)) ≠ [] := by
        simpa using fun h h' => hne ⟨h, h'⟩
      have hp := EtagAux.parse_items (strong.map (fun t => (false, t)) ++ weak.map (fun t => (true, t))) hl
        (by
          intro x hx
          simp only [List.mem_append, List.mem_map] at hx
          rcases hx with ⟨t, h, rfl⟩ | ⟨t, h, rfl⟩
          · exact hs t h
          · exact hw t h) n [] [] (by simpa using hn)
      have hh : (mk (strong.map some) (weak.map some) false).toHeader = Py.join [',', ' ']
          ((strong.map (fun t => (false, t)) ++ weak.map (fun t => (true, t))).map EtagAux.item) := by
        simp [ETags.toHeader, mk, EtagAux.item, tagText, Function.comp_def]
      have hnil : Py.join [',', ' ']
          ((strong.map (fun t => (false, t)) ++ weak.map (fun t => (true, t))).map EtagAux.item) ≠ [] := by
        intro h
        cases hc : strong.map (fun t => (false, t)) ++ weak.map (fun t => (true, t)) with
        | nil => exact hl hc
        | cons x xs =>
          rw [hc] at h
          cases xs with
          | nil => simp [Py.join, EtagAux.item] at h
          | cons y ys => simp [Py.join, EtagAux.item] at h
      rw [hh]
      simp only [parseEtags, if_neg hnil, hp]
      have e1 : ∀ l : List Str, EtagAux.strongs (l.map (fun t => (false, t))) = l.map some := by
        intro l; induction l <;> simp_all [EtagAux.strongs]
      have e2 : ∀ l : List Str, EtagAux.strongs (l.map (fun t => (true, t))) = [] := by
        intro l; induction l <;> simp_all [EtagAux.strongs]
      have e3 : ∀ l : List Str, EtagAux.weaks (l.map (fun t => (false, t))) = [] := by
        intro l; induction l <;> simp_all [EtagAux.weaks]
      have e4 : ∀ l : List Str, EtagAux.weaks (l.map (fun t => (true, t))) = l.map some := by
        intro l; induction l <;> simp_all [EtagAux.weaks]
      have a1 : ∀ l l' : List (Bool × Str), EtagAux.strongs (l ++ l') = EtagAux.strongs l ++ EtagAux.strongs l' := by
        intro l l'; simp [EtagAux.strongs]
      have a2 : ∀ l l' : List (Bool × Str), EtagAux.weaks (l ++ l') = EtagAux.weaks l ++ EtagAux.weaks l' := by
        intro l l'; simp [EtagAux.weaks]
      simp [mk, a1, a2, e1, e2, e3, e4]
  · have : (mk (strong.map some) (weak.map some) true).toHeader = s%"*" := by simp [ETags.toHeader, mk]
    rw [this]
    obtain ⟨k, rfl⟩ : ∃ k, n = k + 1 := ⟨n - 1, by omega⟩
    rfl

example : parseEtags 9 (some (mk [some s%"a, b", some s%"*"] [some s%"w/c"] false).toHeader) =
    some ⟨[some s%"a, b", some s%"*"], [some s%"w/c"], false⟩ := by decide

/-! ### C18 -/

/-- C18 (refutation).  On a header ending in a newline the loop never ends: no number of
iterations is enough. -/
theorem C18_terminates_false : ∀ fuel, parseEtags fuel (some s%"\"a\"\n") = none := by
  have hfix : first etagRe none ['\n'] = some ⟨[], ['\n'], [(3, [])]⟩ := by decide
  have loop : ∀ n S W, parseLoop n S W ['\n'] = none := by
    intro n
    induction n with
    | zero => intros; rfl
    | succ n ih => intro S W; simp [parseLoop, hfix, M.group, List.lookup, ih]
  have h0 : first etagRe none s%"\"a\"\n" = some ⟨s%"\"a\"", ['\n'], [(2, s%"a")]⟩ := by decide
  intro fuel
  cases fuel with
  | zero => rfl
  | succ n => simp [parseEtags, parseLoop, h0, M.group, List.lookup, loop]

namespace EtagAux

theorem end_progress (prev : Option Char) (s : Str) (m : M Char) (hm : m ∈ run etagEnd prev s) :
    m.rest.length < s.length ∨ m.rest = [] ∨ (m.rest = s ∧ s = ['\n']) := by
  simp only [etagEnd, run, List.mem_append] at hm
  rcases hm with hm | hm
  · left
    simp only [List.mem_flatMap, andThen, List.mem_map] at hm
    obtain ⟨m1, h1, m2, ⟨m3, h3, m4, h4, rfl⟩, rfl⟩ := hm
    have e1 := run_split (star true (cls Py.isSpace)) prev s m1 h1
    have e3 := run_split (cls (· == ',')) _ _ m3 h3
    have e4 := run_split (star true (cls Py.isSpace)) _ _ m4 h4
    have : m3.txt.length = 1 := by
      cases hr : m1.rest with
      | nil => rw [hr] at h3; simp [run] at h3
      | cons c cs =>
        rw [hr] at h3; simp only [run] at h3
        split at h3 <;> simp at h3
        subst h3; rfl
    have l1 := congrArg List.length e1
    have l3 := congrArg List.length e3
    have l4 := congrArg List.length e4
    simp at l1 l3 l4 ⊢
    omega
  · cases s with
    | nil => simp [run] at hm; subst hm; simp
    | cons c cs =>
      simp only [run] at hm
      split at hm
      · rename_i h
        simp at h
        simp at hm; subst hm
        right; right; simp [h]
      · simp at hm

end EtagAux

/-- C18.  For every header that does not end in a newline the loop ends, after at most one
iteration per character and one more.  (Missing: headers ending in a newline, where the
claim is false.) -/
theorem C18_terminates_partial (value : Str) (h : value.getLast? ≠ some '\n') :
    ∃ tags, parseEtags (value.length + 1) (some value) = some tags := by
  have key : ∀ (n : Nat) (s : Str) S W, s.length < n → s.getLast? ≠ some '\n' →
      ∃ tags, parseLoop n S W s = some tags := by
    intro n
    induction n with
    | zero => intro s S W hn; omega
    | succ n ih =>
      intro s S W hn hl
      simp only [parseLoop]
      split
      · exact ⟨_, rfl⟩
      · rename_i hne
        split
        · exact ⟨_, rfl⟩
        · rename_i m hm
          split
          · exact ⟨_, rfl⟩
          · have hmem : m ∈ run etagRe none s := by
              simp only [Re.first] at hm
              exact List.mem_of_head? hm
            have hsplit := run_split etagRe none s m hmem
            have hrest : m.rest.getLast? ≠ some '\n' := by
              intro hr
              apply hl
              rw [← hsplit, List.getLast?_append, hr]; rfl
            have hlt : m.rest.length < s.length := by
              simp only [etagRe] at hmem
              rw [run] at hmem
              simp only [List.mem_flatMap, andThen, List.mem_map] at hmem
              obtain ⟨m1, h1, m2, h2, rfl⟩ := hmem
              rw [run] at h2
              simp only [List.mem_flatMap, andThen, List.mem_map] at h2
              obtain ⟨m3, h3, m4, h4, rfl⟩ := h2
              have e1 := run_split _ _ _ _ h1
              have e3 := run_split _ _ _ _ h3
              have l1 := congrArg List.length e1
              have l3 := congrArg List.length e3
              simp at l1 l3
              rcases EtagAux.end_progress _ _ _ h4 with h | h | ⟨h, hn'⟩
              · simp; omega
              · have : s ≠ [] := hne
                have : 0 < s.length := List.length_pos_iff.mpr this
                simp [h]; exact this
              · exfalso
                apply hrest
                simp [h, hn']
            split
            · exact ih _ _ _ (by omega) hrest
            · exact ih _ _ _ (by omega) hrest
  unfold parseEtags
  simp only
  split
  · exact ⟨_, rfl⟩
  · exact key _ _ _ _ (by omega) h

example : (s%"\"a\", w/\"b\", c").getLast? ≠ some '\n' := by decide

/-! ### C20 -/

/-- C20.  For a tag set read from the header of any collection of tags: the strong
comparison succeeds exactly for tags listed as strong, the weak comparison exactly for tags
listed either way, and comparing with a quoted tag uses the comparison that its own
strength asks for. -/
theorem C20_comparison (strong weak : List Str)
    (hs : ∀ t ∈ strong, t ≠ [] ∧ '"' ∉ t ∧ '\n' ∉ t) (hw : ∀ t ∈ weak, t ≠ [] ∧ '"' ∉ t ∧ '\n' ∉ t)
    (n : Nat) (hn : strong.length + weak.length < n) :
    ∃ tags, parseEtags n (some (mk (strong.map some) (weak.map some) false).toHeader) = some tags ∧
      ∀ t : Str, '"' ∉ t →
        (tags.contains (some t) = true ↔ t ∈ strong) ∧
        (tags.containsWeak (some t) = true ↔ t ∈ strong ∨ t ∈ weak) ∧
        (∀ q, quoteEtag t false = .ok q → (tags.containsRaw q = true ↔ t ∈ strong)) ∧
        (∀ q, quoteEtag t true = .ok q → (tags.containsRaw q = true ↔ t ∈ strong ∨ t ∈ weak)) := by
  refine ⟨_, (C17_header_roundtrip_partial strong weak hs hw n hn).1, ?_⟩
  intro t ht
  have h1 : ETags.contains ⟨strong.map some, weak.map some, false⟩ (some t) = true ↔ t ∈ strong := by
    simp [ETags.contains]
  have h2 : ETags.containsWeak ⟨strong.map some, weak.map some, false⟩ (some t) = true ↔
      t ∈ strong ∨ t ∈ weak := by
    simp [ETags.containsWeak, ETags.isWeak, ETags.contains, or_comm]
  refine ⟨h1, h2, ?_, ?_⟩
  · intro q hq
    obtain ⟨q', hq', hu⟩ := (C16_etag_quote_roundtrip t false).1 ht
    rw [hq] at hq'; cases hq'
    simp only [ETags.containsRaw, hu]
    simpa using h1
  · intro q hq
    obtain ⟨q', hq', hu⟩ := (C16_etag_quote_roundtrip t true).1 ht
    rw [hq] at hq'; cases hq'
    simp only [ETags.containsRaw, hu]
    simpa using h2

/-- C20.  The wildcard succeeds for both comparisons and any tag; calling the set instead of
using `in` ignores the wildcard. -/
theorem C20_wildcard (S W : List (Option Str)) (t : Option Str) (q : Str) (b : Bool) :
    (mk S W true).contains t = true ∧ (mk S W true).containsWeak t = true ∧
    (mk S W true).containsRaw q = true ∧ (mk S [] true).call t b = false := by
  simp [mk, ETags.contains, ETags.containsWeak, ETags.containsRaw, ETags.call]

example : ∃ q, quoteEtag s%"v1" true = .ok q := ⟨_, rfl⟩

/-! ### C19 -/

/-- C19 (refutation).  The comparison is not the weak comparison: a strong etag does not
match the same tag listed as weak, so the resource counts as modified. -/
theorem C19_weak_comparison_false :
    isResourceModified (D := Unit) (fun _ => []) 9 s%"GET" (some s%"w/\"x\"") none
      (some s%"\"x\"") none none = .ok (some true) := by decide

/-- When the answer is "not modified" for GET and HEAD. -/
def EtagAux.NotModified (inm : Option (List Str × List Str)) (star : Bool) (ims : Option Int)
    (etag : Option (Str × Bool)) (lastModified : Option Int) : Prop :=
  match etag with
  | some (t, weak) =>
    if star then True
    else match inm with
      | some (S, W) => t ∈ S ∨ (weak = true ∧ t ∈ W)
      | none => ∃ i l, ims = some i ∧ lastModified = some l ∧ l - l % 1000000 ≤ i
  | none => ∃ i l, ims = some i ∧ lastModified = some l ∧ l - l % 1000000 ≤ i

/-- The If-None-Match header: absent, the wildcard, or a non-empty list of tags. -/
def EtagAux.header (inm : Option (List Str × List Str)) (star : Bool) : Option Str :=
  if star then some s%"*"
  else inm.map fun x => (mk (x.1.map some) (x.2.map some) false).toHeader

/-- C19.  The decision for GET and HEAD, with If-None-Match taking precedence over the
dates and dates compared at whole seconds (a date of the resource is truncated).  A weak
etag is matched against strong and weak tags, a strong etag against strong tags only.
(Missing from the full claim: strong etags against weakly listed tags, where it is false.) -/
theorem C19_decision_partial {D : Type} (md5 : D → Str) (method : Str)
    (hm : method = s%"GET" ∨ method = s%"HEAD")
    (inm : Option (List Str × List Str)) (star : Bool) (ims lastModified : Option Int)
    (hinm : ∀ S W, inm = some (S, W) → S ++ W ≠ [] ∧ ∀ t ∈ S ++ W, t ≠ [] ∧ '"' ∉ t ∧ '\n' ∉ t)
    (etag : Option (Str × Bool)) (hetag : ∀ t w, etag = some (t, w) → '"' ∉ t)
    (n : Nat) (hn : ∀ S W, inm = some (S, W) → (S ++ W).length < n) (hn' : 0 < n) :
    ∃ b, isResourceModified md5 n method (EtagAux.header inm star) ims
        (etag.map fun e => (quoteEtag e.1 e.2).toOption.getD []) none lastModified = .ok (some b) ∧
      (b = false ↔ EtagAux.NotModified inm star ims etag lastModified) := by
  have hmeth : ¬ (method ≠ s%"GET" ∧ method ≠ s%"HEAD") := by
    rcases hm with rfl | rfl <;> simp
  have hdate : (match ims, lastModified with
      | some i, some l => decide (truncSec l ≤ i)
      | _, _ => false) = true ↔ ∃ i l, ims = some i ∧ lastModified = some l ∧ l - l % 1000000 ≤ i := by
    cases ims with
    | none => simp
    | some i =>
      cases lastModified with
      | none => simp
      | some l =>
        constructor
        · intro h; exact ⟨_, _, rfl, rfl, of_decide_eq_true h⟩
        · rintro ⟨_, _, h1, h2, h3⟩; cases h1; cases h2; exact decide_eq_true h3
  cases etag with
  | none =>
    refine ⟨_, by simp only [isResourceModified, Option.map_none, if_neg hmeth]; rfl, ?_⟩
    rw [Bool.not_eq_false']
    exact hdate
  | some tw =>
    obtain ⟨t, w⟩ := tw
    have ht := hetag t w rfl
    obtain ⟨q, hq, hu⟩ := (C16_etag_quote_roundtrip t w).1 ht
    obtain ⟨c, cs, hqc⟩ : ∃ c cs, q = c :: cs := by
      cases q with
      | nil => simp [unquoteEtag] at hu
      | cons c cs => exact ⟨c, cs, rfl⟩
    subst hqc
    simp only [Option.map_some, hq, Except.toOption, Option.getD_some, isResourceModified, if_neg hmeth]
    cases star with
    | true =>
      obtain ⟨k, rfl⟩ : ∃ k, n = k + 1 := ⟨n - 1, by omega⟩
      have hp : parseEtags (k + 1) (EtagAux.header inm true) = some (mk [] [] true) := rfl
      simp only [hp]
      refine ⟨_, rfl, ?_⟩
      simp [EtagAux.NotModified, mk, ETags.truthy, ETags.containsRaw, ETags.contains, ETags.containsWeak]
    | false =>
      cases inm with
      | none =>
        have hp : parseEtags n (EtagAux.header none false) = some (mk [] [] false) := rfl
        simp only [hp]
        refine ⟨_, rfl, ?_⟩
        rw [Bool.not_eq_false']
        have htr : ¬ ((mk [] [] false).truthy = true) := by decide
        rw [if_neg htr]
        exact hdate
      | some SW =>
        obtain ⟨S, W⟩ := SW
        obtain ⟨hne, hT⟩ := hinm S W rfl
        have hlen := hn S W rfl
        have hp := (C17_header_roundtrip_partial S W (fun t h => hT t (by simp [h]))
          (fun t h => hT t (by simp [h])) n (by simpa using hlen)).1
        have hh : EtagAux.header (some (S, W)) false = some (mk (S.map some) (W.map some) false).toHeader := rfl
        rw [hh, hp]
        refine ⟨_, rfl, ?_⟩
        rw [Bool.not_eq_false']
        have htr : ETags.truthy ⟨S.map some, W.map some, false⟩ = true := by
          simp only [ETags.truthy]
          cases S with
          | cons => simp
          | nil => cases W with
            | nil => simp at hne
            | cons => simp
        rw [if_pos htr]
        simp only [EtagAux.NotModified, ETags.containsRaw, hu]
        cases w
        · simp [ETags.contains]
        · simp [ETags.containsWeak, ETags.isWeak, ETags.contains, or_comm]

/-- C19 (other methods).  For every other method the answer is always "not modified". -/
theorem C19_other_methods {D : Type} (md5 : D → Str) (n : Nat) (method : Str)
    (hm : method ≠ s%"GET" ∧ method ≠ s%"HEAD") (inm : Option Str) (ims lastModified : Option Int)
    (etag : Option Str) :
    isResourceModified md5 n method inm ims etag none lastModified = .ok (some false) := by
  cases etag <;> simp [isResourceModified, hm.1, hm.2]

/-- C19.  Passing the data is the same as passing its etag; passing both is an error. -/
theorem C19_data {D : Type} (md5 : D → Str) (n : Nat) (method : Str) (inm : Option Str)
    (ims lastModified : Option Int) (d : D) (e : Str) :
    isResourceModified md5 n method inm ims none (some d) lastModified =
      isResourceModified md5 n method inm ims (some (md5 d)) none lastModified ∧
    isResourceModified md5 n method inm ims (some e) (some d) lastModified = .error .typeError := by
  constructor <;> rfl

example : isResourceModified (D := Unit) (fun _ => []) 9 s%"GET" (some s%"\"x\"") (some 10000000)
      (some s%"\"y\"") none (some 5) = .ok (some true) ∧
    isResourceModified (D := Unit) (fun _ => []) 9 s%"HEAD" none (some 10000000)
      (some s%"\"y\"") none (some 10999999) = .ok (some false) := by decide

end Verif.Props
