import Verif.Model.LineIter
import Verif.Spec.Lines
/-!
C33, C34: `make_line_iter` and `make_chunk_iter` (`/repo/verktyg/wsgi.py:658-778`).
-/
namespace Verif.LineIter
open Verif Verif.Lines

/-! ### The line specification determines the lines -/

theorem noEol_cons {c : Char} {s : Str} : NoEol (c :: s) ↔ c ≠ '\r' ∧ c ≠ '\n' ∧ NoEol s := by
  simp only [NoEol, List.mem_cons, not_or]
  grind

theorem noEol_append {a b : Str} : NoEol (a ++ b) ↔ NoEol a ∧ NoEol b := by
  simp only [NoEol, List.mem_append, not_or]
  grind

theorem eol_ne_nil {t : Str} (h : Eol t) : t ≠ [] := by rcases h with rfl | rfl | rfl <;> simp

/-- Two ways of reading a body, a terminator and a rest agree. -/
theorem eol_unique {b b' t t' r r' : Str} (hb : NoEol b) (hb' : NoEol b') (ht : Eol t) (ht' : Eol t')
    (hr : t = ['\r'] → r.head? ≠ some '\n') (hr' : t' = ['\r'] → r'.head? ≠ some '\n')
    (h : b ++ t ++ r = b' ++ t' ++ r') : b = b' ∧ t = t' ∧ r = r' := by
  induction b generalizing b' with
  | nil =>
    cases b' with
    | nil =>
      rcases ht with rfl | rfl | rfl <;> rcases ht' with rfl | rfl | rfl <;>
        simp_all <;> subst h <;> simp at hr'
    | cons c cs =>
      obtain ⟨h1, h2, -⟩ := noEol_cons.1 hb'
      rcases ht with rfl | rfl | rfl <;> simp at h <;> exact absurd h.1.symm (by assumption)
  | cons d ds ih =>
    obtain ⟨k1, k2, k3⟩ := noEol_cons.1 hb
    cases b' with
    | nil =>
      rcases ht' with rfl | rfl | rfl <;> simp at h <;> exact absurd h.1 (by assumption)
    | cons c cs =>
      obtain ⟨h1, h2, h3⟩ := noEol_cons.1 hb'
      simp only [List.cons_append, List.cons.injEq] at h
      obtain ⟨a, b, c⟩ := ih k3 h3 h.2
      exact ⟨by rw [h.1, a], b, c⟩

theorem noEol_ne {b t r : Str} (ht : Eol t) : ¬ NoEol (b ++ t ++ r) := by
  rw [noEol_append, noEol_append]
  rintro ⟨⟨-, h⟩, -⟩
  rcases ht with rfl | rfl | rfl <;> simp [NoEol] at h

/-- The lines of a text are determined by the specification. -/
theorem lines_unique {t : Str} {ls ls' : List Str} (h : Lines t ls) (h' : Lines t ls') : ls = ls' := by
  induction h generalizing ls' with
  | nil =>
    generalize ht : ([] : Str) = t at h'
    cases h' with
    | nil => rfl
    | last hb _ => exact absurd ht.symm hb
    | cons _ he _ _ =>
      have := congrArg List.length ht
      rcases he with rfl | rfl | rfl <;> simp at this
  | last hb hn =>
    rename_i b
    cases h' with
    | nil => exact absurd rfl hb
    | last _ _ => rfl
    | cons _ he _ _ => exact absurd hn (noEol_ne he)
  | cons hb he hr _ ih =>
    rename_i b t r ls _
    generalize ht : b ++ t ++ r = x at h'
    cases h' with
    | nil =>
      have := congrArg List.length ht
      rcases he with rfl | rfl | rfl <;> simp at this
    | last hb' hn' => rw [← ht] at hn'; exact absurd hn' (noEol_ne he)
    | cons hb' he' hr' hl' =>
      obtain ⟨rfl, rfl, rfl⟩ := eol_unique hb hb' he he' hr hr' ht
      rw [ih hl']

/-! ### The basic lines -/

/-- The basic lines: as `Lines`, but a CR LF may be separated. -/
inductive Basic : Str → List Str → Prop
  | nil : Basic [] []
  | last {b : Str} : b ≠ [] → NoEol b → Basic b [b]
  | cons {b t r : Str} {ls : List Str} : NoEol b → Eol t → Basic r ls →
      Basic (b ++ t ++ r) ((b ++ t) :: ls)

/-- The merging loop after an item `p` that is a complete line or empty. -/
theorem merge_lines {t : Str} {ls : List Str} (h : Basic t ls) :
    Lines t (merge (.ok ()) [] ls) ∧
    ∀ b e, NoEol b → Eol e → Lines (b ++ e ++ t) (merge (.ok ()) (b ++ e) ls) := by
  induction h with
  | nil =>
    refine ⟨Lines.nil, fun b e hb he => ?_⟩
    have hne : b ++ e ≠ [] := by simp [eol_ne_nil he]
    simp only [merge, hne, if_false]
    exact Lines.cons hb he (by simp) Lines.nil
  | last hb hn =>
    rename_i c
    have hc1 : c ≠ ['\n'] := by rintro rfl; simp [NoEol] at hn
    refine ⟨?_, fun b e hb' he => ?_⟩
    · simp only [merge, hc1, false_and, if_false, if_true, List.nil_append, hb]
      exact Lines.last hb hn
    · have hne : b ++ e ≠ [] := by simp [eol_ne_nil he]
      simp only [merge, hc1, false_and, if_false, hne, hb, List.singleton_append]
      refine Lines.cons hb' he (fun _ hh => ?_) (Lines.last hb hn)
      cases c with
      | nil => simp at hh
      | cons x xs => simp at hh; subst hh; simp [NoEol] at hn
  | cons hb he hr ih =>
    rename_i c e r ls
    have hce : c ++ e ≠ [] := by simp [eol_ne_nil he]
    refine ⟨?_, fun b' e' hb' he' => ?_⟩
    · simp only [merge, List.getLast?_nil, reduceCtorEq, and_false, if_false, if_true, List.nil_append]
      exact ih.2 c e hb he
    · have hne : b' ++ e' ≠ [] := by simp [eol_ne_nil he']
      simp only [merge]
      split
      · rename_i hcond
        obtain ⟨h1, h2⟩ := hcond
        have hcc : c = [] ∧ e = ['\n'] := by
          rcases he with rfl | rfl | rfl
          · cases c <;> simp at h1
          · cases c <;> simp at h1
          · cases c <;> simp at h1; simp
        obtain ⟨rfl, rfl⟩ := hcc
        have hee : e' = ['\r'] := by
          rcases he' with rfl | rfl | rfl <;> simp at h2
          rfl
        subst hee
        have := Lines.cons (r := r) hb' (Or.inl rfl) (by simp) ih.1
        simpa using this
      · rename_i hcond
        simp only [hne, if_false, List.singleton_append]
        refine Lines.cons hb' he' (fun hcr hh => hcond ?_) (ih.2 c e hb he)
        subst hcr
        refine ⟨?_, by simp⟩
        cases c with
        | nil => rcases he with rfl | rfl | rfl <;> simp at hh ⊢
        | cons x xs => simp at hh; subst hh; simp [NoEol] at hb

/-- An item of `splitlines`: without CR and LF, or ending with its only terminator. -/
def ItemOk (x : Str) : Prop := x ≠ [] ∧ (NoEol x ∨ ∃ b t, NoEol b ∧ Eol t ∧ x = b ++ t)

theorem isBreak_of_not {c : Char} (h : isBreak c = false) : c ≠ '\r' ∧ c ≠ '\n' := by
  constructor <;> (rintro rfl; revert h; decide)

theorem splitlinesGo_ok (cur s : Str) (hc : NoEol cur) :
    (splitlinesGo cur s).flatten = cur ++ s ∧ ∀ x ∈ splitlinesGo cur s, ItemOk x := by
  fun_induction splitlinesGo cur s with
  | case1 => simp
  | case2 cur h => simp [ItemOk, h, hc]
  | case3 cur cs ih =>
    obtain ⟨h1, h2⟩ := ih (by simp [NoEol])
    refine ⟨by simp [h1], ?_⟩
    intro x hx
    rcases List.mem_cons.1 hx with rfl | hx
    · exact ⟨by simp, Or.inr ⟨cur, _, hc, Or.inl rfl, rfl⟩⟩
    · exact h2 x hx
  | case4 cur c cs hne hb ih =>
    obtain ⟨h1, h2⟩ := ih (by simp [NoEol])
    refine ⟨by simp [h1], ?_⟩
    intro x hx
    rcases List.mem_cons.1 hx with rfl | hx
    · refine ⟨by simp, ?_⟩
      by_cases h3 : c = '\r'
      · exact Or.inr ⟨cur, _, hc, Or.inr (Or.inl rfl), by rw [h3]⟩
      · by_cases h4 : c = '\n'
        · exact Or.inr ⟨cur, _, hc, Or.inr (Or.inr rfl), by rw [h4]⟩
        · left
          rw [noEol_append]
          exact ⟨hc, noEol_cons.2 ⟨h3, h4, by simp [NoEol]⟩⟩
    · exact h2 x hx
  | case5 cur c cs hne hb ih =>
    obtain ⟨h3, h4⟩ := isBreak_of_not (Bool.eq_false_iff.2 hb)
    obtain ⟨h1, h2⟩ := ih (noEol_append.2 ⟨hc, noEol_cons.2 ⟨h3, h4, by simp [NoEol]⟩⟩)
    exact ⟨by simp [h1], h2⟩

theorem endsLine_noEol {x : Str} (h : NoEol x) : endsLine x = false := by
  unfold endsLine
  cases hx : x.getLast? with
  | none => rfl
  | some c =>
    have hm := List.mem_of_getLast? hx
    simp only [Bool.or_eq_false_iff, decide_eq_false_iff_not]
    exact ⟨fun hc => h.1 (hc ▸ hm), fun hc => h.2 (hc ▸ hm)⟩

theorem endsLine_eol {b t : Str} (h : Eol t) : endsLine (b ++ t) = true := by
  rcases h with rfl | rfl | rfl <;> simp [endsLine]

/-- What the inner loop does, whatever follows. -/
theorem scan_ok (items : List Str) : ∀ nb : List Str, NoEol nb.flatten → (∀ x ∈ nb, x ≠ []) →
    (∀ x ∈ items, ItemOk x) →
    NoEol (scan nb items).2.flatten ∧ (∀ x ∈ (scan nb items).2, x ≠ []) ∧
    ∀ r bl, Basic ((scan nb items).2.flatten ++ r) bl →
      Basic (nb.flatten ++ items.flatten ++ r) ((scan nb items).1 ++ bl) := by
  induction items with
  | nil => intro nb h1 h2 _; exact ⟨h1, h2, fun r bl h => by simpa [scan] using h⟩
  | cons item items ih =>
    intro nb h1 h2 h3
    obtain ⟨hne, hi⟩ := h3 item (by simp)
    have h3' : ∀ x ∈ items, ItemOk x := fun x hx => h3 x (by simp [hx])
    rcases hi with hi | ⟨b, t, hb, ht, rfl⟩
    · simp only [scan, endsLine_noEol hi]
      obtain ⟨a1, a2, a3⟩ := ih (nb ++ [item]) (by simpa using noEol_append.2 ⟨h1, hi⟩)
        (by intro x hx; rcases List.mem_append.1 hx with h | h
            · exact h2 x h
            · simp at h; exact h ▸ hne) h3'
      refine ⟨a1, a2, fun r bl h => ?_⟩
      simpa using a3 r bl h
    · simp only [scan, endsLine_eol ht, if_true]
      obtain ⟨a1, a2, a3⟩ := ih [] (by simp [NoEol]) (by simp) h3'
      refine ⟨a1, a2, fun r bl h => ?_⟩
      have := Basic.cons (b := nb.flatten ++ b) (noEol_append.2 ⟨h1, hb⟩) ht (a3 r bl h)
      simpa using this

theorem scan_append (a b : List Str) : ∀ nb : List Str, (∀ x ∈ a, NoEol x) →
    scan nb (a ++ b) = scan (nb ++ a) b := by
  induction a with
  | nil => intro nb _; simp
  | cons x xs ih =>
    intro nb h
    simp only [List.cons_append, scan, endsLine_noEol (h x (by simp)), if_false, Bool.false_eq_true]
    rw [ih _ (fun y hy => h y (by simp [hy]))]
    simp

/-- The text of a block. -/
def Block.str : Block → Str
  | .text s => s
  | .bytes _ => []

theorem basicLines_ok (blocks : List Block) (hb : ∀ x ∈ blocks, ∃ s, x = .text s) :
    ∀ buf : List Str, NoEol buf.flatten → (∀ x ∈ buf, x ≠ []) →
      (basicLines buf blocks).2 = .ok () ∧
      Basic (buf.flatten ++ (blocks.map Block.str).flatten) (basicLines buf blocks).1 := by
  induction blocks with
  | nil =>
    intro buf h1 h2
    refine ⟨rfl, ?_⟩
    simp only [basicLines, List.map_nil, List.flatten_nil, List.append_nil]
    split
    · rename_i h; subst h; exact Basic.nil
    · rename_i h
      refine Basic.last (fun hf => ?_) h1
      cases buf with
      | nil => exact h rfl
      | cons x xs => simp at hf; exact h2 x (by simp) hf.1
  | cons d ds ih =>
    intro buf h1 h2
    obtain ⟨s, rfl⟩ := hb d (by simp)
    simp only [basicLines, List.map_cons, List.flatten_cons, Block.str]
    obtain ⟨hf, hi⟩ := splitlinesGo_ok [] s (by simp [NoEol])
    have hbuf : ∀ x ∈ buf, NoEol x := by
      intro x hx
      constructor
      · intro hc; exact h1.1 (List.mem_flatten.2 ⟨x, hx, hc⟩)
      · intro hc; exact h1.2 (List.mem_flatten.2 ⟨x, hx, hc⟩)
    rw [scan_append _ _ [] hbuf]
    simp only [List.nil_append]
    obtain ⟨a1, a2, a3⟩ := scan_ok (splitlines s) buf h1 h2 hi
    obtain ⟨b1, b2⟩ := ih (fun x hx => hb x (by simp [hx])) _ a1 a2
    refine ⟨b1, ?_⟩
    have := a3 _ _ b2
    rw [show (splitlines s).flatten = s by simpa [splitlines] using hf] at this
    simpa using this

/-- **C33.**  Over text blocks `make_line_iter` yields exactly the lines of the whole text
(terminated by CR LF, CR or LF), wherever the block boundaries are.  By `lines_unique` these
lines do not depend on the blocks. -/
theorem C33_lines (blocks : List Block) (hb : ∀ x ∈ blocks, ∃ s, x = .text s) :
    (makeLineIter blocks).2 = .ok () ∧ Lines (blocks.map Block.str).flatten (makeLineIter blocks).1 := by
  obtain ⟨h1, h2⟩ := basicLines_ok blocks hb [] (by simp [NoEol]) (by simp)
  simp only [List.flatten_nil, List.nil_append] at h2
  simp only [makeLineIter, h1]
  exact ⟨trivial, (merge_lines h2).1⟩

theorem lines_flatten {t : Str} {ls : List Str} (h : Lines t ls) : ls.flatten = t := by
  induction h with
  | nil => rfl
  | last _ _ => simp
  | cons _ _ _ _ ih => simp [ih]

/-- **C33.**  The result does not depend on how the text is divided, and putting the lines
together gives the text back. -/
theorem C33_chunking_irrelevant (x y : List Block) (hx : ∀ b ∈ x, ∃ s, b = .text s)
    (hy : ∀ b ∈ y, ∃ s, b = .text s) (h : (x.map Block.str).flatten = (y.map Block.str).flatten) :
    makeLineIter x = makeLineIter y ∧ (makeLineIter x).1.flatten = (x.map Block.str).flatten := by
  obtain ⟨x1, x2⟩ := C33_lines x hx
  obtain ⟨y1, y2⟩ := C33_lines y hy
  exact ⟨Prod.ext (lines_unique x2 (h ▸ y2)) (x1.trans y1.symm), lines_flatten x2⟩

example : makeLineIter [.text s%"ab\r", .text s%"\n\nc", .text s%"d\x0b", .text s%"e"]
    = ([s%"ab\r\n", s%"\n", s%"cd\x0be"], .ok ()) := by decide

theorem C33_iterable (xs : List Block) (hb : ∀ x ∈ xs, ∃ s, x = .text s) :
    Lines (xs.map Block.str).flatten (makeLineIter (ofIterable xs)).1 := by
  have h := (C33_lines (ofIterable xs) (fun x hx => hb x (List.mem_filter.1 hx).1)).2
  have e : ((ofIterable xs).map Block.str).flatten = (xs.map Block.str).flatten := by
    clear h
    induction xs with
    | nil => rfl
    | cons x xs ih =>
      obtain ⟨s, rfl⟩ := hb x (by simp)
      have ih := ih fun y hy => hb y (by simp [hy])
      by_cases hs : s = []
      · simpa [ofIterable, hs, Block.str] using ih
      · simpa [ofIterable, hs, Block.str] using ih
  rwa [e] at h

/-- **C67 fails.**  Over bytes (such as the body of a request) `make_line_iter` yields nothing
and raises `TypeError`, whatever the blocks are; only an empty input is read without error. -/
theorem C67_bytes_false (b : Bytes) (bs : List Block) :
    makeLineIter (.bytes b :: bs) = ([], .error .typeError) := rfl

theorem C67_bytes_partial : makeLineIter [] = ([], .ok ()) ∧
    ∀ b bs, (makeLineIter (.bytes b :: bs)).2 ≠ .ok () :=
  ⟨rfl, fun b bs => by simp [C67_bytes_false]⟩

/-! ### Chunks -/

section
variable {α : Type} [DecidableEq α]

theorem cut_none {sep : List α} (hs : sep ≠ []) : ∀ {t : List α}, cut sep t = none → ∀ q r, t ≠ q ++ sep ++ r
  | [], _ => by
    intro q r h
    have hl := List.length_pos_iff.2 hs
    have := congrArg List.length h
    simp only [List.length_append, List.length_nil] at this
    omega
  | c :: cs, h => by
    unfold cut at h
    split at h
    · simp at h
    · rename_i hp
      simp at h
      intro q r he
      cases q with
      | nil => exact hp ⟨r, by simpa using he.symm⟩
      | cons d ds =>
        simp at he
        exact cut_none hs h ds r (by simpa using he.2)

theorem cut_some {sep : List α} (hs : sep ≠ []) : ∀ {t p r : List α}, cut sep t = some (p, r) →
    t = p ++ sep ++ r ∧ ∀ q s, t = q ++ sep ++ s → p.length ≤ q.length
  | [], p, r, h => by simp [cut, hs] at h
  | c :: cs, p, r, h => by
    unfold cut at h
    split at h
    · rename_i hp
      simp at h
      obtain ⟨rfl, rfl⟩ := h
      obtain ⟨x, hx⟩ := hp
      refine ⟨?_, by simp⟩
      rw [← hx]
      simp
    · rename_i hp
      simp only [Option.map_eq_some_iff, Prod.mk.injEq, Prod.exists] at h
      obtain ⟨p', r', h1, rfl, rfl⟩ := h
      obtain ⟨a, b⟩ := cut_some hs h1
      refine ⟨by rw [a]; simp, ?_⟩
      intro q s he
      cases q with
      | nil => exact absurd ⟨s, by simpa using he.symm⟩ hp
      | cons d ds =>
        simp at he
        have := b ds s (by simpa using he.2)
        simpa using this

/-- Put in front of the first piece. -/
def addFirst (x : List α) : List (List α) → List (List α)
  | [] => []
  | p :: ps => (x ++ p) :: ps

theorem split_ne_nil {sep t : List α} {ps : List (List α)} (h : Split sep t ps) : ps ≠ [] := by
  cases h <;> simp

/-- The inner loop over one block. -/
theorem cscan_split {sep : List α} (hs : sep ≠ []) : ∀ (n : Nat) (d : List α), d.length ≤ n →
    ∃ ps, Split sep d ps ∧ ∀ nb : List (List α),
      ((cscan sep nb (splitKeep sep n d)).1 ++ [(cscan sep nb (splitKeep sep n d)).2.flatten] = addFirst nb.flatten ps) ∧
      (cscan sep nb (splitKeep sep n d)).2 ≠ [] ∧
      ((∀ x ∈ nb, x ≠ sep) → ∀ x ∈ (cscan sep nb (splitKeep sep n d)).2, x ≠ sep)
  | n, d, hn => by
    have hl := List.length_pos_iff.2 hs
    have hlast : ∀ (hno : ∀ q r, d ≠ q ++ sep ++ r) (nb : List (List α)),
        (cscan sep nb [d]).1 ++ [(cscan sep nb [d]).2.flatten] = addFirst nb.flatten [d] ∧
        (cscan sep nb [d]).2 ≠ [] ∧
        ((∀ x ∈ nb, x ≠ sep) → ∀ x ∈ (cscan sep nb [d]).2, x ≠ sep) := by
      intro hno nb
      have hd : d ≠ sep := fun h => hno [] [] (by simp [h])
      simp only [cscan, hd, if_false, addFirst]
      refine ⟨by simp, by simp, ?_⟩
      intro h x hx
      rcases List.mem_append.1 hx with hx | hx
      · exact h x hx
      · simp at hx; rw [hx]; exact hd
    cases n with
    | zero =>
      have hd : d = [] := List.length_eq_zero_iff.1 (by omega)
      subst hd
      have hno : ∀ q r, ([] : List α) ≠ q ++ sep ++ r := by
        intro q r h
        have := congrArg List.length h
        simp only [List.length_append, List.length_nil] at this
        omega
      exact ⟨[[]], Split.last hno, fun nb => by simpa [splitKeep] using hlast hno nb⟩
    | succ n =>
      cases hc : cut sep d with
      | none =>
        have hno := cut_none hs hc
        refine ⟨[d], Split.last hno, fun nb => ?_⟩
        simpa only [splitKeep, hc] using hlast hno nb
      | some pr =>
        obtain ⟨p, r⟩ := pr
        obtain ⟨h1, h2⟩ := cut_some hs hc
        have hr : r.length ≤ n := by
          have := congrArg List.length h1
          simp at this
          omega
        obtain ⟨ps, hps, ih⟩ := cscan_split hs n r hr
        have hp : p ≠ sep := by
          intro h
          subst h
          have := h2 [] (p ++ r) (by simp [h1])
          simp at this
          exact hs this
        refine ⟨p :: ps, by rw [h1]; exact Split.cons (fun q s he => h2 q s (by rw [h1]; exact he)) hps, fun nb => ?_⟩
        obtain ⟨a, b, c⟩ := ih []
        simp only [splitKeep, hc, cscan, hp, if_false, if_true]
        refine ⟨?_, b, fun _ => c (by simp)⟩
        simp only [List.cons_append, a, addFirst]
        cases ps with
        | nil => exact absurd rfl (split_ne_nil hps)
        | cons q qs => simp [addFirst]

theorem cscan_append (sep : List α) (a b : List (List α)) : ∀ nb : List (List α), (∀ x ∈ a, x ≠ sep) →
    cscan sep nb (a ++ b) = cscan sep (nb ++ a) b := by
  induction a with
  | nil => intro nb _; simp
  | cons x xs ih =>
    intro nb h
    simp only [List.cons_append, cscan, h x (by simp), if_false]
    rw [ih _ (fun y hy => h y (by simp [hy]))]
    simp

/-- `separator.join(pieces)`. -/
def joinSep (sep : List α) : List (List α) → List α
  | [] => []
  | [p] => p
  | p :: q :: ps => p ++ sep ++ joinSep sep (q :: ps)

theorem joinSep_cons (sep p : List α) {ps : List (List α)} (h : ps ≠ []) :
    joinSep sep (p :: ps) = p ++ sep ++ joinSep sep ps := by
  cases ps with
  | nil => exact absurd rfl h
  | cons q qs => rfl

theorem joinSep_append {sep z rest : List α} {X : List (List α)} (hX : X ≠ []) (h : joinSep sep X = z ++ rest) :
    ∀ ys : List (List α), joinSep sep (ys ++ X) = joinSep sep (ys ++ [z]) ++ rest
  | [] => by simpa [joinSep] using h
  | y :: ys => by
    rw [List.cons_append, joinSep_cons _ _ (by simp [hX]), joinSep_append hX h ys,
      List.cons_append, joinSep_cons _ _ (by simp)]
    simp

theorem joinSep_addFirst (sep x : List α) {ps : List (List α)} (h : ps ≠ []) :
    joinSep sep (addFirst x ps) = x ++ joinSep sep ps := by
  match ps, h with
  | [p], _ => rfl
  | p :: q :: qs, _ => simp [addFirst, joinSep]

theorem split_join {sep t : List α} {ps : List (List α)} (h : Split sep t ps) : joinSep sep ps = t := by
  induction h with
  | last _ => rfl
  | cons _ hps ih => rw [joinSep_cons _ _ (split_ne_nil hps), ih]

theorem chunkGo_join {sep : List α} (hs : sep ≠ []) : ∀ (ds : List (List α)) (buf : List (List α)),
    buf ≠ [] → (∀ x ∈ buf, x ≠ sep) →
    chunkGo sep buf ds ≠ [] ∧ joinSep sep (chunkGo sep buf ds) = buf.flatten ++ ds.flatten
  | [], buf, hb, _ => by simp [chunkGo, hb, joinSep]
  | d :: ds, buf, _, hx => by
    obtain ⟨ps, hps, h⟩ := cscan_split hs d.length d (Nat.le_refl _)
    obtain ⟨h1, h2, h3⟩ := h buf
    simp only [chunkGo]
    rw [cscan_append _ _ _ [] hx, List.nil_append]
    obtain ⟨i1, i2⟩ := chunkGo_join hs ds _ h2 (h3 hx)
    refine ⟨by simp [i1], ?_⟩
    rw [joinSep_append i1 i2, h1, joinSep_addFirst _ _ (split_ne_nil hps), split_join hps]
    simp

/-- **C34, nothing lost.**  For every separator, joining the yielded pieces with the
separator gives the data back, wherever the block boundaries are. -/
theorem C34_lossless (sep : List α) (hs : sep ≠ []) (blocks : List (List α)) :
    joinSep sep (makeChunkIter sep blocks) = blocks.flatten ∧
    (makeChunkIter sep blocks = [] ↔ blocks.flatten = []) := by
  have hf : (blocks.filter (· ≠ [])).flatten = blocks.flatten := by
    induction blocks with
    | nil => rfl
    | cons b bs ih => by_cases hb : b = [] <;> simp_all
  unfold makeChunkIter
  rw [← hf]
  have hne : ∀ x ∈ blocks.filter (· ≠ []), x ≠ [] := by simp
  generalize blocks.filter (· ≠ []) = ds at hne
  cases ds with
  | nil => simp [chunkGo, joinSep]
  | cons d ds =>
    obtain ⟨ps, hps, h⟩ := cscan_split hs d.length d (Nat.le_refl _)
    obtain ⟨h1, h2, h3⟩ := h []
    simp only [chunkGo, List.nil_append]
    obtain ⟨i1, i2⟩ := chunkGo_join hs ds _ h2 (h3 (by simp))
    refine ⟨?_, ?_⟩
    · rw [joinSep_append i1 i2, h1, joinSep_addFirst _ _ (split_ne_nil hps), split_join hps]
      simp
    · have := hne d (by simp)
      simp [i1, this]

/-- **C34, one block.**  When the data arrives in one block the pieces are those of the data
cut at the separator. -/
theorem C34_single_block_partial (sep : List α) (hs : sep ≠ []) (d : List α) (hd : d ≠ []) :
    Split sep d (makeChunkIter sep [d]) := by
  obtain ⟨ps, hps, h⟩ := cscan_split hs d.length d (Nat.le_refl _)
  obtain ⟨h1, h2, h3⟩ := h []
  have : makeChunkIter sep [d] = ps := by
    simp only [makeChunkIter, List.filter_cons, hd, ne_eq, not_false_eq_true, decide_true, if_true, List.filter_nil,
      chunkGo, List.nil_append, h2, if_false]
    rw [h1]
    cases ps with
    | nil => rfl
    | cons p ps => rfl
  rw [this]
  exact hps

theorem split_free {c : α} {t : List α} {ps : List (List α)} (h : Split [c] t ps) : ∀ p ∈ ps, c ∉ p := by
  induction h with
  | last hno =>
    intro p hp hc
    simp at hp
    subst hp
    obtain ⟨a, b, hab⟩ := List.append_of_mem hc
    exact hno a b (by simp [hab])
  | @cons p r ps hf _ ih =>
    intro q hq hc
    rcases List.mem_cons.1 hq with rfl | hq
    · obtain ⟨a, b, hab⟩ := List.append_of_mem hc
      have := hf a (b ++ [c] ++ r) (by simp [hab])
      have h2 := congrArg List.length hab
      simp at h2
      omega
    · exact ih q hq hc

theorem split_of_free {c : α} : ∀ {ps : List (List α)}, ps ≠ [] → (∀ p ∈ ps, c ∉ p) →
    Split [c] (joinSep [c] ps) ps
  | [p], _, h => Split.last fun q r he => h p (by simp) (by simp [joinSep] at he; simp [he])
  | p :: q :: ps, _, h => by
    have ih := split_of_free (ps := q :: ps) (by simp) fun x hx => h x (by simp [hx])
    refine Split.cons (fun a s he => ?_) ih
    have hp : c ∉ p := h p (by simp)
    clear ih h
    rename_i hxx
    clear hxx
    induction p generalizing a with
    | nil => simp
    | cons x xs ih =>
      cases a with
      | nil => simp at he; exact absurd he.1 (by simp at hp; exact fun h => hp.1 h.symm)
      | cons y ys =>
        simp only [List.cons_append, List.cons.injEq] at he
        have := ih ys he.2 (fun hc => hp (by simp [hc]))
        simpa using this

theorem addFirst_free {c : α} {x : List α} {ps : List (List α)} (hx : c ∉ x) (h : ∀ p ∈ ps, c ∉ p) :
    ∀ p ∈ addFirst x ps, c ∉ p := by
  cases ps with
  | nil => simp [addFirst]
  | cons q qs =>
    intro p hp
    simp only [addFirst, List.mem_cons] at hp
    rcases hp with rfl | hp
    · have := h q (by simp); simp [hx, this]
    · exact h p (by simp [hp])

theorem chunkGo_free (c : α) : ∀ (ds : List (List α)) (buf : List (List α)), c ∉ buf.flatten →
    ∀ p ∈ chunkGo [c] buf ds, c ∉ p
  | [], buf, hb => by
    simp only [chunkGo]
    split
    · simp
    · intro p hp; simp at hp; rw [hp]; exact hb
  | d :: ds, buf, hb => by
    obtain ⟨ps, hps, h⟩ := cscan_split (sep := [c]) (by simp) d.length d (Nat.le_refl _)
    obtain ⟨h1, h2, h3⟩ := h buf
    have hx : ∀ x ∈ buf, x ≠ [c] := fun x hx he => hb (List.mem_flatten.2 ⟨x, hx, by simp [he]⟩)
    simp only [chunkGo]
    rw [cscan_append _ _ _ [] hx, List.nil_append]
    have hall := addFirst_free hb (split_free hps)
    rw [← h1] at hall
    intro p hp
    rcases List.mem_append.1 hp with hp | hp
    · exact hall p (by simp [hp])
    · exact chunkGo_free c ds _ (hall _ (by simp)) p hp

/-- **C34, for a separator of one character** (or byte): the pieces are those of the whole
data cut at the separator, wherever the block boundaries are.  Empty data yields nothing. -/
theorem C34_chunks_partial (c : α) (blocks : List (List α)) (hne : blocks.flatten ≠ []) :
    Split [c] blocks.flatten (makeChunkIter [c] blocks) := by
  obtain ⟨h1, h2⟩ := C34_lossless [c] (by simp) blocks
  rw [← h1]
  exact split_of_free (fun h => hne (h2.1 h)) (chunkGo_free c _ [] (by simp))

end

/-- **C34 fails** for longer separators: one that is divided by a block boundary is missed. -/
theorem C34_chunks_false : ∃ (sep : Str) (x y : List Str), sep ≠ [] ∧ x.flatten = y.flatten ∧
    makeChunkIter sep x ≠ makeChunkIter sep y ∧ ¬ Split sep y.flatten (makeChunkIter sep y) := by
  refine ⟨s%"--", [s%"a--b"], [s%"a-", s%"-b"], by decide, by decide, by decide, ?_⟩
  rw [show makeChunkIter s%"--" [s%"a-", s%"-b"] = [s%"a--b"] by decide]
  rw [show [s%"a-", s%"-b"].flatten = s%"a--b" by decide]
  intro h
  generalize ht : s%"a--b" = t at h
  generalize hq : [t] = ps at h
  cases h with
  | last hno => exact hno s%"a" s%"b" ht.symm
  | cons _ hps => simp at hq

example : makeChunkIter s%"," [s%"a,b", s%"c", s%",", s%"d,"] = [s%"a", s%"bc", s%"d", []] := by decide

end Verif.LineIter
