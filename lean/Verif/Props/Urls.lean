import Verif.Model.Urls
import Verif.Spec.Percent
/-!
C39, C68: percent coding (`/repo/verktyg/urls.py`).
-/
namespace Verif.Urls
open Verif Verif.Percent

/-- A statement about all bytes follows from checking the 256 values. -/
theorem forall_byte (P : UInt8 → Bool) (h : (List.range 256).all (fun n => P (UInt8.ofNat n)) = true) :
    ∀ c, P c = true := by
  intro c
  rw [List.all_eq_true] at h
  have := h c.toNat (by simpa using c.toNat_lt)
  simpa using this

theorem hexVal_eq (b : UInt8) : hexVal b = (nibble b).map UInt8.ofNat := by
  have := forall_byte (fun b => hexVal b == (nibble b).map UInt8.ofNat) (by decide +kernel) b
  simpa using this

theorem hexByte_eq (a b : UInt8) : hexByte a b = escape a b := by
  simp only [hexByte, escape, hexVal_eq]
  cases nibble a <;> cases nibble b <;> simp

/-- Neither the percent sign nor a byte outside the hexadecimal digits is part of an escape. -/
theorem nibble_pct : nibble 37 = none := by decide

theorem escape_pct_left (b : UInt8) : escape 37 b = none := by simp [escape, nibble_pct]
theorem escape_pct_right (a : UInt8) : escape a 37 = none := by
  simp only [escape, nibble_pct]
  cases nibble a <;> rfl

/-! ### The scanner -/

theorem decode_ne {k : List UInt8} {a : UInt8} (h : a ≠ 37) (s : Bytes) : decode k (a :: s) = a :: decode k s := by
  match s with
  | [] => rfl
  | [b] => rfl
  | b :: c :: rest => simp [decode, h]

theorem decode_esc {k : List UInt8} {a b x : UInt8} (h : escape a b = some x) (s : Bytes) :
    decode k (37 :: a :: b :: s) = if x ∈ k then 37 :: a :: b :: decode k s else x :: decode k s := by
  simp [decode, h]

/-- After a percent sign that begins no escape. -/
theorem decode_bad {k : List UInt8} {s : Bytes} (h : ∀ a b r x, s = a :: b :: r → escape a b ≠ some x) :
    decode k (37 :: s) = 37 :: decode k s := by
  match s with
  | [] => rfl
  | [b] => rfl
  | b :: c :: rest =>
    cases he : escape b c with
    | some x => exact absurd he (h b c rest x rfl)
    | none => simp [decode, he]

theorem bsplit_ne_nil (c : UInt8) (s : Bytes) : bsplit c s ≠ [] := by
  cases s with
  | nil => simp [bsplit]
  | cons x xs =>
    simp only [bsplit]
    split
    · simp
    · split <;> simp

/-- What `safeUnquote` does with a list of items. -/
def glue (u : List UInt8) : List Bytes → Bytes
  | [] => []
  | b :: bits => b ++ (bits.map (unquoteItem u)).flatten

theorem glue_cons (u : List UInt8) (x : UInt8) (b : Bytes) (bits : List Bytes) :
    glue u ((x :: b) :: bits) = x :: glue u (b :: bits) := rfl

/-- Items of a split hold no percent sign. -/
theorem bsplit_no (c : UInt8) (s : Bytes) : ∀ p ∈ bsplit c s, c ∉ p := by
  induction s with
  | nil => simp [bsplit]
  | cons x xs ih =>
    simp only [bsplit]
    split
    · rename_i h
      intro p hp
      rcases List.mem_cons.1 hp with rfl | hp
      · simp
      · exact ih p hp
    · rename_i h
      cases hb : bsplit c xs with
      | nil => exact absurd hb (bsplit_ne_nil c xs)
      | cons y ys =>
        rw [hb] at ih
        intro p hp
        simp at hp
        rcases hp with rfl | hp
        · have := ih y (by simp)
          simp [this, Ne.symm h]
        · exact ih p (by simp [hp])

theorem glue_eq_decode (u : List UInt8) : ∀ (n : Nat) (s : Bytes), s.length ≤ n → glue u (bsplit 37 s) = decode u s
  | 0, s, h => by
    have : s = [] := List.length_eq_zero_iff.1 (by omega)
    subst this; rfl
  | n + 1, [], _ => rfl
  | n + 1, x :: xs, h => by
    have ih := glue_eq_decode u n
    have hl : xs.length ≤ n := by simpa using h
    by_cases hx : x = 37
    · subst hx
      have hsp : bsplit 37 (37 :: xs) = [] :: bsplit 37 xs := by simp [bsplit]
      rw [hsp]
      obtain ⟨y, ys, hy⟩ := List.exists_cons_of_ne_nil (bsplit_ne_nil 37 xs)
      have hih := ih xs hl
      rw [hy] at hih
      rw [hy]
      simp only [glue, List.nil_append, List.map_cons, List.flatten_cons]
      -- the item `y` is what stands before the next percent sign
      have hyn : (37 : UInt8) ∉ y := by
        have := bsplit_no 37 xs y (by rw [hy]; simp)
        exact this
      match y, xs, hy, hih, hl, hyn with
      | a :: b :: y', xs, hy, hih, hl, hyn =>
        -- then `xs` starts with `a :: b`
        obtain ⟨r, hr⟩ : ∃ r, xs = a :: b :: r ∧ bsplit 37 r = y' :: ys := by
          match xs, hy with
          | [], hy => simp [bsplit] at hy
          | p :: ps, hy =>
            simp only [bsplit] at hy
            split at hy
            · simp at hy
            · cases hps : bsplit 37 ps with
              | nil => exact absurd hps (bsplit_ne_nil _ _)
              | cons z zs =>
                simp [hps] at hy
                obtain ⟨⟨rfl, rfl⟩, rfl⟩ := hy
                match ps, hps with
                | [], hps => simp [bsplit] at hps
                | q :: qs, hps =>
                  simp only [bsplit] at hps
                  split at hps
                  · simp at hps
                  · cases hqs : bsplit 37 qs with
                    | nil => exact absurd hqs (bsplit_ne_nil _ _)
                    | cons w ws =>
                      simp [hqs] at hps
                      obtain ⟨⟨rfl, rfl⟩, rfl⟩ := hps
                      exact ⟨qs, rfl, hqs⟩
        obtain ⟨rfl, hr2⟩ := hr
        have hir := ih r (by simp at hl; omega)
        rw [hr2] at hir
        simp only [glue] at hir hih
        have ha : a ≠ 37 := fun h => hyn (by simp [h])
        have hb : b ≠ 37 := fun h => hyn (by simp [h])
        cases he : escape a b with
        | some c =>
          rw [decode_esc he]
          simp only [unquoteItem, hexByte_eq, he]
          split
          · simp [← hir]
          · simp [← hir]
        | none =>
          rw [decode_bad (by intro p q r' x hpq; simp at hpq; rw [← hpq.1, ← hpq.2.1, he]; simp)]
          simp only [unquoteItem, hexByte_eq, he, List.cons_append]
          rw [← hih]
          simp
      | [a], xs, hy, hih, hl, hyn =>
        rw [decode_bad]
        · rw [← hih]; simp [glue, unquoteItem]
        · intro p q r x hpq
          subst hpq
          by_cases hq : q = 37
          · rw [hq, escape_pct_right]; simp
          · exfalso
            by_cases hp : p = 37
            · simp [bsplit, hp] at hy
            · obtain ⟨z, zs, hr⟩ := List.exists_cons_of_ne_nil (bsplit_ne_nil 37 r)
              simp [bsplit, hp, hq, hr] at hy
      | [], xs, hy, hih, hl, hyn =>
        rw [decode_bad]
        · rw [← hih]; simp [glue, unquoteItem]
        · intro p q r x hpq
          subst hpq
          simp only [bsplit] at hy
          split at hy
          · rename_i hp; rw [hp, escape_pct_left]; simp
          · exfalso
            cases hr : bsplit 37 (q :: r) with
            | nil => exact absurd hr (bsplit_ne_nil _ _)
            | cons z zs =>
              simp only [bsplit] at hr
              simp [hr] at hy
    · rw [decode_ne hx, ← ih xs hl]
      simp only [bsplit, hx, if_false]
      cases hb : bsplit 37 xs with
      | nil => exact absurd hb (bsplit_ne_nil _ _)
      | cons y ys => rfl

/-- **C39, what is decoded.**  Safe decoding is a scan from left to right which replaces every
escape of a byte outside the unsafe set by that byte, and leaves everything else (escapes of
unsafe bytes, malformed escapes, other bytes) as it is. -/
theorem C39_scan (u : List UInt8) (s : Bytes) : safeUnquote u s = decode u s := by
  rw [← glue_eq_decode u s.length s (Nat.le_refl _)]
  unfold safeUnquote glue
  rfl

/-- The bytes an escape is made of. -/
theorem escape_nibbles {a b x : UInt8} (h : escape a b = some x) : nibble a ≠ none ∧ nibble b ≠ none := by
  unfold escape at h
  cases ha : nibble a <;> cases hb : nibble b <;> simp [ha, hb] at h ⊢

/-- Induction along the scan. -/
theorem scan_induction {P : Bytes → Prop} (nil : P []) (plain : ∀ a s, a ≠ 37 → P s → P (a :: s))
    (esc : ∀ a b x s, escape a b = some x → P s → P (37 :: a :: b :: s))
    (bad : ∀ s, (∀ a b r x, s = a :: b :: r → escape a b ≠ some x) → P s → P (37 :: s)) : ∀ s, P s := by
  intro s
  generalize hn : s.length = n
  induction n using Nat.strongRecOn generalizing s with
  | _ n ih =>
    match s with
    | [] => exact nil
    | a :: rest =>
      simp at hn
      by_cases ha : a = 37
      · subst ha
        match rest with
        | [] => exact bad [] (by simp) (ih 0 (by omega) [] rfl)
        | [b] => exact bad [b] (by simp) (ih 1 (by simp at hn; omega) [b] rfl)
        | b :: c :: r =>
          cases he : escape b c with
          | some x => exact esc b c x r he (ih r.length (by simp at hn; omega) r rfl)
          | none =>
            refine bad _ ?_ (ih (b :: c :: r).length (by simp at hn ⊢; omega) (b :: c :: r) rfl)
            intro a' b' r' x h
            simp at h
            rw [← h.1, ← h.2.1, he]
            simp
      · exact plain a rest ha (ih rest.length (by omega) rest rfl)

theorem bsplit_cons_ne {u a : UInt8} (h : a ≠ u) (s : Bytes) :
    ∃ y ys, bsplit u s = y :: ys ∧ bsplit u (a :: s) = (a :: y) :: ys := by
  obtain ⟨y, ys, hy⟩ := List.exists_cons_of_ne_nil (bsplit_ne_nil u s)
  exact ⟨y, ys, hy, by simp [bsplit, h, hy]⟩

/-- Splitting commutes with what follows when nothing before it is the separator. -/
theorem bsplit_head (u : UInt8) (s : Bytes) : ∃ y ys r, bsplit u s = y :: ys ∧ s = y ++ r ∧
    (r = [] ∨ r.head? = some u) := by
  induction s with
  | nil => exact ⟨[], [], [], rfl, rfl, Or.inl rfl⟩
  | cons x xs ih =>
    by_cases h : x = u
    · exact ⟨[], bsplit u xs, x :: xs, by simp [bsplit, h], rfl, Or.inr (by simp [h])⟩
    · obtain ⟨y, ys, r, h1, h2, h3⟩ := ih
      exact ⟨x :: y, ys, r, by simp [bsplit, h, h1], by simp [h2], h3⟩

/-- **C39, structure.**  If a byte that is neither `%` nor a hexadecimal digit is unsafe (as
`/`, `?`, `;`, `&`, `=` are where they matter), decoding works piece by piece: the decoded
text splits at that byte into the decoded pieces.  So decoding never creates or removes a
delimiter. -/
theorem C39_delimiters (u : List UInt8) (d : UInt8) (hd : d ∈ u) (hp : d ≠ 37) (hx : nibble d = none) (s : Bytes) :
    bsplit d (safeUnquote u s) = (bsplit d s).map (safeUnquote u) := by
  have hfun : safeUnquote u = decode u := funext fun s => C39_scan u s
  rw [hfun]
  have hp' : (37 : UInt8) ≠ d := Ne.symm hp
  induction s using scan_induction with
  | nil => rfl
  | plain a s ha ih =>
    rw [decode_ne ha]
    by_cases h : a = d
    · subst h
      simp only [bsplit, if_true, List.map_cons, ih]
      rfl
    · obtain ⟨y, ys, h1, h2⟩ := bsplit_cons_ne h s
      obtain ⟨z, zs, h3, h4⟩ := bsplit_cons_ne h (decode u s)
      rw [h2, h4]
      rw [h1, h3] at ih
      simp only [List.map_cons, List.cons.injEq] at ih ⊢
      exact ⟨by rw [decode_ne ha, ih.1], ih.2⟩
  | esc a b x s he ih =>
    obtain ⟨na, nb⟩ := escape_nibbles he
    have had : a ≠ d := fun h => na (h ▸ hx)
    have hbd : b ≠ d := fun h => nb (h ▸ hx)
    obtain ⟨y, ys, h1, h2⟩ := bsplit_cons_ne hbd s
    obtain ⟨y2, ys2, h3, h4⟩ := bsplit_cons_ne had (b :: s)
    obtain ⟨y3, ys3, h5, h6⟩ := bsplit_cons_ne hp' (a :: b :: s)
    have e1 : bsplit d (37 :: a :: b :: s) = (37 :: a :: b :: y) :: ys := by
      rw [h6, h5.symm.trans h4 |> fun h => (List.cons.inj h).1, h5.symm.trans h4 |> fun h => (List.cons.inj h).2,
        h3.symm.trans h2 |> fun h => (List.cons.inj h).1, h3.symm.trans h2 |> fun h => (List.cons.inj h).2]
    rw [e1, decode_esc he, List.map_cons, decode_esc he]
    rw [h1] at ih
    simp only [List.map_cons] at ih
    split
    · obtain ⟨z, zs, k1, k2⟩ := bsplit_cons_ne hbd (decode u s)
      obtain ⟨z2, zs2, k3, k4⟩ := bsplit_cons_ne had (b :: decode u s)
      obtain ⟨z3, zs3, k5, k6⟩ := bsplit_cons_ne hp' (a :: b :: decode u s)
      have e2 : bsplit d (37 :: a :: b :: decode u s) = (37 :: a :: b :: z) :: zs := by
        rw [k6, k5.symm.trans k4 |> fun h => (List.cons.inj h).1, k5.symm.trans k4 |> fun h => (List.cons.inj h).2,
          k3.symm.trans k2 |> fun h => (List.cons.inj h).1, k3.symm.trans k2 |> fun h => (List.cons.inj h).2]
      rw [e2]
      rw [k1] at ih
      simp only [List.cons.injEq] at ih ⊢
      exact ⟨by rw [ih.1]; simp, ih.2⟩
    · rename_i hxu
      have hxd : x ≠ d := fun h => hxu (h ▸ hd)
      obtain ⟨z, zs, k1, k2⟩ := bsplit_cons_ne hxd (decode u s)
      rw [k2]
      rw [k1] at ih
      simp only [List.cons.injEq] at ih ⊢
      exact ⟨by rw [ih.1]; simp, ih.2⟩
  | bad s hb ih =>
    rw [decode_bad hb]
    obtain ⟨y, ys, h1, h2⟩ := bsplit_cons_ne hp' s
    obtain ⟨z, zs, h3, h4⟩ := bsplit_cons_ne hp' (decode u s)
    rw [h2, h4]
    rw [h1, h3] at ih
    simp only [List.map_cons, List.cons.injEq] at ih ⊢
    refine ⟨?_, ih.2⟩
    rw [ih.1, decode_bad]
    intro p q r x hpq
    obtain ⟨y', ys', r', g1, g2, g3⟩ := bsplit_head d s
    rw [h1] at g1
    simp at g1
    obtain ⟨rfl, rfl⟩ := g1
    rw [hpq] at g2
    exact hb p q (r ++ r') x (by simpa using g2)

example : safeUnquote pathUnsafe b%"/a%2Fb%41/%zz%3" = b%"/a%2FbA/%zz%3" := by decide

/-! ### Meaning -/

/-- Decoding what is left decodes everything, provided percent signs stay escaped. -/
theorem meaning_decode (u : List UInt8) (hu : (37 : UInt8) ∈ u) {s : Bytes} (hw : WellFormed s) :
    meaning (decode u s) = meaning s := by
  unfold meaning
  induction hw with
  | nil => rfl
  | plain ha _ ih => rw [decode_ne ha, decode_ne ha, ih, decode_ne ha]
  | @esc a b x s he _ ih =>
    rw [decode_esc he, decode_esc he]
    split
    · rw [decode_esc he]; simp [ih]
    · rename_i hx
      have : x ≠ (37 : UInt8) := fun h => hx (h ▸ hu)
      rw [decode_ne this, ih]
      simp

theorem wellFormed_decode (u : List UInt8) (hu : (37 : UInt8) ∈ u) {s : Bytes} (hw : WellFormed s) :
    WellFormed (decode u s) := by
  induction hw with
  | nil => exact .nil
  | plain ha _ ih => rw [decode_ne ha]; exact .plain ha ih
  | esc he _ ih =>
    rw [decode_esc he]
    split
    · exact .esc he ih
    · rename_i hx
      exact .plain (fun h => hx (h ▸ hu)) ih

theorem quote_cons (safe : List UInt8) (b : UInt8) (s : Bytes) : quote safe (b :: s) =
    (if alwaysSafe b ∨ b ∈ safe then [b] else [37, hexDigit (b / 16), hexDigit (b % 16)]) ++ quote safe s := rfl

/-- The digits written for a byte denote it, and are never quoted themselves. -/
theorem hexDigit_spec (b : UInt8) : escape (hexDigit (b / 16)) (hexDigit (b % 16)) = some b ∧
    alwaysSafe (hexDigit (b / 16)) = true ∧ alwaysSafe (hexDigit (b % 16)) = true := by
  have := forall_byte (fun b => escape (hexDigit (b / 16)) (hexDigit (b % 16)) == some b &&
    alwaysSafe (hexDigit (b / 16)) && alwaysSafe (hexDigit (b % 16))) (by decide +kernel) b
  simp only [Bool.and_eq_true, beq_iff_eq] at this
  exact ⟨this.1.1, this.1.2, this.2⟩

theorem nibble_alwaysSafe {b : UInt8} (h : nibble b ≠ none) : alwaysSafe b = true := by
  have := forall_byte (fun b => (nibble b == none) || alwaysSafe b) (by decide +kernel) b
  simpa [h] using this

/-- Quoting keeps the meaning of any text, well formed or not, if `%` is safe. -/
theorem meaning_quote (safe : List UInt8) (hs : (37 : UInt8) ∈ safe) (s : Bytes) :
    meaning (quote safe s) = meaning s := by
  unfold meaning
  induction s using scan_induction with
  | nil => rfl
  | plain a s ha ih =>
    rw [quote_cons, decode_ne ha]
    split
    · rw [List.singleton_append, decode_ne ha, ih]
    · simp only [List.cons_append, List.nil_append]
      rw [decode_esc (hexDigit_spec a).1, ih]
      simp
  | esc a b x s he ih =>
    obtain ⟨na, nb⟩ := escape_nibbles he
    rw [quote_cons, if_pos (Or.inr hs), quote_cons, if_pos (Or.inl (nibble_alwaysSafe na)), quote_cons,
      if_pos (Or.inl (nibble_alwaysSafe nb))]
    simp only [List.cons_append, List.nil_append]
    rw [decode_esc he, decode_esc he, ih]
  | bad s hb ih =>
    rw [quote_cons, if_pos (Or.inr hs), List.singleton_append, decode_bad hb, decode_bad, ih]
    intro p q r x hpq he
    obtain ⟨np, nq⟩ := escape_nibbles he
    -- both digits come unquoted from `s`
    match s with
    | [] => simp [quote] at hpq
    | c :: cs =>
      rw [quote_cons] at hpq
      split at hpq
      · simp at hpq
        obtain ⟨rfl, hpq⟩ := hpq
        match cs with
        | [] => simp [quote] at hpq
        | e :: es =>
          rw [quote_cons] at hpq
          split at hpq
          · simp at hpq
            obtain ⟨rfl, hpq⟩ := hpq
            exact hb c e es x rfl he
          · simp at hpq
            rw [← hpq.1] at nq
            exact nq nibble_pct
      · simp at hpq
        rw [← hpq.1] at np
        exact np nibble_pct

theorem bsplit_quote (safe : List UInt8) (d : UInt8) (hd : d ∈ safe) (hp : d ≠ 37) (hx : alwaysSafe d = false) :
    ∀ (t : Bytes), bsplit d (quote safe t) = (bsplit d t).map (quote safe) := by
  intro t
  induction t with
  | nil => rfl
  | cons b t ih =>
    rw [quote_cons]
    by_cases hb : b = d
    · subst hb
      rw [if_pos (Or.inr hd)]
      simp only [List.singleton_append, bsplit, if_true, ih, List.map_cons]
      rfl
    · obtain ⟨y, ys, g1, g2⟩ := bsplit_cons_ne hb t
      rw [g2]
      rw [g1] at ih
      simp only [List.map_cons] at ih ⊢
      rw [quote_cons]
      split
      · obtain ⟨z, zs, k1, k2⟩ := bsplit_cons_ne hb (quote safe t)
        rw [List.singleton_append, k2]
        rw [k1] at ih
        simp only [List.cons.injEq] at ih ⊢
        exact ⟨by rw [ih.1]; rfl, ih.2⟩
      · have e1 := (hexDigit_spec b).2.1
        have e2 := (hexDigit_spec b).2.2
        have n1 : hexDigit (b / 16) ≠ d := fun h => by rw [h] at e1; rw [hx] at e1; simp at e1
        have n2 : hexDigit (b % 16) ≠ d := fun h => by rw [h] at e2; rw [hx] at e2; simp at e2
        simp only [List.cons_append, List.nil_append, bsplit, n1, n2, if_false, ih,
          Ne.symm hp]
theorem wellFormed_split (d : UInt8) (hp : d ≠ 37) (hx : nibble d = none) :
    ∀ t, WellFormed t → ∀ p ∈ bsplit d t, WellFormed p := by
  intro t ht
  induction ht with
  | nil => simp [bsplit]; exact .nil
  | @plain a s ha _ ih =>
    by_cases h : a = d
    · subst h
      simp only [bsplit, if_true]
      intro p hp'
      rcases List.mem_cons.1 hp' with rfl | hp'
      · exact .nil
      · exact ih p hp'
    · obtain ⟨y, ys, g1, g2⟩ := bsplit_cons_ne h s
      rw [g2]
      rw [g1] at ih
      intro p hp'
      rcases List.mem_cons.1 hp' with rfl | hp'
      · exact .plain ha (ih y (by simp))
      · exact ih p (by simp [hp'])
  | @esc a b x s he _ ih =>
    obtain ⟨na, nb⟩ := escape_nibbles he
    have ha : a ≠ d := fun h => na (h ▸ hx)
    have hb : b ≠ d := fun h => nb (h ▸ hx)
    obtain ⟨y, ys, g1⟩ := List.exists_cons_of_ne_nil (bsplit_ne_nil d s)
    simp only [bsplit, ha, hb, if_false, g1, Ne.symm hp]
    rw [g1] at ih
    intro p hp'
    rcases List.mem_cons.1 hp' with rfl | hp'
    · exact .esc he (ih y (by simp))
    · exact ih p (by simp [hp'])
/-- **C39, meaning.**  For a well formed path (or query), converting to an IRI part and back
with the sets used by `uri_to_iri` and `iri_to_uri` keeps what it stands for, piece by piece
between slashes; and decoding twice is decoding once.  Missing from the full claim: text
between the two steps is here the UTF-8 bytes, so escapes that are not valid UTF-8 (which the
code replaces by U+FFFD) are not covered. -/
theorem C39_meaning_partial (s : Bytes) (hw : WellFormed s) :
    meaning (quote pathSafe (safeUnquote pathUnsafe s)) = meaning s ∧
    (bsplit 47 (quote pathSafe (safeUnquote pathUnsafe s))).map meaning = (bsplit 47 s).map meaning ∧
    safeUnquote pathUnsafe (safeUnquote pathUnsafe s) = safeUnquote pathUnsafe s ∧
    meaning (quote querySafe (safeUnquote queryUnsafe s)) = meaning s := by
  have h1 : (37 : UInt8) ∈ pathUnsafe := by decide
  have h2 : (37 : UInt8) ∈ pathSafe := by decide
  have h3 : (37 : UInt8) ∈ queryUnsafe := by decide
  have h4 : (37 : UInt8) ∈ querySafe := by decide
  have hwf : ∀ (u : List UInt8), (37 : UInt8) ∈ u → ∀ t, WellFormed t → decode u (decode u t) = decode u t := by
    intro u hu t ht
    induction ht with
    | nil => rfl
    | plain ha _ ih => rw [decode_ne ha, decode_ne ha, ih]
    | @esc a b x s he _ ih =>
      rw [decode_esc he]
      split
      · rename_i hx; rw [decode_esc he, if_pos hx, ih]
      · rename_i hx
        have : x ≠ (37 : UInt8) := fun h => hx (h ▸ hu)
        rw [decode_ne this, ih]
  have hfun : safeUnquote pathUnsafe = decode pathUnsafe := funext fun s => C39_scan _ s
  refine ⟨?_, ?_, ?_, ?_⟩
  · rw [meaning_quote _ h2, C39_scan, meaning_decode _ h1 hw]
  · rw [bsplit_quote pathSafe 47 (by decide) (by decide) (by decide), List.map_map, C39_delimiters pathUnsafe 47 (by decide) (by decide) (by decide), List.map_map]
    apply List.map_congr_left
    intro p hp
    simp only [Function.comp_apply]
    rw [meaning_quote _ h2, C39_scan, meaning_decode _ h1 (wellFormed_split 47 (by decide) (by decide) s hw p hp)]
  · rw [C39_scan, C39_scan, hwf _ h1 s hw]
  · rw [meaning_quote _ h4, C39_scan, meaning_decode _ h3 hw]

/-- **C39, the delimiters of paths and queries.**  Decoding a path keeps its splitting at `/`,
`;` and `?`; decoding a query (or fragment) keeps its splitting at `&`, `=`, `;`, `+`, `#` and the other
reserved characters.  An escaped delimiter stays escaped. -/
theorem C39_reserved (s : Bytes) :
    (∀ d ∈ b%"/;?", bsplit d (safeUnquote pathUnsafe s) = (bsplit d s).map (safeUnquote pathUnsafe)) ∧
    (∀ d ∈ b%"&=;+#?/:@,$", bsplit d (safeUnquote queryUnsafe s) = (bsplit d s).map (safeUnquote queryUnsafe)) :=
  ⟨fun d hd => C39_delimiters _ d (by revert d; decide) (by revert d; decide) (by revert d; decide) s,
    fun d hd => C39_delimiters _ d (by revert d; decide) (by revert d; decide) (by revert d; decide) s⟩

example : safeUnquote queryUnsafe b%"a=1%262&b=%41" = b%"a=1%262&b=A" := by decide

/-- **C39 fails** for malformed text: a stray percent sign can become a new escape. -/
theorem C39_meaning_false : ∃ s, meaning (safeUnquote pathUnsafe s) ≠ meaning s ∧
    safeUnquote pathUnsafe (safeUnquote pathUnsafe s) ≠ safeUnquote pathUnsafe s :=
  ⟨b%"%%34%31", by decide, by decide⟩

example : WellFormed b%"a%2Fb%41" := by
  refine .plain (by decide) (.esc (x := 47) (by decide) (.plain (by decide) (.esc (x := 65) (by decide) .nil)))

/-- **C68.**  Quoting with a set that holds `%` is idempotent, its result is ASCII and has
only unreserved bytes, the given safe ones and escapes. -/
theorem C68_quote_idempotent (safe : List UInt8) (hs : (37 : UInt8) ∈ safe) (s : Bytes) :
    quote safe (quote safe s) = quote safe s ∧ ∀ b ∈ quote safe s, alwaysSafe b = true ∨ b ∈ safe := by
  have hall : ∀ b ∈ quote safe s, alwaysSafe b = true ∨ b ∈ safe := by
    induction s with
    | nil => simp [quote]
    | cons b s ih =>
      rw [quote_cons]
      intro c hc
      rcases List.mem_append.1 hc with hc | hc
      · split at hc
        · rename_i h; simp at hc; rw [hc]; exact h
        · simp at hc
          rcases hc with rfl | rfl | rfl
          · exact Or.inr hs
          · exact Or.inl (hexDigit_spec b).2.1
          · exact Or.inl (hexDigit_spec b).2.2
      · exact ih c hc
  have hid : ∀ t : Bytes, (∀ b ∈ t, alwaysSafe b = true ∨ b ∈ safe) → quote safe t = t := by
    intro t
    induction t with
    | nil => simp [quote]
    | cons b t ih =>
      intro h
      rw [quote_cons, if_pos (h b (by simp)), ih fun c hc => h c (by simp [hc])]
      rfl
  exact ⟨hid _ hall, hall⟩

example : quote pathSafe b%"/a b%20?" = b%"/a%20b%20%3F" := by decide

/-! ### Whole references -/

theorem cut_fst (c : UInt8) (s : Bytes) : c ∉ (cut c s).1 := by
  induction s with
  | nil => simp [cut]
  | cons x xs ih =>
    simp only [cut]
    split
    · simp
    · rename_i h; simp [ih, Ne.symm h]

theorem cut_append {c : UInt8} {a : Bytes} (h : c ∉ a) (b : Bytes) : cut c (a ++ c :: b) = (a, b) := by
  induction a with
  | nil => simp [cut]
  | cons x xs ih =>
    simp at h
    simp [cut, Ne.symm h.1, ih h.2]

theorem cut_none {c : UInt8} {a : Bytes} (h : c ∉ a) : cut c a = (a, []) := by
  induction a with
  | nil => simp [cut]
  | cons x xs ih =>
    simp at h
    simp [cut, Ne.symm h.1, ih h.2]

theorem cut_fst_sub {c d : UInt8} {s : Bytes} (h : d ∉ s) : d ∉ (cut c s).1 ∧ d ∉ (cut c s).2 := by
  induction s with
  | nil => simp [cut]
  | cons x xs ih =>
    simp at h
    simp only [cut]
    split
    · exact ⟨by simp, h.2⟩
    · simp [h.1, ih h.2]

/-- Taking apart what was put together. -/
theorem split_unsplit (r : Ref) (h1 : (35 : UInt8) ∉ r.path) (h2 : (63 : UInt8) ∉ r.path) (h3 : (35 : UInt8) ∉ r.query) :
    splitRef (unsplitRef r) = r := by
  obtain ⟨p, q, f⟩ := r
  have e : ∀ t : Bytes, (35 : UInt8) ∉ t → cut 35 (if f = [] then t else t ++ 35 :: f) = (t, f) := by
    intro t ht
    split
    · rename_i hf; rw [cut_none ht, hf]
    · exact cut_append ht f
  have e2 : cut 63 (if q = [] then p else p ++ 63 :: q) = (p, q) := by
    split
    · rename_i hq; rw [cut_none h2, hq]
    · exact cut_append h2 q
  have e3 : (35 : UInt8) ∉ (if q = [] then p else p ++ 63 :: q) := by
    split
    · exact h1
    · simp only [List.mem_append, List.mem_cons, not_or]
      exact ⟨h1, by decide, h3⟩
  simp only [splitRef, unsplitRef]
  rw [e _ e3]
  simp only
  rw [e2]

/-- An unsafe byte that is no hexadecimal digit appears in the decoded text only if it was
there before. -/
theorem mem_decode {u : List UInt8} {d : UInt8} (hd : d ∈ u) {s : Bytes} (h : d ∉ s) : d ∉ decode u s := by
  induction s using scan_induction with
  | nil => simpa [decode] using h
  | plain a s ha ih => simp at h; rw [decode_ne ha]; simp [h.1, ih h.2]
  | esc a b x s he ih =>
    simp at h
    rw [decode_esc he]
    split
    · simp [h, ih h.2.2.2]
    · rename_i hx
      have : d ≠ x := fun e => hx (e ▸ hd)
      simp [this, ih h.2.2.2]
  | bad s hb ih => simp at h; rw [decode_bad hb]; simp [h.1, ih h.2]

theorem mem_meaning (u : List UInt8) {d : UInt8} (hp : d ≠ 37) {s : Bytes} (hw : WellFormed s) (hm : d ∉ meaning s)
    (h : d ∉ s) : d ∉ decode u s := by
  unfold meaning at hm
  induction hw with
  | nil => simp [decode]
  | plain ha _ ih =>
    rw [decode_ne ha] at hm ⊢
    simp at h hm ⊢
    exact ⟨hm.1, ih hm.2 h.2⟩
  | esc he _ ih =>
    rw [decode_esc he] at hm ⊢
    simp at h hm
    split
    · simp [h, ih hm.2 h.2.2.2]
    · simp [hm.1, ih hm.2 h.2.2.2]

theorem mem_quote {safe : List UInt8} {d : UInt8} (h1 : alwaysSafe d = false) (h2 : d ∉ safe) (h3 : d ≠ 37) (s : Bytes) :
    d ∉ quote safe s := by
  induction s with
  | nil => simp [quote]
  | cons b s ih =>
    rw [quote_cons]
    intro hc
    rcases List.mem_append.1 hc with hc | hc
    · split at hc
      · rename_i h
        simp at hc
        rw [← hc, h1] at h
        simp [h2] at h
      · simp at hc
        rcases hc with rfl | rfl | rfl
        · exact h3 rfl
        · rw [(hexDigit_spec b).2.1] at h1; simp at h1
        · rw [(hexDigit_spec b).2.2] at h1; simp at h1
    · exact ih hc

/-- **C69.**  For a well formed reference whose path stands for no `#`, converting to an IRI
and back gives a reference whose path, query and fragment stand for the same bytes, piece by
piece: between the slashes of the path, and between the delimiters of the query. -/
theorem C69_reference_partial (s : Bytes) (hp : WellFormed (splitRef s).path) (hq : WellFormed (splitRef s).query)
    (hf : WellFormed (splitRef s).fragment) (hh : (35 : UInt8) ∉ meaning (splitRef s).path) :
    meaning (splitRef (iriToUri (uriToIri s))).path = meaning (splitRef s).path ∧
    meaning (splitRef (iriToUri (uriToIri s))).query = meaning (splitRef s).query ∧
    meaning (splitRef (iriToUri (uriToIri s))).fragment = meaning (splitRef s).fragment ∧
    (bsplit 47 (splitRef (iriToUri (uriToIri s))).path).map meaning = (bsplit 47 (splitRef s).path).map meaning ∧
    ∀ d ∈ b%"&=;+,$:/?", (bsplit d (splitRef (iriToUri (uriToIri s))).query).map meaning =
      (bsplit d (splitRef s).query).map meaning := by
  have pieces : ∀ (safe u : List UInt8) (d : UInt8), (37 : UInt8) ∈ safe → (37 : UInt8) ∈ u → d ∈ safe → d ∈ u →
      d ≠ 37 → nibble d = none → alwaysSafe d = false → ∀ t, WellFormed t →
      (bsplit d (quote safe (safeUnquote u t))).map meaning = (bsplit d t).map meaning := by
    intro safe u d s1 s2 s3 s4 s5 s6 s7 t ht
    rw [bsplit_quote safe d s3 s5 s7, List.map_map, C39_delimiters u d s4 s5 s6, List.map_map]
    apply List.map_congr_left
    intro p hp
    simp only [Function.comp_apply]
    rw [meaning_quote _ s1, C39_scan, meaning_decode _ s2 (wellFormed_split d s5 s6 t ht p hp)]
  have p1 : (63 : UInt8) ∉ (splitRef s).path := cut_fst 63 _
  have p2 : (35 : UInt8) ∉ (splitRef s).path := (cut_fst_sub (cut_fst 35 s)).1
  have q2 : (35 : UInt8) ∉ (splitRef s).query := (cut_fst_sub (cut_fst 35 s)).2
  have e1 : splitRef (uriToIri s) = ⟨safeUnquote pathUnsafe (splitRef s).path,
      safeUnquote queryUnsafe (splitRef s).query, safeUnquote queryUnsafe (splitRef s).fragment⟩ := by
    unfold uriToIri
    apply split_unsplit
    · simp only [C39_scan]; exact mem_meaning _ (by decide) hp hh p2
    · simp only [C39_scan]; exact mem_decode (by decide) p1
    · simp only [C39_scan]; exact mem_decode (by decide) q2
  have e2 : splitRef (iriToUri (uriToIri s)) = ⟨quote pathSafe (splitRef (uriToIri s)).path,
      quote querySafe (splitRef (uriToIri s)).query, quote fragmentSafe (splitRef (uriToIri s)).fragment⟩ := by
    unfold iriToUri
    apply split_unsplit
    · exact mem_quote (by decide) (by decide) (by decide) _
    · exact mem_quote (by decide) (by decide) (by decide) _
    · exact mem_quote (by decide) (by decide) (by decide) _
  rw [e2, e1]
  dsimp only
  refine ⟨?_, ?_, ?_, ?_, ?_⟩
  · rw [C39_scan, meaning_quote _ (by decide), meaning_decode _ (by decide) hp]
  · rw [C39_scan, meaning_quote _ (by decide), meaning_decode _ (by decide) hq]
  · rw [C39_scan, meaning_quote _ (by decide), meaning_decode _ (by decide) hf]
  · exact pieces _ _ 47 (by decide) (by decide) (by decide) (by decide) (by decide) (by decide) (by decide) _ hp
  · intro d hd
    exact pieces _ _ d (by decide) (by decide) (by revert d; decide) (by revert d; decide) (by revert d; decide)
      (by revert d; decide) (by revert d; decide) _ hq

/-- **C69 fails** without that condition: an escaped `#` in the path is decoded, and the rest
of the path becomes the fragment. -/
theorem C69_reference_false : ∃ s, WellFormed s ∧ (splitRef s).fragment = [] ∧
    (splitRef (iriToUri (uriToIri s))).fragment ≠ [] ∧
    meaning (splitRef (iriToUri (uriToIri s))).path ≠ meaning (splitRef s).path :=
  ⟨b%"/a%23b", .plain (by decide) (.plain (by decide) (.esc (x := 35) (by decide) (.plain (by decide) .nil))),
    by decide, by decide, by decide⟩

/-- **C68, whole references.**  Converting an IRI to a URI is idempotent. -/
theorem C68_iri_to_uri_idempotent (s : Bytes) : iriToUri (iriToUri s) = iriToUri s := by
  have e2 : splitRef (iriToUri s) = ⟨quote pathSafe (splitRef s).path,
      quote querySafe (splitRef s).query, quote fragmentSafe (splitRef s).fragment⟩ := by
    unfold iriToUri
    apply split_unsplit
    · exact mem_quote (by decide) (by decide) (by decide) _
    · exact mem_quote (by decide) (by decide) (by decide) _
    · exact mem_quote (by decide) (by decide) (by decide) _
  have e3 : ∀ t, iriToUri t = unsplitRef ⟨quote pathSafe (splitRef t).path, quote querySafe (splitRef t).query,
      quote fragmentSafe (splitRef t).fragment⟩ := fun _ => rfl
  rw [e3 (iriToUri s), e2]
  simp only
  rw [(C68_quote_idempotent pathSafe (by decide) _).1, (C68_quote_idempotent querySafe (by decide) _).1,
    (C68_quote_idempotent fragmentSafe (by decide) _).1]
  rfl

example : iriToUri (uriToIri b%"/a%2Fb%41?x=%26%20#f") = b%"/a%2FbA?x=%26%20#f" := by decide

end Verif.Urls
