import Verif.PyLemmas
import Verif.RegexLemmas
import Verif.QuoteLemmas
import Verif.Model.Cookie
import Verif.Spec.Cookies
/-! Property theorems C21-C23: cookies. -/
namespace Verif.Props
open Verif Verif.Re Verif.Cookie

namespace CookieAux

/-- A statement about all bytes follows from checking the 256 values. -/
theorem forall_byte (P : UInt8 → Bool) (h : (List.range 256).all (fun n => P (UInt8.ofNat n)) = true) :
    ∀ c, P c = true := by
  intro c
  rw [List.all_eq_true] at h
  have := h c.toNat (by simpa using c.toNat_lt)
  simpa using this

/-- How one byte of the value is written. -/
def enc (c : UInt8) : Bytes := if legalChars.contains c then [c] else quoteByte c

/-- A byte that may stand for itself inside a quoted value. -/
def safe (c : UInt8) : Bool := 32 ≤ c && c < 127 && c != 34 && c != 92 && c != 44 && c != 59

theorem enc_cases (c : UInt8) :
    (enc c = [c] ∧ safe c = true) ∨
    ((c = 34 ∨ c = 92) ∧ enc c = [92, c]) ∨
    (∃ x y z, enc c = [92, x, y, z] ∧ octAt [92, x, y, z] = true ∧ octVal [x, y, z] = c) := by
  have := forall_byte (fun c => (enc c == [c] && safe c) || ((c == 34 || c == 92) && enc c == [92, c]) ||
    (match enc c with
      | [a, x, y, z] => a == 92 && octAt [92, x, y, z] && octVal [x, y, z] == c
      | _ => false)) (by decide +kernel) c
  simp only [Bool.or_eq_true, Bool.and_eq_true, beq_iff_eq] at this
  rcases this with (h | h) | h
  · left; exact h
  · right; left; exact h
  · right; right
    split at h
    · rename_i a x y z he
      simp only [Bool.and_eq_true, beq_iff_eq] at h
      exact ⟨x, y, z, by rw [he, h.1.1], h.1.2, h.2⟩
    · simp at h

theorem searchIdx_cons_ne (p : Bytes → Bool) (c : UInt8) (s : Bytes) (h : p (c :: s) = false) :
    searchIdx p (c :: s) = (searchIdx p s).map (· + 1) := by simp [searchIdx, h]

theorem octAt_ne (c : UInt8) (s : Bytes) (h : c ≠ 92) : octAt (c :: s) = false := by
  unfold octAt
  split
  · rename_i heq; cases heq; simp [h]
  · rfl

theorem escAt_ne (c : UInt8) (s : Bytes) (h : c ≠ 92) : escAt (c :: s) = false := by
  unfold escAt
  split
  · rename_i heq; cases heq; simp [h]
  · rfl

theorem searchIdx_nil_oct : searchIdx octAt [] = none := rfl
theorem searchIdx_nil_esc : searchIdx escAt [] = none := rfl

/-- A plain byte is copied. -/
theorem loop_plain (n : Nat) (c : UInt8) (s : Bytes) (h : c ≠ 92) :
    unquoteLoop (n + 1) (c :: s) = c :: unquoteLoop (n + 1) s := by
  by_cases hs : s = []
  · subst hs
    simp [unquoteLoop, searchIdx, octAt_ne c [] h, escAt_ne c [] h, octAt, escAt]
  · simp only [unquoteLoop, searchIdx_cons_ne _ _ _ (octAt_ne c s h),
      searchIdx_cons_ne _ _ _ (escAt_ne c s h), if_neg hs]
    cases ho : searchIdx octAt s <;> cases hq : searchIdx escAt s
    · simp
    · simp
    · simp
    · rename_i j k
      by_cases hjk : k < j
      · simp [hjk]
      · simp [hjk]

/-- An escaped quote or backslash. -/
theorem loop_esc (n : Nat) (c : UInt8) (s : Bytes) (h : c = 34 ∨ c = 92) :
    unquoteLoop (n + 1) (92 :: c :: s) = c :: unquoteLoop n s := by
  have ho : octAt (92 :: c :: s) = false := by
    unfold octAt
    split
    · rename_i heq; cases heq
      rcases h with rfl | rfl <;> simp
    · rfl
  have hq : escAt (92 :: c :: s) = true := by
    rcases h with rfl | rfl <;> simp [escAt]
  have h0 : searchIdx escAt (92 :: c :: s) = some 0 := by simp [searchIdx, hq]
  simp only [unquoteLoop, h0]
  rw [searchIdx_cons_ne _ _ _ ho]
  cases searchIdx octAt (c :: s) <;> simp

/-- An octal escape. -/
theorem loop_oct (n : Nat) (x y z : UInt8) (s : Bytes) (h : octAt [92, x, y, z] = true) :
    unquoteLoop (n + 1) (92 :: x :: y :: z :: s) = octVal [x, y, z] :: unquoteLoop n s := by
  have ho : octAt (92 :: x :: y :: z :: s) = true := by simpa [octAt] using h
  have h0 : searchIdx octAt (92 :: x :: y :: z :: s) = some 0 := by simp [searchIdx, ho]
  simp only [unquoteLoop, h0]
  have hv : octVal (x :: y :: z :: s) = octVal [x, y, z] := rfl
  cases searchIdx escAt (92 :: x :: y :: z :: s) <;> simp [hv]

theorem loop_enc (b : Bytes) : ∀ n, b.length < n → unquoteLoop n (b.flatMap enc) = b := by
  induction b with
  | nil =>
    intro n hn
    obtain ⟨n, rfl⟩ : ∃ k, n = k + 1 := ⟨n - 1, by omega⟩
    simp [unquoteLoop]
  | cons c cs ih =>
    intro n hn
    obtain ⟨n, rfl⟩ : ∃ k, n = k + 1 := ⟨n - 1, by omega⟩
    simp only [List.flatMap_cons]
    rcases enc_cases c with ⟨he, hs⟩ | ⟨hc, he⟩ | ⟨x, y, z, he, ho, hv⟩
    · rw [he]
      have : c ≠ 92 := by rintro rfl; exact absurd hs (by decide)
      simp only [List.singleton_append]
      rw [loop_plain _ _ _ this, ih (n + 1) (by simp at hn; omega)]
    · rw [he]
      simp only [List.cons_append, List.nil_append]
      rw [loop_esc _ _ _ hc, ih n (by simpa using hn)]
    · rw [he]
      simp only [List.cons_append, List.nil_append]
      rw [loop_oct _ _ _ _ _ ho, hv, ih n (by simpa using hn)]

theorem cookieQuote_eq (b : Bytes) : cookieQuote b =
    if b.all (fun c => legalChars.contains c) then b else 34 :: (b.flatMap enc ++ [34]) := by
  unfold cookieQuote
  simp only
  split
  · rename_i h
    rw [List.all_eq_true] at h
    have : ∀ l : Bytes, (∀ c ∈ l, legalChars.contains c = true) →
        l.flatMap (fun c => if legalChars.contains c then [c] else quoteByte c) = l := by
      intro l
      induction l with
      | nil => intro _; rfl
      | cons x xs ih =>
        intro hx
        simp only [List.flatMap_cons]
        rw [ih (fun c hc => hx c (by simp [hc])), if_pos (hx x (by simp))]
        rfl
    exact this b h
  · show [34] ++ b.flatMap enc ++ [34] = _
    simp

theorem legal_props (c : UInt8) (h : legalChars.contains c = true) :
    safe c = true ∧ isWs c = false ∧ c ≠ 61 := by
  have := forall_byte (fun c => !legalChars.contains c || (safe c && !isWs c && c != 61)) (by decide +kernel) c
  simp only [h, Bool.not_true, Bool.false_or, Bool.and_eq_true, Bool.not_eq_true', bne_iff_ne] at this
  exact ⟨this.1.1, this.1.2, this.2⟩

theorem enc_length (b : Bytes) : b.length ≤ (b.flatMap enc).length := by
  induction b with
  | nil => simp
  | cons c cs ih =>
    simp only [List.flatMap_cons, List.length_append, List.length_cons]
    have : 1 ≤ (enc c).length := by
      rcases enc_cases c with ⟨he, _⟩ | ⟨_, he⟩ | ⟨x, y, z, he, _⟩ <;> simp [he]
    omega

end CookieAux

/-- C21.  Unquoting the quoted form of any byte string gives the same bytes. -/
theorem C21_value_roundtrip (b : Bytes) : cookieUnquote (cookieQuote b) = b := by
  rw [CookieAux.cookieQuote_eq]
  split
  · rename_i h
    rw [List.all_eq_true] at h
    unfold cookieUnquote
    split
    · rfl
    · rw [if_pos]
      left
      intro hh
      have := CookieAux.legal_props 34 (h 34 (List.mem_of_head? hh))
      exact absurd this.1 (by decide)
  · unfold cookieUnquote
    have hlast : (34 :: (b.flatMap CookieAux.enc ++ [34])).getLast? = some 34 := by
      rw [← List.cons_append, List.getLast?_append]; rfl
    rw [if_neg (by simp), if_neg (by simp [hlast])]
    simp only [List.tail_cons, List.dropLast_concat]
    exact CookieAux.loop_enc b _ (by have := CookieAux.enc_length b; omega)

example : cookieQuote b%"a\\054;\"" = b%"\"a\\\\054\\073\\\"\"" ∧
    cookieUnquote b%"\"a\\\\054\\073\\\"\"" = b%"a\\054;\"" := by decide

namespace CookieAux

theorem safe_plain {c : UInt8} (h : safe c = true) : PlainByte c := by
  simp only [safe, Bool.and_eq_true, decide_eq_true_eq, bne_iff_ne] at h
  exact ⟨h.1.1.1.1.1, h.1.1.1.1.2, h.1.1.1.2, h.1.1.2, h.1.2, h.2⟩

theorem body_enc (b : Bytes) : CookieBody (b.flatMap enc) := by
  induction b with
  | nil => exact .nil
  | cons c cs ih =>
    simp only [List.flatMap_cons]
    rcases enc_cases c with ⟨he, hs⟩ | ⟨hc, he⟩ | ⟨x, y, z, he, ho, hv⟩
    · rw [he]; exact .plain c _ (safe_plain hs) ih
    · rw [he]; exact .esc c _ hc ih
    · rw [he]
      simp only [octAt, Bool.and_eq_true, decide_eq_true_eq] at ho
      exact .oct x y z _ ho.1.1.2 ho.1.2 ho.2 ih

/-- Printable ASCII and not `,` or `;`. -/
def visible (c : UInt8) : Bool := 32 ≤ c && c < 127 && c != 44 && c != 59

theorem plain_visible {c : UInt8} (h : PlainByte c) : visible c = true := by
  obtain ⟨h1, h2, _, _, h3, h4⟩ := h
  simp [visible, h1, h2, h3, h4]

theorem digit_visible : ∀ c : UInt8, 48 ≤ c ∧ c ≤ 55 → visible c = true := by
  intro c h
  have := forall_byte (fun c => !(decide (48 ≤ c) && decide (c ≤ 55)) || visible c) (by decide +kernel) c
  simpa [h.1, h.2] using this

theorem body_visible {s : Bytes} (h : CookieBody s) : ∀ c ∈ s, visible c = true := by
  induction h with
  | nil => simp
  | plain c s hc _ ih =>
    intro x hx
    rcases List.mem_cons.1 hx with rfl | hx
    · exact plain_visible hc
    · exact ih x hx
  | esc c s hc _ ih =>
    intro x hx
    simp only [List.mem_cons] at hx
    rcases hx with rfl | rfl | hx
    · decide
    · rcases hc with rfl | rfl <;> decide
    · exact ih x hx
  | oct a b d s ha hb hd _ ih =>
    intro x hx
    simp only [List.mem_cons] at hx
    rcases hx with rfl | rfl | rfl | rfl | hx
    · decide
    · have h2 : x ≤ 55 := by
        have := ha.2
        exact UInt8.le_trans this (by decide)
      exact digit_visible x ⟨ha.1, h2⟩
    · exact digit_visible x hb
    · exact digit_visible x hd
    · exact ih x hx

theorem quote_visible (b : Bytes) : ∀ c ∈ cookieQuote b, visible c = true := by
  rw [cookieQuote_eq]
  split
  · rename_i h
    rw [List.all_eq_true] at h
    intro c hc
    exact plain_visible (safe_plain (legal_props c (h c hc)).1)
  · intro c hc
    simp only [List.mem_cons, List.mem_append, List.not_mem_nil, or_false] at hc
    rcases hc with rfl | hc | rfl
    · decide
    · exact body_visible (body_enc b) c hc
    · decide

theorem segmentsOf_ne (s : Bytes) : segmentsOf s ≠ [] := by
  cases s with
  | nil => simp [segmentsOf]
  | cons c cs =>
    simp only [segmentsOf]
    split
    · simp
    · split <;> simp

theorem segmentsOf_free (s : Bytes) (h : 59 ∉ s) : segmentsOf s = [s] := by
  induction s with
  | nil => rfl
  | cons c cs ih =>
    have hc : c ≠ 59 := fun e => h (by simp [e])
    simp [segmentsOf, hc, ih (fun e => h (by simp [e]))]

theorem segmentsOf_append (s t : Bytes) (h : 59 ∉ s) :
    segmentsOf (s ++ 59 :: t) = s :: segmentsOf t := by
  induction s with
  | nil => simp [segmentsOf]
  | cons c cs ih =>
    have hc : c ≠ 59 := fun e => h (by simp [e])
    simp [segmentsOf, hc, ih (fun e => h (by simp [e]))]

theorem segmentsOf_join (l : List Bytes) : ∀ a, (∀ s ∈ a :: l, 59 ∉ s) →
    segmentsOf (joinSemi (a :: l)) = a :: l.map (32 :: ·) := by
  induction l with
  | nil => intro a h; simpa [joinSemi] using segmentsOf_free a (h a (by simp))
  | cons b l ih =>
    intro a h
    have := ih b (fun s hs => h s (by simp [hs]))
    have hb : segmentsOf (32 :: joinSemi (b :: l)) = (32 :: b) :: l.map (32 :: ·) := by
      show (if (32 : UInt8) = 59 then _ else _) = _
      rw [if_neg (by decide), this]
    have e : joinSemi (a :: b :: l) = a ++ 59 :: (32 :: joinSemi (b :: l)) := by simp [joinSemi]
    rw [e, segmentsOf_append _ _ (h a (by simp)), hb]
    rfl

end CookieAux

/-- C22, the value.  The serialised value contains only printable ASCII, no `;` and no `,`,
and it is either free of `"` and `\` or one quoted string in which both are escaped. -/
theorem C22_value_safe (b : Bytes) :
    (∀ c ∈ cookieQuote b, 32 ≤ c ∧ c < 127 ∧ c ≠ 59 ∧ c ≠ 44) ∧
    ((∀ c ∈ cookieQuote b, PlainByte c) ∨
      ∃ body, cookieQuote b = [34] ++ body ++ [34] ∧ CookieBody body) := by
  constructor
  · intro c hc
    have := CookieAux.quote_visible b c hc
    simp only [CookieAux.visible, Bool.and_eq_true, decide_eq_true_eq, bne_iff_ne] at this
    exact ⟨this.1.1.1, this.1.1.2, this.2, this.1.2⟩
  · rw [CookieAux.cookieQuote_eq]
    split
    · rename_i h
      rw [List.all_eq_true] at h
      left
      intro c hc
      exact CookieAux.safe_plain (CookieAux.legal_props c (h c hc)).1
    · right
      exact ⟨b.flatMap CookieAux.enc, by simp, CookieAux.body_enc b⟩

/-- C22, the header.  Whatever the value and the domain are, a recipient that splits the
emitted header at `;` sees the name with the quoted value and exactly the attributes passed
explicitly (the name, expiry, age and path are not quoted and must not contain `;`). -/
theorem C22_no_injection (key value : Bytes) (a : Attrs) (hk : 59 ∉ key)
    (he : ∀ e, a.expires = some e → 59 ∉ e) (hm : ∀ e, a.maxAge = some e → 59 ∉ e)
    (hp : ∀ e, a.path = some e → 59 ∉ e) :
    segmentsOf (dumpCookie key value a) = (key ++ b%"=" ++ cookieQuote value) ::
      ((a.domain.map fun v => b%" Domain=" ++ cookieQuote v).toList ++
       (a.expires.map fun v => b%" Expires=" ++ v).toList ++
       (a.maxAge.map fun v => b%" Max-Age=" ++ v).toList ++
       (if a.secure then [b%" Secure"] else []) ++
       (if a.httponly then [b%" HttpOnly"] else []) ++
       (a.path.map fun v => b%" Path=" ++ v).toList) := by
  have hq : ∀ b : Bytes, 59 ∉ cookieQuote b := fun b h =>
    absurd (CookieAux.quote_visible b 59 h) (by decide)
  unfold dumpCookie
  rw [CookieAux.segmentsOf_join]
  · obtain ⟨d, e, m, s, h, p⟩ := a
    cases d <;> cases e <;> cases m <;> cases s <;> cases h <;> cases p <;>
      simp [Attrs.segments]
  · intro s hs
    simp only [Attrs.segments, List.mem_cons, List.mem_append, Option.mem_toList,
      Option.map_eq_some_iff] at hs
    rcases hs with rfl | ((((⟨v, hv, rfl⟩ | ⟨v, hv, rfl⟩) | ⟨v, hv, rfl⟩) | hs) | hs) | ⟨v, hv, rfl⟩
    · simp [hk, hq]
    · simp [hq]
    · simp [he v hv]
    · simp [hm v hv]
    · split at hs
      · simp at hs; subst hs; decide
      · simp at hs
    · split at hs
      · simp at hs; subst hs; decide
      · simp at hs
    · simp [hp v hv]

example : segmentsOf (dumpCookie b%"id" b%"x; Secure, \"" { path := some b%"/" }) =
    [b%"id=\"x\\073 Secure\\054 \\\"\"", b%" Path=/"] := by decide


namespace CookieAux

/-- Unquoted text the pattern takes whole: no `;`, no newline, not starting with `"`, no
white space at either end. -/
def BareVal (v : Bytes) : Prop :=
  59 ∉ v ∧ 10 ∉ v ∧ (∀ c, v.head? = some c → c ≠ 34 ∧ isWs c = false) ∧
  (∀ c, v.getLast? = some c → isWs c = false)

def GoodVal (v : Bytes) : Prop := BareVal v ∨ ∃ body, v = 34 :: (body ++ [34]) ∧ CookieBody body

theorem starts_body {s : Bytes} (h : CookieBody s) : ∀ (prev : Option UInt8) (rest : Bytes),
    Starts (star true (alt (cls fun c => c != 92 && c != 34) (seq (cls (· == 92)) (cls (· != 10)))))
      prev (s ++ 34 :: rest) ⟨s, 34 :: rest, []⟩ := by
  induction h with
  | nil =>
    intro prev rest
    exact starts_star_stop (by simp [run])
  | plain c s hc _ ih =>
    intro prev rest
    have := starts_star_more (a := alt (cls fun c : UInt8 => c != 92 && c != 34) (seq (cls (· == 92)) (cls (· != 10))))
      (prev := prev) (s := c :: (s ++ 34 :: rest)) (m := ⟨[c], s ++ 34 :: rest, []⟩) (by simp)
      (starts_altl (starts_cls (by simp [hc.2.2.1, hc.2.2.2.1]))) (ih _ rest)
    simpa [M.comb] using this
  | esc c s hc _ ih =>
    intro prev rest
    have hcc : (c != 10) = true := by rcases hc with rfl | rfl <;> decide
    have := starts_star_more (a := alt (cls fun c : UInt8 => c != 92 && c != 34) (seq (cls (· == 92)) (cls (· != 10))))
      (prev := prev) (s := 92 :: c :: (s ++ 34 :: rest)) (m := ⟨[92, c], s ++ 34 :: rest, []⟩) (by simp)
      (starts_altr (by simp [run]) (by
        have := starts_seq (b := cls fun x : UInt8 => x != 10)
          (starts_cls (prev := prev) (p := fun x : UInt8 => x == 92) (c := 92) (s := c :: (s ++ 34 :: rest)) rfl)
          (starts_cls hcc)
        simpa [M.comb] using this)) (ih _ rest)
    simpa [M.comb] using this
  | oct x y z s hx hy hz _ ih =>
    intro prev rest
    have dig : ∀ d : UInt8, 48 ≤ d ∧ d ≤ 55 → (d != 10) = true ∧ (d != 92 && d != 34) = true := by
      intro d hd
      have := forall_byte (fun c => !(decide (48 ≤ c) && decide (c ≤ 55)) || (c != 10 && (c != 92 && c != 34)))
        (by decide +kernel) d
      simpa [hd.1, hd.2] using this
    have h1 := starts_star_more (a := alt (cls fun c : UInt8 => c != 92 && c != 34) (seq (cls (· == 92)) (cls (· != 10))))
      (prev := some y) (s := z :: (s ++ 34 :: rest)) (m := ⟨[z], s ++ 34 :: rest, []⟩) (by simp)
      (starts_altl (starts_cls (dig z hz).2)) (ih _ rest)
    have h2 := starts_star_more (a := alt (cls fun c : UInt8 => c != 92 && c != 34) (seq (cls (· == 92)) (cls (· != 10))))
      (prev := some x) (s := y :: z :: (s ++ 34 :: rest)) (m := ⟨[y], z :: (s ++ 34 :: rest), []⟩) (by simp)
      (starts_altl (starts_cls (dig y hy).2)) h1
    have h3 := starts_star_more (a := alt (cls fun c : UInt8 => c != 92 && c != 34) (seq (cls (· == 92)) (cls (· != 10))))
      (prev := prev) (s := 92 :: x :: y :: z :: (s ++ 34 :: rest)) (m := ⟨[92, x], y :: z :: (s ++ 34 :: rest), []⟩) (by simp)
      (starts_altr (by simp [run]) (by
        have := starts_seq (b := cls fun x : UInt8 => x != 10)
          (starts_cls (prev := prev) (p := fun x : UInt8 => x == 92) (c := 92) (s := x :: y :: z :: (s ++ 34 :: rest)) rfl)
          (starts_cls (dig x ⟨hx.1, UInt8.le_trans hx.2 (by decide)⟩).1)
        simpa [M.comb] using this)) h2
    simpa [M.comb] using h3

theorem starts_quotedVal {s : Bytes} (h : CookieBody s) (prev : Option UInt8) (rest : Bytes) :
    Starts quotedVal prev (34 :: (s ++ 34 :: rest)) ⟨34 :: (s ++ [34]), rest, []⟩ := by
  have h1 := starts_seq (starts_body h (some 34) rest) (starts_cls (p := fun x : UInt8 => x == 34)
    (prev := after (some 34) s) (c := 34) (s := rest) rfl)
  have h2 := starts_seq (starts_cls (prev := prev) (p := fun x : UInt8 => x == 34) (c := 34)
    (s := s ++ 34 :: rest) rfl) h1
  simpa [M.comb, quotedVal] using h2

theorem run_quotedVal_nil (prev : Option UInt8) (s : Bytes) (h : ∀ c, s.head? = some c → c ≠ 34) :
    run quotedVal prev s = [] := by
  apply run_seq_nil
  apply run_cls_ne
  intro c hc
  simpa using h c hc

/-- `\s*;` -/
theorem starts_end (prev : Option UInt8) (rest : Bytes) :
    Starts (seq (star true (cls isWs)) (cls (· == 59))) prev (59 :: rest) ⟨[59], rest, []⟩ := by
  have := starts_seq (starts_star (p := isWs) (prev := prev) (a := []) (b := 59 :: rest) (by simp)
    (by intro c hc; simp at hc; subst hc; decide))
    (starts_cls (p := fun x : UInt8 => x == 59) (prev := prev) (c := 59) (s := rest) rfl)
  simpa [M.comb] using this

theorem end_fails (prev : Option UInt8) (y rest : Bytes) (hne : y ≠ []) (h59 : 59 ∉ y)
    (hl : ∀ c, y.getLast? = some c → isWs c = false) :
    run (seq (star true (cls isWs)) (cls (· == 59))) prev (y ++ rest) = [] := by
  apply run_seq_nil'
  intro m hm
  rw [run_star_cls] at hm
  obtain ⟨hs, hw, _⟩ := mem_cutsG _ _ m hm
  apply run_cls_ne
  intro c hc
  -- the white space cannot cover all of `y`
  have hlen : m.txt.length < y.length := by
    apply Nat.lt_of_not_le
    intro hle
    have hpre : y <+: m.txt := by
      have h1 : y <+: m.txt ++ m.rest := by rw [hs]; exact List.prefix_append ..
      exact List.prefix_of_prefix_length_le h1 (List.prefix_append ..) hle
    obtain ⟨z, hz⟩ : ∃ z, y.getLast? = some z := by
      cases hy : y.getLast? with
      | none => simp [List.getLast?_eq_none_iff] at hy; exact absurd hy hne
      | some z => exact ⟨z, rfl⟩
    have hzm : z ∈ m.txt := hpre.subset (List.mem_of_getLast? hz)
    have := hw z hzm
    rw [hl z hz] at this
    exact absurd this (by decide)
  have hcy : c ∈ y := by
    have h1 : (m.txt ++ m.rest)[m.txt.length]? = some c := by
      simp [List.getElem?_append_right, ← List.head?_eq_getElem?, hc]
    rw [hs, List.getElem?_append_left hlen] at h1
    exact List.mem_of_getElem? h1
  simp only [beq_eq_false_iff_ne]
  rintro rfl
  exact h59 hcy

theorem starts_val {v : Bytes} (h : GoodVal v) (prev : Option UInt8) (rest : Bytes) :
    Starts (seq (grp 2 (alt quotedVal (star false (cls (· != 10)))))
      (seq (star true (cls isWs)) (cls (· == 59)))) prev (v ++ 59 :: rest)
      ⟨v ++ [59], rest, [(2, v)]⟩ := by
  rcases h with ⟨h59, h10, hhd, hlast⟩ | ⟨body, rfl, hb⟩
  · have hq : run quotedVal prev (v ++ 59 :: rest) = [] := by
      apply run_quotedVal_nil
      intro c hc
      cases v with
      | nil => simp at hc; subst hc; decide
      | cons a as => simp at hc; subst hc; exact (hhd a rfl).1
    have := starts_lazy_grp (p := fun c : UInt8 => c != 10) (prev := prev) (a := v) (b := 59 :: rest)
      (r := seq (star true (cls isWs)) (cls (· == 59))) (n := 2) (m := ⟨[59], rest, []⟩)
      (by intro c hc; simp only [bne_iff_ne]; rintro rfl; exact h10 hc)
      (by
        intro x y hxy hy
        apply end_fails _ _ _ hy
        · intro hm; exact h59 (by rw [hxy]; simp [hm])
        · intro c hc
          apply hlast
          rw [hxy, List.getLast?_append, hc]; rfl)
      (starts_end _ _)
    obtain ⟨ms, hms⟩ := this
    refine ⟨ms, ?_⟩
    rw [show [(2, v)] = ([] : List (Nat × Bytes)) ++ [(2, v)] from rfl, ← hms]
    simp only [run, hq, List.nil_append]
  · have h1 := starts_grp 2 (starts_altl (b := star false (cls fun c : UInt8 => c != 10))
      (starts_quotedVal hb prev (59 :: rest)))
    have h2 := starts_seq h1 (starts_end (after prev (34 :: (body ++ [34]))) rest)
    simpa [M.comb] using h2

theorem goodVal_head {v : Bytes} (h : GoodVal v) (rest : Bytes) :
    ∀ c, (v ++ 59 :: rest).head? = some c → isWs c = false := by
  intro c hc
  rcases h with ⟨_, _, hhd, _⟩ | ⟨body, rfl, hb⟩
  · cases v with
    | nil => simp at hc; subst hc; decide
    | cons a as => simp at hc; subst hc; exact (hhd a rfl).2
  · simp at hc; subst hc; decide

/-- One `name=value;` is matched as a whole. -/
theorem starts_cookieRe (k v rest : Bytes) (hk : k ≠ []) (hk61 : 61 ∉ k) (hv : GoodVal v) :
    Starts cookieRe none (k ++ 61 :: (v ++ 59 :: rest))
      ⟨k ++ 61 :: (v ++ [59]), rest, [(2, v), (1, k)]⟩ := by
  have h1 := starts_grp 1 (starts_plus (p := fun c : UInt8 => c != 61) (prev := none) (a := k)
    (b := 61 :: (v ++ 59 :: rest)) hk
    (by intro c hc; simp only [bne_iff_ne]; rintro rfl; exact hk61 hc)
    (by intro c hc; simp at hc; subst hc; decide))
  have h2 := starts_star (p := isWs) (prev := after none k) (a := []) (b := 61 :: (v ++ 59 :: rest))
    (by simp) (by intro c hc; simp at hc; subst hc; decide)
  have h3 := starts_cls (p := fun x : UInt8 => x == 61) (prev := after none k) (c := 61)
    (s := v ++ 59 :: rest) rfl
  have h4 := starts_star (p := isWs) (prev := some 61) (a := []) (b := v ++ 59 :: rest)
    (by simp) (goodVal_head hv rest)
  have h5 := starts_val hv (some 61) rest
  have := starts_seq h1 (starts_seq h2 (starts_seq h3 (starts_seq h4 h5)))
  simpa [M.comb, cookieRe, after] using this

theorem searchRe_first {s : Bytes} {m : M UInt8} (h : Starts cookieRe none s m) :
    searchRe cookieRe s = some m := by
  cases s with
  | nil => simpa [searchRe] using h.first
  | cons c cs => simp [searchRe, h.first]

/-- Names the parser keeps as they are. -/
def CleanKey (k : Bytes) : Prop := k ≠ [] ∧ ∀ c ∈ k, c ≠ 61 ∧ c ≠ 34 ∧ isWs c = false

theorem dropWhile_none {p : UInt8 → Bool} (l : Bytes) (h : ∀ c ∈ l, p c = false) : l.dropWhile p = l := by
  cases l with
  | nil => rfl
  | cons a as => simp [h a (by simp)]

theorem strip_clean (lead k : Bytes) (hl : ∀ c ∈ lead, isWs c = true) (hk : CleanKey k) :
    Cookie.strip (lead ++ k) = k := by
  have hw : ∀ c ∈ k, isWs c = false := fun c hc => (hk.2 c hc).2.2
  have h1 : (lead ++ k).dropWhile isWs = k := by
    induction lead with
    | nil => exact dropWhile_none k hw
    | cons a as ih =>
      simp only [List.cons_append, List.dropWhile_cons, hl a (by simp), if_true]
      exact ih (fun c hc => hl c (by simp [hc]))
  unfold Cookie.strip
  rw [h1, dropWhile_none _ (by intro c hc; exact hw c (by simpa using hc)), List.reverse_reverse]

theorem unquote_clean (k : Bytes) (hk : CleanKey k) : cookieUnquote k = k := by
  unfold cookieUnquote
  split
  · rfl
  · rw [if_pos]
    left
    intro h
    exact (hk.2 34 (List.mem_of_head? h)).2.1 rfl

/-- What parsing makes of one `name=value` segment. -/
def readSeg (kv : Bytes × Bytes) : Option (Bytes × Bytes) :=
  if cookieParams.contains (Cookie.lower kv.1) then none else some (kv.1, cookieUnquote kv.2)

theorem parseLoop_seg (n : Nat) (lead k v rest : Bytes) (hl : ∀ c ∈ lead, isWs c = true)
    (hk : CleanKey k) (hv : GoodVal v) :
    parseLoop (n + 1) (lead ++ k ++ 61 :: (v ++ 59 :: rest)) =
      (readSeg (k, v)).toList ++ parseLoop n rest := by
  have hm := starts_cookieRe (lead ++ k) v rest (by simp [hk.1]) (by
    intro h
    rcases List.mem_append.1 h with h | h
    · exact absurd (hl 61 h) (by decide)
    · exact (hk.2 61 h).1 rfl) hv
  have hlen : ¬ (lead ++ k ++ 61 :: (v ++ 59 :: rest)).length ≤ 1 := by simp; omega
  simp only [parseLoop, if_neg hlen, searchRe_first hm]
  have g1 : (M.group ⟨lead ++ k ++ 61 :: (v ++ [59]), rest, [(2, v), (1, lead ++ k)]⟩ 1).getD [] = lead ++ k := rfl
  have g2 : (M.group ⟨lead ++ k ++ 61 :: (v ++ [59]), rest, [(2, v), (1, lead ++ k)]⟩ 2).getD [] = v := rfl
  rw [g1, g2, strip_clean lead k hl hk, unquote_clean k hk]
  unfold readSeg
  by_cases hc : cookieParams.contains (Cookie.lower k) = true
  · rw [if_pos hc, if_pos hc]; rfl
  · rw [if_neg hc, if_neg hc]; rfl

def segText (kv : Bytes × Bytes) : Bytes := kv.1 ++ [61] ++ kv.2

theorem parseLoop_nil (n : Nat) : parseLoop n [] = [] := by cases n <;> simp [parseLoop]

theorem parseLoop_segs (kvs : List (Bytes × Bytes)) : ∀ n, kvs.length ≤ n →
    (∀ kv ∈ kvs, CleanKey kv.1 ∧ GoodVal kv.2) →
    parseLoop n (kvs.flatMap fun kv => 32 :: segText kv ++ [59]) = kvs.filterMap readSeg := by
  induction kvs with
  | nil => intro n _ _; simp [parseLoop_nil]
  | cons kv kvs ih =>
    intro n hn h
    obtain ⟨n, rfl⟩ : ∃ k, n = k + 1 := ⟨n - 1, by simp at hn; omega⟩
    have := parseLoop_seg n [32] kv.1 kv.2 (kvs.flatMap fun kv => 32 :: segText kv ++ [59])
      (by intro c hc; simp at hc; subst hc; decide) (h kv (by simp)).1 (h kv (by simp)).2
    have e : (kv :: kvs).flatMap (fun kv => 32 :: segText kv ++ [59]) =
        [32] ++ kv.1 ++ 61 :: (kv.2 ++ 59 :: kvs.flatMap fun kv => 32 :: segText kv ++ [59]) := by
      simp [segText]
    rw [e, this, ih n (by simpa using hn) (fun x hx => h x (by simp [hx]))]
    simp only [List.filterMap_cons]
    cases readSeg (kv.1, kv.2) <;> simp

theorem joinSemi_semi (l : List (Bytes × Bytes)) : ∀ a,
    joinSemi ((a :: l).map segText) ++ [59] =
      segText a ++ 59 :: l.flatMap fun kv => 32 :: segText kv ++ [59] := by
  induction l with
  | nil => intro a; simp [joinSemi]
  | cons b l ih =>
    intro a
    have := ih b
    simp only [List.map_cons] at this
    simp only [List.map_cons, joinSemi, List.append_assoc, this, List.flatMap_cons]
    simp

theorem cookieParse_segs (kvs : List (Bytes × Bytes))
    (h : ∀ kv ∈ kvs, CleanKey kv.1 ∧ GoodVal kv.2) :
    cookieParse (joinSemi (kvs.map segText)) = kvs.filterMap readSeg := by
  cases kvs with
  | nil => decide
  | cons a l =>
    unfold cookieParse
    have hlen : ∀ l : List (Bytes × Bytes), ∀ a, l.length < (joinSemi ((a :: l).map segText)).length + 0 := by
      intro l
      induction l with
      | nil => intro a; simp [joinSemi, segText]; omega
      | cons b l ih =>
        intro a
        have := ih b
        simp only [List.map_cons] at this
        simp only [List.map_cons, joinSemi, List.length_append, List.length_cons]
        omega
    rw [joinSemi_semi]
    have := parseLoop_seg (joinSemi ((a :: l).map segText)).length [] a.1 a.2
      (l.flatMap fun kv => 32 :: segText kv ++ [59]) (by simp) (h a (by simp)).1 (h a (by simp)).2
    have e : segText a ++ 59 :: (l.flatMap fun kv => 32 :: segText kv ++ [59]) =
      [] ++ a.1 ++ 61 :: (a.2 ++ 59 :: l.flatMap fun kv => 32 :: segText kv ++ [59]) := by simp [segText]
    rw [e, this, parseLoop_segs l _ (by have := hlen l a; omega) (fun x hx => h x (by simp [hx]))]
    simp only [List.filterMap_cons]
    cases readSeg (a.1, a.2) <;> simp

theorem legal_bare (b : Bytes) (h : ∀ c ∈ b, legalChars.contains c = true) : BareVal b := by
  refine ⟨fun hm => ?_, fun hm => ?_, fun c hc => ?_, fun c hc => ?_⟩
  · exact absurd (legal_props _ (h _ hm)).1 (by decide)
  · exact absurd (legal_props _ (h _ hm)).1 (by decide)
  · have := legal_props c (h c (List.mem_of_head? hc))
    exact ⟨(safe_plain this.1).2.2.1, this.2.1⟩
  · exact (legal_props c (h c (List.mem_of_getLast? hc))).2.1

theorem goodVal_quote (b : Bytes) : GoodVal (cookieQuote b) := by
  rw [cookieQuote_eq]
  split
  · rename_i h
    rw [List.all_eq_true] at h
    exact .inl (legal_bare b h)
  · exact .inr ⟨_, rfl, body_enc b⟩

end CookieAux

/-- A cookie name that the round trip is claimed for: not empty, without `=`, `"` or white
space, and not (in any case) one of the names the parser drops as attributes. -/
def CookieName (k : Bytes) : Prop :=
  k ≠ [] ∧ (∀ c ∈ k, c ≠ 61 ∧ c ≠ 34 ∧ isWs c = false) ∧ lower k ∉
    [b%"expires", b%"path", b%"comment", b%"max-age", b%"secure", b%"httponly", b%"version"]

/-- C23, request header.  A `Cookie` header listing any cookies with their quoted values is
parsed back into exactly those cookies. -/
theorem C23_header_roundtrip (kvs : List (Bytes × Bytes)) (hk : ∀ kv ∈ kvs, CookieName kv.1)
    (hd : (kvs.map (·.1)).Nodup) :
    parseCookie (joinSemi (kvs.map fun kv => kv.1 ++ b%"=" ++ cookieQuote kv.2)) = kvs := by
  have e : kvs.map (fun kv => kv.1 ++ b%"=" ++ cookieQuote kv.2) =
      (kvs.map fun kv => (kv.1, cookieQuote kv.2)).map CookieAux.segText := by
    simp [CookieAux.segText, Function.comp_def]
  unfold parseCookie
  rw [e, CookieAux.cookieParse_segs]
  · have : (kvs.map fun kv => (kv.1, cookieQuote kv.2)).filterMap CookieAux.readSeg = kvs := by
      clear e hd
      induction kvs with
      | nil => rfl
      | cons a l ih =>
        have hn : ¬ cookieParams.contains (lower a.1) = true := by
          have := (hk a (by simp)).2.2
          simpa [cookieParams] using this
        have : CookieAux.readSeg (a.1, cookieQuote a.2) = some a := by
          unfold CookieAux.readSeg
          rw [if_neg hn, C21_value_roundtrip]
        simp only [List.map_cons, List.filterMap_cons, this]
        rw [ih (fun kv h => hk kv (by simp [h]))]
    rw [this, Quote.foldl_dictSet _ _ (by simpa using hd)]
    simp
  · intro kv hkv
    obtain ⟨x, hx, rfl⟩ := List.mem_map.1 hkv
    exact ⟨⟨(hk x hx).1, (hk x hx).2.1⟩, CookieAux.goodVal_quote _⟩

/-- C23, `dump_cookie`.  As long as no Domain, Secure or HttpOnly attribute is set, parsing
the emitted header gives exactly the cookie, whatever its value.  (Attribute values must
be free of `;`, newline, surrounding white space and a leading quote.) -/
theorem C23_dump_roundtrip_partial (key value : Bytes) (a : Attrs) (hk : CookieName key)
    (hd : a.domain = none) (hs : a.secure = false) (hh : a.httponly = false)
    (hv : ∀ v, (a.expires = some v ∨ a.maxAge = some v ∨ a.path = some v) →
      59 ∉ v ∧ 10 ∉ v ∧ (∀ c, v.head? = some c → c ≠ 34 ∧ isWs c = false) ∧
      (∀ c, v.getLast? = some c → isWs c = false)) :
    parseCookie (dumpCookie key value a) = [(key, value)] := by
  obtain ⟨d, ex, ma, s, h, p⟩ := a
  simp only at hd hs hh hv
  subst hd hs hh
  let attrs : List (Bytes × Bytes) := (ex.map fun v => (b%"Expires", v)).toList ++
    (ma.map fun v => (b%"Max-Age", v)).toList ++ (p.map fun v => (b%"Path", v)).toList
  have e : (key ++ [61] ++ cookieQuote value) :: (Attrs.segments ⟨none, ex, ma, false, false, p⟩) =
      ((key, cookieQuote value) :: attrs).map CookieAux.segText := by
    cases ex <;> cases ma <;> cases p <;> simp [attrs, Attrs.segments, CookieAux.segText]
  have hattr : ∀ kv ∈ attrs, CookieAux.readSeg kv = none ∧ CookieAux.CleanKey kv.1 ∧
      CookieAux.GoodVal kv.2 := by
    intro kv hkv
    simp only [attrs, List.mem_append, Option.mem_toList, Option.map_eq_some_iff] at hkv
    have k1 : CookieAux.CleanKey b%"Expires" := ⟨by decide, by decide⟩
    have k2 : CookieAux.CleanKey b%"Max-Age" := ⟨by decide, by decide⟩
    have k3 : CookieAux.CleanKey b%"Path" := ⟨by decide, by decide⟩
    rcases hkv with (⟨v, hv', rfl⟩ | ⟨v, hv', rfl⟩) | ⟨v, hv', rfl⟩
    · exact ⟨by unfold CookieAux.readSeg; exact if_pos (show cookieParams.contains (lower b%"Expires") = true by decide), k1, .inl (hv v (.inl hv'))⟩
    · exact ⟨by unfold CookieAux.readSeg; exact if_pos (show cookieParams.contains (lower b%"Max-Age") = true by decide), k2, .inl (hv v (.inr (.inl hv')))⟩
    · exact ⟨by unfold CookieAux.readSeg; exact if_pos (show cookieParams.contains (lower b%"Path") = true by decide), k3, .inl (hv v (.inr (.inr hv')))⟩
  have hn : ¬ cookieParams.contains (lower key) = true := by
    have := hk.2.2
    simpa [cookieParams] using this
  unfold parseCookie dumpCookie
  rw [e, CookieAux.cookieParse_segs]
  · have h1 : CookieAux.readSeg (key, cookieQuote value) = some (key, value) := by
      unfold CookieAux.readSeg
      rw [if_neg hn, C21_value_roundtrip]
    have h2 : attrs.filterMap CookieAux.readSeg = [] := by
      rw [List.filterMap_eq_nil_iff]
      exact fun kv h => (hattr kv h).1
    simp only [List.filterMap_cons, h1, h2]
    rfl
  · intro kv hkv
    rcases List.mem_cons.1 hkv with rfl | hkv
    · exact ⟨⟨hk.1, hk.2.1⟩, CookieAux.goodVal_quote _⟩
    · exact (hattr kv hkv).2

/-- C23 fails as stated: with `secure` or `httponly` set the parser takes everything up to
the next `=` as the name of another cookie, and `Domain` is not recognised as an
attribute. -/
theorem C23_roundtrip_false :
    parseCookie (dumpCookie b%"id" b%"x" { secure := true }) =
      [(b%"id", b%"x"), (b%"Secure; Path", b%"/")] ∧
    parseCookie (dumpCookie b%"id" b%"x" { httponly := true }) =
      [(b%"id", b%"x"), (b%"HttpOnly; Path", b%"/")] ∧
    parseCookie (dumpCookie b%"id" b%"x" { domain := some b%"a.b" }) =
      [(b%"id", b%"x"), (b%"Domain", b%"a.b")] := by decide

example : CookieName b%"session_id" ∧
    parseCookie (dumpCookie b%"session_id" b%"a;b=\"c\\\"" {}) = [(b%"session_id", b%"a;b=\"c\\\"")] :=
  ⟨by unfold CookieName; decide, by decide⟩

example : parseCookie b%"a=1; b=\"x\\073y\"" = [(b%"a", b%"1"), (b%"b", b%"x;y")] := by decide

end Verif.Props
