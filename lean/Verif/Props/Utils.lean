import Verif.Model.Utils
/-!
C38: `secure_filename` (`/repo/verktyg/utils.py:139-182`).
-/
namespace Verif.Utils
open Verif Verif.Py

/-- Letters, digits, `_`, `-` and `.` of ASCII. -/
def Plain (c : Char) : Prop :=
  (65 ≤ c.toNat ∧ c.toNat ≤ 90) ∨ (97 ≤ c.toNat ∧ c.toNat ≤ 122) ∨ (48 ≤ c.toNat ∧ c.toNat ≤ 57) ∨
    c = '_' ∨ c = '-' ∨ c = '.'

theorem char_le (a b : Char) : a ≤ b ↔ a.toNat ≤ b.toNat := by
  simp only [Char.le_def, Char.toNat, UInt32.le_iff_toNat_le]

theorem keeps_iff (c : Char) : keeps c = true ↔ Plain c := by
  simp only [keeps, Plain, Bool.or_eq_true, Bool.and_eq_true, decide_eq_true_eq, char_le]
  have h1 : 'A'.toNat = 65 := rfl
  have h2 : 'Z'.toNat = 90 := rfl
  have h3 : 'a'.toNat = 97 := rfl
  have h4 : 'z'.toNat = 122 := rfl
  have h5 : '0'.toNat = 48 := rfl
  have h6 : '9'.toNat = 57 := rfl
  rw [h1, h2, h3, h4, h5, h6]
  grind

theorem plain_bound {c : Char} (h : Plain c) : c.toNat < 128 ∧ 45 ≤ c.toNat ∧ c.toNat ≠ 47 ∧ c.toNat ≠ 92 := by
  rcases h with h | h | h | rfl | rfl | rfl
  · omega
  · omega
  · omega
  · decide
  · decide
  · decide

theorem plain_not_space {c : Char} (h : Plain c) : isSpace c = false := by
  obtain ⟨h1, h2, -, -⟩ := plain_bound h
  simp only [isSpace]
  simp
  omega

theorem plain_not_sep {c : Char} (h : Plain c) : c ≠ '/' ∧ c ≠ '\\' := by
  obtain ⟨-, -, h1, h2⟩ := plain_bound h
  constructor
  · rintro rfl; exact h1 rfl
  · rintro rfl; exact h2 rfl

theorem squeeze_plain (s : Str) : ∀ c ∈ squeeze s, Plain c := by
  intro c hc
  have := stripP_mem _ _ c hc
  rw [List.mem_filter] at this
  exact (keeps_iff c).1 this.2

theorem wordsGo_plain : ∀ (s cur : Str), (∀ c ∈ s, isSpace c = false) →
    wordsGo cur s = if cur ++ s = [] then [] else [cur ++ s]
  | [], cur, _ => by simp [wordsGo]
  | c :: cs, cur, h => by
    rw [wordsGo, h c (by simp)]
    simp only [Bool.false_eq_true, if_false]
    rw [wordsGo_plain cs (cur ++ [c]) (fun x hx => h x (by simp [hx]))]
    simp

theorem squeeze_of_plain (s : Str) (h : ∀ c ∈ s, Plain c) :
    squeeze s = stripP (fun c => c = '.' || c = '_') s := by
  unfold squeeze words
  rw [wordsGo_plain s [] fun c hc => plain_not_space (h c hc)]
  have hf : s.filter keeps = s := List.filter_eq_self.2 fun c hc => (keeps_iff c).2 (h c hc)
  by_cases hs : s = []
  · subst hs; rfl
  · simp [hs, join, hf]

theorem unslash_of_plain (nt : Bool) (s : Str) (h : ∀ c ∈ s, Plain c) : unslash nt s = s := by
  unfold unslash
  rw [map_eq_self]
  intro c hc
  have := plain_not_sep (h c hc)
  simp [this]

theorem ascii_of_plain (s : Str) (h : ∀ c ∈ s, Plain c) : s.filter (fun c => c.toNat < 128) = s :=
  List.filter_eq_self.2 fun c hc => by simp [(plain_bound (h c hc)).1]

/-- **C38, characters.**  Whatever the name, the normalisation and the platform: the result
has only letters, digits, `_`, `-` and `.`, so no path separator; it does not start with a
dot, nor end with a dot or an underscore. -/
theorem C38_safe (nt : Bool) (nfkd : Str → Str) (s : Str) :
    (∀ c ∈ secureFilename nt nfkd s, Plain c) ∧
    '/' ∉ secureFilename nt nfkd s ∧ '\\' ∉ secureFilename nt nfkd s ∧
    (secureFilename nt nfkd s).head? ≠ some '.' ∧
    (∀ c, (secureFilename nt nfkd s).getLast? = some c → c ≠ '.' ∧ c ≠ '_') := by
  have hp : ∀ c ∈ secureFilename nt nfkd s, Plain c := by
    intro c hc
    simp only [secureFilename] at hc
    split at hc
    · rcases List.mem_cons.1 hc with rfl | hc
      · exact Or.inr (Or.inr (Or.inr (Or.inl rfl)))
      · exact squeeze_plain _ c hc
    · exact squeeze_plain _ c hc
  refine ⟨hp, fun h => (plain_not_sep (hp _ h)).1 rfl, fun h => (plain_not_sep (hp _ h)).2 rfl, ?_, ?_⟩
  · simp only [secureFilename]
    split
    · simp
    · intro h
      have := stripP_head (fun c => c = '.' || c = '_') _ _ h
      simp at this
  · intro c hc
    simp only [secureFilename] at hc
    split at hc
    · rename_i hne
      rw [List.getLast?_cons_of_ne_nil hne.2.1] at hc
      have := stripP_last (fun c => c = '.' || c = '_') _ _ hc
      simpa using this
    · have := stripP_last (fun c => c = '.' || c = '_') _ _ hc
      simpa using this

/-- **C38, POSIX.**  There the result does not start with an underscore either. -/
theorem C38_posix_head (nfkd : Str → Str) (s : Str) :
    (secureFilename false nfkd s).head? ≠ some '_' ∧ (secureFilename false nfkd s).head? ≠ some '.' := by
  refine ⟨fun h => ?_, (C38_safe false nfkd s).2.2.2.1⟩
  simp only [secureFilename, Bool.false_eq_true, false_and, if_false] at h
  have := stripP_head (fun c => c = '.' || c = '_') _ _ h
  simp at this

theorem stem_underscore (f : Str) : stem ('_' :: f) ∉ devices := by
  have : (stem ('_' :: f)).head? = some '_' := by simp [stem, split1]
  intro h
  have hall : ∀ d ∈ devices, d.head? ≠ some '_' := by decide
  exact hall _ h this

theorem stem_not_device (nfkd : Str → Str) (s : Str) :
    secureFilename true nfkd s ≠ [] → stem (secureFilename true nfkd s) ∉ devices := by
  intro hne
  simp only [secureFilename] at hne ⊢
  split
  · exact stem_underscore _
  · rename_i h
    intro hd
    apply h
    rw [if_neg h] at hne
    exact ⟨trivial, hne, hd⟩

/-- **C38, Windows.**  There the result is never the name of a device, in upper or lower case,
with or without an extension. -/
theorem C38_windows_device (nfkd : Str → Str) (s d name ext : Str)
    (hd : d ∈ [s%"CON", s%"PRN", s%"AUX", s%"NUL", s%"COM1", s%"COM2", s%"COM3", s%"COM4",
      s%"LPT1", s%"LPT2", s%"LPT3"])
    (hn : name.map Char.toUpper = d) :
    secureFilename true nfkd s ≠ name ∧ secureFilename true nfkd s ≠ name ++ '.' :: ext := by
  have hdev : d ∈ devices := by
    simp only [List.mem_cons, List.not_mem_nil, or_false] at hd
    rcases hd with rfl | rfl | rfl | rfl | rfl | rfl | rfl | rfl | rfl | rfl | rfl <;> decide
  have hdot : '.' ∉ name := by
    intro h
    have : '.' ∈ d := by
      rw [← hn]
      exact List.mem_map.mpr ⟨'.', h, by decide⟩
    have hall : ∀ d ∈ devices, '.' ∉ d := by decide
    exact hall d hdev this
  have hne : name ≠ [] := by
    rintro rfl
    rw [← hn] at hdev
    revert hdev
    decide
  constructor
  · intro h
    refine stem_not_device nfkd s (by rw [h]; exact hne) ?_
    rw [h, stem, split1_none _ _ hdot, hn]
    exact hdev
  · intro h
    refine stem_not_device nfkd s (by rw [h]; simp) ?_
    rw [h, stem, split1_some _ _ _ hdot, hn]
    exact hdev

theorem wordsGo_join (nt : Bool) : ∀ (ws : List Str) (w cur : Str), (∀ x ∈ w :: ws, x ≠ [] ∧ ∀ c ∈ x, Plain c) →
    wordsGo cur (unslash nt (join ['/'] (w :: ws))) = (cur ++ w) :: ws
  | [], w, cur, h => by
    obtain ⟨h1, h2⟩ := h w (by simp)
    simp only [join, unslash_of_plain nt w h2]
    rw [wordsGo_plain w cur fun c hc => plain_not_space (h2 c hc), if_neg (by simp [h1])]
  | w' :: ws, w, cur, h => by
    obtain ⟨h1, h2⟩ := h w (by simp)
    have e : unslash nt (join ['/'] (w :: w' :: ws)) = w ++ ' ' :: unslash nt (join ['/'] (w' :: ws)) := by
      have := unslash_of_plain nt w h2
      unfold unslash at this ⊢
      rw [show join ['/'] (w :: w' :: ws) = w ++ ['/'] ++ join ['/'] (w' :: ws) from rfl]
      simp [this]
    have step : ∀ (w cur t : Str), (∀ c ∈ w, Plain c) → cur ++ w ≠ [] →
        wordsGo cur (w ++ ' ' :: t) = (cur ++ w) :: wordsGo [] t := by
      intro w
      induction w with
      | nil =>
        intro cur t _ hc
        simp at hc
        have : isSpace ' ' = true := by decide
        simp [wordsGo, this, hc]
      | cons c cs ih =>
        intro cur t hp _
        rw [List.cons_append, wordsGo, plain_not_space (hp c (by simp))]
        simp only [Bool.false_eq_true, if_false]
        rw [ih (cur ++ [c]) t (fun x hx => hp x (by simp [hx])) (by simp)]
        simp
    rw [e, step w cur _ h2 (by simp [h1]), wordsGo_join nt ws w' [] fun x hx => h x (by simp [hx])]
    simp

/-- **C38, directories.**  The parts of a path stay, joined by underscores: nothing but leading
and trailing dots and underscores is lost of a path of plain names (on Windows an underscore
may be put in front). -/
theorem C38_directories (nt : Bool) (nfkd : Str → Str)
    (hn : ∀ t : Str, (∀ c ∈ t, c.toNat < 128) → nfkd t = t) (parts : List Str)
    (hp : ∀ w ∈ parts, w ≠ [] ∧ ∀ c ∈ w, Plain c) :
    secureFilename nt nfkd (join ['/'] parts) = stripP (fun c => c = '.' || c = '_') (join ['_'] parts) ∨
    nt = true ∧ secureFilename nt nfkd (join ['/'] parts) =
      '_' :: stripP (fun c => c = '.' || c = '_') (join ['_'] parts) := by
  have hmem : ∀ (sep : Char), ∀ ws : List Str, ∀ c ∈ join [sep] ws, c = sep ∨ ∃ w ∈ ws, c ∈ w := by
    intro sep ws
    induction ws with
    | nil => simp [join]
    | cons w ws ih =>
      cases ws with
      | nil => intro c hc; simp only [join] at hc; exact Or.inr ⟨w, by simp, hc⟩
      | cons w' ws =>
        intro c hc
        rw [show join [sep] (w :: w' :: ws) = w ++ [sep] ++ join [sep] (w' :: ws) from rfl] at hc
        simp only [List.mem_append, List.mem_singleton] at hc
        rcases hc with (hc | hc) | hc
        · exact Or.inr ⟨w, by simp, hc⟩
        · exact Or.inl hc
        · rcases ih c hc with h | ⟨x, hx, h⟩
          · exact Or.inl h
          · exact Or.inr ⟨x, by simp [List.mem_cons.mp hx], h⟩
  have hascii : ∀ c ∈ join ['/'] parts, c.toNat < 128 := by
    intro c hc
    rcases hmem '/' parts c hc with rfl | ⟨w, hw, h⟩
    · decide
    · exact (plain_bound ((hp w hw).2 c h)).1
  have hsq : squeeze (unslash nt ((nfkd (join ['/'] parts)).filter fun c => c.toNat < 128)) =
      stripP (fun c => c = '.' || c = '_') (join ['_'] parts) := by
    rw [hn _ hascii, List.filter_eq_self.2 fun c hc => by simp [hascii c hc]]
    unfold squeeze words
    cases parts with
    | nil => rfl
    | cons w ws =>
      rw [wordsGo_join nt ws w [] hp, List.nil_append]
      congr 1
      apply List.filter_eq_self.2
      intro c hc
      rw [keeps_iff]
      rcases hmem '_' _ c hc with rfl | ⟨x, hx, h⟩
      · exact Or.inr (Or.inr (Or.inr (Or.inl rfl)))
      · exact (hp x hx).2 c h
  simp only [secureFilename, hsq]
  split
  · rename_i h; exact Or.inr ⟨h.1, rfl⟩
  · exact Or.inl rfl

example : secureFilename false id s%"a/b.c/d" = s%"a_b.c_d" := by decide

/-- **C38, idempotence** on both platforms, for every normalisation that leaves ASCII text
alone (as NFKD does). -/
theorem C38_idempotent (nt : Bool) (nfkd : Str → Str)
    (hn : ∀ t : Str, (∀ c ∈ t, c.toNat < 128) → nfkd t = t) (s : Str) :
    secureFilename nt nfkd (secureFilename nt nfkd s) = secureFilename nt nfkd s := by
  have hp := (C38_safe nt nfkd s).1
  have hraw : ∀ t : Str, (∀ c ∈ t, Plain c) →
      squeeze (unslash nt ((nfkd t).filter fun c => c.toNat < 128)) = stripP (fun c => c = '.' || c = '_') t := by
    intro t ht
    rw [hn t fun c hc => (plain_bound (ht c hc)).1, ascii_of_plain t ht, unslash_of_plain nt t ht,
      squeeze_of_plain t ht]
  generalize hg : squeeze (unslash nt ((nfkd s).filter fun c => c.toNat < 128)) = g
  have hgp : ∀ c ∈ g, Plain c := hg ▸ squeeze_plain _
  have hgs : stripP (fun c => c = '.' || c = '_') g = g := by
    rw [← hg]; exact stripP_idem _ _
  have hs : secureFilename nt nfkd s = if nt = true ∧ g ≠ [] ∧ stem g ∈ devices then '_' :: g else g := by
    simp only [secureFilename, hg]
  rw [hs]
  split
  · rename_i hc
    have hp' : ∀ c ∈ '_' :: g, Plain c := by
      intro c h
      rcases List.mem_cons.1 h with rfl | h
      · exact Or.inr (Or.inr (Or.inr (Or.inl rfl)))
      · exact hgp c h
    have h2 : stripP (fun c => c = '.' || c = '_') ('_' :: g) = g := by
      have : stripP (fun c => c = '.' || c = '_') ('_' :: g) = stripP (fun c => c = '.' || c = '_') g := by
        simp only [stripP]
        rw [lstripP_cons _ _ _ (by simp)]
      rw [this, hgs]
    simp only [secureFilename]
    rw [hraw _ hp', h2, if_pos hc]
  · rename_i hc
    simp only [secureFilename]
    rw [hraw _ hgp, hgs, if_neg hc]

example : secureFilename false id s%"../../etc/pass wd_." = s%"etc_pass_wd" := by decide
example : secureFilename true id s%"..\\con.txt" = s%"_con.txt" := by decide
example : secureFilename false id s%"../." = [] := by decide

end Verif.Utils
