import Verif.Model.ConvArgs
import Verif.Spec.Converters
import Verif.RegexLang
import Verif.Props.RoutingBuild
/-!
C110: the arguments of converters in rules.
-/
namespace Verif.Props.ConvArgsP
open Verif Verif.Routing Verif.Spec.Routing Verif.Props Verif.Props.RoutingP

/-! ### specification -/

/-- What is assumed of the interpreter's text functions. -/
structure LibOk (L : ArgLib) : Prop where
  /-- decimal digits are word characters -/
  digit_word : ∀ c, L.digit c = true → L.word c = true
  /-- white space is not -/
  space_word : ∀ c, Py.isSpace c = true → L.word c = false
  comma : L.word ',' = false
  equals : L.word '=' = false
  dquote : L.word '"' = false
  squote : L.word '\'' = false
  /-- the ten digits have their values -/
  decimal : Decimal L.dec
  /-- ASCII letters and the underscore are word characters, and not digits -/
  letters : ∀ c, identHead c = true → L.word c = true ∧ L.digit c = false
  /-- `int` reads what is written in digits, and refuses quotes -/
  int_nat : ∀ n : Nat, L.int (Py.natStr n) = some (n : Int)
  int_digits : ∀ s, s ≠ [] → (∀ c ∈ s, L.digit c = true) → L.int s ≠ none
  int_dquote : ∀ s, L.int ('"' :: s) = none
  int_squote : ∀ s, L.int ('\'' :: s) = none
  /-- `float` refuses quotes -/
  float_dquote : ∀ s, L.floats.canon ('"' :: s) = none
  float_squote : ∀ s, L.floats.canon ('\'' :: s) = none

/-- An argument as it is written: a word, a text in quotes, or a number. -/
inductive Lit where
  | word (w : Str)
  | quoted (q : Char) (s : Str)
  | num (n : Nat)
deriving DecidableEq, Repr

/-- How it is written. -/
def Lit.text : Lit → Str
  | .word w => w
  | .quoted q s => q :: (s ++ [q])
  | .num n => Py.natStr n

/-- What it stands for. -/
def Lit.value : Lit → Arg
  | .word w => if w = s%"None" then .none else if w = s%"True" then .bool true else if w = s%"False" then .bool false
    else .str w
  | .quoted _ s => .str s
  | .num n => .int n

/-- A word that is not a number for `int` or `float`; a text without the quotes it stands in. -/
def Lit.Ok (L : ArgLib) : Lit → Prop
  | .word w => w ≠ [] ∧ (∀ c ∈ w, L.word c = true) ∧ L.int w = none ∧ L.floats.canon w = none
  | .quoted q s => (q = '"' ∨ q = '\'') ∧ q ∉ s
  | .num _ => True

/-- An argument with its keyword, if it has one, and the white space after the comma that follows. -/
structure Written where
  name : Option Str := none
  lit : Lit
  gap : Str := []

/-- `name=value`. -/
def Written.text (a : Written) : Str :=
  match a.name with
  | none => a.lit.text
  | some n => n ++ s%"=" ++ a.lit.text

/-- A list of arguments. -/
def render : List Written → Str
  | [] => []
  | [a] => a.text
  | a :: b :: l => a.text ++ s%"," ++ a.gap ++ render (b :: l)

/-- Keywords are words that do not begin with a digit. -/
def Written.Ok (L : ArgLib) (a : Written) : Prop :=
  a.lit.Ok L ∧ (∀ c ∈ a.gap, Py.isSpace c = true) ∧
    ∀ n, a.name = some n → n ≠ [] ∧ (∀ c ∈ n, L.word c = true) ∧ ∀ c, n.head? = some c → L.digit c = false

/-- After a number, a digit does not follow the comma at once. -/
def Apart (L : ArgLib) : List Written → Prop
  | [] => True
  | [_] => True
  | a :: b :: l => ((∃ n, a.lit = .num n) → a.gap ≠ [] ∨ ∀ c, b.text.head? = some c → L.digit c = false) ∧
      Apart L (b :: l)

/-- The positional arguments. -/
def positional (l : List Written) : List Arg :=
  l.filterMap fun a => match a.name with | none => some a.lit.value | some _ => none

/-- The arguments with keywords. -/
def keywords (l : List Written) : List (Str × Arg) :=
  l.filterMap fun a => a.name.map fun n => (n, a.lit.value)

/-! ### the matches of the pattern -/

theorem mem_seq {a b : Re Char} {prev : Option Char} {s : Str} {m : Re.M Char} : m ∈ Re.run (.seq a b) prev s ↔
    ∃ m1 ∈ Re.run a prev s, ∃ m2 ∈ Re.run b (Re.after prev m1.txt) m1.rest,
      m = ⟨m1.txt ++ m2.txt, m2.rest, m2.caps ++ m1.caps⟩ := by
  simp only [Re.run, List.mem_flatMap, Re.andThen, List.mem_map]
  constructor
  · rintro ⟨m1, h1, m2, h2, rfl⟩; exact ⟨m1, h1, m2, h2, rfl⟩
  · rintro ⟨m1, h1, m2, h2, rfl⟩; exact ⟨m1, h1, m2, h2, rfl⟩

theorem mem_alt {a b : Re Char} {prev : Option Char} {s : Str} {m : Re.M Char} : m ∈ Re.run (.alt a b) prev s ↔
    m ∈ Re.run a prev s ∨ m ∈ Re.run b prev s := by
  simp only [Re.run, List.mem_append]

theorem mem_grp {a : Re Char} {n : Nat} {prev : Option Char} {s : Str} {m : Re.M Char} : m ∈ Re.run (.grp n a) prev s ↔
    ∃ m1 ∈ Re.run a prev s, m = ⟨m1.txt, m1.rest, (n, m1.txt) :: m1.caps⟩ := by
  simp only [Re.run, List.mem_map]
  constructor
  · rintro ⟨m1, h1, rfl⟩; exact ⟨m1, h1, rfl⟩
  · rintro ⟨m1, h1, rfl⟩; exact ⟨m1, h1, rfl⟩

/-- A text in quotes. -/
def IsQuoted (q : Str) : Prop := ∃ c x, (c = '"' ∨ c = '\'') ∧ q = c :: (x ++ [c]) ∧ c ∉ x

theorem lang_string (q : Str) : Re.Lang stringRe q ↔ IsQuoted q := by
  have e : ∀ g (c : Char), Re.Lang (Re.cat [Re.lit [c], .star g (.cls (· != c)), Re.lit [c]]) q ↔
      ∃ x, q = c :: (x ++ [c]) ∧ c ∉ x := by
    intro g c
    have : Re.Lang (Re.cat [Re.lit [c], .star g (.cls (· != c)), Re.lit [c]]) q ↔
        ∃ u v, q = u ++ v ∧ Re.Lang (Re.lit [c]) u ∧ ∃ x w, v = x ++ w ∧ Re.Lang (.star g (.cls (· != c))) x ∧
          Re.Lang (Re.lit [c]) w := Iff.rfl
    rw [this]
    simp only [lang_lit, lang_star_cls]
    constructor
    · rintro ⟨u, v, rfl, rfl, x, w, rfl, h, rfl⟩
      exact ⟨x, rfl, fun hc => by simpa using h _ hc⟩
    · rintro ⟨x, rfl, h⟩
      refine ⟨[c], _, rfl, rfl, x, [c], rfl, fun d hd => ?_, rfl⟩
      simp only [bne_iff_ne, ne_eq]
      rintro rfl
      exact h hd
  show (Re.Lang _ q ∨ Re.Lang _ q) ↔ _
  rw [e, e]
  constructor
  · rintro (⟨x, h1, h2⟩ | ⟨x, h1, h2⟩)
    · exact ⟨_, x, .inl rfl, h1, h2⟩
    · exact ⟨_, x, .inr rfl, h1, h2⟩
  · rintro ⟨c, x, rfl | rfl, h1, h2⟩
    · exact .inl ⟨x, h1, h2⟩
    · exact .inr ⟨x, h1, h2⟩

theorem pure_string : Re.Pure stringRe := ⟨⟨trivial, trivial, trivial⟩, ⟨trivial, trivial, trivial⟩⟩

/-- The texts of the value of an argument that are not in quotes. -/
def Plain (L : ArgLib) (v : Str) : Prop :=
  v = s%"True" ∨ v = s%"False" ∨
  (∃ a c b, v = a ++ c :: b ∧ (a ≠ [] ∧ ∀ x ∈ a, L.digit x = true) ∧ dot c = true ∧ (b ≠ [] ∧ ∀ x ∈ b, L.digit x = true)) ∨
  (∃ a c, v = a ++ [c] ∧ (a ≠ [] ∧ ∀ x ∈ a, L.digit x = true) ∧ dot c = true) ∨
  (v ≠ [] ∧ ∀ x ∈ v, L.digit x = true) ∨
  (v ≠ [] ∧ ∀ x ∈ v, L.word x = true)

/-- The value of an argument: its text and the part of it in quotes. -/
def ValueOf (L : ArgLib) (v : Str) : Option Str → Prop
  | none => Plain L v
  | some q => ∃ p, v = p ++ q ∧ (p = [] ∨ ∃ c, isPrefix c = true ∧ p = [c]) ∧ IsQuoted q

/-- The groups of a value. -/
def valueCaps : Option Str → List (Nat × Str)
  | none => []
  | some q => [(2, q)]

theorem mem_value (L : ArgLib) (prev : Option Char) (s : Str) (m : Re.M Char) : m ∈ Re.run (valueRe L) prev s ↔
    m.txt ++ m.rest = s ∧ ∃ cap, ValueOf L m.txt cap ∧ m.caps = valueCaps cap := by
  have h3 : ∀ t, Re.Lang (Re.cat [Re.plus (.cls L.digit), .cls dot, Re.plus (.cls L.digit)]) t ↔
      ∃ a c b, t = a ++ c :: b ∧ (a ≠ [] ∧ ∀ x ∈ a, L.digit x = true) ∧ dot c = true ∧ (b ≠ [] ∧ ∀ x ∈ b, L.digit x = true) := by
    intro t
    have : Re.Lang (Re.cat [Re.plus (.cls L.digit), .cls dot, Re.plus (.cls L.digit)]) t ↔
        ∃ u v, t = u ++ v ∧ Re.Lang (Re.plus (.cls L.digit)) u ∧ ∃ x w, v = x ++ w ∧ (∃ c, x = [c] ∧ dot c = true) ∧
          Re.Lang (Re.plus (.cls L.digit)) w := Iff.rfl
    rw [this]
    simp only [lang_plus]
    constructor
    · rintro ⟨u, v, rfl, hu, x, w, rfl, ⟨c, rfl, hc⟩, hw⟩; exact ⟨u, c, w, rfl, hu, hc, hw⟩
    · rintro ⟨u, c, w, rfl, hu, hc, hw⟩; exact ⟨u, _, rfl, hu, [c], w, rfl, ⟨c, rfl, hc⟩, hw⟩
  have h4 : ∀ t, Re.Lang (Re.cat [Re.plus (.cls L.digit), .cls dot]) t ↔
      ∃ a c, t = a ++ [c] ∧ (a ≠ [] ∧ ∀ x ∈ a, L.digit x = true) ∧ dot c = true := by
    intro t
    have : Re.Lang (Re.cat [Re.plus (.cls L.digit), .cls dot]) t ↔
        ∃ u v, t = u ++ v ∧ Re.Lang (Re.plus (.cls L.digit)) u ∧ ∃ c, v = [c] ∧ dot c = true := Iff.rfl
    rw [this]
    simp only [lang_plus]
    constructor
    · rintro ⟨u, v, rfl, hu, c, rfl, hc⟩; exact ⟨u, c, rfl, hu, hc⟩
    · rintro ⟨u, c, rfl, hu, hc⟩; exact ⟨u, _, rfl, hu, c, rfl, hc⟩
  have hp : ∀ r : Re Char, Re.Pure r → (m ∈ Re.run r prev s ↔ m.txt ++ m.rest = s ∧ m.caps = [] ∧ Re.Lang r m.txt) :=
    fun r hr => Re.mem_run hr prev s m
  have hq : m ∈ Re.run (.seq (Re.opt (.cls isPrefix)) (.grp 2 stringRe)) prev s ↔
      m.txt ++ m.rest = s ∧ ∃ q, ValueOf L m.txt (some q) ∧ m.caps = [(2, q)] := by
    rw [mem_seq]
    constructor
    · rintro ⟨m1, h1, m2, h2, rfl⟩
      obtain ⟨m3, h5, rfl⟩ := mem_grp.1 h2
      obtain ⟨e1, e2, e3⟩ := (Re.mem_run (r := Re.opt (.cls isPrefix)) ⟨trivial, trivial⟩ _ _ _).1 h1
      obtain ⟨e4, e5, e6⟩ := (Re.mem_run pure_string _ _ _).1 h5
      refine ⟨by simp only [List.append_assoc, e4, e1], m3.txt, ⟨m1.txt, rfl, ?_, (lang_string _).1 e6⟩, by simp [e2, e5]⟩
      rcases e3 with ⟨c, e7, e8⟩ | e7
      · exact .inr ⟨c, e8, e7⟩
      · exact .inl e7
    · rintro ⟨e1, q, ⟨p, e2, e3, e4⟩, e5⟩
      refine ⟨⟨p, q ++ m.rest, []⟩, (Re.mem_run (r := Re.opt (.cls isPrefix)) ⟨trivial, trivial⟩ _ _ _).2
        ⟨by rw [← e1, e2, List.append_assoc], rfl, ?_⟩, ⟨q, m.rest, [(2, q)]⟩,
        mem_grp.2 ⟨⟨q, m.rest, []⟩, (Re.mem_run pure_string _ _ _).2 ⟨rfl, rfl, (lang_string _).2 e4⟩, rfl⟩, ?_⟩
      · rcases e3 with rfl | ⟨c, h, rfl⟩
        · exact .inr rfl
        · exact .inl ⟨c, rfl, h⟩
      · cases m
        simp_all
  rw [show valueRe L = .alt (Re.lit s%"True") (.alt (Re.lit s%"False") (.alt
    (Re.cat [Re.plus (.cls L.digit), .cls dot, Re.plus (.cls L.digit)]) (.alt
    (Re.cat [Re.plus (.cls L.digit), .cls dot]) (.alt (Re.plus (.cls L.digit)) (.alt (Re.plus (.cls L.word))
    (.seq (Re.opt (.cls isPrefix)) (.grp 2 stringRe))))))) from rfl]
  simp only [mem_alt]
  rw [hp _ (pure_lit _), hp _ (pure_lit _), hp (Re.cat [Re.plus (.cls L.digit), .cls dot, Re.plus (.cls L.digit)])
    ⟨⟨trivial, trivial⟩, trivial, trivial, trivial⟩, hp (Re.cat [Re.plus (.cls L.digit), .cls dot])
    ⟨⟨trivial, trivial⟩, trivial⟩, hp (Re.plus (.cls L.digit)) ⟨trivial, trivial⟩, hp (Re.plus (.cls L.word)) ⟨trivial, trivial⟩, hq,
    h3, h4, lang_lit, lang_lit, lang_plus, lang_plus]
  constructor
  · rintro (⟨h, hc, e⟩ | ⟨h, hc, e⟩ | ⟨h, hc, e⟩ | ⟨h, hc, e⟩ | ⟨h, hc, e⟩ | ⟨h, hc, e⟩ | ⟨h, q, e, hc⟩)
    · exact ⟨h, none, .inl e, hc⟩
    · exact ⟨h, none, .inr (.inl e), hc⟩
    · exact ⟨h, none, .inr (.inr (.inl e)), hc⟩
    · exact ⟨h, none, .inr (.inr (.inr (.inl e))), hc⟩
    · exact ⟨h, none, .inr (.inr (.inr (.inr (.inl e)))), hc⟩
    · exact ⟨h, none, .inr (.inr (.inr (.inr (.inr e)))), hc⟩
    · exact ⟨h, some q, e, hc⟩
  · rintro ⟨h, cap, e, hc⟩
    cases cap with
    | some q => exact .inr (.inr (.inr (.inr (.inr (.inr ⟨h, q, e, hc⟩)))))
    | none =>
      rcases e with e | e | e | e | e | e
      · exact .inl ⟨h, hc, e⟩
      · exact .inr (.inl ⟨h, hc, e⟩)
      · exact .inr (.inr (.inl ⟨h, hc, e⟩))
      · exact .inr (.inr (.inr (.inl ⟨h, hc, e⟩)))
      · exact .inr (.inr (.inr (.inr (.inl ⟨h, hc, e⟩))))
      · exact .inr (.inr (.inr (.inr (.inr (.inl ⟨h, hc, e⟩)))))

/-- The keyword of an argument with its sign. -/
def NameOf (L : ArgLib) (t : Str) : Option Str → Prop
  | none => t = []
  | some n => ∃ a b, t = n ++ (a ++ '=' :: b) ∧ (n ≠ [] ∧ ∀ x ∈ n, L.word x = true) ∧
      (∀ x ∈ a, Py.isSpace x = true) ∧ ∀ x ∈ b, Py.isSpace x = true

/-- The groups of a keyword. -/
def nameCaps : Option Str → List (Nat × Str)
  | none => []
  | some n => [(0, n)]

theorem mem_name (L : ArgLib) (prev : Option Char) (s : Str) (m : Re.M Char) :
    m ∈ Re.run (Re.opt (Re.cat [.grp 0 (Re.plus (.cls L.word)), .star true (.cls Py.isSpace), Re.lit s%"=",
      .star true (.cls Py.isSpace)])) prev s ↔
    m.txt ++ m.rest = s ∧ ∃ name, NameOf L m.txt name ∧ m.caps = nameCaps name := by
  have hp : Re.Pure (Re.cat [.star true (.cls Py.isSpace), Re.lit s%"=", .star true (.cls Py.isSpace)]) :=
    ⟨trivial, trivial, trivial⟩
  have hl : ∀ t, Re.Lang (Re.cat [.star true (.cls Py.isSpace), Re.lit s%"=", .star true (.cls Py.isSpace)]) t ↔
      ∃ a b, t = a ++ '=' :: b ∧ (∀ x ∈ a, Py.isSpace x = true) ∧ ∀ x ∈ b, Py.isSpace x = true := by
    intro t
    have : Re.Lang (Re.cat [.star true (.cls Py.isSpace), Re.lit s%"=", .star true (.cls Py.isSpace)]) t ↔
        ∃ u v, t = u ++ v ∧ Re.Lang (.star true (.cls Py.isSpace)) u ∧ ∃ x w, v = x ++ w ∧ Re.Lang (Re.lit s%"=") x ∧
          Re.Lang (.star true (.cls Py.isSpace)) w := Iff.rfl
    rw [this]
    simp only [lang_star_cls, lang_lit]
    constructor
    · rintro ⟨u, v, rfl, hu, x, w, rfl, rfl, hw⟩; exact ⟨u, w, rfl, hu, hw⟩
    · rintro ⟨u, w, rfl, hu, hw⟩; exact ⟨u, _, rfl, hu, s%"=", w, rfl, rfl, hw⟩
  rw [show Re.opt (Re.cat [.grp 0 (Re.plus (.cls L.word)), .star true (.cls Py.isSpace), Re.lit s%"=",
      .star true (.cls Py.isSpace)]) = .alt (.seq (.grp 0 (Re.plus (.cls L.word)))
        (Re.cat [.star true (.cls Py.isSpace), Re.lit s%"=", .star true (.cls Py.isSpace)])) .eps from rfl,
    mem_alt, mem_seq]
  constructor
  · rintro (⟨m1, h1, m2, h2, rfl⟩ | h)
    · obtain ⟨m3, h5, rfl⟩ := mem_grp.1 h1
      obtain ⟨e1, e2, e3⟩ := (Re.mem_run (r := Re.plus (.cls L.word)) ⟨trivial, trivial⟩ _ _ _).1 h5
      obtain ⟨e4, e5, e6⟩ := (Re.mem_run hp _ _ _).1 h2
      obtain ⟨a, b, e7, e8, e9⟩ := (hl _).1 e6
      refine ⟨by simp only [List.append_assoc, e4]; exact e1, some m3.txt, ⟨a, b, ?_, (lang_plus _ _).1 e3, e8, e9⟩, ?_⟩
      · rw [← e7]
      · simp [e2, e5, nameCaps]
    · simp only [Re.run, List.mem_singleton] at h
      subst h
      exact ⟨rfl, none, rfl, rfl⟩
  · rintro ⟨h, name, hn, hc⟩
    cases name with
    | none =>
      right
      have hn : m.txt = [] := hn
      have hc : m.caps = [] := hc
      rw [hn, List.nil_append] at h
      cases m
      simp_all [Re.run]
    | some n =>
      left
      obtain ⟨a, b, e1, e2, e3, e4⟩ := hn
      refine ⟨⟨n, (a ++ '=' :: b) ++ m.rest, [(0, n)]⟩, mem_grp.2 ⟨⟨n, (a ++ '=' :: b) ++ m.rest, []⟩,
        (Re.mem_run (r := Re.plus (.cls L.word)) ⟨trivial, trivial⟩ _ _ _).2 ⟨by simp [← h, e1], rfl,
          (lang_plus _ _).2 e2⟩, rfl⟩, ⟨a ++ '=' :: b, m.rest, []⟩,
        (Re.mem_run hp _ _ _).2 ⟨rfl, rfl, (hl _).2 ⟨a, b, rfl, e3, e4⟩⟩, ?_⟩
      cases m
      simp_all [nameCaps]

/-- The matches of the pattern for arguments. -/
theorem mem_arg (L : ArgLib) (prev : Option Char) (s : Str) (m : Re.M Char) : m ∈ Re.run (argRe L) prev s ↔
    ∃ name cap t v sp, m.txt = t ++ (v ++ (sp ++ [','])) ∧ s = t ++ (v ++ (sp ++ ',' :: m.rest)) ∧ NameOf L t name ∧
      ValueOf L v cap ∧ (∀ x ∈ sp, Py.isSpace x = true) ∧ m.caps = ((1, v) :: valueCaps cap) ++ nameCaps name := by
  have hp : Re.Pure (Re.cat [.star true (.cls Py.isSpace), Re.lit s%","]) := ⟨trivial, trivial⟩
  have hl : ∀ t, Re.Lang (Re.cat [.star true (.cls Py.isSpace), Re.lit s%","]) t ↔
      ∃ a, t = a ++ [','] ∧ ∀ x ∈ a, Py.isSpace x = true := by
    intro t
    have : Re.Lang (Re.cat [.star true (.cls Py.isSpace), Re.lit s%","]) t ↔
        ∃ u v, t = u ++ v ∧ Re.Lang (.star true (.cls Py.isSpace)) u ∧ Re.Lang (Re.lit s%",") v := Iff.rfl
    rw [this]
    simp only [lang_star_cls, lang_lit]
    constructor
    · rintro ⟨u, v, rfl, hu, rfl⟩; exact ⟨u, rfl, hu⟩
    · rintro ⟨u, rfl, hu⟩; exact ⟨u, _, rfl, hu, rfl⟩
  rw [show argRe L = .seq (Re.opt (Re.cat [.grp 0 (Re.plus (.cls L.word)), .star true (.cls Py.isSpace), Re.lit s%"=",
      .star true (.cls Py.isSpace)])) (.seq (.grp 1 (valueRe L)) (Re.cat [.star true (.cls Py.isSpace), Re.lit s%","])) from rfl,
    mem_seq]
  simp only [mem_seq]
  constructor
  · rintro ⟨m1, h1, _, ⟨m2, h2, m3, h3, rfl⟩, rfl⟩
    obtain ⟨m4, h4, rfl⟩ := mem_grp.1 h2
    obtain ⟨e1, name, e2, e3⟩ := (mem_name L _ _ _).1 h1
    obtain ⟨e4, cap, e5, e6⟩ := (mem_value L _ _ _).1 h4
    obtain ⟨e7, e8, e9⟩ := (Re.mem_run hp _ _ _).1 h3
    obtain ⟨sp, e10, e11⟩ := (hl _).1 e9
    refine ⟨name, cap, m1.txt, m4.txt, sp, by simp [e10], ?_, e2, e5, e11, by simp [e3, e6, e8]⟩
    rw [← e1, ← e4]
    have e7 : m3.txt ++ m3.rest = m4.rest := e7
    simp [← e7, e10]
  · rintro ⟨name, cap, t, v, sp, h1, h2, h3, h4, h5, h6⟩
    refine ⟨⟨t, v ++ (sp ++ ',' :: m.rest), nameCaps name⟩, (mem_name L _ _ _).2 ⟨h2.symm, name, h3, rfl⟩,
      ⟨v ++ (sp ++ [',']), m.rest, (1, v) :: valueCaps cap⟩,
      ⟨⟨v, sp ++ ',' :: m.rest, (1, v) :: valueCaps cap⟩, mem_grp.2 ⟨⟨v, sp ++ ',' :: m.rest, valueCaps cap⟩,
        (mem_value L _ _ _).2 ⟨rfl, cap, h4, rfl⟩, rfl⟩, ⟨sp ++ [','], m.rest, []⟩,
        (Re.mem_run hp _ _ _).2 ⟨by simp, rfl, (hl _).2 ⟨sp, rfl, h5⟩⟩, rfl⟩, ?_⟩
    cases m
    simp_all

/-! ### an argument is found as it is written -/

theorem cut_unique {p : Char → Bool} {a b a' b' : Str} (h : a ++ b = a' ++ b') (ha : ∀ x ∈ a, p x = true)
    (ha' : ∀ x ∈ a', p x = true) (hb : ∀ c, b.head? = some c → p c = false) (hb' : ∀ c, b'.head? = some c → p c = false) :
    a = a' ∧ b = b' := by
  induction a generalizing a' with
  | nil =>
    cases a' with
    | nil => exact ⟨rfl, h⟩
    | cons x xs =>
      have := hb x (by rw [show b = x :: xs ++ b' from h]; rfl)
      rw [ha' x (.head _)] at this
      cases this
  | cons x xs ih =>
    cases a' with
    | nil =>
      have := hb' x (by rw [show b' = x :: xs ++ b from h.symm]; rfl)
      rw [ha x (.head _)] at this
      cases this
    | cons y ys =>
      obtain ⟨rfl, h'⟩ := List.cons.inj h
      obtain ⟨e1, e2⟩ := ih h' (fun z hz => ha z (.tail _ hz)) (fun z hz => ha' z (.tail _ hz))
      exact ⟨by rw [e1], e2⟩

/-- What follows an argument: not a digit at once after a number, and not only white space before a comma. -/
def Follow (L : ArgLib) (l : Lit) (rest : Str) : Prop :=
  ((∃ n, l = .num n) → ∀ c, rest.head? = some c → L.digit c = false) ∧
    ∀ sp r, (∀ x ∈ sp, Py.isSpace x = true) → rest ≠ sp ++ ',' :: r

/-- The text of an argument in quotes. -/
def Lit.quotes : Lit → Option Str
  | .quoted q s => some (Lit.quoted q s).text
  | _ => none

variable {L : ArgLib}

theorem space_comma {sp r rest : Str} (hs : ∀ x ∈ sp, Py.isSpace x = true) (h : sp ++ ',' :: r = ',' :: rest) :
    sp = [] ∧ r = rest := by
  cases sp with
  | nil => exact ⟨rfl, (List.cons.inj h).2⟩
  | cons x xs =>
    have := (List.cons.inj h).1
    subst this
    exact absurd (hs _ (.head _)) (by decide)

theorem word_facts (hL : LibOk L) (x : Char) (h : L.word x = true) : x ≠ ',' ∧ x ≠ '=' ∧ x ≠ '"' ∧ x ≠ '\'' ∧
    Py.isSpace x = false := by
  refine ⟨?_, ?_, ?_, ?_, ?_⟩
  · rintro rfl; rw [hL.comma] at h; cases h
  · rintro rfl; rw [hL.equals] at h; cases h
  · rintro rfl; rw [hL.dquote] at h; cases h
  · rintro rfl; rw [hL.squote] at h; cases h
  · cases hx : Py.isSpace x with
    | false => rfl
    | true => rw [hL.space_word x hx] at h; cases h

theorem dig_digit (hL : LibOk L) (c : Char) (h : Py.IsDig c) : L.digit c = true := by
  unfold ArgLib.digit
  rw [dec_dig L.dec hL.decimal c h]
  rfl

/-- Words: the characters of a word or number. -/
theorem lit_word (hL : LibOk L) (l : Lit) (hl : l.Ok L) :
    (l.text ≠ [] ∧ ∀ c ∈ l.text, L.word c = true) ∨ ∃ q s, l = .quoted q s := by
  cases l with
  | word w => exact .inl ⟨hl.1, hl.2.1⟩
  | quoted q s => exact .inr ⟨q, s, rfl⟩
  | num n => exact .inl ⟨Py.natStr_ne_nil n, fun c hc => hL.digit_word c (dig_digit hL c (Py.natStr_digits n c hc))⟩

theorem true_word (w : Str) (h : w = s%"True" ∨ w = s%"False") : ∃ c cs, w = c :: cs ∧ c ≠ '"' ∧ c ≠ '\'' := by
  rcases h with rfl | rfl
  · exact ⟨_, _, rfl, by decide, by decide⟩
  · exact ⟨_, _, rfl, by decide, by decide⟩

/-- The letters of `True` and `False` are word characters. -/
structure LettersOk (L : ArgLib) : Prop where
  letters : ∀ c ∈ s%"TrueFalse", L.word c = true

theorem letters_ok (hL : LibOk L) : LettersOk L :=
  ⟨fun c hc => (hL.letters c ((by decide : ∀ c ∈ s%"TrueFalse", identHead c = true) c hc)).1⟩

theorem value_unique (hL : LibOk L) (hT : LettersOk L) (l : Lit) (hl : l.Ok L) (rest : Str) (hf : Follow L l rest)
    (v sp r : Str) (cap : Option Str) (h : v ++ (sp ++ ',' :: r) = l.text ++ ',' :: rest) (hv : ValueOf L v cap)
    (hs : ∀ x ∈ sp, Py.isSpace x = true) :
    r = rest ∧ v = l.text ∧ cap = l.quotes := by
  have hsp : ∀ c, (sp ++ ',' :: r).head? = some c → L.word c = false := by
    intro c hc
    cases sp with
    | nil => cases hc; exact hL.comma
    | cons x xs => cases hc; exact hL.space_word _ (hs _ (.head _))
  rcases lit_word hL l hl with ⟨hne, hw⟩ | ⟨q, s, rfl⟩
  · have hcap : l.quotes = none := by
      cases l with
      | word w => rfl
      | num n => rfl
      | quoted q s =>
        have := hw q (by simp [Lit.text])
        rcases hl.1 with rfl | rfl
        · rw [hL.dquote] at this; cases this
        · rw [hL.squote] at this; cases this
    rw [hcap]
    have hallword : (∀ x ∈ v, L.word x = true) → r = rest ∧ v = l.text := by
      intro hx
      obtain ⟨e1, e2⟩ := cut_unique h hx hw hsp (by intro c hc; cases hc; exact hL.comma)
      exact ⟨(space_comma hs e2).2, e1⟩
    have hdigits : ∀ a : Str, ∀ y : Str, (a ≠ [] ∧ ∀ x ∈ a, L.digit x = true) → a ++ y = l.text ++ ',' :: rest →
        (∀ c, y.head? = some c → L.word c = false) → (∃ n, l = .num n) ∧ y = ',' :: rest := by
      intro a y ha hy hyw
      obtain ⟨e1, e2⟩ := cut_unique hy (fun x hx => hL.digit_word x (ha.2 x hx)) hw hyw
        (by intro c hc; cases hc; exact hL.comma)
      refine ⟨?_, e2⟩
      cases l with
      | num n => exact ⟨n, rfl⟩
      | word w =>
        have : a = w := e1
        subst this
        exact absurd hl.2.2.1 (hL.int_digits a ha.1 ha.2)
      | quoted q s => cases hcap
    cases cap with
    | none =>
      have key : r = rest ∧ v = l.text := by
        rcases hv with e | e | ⟨a, c, b, e, ha, hc, hb⟩ | ⟨a, c, e, ha, hc⟩ | ⟨e, hd⟩ | ⟨e, hd⟩
        · exact hallword fun x hx => hT.letters x (by
            subst e; revert hx; intro hx; exact (List.mem_append_left s%"False" hx))
        · exact hallword fun x hx => hT.letters x (by
            subst e; exact (List.mem_append_right s%"True" hx))
        · by_cases hcw : L.word c = true
          · refine hallword fun x hx => ?_
            rw [e] at hx
            rcases List.mem_append.1 hx with hx | hx
            · exact hL.digit_word x (ha.2 x hx)
            · rcases List.mem_cons.1 hx with rfl | hx
              · exact hcw
              · exact hL.digit_word x (hb.2 x hx)
          · subst e
            obtain ⟨e1, e2⟩ := hdigits a (c :: b ++ (sp ++ ',' :: r)) ha (by rw [← h]; simp)
              (by intro d hd; cases hd; simpa using hcw)
            obtain ⟨e3, e4⟩ := List.cons.inj e2
            obtain ⟨hb1, hb2⟩ := hb
            cases b with
            | nil => exact absurd rfl hb1
            | cons d ds =>
              have := hf.1 e1 d (by rw [← e4]; rfl)
              rw [hb2 d (.head _)] at this
              cases this
        · by_cases hcw : L.word c = true
          · refine hallword fun x hx => ?_
            rw [e] at hx
            rcases List.mem_append.1 hx with hx | hx
            · exact hL.digit_word x (ha.2 x hx)
            · rcases List.mem_singleton.1 hx with rfl
              exact hcw
          · subst e
            obtain ⟨e1, e2⟩ := hdigits a ([c] ++ (sp ++ ',' :: r)) ha (by rw [← h]; simp)
              (by intro d hd; cases hd; simpa using hcw)
            obtain ⟨e3, e4⟩ := List.cons.inj e2
            exact absurd e4.symm (hf.2 sp r hs)
        · exact hallword fun x hx => hL.digit_word x (hd x hx)
        · exact hallword hd
      exact ⟨key.1, key.2, rfl⟩
    | some q =>
      exfalso
      obtain ⟨p, e1, e2, c, x, e3, e4, _⟩ := hv
      subst e1 e4
      obtain ⟨y, ys, hy⟩ : ∃ y ys, l.text = y :: ys := by
        cases ht : l.text with
        | nil => exact absurd ht hne
        | cons y ys => exact ⟨y, ys, rfl⟩
      rw [hy] at h hw
      have hcw : L.word c = false := by
        rcases e3 with rfl | rfl
        · exact hL.dquote
        · exact hL.squote
      rcases e2 with rfl | ⟨d, _, rfl⟩
      · have := (List.cons.inj h).1
        subst this
        rw [hw _ (.head _)] at hcw
        cases hcw
      · have h2 := (List.cons.inj h).2
        cases ys with
        | nil =>
          have := (List.cons.inj h2).1
          subst this
          rcases e3 with e3 | e3 <;> cases e3
        | cons z zs =>
          have := (List.cons.inj h2).1
          subst this
          rw [hw _ (.tail _ (.head _))] at hcw
          cases hcw
  · obtain ⟨hq, hqs⟩ := hl
    have hqw : L.word q = false := by
      rcases hq with rfl | rfl
      · exact hL.dquote
      · exact hL.squote
    have hfirst : ∀ c cs, v = c :: cs → c = q := by
      intro c cs e
      subst e
      exact (List.cons.inj h).1
    have hbad : ∀ c cs, v = c :: cs → L.word c = true → False := by
      intro c cs e hc
      rw [hfirst c cs e, hqw] at hc
      cases hc
    cases cap with
    | none =>
      exfalso
      rcases hv with e | e | ⟨a, c, b, e, ha, hc, hb⟩ | ⟨a, c, e, ha, hc⟩ | ⟨e, hd⟩ | ⟨e, hd⟩
      · exact hbad _ _ e (hT.letters _ (by decide))
      · exact hbad _ _ e (hT.letters _ (by decide))
      · obtain ⟨ha1, ha2⟩ := ha
        cases a with
        | nil => exact absurd rfl ha1
        | cons z zs => exact hbad z _ e (hL.digit_word z (ha2 z (.head _)))
      · obtain ⟨ha1, ha2⟩ := ha
        cases a with
        | nil => exact absurd rfl ha1
        | cons z zs => exact hbad z _ e (hL.digit_word z (ha2 z (.head _)))
      · cases v with
        | nil => exact absurd rfl e
        | cons z zs => exact hbad z _ rfl (hL.digit_word z (hd z (.head _)))
      · cases v with
        | nil => exact absurd rfl e
        | cons z zs => exact hbad z _ rfl (hd z (.head _))
    | some t =>
      obtain ⟨p, e1, e2, c, x, e3, e4, e5⟩ := hv
      have hp : p = [] := by
        rcases e2 with rfl | ⟨d, hd, rfl⟩
        · rfl
        · have := hfirst d t e1
          subst this
          rcases hq with rfl | rfl <;> exact absurd hd (by decide)
      subst hp e1 e4
      have hc : c = q := hfirst c _ rfl
      subst hc
      have h2 : x ++ (c :: (sp ++ ',' :: r)) = s ++ (c :: ',' :: rest) := by
        have := (List.cons.inj h).2
        simpa using this
      obtain ⟨e6, e7⟩ := cut_unique (p := (· != c)) h2 (fun y hy => by
          simp only [bne_iff_ne, ne_eq]; rintro rfl; exact e5 hy) (fun y hy => by
          simp only [bne_iff_ne, ne_eq]; rintro rfl; exact hqs hy)
        (by intro d hd; cases hd; simp) (by intro d hd; cases hd; simp)
      subst e6
      have e8 := (List.cons.inj e7).2
      exact ⟨(space_comma hs e8).2, rfl, rfl⟩

theorem value_exists (hL : LibOk L) (l : Lit) (hl : l.Ok L) :
    ValueOf L l.text l.quotes := by
  cases l with
  | word w => exact .inr (.inr (.inr (.inr (.inr ⟨hl.1, hl.2.1⟩))))
  | num n => exact .inr (.inr (.inr (.inr (.inl ⟨Py.natStr_ne_nil n, fun c hc => dig_digit hL c (Py.natStr_digits n c hc)⟩))))
  | quoted q s => exact ⟨[], rfl, .inl rfl, q, s, hl.1, rfl, hl.2⟩

/-- The first character of a value. -/
theorem text_head (hL : LibOk L) (l : Lit) (hl : l.Ok L) : ∃ c cs, l.text = c :: cs ∧ Py.isSpace c = false ∧ c ≠ ',' := by
  rcases lit_word hL l hl with ⟨hne, hw⟩ | ⟨q, s, rfl⟩
  · cases ht : l.text with
    | nil => exact absurd ht hne
    | cons c cs =>
      have := word_facts hL c (hw c (by rw [ht]; exact .head _))
      exact ⟨c, cs, rfl, this.2.2.2.2, this.1⟩
  · refine ⟨q, _, rfl, ?_⟩
    rcases hl.1 with rfl | rfl <;> exact ⟨by decide, by decide⟩

theorem arg_unique (hL : LibOk L) (hT : LettersOk L) (a : Written) (ha : a.Ok L) (rest : Str) (hf : Follow L a.lit rest)
    (prev : Option Char) (m : Re.M Char) (hm : m ∈ Re.run (argRe L) prev (a.text ++ ',' :: rest)) :
    m.rest = rest ∧ m.group 0 = a.name ∧ m.group 1 = some a.lit.text ∧
      m.group 2 = a.lit.quotes ∧ m.txt ≠ [] := by
  obtain ⟨name, cap, t, v, sp, h1, h2, h3, h4, h5, h6⟩ := (mem_arg L _ _ _).1 hm
  have hne : m.txt ≠ [] := by rw [h1]; simp
  have hsp : ∀ c, (sp ++ ',' :: m.rest).head? = some c → L.word c = false := by
    intro c hc
    cases sp with
    | nil => cases hc; exact hL.comma
    | cons x xs => cases hc; exact hL.space_word _ (h5 _ (.head _))
  have hgroups : name = a.name → v = a.lit.text → cap = a.lit.quotes →
      m.group 0 = a.name ∧ m.group 1 = some a.lit.text ∧
      m.group 2 = a.lit.quotes := by
    intro e1 e2 e3
    rw [← e1, ← e2, ← e3]
    unfold Re.M.group
    rw [h6]
    cases cap <;> cases name <;> simp [valueCaps, nameCaps, List.lookup]
  have heq : ∀ (n' : Str) (x y : Str), (n' ≠ [] ∧ ∀ c ∈ n', L.word c = true) → (∀ c ∈ x, Py.isSpace c = true) →
      ∀ (w z : Str), (∀ c ∈ w, L.word c = true) → (∀ c, z.head? = some c → L.word c = false) →
        n' ++ (x ++ '=' :: y) = w ++ z → n' = w ∧ x ++ '=' :: y = z := by
    intro n' x y hn hx w z hw hz e
    refine cut_unique e hn.2 hw ?_ hz
    intro c hc
    cases x with
    | nil => cases hc; exact hL.equals
    | cons d ds => cases hc; exact hL.space_word _ (hx _ (.head _))
  cases hn : a.name with
  | none =>
    have ht : a.text = a.lit.text := by simp [Written.text, hn]
    rw [ht] at h2
    have hname : name = none := by
      cases name with
      | none => rfl
      | some n' =>
        exfalso
        obtain ⟨x, y, e1, e2, e3, e4⟩ := h3
        subst e1
        rcases lit_word hL a.lit ha.1 with ⟨hne, hw⟩ | ⟨q, s, hq⟩
        · obtain ⟨_, e5⟩ := heq n' x (y ++ (v ++ (sp ++ ',' :: m.rest))) e2 e3 a.lit.text (',' :: rest) hw
            (by intro c hc; cases hc; exact hL.comma) (by rw [h2]; simp)
          cases x with
          | nil => exact absurd (List.cons.inj e5).1 (by decide)
          | cons d ds =>
            have := (List.cons.inj e5).1
            subst this
            exact absurd (e3 _ (.head _)) (by decide)
        · have hl := ha.1
          rw [hq] at h2 hl
          obtain ⟨e21, e22⟩ := e2
          cases n' with
          | nil => exact absurd rfl e21
          | cons d ds =>
            have := (List.cons.inj h2).1
            have hd := e22 d (.head _)
            rw [← this] at hd
            rcases hl.1 with rfl | rfl
            · rw [hL.dquote] at hd; cases hd
            · rw [hL.squote] at hd; cases hd
    subst hname
    have h3 : t = [] := h3
    subst h3
    obtain ⟨e1, e2, e3⟩ := value_unique hL hT a.lit ha.1 rest hf v sp m.rest cap h2.symm h4 h5
    obtain ⟨g1, g2, g3⟩ := hgroups hn.symm e2 e3
    exact ⟨e1, g1.trans hn, g2, g3, hne⟩
  | some n =>
    obtain ⟨n1, n2, n3⟩ := ha.2.2 n hn
    have ht : a.text = n ++ '=' :: a.lit.text := by simp [Written.text, hn]
    rw [ht] at h2
    cases name with
    | some n' =>
      obtain ⟨x, y, e1, e2, e3, e4⟩ := h3
      subst e1
      obtain ⟨e5, e6⟩ := heq n' x (y ++ (v ++ (sp ++ ',' :: m.rest))) e2 e3 n ('=' :: (a.lit.text ++ ',' :: rest)) n2
        (by intro c hc; cases hc; exact hL.equals) (by
          rw [show n ++ ('=' :: (a.lit.text ++ ',' :: rest)) = n ++ '=' :: a.lit.text ++ ',' :: rest by simp, h2]; simp)
      subst e5
      have hx : x = [] := by
        cases x with
        | nil => rfl
        | cons d ds =>
          have := (List.cons.inj e6).1
          subst this
          exact absurd (e3 _ (.head _)) (by decide)
      subst hx
      have e7 := (List.cons.inj e6).2
      have hy : y = [] := by
        cases y with
        | nil => rfl
        | cons d ds =>
          obtain ⟨c, cs, e8, e9, _⟩ := text_head hL a.lit ha.1
          rw [e8] at e7
          have := (List.cons.inj e7).1
          subst this
          rw [e4 d (.head _)] at e9
          cases e9
      subst hy
      obtain ⟨e8, e9, e10⟩ := value_unique hL hT a.lit ha.1 rest hf v sp m.rest cap e7 h4 h5
      obtain ⟨g1, g2, g3⟩ := hgroups hn.symm e9 e10
      exact ⟨e8, g1.trans hn, g2, g3, hne⟩
    | none =>
      exfalso
      have h3 : t = [] := h3
      subst h3
      have h2 : v ++ (sp ++ ',' :: m.rest) = n ++ '=' :: (a.lit.text ++ ',' :: rest) := by
        have := h2.symm
        simpa using this
      have hallword : (∀ x ∈ v, L.word x = true) → False := by
        intro hx
        obtain ⟨_, e2⟩ := cut_unique h2 hx n2 hsp (by intro c hc; cases hc; exact hL.equals)
        cases sp with
        | nil => exact absurd (List.cons.inj e2).1 (by decide)
        | cons d ds =>
          have := (List.cons.inj e2).1
          subst this
          exact absurd (h5 _ (.head _)) (by decide)
      obtain ⟨y, ys, hy⟩ : ∃ y ys, n = y :: ys := by
        cases n with
        | nil => exact absurd rfl n1
        | cons y ys => exact ⟨y, ys, rfl⟩
      subst hy
      have hfirst : ∀ c cs, v = c :: cs → c = y := by
        rintro c cs rfl
        exact (List.cons.inj h2).1
      have hdigit : ∀ c cs, v = c :: cs → L.digit c = true → False := by
        intro c cs e hc
        rw [hfirst c cs e, n3 y rfl] at hc
        cases hc
      cases cap with
      | none =>
        rcases h4 with e | e | ⟨b, c, d, e, hb, hc, hd⟩ | ⟨b, c, e, hb, hc⟩ | ⟨e, hd⟩ | ⟨e, hd⟩
        · exact hallword fun x hx => hT.letters x (by subst e; exact (List.mem_append_left s%"False" hx))
        · exact hallword fun x hx => hT.letters x (by subst e; exact (List.mem_append_right s%"True" hx))
        · obtain ⟨hb1, hb2⟩ := hb
          cases b with
          | nil => exact absurd rfl hb1
          | cons z zs => exact hdigit z _ e (hb2 z (.head _))
        · obtain ⟨hb1, hb2⟩ := hb
          cases b with
          | nil => exact absurd rfl hb1
          | cons z zs => exact hdigit z _ e (hb2 z (.head _))
        · exact hallword fun x hx => hL.digit_word x (hd x hx)
        · exact hallword hd
      | some q =>
        obtain ⟨p, e1, e2, c, x, e3, e4, _⟩ := h4
        subst e1 e4
        have hcw : L.word c = false := by
          rcases e3 with rfl | rfl
          · exact hL.dquote
          · exact hL.squote
        rcases e2 with rfl | ⟨d, _, rfl⟩
        · have := (List.cons.inj h2).1
          subst this
          rw [n2 _ (.head _)] at hcw
          cases hcw
        · have h7 := (List.cons.inj h2).2
          cases ys with
          | nil =>
            have := (List.cons.inj h7).1
            subst this
            rcases e3 with e3 | e3 <;> cases e3
          | cons z zs =>
            have := (List.cons.inj h7).1
            subst this
            rw [n2 _ (.tail _ (.head _))] at hcw
            cases hcw

theorem arg_found (hL : LibOk L) (hT : LettersOk L) (a : Written) (ha : a.Ok L) (rest : Str) (hf : Follow L a.lit rest)
    (prev : Option Char) : ∃ m, Re.first (argRe L) prev (a.text ++ ',' :: rest) = some m ∧
      m.rest = rest ∧ m.group 0 = a.name ∧ m.group 1 = some a.lit.text ∧
      m.group 2 = a.lit.quotes ∧ m.txt ≠ [] := by
  have hex : ∃ m, m ∈ Re.run (argRe L) prev (a.text ++ ',' :: rest) := by
    cases hn : a.name with
    | none =>
      exact ⟨⟨a.lit.text ++ [','], rest, _⟩, (mem_arg L _ _ _).2 ⟨none, _, [], a.lit.text, [], rfl, by simp [Written.text, hn],
        rfl, value_exists hL a.lit ha.1, by simp, rfl⟩⟩
    | some n =>
      obtain ⟨n1, n2, n3⟩ := ha.2.2 n hn
      exact ⟨⟨(n ++ s%"=") ++ (a.lit.text ++ [',']), rest, _⟩, (mem_arg L _ _ _).2 ⟨some n, _, n ++ s%"=", a.lit.text, [], rfl,
        by simp [Written.text, hn], ⟨[], [], rfl, ⟨n1, n2⟩, by simp, by simp⟩, value_exists hL a.lit ha.1, by simp, rfl⟩⟩
  obtain ⟨m0, h0⟩ := hex
  unfold Re.first
  cases hr : Re.run (argRe L) prev (a.text ++ ',' :: rest) with
  | nil => rw [hr] at h0; cases h0
  | cons m ms =>
    exact ⟨m, rfl, arg_unique hL hT a ha rest hf prev m (by rw [hr]; exact .head _)⟩

/-- No argument begins with white space. -/
theorem arg_space (hL : LibOk L) (hT : LettersOk L) (c : Char) (cs : Str) (hc : Py.isSpace c = true) (prev : Option Char) :
    Re.first (argRe L) prev (c :: cs) = none := by
  unfold Re.first
  cases hr : Re.run (argRe L) prev (c :: cs) with
  | nil => rfl
  | cons m ms =>
    exfalso
    obtain ⟨name, cap, t, v, sp, h1, h2, h3, h4, h5, h6⟩ := (mem_arg L _ _ _).1 (hr ▸ (.head ms : m ∈ m :: ms))
    have hw := hL.space_word c hc
    have hbad : ∀ d ds, v = d :: ds → t = [] → L.word d = true → False := by
      rintro d ds rfl rfl hd
      have := (List.cons.inj h2).1
      subst this
      rw [hw] at hd
      cases hd
    cases name with
    | some n =>
      obtain ⟨x, y, e1, ⟨e2, e3⟩, _⟩ := h3
      subst e1
      cases n with
      | nil => exact e2 rfl
      | cons d ds =>
        have := (List.cons.inj h2).1
        subst this
        rw [e3 _ (.head _)] at hw
        cases hw
    | none =>
      have h3 : t = [] := h3
      cases cap with
      | none =>
        rcases h4 with e | e | ⟨b, c, d, e, ⟨hb1, hb2⟩, _⟩ | ⟨b, c, e, ⟨hb1, hb2⟩, _⟩ | ⟨e, hd⟩ | ⟨e, hd⟩
        · exact hbad _ _ e h3 (hT.letters _ (by decide))
        · exact hbad _ _ e h3 (hT.letters _ (by decide))
        · cases b with
          | nil => exact absurd rfl hb1
          | cons z zs => exact hbad z _ e h3 (hL.digit_word z (hb2 z (.head _)))
        · cases b with
          | nil => exact absurd rfl hb1
          | cons z zs => exact hbad z _ e h3 (hL.digit_word z (hb2 z (.head _)))
        · cases v with
          | nil => exact absurd rfl e
          | cons z zs => exact hbad z _ rfl h3 (hL.digit_word z (hd z (.head _)))
        · cases v with
          | nil => exact absurd rfl e
          | cons z zs => exact hbad z _ rfl h3 (hd z (.head _))
      | some q =>
        obtain ⟨p, e1, e2, d, x, e3, e4, _⟩ := h4
        subst e1 e4 h3
        rcases e2 with rfl | ⟨d', hd', rfl⟩
        · have := (List.cons.inj h2).1
          subst this
          rcases e3 with rfl | rfl <;> exact absurd hc (by decide)
        · have := (List.cons.inj h2).1
          subst this
          simp only [isPrefix, Bool.or_eq_true, beq_iff_eq] at hd'
          rcases hd' with ((rfl | rfl) | rfl) | rfl <;> exact absurd hc (by decide)

/-! ### C110 -/

theorem value_found (hL : LibOk L) (l : Lit) (hl : l.Ok L) :
    pythonize L (match l.quotes with | some s => s | none => l.text) = l.value := by
  cases l with
  | word w =>
    obtain ⟨h1, h2, h3, h4⟩ := hl
    show pythonize L w = _
    unfold pythonize Lit.value
    rw [h3, h4]
    dsimp only
    split
    · rfl
    · split
      · rfl
      · split
        · rfl
        · apply if_neg
          rintro ⟨_, h | h⟩
          · cases w with
            | nil => cases h
            | cons c cs => cases h; exact (word_facts hL _ (h2 _ (.head _))).2.2.1 rfl
          · cases w with
            | nil => cases h
            | cons c cs => cases h; exact (word_facts hL _ (h2 _ (.head _))).2.2.2.1 rfl
  | num n =>
    have h : ∀ c cs, Py.natStr n = c :: cs → Py.IsDig c := fun c cs e => Py.natStr_digits n c (by rw [e]; exact .head _)
    have e1 : Py.natStr n ≠ s%"None" := fun e => by have := h _ _ e; revert this; unfold Py.IsDig; decide
    have e2 : Py.natStr n ≠ s%"True" := fun e => by have := h _ _ e; revert this; unfold Py.IsDig; decide
    have e3 : Py.natStr n ≠ s%"False" := fun e => by have := h _ _ e; revert this; unfold Py.IsDig; decide
    show pythonize L (Py.natStr n) = _
    unfold pythonize Lit.value
    rw [if_neg e1, if_neg e2, if_neg e3, hL.int_nat]
  | quoted q s =>
    obtain ⟨hq, hs⟩ := hl
    have hi : L.int (q :: (s ++ [q])) = none := by
      rcases hq with rfl | rfl
      · exact hL.int_dquote _
      · exact hL.int_squote _
    have hf : L.floats.canon (q :: (s ++ [q])) = none := by
      rcases hq with rfl | rfl
      · exact hL.float_dquote _
      · exact hL.float_squote _
    have hne : ∀ c cs, c ≠ '"' → c ≠ '\'' → q :: (s ++ [q]) ≠ c :: cs := by
      intro c cs h1 h2 e
      have := (List.cons.inj e).1
      subst this
      rcases hq with rfl | rfl
      · exact h1 rfl
      · exact h2 rfl
    show pythonize L (q :: (s ++ [q])) = _
    unfold pythonize Lit.value
    rw [if_neg (hne _ _ (by decide) (by decide)), if_neg (hne _ _ (by decide) (by decide)),
      if_neg (hne _ _ (by decide) (by decide)), hi, hf]
    dsimp only
    rw [if_pos]
    · simp
    · refine ⟨?_, ?_⟩
      · rw [show q :: (s ++ [q]) = (q :: s) ++ [q] from rfl, List.getLast?_concat]
        rfl
      · rcases hq with rfl | rfl
        · exact .inl rfl
        · exact .inr rfl

/-- One argument added to those read before. -/
def add (acc : List Arg × List (Str × Arg)) (a : Written) : List Arg × List (Str × Arg) :=
  match a.name with
  | none => (acc.1 ++ [a.lit.value], acc.2)
  | some n => (acc.1, Dict.set acc.2 n a.lit.value)

theorem skip_spaces (hL : LibOk L) (hT : LettersOk L) (gap : Str) (hg : ∀ c ∈ gap, Py.isSpace c = true) : ∀ (n : Nat)
    (prev : Option Char) (s : Str), (gap ++ s).length < n → ∃ n' prev', s.length < n' ∧
      Options.findIter (argRe L) n prev (gap ++ s) = Options.findIter (argRe L) n' prev' s := by
  induction gap with
  | nil => intro n prev s h; exact ⟨n, prev, h, rfl⟩
  | cons c cs ih =>
    intro n prev s h
    cases n with
    | zero => exact absurd h (by omega)
    | succ n =>
      have h1 := arg_space hL hT c (cs ++ s) (hg c (.head _)) prev
      obtain ⟨n', p', e1, e2⟩ := ih (fun x hx => hg x (.tail _ hx)) n (some c) s (by simpa using h)
      refine ⟨n', p', e1, ?_⟩
      rw [← e2]
      rw [show (c :: cs ++ s) = c :: (cs ++ s) from rfl]
      simp only [Options.findIter, h1]

theorem text_cons (hL : LibOk L) (a : Written) (ha : a.Ok L) : ∃ c cs, a.text = c :: cs ∧ Py.isSpace c = false ∧ c ≠ ',' := by
  unfold Written.text
  cases hn : a.name with
  | none => exact text_head hL a.lit ha.1
  | some n =>
    obtain ⟨n1, n2, _⟩ := ha.2.2 n hn
    cases n with
    | nil => exact absurd rfl n1
    | cons c cs =>
      have := word_facts hL c (n2 c (.head _))
      exact ⟨c, _, rfl, this.2.2.2.2, this.1⟩

theorem render_cons (l : List Written) (b : Written) : ∃ t, render (b :: l) = b.text ++ t := by
  cases l with
  | nil => exact ⟨[], (List.append_nil _).symm⟩
  | cons c l => exact ⟨s%"," ++ b.gap ++ render (c :: l), by simp only [render, List.append_assoc]⟩

theorem step_found (hL : LibOk L) (a : Written) (ha : a.Ok L) (m : Re.M Char) (h0 : m.group 0 = a.name)
    (h1 : m.group 1 = some a.lit.text) (h2 : m.group 2 = a.lit.quotes) (acc : List Arg × List (Str × Arg)) :
    argStep L acc m = add acc a := by
  have hv : argValue L m = a.lit.value := by
    unfold argValue
    rw [h1, h2]
    exact value_found hL a.lit ha.1
  unfold argStep add
  rw [h0, hv]
  cases hn : a.name with
  | none => rfl
  | some n =>
    cases n with
    | nil => exact absurd rfl (ha.2.2 _ hn).1
    | cons c cs => rfl

theorem find_args (hL : LibOk L) (hT : LettersOk L) (l : List Written) : (∀ a ∈ l, a.Ok L) → Apart L l →
    ∀ (n : Nat) (prev : Option Char) (acc : List Arg × List (Str × Arg)), l ≠ [] →
      (render l ++ s%",").length < n →
      (Options.findIter (argRe L) n prev (render l ++ s%",")).foldl (argStep L) acc = l.foldl add acc := by
  have hnil : ∀ n prev, Options.findIter (argRe L) n prev [] = [] := by
    intro n prev
    cases n with
    | zero => rfl
    | succ n =>
      have : Re.first (argRe L) prev [] = none := by
        unfold Re.first
        cases hr : Re.run (argRe L) prev [] with
        | nil => rfl
        | cons m ms =>
          obtain ⟨name, cap, t, v, sp, h1, h2, _⟩ := (mem_arg L _ _ _).1 (hr ▸ (.head ms : m ∈ m :: ms))
          simp at h2
      simp only [Options.findIter, this]
  induction l with
  | nil => intro _ _ _ _ _ h; exact absurd rfl h
  | cons a l ih =>
    intro hok hap n prev acc _ hlen
    have ha := hok a (.head _)
    cases n with
    | zero => exact absurd hlen (by omega)
    | succ n =>
      cases l with
      | nil =>
        obtain ⟨m, h1, h2, h3, h4, h5, _⟩ := arg_found hL hT a ha [] ⟨fun _ c hc => (by cases hc), fun sp r _ h => (by simp at h)⟩ prev
        have h1 : Re.first (argRe L) prev (render [a] ++ s%",") = some m := h1
        simp only [Options.findIter, h1, h2, hnil, List.foldl_cons, List.foldl_nil]
        exact step_found hL a ha m h3 h4 h5 acc
      | cons b l =>
        have hb := hok b (.tail _ (.head _))
        obtain ⟨c, cs, hc, hcs, hcc⟩ := text_cons hL b hb
        obtain ⟨t, ht⟩ := render_cons l b
        have e : render (a :: b :: l) ++ s%"," = a.text ++ ',' :: (a.gap ++ (render (b :: l) ++ s%",")) := by
          simp [render]
        have hr : render (b :: l) ++ s%"," = c :: (cs ++ t ++ s%",") := by rw [ht, hc]; simp
        have hf : Follow L a.lit (a.gap ++ (render (b :: l) ++ s%",")) := by
          constructor
          · intro hnum d hd
            by_cases hg : a.gap = []
            · rcases hap.1 hnum with h | h
              · exact absurd hg h
              · rw [hg, List.nil_append, hr] at hd
                cases hd
                exact h c (by rw [hc]; rfl)
            · cases hgap : a.gap with
              | nil => exact absurd hgap hg
              | cons x xs =>
                rw [hgap] at hd
                obtain rfl : x = d := by simpa using hd
                have hx := ha.2.1 x (by rw [hgap]; exact .head _)
                cases hdig : L.digit x with
                | false => rfl
                | true =>
                  have := hL.digit_word x hdig
                  rw [hL.space_word x hx] at this
                  cases this
          · intro sp r hsp heq
            rw [hr] at heq
            obtain ⟨_, e2⟩ := cut_unique (p := Py.isSpace) heq ha.2.1 hsp (by intro d hd; cases hd; exact hcs)
              (by intro d hd; cases hd; decide)
            exact hcc (List.cons.inj e2).1
        obtain ⟨m, h1, h2, h3, h4, h5, h6⟩ := arg_found hL hT a ha _ hf prev
        rw [e] at hlen ⊢
        simp only [Options.findIter, h1, h2, List.foldl_cons]
        obtain ⟨n', p', e1, e2⟩ := skip_spaces hL hT a.gap ha.2.1 n (Re.after prev m.txt) (render (b :: l) ++ s%",") (by
          have := text_cons hL a ha
          obtain ⟨x, xs, hx, _⟩ := this
          rw [hx] at hlen
          simp at hlen ⊢
          omega)
        rw [e2, ih (fun x hx => hok x (.tail _ hx)) hap.2 n' p' _ (by simp) e1,
          step_found hL a ha m h3 h4 h5 acc]
        rfl

theorem add_all (l : List Written) : ∀ acc : List Arg × List (Str × Arg),
    ((acc.2 ++ keywords l).map (·.1)).Nodup → l.foldl add acc = (acc.1 ++ positional l, acc.2 ++ keywords l) := by
  induction l with
  | nil => intro acc _; simp [positional, keywords]
  | cons a l ih =>
    intro acc hnd
    rw [List.foldl_cons]
    cases hn : a.name with
    | none =>
      have e1 : positional (a :: l) = a.lit.value :: positional l := by simp [positional, hn]
      have e2 : keywords (a :: l) = keywords l := by simp [keywords, hn]
      rw [e2] at hnd ⊢
      rw [e1, show add acc a = (acc.1 ++ [a.lit.value], acc.2) by simp [add, hn], ih (acc.1 ++ [a.lit.value], acc.2) hnd]
      simp
    | some n =>
      have e1 : positional (a :: l) = positional l := by simp [positional, hn]
      have e2 : keywords (a :: l) = (n, a.lit.value) :: keywords l := by simp [keywords, hn]
      rw [e2] at hnd
      have hset : Dict.set acc.2 n a.lit.value = acc.2 ++ [(n, a.lit.value)] := by
        have hmem : n ∉ acc.2.map (·.1) := by
          intro h
          rw [List.map_append, List.nodup_append] at hnd
          exact hnd.2.2 n h n (by simp) rfl
        clear hnd e2 e1
        generalize acc.2 = d at hmem
        induction d with
        | nil => rfl
        | cons kv d ih2 =>
          obtain ⟨k, v⟩ := kv
          simp only [List.map_cons, List.mem_cons, not_or] at hmem
          simp only [Dict.set]
          rw [if_neg (fun h => hmem.1 h.symm), ih2 hmem.2]
          rfl
      rw [e1, e2, show add acc a = (acc.1, Dict.set acc.2 n a.lit.value) by simp [add, hn], hset,
        ih (acc.1, acc.2 ++ [(n, a.lit.value)]) (by simpa using hnd)]
      simp

/-- **C110** (arguments): the arguments of a converter are read as they are written, those without keywords in
their order, those with keywords by their names. -/
theorem C110_args (hL : LibOk L) (l : List Written) (hok : ∀ a ∈ l, a.Ok L) (hap : Apart L l)
    (hnd : ((keywords l).map (·.1)).Nodup) : parseConverterArgs L (render l) = (positional l, keywords l) := by
  have hT := letters_ok hL
  unfold parseConverterArgs
  cases l with
  | nil =>
    have : Re.first (argRe L) none s%"," = none := by
      unfold Re.first
      cases hr : Re.run (argRe L) none s%"," with
      | nil => rfl
      | cons m ms =>
        exfalso
        obtain ⟨name, cap, t, v, sp, h1, h2, h3, h4, h5, h6⟩ := (mem_arg L _ _ _).1 (hr ▸ (.head ms : m ∈ m :: ms))
        have hv : v ≠ [] := by
          rintro rfl
          cases cap with
          | none => rcases h4 with e | e | ⟨a, c, b, e, _⟩ | ⟨a, c, e, _⟩ | ⟨e, _⟩ | ⟨e, _⟩ <;> simp at e
          | some q => obtain ⟨p, e1, _, c, x, _, e4, _⟩ := h4; subst e4; simp at e1
        have := congrArg List.length h2
        have hvl : v.length ≠ 0 := fun h => hv (List.length_eq_zero_iff.1 h)
        simp at this
        omega
    have h2 : Re.first (argRe L) (some ',') [] = none := by
      unfold Re.first
      cases hr : Re.run (argRe L) (some ',') [] with
      | nil => rfl
      | cons m ms =>
        obtain ⟨name, cap, t, v, sp, h1, h2, _⟩ := (mem_arg L _ _ _).1 (hr ▸ (.head ms : m ∈ m :: ms))
        simp at h2
    simp [render, Options.findIter, this, h2, positional, keywords]
  | cons a l =>
    rw [find_args hL hT (a :: l) hok hap _ none ([], []) (by simp) (by omega), add_all _ _ (by simpa using hnd)]
    simp

/-- Numbers with keywords, `a=1, b=2`. -/
def numbers (ns : List (Str × Nat)) : List Written := ns.map fun kn => { name := some kn.1, lit := .num kn.2, gap := s%" " }

/-- Arguments without keywords, `a, b`. -/
def plain (items : List Lit) : List Written := items.map fun i => { lit := i, gap := s%" " }

theorem apart_gap (l : List Written) (h : ∀ a ∈ l, a.gap ≠ []) : Apart L l := by
  induction l with
  | nil => trivial
  | cons a l ih =>
    cases l with
    | nil => trivial
    | cons b l => exact ⟨fun _ => .inl (h a (.head _)), ih fun x hx => h x (.tail _ hx)⟩

theorem keywords_numbers (ns : List (Str × Nat)) : keywords (numbers ns) = ns.map fun kn => (kn.1, Arg.int kn.2) := by
  induction ns with
  | nil => rfl
  | cons kn ns ih =>
    rw [List.map_cons, ← ih]
    rfl

theorem positional_numbers (ns : List (Str × Nat)) : positional (numbers ns) = [] := by
  simp [positional, numbers, List.filterMap_eq_nil_iff]

theorem get_numbers (ns : List (Str × Nat)) (k : Str) :
    Dict.get (ns.map fun kn => (kn.1, Arg.int kn.2)) k = (Dict.get ns k).map fun n => Arg.int n := by
  induction ns with
  | nil => rfl
  | cons kn ns ih =>
    obtain ⟨a, n⟩ := kn
    simp only [List.map_cons, Dict.get]
    split
    · rfl
    · exact ih

/-- Keywords of numbers: names of the kind that parameters have. -/
theorem parse_numbers (hL : LibOk L) (ns : List (Str × Nat)) (hk : ∀ kn ∈ ns, kn.1 ≠ [] ∧ ∀ c ∈ kn.1, identHead c = true)
    (hnd : (ns.map (·.1)).Nodup) :
    parseConverterArgs L (render (numbers ns)) = ([], ns.map fun kn => (kn.1, Arg.int kn.2)) := by
  rw [C110_args hL (numbers ns), positional_numbers, keywords_numbers]
  · intro a ha
    obtain ⟨kn, hkn, rfl⟩ := List.mem_map.1 ha
    refine ⟨trivial, by intro c hc; rw [List.mem_singleton.1 hc]; decide, ?_⟩
    intro n hn
    cases hn
    obtain ⟨h1, h2⟩ := hk kn hkn
    refine ⟨h1, fun c hc => (hL.letters c (h2 c hc)).1, fun c hc => (hL.letters c (h2 c ?_)).2⟩
    exact List.mem_of_mem_head? hc
  · exact apart_gap _ (by intro a ha; obtain ⟨kn, _, rfl⟩ := List.mem_map.1 ha; simp)
  · rw [keywords_numbers, List.map_map]
    exact hnd

theorem bind_numbers (ps : List Str) (ns : List (Str × Nat)) (hk : ∀ kn ∈ ns, kn.1 ∈ ps) :
    bindArgs ps [] (ns.map fun kn => (kn.1, Arg.int kn.2)) = .ok (ns.map fun kn => (kn.1, Arg.int kn.2)) := by
  unfold bindArgs
  rw [if_neg (by simp), if_neg]
  · simp
  · simp only [List.length_nil, List.drop_zero, List.any_map, List.any_eq_true, Function.comp_apply, Bool.not_eq_true',
      List.contains_eq_mem, decide_eq_false_iff_not, not_exists, not_and, Classical.not_not]
    intro kn hkn
    exact hk kn hkn

theorem param_numbers (ns : List (Str × Nat)) (k : Str) (d : Arg) :
    param (ns.map fun kn => (kn.1, Arg.int kn.2)) k d = match Dict.get ns k with | some n => .int n | none => d := by
  unfold param
  rw [get_numbers]
  cases Dict.get ns k <;> rfl

/-- **C110** (`int`): `int(fixed_digits=..., min=..., max=...)`, any of them in any order, is the converter of
integers with that many digits and these bounds. -/
theorem C110_int (hL : LibOk L) (ns : List (Str × Nat)) (hk : ∀ kn ∈ ns, kn.1 ∈ [s%"fixed_digits", s%"min", s%"max"])
    (hnd : (ns.map (·.1)).Nodup) :
    defaultConv L s%"int" (some (render (numbers ns))) = .ok (Kind.conv L.dec (.int ((Dict.get ns s%"fixed_digits").getD 0)
      ((Dict.get ns s%"min").map Int.ofNat) ((Dict.get ns s%"max").map Int.ofNat))) := by
  have hp := parse_numbers hL ns (fun kn h => by
    have := hk kn h
    simp only [List.mem_cons, List.not_mem_nil, or_false] at this
    rcases this with e | e | e <;> rw [e] <;> exact ⟨by decide, by decide⟩) hnd
  simp only [defaultConv, hp]
  show newInt L [] _ = _
  unfold newInt
  rw [bind_numbers _ ns hk]
  dsimp only
  rw [param_numbers, param_numbers, param_numbers]
  cases h1 : Dict.get ns s%"fixed_digits" <;> cases h2 : Dict.get ns s%"min" <;> cases h3 : Dict.get ns s%"max" <;> rfl

theorem newString_numbers (ns : List (Str × Nat)) (hk : ∀ kn ∈ ns, kn.1 ∈ [s%"minlength", s%"maxlength", s%"length"]) :
    newString L [] (ns.map fun kn => (kn.1, Arg.int kn.2)) =
      (stringPattern L (.int ((Dict.get ns s%"minlength").getD 1 : Nat))
        (match Dict.get ns s%"maxlength" with | some n => .int n | none => .none)
        (match Dict.get ns s%"length" with | some n => .int n | none => .none)).map fun re =>
          { stringConv 0 none with re := re } := by
  unfold newString
  rw [bind_numbers _ ns hk]
  dsimp only
  rw [param_numbers, param_numbers, param_numbers]
  have : (match Dict.get ns s%"minlength" with | some n => Arg.int n | none => .int 1) =
      .int ((Dict.get ns s%"minlength").getD 1 : Nat) := by
    cases Dict.get ns s%"minlength" <;> rfl
  rw [this]
  cases stringPattern L _ _ _ <;> rfl

theorem countRe_nat (lo : Nat) (hi : Option Nat) (h : ∀ k, hi = some k → lo ≤ k) (txt : Str) :
    countRe lo (hi.map Int.ofNat) txt = .ok (rep (.cls noSlash) lo hi) := by
  unfold countRe
  cases hi with
  | none => rw [if_neg (by simp), if_neg (by simp)]; rfl
  | some k =>
    have := h k rfl
    rw [if_neg (by simp), if_neg (by simp; omega)]
    rfl

/-- **C110** (`string`): `string(minlength=..., maxlength=...)`, either or both in either order, is the converter of
texts of these lengths. -/
theorem C110_string (hL : LibOk L) (name : Str) (hname : name = s%"string" ∨ name = s%"default") (ns : List (Str × Nat))
    (hk : ∀ kn ∈ ns, kn.1 ∈ [s%"minlength", s%"maxlength"]) (hnd : (ns.map (·.1)).Nodup)
    (hle : ∀ m, Dict.get ns s%"maxlength" = some m → (Dict.get ns s%"minlength").getD 1 ≤ m) :
    defaultConv L name (some (render (numbers ns))) =
      .ok (Kind.conv L.dec (.string ((Dict.get ns s%"minlength").getD 1) (Dict.get ns s%"maxlength"))) := by
  have hp := parse_numbers hL ns (fun kn h => by
    have := hk kn h
    simp only [List.mem_cons, List.not_mem_nil, or_false] at this
    rcases this with e | e <;> rw [e] <;> exact ⟨by decide, by decide⟩) hnd
  have hlen : Dict.get ns s%"length" = none := by
    rw [Dict.get_eq_none]
    intro h
    obtain ⟨kn, h1, h2⟩ := List.mem_map.1 h
    have := hk kn h1
    rw [h2] at this
    exact absurd this (by decide)
  simp only [defaultConv, hp]
  have hg : getConverter L name [] (ns.map fun kn => (kn.1, Arg.int kn.2)) =
      newString L [] (ns.map fun kn => (kn.1, Arg.int kn.2)) := by
    rcases hname with rfl | rfl <;> rfl
  rw [hg, newString_numbers ns (fun kn h => by
    have := hk kn h
    simp only [List.mem_cons, List.not_mem_nil, or_false] at this ⊢
    rcases this with e | e
    · exact .inl e
    · exact .inr (.inl e)), hlen]
  unfold stringPattern
  rw [if_neg (by simp)]
  cases hm : Dict.get ns s%"maxlength" with
  | none =>
    dsimp only
    rw [if_pos rfl]
    simp only [intArg]
    rw [show (none : Option Int) = (none : Option Nat).map Int.ofNat from rfl, countRe_nat _ none (by simp)]
    rfl
  | some m =>
    dsimp only
    rw [if_neg (by simp)]
    simp only [intArg]
    rw [show (some (m : Int)) = (some m : Option Nat).map Int.ofNat from rfl, countRe_nat _ (some m)
      (fun k hk => by cases hk; exact hle m hm)]
    rfl

/-- **C110** (`string` of one length): `string(length=n)` is the converter of texts of length `n`. -/
theorem C110_length (hL : LibOk L) (name : Str) (hname : name = s%"string" ∨ name = s%"default") (n : Nat) :
    defaultConv L name (some (s%"length=" ++ Py.natStr n)) = .ok (Kind.conv L.dec (.string n (some n))) := by
  have hp := parse_numbers hL [(s%"length", n)] (fun kn h => by
    rw [List.mem_singleton.1 h]
    exact ⟨(by decide : s%"length" ≠ []), (by decide : ∀ c ∈ s%"length", identHead c = true)⟩) (by simp)
  have hr : render (numbers [(s%"length", n)]) = s%"length=" ++ Py.natStr n := by
    simp [render, numbers, Written.text, Lit.text]
  rw [hr] at hp
  simp only [defaultConv, hp]
  have hg : getConverter L name [] ([(s%"length", n)].map fun kn => (kn.1, Arg.int kn.2)) =
      newString L [] ([(s%"length", n)].map fun kn => (kn.1, Arg.int kn.2)) := by
    rcases hname with rfl | rfl <;> rfl
  rw [hg, newString_numbers _ (by intro kn h; rw [List.mem_singleton.1 h]; simp)]
  have e1 : Dict.get [(s%"length", n)] s%"minlength" = none := by simp [Dict.get]
  have e2 : Dict.get [(s%"length", n)] s%"maxlength" = none := by simp [Dict.get]
  have e3 : Dict.get [(s%"length", n)] s%"length" = some n := by simp [Dict.get]
  rw [e1, e2, e3]
  unfold stringPattern
  rw [if_pos (by simp)]
  simp only [intArg]
  rw [show (some (n : Int)) = (some n : Option Nat).map Int.ofNat from rfl, countRe_nat n (some n) (fun k hk => by cases hk; omega)]
  rfl

theorem positional_plain (items : List Lit) : positional (plain items) = items.map Lit.value := by
  induction items with
  | nil => rfl
  | cons i items ih =>
    simp only [positional, plain, List.map_cons] at ih ⊢
    simp [ih]

theorem keywords_plain (items : List Lit) : keywords (plain items) = [] := by
  simp [keywords, plain, List.filterMap_eq_nil_iff]

/-- **C110** (`any`): `any(a, b, "c d")` is the converter of these texts. -/
theorem C110_any (hL : LibOk L) (items : List Lit) (texts : List Str) (hok : ∀ i ∈ items, i.Ok L)
    (hv : items.map Lit.value = texts.map Arg.str) :
    defaultConv L s%"any" (some (render (plain items))) = .ok (Kind.conv L.dec (.any texts)) := by
  have hp := C110_args hL (plain items) (by
    intro a ha
    obtain ⟨i, hi, rfl⟩ := List.mem_map.1 ha
    exact ⟨hok i hi, by intro c hc; rw [List.mem_singleton.1 hc]; decide, fun n hn => by cases hn⟩)
    (apart_gap _ (by intro a ha; obtain ⟨i, _, rfl⟩ := List.mem_map.1 ha; simp)) (by rw [keywords_plain]; exact List.nodup_nil)
  rw [positional_plain, keywords_plain, hv] at hp
  simp only [defaultConv, hp]
  show newAny _ [] = _
  unfold newAny
  rw [if_neg (by simp)]
  have : anyItems (texts.map Arg.str) = .ok texts := by
    clear hv hp
    induction texts with
    | nil => rfl
    | cons t ts ih => simp only [List.map_cons, anyItems, ih]
  rw [this]
  rfl

/-- The parameters of the converters. -/
def parameters (name : Str) : List Str :=
  if name = s%"default" ∨ name = s%"string" then [s%"minlength", s%"maxlength", s%"length"]
  else if name = s%"int" then [s%"fixed_digits", s%"min", s%"max"]
  else if name = s%"float" then [s%"min", s%"max"]
  else []

/-- The names of the converters. -/
def converterNames : List Str := [s%"default", s%"string", s%"any", s%"path", s%"int", s%"float", s%"uuid"]

/-- **C110** (refusals): there are no other converters than the seven of the module; they have no other keywords
than their parameters; `path` and `uuid` have no arguments. -/
theorem C110_refused (hL : LibOk L) (name : Str) :
    (name ∉ converterNames → ∀ args, defaultConv L name args = .error .lookupError) ∧
    (name ∈ converterNames → ∀ l : List Written, (∀ a ∈ l, a.Ok L) → Apart L l → ((keywords l).map (·.1)).Nodup →
      (∃ kv ∈ keywords l, kv.1 ∉ parameters name) → defaultConv L name (some (render l)) = .error .typeError) ∧
    (name = s%"path" ∨ name = s%"uuid" → ∀ l : List Written, (∀ a ∈ l, a.Ok L) → Apart L l →
      ((keywords l).map (·.1)).Nodup → l ≠ [] → defaultConv L name (some (render l)) = .error .typeError) := by
  have hbind : ∀ ps args kw, (∃ kv ∈ kw, kv.1 ∉ ps) → bindArgs ps args kw = .error .typeError := by
    rintro ps args kw ⟨kv, h1, h2⟩
    unfold bindArgs
    split
    · rfl
    · rw [if_pos]
      simp only [List.any_eq_true]
      refine ⟨kv, h1, ?_⟩
      simp only [List.contains_eq_mem, Bool.not_eq_true', decide_eq_false_iff_not]
      exact fun h => h2 (List.mem_of_mem_drop h)
  refine ⟨?_, ?_, ?_⟩
  · intro h args
    simp only [converterNames, List.mem_cons, List.not_mem_nil, or_false, not_or] at h
    obtain ⟨h1, h2, h3, h4, h5, h6, h7⟩ := h
    have : ∀ as ks, getConverter L name as ks = .error .lookupError := by
      intro as ks
      simp [getConverter, h1, h2, h3, h4, h5, h6, h7]
    cases args with
    | none => exact this _ _
    | some s => exact this _ _
  · intro h l hok hap hnd hkv
    simp only [defaultConv, C110_args hL l hok hap hnd]
    have hne : keywords l ≠ [] := by
      obtain ⟨kv, h1, _⟩ := hkv
      rintro h2
      rw [h2] at h1
      cases h1
    simp only [converterNames, List.mem_cons, List.not_mem_nil, or_false] at h
    rcases h with rfl | rfl | rfl | rfl | rfl | rfl | rfl
    · show newString L _ _ = _
      unfold newString
      rw [hbind [s%"minlength", s%"maxlength", s%"length"] _ _ hkv]
    · show newString L _ _ = _
      unfold newString
      rw [hbind [s%"minlength", s%"maxlength", s%"length"] _ _ hkv]
    · show newAny _ _ = _
      unfold newAny
      rw [if_pos hne]
    · show newPlain _ _ _ = _
      unfold newPlain
      rw [if_neg (fun h => hne h.2)]
    · show newInt L _ _ = _
      unfold newInt
      rw [hbind [s%"fixed_digits", s%"min", s%"max"] _ _ hkv]
    · show newFloat L _ _ = _
      unfold newFloat
      rw [hbind [s%"min", s%"max"] _ _ hkv]
    · show newPlain _ _ _ = _
      unfold newPlain
      rw [if_neg (fun h => hne h.2)]
  · intro h l hok hap hnd hne
    simp only [defaultConv, C110_args hL l hok hap hnd]
    have : ¬ (positional l = [] ∧ keywords l = []) := by
      rintro ⟨h1, h2⟩
      cases l with
      | nil => exact hne rfl
      | cons a l =>
        cases hn : a.name with
        | none => simp [positional, hn] at h1
        | some n => simp [keywords, hn] at h2
    rcases h with rfl | rfl
    · exact if_neg this
    · exact if_neg this

/-- **C110** (patterns): whatever the arguments, the patterns of the converters have no groups and no anchors, so what
is said of the routes of a map holds for maps with the converters of the module. -/
theorem C110_pure (L : ArgLib) (cfg : Config) (h : cfg.conv = defaultConv L) : PureConfig cfg := by
  have hf : ∀ lo hi, Re.Pure (floatConv L.floats L.dec lo hi).re := fun _ _ => ⟨⟨trivial, trivial⟩, pure_lit _, trivial, trivial⟩
  have hget : ∀ name as ks c, getConverter L name as ks = .ok c → Re.Pure c.re := by
    intro name as ks c hc
    unfold getConverter at hc
    split at hc
    · unfold newString at hc
      split at hc
      · cases hc
      · split at hc
        · cases hc
        · rename_i re hre
          cases hc
          have hcount : ∀ lo hi txt r, countRe lo hi txt = .ok r → Re.Pure r := by
            intro lo hi txt r hr
            unfold countRe at hr
            split at hr
            · cases hr; exact ⟨trivial, pure_lit _⟩
            · split at hr
              · cases hr
              · cases hr; exact pure_rep _ _ _
          unfold stringPattern at hre
          split at hre
          · split at hre
            · cases hre
            · exact hcount _ _ _ _ hre
          · split at hre
            · split at hre
              · cases hre
              · exact hcount _ _ _ _ hre
            · split at hre
              · cases hre
              · split at hre
                · cases hre
                · exact hcount _ _ _ _ hre
    · split at hc
      · unfold newAny at hc
        split at hc
        · cases hc
        · split at hc
          · cases hc
          · cases hc; exact pure_any _
      · split at hc
        · unfold newPlain at hc
          split at hc
          · cases hc; exact kind_pure L.dec .path
          · cases hc
        · split at hc
          · unfold newInt at hc
            split at hc
            · cases hc
            · split at hc
              · cases hc; exact kind_pure L.dec (.int _ _ _)
              · cases hc
          · split at hc
            · unfold newFloat at hc
              split at hc
              · cases hc
              · split at hc
                · cases hc; exact hf _ _
                · cases hc
            · split at hc
              · unfold newPlain at hc
                split at hc
                · cases hc; exact kind_pure L.dec .uuid
                · cases hc
              · cases hc
  intro k as c hc
  rw [h] at hc
  cases as with
  | none => exact hget _ _ _ _ hc
  | some s => exact hget _ _ _ _ hc

/-! ### what is not read as it is written, and examples -/

/-- ASCII. -/
def demoLib : ArgLib :=
  { word := identTail, dec := asciiDec
    int := fun s => if s ≠ [] ∧ s.all (fun c => (asciiDec c).isSome) then some (intD asciiDec s) else none
    trunc := fun _ => .error .valueError
    floats := ⟨fun s => if s = s%"nan" ∨ s = s%"1.5" then some s else none, fun i => .ok (Py.intStr i ++ s%".0"), fun _ _ => false⟩ }

theorem demoLib_ok : LibOk demoLib where
  digit_word := by
    intro c h
    have h : (asciiDec c).isSome = true := h
    unfold asciiDec at h
    split at h
    · rename_i hc
      simp only [Char.isDigit, Bool.and_eq_true, decide_eq_true_eq] at hc
      have h1 : 48 ≤ c.toNat := UInt32.le_iff_toNat_le.1 hc.1
      have h2 : c.toNat ≤ 57 := UInt32.le_iff_toNat_le.1 hc.2
      simp [demoLib, identTail, h1, h2]
    · cases h
  space_word := by
    intro c h
    simp only [Py.isSpace, Bool.or_eq_true, Bool.and_eq_true, decide_eq_true_eq, beq_iff_eq] at h
    simp only [demoLib, identTail, identHead, Bool.or_eq_false_iff, Bool.and_eq_false_imp, decide_eq_true_eq,
      decide_eq_false_iff_not, beq_eq_false_iff_ne]
    omega
  comma := by decide
  equals := by decide
  dquote := by decide
  squote := by decide
  decimal := asciiDec_ok
  letters := by
    intro c h
    refine ⟨by simp [demoLib, identTail, h], ?_⟩
    show (asciiDec c).isSome = false
    unfold asciiDec
    rw [if_neg]
    · rfl
    · intro hc
      simp only [Char.isDigit, Bool.and_eq_true, decide_eq_true_eq] at hc
      have h1 : 48 ≤ c.toNat := UInt32.le_iff_toNat_le.1 hc.1
      have h2 : c.toNat ≤ 57 := UInt32.le_iff_toNat_le.1 hc.2
      simp only [identHead, Bool.or_eq_true, Bool.and_eq_true, decide_eq_true_eq, beq_iff_eq] at h
      omega
  int_nat := by
    intro n
    simp only [demoLib]
    rw [if_pos, intD_natStr _ asciiDec_ok]
    refine ⟨Py.natStr_ne_nil n, ?_⟩
    rw [List.all_eq_true]
    intro c hc
    rw [dec_dig _ asciiDec_ok c (Py.natStr_digits n c hc)]
    rfl
  int_digits := by
    intro s hs hd
    simp only [demoLib]
    rw [if_pos ⟨hs, List.all_eq_true.2 hd⟩]
    simp
  int_dquote := by intro s; simp [demoLib, show asciiDec '"' = none from rfl]
  int_squote := by intro s; simp [demoLib, show asciiDec '\'' = none from rfl]
  float_dquote := by intro s; simp [demoLib]
  float_squote := by intro s; simp [demoLib]

/-- **C110** fails for negative numbers: `int(min=-1)` is read as `int(1)`, which asks for one digit.  Text that is no
argument is passed over in silence. -/
theorem C110_negative_false : parseConverterArgs demoLib s%"min=-1" = ([.int 1], []) ∧
    defaultConv demoLib s%"int" (some s%"min=-1") = .ok (Kind.conv asciiDec (.int 1 none none)) ∧
    parseConverterArgs demoLib s%"-, a b, min=?2" = ([.str s%"b", .int 2], []) := by
  have h : parseConverterArgs demoLib s%"min=-1" = ([.int 1], []) := by decide +kernel
  refine ⟨h, ?_, by decide +kernel⟩
  simp only [defaultConv, h]
  rfl

/-- **C110** fails for numbers without white space between them: `int(4,1)` and `any(1,2)` have the one argument
`1,2`, and a comma at the end of numbers becomes part of them. -/
theorem C110_space_false : parseConverterArgs demoLib s%"4,1" = ([.str s%"4,1"], []) ∧
    parseConverterArgs demoLib s%"4, 1" = ([.int 4, .int 1], []) ∧
    parseConverterArgs demoLib s%"4," = ([.str s%"4,"], []) ∧
    parseConverterArgs demoLib s%"min=1,max=20" = ([], [(s%"min", .int 1), (s%"max", .int 20)]) := by
  refine ⟨by decide +kernel, by decide +kernel, by decide +kernel, by decide +kernel⟩

/-- **C110** fails for words that are numbers: `any(nan, a)` and `any(1, 2)` are refused, since only texts can be
chosen from. -/
theorem C110_words_false : defaultConv demoLib s%"any" (some s%"nan, a") = .error .typeError ∧
    defaultConv demoLib s%"any" (some s%"1, 2") = .error .typeError ∧
    defaultConv demoLib s%"any" (some s%"\"1\", \"2\"") = .ok (Kind.conv asciiDec (.any [s%"1", s%"2"])) := by
  have h1 : parseConverterArgs demoLib s%"nan, a" = ([.float s%"nan", .str s%"a"], []) := by decide +kernel
  have h2 : parseConverterArgs demoLib s%"1, 2" = ([.int 1, .int 2], []) := by decide +kernel
  have h3 : parseConverterArgs demoLib s%"\"1\", \"2\"" = ([.str s%"1", .str s%"2"], []) := by decide +kernel
  refine ⟨?_, ?_, ?_⟩
  · simp only [defaultConv, h1]; rfl
  · simp only [defaultConv, h2]; rfl
  · simp only [defaultConv, h3]; rfl

example : defaultConv demoLib s%"any" (some s%"about, help, imprint, class, \"foo,bar\"") =
    .ok (Kind.conv asciiDec (.any [s%"about", s%"help", s%"imprint", s%"class", s%"foo,bar"])) :=
  C110_any demoLib_ok [.word s%"about", .word s%"help", .word s%"imprint", .word s%"class", .quoted '"' s%"foo,bar"] _
    (by
      simp only [List.mem_cons, List.not_mem_nil, or_false]
      rintro a (rfl | rfl | rfl | rfl | rfl) <;> unfold Lit.Ok <;> decide +kernel) (by decide +kernel)

example : defaultConv demoLib s%"int" (some s%"max=20, fixed_digits=2") =
    .ok (Kind.conv asciiDec (.int 2 none (some 20))) := by
  have h := C110_int demoLib_ok [(s%"max", 20), (s%"fixed_digits", 2)] (by decide +kernel) (by decide +kernel)
  rwa [show render (numbers [(s%"max", 20), (s%"fixed_digits", 2)]) = s%"max=20, fixed_digits=2" by decide +kernel] at h

example : defaultConv demoLib s%"string" (some s%"minlength=2, maxlength=5") =
    .ok (Kind.conv asciiDec (.string 2 (some 5))) := by
  have h := C110_string demoLib_ok s%"string" (.inl rfl) [(s%"minlength", 2), (s%"maxlength", 5)] (by decide +kernel)
    (by decide +kernel) (by decide +kernel)
  rwa [show render (numbers [(s%"minlength", 2), (s%"maxlength", 5)]) = s%"minlength=2, maxlength=5" by decide +kernel] at h

example : defaultConv demoLib s%"default" (some s%"length=2") = .ok (Kind.conv asciiDec (.string 2 (some 2))) := by
  have h := C110_length demoLib_ok s%"default" (.inr rfl) 2
  rwa [show s%"length=" ++ Py.natStr 2 = s%"length=2" by decide +kernel] at h

/-- Arguments of all sorts. -/
def sampleArgs : List Written := [⟨none, .word s%"a", []⟩, ⟨none, .quoted '\'' s%"b, c", []⟩, ⟨none, .word s%"None", s%" "⟩,
    ⟨some s%"x", .word s%"True", []⟩, ⟨some s%"y", .num 12, s%" "⟩, ⟨none, .num 7, []⟩]

example : parseConverterArgs demoLib s%"a,'b, c',None, x=True,y=12, 7" =
    ([.str s%"a", .str s%"b, c", .none, .int 7], [(s%"x", .bool true), (s%"y", .int 12)]) := by
  have h := C110_args demoLib_ok sampleArgs
    (by
      simp only [sampleArgs, List.mem_cons, List.not_mem_nil, or_false]
      rintro a (rfl | rfl | rfl | rfl | rfl | rfl)
      · exact ⟨(by unfold Lit.Ok; decide +kernel), by simp, by simp⟩
      · exact ⟨(by unfold Lit.Ok; decide +kernel), by simp, by simp⟩
      · exact ⟨(by unfold Lit.Ok; decide +kernel), by decide, by simp⟩
      · exact ⟨(by unfold Lit.Ok; decide +kernel), by simp, by intro n h; cases h; exact ⟨by decide, by decide, by decide⟩⟩
      · exact ⟨trivial, by decide, by intro n h; cases h; exact ⟨by decide, by decide, by decide⟩⟩
      · exact ⟨trivial, by simp, by simp⟩)
    ⟨(by rintro ⟨n, h⟩; cases h), (by rintro ⟨n, h⟩; cases h), fun _ => .inl (by decide), (by rintro ⟨n, h⟩; cases h),
      fun _ => .inl (by decide), trivial⟩ (by decide +kernel)
  rwa [show render sampleArgs = s%"a,'b, c',None, x=True,y=12, 7" by decide +kernel] at h

example : defaultConv demoLib s%"colour" none = .error .lookupError :=
  (C110_refused demoLib_ok s%"colour").1 (by decide) none

example : defaultConv demoLib s%"int" (some (render [⟨some s%"minimum", .num 3, []⟩])) = .error .typeError :=
  (C110_refused demoLib_ok s%"int").2.1 (by decide) [⟨some s%"minimum", .num 3, []⟩]
    (by
      simp only [List.mem_singleton]
      rintro a rfl
      exact ⟨trivial, by simp, by intro n h; cases h; exact ⟨by decide, by decide, by decide⟩⟩) trivial (by decide)
    ⟨_, .head _, by decide⟩

example : defaultConv demoLib s%"path" (some s%"a") = .error .typeError :=
  (C110_refused demoLib_ok s%"path").2.2 (.inl rfl) [⟨none, .word s%"a", []⟩]
    (by
      simp only [List.mem_singleton]
      rintro a rfl
      exact ⟨(by unfold Lit.Ok; decide +kernel), by simp, by simp⟩) trivial (by decide) (by simp)

/-- A map with the converters of the module. -/
def argsCfg : Config := ⟨false, [], true, true, defaultConv demoLib, fun _ p => p⟩

example : PureConfig argsCfg := C110_pure demoLib argsCfg rfl

end Verif.Props.ConvArgsP
