import Verif.Props.ConvArgs
import Verif.Props.RouteFactory
/-!
C111: rules are read as they are written.
-/
namespace Verif.Props.RuleP
open Verif Verif.Routing Verif.Spec.Routing Verif.Props Verif.Props.RoutingP Verif.Props.ConvArgsP

/-! ### specification -/

/-- A variable of a rule: its name, and its converter with arguments, if it has one. -/
structure Var where
  conv : Option (Str × Option Str) := none
  name : Str
deriving DecidableEq

/-- `<name>`, `<conv:name>` or `<conv(args):name>`. -/
def Var.text (v : Var) : Str :=
  match v.conv with
  | none => s%"<" ++ v.name ++ s%">"
  | some (c, none) => s%"<" ++ c ++ s%":" ++ v.name ++ s%">"
  | some (c, some a) => s%"<" ++ c ++ s%"(" ++ a ++ s%"):" ++ v.name ++ s%">"

/-- A rule: variables, each with the text before it, and the text at the end. -/
structure Rule where
  vars : List (Str × Var)
  tail : Str

/-- How the rule is written. -/
def Rule.text (r : Rule) : Str := (r.vars.flatMap fun p => p.1 ++ p.2.text) ++ r.tail

/-- Text, unless it is empty. -/
def textPiece (s : Str) : List Piece := if s = [] then [] else [.text s]

/-- What is read: the converter is `default` if none is given, empty arguments are none. -/
def Var.piece (v : Var) : Piece :=
  match v.conv with
  | none => .var s%"default" none v.name
  | some (c, none) => .var c none v.name
  | some (c, some a) => .var c (if a = [] then none else some a) v.name

/-- The parts of a rule. -/
def Rule.pieces (r : Rule) : List Piece := (r.vars.flatMap fun p => textPiece p.1 ++ [p.2.piece]) ++ textPiece r.tail

/-- A name: a letter or an underscore, then letters, underscores and digits, all ASCII. -/
def Ident (s : Str) : Prop := ∃ c cs, s = c :: cs ∧ identHead c = true ∧ ∀ x ∈ cs, identTail x = true

/-- Names are names; arguments are on one line. -/
def Var.Ok (v : Var) : Prop :=
  Ident v.name ∧ ∀ c a, v.conv = some (c, a) → Ident c ∧ ∀ s, a = some s → '\n' ∉ s

/-- A rule with variables of different names, and without other angle brackets (a closing one may be in the text
before a variable). -/
def Rule.Ok (r : Rule) : Prop :=
  (∀ p ∈ r.vars, '<' ∉ p.1 ∧ p.2.Ok) ∧ (r.vars.map (·.2.name)).Nodup ∧ '<' ∉ r.tail ∧ '>' ∉ r.tail

/-- No closing parenthesis in arguments. -/
def Rule.Flat (r : Rule) : Prop := ∀ p ∈ r.vars, ∀ c a, p.2.conv = some (c, some a) → ')' ∉ a

/-! ### names -/

theorem ident_tail {s : Str} (h : Ident s) : ∀ x ∈ s, identTail x = true := by
  obtain ⟨c, cs, rfl, h1, h2⟩ := h
  intro x hx
  rcases List.mem_cons.1 hx with rfl | hx
  · simp [identTail, h1]
  · exact h2 x hx

theorem lang_ident (s : Str) : Re.Lang identRe s ↔ Ident s := by
  have : Re.Lang identRe s ↔ ∃ u v, s = u ++ v ∧ (∃ c, u = [c] ∧ identHead c = true) ∧
      Re.Lang (.star true (.cls identTail)) v := Iff.rfl
  rw [this]
  simp only [lang_star_cls]
  constructor
  · rintro ⟨u, v, rfl, ⟨c, rfl, hc⟩, hv⟩; exact ⟨c, v, rfl, hc, hv⟩
  · rintro ⟨c, cs, rfl, hc, hv⟩; exact ⟨[c], cs, rfl, ⟨c, rfl, hc⟩, hv⟩

theorem pure_ident : Re.Pure identRe := ⟨trivial, trivial⟩

theorem starts_ident {s rest : Str} (h : Ident s) (hr : ∀ c, rest.head? = some c → identTail c = false) (prev : Option Char) :
    Re.Starts identRe prev (s ++ rest) ⟨s, rest, []⟩ := by
  obtain ⟨c, cs, rfl, h1, h2⟩ := h
  have := Re.starts_seq (Re.starts_cls (prev := prev) (s := cs ++ rest) h1)
    (Re.starts_star (p := identTail) (prev := Re.after prev [c]) (a := cs) (b := rest) h2 hr)
  simpa [Re.M.comb, identRe] using this

/-! ### one variable -/

/-- The converter part of the pattern. -/
def convRe : Re Char :=
  Re.cat [.grp 1 identRe, Re.opt (Re.cat [Re.lit s%"(", .grp 2 (.star false (.cls dot)), Re.lit s%")"]), Re.lit s%":"]

theorem route_eq : routeRe = .seq (.grp 0 (.star true (.cls (· != '<')))) (.seq (Re.lit s%"<") (.seq (Re.opt convRe)
    (.seq (.grp 3 identRe) (Re.lit s%">")))) := rfl

/-- The groups of a converter. -/
def convCaps : Option (Str × Option Str) → List (Nat × Str)
  | none => []
  | some (c, none) => [(1, c)]
  | some (c, some a) => [(2, a), (1, c)]

/-- The text of a converter. -/
def convText : Option (Str × Option Str) → Str
  | none => []
  | some (c, none) => c ++ s%":"
  | some (c, some a) => c ++ s%"(" ++ a ++ s%"):"

theorem var_text (v : Var) : v.text = s%"<" ++ (convText v.conv ++ (v.name ++ s%">")) := by
  unfold Var.text convText
  split <;> simp [*]

/-- The matches of the converter part. -/
theorem mem_conv (prev : Option Char) (s : Str) (m : Re.M Char) (h : m ∈ Re.run convRe prev s) :
    ∃ c a, m.txt = convText (some (c, a)) ∧ m.caps = convCaps (some (c, a)) ∧ Ident c ∧ ∀ t, a = some t → '\n' ∉ t := by
  rw [show convRe = .seq (.grp 1 identRe) (.seq (.alt (.seq (Re.lit s%"(") (.seq (.grp 2 (.star false (.cls dot)))
    (Re.lit s%")"))) .eps) (Re.lit s%":")) from rfl, mem_seq] at h
  obtain ⟨m1, h1, m2, h2, rfl⟩ := h
  obtain ⟨m3, h3, rfl⟩ := mem_grp.1 h1
  obtain ⟨e1, e2, e3⟩ := (Re.mem_run pure_ident _ _ _).1 h3
  have hid := (lang_ident _).1 e3
  obtain ⟨m4, h4, m5, h5, rfl⟩ := mem_seq.1 h2
  obtain ⟨e4, e5, e6⟩ := (Re.mem_run (pure_lit s%":") _ _ _).1 h5
  have e6 := (lang_lit _ _).1 e6
  rcases mem_alt.1 h4 with h4 | h4
  · obtain ⟨m6, h6, m7, h7, rfl⟩ := mem_seq.1 h4
    obtain ⟨e7, e8, e9⟩ := (Re.mem_run (pure_lit s%"(") _ _ _).1 h6
    have e9 := (lang_lit _ _).1 e9
    obtain ⟨m8, h8, m9, h9, rfl⟩ := mem_seq.1 h7
    obtain ⟨m10, h10, rfl⟩ := mem_grp.1 h8
    obtain ⟨e10, e11, e12⟩ := (Re.mem_run (r := .star false (.cls dot)) trivial _ _ _).1 h10
    obtain ⟨e13, e14, e15⟩ := (Re.mem_run (pure_lit s%")") _ _ _).1 h9
    have e15 := (lang_lit _ _).1 e15
    refine ⟨m3.txt, some m10.txt, ?_, ?_, hid, ?_⟩
    · simp [convText, e6, e9, e15]
    · simp [convCaps, e2, e5, e8, e11, e14]
    · intro t ht
      cases ht
      intro hn
      have := (lang_star_cls false dot _).1 e12 _ hn
      exact absurd this (by decide)
  · simp only [Re.run, List.mem_singleton] at h4
    subst h4
    exact ⟨m3.txt, none, by simp [convText, e6], by simp [convCaps, e2, e5], hid, fun t ht => by cases ht⟩

/-- The matches of the pattern are a text before a variable, and the variable. -/
theorem mem_route (prev : Option Char) (s : Str) (m : Re.M Char) (h : m ∈ Re.run routeRe prev s) :
    ∃ (st : Str) (v : Var), m.txt ++ m.rest = s ∧ m.txt = st ++ v.text ∧ '<' ∉ st ∧ v.Ok ∧ m.group 0 = some st ∧ m.group 3 = some v.name ∧
      m.group 1 = v.conv.map (·.1) ∧ m.group 2 = v.conv.bind (·.2) := by
  have hs := Re.run_split routeRe prev s m h
  rw [route_eq, mem_seq] at h
  obtain ⟨m1, h1, m2, h2, rfl⟩ := h
  obtain ⟨m3, h3, rfl⟩ := mem_grp.1 h1
  obtain ⟨e1, e2, e3⟩ := (Re.mem_run (r := .star true (.cls (· != '<'))) trivial _ _ _).1 h3
  obtain ⟨m4, h4, m5, h5, rfl⟩ := mem_seq.1 h2
  obtain ⟨e4, e5, e6⟩ := (Re.mem_run (pure_lit s%"<") _ _ _).1 h4
  have e6 := (lang_lit _ _).1 e6
  obtain ⟨m6, h6, m7, h7, rfl⟩ := mem_seq.1 h5
  obtain ⟨m8, h8, m9, h9, rfl⟩ := mem_seq.1 h7
  obtain ⟨m10, h10, rfl⟩ := mem_grp.1 h8
  obtain ⟨e10, e11, e12⟩ := (Re.mem_run pure_ident _ _ _).1 h10
  obtain ⟨e13, e14, e15⟩ := (Re.mem_run (pure_lit s%">") _ _ _).1 h9
  have e15 := (lang_lit _ _).1 e15
  have hid := (lang_ident _).1 e12
  have hst : '<' ∉ m3.txt := fun hn => by
    have := (lang_star_cls true (· != '<') _).1 e3 _ hn
    exact absurd this (by decide)
  have hconv : ∃ conv : Option (Str × Option Str), m6.txt = convText conv ∧ m6.caps = convCaps conv ∧
      ∀ c a, conv = some (c, a) → Ident c ∧ ∀ t, a = some t → '\n' ∉ t := by
    rcases mem_alt.1 h6 with h6 | h6
    · obtain ⟨c, a, f1, f2, f3, f4⟩ := mem_conv _ _ _ h6
      exact ⟨some (c, a), f1, f2, fun c' a' h => by cases h; exact ⟨f3, f4⟩⟩
    · simp only [Re.run, List.mem_singleton] at h6
      subst h6
      exact ⟨none, rfl, rfl, fun c a h => by cases h⟩
  obtain ⟨conv, f1, f2, f3⟩ := hconv
  refine ⟨m3.txt, ⟨conv, m10.txt⟩, hs, ?_, hst, ⟨hid, f3⟩, ?_, ?_, ?_, ?_⟩
  · rw [var_text]
    simp [e6, e15, f1]
  all_goals
    unfold Re.M.group
    simp only [e2, e5, f2, e11, e14]
    rcases conv with _ | ⟨c, _ | a⟩ <;> simp [convCaps, List.lookup]

/-- A variable is found as it is written. -/
theorem found (st : Str) (v : Var) (hst : '<' ∉ st) (hv : v.Ok) (hf : ∀ c a, v.conv = some (c, some a) → ')' ∉ a) (rest : Str) :
    ∃ m, Re.first routeRe none (st ++ (v.text ++ rest)) = some m ∧ m.rest = rest ∧ m.group 0 = some st ∧
      m.group 3 = some v.name ∧ m.group 1 = v.conv.map (·.1) ∧ m.group 2 = v.conv.bind (·.2) := by
  obtain ⟨hname, hconv⟩ := hv
  have s0 : Re.Starts (.grp 0 (.star true (.cls (· != '<')))) none (st ++ (v.text ++ rest)) ⟨st, v.text ++ rest, [(0, st)]⟩ :=
    Re.starts_star_grp (fun c hc => by simp only [bne_iff_ne, ne_eq]; rintro rfl; exact hst hc)
      (fun c hc => by rw [var_text] at hc; cases hc; decide)
  have s1 : ∀ prev, Re.Starts (Re.lit s%"<") prev (v.text ++ rest) ⟨s%"<", convText v.conv ++ (v.name ++ '>' :: rest), []⟩ := by
    intro prev
    rw [show v.text ++ rest = s%"<" ++ (convText v.conv ++ (v.name ++ '>' :: rest)) by rw [var_text]; simp]
    exact Re.starts_lit
  have s3 : ∀ prev, Re.Starts (.seq (.grp 3 identRe) (Re.lit s%">")) prev (v.name ++ '>' :: rest)
      ⟨v.name ++ s%">", rest, [(3, v.name)]⟩ := by
    intro prev
    have := Re.starts_seq (Re.starts_grp 3 (starts_ident hname (rest := '>' :: rest) (by intro c hc; cases hc; decide) prev))
      (Re.starts_lit (w := s%">") (s := rest))
    simpa [Re.M.comb] using this
  have s2 : ∀ prev, Re.Starts (Re.opt convRe) prev (convText v.conv ++ (v.name ++ '>' :: rest))
      ⟨convText v.conv, v.name ++ '>' :: rest, convCaps v.conv⟩ := by
    intro prev
    cases hc : v.conv with
    | none =>
      refine Re.starts_altr ?_ Re.starts_eps
      cases hr : Re.run convRe prev (convText none ++ (v.name ++ '>' :: rest)) with
      | nil => rfl
      | cons m ms =>
        exfalso
        have hm : m ∈ Re.run convRe prev (convText none ++ (v.name ++ '>' :: rest)) := by rw [hr]; exact .head _
        have hsplit := Re.run_split _ _ _ _ hm
        obtain ⟨c, a, e1, _, e3, _⟩ := mem_conv _ _ _ hm
        have hsplit : m.txt ++ m.rest = v.name ++ '>' :: rest := hsplit
        have : ∃ d y, (d = ':' ∨ d = '(') ∧ m.txt = c ++ d :: y := by
          cases a with
          | none => exact ⟨':', [], .inl rfl, e1⟩
          | some a => exact ⟨'(', a ++ s%"):", .inr rfl, by rw [e1]; simp [convText]⟩
        obtain ⟨d, y, hd, he⟩ := this
        rw [he] at hsplit
        obtain ⟨_, e5⟩ := cut_unique (p := identTail) (a := c) (b := d :: (y ++ m.rest)) (by simpa using hsplit)
          (ident_tail e3) (ident_tail hname) (by intro x hx; cases hx; rcases hd with rfl | rfl <;> decide)
          (by intro x hx; cases hx; decide)
        have := (List.cons.inj e5).1
        rcases hd with rfl | rfl <;> cases this
    | some ca =>
      obtain ⟨c, a⟩ := ca
      obtain ⟨hc1, hc2⟩ := hconv c a hc
      refine Re.starts_altl ?_
      cases a with
      | none =>
        have s4 := Re.starts_grp 1 (starts_ident hc1 (rest := ':' :: (v.name ++ '>' :: rest)) (by intro x hx; cases hx; decide) prev)
        have s5 : Re.Starts (Re.opt (Re.cat [Re.lit s%"(", .grp 2 (.star false (.cls dot)), Re.lit s%")"])) (Re.after prev c)
            (':' :: (v.name ++ '>' :: rest)) ⟨[], ':' :: (v.name ++ '>' :: rest), []⟩ := by
          refine Re.starts_altr ?_ Re.starts_eps
          exact Re.run_seq_nil (Re.run_cls_ne (by intro x hx; cases hx; decide))
        have s6 := Re.starts_seq s5 (Re.starts_lit (w := s%":") (s := v.name ++ '>' :: rest))
        have := Re.starts_seq s4 s6
        refine (show Re.Starts (.seq (.grp 1 identRe) (.seq (Re.opt (Re.cat [Re.lit s%"(", .grp 2 (.star false (.cls dot)),
          Re.lit s%")"])) (Re.lit s%":"))) _ _ _ from ?_)
        simpa [Re.M.comb, convText, convCaps] using this
      | some a =>
        have ha := hf c a hc
        have s4 := Re.starts_grp 1 (starts_ident hc1 (rest := '(' :: (a ++ (')' :: ':' :: (v.name ++ '>' :: rest))))
          (by intro x hx; cases hx; decide) prev)
        have s7 : ∀ prev, Re.Starts (.seq (.grp 2 (.star false (.cls dot))) (Re.lit s%")")) prev
            (a ++ (')' :: ':' :: (v.name ++ '>' :: rest))) ⟨a ++ s%")", ':' :: (v.name ++ '>' :: rest), [(2, a)]⟩ := by
          intro prev
          have := Re.starts_lazy_grp (p := dot) (prev := prev) (a := a) (b := ')' :: ':' :: (v.name ++ '>' :: rest))
            (r := Re.lit s%")") (n := 2) (m := ⟨s%")", ':' :: (v.name ++ '>' :: rest), []⟩)
            (fun x hx => by
              simp only [dot, bne_iff_ne, ne_eq]
              rintro rfl
              exact hc2 a rfl hx)
            (by
              intro x y hxy hy
              cases y with
              | nil => exact absurd rfl hy
              | cons d ds =>
                refine Re.run_cls_ne ?_
                intro z hz
                cases hz
                have : d ∈ a := by rw [hxy]; simp
                simp only [beq_eq_false_iff_ne, ne_eq]
                rintro rfl
                exact ha this)
            (Re.starts_lit (w := s%")") (s := ':' :: (v.name ++ '>' :: rest)))
          simpa using this
        have s5 : ∀ prev, Re.Starts (Re.opt (Re.cat [Re.lit s%"(", .grp 2 (.star false (.cls dot)), Re.lit s%")"])) prev
            ('(' :: (a ++ (')' :: ':' :: (v.name ++ '>' :: rest)))) ⟨'(' :: (a ++ s%")"), ':' :: (v.name ++ '>' :: rest), [(2, a)]⟩ := by
          intro prev
          refine Re.starts_altl ?_
          have := Re.starts_seq (Re.starts_lit (w := s%"(") (s := a ++ (')' :: ':' :: (v.name ++ '>' :: rest))) (prev := prev)) (s7 _)
          refine (show Re.Starts (.seq (Re.lit s%"(") (.seq (.grp 2 (.star false (.cls dot))) (Re.lit s%")"))) _ _ _ from ?_)
          simpa [Re.M.comb] using this
        have s6 := Re.starts_seq (s5 (Re.after prev c)) (Re.starts_lit (w := s%":") (s := v.name ++ '>' :: rest))
        have := Re.starts_seq s4 s6
        refine (show Re.Starts (.seq (.grp 1 identRe) (.seq (Re.opt (Re.cat [Re.lit s%"(", .grp 2 (.star false (.cls dot)),
          Re.lit s%")"])) (Re.lit s%":"))) _ _ _ from ?_)
        simpa [Re.M.comb, convText, convCaps] using this
  have := Re.starts_seq s0 (Re.starts_seq (s1 _) (Re.starts_seq (s2 _) (s3 _)))
  refine ⟨_, Re.Starts.first (r := routeRe) this, rfl, ?_⟩
  simp only [Re.M.comb, Re.M.group]
  rcases v.conv with _ | ⟨c, _ | a⟩ <;> simp [convCaps, List.lookup]

/-! ### C111 -/

theorem parseRest_tail (t : Str) (h1 : '<' ∉ t) (h2 : '>' ∉ t) : parseRest t = .ok (textPiece t) := by
  unfold parseRest textPiece
  split
  · rfl
  · rw [if_neg]
    rintro (h | h)
    · exact h2 h
    · exact h1 h

theorem read_go (vars : List (Str × Var)) (tail : Str) (h1 : '<' ∉ tail) (h2 : '>' ∉ tail) :
    (∀ p ∈ vars, '<' ∉ p.1 ∧ p.2.Ok) → (∀ p ∈ vars, ∀ c a, p.2.conv = some (c, some a) → ')' ∉ a) →
    (vars.map (·.2.name)).Nodup → ∀ (n : Nat) (used : List Str), (Rule.text ⟨vars, tail⟩).length ≤ n →
      (∀ p ∈ vars, p.2.name ∉ used) → parseGo n used (Rule.text ⟨vars, tail⟩) = .ok (Rule.pieces ⟨vars, tail⟩) := by
  induction vars with
  | nil =>
    intro _ _ _ n used _ _
    have e : Rule.text ⟨[], tail⟩ = tail := rfl
    have e2 : Rule.pieces ⟨[], tail⟩ = textPiece tail := rfl
    rw [e, e2]
    cases n with
    | zero => exact parseRest_tail tail h1 h2
    | succ n =>
      have : Re.first routeRe none tail = none := by
        unfold Re.first
        cases hr : Re.run routeRe none tail with
        | nil => rfl
        | cons m ms =>
          exfalso
          obtain ⟨st, v, e3, e4, _⟩ := mem_route none tail m (by rw [hr]; exact .head _)
          apply h1
          rw [← e3, e4, var_text]
          simp
      simp only [parseGo, this]
      exact parseRest_tail tail h1 h2
  | cons p vars ih =>
    intro hok hflat hnd n used hlen hused
    obtain ⟨st, v⟩ := p
    have e : Rule.text ⟨(st, v) :: vars, tail⟩ = st ++ (v.text ++ Rule.text ⟨vars, tail⟩) := by
      simp [Rule.text]
    have e2 : Rule.pieces ⟨(st, v) :: vars, tail⟩ = textPiece st ++ [v.piece] ++ Rule.pieces ⟨vars, tail⟩ := by
      simp [Rule.pieces]
    rw [e] at hlen ⊢
    rw [e2]
    obtain ⟨hst, hv⟩ := hok _ (.head _)
    obtain ⟨m, f1, f2, f3, f4, f5, f6⟩ := found st v hst hv (hflat _ (.head _)) (Rule.text ⟨vars, tail⟩)
    cases n with
    | zero =>
      rw [var_text] at hlen
      simp at hlen
    | succ n =>
      rw [List.map_cons, List.nodup_cons] at hnd
      simp only [parseGo, f1, f2, f3, f4, f5, f6, Option.getD_some]
      rw [if_neg (hused _ (.head _)), ih (fun p hp => hok p (.tail _ hp)) (fun p hp => hflat p (.tail _ hp)) hnd.2 n (v.name :: used)
        (by rw [var_text] at hlen; simp at hlen ⊢; omega) (by
          intro p hp hm
          rcases List.mem_cons.1 hm with h | h
          · exact hnd.1 (h ▸ List.mem_map.2 ⟨p, hp, rfl⟩)
          · exact hused p (.tail _ hp) h)]
      refine congrArg Except.ok ?_
      unfold textPiece Var.piece
      rcases v.conv with _ | ⟨c, _ | _ | ⟨x, xs⟩⟩ <;> simp

/-- **C111** (reading): a rule made of texts and variables is read as these texts and variables. -/
theorem C111_read (r : Rule) (h : r.Ok) (hf : r.Flat) : parseRoute r.text = .ok r.pieces :=
  read_go r.vars r.tail h.2.2.1 h.2.2.2 h.1 hf h.2.1 _ [] (Nat.le_refl _) (by simp)

theorem read_back (n : Nat) : ∀ (used : List Str) (s : Str) (ps : List Piece), parseGo n used s = .ok ps →
    ∃ r : Rule, s = r.text ∧ ps = r.pieces ∧ r.Ok ∧ ∀ p ∈ r.vars, p.2.name ∉ used := by
  have hrest : ∀ (used : List Str) (s : Str) (ps : List Piece), parseRest s = .ok ps →
      ∃ r : Rule, s = r.text ∧ ps = r.pieces ∧ r.Ok ∧ ∀ p ∈ r.vars, p.2.name ∉ used := by
    intro used s ps h
    unfold parseRest at h
    refine ⟨⟨[], s⟩, rfl, ?_⟩
    split at h
    · rename_i hs
      cases h
      subst hs
      exact ⟨rfl, ⟨by simp, by simp, by simp, by simp⟩, by simp⟩
    · split at h
      · cases h
      · rename_i hs hn
        cases h
        refine ⟨by simp [Rule.pieces, textPiece, hs], ⟨by simp, by simp, fun h => hn (.inr h), fun h => hn (.inl h)⟩, by simp⟩
  induction n with
  | zero => intro used s ps h; exact hrest used s ps h
  | succ n ih =>
    intro used s ps h
    unfold parseGo at h
    split at h
    · exact hrest used s ps h
    · rename_i m hm
      have hmem : m ∈ Re.run routeRe none s := List.mem_of_mem_head? hm
      obtain ⟨st, v, e1, e2, e3, e4, e5, e6, e7, e8⟩ := mem_route none s m hmem
      simp only [e5, e6, e7, e8, Option.getD_some] at h
      split at h
      · cases h
      · rename_i hu
        split at h
        · cases h
        · rename_i ps' hps
          cases h
          obtain ⟨r, r1, r2, r3, r4⟩ := ih _ _ _ hps
          refine ⟨⟨(st, v) :: r.vars, r.tail⟩, ?_, ?_, ⟨?_, ?_, r3.2.2⟩, ?_⟩
          · rw [← e1, e2, r1]
            simp [Rule.text]
          · rw [r2]
            have : Rule.pieces ⟨(st, v) :: r.vars, r.tail⟩ = textPiece st ++ [v.piece] ++ r.pieces := by simp [Rule.pieces]
            rw [this]
            unfold textPiece Var.piece
            rcases v.conv with _ | ⟨c, _ | _ | ⟨x, xs⟩⟩ <;> simp
          · intro p hp
            rcases List.mem_cons.1 hp with rfl | hp
            · exact ⟨e3, e4⟩
            · exact r3.1 p hp
          · rw [List.map_cons, List.nodup_cons]
            refine ⟨?_, r3.2.1⟩
            intro hm
            obtain ⟨p, hp, hpn⟩ := List.mem_map.1 hm
            exact r4 p hp (hpn ▸ .head _)
          · intro p hp
            rcases List.mem_cons.1 hp with rfl | hp
            · exact hu
            · exact fun h => r4 p hp (.tail _ h)

/-- **C111** (nothing else): what is accepted as a rule is made of texts and variables with different names, and is
read as these; nothing of it is lost. -/
theorem C111_only (s : Str) (ps : List Piece) (h : parseRoute s = .ok ps) : ∃ r : Rule, s = r.text ∧ ps = r.pieces ∧ r.Ok := by
  obtain ⟨r, h1, h2, h3, _⟩ := read_back _ _ _ _ h
  exact ⟨r, h1, h2, h3⟩

theorem parseGo_error (n : Nat) : ∀ (used : List Str) (s : Str) (e : PyErr), parseGo n used s = .error e → e = .valueError := by
  have hrest : ∀ s e, parseRest s = .error e → e = .valueError := by
    intro s e h
    unfold parseRest at h
    split at h
    · cases h
    · split at h
      · cases h; rfl
      · cases h
  induction n with
  | zero => intro used s e h; exact hrest s e h
  | succ n ih =>
    intro used s e h
    unfold parseGo at h
    split at h
    · exact hrest s e h
    · simp only at h
      split at h
      · cases h; rfl
      · split at h
        · rename_i e' he
          cases h
          exact ih _ _ _ he
        · cases h

/-- **C111** (refusals): everything else, such as a variable used twice or an angle bracket without its partner, is
refused with `ValueError`. -/
theorem C111_refused (s : Str) (h : ¬ ∃ r : Rule, s = r.text ∧ r.Ok) : parseRoute s = .error .valueError := by
  cases hp : parseRoute s with
  | ok ps =>
    obtain ⟨r, h1, _, h3⟩ := C111_only s ps hp
    exact absurd ⟨r, h1, h3⟩ h
  | error e => rw [parseGo_error _ _ _ _ hp]

/-- **C111** fails for closing parentheses: arguments end at the first `)` before a colon, a name and `>`; a
quoted `"):b>"` ends them early. -/
theorem C111_parenthesis_false : parseRoute s%"/<any(\"):b>\"):c>" = .error .valueError ∧
    parseRoute s%"/<any(\"):b>c\", d)" = .ok [.text s%"/", .var s%"any" (some s%"\"") s%"b", .text s%"c\", d)"] := by
  refine ⟨by decide +kernel, by decide +kernel⟩

/-- A closing bracket in the text before a variable is accepted, at the end it is not. -/
theorem C111_bracket_corner : parseRoute s%"/a>b/<x>" = .ok [.text s%"/a>b/", .var s%"default" none s%"x"] ∧
    parseRoute s%"/<x>/a>b" = .error .valueError ∧ parseRoute s%"/<x>/<x>" = .error .valueError := by
  refine ⟨by decide +kernel, by decide +kernel, by decide +kernel⟩

/-- The converter of a variable in the rules of a map. -/
def Var.convIn (cfg : Config) (v : Var) : Except PyErr Converter :=
  match v.piece with
  | .var c a _ => cfg.conv c a
  | .text _ => .error .valueError

/-- The parts a rule is compiled to: its texts, and its variables with their converters. -/
inductive Compiled (cfg : Config) : List (Str × Var) → Str → List Part → Prop where
  | nil (tail) : Compiled cfg [] tail (if tail = [] then [] else [.text tail])
  | cons {vars tail ps} (st v c) (hc : v.convIn cfg = .ok c) (h : Compiled cfg vars tail ps) :
    Compiled cfg ((st, v) :: vars) tail ((if st = [] then [] else [.text st]) ++ .var v.name c :: ps)

theorem build_text (cfg : Config) (s : Str) (ps : List Piece) (qs : List Part) (h : build_regex cfg (textPiece s ++ ps) = .ok qs) :
    ∃ rs, build_regex cfg ps = .ok rs ∧ qs = (if s = [] then [] else [.text s]) ++ rs := by
  unfold textPiece at h
  split at h
  · rename_i hs
    exact ⟨qs, h, by simp [hs]⟩
  · rename_i hs
    simp only [List.cons_append, List.nil_append, build_regex] at h
    split at h
    · cases h
    · rename_i l hl
      cases h
      exact ⟨l, hl, by simp [hs]⟩

theorem build_pieces (cfg : Config) (vars : List (Str × Var)) (tail : Str) : ∀ qs,
    build_regex cfg (Rule.pieces ⟨vars, tail⟩) = .ok qs → Compiled cfg vars tail qs := by
  induction vars with
  | nil =>
    intro qs h
    have h : build_regex cfg (textPiece tail ++ []) = .ok qs := by simpa [Rule.pieces] using h
    obtain ⟨rs, h1, rfl⟩ := build_text cfg tail [] qs h
    cases h1
    simpa using Compiled.nil tail
  | cons p vars ih =>
    obtain ⟨st, v⟩ := p
    intro qs h
    have e : Rule.pieces ⟨(st, v) :: vars, tail⟩ = textPiece st ++ (v.piece :: Rule.pieces ⟨vars, tail⟩) := by simp [Rule.pieces]
    rw [e] at h
    obtain ⟨rs, h1, rfl⟩ := build_text cfg st _ qs h
    have hn : ∃ c a, v.piece = .var c a v.name := by
      unfold Var.piece
      split <;> exact ⟨_, _, rfl⟩
    obtain ⟨c, a, hv⟩ := hn
    rw [hv] at h1
    simp only [build_regex] at h1
    split at h1
    · cases h1
    · rename_i conv hconv
      split at h1
      · cases h1
      · rename_i l hl
        cases h1
        exact .cons st v conv (by unfold Var.convIn; rw [hv]; exact hconv) (ih l hl)

theorem compiled_vars (cfg : Config) {vars tail ps} (h : Compiled cfg vars tail ps) : ∀ p ∈ vars,
    ∃ c, p.2.convIn cfg = .ok c ∧ (p.2.name, c) ∈ Routing.vars ps := by
  have hv : ∀ (s : Str) ps, Routing.vars ((if s = [] then [] else [.text s]) ++ ps) = Routing.vars ps := by
    intro s ps
    split <;> rfl
  induction h with
  | nil => intro p hp; cases hp
  | cons st v c hc _ ih =>
    intro p hp
    rw [hv]
    rcases List.mem_cons.1 hp with rfl | hp
    · exact ⟨c, hc, .head _⟩
    · obtain ⟨c', h1, h2⟩ := ih p hp
      exact ⟨c', h1, .tail _ h2⟩

/-- **C111** (routes): the path of a route consists of the texts and variables of its rule, in their order, each
variable with the converter named for it; slashes at the end of the rule are not part of it. -/
theorem C111_route (cfg : Config) (i : Nat) (r : Route) (b : Bound) (hc : compile cfg i r = .ok b) (q : Rule) (hq : q.Ok)
    (hf : q.Flat) (hl : q.text.getLast? ≠ some '/') (n : Nat) (hr : r.rule = q.text ++ List.replicate n '/') :
    Compiled cfg q.vars q.tail b.path := by
  have hrule : (if r.leaf then r.rule else rstripSlash r.rule) = q.text := by
    cases n with
    | zero =>
      have : r.leaf = true := by
        unfold Route.leaf
        rw [hr]
        simpa using hl
      rw [this, hr]
      simp
    | succ n =>
      have : r.leaf = false := by
        unfold Route.leaf
        rw [hr, List.replicate_succ', ← List.append_assoc, List.getLast?_concat]
        rfl
      rw [this, hr]
      exact FactoryP.trim_slashes q.text (n + 1) hl
  unfold compile at hc
  simp only at hc
  split at hc
  · cases hc
  · rw [hrule, C111_read q hq hf] at hc
    split at hc
    · cases hc
    · cases ‹Except.ok q.pieces = _›
    · rename_i ds ps _ hps
      cases hps
      split at hc
      · cases hc
      · cases hc
      · rename_i d p _ hp
        split at hc
        · cases hc
          exact build_pieces cfg q.vars q.tail p hp
        · cases hc

/-- **C111** (what is delivered): where a variable of a rule is written with a converter and arguments that stand
for values of a kind, every match of the route delivers such a value for it. -/
theorem C111_delivered (L : ArgLib) (hL : LibOk L) (cfg : Config) (hcfg : cfg.conv = defaultConv L) (i : Nat) (r : Route)
    (b : Bound) (hc : compile cfg i r = .ok b) (q : Rule) (hq : q.Ok) (hf : q.Flat) (hl : q.text.getLast? ≠ some '/')
    (n : Nat) (hr : r.rule = q.text ++ List.replicate n '/') (st : Str) (v : Var) (hv : (st, v) ∈ q.vars) (k : Kind) (hk : k.Ok)
    (hconv : v.convIn cfg = .ok (k.conv L.dec)) (hd : v.name ∉ Dict.keys r.defaults) (path : Str) (vs : Values)
    (hm : b.match_ cfg path = .values vs ∨ b.match_ cfg path = .alias vs) :
    ∃ x, Dict.get vs v.name = some x ∧ k.Valid x := by
  have hp := C111_route cfg i r b hc q hq hf hl n hr
  obtain ⟨c, h1, h2⟩ := compiled_vars cfg hp (st, v) hv
  rw [hconv] at h1
  cases h1
  have hbr : b.route = r := by
    unfold compile at hc
    simp only at hc
    split at hc
    · cases hc
    · split at hc
      · cases hc
      · cases hc
      · split at hc
        · cases hc
        · cases hc
        · split at hc
          · cases hc; rfl
          · cases hc
  exact C50_delivered L.dec hL.decimal cfg (C110_pure L cfg hcfg) i r b hc path vs hm v.name k hk
    (List.mem_append_right _ h2) (by rw [hbr]; exact hd)

/-- A rule with three variables. -/
def sampleRule : Rule :=
  ⟨[(s%"/a/", ⟨none, s%"x"⟩), (s%"-", ⟨some (s%"int", none), s%"n_1"⟩), ([], ⟨some (s%"any", some s%"b, c"), s%"y"⟩)], s%"/d"⟩

theorem sample_ok : sampleRule.Ok ∧ sampleRule.Flat := by
  have hid : ∀ s ∈ [s%"x", s%"int", s%"n_1", s%"any", s%"y"], Ident s := by
    simp only [List.mem_cons, List.not_mem_nil, or_false]
    rintro s (rfl | rfl | rfl | rfl | rfl) <;> exact ⟨_, _, rfl, by decide, by decide⟩
  refine ⟨⟨?_, by decide, by decide, by decide⟩, ?_⟩
  · simp only [sampleRule, List.mem_cons, List.not_mem_nil, or_false]
    rintro p (rfl | rfl | rfl)
    · exact ⟨by decide, hid _ (by simp), fun c a h => by cases h⟩
    · exact ⟨by decide, hid _ (by simp), fun c a h => by cases h; exact ⟨hid _ (by simp), fun s h => by cases h⟩⟩
    · exact ⟨by decide, hid _ (by simp), fun c a h => by cases h; exact ⟨hid _ (by simp), fun s h => by cases h; decide⟩⟩
  · simp only [Rule.Flat, sampleRule, List.mem_cons, List.not_mem_nil, or_false]
    rintro p (rfl | rfl | rfl) c a h
    · cases h
    · cases h
    · cases h; decide

example : parseRoute s%"/a/<x>-<int:n_1><any(b, c):y>/d" = .ok [.text s%"/a/", .var s%"default" none s%"x", .text s%"-",
    .var s%"int" none s%"n_1", .var s%"any" (some s%"b, c") s%"y", .text s%"/d"] :=
  C111_read sampleRule sample_ok.1 sample_ok.2

/-- A map with the converters of the library. -/
def ruleCfg : Config := { conv := defaultConv demoLib, urljoin := fun _ s => s }

/-- `/year/<int(min=1970, max=2100):y>/`. -/
def yearRule : Rule := ⟨[(s%"/year/", ⟨some (s%"int", some s%"min=1970, max=2100"), s%"y"⟩)], []⟩

theorem year_ok : yearRule.Ok ∧ yearRule.Flat := by
  refine ⟨⟨?_, by decide, by decide, by decide⟩, ?_⟩
  · simp only [yearRule, List.mem_singleton]
    rintro p rfl
    exact ⟨by decide, ⟨_, _, rfl, by decide, by decide⟩, fun c a h => by
      cases h; exact ⟨⟨_, _, rfl, by decide, by decide⟩, fun s h => by cases h; decide⟩⟩
  · simp only [Rule.Flat, yearRule, List.mem_singleton]
    rintro p rfl c a h
    cases h
    decide

example (b : Bound) (hc : compile ruleCfg 0 (sampleRoute s%"/year/<int(min=1970, max=2100):y>/" s%"e") = .ok b) (path : Str)
    (vs : Values) (hm : b.match_ ruleCfg path = .values vs) :
    ∃ x, Dict.get vs s%"y" = some x ∧ Kind.Valid (.int 0 (some 1970) (some 2100)) x := by
  refine C111_delivered demoLib demoLib_ok ruleCfg rfl 0 _ b hc yearRule year_ok.1 year_ok.2 (by decide +kernel) 1
    (by decide +kernel) _ _ (.head _) (.int 0 (some 1970) (some 2100)) trivial ?_ (by decide) path vs (.inl hm)
  have h := C110_int demoLib_ok [(s%"min", 1970), (s%"max", 2100)] (by decide +kernel) (by decide +kernel)
  rwa [show render (numbers [(s%"min", 1970), (s%"max", 2100)]) = s%"min=1970, max=2100" by decide +kernel] at h

end Verif.Props.RuleP
