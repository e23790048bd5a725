import Verif.Model.UrlJoin
import Verif.Props.Iri
import Verif.Props.Response
/-! Property theorems C104: the `Location` header that is sent. -/
namespace Verif.Props.JoinP
open Verif Verif.Py Verif.ReqUrl Verif.Iri Verif.UrlJoin Verif.Props.ReqUrlP Verif.Props.IriP

/-! ### Taking references apart -/

/-- A reference: a path, and perhaps a query and a fragment. -/
def refText (p : Str) (q f : Option Str) : Str := p ++ (q.elim [] ('?' :: ·)) ++ (f.elim [] ('#' :: ·))

/-- The delimiters that the parts of a reference are free of. -/
structure RefParts (p : Str) (q : Option Str) : Prop where
  noQuery : '?' ∉ p
  noFragment : '#' ∉ p
  queryNoFragment : '#' ∉ q.getD []

theorem splitRest_ref (scheme p : Str) (q f : Option Str) (h : RefParts p q) (hp : ¬ s%"//" <+: p) :
    splitRest scheme (refText p q f) = .ok ⟨scheme, [], p, q.getD [], f.getD []⟩ := by
  obtain ⟨h1, h2, h3⟩ := h
  have hn : ¬ s%"//" <+: refText p q f := by
    intro hh
    apply hp
    unfold refText at hh
    match p, hh with
    | [], hh =>
      exfalso
      revert hh
      cases q <;> cases f <;> simp
    | [x], hh =>
      exfalso
      revert hh
      cases q <;> cases f <;> simp
    | x :: y :: p, hh =>
      simp at hh ⊢
      exact hh
  have e5 : '#' ∉ p ++ q.elim [] ('?' :: ·) := by
    simp only [List.mem_append, not_or]
    refine ⟨h2, ?_⟩
    cases q with
    | none => simp
    | some q => simpa using h3
  have e3 : (split1 '#' (refText p q f)).1 = p ++ q.elim [] ('?' :: ·) ∧ (split1 '#' (refText p q f)).2.getD [] = f.getD [] := by
    unfold refText
    generalize p ++ q.elim [] ('?' :: ·) = x at e5
    cases f with
    | none => simp only [Option.elim]; rw [List.append_nil, split1_none '#' x e5]; simp
    | some f => simp only [Option.elim]; rw [split1_some '#' x f e5]; simp
  have e4 : (split1 '?' (p ++ q.elim [] ('?' :: ·))).1 = p ∧ (split1 '?' (p ++ q.elim [] ('?' :: ·))).2.getD [] = q.getD [] := by
    cases q with
    | none => simp only [Option.elim]; rw [List.append_nil, split1_none '?' p h1]; simp
    | some q => simp only [Option.elim]; rw [split1_some '?' p q h1]; simp
  unfold splitRest
  rw [if_neg hn]
  simp only
  rw [if_neg (by simp)]
  simp only [e3, e4]

theorem split1_before {a b pre rest : Str} {d : Char} (ha : ':' ∉ a) (hd : d ≠ ':') (h : split1 ':' (a ++ d :: b) = (pre, some rest)) :
    d ∈ pre := by
  induction a generalizing pre with
  | nil =>
    simp only [List.nil_append, split1, if_neg hd] at h
    have h1 := congrArg Prod.fst h
    simp only at h1
    rw [← h1]
    simp
  | cons x a ih =>
    simp only [List.mem_cons, not_or] at ha
    simp only [List.cons_append, split1, if_neg (Ne.symm ha.1)] at h
    have h1 := congrArg Prod.fst h
    have h2 := congrArg Prod.snd h
    simp only at h1 h2
    subst h1
    exact List.mem_cons_of_mem _ (ih ha.2 (Prod.ext rfl h2))

/-- A delimiter of paths, queries or fragments before any colon: no scheme. -/
theorem urlsplit_noscheme (lower : Str → Str) {a b : Str} {d : Char} (ha : ':' ∉ a) (hd : d = '/' ∨ d = '?' ∨ d = '#') :
    urlsplit lower (a ++ d :: b) = splitRest [] (a ++ d :: b) := by
  have hd' : d ≠ ':' := by rcases hd with rfl | rfl | rfl <;> decide
  have hs : schemeChar d = false := by rcases hd with rfl | rfl | rfl <;> decide
  unfold urlsplit
  split
  · rfl
  · rfl
  · rename_i pre rest hne h
    have hm := split1_before ha hd' h
    rw [if_neg, if_neg]
    · simp only [Bool.and_eq_true, List.all_eq_true]
      intro hh
      exact absurd (hh.1 d hm) (by simp [hs])
    · rintro rfl
      rcases hd with rfl | rfl | rfl <;> revert hm <;> decide

/-- No colon that would end a scheme: there is none, or a slash comes before. -/
def Schemeless (p : Str) : Prop := ':' ∉ p ∨ ∃ a b, p = a ++ '/' :: b ∧ ':' ∉ a

theorem schemeless_root {p : Str} (h : p.head? = some '/') : Schemeless p := by
  cases p with
  | nil => cases h
  | cons x p => cases h; exact .inr ⟨[], p, rfl, by simp⟩

/-- A reference to the same machine: the path is not a second authority and has no scheme. -/
def Local (p : Str) : Prop := ¬ s%"//" <+: p ∧ Schemeless p

theorem urlsplit_ref (lower : Str → Str) (p : Str) (q f : Option Str) (h : RefParts p q) (hl : Local p) :
    urlsplit lower (refText p q f) = .ok ⟨[], [], p, q.getD [], f.getD []⟩ := by
  rw [← splitRest_ref [] p q f h hl.1]
  rcases hl.2.symm with ⟨a, b, rfl, hp⟩ | hp
  · have : refText (a ++ '/' :: b) q f = a ++ '/' :: refText b q f := by simp [refText]
    rw [this]
    exact urlsplit_noscheme lower hp (.inl rfl)
  · cases q with
    | some q =>
      have : refText p (some q) f = p ++ '?' :: (q ++ f.elim [] ('#' :: ·)) := by simp [refText]
      rw [this]
      exact urlsplit_noscheme lower hp (.inr (.inl rfl))
    | none =>
      cases f with
      | some f =>
        have : refText p none (some f) = p ++ '#' :: f := by simp [refText]
        rw [this]
        exact urlsplit_noscheme lower hp (.inr (.inr rfl))
      | none =>
        have : refText p none none = p := by simp [refText]
        rw [this]
        unfold urlsplit
        rw [split1_none ':' p hp]

/-! ### Joining paths -/

/-- The text of a directory: every segment after a slash. -/
def dirText (segs : List Str) : Str := segs.flatMap ('/' :: ·)

/-- An ordinary segment of a path: not empty, no slash in it and neither `.` nor `..`. -/
def Segment (s : Str) : Prop := s ≠ [] ∧ '/' ∉ s ∧ s ≠ s%"." ∧ s ≠ s%".."

/-- No segment is `.` or `..`. -/
def Dotless (p : Str) : Prop := ∀ s ∈ splitOn '/' p, s ≠ s%"." ∧ s ≠ s%".."

theorem resolve_go (segs acc : List Str) (h : ∀ s ∈ segs, s ≠ s%"." ∧ s ≠ s%"..") :
    segs.foldl (fun acc s => if s = s%".." then acc.dropLast else if s = s%"." then acc else acc ++ [s]) acc = acc ++ segs := by
  induction segs generalizing acc with
  | nil => simp
  | cons x segs ih =>
    simp only [List.foldl_cons]
    rw [if_neg (h x (by simp)).2, if_neg (h x (by simp)).1, ih _ (fun s hs => h s (by simp [hs]))]
    simp

theorem resolve_self (segs : List Str) (h : ∀ s ∈ segs, s ≠ s%"." ∧ s ≠ s%"..") : resolve segs = segs := by
  unfold resolve
  rw [resolve_go _ _ h]; simp

theorem getLastD_concat {α} (l : List α) (x d : α) : (l ++ [x]).getLastD d = x := by
  rw [List.getLastD_eq_getLast?, List.getLast?_concat]; rfl

theorem getLastD_mem {α} {l : List α} (d : α) (h : l ≠ []) : l.getLastD d ∈ l := by
  rw [List.getLastD_eq_getLast?, List.getLast?_eq_some_getLast h]
  exact List.getLast_mem h

theorem joined_self {bpath path : Str} (h : ∀ s ∈ segments bpath path, s ≠ s%"." ∧ s ≠ s%"..") (hne : segments bpath path ≠ [])
    (hj : join s%"/" (segments bpath path) ≠ []) : joinPath bpath path = join s%"/" (segments bpath path) := by
  unfold joinPath
  simp only
  have hd := h _ (getLastD_mem [] hne)
  have : (if (segments bpath path).getLastD [] = s%"." ∨ (segments bpath path).getLastD [] = s%".." then [[]] else []) =
      ([] : List Str) := if_neg (fun h => h.elim hd.1 hd.2)
  rw [resolve_self _ h, this, List.append_nil, if_neg hj]

theorem joinPath_ne_nil (bpath path : Str) : joinPath bpath path ≠ [] := by
  unfold joinPath
  simp only
  generalize join s%"/" (resolve (segments bpath path) ++ _) = x
  split
  · simp
  · assumption

theorem joinPath_root (bpath path : Str) (h : Dotless path) (hs : path.head? = some '/') : joinPath bpath path = path := by
  have e : segments bpath path = splitOn '/' path := by
    unfold segments; rw [if_pos hs]
  have hj : join s%"/" (segments bpath path) = path := by rw [e]; exact join_splitOn '/' path
  rw [joined_self (by rw [e]; exact h) (by rw [e]; exact splitOn_ne_nil _ _) (by
    rw [hj]; rintro rfl; simp at hs), hj]

theorem splitOn_dir (segs : List Str) (h : ∀ s ∈ segs, '/' ∉ s) (rest : Str) :
    splitOn '/' (dirText segs ++ '/' :: rest) = [] :: segs ++ splitOn '/' rest := by
  induction segs with
  | nil => simp [dirText, splitOn]
  | cons x segs ih =>
    have : dirText (x :: segs) ++ '/' :: rest = [] ++ '/' :: (x ++ (dirText segs ++ '/' :: rest)) := by
      simp [dirText]
    rw [this, splitOn_append '/' [] _ (by simp)]
    have ih := ih (fun s hs => h s (by simp [hs]))
    cases segs with
    | nil =>
      simp only [dirText, List.flatMap_nil, List.nil_append] at ih ⊢
      rw [splitOn_append '/' x _ (h x (by simp))]
      simp
    | cons y segs =>
      have e : dirText (y :: segs) ++ '/' :: rest = '/' :: (y ++ dirText segs ++ '/' :: rest) := by simp [dirText]
      rw [e] at ih ⊢
      rw [splitOn_append '/' x _ (h x (by simp))]
      simp only [splitOn, if_true] at ih
      rw [List.cons_append, List.cons.injEq] at ih
      rw [ih.2]
      simp

theorem filter_all {α} {p : α → Bool} {l : List α} (h : ∀ x ∈ l, p x = true) : l.filter p = l :=
  List.filter_eq_self.2 h

/-- The segments but for the last one are not empty. -/
def Packed (p : Str) : Prop := ∀ s ∈ (splitOn '/' p).dropLast, s ≠ []

theorem squeeze_dir (segs ps : List Str) (h1 : ∀ s ∈ segs, s ≠ []) (h2 : ∀ s ∈ ps.dropLast, s ≠ []) (hne : ps ≠ []) :
    squeeze (([] :: segs ++ [[]]) ++ ps) = [] :: segs ++ ps := by
  have hl : ∃ init last, ps = init ++ [last] := ⟨ps.dropLast, ps.getLast hne, (List.dropLast_concat_getLast hne).symm⟩
  obtain ⟨init, last, rfl⟩ := hl
  rw [List.dropLast_concat] at h2
  have e : ([] :: segs ++ [[]]) ++ (init ++ [last]) = [] :: ((segs ++ [[]] ++ init) ++ [last]) := by simp
  rw [e]
  have : ∃ y rest, (segs ++ [[]] ++ init) ++ [last] = y :: rest := by
    cases segs with
    | nil => exact ⟨_, _, rfl⟩
    | cons a b => exact ⟨_, _, rfl⟩
  obtain ⟨y, rest, hy⟩ := this
  rw [hy]
  simp only [squeeze]
  rw [← hy]
  rw [List.dropLast_concat]
  have hlast : ((segs ++ [[]] ++ init) ++ [last]).getLastD [] = last := getLastD_concat _ _ _
  rw [hlast]
  have f1 : segs.filter (· ≠ []) = segs := filter_all (by simpa using h1)
  have f2 : init.filter (· ≠ []) = init := filter_all (by simpa using h2)
  rw [List.filter_append, List.filter_append, f1, f2]
  simp

theorem join_dir (segs ps : List Str) (hne : ps ≠ []) : join s%"/" ([] :: segs ++ ps) = dirText segs ++ '/' :: join s%"/" ps := by
  induction segs with
  | nil =>
    cases ps with
    | nil => exact absurd rfl hne
    | cons a b => simp [join, dirText]
  | cons x segs ih =>
    have hne' : segs ++ ps ≠ [] := by simp [hne]
    have ih : join s%"/" ([] :: (segs ++ ps)) = dirText segs ++ '/' :: join s%"/" ps := by simpa using ih
    cases hc : segs ++ ps with
    | nil => exact absurd hc hne'
    | cons a b =>
      rw [hc] at ih
      simp only [List.cons_append, hc]
      simp only [join] at ih ⊢
      simp [dirText] at ih ⊢
      rw [ih]

theorem dir_slash (segs : List Str) (hs : ∀ s ∈ segs, '/' ∉ s) : splitOn '/' (dirText segs ++ s%"/") = [] :: segs ++ [[]] :=
  splitOn_dir segs hs []

/-- A relative path is put after the directory. -/
theorem joinPath_dir (segs : List Str) (hs : ∀ s ∈ segs, Segment s) (path : Str) (h : Dotless path) (hp : Packed path)
    (hr : path.head? ≠ some '/') :
    joinPath (dirText segs ++ s%"/") path = dirText segs ++ '/' :: path := by
  have e : segments (dirText segs ++ s%"/") path = [] :: segs ++ splitOn '/' path := by
    unfold segments
    rw [if_neg hr]
    simp only
    rw [dir_slash segs (fun s h => (hs s h).2.1), if_neg (by rw [getLastD_concat]; simp),
      squeeze_dir _ _ (fun s h => (hs s h).1) hp (splitOn_ne_nil _ _)]
  have hj : join s%"/" (segments (dirText segs ++ s%"/") path) = dirText segs ++ '/' :: path := by
    rw [e, join_dir _ _ (splitOn_ne_nil _ _)]
    have : join s%"/" (splitOn '/' path) = path := join_splitOn '/' path
    rw [this]
  rw [joined_self _ (by rw [e]; simp) (by rw [hj]; simp), hj]
  rw [e]
  intro s hm
  simp only [List.cons_append, List.mem_cons, List.mem_append] at hm
  rcases hm with rfl | hm | hm
  · decide
  · exact (hs s hm).2.2
  · exact h s hm

/-! ### Joining URLs -/

theorem web_params {scheme : Str} (hs : Web scheme) : scheme ∈ usesParams := by
  rcases hs with rfl | rfl <;> decide

theorem web_relative {scheme : Str} (hs : Web scheme) : scheme ∈ usesRelative := by
  rcases hs with rfl | rfl <;> decide

theorem web_ne {scheme : Str} (hs : Web scheme) : scheme ≠ [] := by
  rcases hs with rfl | rfl <;> decide

/-- The URL of a directory on a machine: what an application's root looks like. -/
structure Root (scheme host dir : Str) : Prop where
  web : Web scheme
  nonempty : host ≠ []
  plain : ∀ c ∈ s%"/?#", c ∉ host
  brackets : '[' ∈ host ↔ ']' ∈ host
  slash : dir = [] ∨ dir.head? = some '/'
  noQuery : '?' ∉ dir
  noFragment : '#' ∉ dir

theorem splitParams_none {p : Str} (h : ';' ∉ p) : splitParams p = (p, []) := by
  unfold splitParams
  split
  · rw [split1_none ';' p h]; rfl
  · rename_i dir last hd
    obtain ⟨rfl, _⟩ := rsplit1_some hd
    have : ';' ∉ last := fun h' => h (by simp [h'])
    rw [split1_none ';' last this]; rfl

theorem splitParams_dir (dir : Str) : splitParams (dir ++ s%"/") = (dir ++ s%"/", []) := by
  unfold splitParams
  rw [rsplit1_eq (by simp)]
  rfl

theorem urlparse_root (lower : Str → Str) (hl : lower s%"https" = s%"https") {scheme host dir : Str} (h : Root scheme host dir) :
    urlparse lower (scheme ++ s%"://" ++ (host ++ (dir ++ s%"/"))) [] = .ok ⟨scheme, host, dir ++ s%"/", [], [], []⟩ := by
  have e : host ++ (dir ++ s%"/") = host ++ ((dir ++ s%"/") ++ optText '?' [] ++ optText '#' []) := by simp [optText]
  have hsl : (dir ++ s%"/") = [] ∨ (dir ++ s%"/").head? = some '/' := by
    right
    rcases h.slash with rfl | hd
    · rfl
    · rw [List.head?_append, hd]; rfl
  unfold urlparse
  rw [urlsplit_web lower hl h.web, e, splitRest_web scheme host (dir ++ s%"/") [] [] h.plain h.brackets hsl
    (by simp [h.noQuery]) (by simp [h.noFragment]) (by simp)]
  simp only
  rw [if_neg (web_ne h.web), if_pos (web_params h.web), splitParams_dir]

/-- What is joined to the root when the reference is to the same machine. -/
theorem urljoin_ref (lower : Str → Str) (hl : lower s%"https" = s%"https") {scheme host dir : Str} (h : Root scheme host dir)
    (p : Str) (q f : Option Str) (hp : RefParts p q) (hloc : Local p) (hsemi : ';' ∉ p) :
    urljoin lower (scheme ++ s%"://" ++ (host ++ (dir ++ s%"/"))) (refText p q f) =
      .ok (urlunparse ⟨scheme, host, if p = [] then dir ++ s%"/" else joinPath (dir ++ s%"/") p, [], q.getD [], f.getD []⟩) := by
  have hb : scheme ++ s%"://" ++ (host ++ (dir ++ s%"/")) ≠ [] := by simp
  unfold urljoin
  rw [if_neg hb]
  by_cases he : refText p q f = []
  · rw [if_pos he]
    have : p = [] ∧ q = none ∧ f = none := by
      unfold refText at he
      cases q <;> cases f <;> simp at he
      exact ⟨he, rfl, rfl⟩
    obtain ⟨rfl, rfl, rfl⟩ := this
    simp only [if_true, Option.getD]
    unfold urlunparse
    simp only [ne_eq, not_true, if_false]
    rw [urlunsplit_parts _ h.web h.nonempty]
    · simp [optText]
    · right
      rcases h.slash with rfl | hd
      · rfl
      · rw [List.head?_append, hd]; rfl
  · rw [if_neg he, urlparse_root lower hl h]
    simp only
    have : urlparse lower (refText p q f) scheme = .ok ⟨scheme, [], p, [], q.getD [], f.getD []⟩ := by
      unfold urlparse
      rw [urlsplit_ref lower p q f hp hloc]
      simp only [if_true]
      rw [if_pos (web_params h.web), splitParams_none hsemi]
    rw [this]
    simp only
    rw [if_neg (by simp [web_relative h.web]), if_neg (by simp)]
    by_cases h0 : p = []
    · have hq : ∀ x : Str, (if x = [] then [] else x) = x := by intro x; split <;> simp [*]
      rw [if_pos ⟨h0, trivial⟩, if_pos h0, hq]
    · rw [if_neg (by simp [h0]), if_neg h0]

/-- Whatever a reference to the same machine says, the result is on that machine. -/
theorem urljoin_stays (lower : Str → Str) (hl : lower s%"https" = s%"https") {scheme host dir : Str} (h : Root scheme host dir)
    (p : Str) (q f : Option Str) (hp : RefParts p q) (hloc : Local p) (hsemi : ';' ∉ p) :
    ∃ rest, urljoin lower (scheme ++ s%"://" ++ (host ++ (dir ++ s%"/"))) (refText p q f) = .ok (scheme ++ s%"://" ++ host ++ rest) ∧
      rest.head? = some '/' := by
  rw [urljoin_ref lower hl h p q f hp hloc hsemi]
  have key : ∀ x q f : Str, x ≠ [] → ∃ rest, urlunparse ⟨scheme, host, x, [], q, f⟩ = scheme ++ s%"://" ++ host ++ rest ∧
      rest.head? = some '/' := by
    intro x q f hx
    unfold urlunparse urlunsplit
    simp only [ne_eq, not_true, if_false]
    rw [if_pos (Or.inl h.nonempty), if_pos (web_ne h.web)]
    refine ⟨(if x.head? ≠ some '/' then '/' :: x else x) ++ optText '?' q ++ optText '#' f, ?_, ?_⟩
    · by_cases hd : x.head? = some '/' <;> by_cases hq : q = [] <;> by_cases hf : f = [] <;> simp [optText, hx, hd, hq, hf]
    · by_cases hd : x.head? = some '/'
      · simp only [hd, ne_eq, not_true, if_false]
        rw [List.append_assoc, List.head?_append, hd]; rfl
      · simp [hd]
  have hx : (if p = [] then dir ++ s%"/" else joinPath (dir ++ s%"/") p) ≠ [] := by
    split
    · simp
    · exact joinPath_ne_nil _ _
  obtain ⟨rest, h1, h2⟩ := key _ (q.getD []) (f.getD []) hx
  exact ⟨rest, by rw [h1], h2⟩

/-- A path from the root of the machine takes the place of the path. -/
theorem urljoin_path (lower : Str → Str) (hl : lower s%"https" = s%"https") {scheme host dir : Str} (h : Root scheme host dir)
    (p : Str) (q f : Option Str) (hp : RefParts p q) (hs : p.head? = some '/') (h2 : ¬ s%"//" <+: p) (hsemi : ';' ∉ p) (hd : Dotless p) :
    urljoin lower (scheme ++ s%"://" ++ (host ++ (dir ++ s%"/"))) (refText p q f) =
      .ok (scheme ++ s%"://" ++ (host ++ (p ++ optText '?' (q.getD []) ++ optText '#' (f.getD [])))) := by
  rw [urljoin_ref lower hl h p q f hp ⟨h2, schemeless_root hs⟩ hsemi]
  have : p ≠ [] := by rintro rfl; simp at hs
  rw [if_neg this, joinPath_root _ _ hd hs]
  unfold urlunparse
  simp only [ne_eq, not_true, if_false]
  rw [urlunsplit_parts _ h.web h.nonempty (.inr hs)]

/-- A relative path goes below the root. -/
theorem urljoin_below (lower : Str → Str) (hl : lower s%"https" = s%"https") {scheme host : Str} {segs : List Str}
    (hseg : ∀ s ∈ segs, Segment s) (h : Root scheme host (dirText segs))
    (p : Str) (q f : Option Str) (hp : RefParts p q) (hs : p.head? ≠ some '/') (hc : Schemeless p) (hsemi : ';' ∉ p) (hd : Dotless p)
    (hk : Packed p) :
    urljoin lower (scheme ++ s%"://" ++ (host ++ (dirText segs ++ s%"/"))) (refText p q f) =
      .ok (scheme ++ s%"://" ++ (host ++ (dirText segs ++ '/' :: p ++ optText '?' (q.getD []) ++ optText '#' (f.getD [])))) := by
  have h2 : ¬ s%"//" <+: p := by
    intro h'
    apply hs
    obtain ⟨t, rfl⟩ := h'
    rfl
  rw [urljoin_ref lower hl h p q f hp ⟨h2, hc⟩ hsemi]
  have e : (if p = [] then dirText segs ++ s%"/" else joinPath (dirText segs ++ s%"/") p) = dirText segs ++ '/' :: p := by
    split
    · rename_i h0; rw [h0]
    · exact joinPath_dir segs hseg p hd hk hs
  rw [e]
  unfold urlunparse
  simp only [ne_eq, not_true, if_false]
  rw [urlunsplit_parts _ h.web h.nonempty]
  right
  rcases h.slash with h0 | h0
  · rw [h0]; rfl
  · rw [List.head?_append, h0]; rfl

/-! ### Quoting references -/

theorem quoteText_cons (safe : List UInt8) (c : Char) (s : Str) : quoteText safe (c :: s) = quoteText safe [c] ++ quoteText safe s := by
  unfold quoteText
  rw [Utf8.encode_cons, quote_append, latin1_append]
  congr 2
  simp [Utf8.encode]

theorem quoteText_append (safe : List UInt8) (a b : Str) : quoteText safe (a ++ b) = quoteText safe a ++ quoteText safe b := by
  induction a with
  | nil => rfl
  | cons x a ih => rw [List.cons_append, quoteText_cons, ih, quoteText_cons safe x a, List.append_assoc]

/-- One character is left alone, or written with escapes. -/
theorem quoteText_char {safe : List UInt8} (hs : ∀ b ∈ safe, b.toNat < 128) (c : Char) :
    quoteText safe [c] = [c] ∨ (quoteText safe [c]).head? = some '%' := by
  have hpiece : ∀ (b : UInt8) (r : Bytes), ¬ (Urls.alwaysSafe b = true ∨ b ∈ safe) →
      (Utf8.latin1 (Urls.quote safe (b :: r))).head? = some '%' := by
    intro b r hb
    rw [Urls.quote_cons, if_neg hb]; rfl
  unfold quoteText
  have e : Utf8.encode [c] = Utf8.encChar c := by simp [Utf8.encode]
  rw [e]
  by_cases hc : c.toNat < 128
  · rw [Utf8.encChar_ascii hc]
    by_cases hb : Urls.alwaysSafe (Utf8.byte c.toNat) = true ∨ Utf8.byte c.toNat ∈ safe
    · left
      rw [Urls.quote_cons, if_pos hb]
      show [Char.ofNat (Utf8.byte c.toNat).toNat] = [c]
      rw [Utf8.byte_toNat (by omega), Utf8.ofNat_toNat]
    · exact .inr (hpiece _ _ hb)
  · right
    cases hx : Utf8.encChar c with
    | nil => exact absurd hx (encChar_ne_nil c)
    | cons b r =>
      apply hpiece
      have hh := Utf8.encChar_high (by omega : 128 ≤ c.toNat) b (by rw [hx]; simp)
      rintro (h | h)
      · have := alwaysSafe_low h; omega
      · have := hs b h; omega

theorem quoteText_slash {safe : List UInt8} (h47 : (47 : UInt8) ∈ safe) (s : Str) :
    quoteText safe ('/' :: s) = '/' :: quoteText safe s := by
  rw [quoteText_cons]
  have : quoteText safe ['/'] = s%"/" := by
    unfold quoteText
    rw [Utf8.encode_cons, Utf8.encChar_ascii (by decide)]
    have : (Utf8.byte '/'.toNat) = 47 := by decide
    rw [this, List.singleton_append, Urls.quote_cons, if_pos (Or.inr h47)]
    rfl
  rw [this]; rfl

theorem quoteText_head_inv {safe : List UInt8} (hs : ∀ b ∈ safe, b.toNat < 128) {s : Str}
    (h : (quoteText safe s).head? = some '/') : s.head? = some '/' := by
  cases s with
  | nil => simp [quoteText, Utf8.encode, Urls.quote, Utf8.latin1] at h
  | cons c s =>
    rw [quoteText_cons] at h
    rcases quoteText_char hs c with e | e
    · rw [e] at h; simpa using h
    · rw [List.head?_append, e] at h; simp at h

/-- Without escapes nothing was changed. -/
theorem quoteText_plain {safe : List UInt8} (hs : ∀ b ∈ safe, b.toNat < 128) {s : Str} (h : '%' ∉ quoteText safe s) :
    quoteText safe s = s := by
  induction s with
  | nil => rfl
  | cons c s ih =>
    rw [quoteText_cons] at h ⊢
    simp only [List.mem_append, not_or] at h
    rcases quoteText_char hs c with e | e
    · rw [e, ih h.2]; rfl
    · exact absurd (List.mem_of_head? e) h.1

theorem splitOn_before (c : Char) {a : Str} (ha : c ∉ a) (s : Str) :
    splitOn c (a ++ s) = (a ++ (splitOn c s).headD []) :: (splitOn c s).tail := by
  induction a with
  | nil =>
    cases h : splitOn c s with
    | nil => exact absurd h (splitOn_ne_nil c s)
    | cons x l => simp [h]
  | cons x a ih =>
    simp only [List.mem_cons, not_or] at ha
    simp only [List.cons_append, splitOn]
    rw [if_neg (Ne.symm ha.1), ih ha.2]

theorem splitOn_quote {safe : List UInt8} (hs : ∀ b ∈ safe, b.toNat < 128) (h47 : (47 : UInt8) ∈ safe) (p : Str) :
    splitOn '/' (quoteText safe p) = (splitOn '/' p).map (quoteText safe) := by
  induction p with
  | nil => rfl
  | cons c p ih =>
    by_cases hc : c = '/'
    · subst hc
      rw [quoteText_slash h47]
      simp only [splitOn, if_true, ih]
      rfl
    · rw [quoteText_cons, splitOn_before '/' (quoteText_no hs (by decide) (by decide) (Or.inr (by simpa using Ne.symm hc))), ih]
      simp only [splitOn, if_neg hc]
      cases h : splitOn '/' p with
      | nil => exact absurd h (splitOn_ne_nil _ p)
      | cons x l => simp [quoteText_cons safe c x]

theorem quoteText_dots {safe : List UInt8} (hs : ∀ b ∈ safe, b.toNat < 128) {s d : Str} (hd : '%' ∉ d) (h : quoteText safe s = d) : s = d := by
  rw [← h]; exact (quoteText_plain hs (by rw [h]; exact hd)).symm

theorem dotless_quote {safe : List UInt8} (hs : ∀ b ∈ safe, b.toNat < 128) (h47 : (47 : UInt8) ∈ safe) {p : Str} (h : Dotless p) :
    Dotless (quoteText safe p) := by
  intro s hm
  rw [splitOn_quote hs h47] at hm
  obtain ⟨t, ht, rfl⟩ := List.mem_map.1 hm
  exact ⟨fun e => (h t ht).1 (quoteText_dots hs (by decide) e), fun e => (h t ht).2 (quoteText_dots hs (by decide) e)⟩

theorem packed_quote {safe : List UInt8} (hs : ∀ b ∈ safe, b.toNat < 128) (h47 : (47 : UInt8) ∈ safe) {p : Str} (h : Packed p) :
    Packed (quoteText safe p) := by
  intro s hm
  rw [splitOn_quote hs h47, ← List.map_dropLast] at hm
  obtain ⟨t, ht, rfl⟩ := List.mem_map.1 hm
  exact fun e => h t ht (quoteText_nil.1 e)

theorem segment_quote {safe : List UInt8} (hs : ∀ b ∈ safe, b.toNat < 128) {s : Str} (h : Segment s) :
    Segment (quoteText safe s) :=
  ⟨fun e => h.1 (quoteText_nil.1 e), quoteText_no hs (by decide) (by decide) (Or.inr h.2.1),
    fun e => h.2.2.1 (quoteText_dots hs (by decide) e), fun e => h.2.2.2 (quoteText_dots hs (by decide) e)⟩

theorem dirText_quote {safe : List UInt8} (h47 : (47 : UInt8) ∈ safe) (segs : List Str) :
    quoteText safe (dirText segs) = dirText (segs.map (quoteText safe)) := by
  induction segs with
  | nil => rfl
  | cons x segs ih =>
    have e : dirText (x :: segs) = '/' :: (x ++ dirText segs) := by simp [dirText]
    rw [e, quoteText_slash h47, quoteText_append, ih]
    simp [dirText]

theorem schemeless_quote {safe : List UInt8} (hs : ∀ b ∈ safe, b.toNat < 128) (h47 : (47 : UInt8) ∈ safe) {p : Str} (h : Schemeless p) :
    Schemeless (quoteText safe p) := by
  rcases h with h | ⟨a, b, rfl, h⟩
  · exact .inl (quoteText_no hs (by decide) (by decide) (Or.inr h))
  · exact .inr ⟨quoteText safe a, quoteText safe b, by rw [quoteText_append, quoteText_slash h47],
      quoteText_no hs (by decide) (by decide) (Or.inr h)⟩

theorem local_quote {safe : List UInt8} (hs : ∀ b ∈ safe, b.toNat < 128) (h47 : (47 : UInt8) ∈ safe) {p : Str} (h : Local p) :
    Local (quoteText safe p) := by
  refine ⟨?_, ?_⟩
  · intro h'
    apply h.1
    obtain ⟨t, ht⟩ := h'
    have h1 := quoteText_head_inv hs (s := p) (by rw [← ht]; rfl)
    cases p with
    | nil => simp at h1
    | cons c p =>
      simp only [List.head?_cons, Option.some.injEq] at h1
      subst h1
      rw [quoteText_slash h47] at ht
      have h2 := quoteText_head_inv hs (s := p) (by
        have := List.cons.inj ht
        rw [← this.2]; rfl)
      cases p with
      | nil => simp at h2
      | cons d p =>
        simp only [List.head?_cons, Option.some.injEq] at h2
        subst h2
        exact ⟨p, rfl⟩
  · exact schemeless_quote hs h47 h.2

/-- A part that is left out when empty. -/
def optOf (x : Str) : Option Str := if x = [] then none else some x

theorem optOf_getD (x : Str) : (optOf x).getD [] = x := by
  unfold optOf; split <;> simp [*]

theorem refText_optOf (p x y : Str) : refText p (optOf x) (optOf y) = p ++ optText '?' x ++ optText '#' y := by
  unfold refText optOf optText
  by_cases hx : x = [] <;> by_cases hy : y = [] <;> simp [hx, hy]

theorem refParts_quote {p : Str} (x : Str) :
    RefParts (quoteText Urls.pathSafe p) (optOf (quoteText Urls.querySafe x)) :=
  ⟨quoteText_no pathSafe_low (by decide) (by decide) (Or.inl (by decide)),
   quoteText_no pathSafe_low (by decide) (by decide) (Or.inl (by decide)), by
   rw [optOf_getD]; exact quoteText_no querySafe_low (by decide) (by decide) (Or.inl (by decide))⟩

theorem hostUri_nil {idna : Str → Except PyErr Bytes} {lower : Str → Str} (hl : LowerOk lower) : encodeNetloc idna lower [] = .ok [] := by
  have h0 : lower [] = [] := hl.ascii [] ascii_nil
  have e1 : (hostInfo []).1 = [] := rfl
  have e2 : portOf [] = .ok none := rfl
  unfold encodeNetloc hostUri
  simp only [e1, h0, e2]
  rfl

/-- The address of a reference. -/
theorem iriToUri_ref {idna : Str → Except PyErr Bytes} {lower : Str → Str} (hl : LowerOk lower) (p : Str) (q f : Option Str)
    (h : RefParts p q) (hp : Local p) :
    iriToUri idna lower usesNetloc (refText p q f) =
      .ok (refText (quoteText Urls.pathSafe p) (optOf (quoteText Urls.querySafe (q.getD [])))
        (optOf (quoteText Urls.fragmentSafe (f.getD [])))) := by
  unfold iriToUri
  rw [urlsplit_ref lower p q f h hp]
  simp only [hostUri_nil hl]
  rw [refText_optOf]
  unfold urlunsplit
  simp only
  have hu : usesNetloc [] = false := by decide
  unfold optText
  by_cases hq : quoteText Urls.querySafe (q.getD []) = [] <;> by_cases hf : quoteText Urls.fragmentSafe (f.getD []) = [] <;>
    simp [hq, hf, hu]

/-! ### The root of the application -/

theorem shown_plain {s : Str} (h : '%' ∉ shown s) : shown s = s := by
  induction s with
  | nil => rfl
  | cons c s ih =>
    have e : shown (c :: s) = shown [c] ++ shown s := shown_append [c] s
    rw [e] at h ⊢
    simp only [List.mem_append, not_or] at h
    rw [ih h.2]
    unfold shown at h ⊢
    simp only [List.flatMap_cons, List.flatMap_nil, List.append_nil] at h ⊢
    by_cases h1 : c = '%'
    · subst h1; exact absurd h.1 (by simp)
    by_cases h2 : c = ';'
    · subst h2; exact absurd h.1 (by simp)
    by_cases h3 : c = '?'
    · subst h3; exact absurd h.1 (by simp)
    rw [if_neg h1, if_neg h2, if_neg h3]; rfl

theorem shown_mem {s : Str} {c : Char} (h : c ∈ shown s) : c ∈ s%"%253BF" ∨ (c ∈ s ∧ c ≠ '?' ∧ c ≠ ';') := by
  unfold shown at h
  obtain ⟨d, hd, hc⟩ := List.mem_flatMap.1 h
  revert hc
  split
  · intro hc; left; clear h; revert c; decide
  split
  · intro hc; left; clear h; revert c; decide
  split
  · intro hc; left; clear h; revert c; decide
  · rename_i h1 h2 h3
    intro hc
    simp only [List.mem_singleton] at hc
    subst hc
    exact .inr ⟨hd, h3, h2⟩

theorem shown_nil {s : Str} : shown s = [] ↔ s = [] := by
  constructor
  · intro h
    have := shown_plain (s := s) (by rw [h]; simp)
    rw [← this]; exact h
  · rintro rfl; rfl

theorem segment_shown {s : Str} (h : Segment s) : Segment (shown s) := by
  refine ⟨fun e => h.1 (shown_nil.1 e), ?_, fun e => h.2.2.1 ?_, fun e => h.2.2.2 ?_⟩
  · intro hm
    rcases shown_mem hm with h' | h'
    · revert h'; decide
    · exact h.2.1 h'.1
  · rw [← e]; exact (shown_plain (by rw [e]; decide)).symm
  · rw [← e]; exact (shown_plain (by rw [e]; decide)).symm

theorem dirText_shown (segs : List Str) : shown (dirText segs) = dirText (segs.map shown) := by
  induction segs with
  | nil => rfl
  | cons x segs ih =>
    have e : dirText (x :: segs) = s%"/" ++ (x ++ dirText segs) := by simp [dirText]
    rw [e, shown_append, shown_append, ih]
    simp [dirText, shown]

theorem dirText_head (segs : List Str) : dirText segs = [] ∨ (dirText segs).head? = some '/' := by
  cases segs with
  | nil => exact .inl rfl
  | cons x l => exact .inr rfl

theorem dirText_mem {segs : List Str} {c : Char} (h : c ∈ dirText segs) : c = '/' ∨ ∃ s ∈ segs, c ∈ s := by
  unfold dirText at h
  obtain ⟨s, hs, hc⟩ := List.mem_flatMap.1 h
  rcases List.mem_cons.1 hc with rfl | hc
  · exact .inl rfl
  · exact .inr ⟨s, hs, hc⟩

theorem rstrip_dir (segs : List Str) (h : ∀ s ∈ segs, s ≠ [] ∧ '/' ∉ s) : rstripP (· = '/') (dirText segs) = dirText segs := by
  apply rstripP_of_last
  intro c hc
  have hl : ∃ init last, segs = init ++ [last] := by
    rcases List.eq_nil_or_concat segs with rfl | ⟨a, b, rfl⟩
    · simp [dirText] at hc
    · exact ⟨a, b, by simp⟩
  obtain ⟨init, last, rfl⟩ := hl
  have hlast := h last (by simp)
  have e : dirText (init ++ [last]) = dirText init ++ '/' :: last := by simp [dirText]
  rw [e] at hc
  rcases List.eq_nil_or_concat last with rfl | ⟨a, b, rfl⟩
  · exact absurd rfl hlast.1
  · rw [show dirText init ++ '/' :: (a.concat b) = (dirText init ++ '/' :: a) ++ [b] by simp, List.getLast?_concat] at hc
    cases hc
    have : c ≠ '/' := by
      rintro rfl
      exact hlast.2 (by simp)
    simp [this]

/-- What a request says about the application's place: the scheme, the host whose form for
addresses is `n`, and the directories of the script root. -/
structure Home (idna : Str → Except PyErr Bytes) (lower label : Str → Str) (environ : List (Str × Str))
    (scheme n : Str) (segs : List Str) : Prop where
  site : ∃ host h', Site idna lower label none environ scheme host h' ∧ (∀ c ∈ s%"/?#", c ∉ h') ∧ ('[' ∈ h' ↔ ']' ∈ h') ∧
    encodeNetloc idna lower h' = .ok n ∧ (hostInfo h').1 ≠ [] ∧ '[' ∉ (hostInfo h').1 ∧ ']' ∉ (hostInfo h').1 ∧
    IdnaOk idna (lower (hostInfo h').1)
  script : envText environ s%"SCRIPT_NAME" = encodingDance (dirText segs)
  path : ∃ p, envText environ s%"PATH_INFO" = encodingDance p
  query : ∃ q, envText environ s%"QUERY_STRING" = encodingDance q
  segments : ∀ s ∈ segs, Segment s ∧ '#' ∉ s

/-- A directory as it stands in an address. -/
def sentSegment (s : Str) : Str := quoteText Urls.pathSafe (shown s)

theorem sentSegment_ok {s : Str} (h : Segment s) : Segment (sentSegment s) := segment_quote pathSafe_low (segment_shown h)

theorem home_root {idna : Str → Except PyErr Bytes} {lower label : Str → Str} (hl : LowerOk lower)
    {environ : List (Str × Str)} {scheme n : Str} {segs : List Str} (home : Home idna lower label environ scheme n segs) :
    rootUri idna lower label environ = .ok (scheme ++ s%"://" ++ (n ++ (dirText (segs.map sentSegment) ++ s%"/"))) ∧
    Root scheme n (dirText (segs.map sentSegment)) := by
  obtain ⟨⟨host, h', site, hplain, hbr, henc, hr, hb1, hb2, hi⟩, h1, ⟨p, h2⟩, ⟨q, h3⟩, hsegs⟩ := home
  have hl' : lower s%"https" = s%"https" := by rw [hl.ascii _ (by unfold Ascii; decide)]; decide
  obtain ⟨_, k2, k3, k4, _, _⟩ := encodeNetloc_self hl hi henc hr hb1 hb2 hplain
  have hq : ∀ c ∈ s%"?#", c ∉ dirText (segs.map sentSegment) := by
    intro c hc hm
    rcases dirText_mem hm with rfl | ⟨s, hs, hcs⟩
    · revert hc; decide
    · obtain ⟨t, _, rfl⟩ := List.mem_map.1 hs
      simp only [List.mem_cons, List.not_mem_nil, or_false] at hc
      rcases hc with rfl | rfl
      · exact quoteText_no pathSafe_low (by decide) (by decide) (Or.inl (by decide)) hcs
      · exact quoteText_no pathSafe_low (by decide) (by decide) (Or.inl (by decide)) hcs
  refine ⟨?_, ⟨site.web, k2, k3, k4, dirText_head _, hq '?' (by decide), hq '#' (by decide)⟩⟩
  have hu := (C91_urls idna lower label usesNetloc none hl' environ scheme host h' (dirText segs) p q site h1 h2 h3
    (dirText_head segs)).2.1
  rw [rstrip_dir segs (fun s hs => ⟨(hsegs s hs).1.1, (hsegs s hs).1.2.1⟩), dirText_shown] at hu
  unfold rootUri
  rw [show currentUrl idna lower label usesNetloc none .root environ = _ from hu]
  simp only
  have hslash : dirText (segs.map shown) ++ s%"/" = [] ∨ (dirText (segs.map shown) ++ s%"/").head? = some '/' := by
    right
    rcases dirText_head (segs.map shown) with h0 | h0
    · rw [h0]; rfl
    · rw [List.head?_append, h0]; rfl
  have hq2 : ∀ c ∈ s%"?#", c ∉ dirText (segs.map shown) ++ s%"/" := by
    intro c hc hm
    rcases List.mem_append.1 hm with hm | hm
    · rcases dirText_mem hm with rfl | ⟨s, hs, hcs⟩
      · revert hc; decide
      · obtain ⟨t, ht, rfl⟩ := List.mem_map.1 hs
        simp only [List.mem_cons, List.not_mem_nil, or_false] at hc
        rcases shown_mem hcs with h' | ⟨h', h'', _⟩
        · rcases hc with rfl | rfl <;> revert h' <;> decide
        · rcases hc with rfl | rfl
          · exact h'' rfl
          · exact (hsegs t ht).2 h'
    · simp only [List.mem_singleton] at hm
      subst hm
      revert hc; decide
  have e : scheme ++ s%"://" ++ h' ++ dirText (segs.map shown) ++ s%"/" =
      scheme ++ s%"://" ++ (h' ++ ((dirText (segs.map shown) ++ s%"/") ++ optText '?' [] ++ optText '#' [])) := by
    simp [optText]
  unfold iriToUri
  rw [e, urlsplit_web lower hl' site.web, splitRest_web scheme h' _ [] [] hplain hbr hslash (hq2 '?' (by decide)) (hq2 '#' (by decide)) (by simp)]
  simp only [henc]
  have eq : quoteText Urls.pathSafe (dirText (segs.map shown) ++ s%"/") = dirText (segs.map sentSegment) ++ s%"/" := by
    rw [quoteText_append, dirText_quote (by decide)]
    simp only [List.map_map]
    congr 1
  rw [eq, urlunsplit_parts _ site.web k2]
  · have : quoteText Urls.querySafe [] = [] := rfl
    have : quoteText Urls.fragmentSafe [] = [] := rfl
    simp [optText, *]
  · right
    rcases dirText_head (segs.map sentSegment) with h0 | h0
    · rw [h0]; rfl
    · rw [List.head?_append, h0]; rfl

/-- What the directories in an address stand for. -/
theorem meaning_sent (segs : List Str) (rest : Str) :
    Percent.meaning (Utf8.encode (dirText (segs.map sentSegment) ++ '/' :: rest)) =
      Utf8.encode (dirText segs ++ s%"/") ++ Percent.meaning (Utf8.encode rest) := by
  have hsh : ∀ t : Str, Percent.meaning (Utf8.encode (shown t)) = Utf8.encode t := by
    intro t
    rw [← shown_eq, ← escBytes_encode _ (by decide)]
    unfold Percent.meaning
    rw [← Urls.C39_scan]
    exact unescape keptBytes (by decide) _
  have hslash : ∀ a b : Str, Percent.meaning (Utf8.encode (a ++ '/' :: b)) =
      Percent.meaning (Utf8.encode a) ++ 47 :: Percent.meaning (Utf8.encode b) := by
    intro a b
    rw [encode_delim a b '/' (by decide)]
    exact decode_delim [] (by decide) (by decide) _ _
  have e : dirText (segs.map sentSegment) = quoteText Urls.pathSafe (shown (dirText segs)) := by
    rw [dirText_shown, dirText_quote (by decide), List.map_map]; rfl
  rw [hslash, e, quoteText_meaning pathSafe_low (by decide), hsh, Utf8.encode_append]
  have : Utf8.encode s%"/" = [47] := by decide
  rw [this]; simp

/-! ### The headers sent -/

open Verif.Response Verif.Headers

theorem lastValue_one {cfg : Cfg} {name key : Str} (hk : cfg.lower key = name) {h : HList} {v : Str}
    (hg : getlist cfg.lower h key = [v]) : lastValue cfg name h = some v := by
  unfold lastValue
  have key' : ∀ (h : HList) (acc : Option Str), h.foldl (fun acc p => if cfg.lower p.1 = name then some p.2 else acc) acc =
      ((getlist cfg.lower h key).getLast?).or acc := by
    intro h
    induction h with
    | nil => intro acc; simp [getlist]
    | cons p h ih =>
      intro acc
      simp only [List.foldl_cons, getlist, ih, hk]
      by_cases hp : cfg.lower p.1 = name
      · simp only [hp, if_true]
        cases hl : getlist cfg.lower h key with
        | nil => simp
        | cons a b => rw [List.getLast?_cons_cons, List.getLast?_eq_some_getLast (by simp : a :: b ≠ [])]; rfl
      · simp only [hp, if_false]
  rw [key', hg]; rfl

theorem set_getlist {lower : Str → Str} {l h : HList} {k v : Str} (hs : Headers.set lower l k v [] = (h, .ok ())) (x : Str) :
    getlist lower h x = if lower x = lower k then [v] else getlist lower l x := by
  by_cases hv : Spec.LegalValue v
  · have := getlist_set lower l k v x hv
    rwa [hs] at this
  · rw [set_illegal lower l k v [] (by simpa [effValue] using hv)] at hs
    cases hs

/-- The `Location` sent is what `absolute` makes of the address of the one that was there. -/
theorem sent_value {cfg : Cfg} (hl : LowerOk cfg.lower) (iri absolute : Str → Except PyErr Str) (r : Resp) (loc : Str) (h : HList)
    (hone : getlist cfg.lower r.headers s%"Location" = [loc]) (hh : wsgiHeaders cfg iri absolute r = .ok h) :
    ∃ l v, iri loc = .ok l ∧ absolute l = .ok v ∧ getlist cfg.lower h s%"Location" = [v] := by
  have low : ∀ s : Str, Ascii s → cfg.lower s = s.map Char.toLower := hl.ascii
  have l1 : cfg.lower s%"Location" = s%"location" := by rw [low _ (by unfold Ascii; decide)]; decide
  have l2 : cfg.lower s%"Content-Location" = s%"content-location" := by rw [low _ (by unfold Ascii; decide)]; decide
  have l3 : cfg.lower s%"Content-Length" = s%"content-length" := by rw [low _ (by unfold Ascii; decide)]; decide
  have l4 : cfg.lower s%"expires" = s%"expires" := by rw [low _ (by unfold Ascii; decide)]; decide
  have l5 : cfg.lower s%"content-location" = s%"content-location" := by rw [low _ (by unfold Ascii; decide)]; decide
  unfold wsgiHeaders at hh
  rw [lastValue_one l1 hone] at hh
  split at hh
  · cases hh
  rename_i h1 e1
  split at hh
  · cases hh
  rename_i h2 e2
  -- the location itself
  have s1 : ∃ l v, iri loc = .ok l ∧ absolute l = .ok v ∧ getlist cfg.lower h1 s%"Location" = [v] := by
    unfold fixLocation at e1
    simp only at e1
    split at e1
    · cases e1
    rename_i l hi
    split at e1
    · cases e1
    rename_i v ha
    refine ⟨l, v, hi, ha, ?_⟩
    split at e1
    · rename_i hv
      cases e1
      rw [hv, hone]
    · split at e1
      · cases e1
      · rename_i h' u hset
        cases e1
        rw [set_getlist hset, if_pos rfl]
  obtain ⟨l, v, hi, ha, g1⟩ := s1
  -- the other changes leave it alone
  have s2 : getlist cfg.lower h2 s%"Location" = [v] := by
    unfold fixContentLocation at e2
    split at e2
    · cases e2; exact g1
    · split at e2
      · cases e2
      · split at e2
        · cases e2
        · rename_i h' u hset
          cases e2
          rw [set_getlist hset, if_neg (by rw [l1, l2]; decide), g1]
  refine ⟨l, v, hi, ha, ?_⟩
  unfold fixLength at hh
  split at hh
  · cases hh
    rw [getlist_set _ _ _ _ _ (by decide), if_neg (by rw [l1, l3]; decide), s2]
  · split at hh
    · unfold dropEntity setSlice at hh
      split at hh
      · cases hh
      rename_i h' _ he
      cases hh
      split at he
      · cases he
      cases he
      simp only [List.take_zero, List.nil_append, List.drop_length, List.append_nil,
        Nat.max_eq_right, Nat.zero_le]
      have hf : ∀ l : HList, getlist cfg.lower (removeEntityHeaders cfg.lower l [s%"expires", s%"content-location"]) s%"Location" =
          getlist cfg.lower l s%"Location" := by
        intro l
        induction l with
        | nil => rfl
        | cons p l ih =>
          unfold removeEntityHeaders at ih ⊢
          rw [List.filter_cons]
          split
          · simp only [getlist, ih]
          · rename_i hn
            have : cfg.lower p.1 ≠ cfg.lower s%"Location" := by
              intro hp
              apply hn
              unfold isEntityHeader
              rw [hp, l1]
              have : entityHeaders.contains s%"location" = false := by decide
              rw [this]; rfl
            simp only [getlist, if_neg this, ih]
      rw [hf, s2]
    · split at hh
      · cases hh
        unfold setLength
        rw [getlist_set _ _ _ _ _ (Resp.natStr_legal _), if_neg (by rw [l1, l3]; decide), s2]
      · cases hh; exact s2

/-! ### C104 -/

theorem lower_https {lower : Str → Str} (hl : LowerOk lower) : lower s%"https" = s%"https" := by
  rw [hl.ascii _ (by unfold Ascii; decide)]; decide

/-- **C104, on the own host.**  A `Location` without scheme and host of its own is sent as an
absolute URL on the scheme and the host of the request, whatever its path says. -/
theorem C104_own_host (cfg : Cfg) (idna : Str → Except PyErr Bytes) (label : Str → Str) (hl : LowerOk cfg.lower)
    (environ : List (Str × Str)) (scheme n : Str) (segs : List Str) (home : Home idna cfg.lower label environ scheme n segs)
    (r : Resp) (p : Str) (q f : Option Str) (hp : RefParts p q) (hloc : Local p)
    (hone : getlist cfg.lower r.headers s%"Location" = [refText p q f]) (h : HList)
    (hh : sentHeaders cfg true idna label environ r = .ok h) :
    ∃ rest, getlist cfg.lower h s%"Location" = [scheme ++ s%"://" ++ n ++ rest] ∧ rest.head? = some '/' := by
  obtain ⟨l, v, h1, h2, h3⟩ := sent_value hl _ _ r _ h hone hh
  rw [iriToUri_ref hl p q f hp hloc] at h1
  cases h1
  obtain ⟨e, root⟩ := home_root hl home
  unfold absoluteLocation at h2
  rw [if_pos rfl, e] at h2
  simp only at h2
  obtain ⟨rest, k1, k2⟩ := urljoin_stays cfg.lower (lower_https hl) root _ _ _ (refParts_quote (p := p) (q.getD []))
    (local_quote pathSafe_low (by decide) hloc) (quoteText_no pathSafe_low (by decide) (by decide) (Or.inl (by decide)))
  rw [k1] at h2
  cases h2
  exact ⟨rest, h3, k2⟩

/-- **C104, paths from the root of the host** are sent with scheme and host of the request, and
path, query and fragment mean what they did. -/
theorem C104_path_partial (cfg : Cfg) (idna : Str → Except PyErr Bytes) (label : Str → Str) (hl : LowerOk cfg.lower)
    (environ : List (Str × Str)) (scheme n : Str) (segs : List Str) (home : Home idna cfg.lower label environ scheme n segs)
    (r : Resp) (p : Str) (q f : Option Str) (hp : RefParts p q) (hs : p.head? = some '/') (h2 : ¬ s%"//" <+: p) (hd : Dotless p)
    (hone : getlist cfg.lower r.headers s%"Location" = [refText p q f]) (h : HList)
    (hh : sentHeaders cfg true idna label environ r = .ok h) :
    ∃ sent u, getlist cfg.lower h s%"Location" = [sent] ∧ urlsplit cfg.lower sent = .ok u ∧ u.scheme = scheme ∧ u.netloc = n ∧
      Percent.meaning (Utf8.encode u.path) = Percent.meaning (Utf8.encode p) ∧
      Percent.meaning (Utf8.encode u.query) = Percent.meaning (Utf8.encode (q.getD [])) ∧
      Percent.meaning (Utf8.encode u.fragment) = Percent.meaning (Utf8.encode (f.getD [])) := by
  obtain ⟨l, v, h1, h2', h3⟩ := sent_value hl _ _ r _ h hone hh
  rw [iriToUri_ref hl p q f hp ⟨h2, schemeless_root hs⟩] at h1
  cases h1
  obtain ⟨e, root⟩ := home_root hl home
  unfold absoluteLocation at h2'
  rw [if_pos rfl, e] at h2'
  simp only at h2'
  have hpart := refParts_quote (p := p) (q.getD [])
  have hslash := quoteText_head (safe := Urls.pathSafe) (by decide) hs
  rw [urljoin_path cfg.lower (lower_https hl) root _ _ _ hpart hslash
    (local_quote pathSafe_low (by decide) ⟨h2, schemeless_root hs⟩).1 (quoteText_no pathSafe_low (by decide) (by decide) (Or.inl (by decide)))
    (dotless_quote pathSafe_low (by decide) hd), optOf_getD, optOf_getD] at h2'
  cases h2'
  have hqf := hpart.queryNoFragment
  rw [optOf_getD] at hqf
  refine ⟨_, ⟨scheme, n, quoteText Urls.pathSafe p, quoteText Urls.querySafe (q.getD []), quoteText Urls.fragmentSafe (f.getD [])⟩, h3, ?_,
    rfl, rfl, quoteText_meaning pathSafe_low (by decide) p, quoteText_meaning querySafe_low (by decide) _,
    quoteText_meaning fragmentSafe_low (by decide) _⟩
  rw [urlsplit_web cfg.lower (lower_https hl) root.web]
  exact splitRest_web _ _ _ _ _ root.plain root.brackets (.inr hslash) hpart.noQuery hpart.noFragment hqf

/-- **C104, relative paths** are sent below the root of the application. -/
theorem C104_relative_partial (cfg : Cfg) (idna : Str → Except PyErr Bytes) (label : Str → Str) (hl : LowerOk cfg.lower)
    (environ : List (Str × Str)) (scheme n : Str) (segs : List Str) (home : Home idna cfg.lower label environ scheme n segs)
    (r : Resp) (p : Str) (q f : Option Str) (hp : RefParts p q) (hs : p.head? ≠ some '/') (hc : Schemeless p) (hd : Dotless p)
    (hk : Packed p) (hone : getlist cfg.lower r.headers s%"Location" = [refText p q f]) (h : HList)
    (hh : sentHeaders cfg true idna label environ r = .ok h) :
    ∃ sent u, getlist cfg.lower h s%"Location" = [sent] ∧ urlsplit cfg.lower sent = .ok u ∧ u.scheme = scheme ∧ u.netloc = n ∧
      Percent.meaning (Utf8.encode u.path) = Utf8.encode (dirText segs ++ s%"/") ++ Percent.meaning (Utf8.encode p) ∧
      Percent.meaning (Utf8.encode u.query) = Percent.meaning (Utf8.encode (q.getD [])) ∧
      Percent.meaning (Utf8.encode u.fragment) = Percent.meaning (Utf8.encode (f.getD [])) := by
  obtain ⟨l, v, h1, h2', h3⟩ := sent_value hl _ _ r _ h hone hh
  have hloc : Local p := ⟨by
    intro h'
    apply hs
    obtain ⟨t, rfl⟩ := h'
    rfl, hc⟩
  rw [iriToUri_ref hl p q f hp hloc] at h1
  cases h1
  obtain ⟨e, root⟩ := home_root hl home
  unfold absoluteLocation at h2'
  rw [if_pos rfl, e] at h2'
  simp only at h2'
  have hpart := refParts_quote (p := p) (q.getD [])
  have hseg : ∀ s ∈ segs.map sentSegment, Segment s := by
    intro s hs
    obtain ⟨t, ht, rfl⟩ := List.mem_map.1 hs
    exact sentSegment_ok (home.segments t ht).1
  rw [urljoin_below cfg.lower (lower_https hl) hseg root _ _ _ hpart (fun h => hs (quoteText_head_inv pathSafe_low h))
    (schemeless_quote pathSafe_low (by decide) hc) (quoteText_no pathSafe_low (by decide) (by decide) (Or.inl (by decide)))
    (dotless_quote pathSafe_low (by decide) hd) (packed_quote pathSafe_low (by decide) hk), optOf_getD, optOf_getD] at h2'
  cases h2'
  have hqf := hpart.queryNoFragment
  rw [optOf_getD] at hqf
  refine ⟨_, ⟨scheme, n, dirText (segs.map sentSegment) ++ '/' :: quoteText Urls.pathSafe p, _, _⟩, h3, ?_, rfl, rfl, ?_,
    quoteText_meaning querySafe_low (by decide) _, quoteText_meaning fragmentSafe_low (by decide) _⟩
  · rw [urlsplit_web cfg.lower (lower_https hl) root.web]
    refine splitRest_web _ _ _ _ _ root.plain root.brackets (.inr ?_) ?_ ?_ hqf
    · rcases root.slash with h0 | h0
      · rw [h0]; rfl
      · rw [List.head?_append, h0]; rfl
    · simp [root.noQuery, hpart.noQuery]
    · simp [root.noFragment, hpart.noFragment]
  · rw [meaning_sent, quoteText_meaning pathSafe_low (by decide)]

/-- **C104, other schemes.**  A location with another scheme than that of the request is sent as
the address it is. -/
theorem C104_scheme (cfg : Cfg) (idna : Str → Except PyErr Bytes) (label : Str → Str) (hl : LowerOk cfg.lower)
    (environ : List (Str × Str)) (scheme n : Str) (segs : List Str) (home : Home idna cfg.lower label environ scheme n segs)
    (r : Resp) (loc l : Str) (u : Split) (hl1 : iriToUri idna cfg.lower usesNetloc loc = .ok l) (hu : urlsplit cfg.lower l = .ok u)
    (hs : u.scheme ≠ []) (hs' : u.scheme ≠ scheme)
    (hone : getlist cfg.lower r.headers s%"Location" = [loc]) (h : HList)
    (hh : sentHeaders cfg true idna label environ r = .ok h) :
    getlist cfg.lower h s%"Location" = [l] := by
  obtain ⟨l', v, h1, h2', h3⟩ := sent_value hl _ _ r _ h hone hh
  rw [hl1] at h1
  cases h1
  obtain ⟨e, root⟩ := home_root hl home
  unfold absoluteLocation at h2'
  rw [if_pos rfl, e] at h2'
  simp only at h2'
  unfold urljoin at h2'
  have hne : l ≠ [] := by
    rintro rfl
    have : urlsplit cfg.lower [] = .ok ⟨[], [], [], [], []⟩ := rfl
    rw [this] at hu
    cases hu
    exact hs rfl
  rw [if_neg (by simp), if_neg hne, urlparse_root cfg.lower (lower_https hl) root] at h2'
  simp only [urlparse, hu, if_neg hs] at h2'
  rw [if_pos (.inl hs')] at h2'
  cases h2'
  exact h3

/-- **C104, the switch.**  With `autocorrect_location_header` off the location is sent as the
address it is. -/
theorem C104_off (cfg : Cfg) (idna : Str → Except PyErr Bytes) (label : Str → Str) (hl : LowerOk cfg.lower)
    (environ : List (Str × Str)) (r : Resp) (loc : Str)
    (hone : getlist cfg.lower r.headers s%"Location" = [loc]) (h : HList)
    (hh : sentHeaders cfg false idna label environ r = .ok h) :
    ∃ l, iriToUri idna cfg.lower usesNetloc loc = .ok l ∧ getlist cfg.lower h s%"Location" = [l] := by
  obtain ⟨l, v, h1, h2, h3⟩ := sent_value hl _ _ r _ h hone hh
  unfold absoluteLocation at h2
  rw [if_neg (by decide)] at h2
  cases h2
  exact ⟨l, h1, h3⟩

/-! Examples and limits. -/

/-- A configuration whose `lower` is that of the examples for addresses. -/
def locCfg : Cfg := { Resp.demo with lower := demoLower }

/-- A request to an application below `/my app`. -/
def locEnv : List (Str × Str) :=
  [(s%"SCRIPT_NAME", encodingDance s%"/my app"), (s%"PATH_INFO", encodingDance s%"/x"), (s%"QUERY_STRING", []),
   (s%"wsgi.url_scheme", s%"http"), (s%"HTTP_HOST", s%"example.org:8080")]

/-- A redirect to the given place. -/
def locResp (loc : Str) : Response.Resp := ⟨[(s%"Location", loc)], s%"302", 302, .list [], [], false⟩

/-- The `Location` headers sent for a redirect to the given place. -/
def locSent (loc : Str) : Except PyErr (List Str) :=
  match sentHeaders locCfg true demoIdna id locEnv (locResp loc) with
  | .error e => .error e
  | .ok h => .ok (getlist demoLower h s%"Location")

theorem locHome : Home demoIdna demoLower id locEnv s%"http" s%"example.org:8080" [s%"my app"] where
  site := ⟨s%"example.org:8080", s%"example.org:8080",
    ⟨.inl rfl, by decide +kernel, by decide +kernel, by decide, by decide, by decide +kernel, by decide⟩,
    by decide, by decide, by decide +kernel, by decide +kernel, by decide +kernel, by decide +kernel, demoIdna_ok _⟩
  script := by decide +kernel
  path := ⟨s%"/x", by decide +kernel⟩
  query := ⟨[], by decide +kernel⟩
  segments := by
    intro s hs
    simp only [List.mem_singleton] at hs
    subst hs
    unfold Segment
    decide

example : locSent s%"/ä b?q=1#f" = .ok [s%"http://example.org:8080/%C3%A4%20b?q=1#f"] ∧
    locSent s%"a/b:c/" = .ok [s%"http://example.org:8080/my%20app/a/b:c/"] ∧
    locSent s%"?q" = .ok [s%"http://example.org:8080/my%20app/?q"] ∧
    locSent [] = .ok [s%"http://example.org:8080/my%20app/"] ∧
    locSent s%"https://example.com/x" = .ok [s%"https://example.com/x"] ∧
    locSent s%"mailto:a" = .ok [s%"mailto:a"] := by
  refine ⟨?_, ?_, ?_, ?_, ?_, ?_⟩ <;> decide +kernel

example : Local s%"/../..//evil" ∧ locSent s%"/../..//evil" = .ok [s%"http://example.org:8080/evil"] := by
  refine ⟨⟨?_, schemeless_root rfl⟩, ?_⟩ <;> decide +kernel

/-- A location of two slashes names another host, and so does one of four slashes, although
splitting it shows no host. -/
theorem C104_host_limits : locSent s%"//evil.org/x" = .ok [s%"http://evil.org/x"] ∧
    (∃ u, urlsplit demoLower s%"////evil.org/x" = .ok u ∧ u.scheme = [] ∧ u.netloc = []) ∧
    locSent s%"////evil.org/x" = .ok [s%"http://evil.org/x"] :=
  ⟨by decide +kernel, ⟨_, rfl, rfl, rfl⟩, by decide +kernel⟩

/-- Dots are resolved, which may lead above the root of the application, and empty segments of
a relative path are lost: what is sent need not mean what was asked for. -/
theorem C104_relative_false : ¬ ∀ p : Str, p.head? ≠ some '/' → ':' ∉ p → '?' ∉ p → '#' ∉ p →
    locSent p = .ok [s%"http://example.org:8080/my%20app/" ++ quoteText Urls.pathSafe p] := by
  intro h
  have := h s%"a//b" (by decide) (by decide) (by decide) (by decide)
  revert this
  decide +kernel

/-- The same of paths from the root. -/
theorem C104_path_false : ¬ ∀ p : Str, p.head? = some '/' → ¬ s%"//" <+: p → '?' ∉ p → '#' ∉ p →
    locSent p = .ok [s%"http://example.org:8080" ++ quoteText Urls.pathSafe p] := by
  intro h
  have := h s%"/a/../b" (by decide) (by decide) (by decide) (by decide)
  revert this
  decide +kernel

end Verif.Props.JoinP
