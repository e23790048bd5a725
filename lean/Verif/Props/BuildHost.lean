import Verif.Props.BuildArgs
/-!
C135: the addresses that a map builds lead to its own server, whatever the values are
(`/repo/verktyg/routing.py:682-714, 814-817, 1480-1567`).
-/
namespace Verif.Props.BuildP
open Verif Verif.Py Verif.Routing Verif.Iri Verif.UrlJoin Verif.Spec Verif.Spec.Routing
open Verif.Props.IriP Verif.Props.JoinP Verif.Props.RoutingP Verif.Props.BuildArgsP

/-! ### Specification -/

/-- Someone who is `n` directories below the root and follows the segments never leaves the root. -/
def within : Nat → List Str → Bool
  | _, [] => true
  | n, s :: ss =>
    if s = s%".." then
      match n with
      | 0 => false
      | k + 1 => within k ss
    else if s = s%"." ∨ s = [] then within n ss
    else within (n + 1) ss

/-- A path on the same server: a single slash, and neither a scheme nor an authority is read from it. -/
def OnServer (lower : Str → Str) (url : Str) : Prop :=
  (∃ rest, url = '/' :: rest ∧ rest.head? ≠ some '/') ∧
    ∃ u, ReqUrl.urlsplit lower url = .ok u ∧ u.scheme = [] ∧ u.netloc = []

/-- The domain of a route is the one of the adapter. -/
def Own (cfg : Config) (a : Adapter) (domain : Str) : Prop :=
  domain = if cfg.hostMatching then a.serverName else a.subdomain

/-- The host of a route: its domain, which is below the server unless hosts are matched as a whole. -/
def HostFor (cfg : Config) (a : Adapter) (domain host : Str) : Prop :=
  if cfg.hostMatching then host = domain
  else domain = [] ∧ host = a.serverName ∨ domain ≠ [] ∧ host = domain ++ '.' :: a.serverName

/-- Letters, digits and hyphens. -/
def Word (s : Str) : Prop := ∀ c ∈ s, c.isAlphanum = true ∨ c = '-'

/-- The text of some parts with the values written into them.  A converter writes the text of the value,
quoted, or a word. -/
inductive Writes (values : Values) : List Part → Str → Prop
  | nil : Writes values [] []
  | text (s : Str) {ps : List Part} {t : Str} : Writes values ps t → Writes values (.text s :: ps) (s ++ t)
  | value (n : Str) (c : Converter) (v : Val) {ps : List Part} {t : Str} : Dict.get values n = some v →
      c.toUrl = baseUrl → Writes values ps t → Writes values (.var n c :: ps) (v.text ++ t)
  | word (n : Str) (c : Converter) (v : Val) (w : Str) {ps : List Part} {t : Str} : Dict.get values n = some v →
      c.toUrl v = .ok (some w) → Word w → Writes values ps t → Writes values (.var n c :: ps) (w ++ t)

/-- A route whose domain is a plain text and whose converters quote texts or write words; with the values
written into it, no segment of its path is `..`. -/
structure Tame (values : Values) (b : Bound) : Prop where
  domain : ∀ p ∈ b.domain, ∃ s, p = .text s ∧ '|' ∉ s ∧ '/' ∉ s
  path : ∀ n c, .var n c ∈ b.path → c.toUrl = baseUrl ∨
    ∀ v w, Dict.get values n = some v → c.toUrl v = .ok (some w) → Word w
  noUp : ∀ t, Writes values (b.path ++ if b.route.leaf then [] else [.text s%"/"]) t → s%".." ∉ splitOn '/' t

/-! ### joining paths -/

theorem within_filter (l : List Str) : ∀ n, within n (l.filter (· ≠ [])) = within n l := by
  induction l with
  | nil => intro n; rfl
  | cons s l ih =>
    intro n
    by_cases h : s = []
    · subst h
      rw [List.filter_cons_of_neg (by simp), ih]
      simp [within]
    · rw [List.filter_cons_of_pos (by simpa using h)]
      simp only [within]
      split
      · cases n with
        | zero => rfl
        | succ k => exact ih k
      · split
        · exact ih n
        · exact ih (n + 1)

theorem within_snoc_nil (l : List Str) : ∀ n, within n (l ++ [[]]) = within n l := by
  induction l with
  | nil => intro n; simp [within]
  | cons s l ih =>
    intro n
    simp only [List.cons_append, within]
    split
    · cases n with
      | zero => rfl
      | succ k => exact ih k
    · split
      · exact ih n
      · exact ih (n + 1)

theorem within_last (l : List Str) (x : Str) (n : Nat) :
    within n (l.filter (· ≠ []) ++ [x]) = within n (l ++ [x]) := by
  by_cases h : x = []
  · subst h
    rw [within_snoc_nil, within_snoc_nil, within_filter]
  · have := within_filter (l ++ [x]) n
    rw [List.filter_append, List.filter_cons_of_pos (by simpa using h)] at this
    exact this

/-- What is left of the segments, the root being the first one. -/
theorem resolve_within (l : List Str) : ∀ xs : List Str, (∀ s ∈ l.dropLast, s ≠ []) → (∀ s ∈ l, '/' ∉ s) →
    (∀ s ∈ xs, s ≠ [] ∧ '/' ∉ s) → within xs.length l = true →
    ∃ ys : List Str, l.foldl (fun acc s => if s = s%".." then acc.dropLast else if s = s%"." then acc else acc ++ [s]) ([] :: xs) = [] :: ys ∧
      (∀ s ∈ ys, '/' ∉ s) ∧ ((∀ s ∈ ys, s ≠ []) ∨ l.getLastD [] = [] ∧ ∃ zs, ys = zs ++ [[]] ∧ ∀ s ∈ zs, s ≠ []) := by
  induction l with
  | nil =>
    intro xs _ _ hx _
    exact ⟨xs, rfl, fun s h => (hx s h).2, .inl fun s h => (hx s h).1⟩
  | cons s l ih =>
    intro xs h1 h2 hx hw
    have hgl : l ≠ [] → (s :: l).getLastD [] = l.getLastD [] := by
      intro hl
      cases l with
      | nil => exact absurd rfl hl
      | cons y l => simp [List.getLastD]
    have hd : ∀ t ∈ l.dropLast, t ≠ [] := by
      intro t ht
      cases l with
      | nil => cases ht
      | cons y l => exact h1 t (by rw [List.dropLast_cons_of_ne_nil (by simp)]; exact .tail _ ht)
    have fin : ∀ xs' : List Str, (∀ s ∈ xs', s ≠ [] ∧ '/' ∉ s) → within xs'.length l = true →
        ∃ ys : List Str, l.foldl (fun acc s => if s = s%".." then acc.dropLast else if s = s%"." then acc else acc ++ [s]) ([] :: xs') = [] :: ys ∧
          (∀ s ∈ ys, '/' ∉ s) ∧
          ((∀ s ∈ ys, s ≠ []) ∨ (s :: l).getLastD [] = [] ∧ ∃ zs, ys = zs ++ [[]] ∧ ∀ s ∈ zs, s ≠ []) := by
      intro xs' hx' hw'
      obtain ⟨ys, e, f, g⟩ := ih xs' hd (fun t ht => h2 t (.tail _ ht)) hx' hw'
      refine ⟨ys, e, f, ?_⟩
      by_cases hl : l = []
      · subst hl
        simp only [List.foldl_nil, List.cons.injEq, true_and] at e
        subst e
        exact .inl fun t ht => (hx' t ht).1
      · rw [hgl hl]; exact g
    simp only [List.foldl_cons]
    simp only [within] at hw
    by_cases hdd : s = s%".."
    · rw [if_pos hdd] at hw ⊢
      cases hxs : xs with
      | nil => rw [hxs] at hw; simp at hw
      | cons x xs' =>
        rw [List.dropLast_cons_of_ne_nil (by simp), ← hxs]
        rw [hxs] at hw
        refine fin xs.dropLast (fun t ht => hx t (List.dropLast_subset _ ht)) ?_
        rw [List.length_dropLast, hxs]
        exact hw
    · rw [if_neg hdd] at hw ⊢
      by_cases hdot : s = s%"."
      · rw [if_pos hdot]
        rw [if_pos (.inl hdot)] at hw
        exact fin xs hx hw
      · rw [if_neg hdot]
        by_cases hs : s = []
        · subst hs
          have hl : l = [] := by
            cases l with
            | nil => rfl
            | cons y l => exact absurd rfl (h1 [] (by rw [List.dropLast_cons_of_ne_nil (by simp)]; exact .head _))
          subst hl
          refine ⟨xs ++ [[]], rfl, ?_, .inr ⟨rfl, xs, rfl, fun t ht => (hx t ht).1⟩⟩
          intro t ht
          rcases List.mem_append.1 ht with ht | ht
          · exact (hx t ht).2
          · rw [List.mem_singleton.1 ht]; simp
        · rw [if_neg (by simp [hdot, hs])] at hw
          rw [List.cons_append]
          refine fin (xs ++ [s]) ?_ (by simpa using hw)
          intro t ht
          rcases List.mem_append.1 ht with ht | ht
          · exact hx t ht
          · rw [List.mem_singleton.1 ht]; exact ⟨hs, h2 s (.head _)⟩

theorem join_root (ys : List Str) (h : ∀ s ∈ ys, '/' ∉ s) (hh : ∀ y ys', ys = y :: ys' → y ≠ [] ∨ ys' = []) :
    ∃ rest, (if join s%"/" ([] :: ys) = [] then s%"/" else join s%"/" ([] :: ys)) = '/' :: rest ∧ rest.head? ≠ some '/' := by
  cases ys with
  | nil => exact ⟨[], rfl, by simp⟩
  | cons y ys =>
    have e : join s%"/" ([] :: y :: ys) = '/' :: join s%"/" (y :: ys) := rfl
    rw [e, if_neg (by simp)]
    refine ⟨_, rfl, ?_⟩
    cases y with
    | nil =>
      rcases hh _ _ rfl with h0 | h0
      · exact absurd rfl h0
      · subst h0; simp [join]
    | cons c y =>
      have hc : c ≠ '/' := fun e => h _ (.head _) (by rw [e]; exact .head _)
      have : ∃ z, join s%"/" ((c :: y) :: ys) = c :: z := by
        cases ys with
        | nil => exact ⟨y, rfl⟩
        | cons z zs => exact ⟨_, rfl⟩
      obtain ⟨z, hz⟩ := this
      rw [hz]
      simpa using hc

/-- The new path is one of the server. -/
theorem joinPath_within (segs : List Str) (hs : ∀ s ∈ segs, Segment s) (r : Str)
    (hw : within segs.length (splitOn '/' r) = true) :
    ∃ rest, UrlJoin.joinPath (dirText segs ++ s%"/") (s%"./" ++ r) = '/' :: rest ∧ rest.head? ≠ some '/' := by
  have hsp : splitOn '/' (s%"./" ++ r) = s%"." :: splitOn '/' r := by
    show splitOn '/' (s%"." ++ '/' :: r) = _
    rw [splitOn_append_sep]; rfl
  have hne := splitOn_ne_nil '/' r
  obtain ⟨i, l, hl⟩ : ∃ i l, splitOn '/' r = i ++ [l] := ⟨_, _, (List.dropLast_concat_getLast hne).symm⟩
  have hmem : ∀ s ∈ i ++ [l], '/' ∉ s := fun s h => splitOn_no_sep '/' r s (hl ▸ h)
  have e : segments (dirText segs ++ s%"/") (s%"./" ++ r) = [] :: (segs ++ s%"." :: (i.filter (· ≠ []) ++ [l])) := by
    unfold segments
    rw [if_neg (by simp)]
    simp only
    rw [dir_slash segs (fun s h => (hs s h).2.1), if_neg (by rw [getLastD_concat]; simp), hsp, hl]
    have hf : segs.filter (· ≠ []) = segs := List.filter_eq_self.2 fun s h => by simpa using (hs s h).1
    have : ([] :: segs ++ [[]] ++ s%"." :: (i ++ [l])) = [] :: ((segs ++ [] :: s%"." :: i) ++ [l]) := by simp
    rw [this]
    cases hc : segs ++ [] :: s%"." :: i with
    | nil => simp at hc
    | cons y rest =>
      show squeeze ([] :: y :: (rest ++ [l])) = _
      rw [show squeeze ([] :: y :: (rest ++ [l])) =
          [] :: (((y :: rest) ++ [l]).dropLast.filter (· ≠ [])) ++ [((y :: rest) ++ [l]).getLastD []] from rfl,
        List.dropLast_concat, getLastD_concat, ← hc,
        List.filter_append, hf, List.filter_cons_of_neg (by simp), List.filter_cons_of_pos (by simp)]
      simp
  have hfold : resolve (segments (dirText segs ++ s%"/") (s%"./" ++ r)) =
      (i.filter (· ≠ []) ++ [l]).foldl
        (fun acc s => if s = s%".." then acc.dropLast else if s = s%"." then acc else acc ++ [s]) ([] :: segs) := by
    rw [e]
    unfold resolve
    rw [List.foldl_cons, if_neg (by simp), if_neg (by simp), List.foldl_append, resolve_go _ _ (fun s h => (hs s h).2.2),
      List.foldl_cons, if_neg (by decide), if_pos rfl]
    rfl
  obtain ⟨ys, h1, h2, h3⟩ := resolve_within (i.filter (· ≠ []) ++ [l]) segs
    (by rw [List.dropLast_concat]; intro s h; simpa using (List.mem_filter.1 h).2)
    (fun s h => hmem s (by
      rcases List.mem_append.1 h with h | h
      · exact List.mem_append_left _ (List.mem_filter.1 h).1
      · exact List.mem_append_right _ h))
    (fun s h => ⟨(hs s h).1, (hs s h).2.1⟩) (by rw [within_last, ← hl]; exact hw)
  have hlast : (segments (dirText segs ++ s%"/") (s%"./" ++ r)).getLastD [] = l := by
    rw [e, show [] :: (segs ++ s%"." :: (i.filter (· ≠ []) ++ [l])) = ([] :: (segs ++ s%"." :: i.filter (· ≠ []))) ++ [l] by simp,
      getLastD_concat]
  unfold UrlJoin.joinPath
  simp only
  rw [hfold, h1, hlast]
  rw [getLastD_concat] at h3
  by_cases hd : l = s%"." ∨ l = s%".."
  · rw [if_pos hd]
    have hall : ∀ s ∈ ys, s ≠ [] := by
      rcases h3 with h3 | ⟨h3, _⟩
      · exact h3
      · rw [h3] at hd; simp at hd
    refine join_root (ys ++ [[]]) ?_ ?_
    · intro s h
      rcases List.mem_append.1 h with h | h
      · exact h2 s h
      · rw [List.mem_singleton.1 h]; simp
    · intro y ys' he
      cases ys with
      | nil => cases he; exact .inr rfl
      | cons z zs => cases he; exact .inl (hall _ (.head _))
  · rw [if_neg hd, List.append_nil]
    refine join_root ys h2 ?_
    intro y ys' he
    rcases h3 with h3 | ⟨_, zs, h3, h4⟩
    · exact .inl (h3 y (by rw [he]; exact .head _))
    · rw [h3] at he
      cases zs with
      | nil => cases he; exact .inr rfl
      | cons z zs => cases he; exact .inl (h4 _ (.head _))

/-- Joining to a script name, whatever the path is. -/
theorem urljoin_any (lower : Str → Str) {segs : List Str} (hs : Script segs) (r : Str) (q : Option Str)
    (hr : RefParts r q) (hsemi : ';' ∉ r) (hcol : q ≠ some []) :
    urljoin lower (dirText segs ++ s%"/") (s%"./" ++ refText r q none) =
      .ok (refText (UrlJoin.joinPath (dirText segs ++ s%"/") (s%"./" ++ r)) q none) := by
  have hq : ∀ x : Str, refText x q none = x ++ (if q.getD [] ≠ [] then '?' :: q.getD [] else []) := by
    intro x
    cases q with
    | none => simp [refText]
    | some q =>
      have : q ≠ [] := fun e => hcol (by rw [e])
      simp [refText, this]
  have hbase : urlparse lower (dirText segs ++ s%"/") [] = .ok ⟨[], [], dirText segs ++ s%"/", [], [], []⟩ := by
    have := urlsplit_ref lower (dirText segs ++ s%"/") none none ⟨script_no hs (by decide), script_no hs (by decide), by simp⟩
      (script_local hs)
    simp only [refText, Option.elim, List.append_nil] at this
    unfold urlparse
    rw [this]
    simp only [if_true]
    rw [if_pos (by decide), splitParams_dir]
    rfl
  have href : urlparse lower (s%"./" ++ refText r q none) [] = .ok ⟨[], [], s%"./" ++ r, [], q.getD [], []⟩ := by
    have e : s%"./" ++ refText r q none = s%"." ++ '/' :: refText r q none := rfl
    have e' : s%"." ++ '/' :: refText r q none = refText (s%"./" ++ r) q none := by simp [refText]
    have h1 := urlsplit_noscheme lower (a := s%".") (b := refText r q none) (d := '/') (by decide) (.inl rfl)
    rw [e'] at h1
    rw [splitRest_ref [] (s%"./" ++ r) q none ⟨by simpa using hr.noQuery, by simpa using hr.noFragment, hr.queryNoFragment⟩
      (by simp)] at h1
    unfold urlparse
    rw [e, e', h1]
    simp only [if_true]
    rw [if_pos (by decide), splitParams_none (by simpa using hsemi)]
    rfl
  unfold urljoin
  rw [if_neg (by simp), if_neg (by simp), hbase]
  simp only
  rw [href]
  simp only
  rw [if_neg (by simp [usesRelative]), if_neg (by simp), if_neg (by simp)]
  generalize UrlJoin.joinPath (dirText segs ++ s%"/") (s%"./" ++ r) = x
  unfold urlunparse ReqUrl.urlunsplit
  have hun : usesNetloc [] = false := by decide
  rw [hq]
  by_cases hqq : q.getD [] = []
  · simp [hqq, hun]
  · simp [hqq, hun]

/-! ### what is built -/

theorem buildGo_some (values : Values) (u : Bool) (bs : List Bound) (d p : Str) (h : buildGo values u bs = .ok (some (d, p))) :
    ∃ b ∈ bs, ∃ p0 q, b.build values false = .ok (some (d, p0)) ∧ p = p0 ++ q.elim [] ('?' :: ·) ∧ '#' ∉ q.getD [] ∧ q ≠ some [] := by
  induction bs with
  | nil => cases h
  | cons b bs ih =>
    simp only [buildGo] at h
    by_cases hsu : b.suitableFor values = true
    · rw [if_pos hsu] at h
      unfold Bound.build at h ⊢
      cases hb : buildParts values b.trace with
      | error e => rw [hb] at h; cases h
      | ok o =>
        cases o with
        | none =>
          rw [hb] at h
          obtain ⟨b', hb', r⟩ := ih h
          exact ⟨b', by simp [hb'], r⟩
        | some t =>
          rw [hb] at h
          simp only at h
          have h := Option.some.inj (Except.ok.inj h)
          have h1 : (split1 '|' t).1 = d := congrArg Prod.fst h
          have h2 := congrArg Prod.snd h
          simp only at h2
          obtain ⟨q, hq1, hq2⟩ := queryOf_spec b values
          refine ⟨b, .head _, (split1 '|' t).2.getD [], if u then q else none, by rw [hb]; simp [h1], ?_, ?_, ?_⟩
          · rw [← h2, hq2]
            cases u <;> rfl
          · cases u with
            | false => simp
            | true =>
              rcases hq1 with ⟨_, rfl⟩ | ⟨s, rfl, _, h, _⟩
              · simp
              · exact h
          · cases u with
            | false => simp
            | true =>
              rcases hq1 with ⟨_, rfl⟩ | ⟨s, rfl, h, _, _⟩
              · simp
              · simpa using h
    · rw [if_neg hsu] at h
      obtain ⟨b', hb', r⟩ := ih h
      exact ⟨b', by simp [hb'], r⟩

theorem within_lstrip (p : Str) (n : Nat) : within n (splitOn '/' (lstripSlash p)) = within n (splitOn '/' p) := by
  unfold lstripSlash
  induction p with
  | nil => rfl
  | cons c p ih =>
    by_cases h : c = '/'
    · subst h
      rw [List.dropWhile_cons_of_pos (by simp), ih]
      simp [splitOn, within]
    · rw [List.dropWhile_cons_of_neg (by simpa using h)]

theorem mem_lstrip {c : Char} {p : Str} (h : c ∈ lstripSlash p) : c ∈ p :=
  (List.dropWhile_suffix _).subset h

theorem on_server (lower : Str → Str) {rest : Str} (h : rest.head? ≠ some '/') : OnServer lower ('/' :: rest) := by
  refine ⟨⟨rest, rfl, h⟩, ?_⟩
  rw [show '/' :: rest = [] ++ '/' :: rest from rfl, urlsplit_noscheme lower (by simp) (.inl rfl)]
  have hn : ¬ s%"//" <+: [] ++ '/' :: rest := by
    rintro ⟨t, ht⟩
    simp at ht
    exact h (by rw [← ht]; rfl)
  unfold ReqUrl.splitRest
  rw [if_neg hn]
  simp only
  rw [if_neg (by simp)]
  exact ⟨_, rfl, rfl, rfl⟩

/-- **C135.**  What is built leads to the server of the map: a path, if the route is on the host of the
adapter, and else an address with the host of the route.  Each route of the end point has to write a path
that stays below the root, and a domain without delimiters, for the values. -/
theorem C135_server_partial (lower : Str → Str) (m : URLMap)
    (hjoin : ∀ b u r, urljoin lower b u = .ok r → m.cfg.urljoin b u = r)
    (a : Adapter) (segs : List Str) (hs : Script segs) (ha : a.scriptName = dirText segs ++ s%"/") (hsch : a.scheme ≠ [])
    (hsrv : ∀ c ∈ s%"/?#", c ∉ a.serverName)
    (endpoint : Str) (values : Values) (forceExternal appendUnknown : Bool) (url : Str)
    (hp : ∀ b ∈ m.update.byEndpoint endpoint, ∀ d p, b.build values false = .ok (some (d, p)) →
      (∀ c ∈ s%"?#;", c ∉ p) ∧ within segs.length (splitOn '/' p) = true ∧ ∀ c ∈ s%"/?#", c ∉ d)
    (h : build m a endpoint values forceExternal appendUnknown = .ok url) :
    ∃ b ∈ m.update.byEndpoint endpoint, ∃ d p, b.build values false = .ok (some (d, p)) ∧
      (forceExternal = false ∧ Own m.cfg a d ∧ OnServer lower url ∨
        ¬ (forceExternal = false ∧ Own m.cfg a d) ∧
          ∃ host rest, url = a.scheme ++ s%"://" ++ host ++ '/' :: rest ∧ (∀ c ∈ s%"/?#", c ∉ host) ∧ HostFor m.cfg a d host) := by
  unfold build at h
  rcases hg : buildGo values appendUnknown (m.update.byEndpoint endpoint) with e | (_ | ⟨d, p⟩)
  · rw [hg] at h; cases h
  · rw [hg] at h; cases h
  · rw [hg] at h
    obtain ⟨b, hb, p0, q, h1, rfl, h3, h4⟩ := buildGo_some _ _ _ _ _ hg
    obtain ⟨g1, g2, g3⟩ := hp b hb d p0 h1
    have hq : (q.elim [] ('?' :: ·) : Str).head? ≠ some '/' := by cases q <;> simp
    simp only at h
    rw [lstrip_query hq] at h
    refine ⟨b, hb, d, p0, h1, ?_⟩
    have hown : (m.cfg.hostMatching = true ∧ getHost m.cfg a (some d) = a.serverName ∨ m.cfg.hostMatching = false ∧ d = a.subdomain) ↔
        Own m.cfg a d := by
      unfold Own getHost
      cases m.cfg.hostMatching <;> simp
    split at h
    · rename_i hc
      rw [hown] at hc
      have hr : RefParts (lstripSlash p0) q := ⟨fun hm => g1 _ (by decide) (mem_lstrip hm), fun hm => g1 _ (by decide) (mem_lstrip hm), h3⟩
      have hj := urljoin_any lower hs (lstripSlash p0) q hr (fun hm => g1 _ (by decide) (mem_lstrip hm)) h4
      have e : lstripSlash p0 ++ q.elim [] ('?' :: ·) = refText (lstripSlash p0) q none := by simp [refText]
      rw [ha, e, hjoin _ _ _ hj] at h
      obtain ⟨rest, hrest, hh⟩ := joinPath_within segs hs.segment (lstripSlash p0) (by rw [within_lstrip]; exact g2)
      rw [hrest] at h
      rw [← Except.ok.inj h]
      refine .inl ⟨hc.1, hc.2, ?_⟩
      rw [show refText ('/' :: rest) q none = '/' :: (rest ++ q.elim [] ('?' :: ·)) by simp [refText]]
      apply on_server
      cases rest with
      | nil => simpa using hq
      | cons x rest => simpa using hh
    · rename_i hc
      rw [hown] at hc
      refine .inr ⟨hc, ?_⟩
      have hhead : (lstripSlash p0 ++ q.elim [] ('?' :: ·)).head? ≠ some '/' := by
        have := lstrip_head p0
        cases hl : lstripSlash p0 with
        | nil => simpa using hq
        | cons x y => rw [hl] at this; simpa using this
      generalize lstripSlash p0 ++ q.elim [] ('?' :: ·) = r at h hhead
      have hsl : (dirText segs ++ s%"/").getLast? = some '/' := by simp
      have hjp : Routing.joinPath a.scriptName r = dirText segs ++ '/' :: r := by
        unfold Routing.joinPath
        rw [if_neg hhead, ha, if_pos (.inr hsl)]
        simp
      obtain ⟨rest, hrest, hnn⟩ : ∃ rest, dirText segs ++ '/' :: r = '/' :: rest ∧ rest.head? ≠ some '/' := by
        cases segs with
        | nil => exact ⟨r, rfl, hhead⟩
        | cons x xs =>
          have hx := hs.segment x (.head _)
          refine ⟨x ++ dirText xs ++ '/' :: r, by simp [dirText], ?_⟩
          cases x with
          | nil => exact absurd rfl hx.1
          | cons c x =>
            intro e
            simp at e
            exact hx.2.1 (by rw [e]; exact .head _)
      rw [hjp, hrest] at h
      refine ⟨getHost m.cfg a (some d), rest, ?_, ?_, ?_⟩
      · rw [← Except.ok.inj h]
        have hnp : s%"//".isPrefixOf ('/' :: rest) = false := by
          cases rest with
          | nil => rfl
          | cons x rest =>
            have : x ≠ '/' := by simpa using hnn
            simp [List.isPrefixOf, Ne.symm this]
        unfold unparse
        simp [hsch, hnp]
      · intro c hc hm
        unfold getHost at hm
        split at hm
        · exact g3 c hc hm
        · simp only [Option.getD_some] at hm
          split at hm
          · rcases List.mem_append.1 hm with hm | hm
            · rcases List.mem_append.1 hm with hm | hm
              · exact g3 c hc hm
              · rw [List.mem_singleton.1 hm] at hc; revert hc; decide
            · exact hsrv c hc hm
          · exact hsrv c hc hm
      · unfold getHost HostFor
        cases m.cfg.hostMatching
        · by_cases hd : d = [] <;> simp [hd]
        · simp

/-! ### routes that quote what they write -/

theorem buildParts_append (values : Values) (ps qs : List Part) (u : Str) (h : buildParts values (ps ++ qs) = .ok (some u)) :
    ∃ u1 u2, buildParts values ps = .ok (some u1) ∧ buildParts values qs = .ok (some u2) ∧ u = u1 ++ u2 := by
  induction ps generalizing u with
  | nil => exact ⟨[], u, rfl, h, rfl⟩
  | cons p ps ih =>
    cases p with
    | text s =>
      simp only [List.cons_append, buildParts] at h ⊢
      rcases hb : buildParts values (ps ++ qs) with e | (_ | w)
      · rw [hb] at h; cases h
      · rw [hb] at h; cases h
      · rw [hb] at h
        obtain ⟨u1, u2, h1, h2, h3⟩ := ih w hb
        refine ⟨_, u2, by rw [h1], h2, ?_⟩
        rw [← Option.some.inj (Except.ok.inj h), h3]
        simp
    | var n c =>
      simp only [List.cons_append, buildParts] at h ⊢
      cases hg : Dict.get values n with
      | none => rw [hg] at h; cases h
      | some x =>
        rw [hg] at h
        simp only at h ⊢
        rcases hc : c.toUrl x with e | (_ | u')
        · rw [hc] at h; cases h
        · rw [hc] at h; cases h
        · rw [hc] at h
          simp only at h ⊢
          rcases hb : buildParts values (ps ++ qs) with e | (_ | w)
          · rw [hb] at h; cases h
          · rw [hb] at h; cases h
          · rw [hb] at h
            obtain ⟨u1, u2, h1, h2, h3⟩ := ih w hb
            refine ⟨_, u2, by rw [h1], h2, ?_⟩
            rw [← Option.some.inj (Except.ok.inj h), h3]
            simp

theorem quote_word (c : Char) (h : c.isAlphanum = true ∨ c = '-') : quoteText b%"/:" [c] = [c] := by
  have key : ∀ n < 128, ((Char.ofNat n).isAlphanum = true ∨ Char.ofNat n = '-') → quoteText b%"/:" [Char.ofNat n] = [Char.ofNat n] := by
    decide +kernel
  have hlt : c.toNat < 128 := by
    rcases h with h | rfl
    · simp only [Char.isAlphanum, Char.isAlpha, Char.isUpper, Char.isLower, Char.isDigit, Bool.or_eq_true, Bool.and_eq_true,
        decide_eq_true_eq] at h
      have e : c.toNat = c.val.toNat := rfl
      rw [e]
      rcases h with (⟨_, h⟩ | ⟨_, h⟩) | ⟨_, h⟩
      · have : c.val.toNat ≤ 90 := h
        omega
      · have : c.val.toNat ≤ 122 := h
        omega
      · have : c.val.toNat ≤ 57 := h
        omega
    · decide
  have := key c.toNat hlt (by rwa [Char.ofNat_toNat])
  rwa [Char.ofNat_toNat] at this

theorem buildParts_writes (values : Values) (ps : List Part)
    (h : ∀ n c, .var n c ∈ ps → c.toUrl = baseUrl ∨ ∀ v w, Dict.get values n = some v → c.toUrl v = .ok (some w) → Word w) :
    ∀ u, buildParts values ps = .ok (some u) → ∃ t, Writes values ps t ∧ Spelt u t := by
  induction ps with
  | nil => intro u hu; cases hu; exact ⟨[], .nil, .nil⟩
  | cons p ps ih =>
    intro u hu
    have ih := ih fun n c hm => h n c (.tail _ hm)
    cases p with
    | text s =>
      simp only [buildParts] at hu
      rcases hb : buildParts values ps with e | (_ | w)
      · rw [hb] at hu; cases hu
      · rw [hb] at hu; cases hu
      · rw [hb] at hu
        cases hu
        obtain ⟨t, h1, h2⟩ := ih w hb
        exact ⟨_, .text s h1, (urlquote_eq b%"/:|+" s ▸ spelt_quote (.inr rfl) s).append h2⟩
    | var n c =>
      simp only [buildParts] at hu
      cases hg : Dict.get values n with
      | none => rw [hg] at hu; cases hu
      | some x =>
        rw [hg] at hu
        simp only at hu
        rcases hc : c.toUrl x with e | (_ | u')
        · rw [hc] at hu; cases hu
        · rw [hc] at hu; cases hu
        · rw [hc] at hu
          simp only at hu
          rcases hb : buildParts values ps with e | (_ | w)
          · rw [hb] at hu; cases hu
          · rw [hb] at hu; cases hu
          · rw [hb] at hu
            cases hu
            obtain ⟨t, h1, h2⟩ := ih w hb
            rcases h n c (.head _) with hbase | hword
            · rw [hbase] at hc
              unfold baseUrl at hc
              cases hc
              exact ⟨_, .value n c x hg hbase h1, (urlquote_eq b%"/:" x.text ▸ spelt_quote (.inl rfl) x.text).append h2⟩
            · have hw := hword x u' hg hc
              exact ⟨_, .word n c x u' hg hc hw h1, (spelt_plain fun d hd => quote_word d (hw d hd)).append h2⟩

theorem within_noUp (l : List Str) (h : s%".." ∉ l) : ∀ n, within n l = true := by
  induction l with
  | nil => intro n; rfl
  | cons s l ih =>
    intro n
    simp only [List.mem_cons, not_or] at h
    simp only [within]
    rw [if_neg (Ne.symm h.1)]
    split
    · exact ih h.2 n
    · exact ih h.2 (n + 1)

theorem tame_build {values : Values} {b : Bound} (h : Tame values b) (d p : Str) (hb : b.build values false = .ok (some (d, p))) (n : Nat) :
    (∀ c ∈ s%"?#;", c ∉ p) ∧ within n (splitOn '/' p) = true ∧ ∀ c ∈ s%"/?#", c ∉ d := by
  unfold Bound.build at hb
  rcases ht : buildParts values b.trace with e | (_ | t)
  · rw [ht] at hb; cases hb
  · rw [ht] at hb; cases hb
  · rw [ht] at hb
    simp only [Bool.false_eq_true, if_false, List.append_nil] at hb
    unfold Bound.trace at ht
    rw [List.append_assoc] at ht
    obtain ⟨u1, u2, h1, h2, rfl⟩ := buildParts_append _ _ _ _ ht
    have hd : ∀ c ∈ s%"|/?#", c ∉ u1 := by
      have : ∀ (ps : List Part), (∀ p ∈ ps, ∃ s, p = .text s ∧ '|' ∉ s ∧ '/' ∉ s) → ∀ u, buildParts values ps = .ok (some u) →
          ∀ c ∈ s%"|/?#", c ∉ u := by
        intro ps
        induction ps with
        | nil => intro _ u hu c _; cases hu; simp
        | cons p ps ih =>
          intro hp u hu c hc
          obtain ⟨s, rfl, hs1, hs2⟩ := hp p (.head _)
          simp only [buildParts] at hu
          rcases hb : buildParts values ps with e | (_ | w)
          · rw [hb] at hu; cases hu
          · rw [hb] at hu; cases hu
          · rw [hb] at hu
            cases hu
            intro hm
            rcases List.mem_append.1 hm with hm | hm
            · rw [urlquote_eq] at hm
              obtain ⟨g1, g2, g3⟩ := (by decide +kernel : ∀ c ∈ s%"|/?#", c ≠ '%' ∧ Urls.alwaysSafe (Utf8.byte c.toNat) = false ∧
                (Utf8.byte c.toNat ∉ b%"/:|+" ∨ c = '|' ∨ c = '/')) c hc
              refine quoteText_no (by decide) g1 g2 (s := s) ?_ hm
              rcases g3 with g3 | rfl | rfl
              · exact .inl g3
              · exact .inr hs1
              · exact .inr hs2
            · exact ih (fun p hp' => hp p (.tail _ hp')) w hb c hc hm
      exact this b.domain h.domain u1 h1
    rw [List.cons_append] at h2
    simp only [buildParts] at h2
    rcases hb3 : buildParts values (b.path ++ if b.route.leaf = true then [] else [Part.text s%"/"]) with e | (_ | w)
    · rw [hb3] at h2; cases h2
    · rw [hb3] at h2; cases h2
    · rw [hb3] at h2
      have h2 := Option.some.inj (Except.ok.inj h2)
      have hbar : urlquote b%"/:|+" s%"|" = s%"|" := by decide +kernel
      rw [hbar] at h2
      subst h2
      rw [show u1 ++ (s%"|" ++ w) = u1 ++ '|' :: w from rfl, split1_some '|' u1 w (hd _ (by decide))] at hb
      have hb := Option.some.inj (Except.ok.inj hb)
      have e1 : u1 = d := congrArg Prod.fst hb
      have e2 : w = p := congrArg Prod.snd hb
      subst e1 e2
      obtain ⟨t, ht1, ht2⟩ := buildParts_writes values _ (by
        intro n c hm
        rcases List.mem_append.1 hm with hm | hm
        · exact h.path n c hm
        · split at hm
          · cases hm
          · simp at hm) w hb3
      refine ⟨fun c hc => ht2.no hc, within_noUp _ ?_ n, fun c hc => hd c (by
        revert hc; revert c; decide)⟩
      intro hup
      obtain ⟨x, hx, hsx⟩ := ht2.split.mem _ hup
      rw [← hsx.plain (by decide)] at hx
      exact h.noUp t ht1 hx

/-- **C135, for values.**  With routes whose domain is a plain text and whose converters quote texts (as those
for strings, choices and paths do) or write words (as those for numbers do), every value leads to the
server, unless the path has a segment `..`. -/
theorem C135_values_partial (lower : Str → Str) (m : URLMap)
    (hjoin : ∀ b u r, urljoin lower b u = .ok r → m.cfg.urljoin b u = r)
    (a : Adapter) (segs : List Str) (hs : Script segs) (ha : a.scriptName = dirText segs ++ s%"/") (hsch : a.scheme ≠ [])
    (hsrv : ∀ c ∈ s%"/?#", c ∉ a.serverName)
    (endpoint : Str) (values : Values) (forceExternal appendUnknown : Bool) (url : Str)
    (hp : ∀ b ∈ m.update.byEndpoint endpoint, Tame values b)
    (h : build m a endpoint values forceExternal appendUnknown = .ok url) :
    ∃ b ∈ m.update.byEndpoint endpoint, ∃ d p, b.build values false = .ok (some (d, p)) ∧
      (forceExternal = false ∧ Own m.cfg a d ∧ OnServer lower url ∨
        ¬ (forceExternal = false ∧ Own m.cfg a d) ∧
          ∃ host rest, url = a.scheme ++ s%"://" ++ host ++ '/' :: rest ∧ (∀ c ∈ s%"/?#", c ∉ host) ∧ HostFor m.cfg a d host) :=
  C135_server_partial lower m hjoin a segs hs ha hsch hsrv endpoint values forceExternal appendUnknown url
    (fun b hb d p hbu => tame_build (hp b hb) d p hbu _) h

/-! ### Cases -/

/-- Pages by name, and a map with these. -/
def pageRoute : Route := sampleRoute s%"/<name>" s%"page"
/-- A map with pages. -/
def pageMap : URLMap := run (URLMap.new urlCfg) [.add [pageRoute]]
/-- The pages of a user are on a subdomain. -/
def homeRoute : Route := { sampleRoute s%"/" s%"home" with subdomain := some s%"<user>" }

/-- Values that are addresses and delimiters themselves. -/
def badArgs : Values := [(s%"x", .str s%"//evil.org:80/?a#b;c"), (s%"n", .int 7), (s%"next", .str s%"http://evil.org/")]

theorem writes_text {values : Values} {s t : Str} {ps : List Part} (h : Writes values (.text s :: ps) t) :
    ∃ t', t = s ++ t' ∧ Writes values ps t' := by
  cases h with
  | text _ h => exact ⟨_, rfl, h⟩

theorem writes_var {values : Values} {n t : Str} {c : Converter} {ps : List Part} (h : Writes values (.var n c :: ps) t) :
    ∃ v t', Dict.get values n = some v ∧ (c.toUrl = baseUrl ∧ t = v.text ++ t' ∧ Writes values ps t' ∨
      ∃ w, c.toUrl v = .ok (some w) ∧ Word w ∧ t = w ++ t' ∧ Writes values ps t') := by
  cases h with
  | value _ _ v hv hc h => exact ⟨v, _, hv, .inl ⟨hc, rfl, h⟩⟩
  | word _ _ v w hv hc hw h => exact ⟨v, _, hv, .inr ⟨w, hc, hw, rfl, h⟩⟩

theorem bad_tame : Tame badArgs userBound := by
  refine ⟨fun p hp => ?_, fun n c hm => ?_, fun t ht => ?_⟩
  · have e : userBound.domain = [] := rfl
    rw [e] at hp; cases hp
  · have hm : Part.var n c ∈ [.text s%"/u/", .var s%"x" (stringConv 1 none), .text s%"/", .var s%"n" (intConv asciiDec 0 none none)] := hm
    simp only [List.mem_cons, List.not_mem_nil, or_false, reduceCtorEq, false_or, Part.var.injEq] at hm
    rcases hm with ⟨_, rfl⟩ | ⟨rfl, rfl⟩
    · exact .inl rfl
    · refine .inr fun v w hv hw => ?_
      cases hv
      cases hw
      unfold Word
      decide +kernel
  · have ht : Writes badArgs [.text s%"/u/", .var s%"x" (stringConv 1 none), .text s%"/", .var s%"n" (intConv asciiDec 0 none none),
      .text s%"/"] t := ht
    have e : t = s%"/u///evil.org:80/?a#b;c/7/" := by
      obtain ⟨t1, rfl, h1⟩ := writes_text ht
      obtain ⟨v, t2, hv, h2⟩ := writes_var h1
      cases hv
      rcases h2 with ⟨_, rfl, h2⟩ | ⟨w, hw, hword, _, _⟩
      · obtain ⟨t3, rfl, h3⟩ := writes_text h2
        obtain ⟨v, t4, hv, h4⟩ := writes_var h3
        cases hv
        rcases h4 with ⟨hc, _, _⟩ | ⟨w, hw, _, rfl, h4⟩
        · exact absurd (congrFun hc (.str s%"x")) (by intro h; cases h)
        · cases hw
          obtain ⟨t5, rfl, h5⟩ := writes_text h4
          cases h5
          decide +kernel
      · cases hw
        exact absurd (hword '/' (by decide +kernel)) (by decide)
    rw [e]
    decide +kernel

set_option maxRecDepth 8000 in
set_option synthInstance.maxSize 1000 in
/-- The hypotheses are met by a map with the route `/u/<x>/<int:n>/`, and by `..` below the script. -/
example : build userMap userAdapter s%"user" badArgs false true =
      .ok s%"/app/v1/u/evil.org:80/%3Fa%23b%3Bc/7/?next=http%3A%2F%2Fevil.org%2F" ∧
    OnServer asciiLower s%"/app/v1/u/evil.org:80/%3Fa%23b%3Bc/7/?next=http%3A%2F%2Fevil.org%2F" ∧
    within 2 (splitOn '/' s%"/../x/../../y") = true ∧ within 2 (splitOn '/' s%"/../x/../../../y") = false ∧
    build pageMap userAdapter s%"page" [(s%"name", .str s%"../x")] false true = .ok s%"/app/x" := by
  have hb : build userMap userAdapter s%"user" badArgs false true =
      .ok s%"/app/v1/u/evil.org:80/%3Fa%23b%3Bc/7/?next=http%3A%2F%2Fevil.org%2F" := by decide +kernel
  refine ⟨hb, ?_, by decide +kernel, by decide +kernel, by decide +kernel⟩
  rcases C135_values_partial asciiLower userMap url_join userAdapter [s%"app", s%"v1"]
    ⟨by unfold Segment; decide +kernel, by decide +kernel⟩ rfl (by decide) (by decide +kernel) s%"user" badArgs false true _
    (by
      intro b h
      have e : userMap.update.byEndpoint s%"user" = [userBound] := rfl
      rw [e] at h
      rw [List.mem_singleton.1 h]
      exact bad_tame) hb with ⟨_, _, _, _, _, h | ⟨_, host, rest, h, _⟩⟩
  · exact h.2.2
  · cases h

set_option maxRecDepth 8000 in
/-- C135 is false of the code: `..` takes an address above the root, and a text with a colon becomes one
with a scheme, which a browser runs or follows to another server. -/
theorem C135_scheme_false :
    build pageMap sampleAdapter s%"page" [(s%"name", .str s%"../javascript:alert(1)")] false true = .ok s%"javascript:alert%281%29" ∧
    (∃ u, ReqUrl.urlsplit asciiLower s%"javascript:alert%281%29" = .ok u ∧ u.scheme = s%"javascript") ∧
    build pageMap userAdapter s%"page" [(s%"name", .str s%"../../../https:evil.org")] false true = .ok s%"https:evil.org" :=
  ⟨by decide +kernel, ⟨_, rfl, by decide +kernel⟩, by decide +kernel⟩

set_option maxRecDepth 8000 in
/-- C135 is false of the code: slashes are not quoted in a domain either. -/
theorem C135_domain_false :
    build (run (URLMap.new urlCfg) [.add [homeRoute]]) sampleAdapter s%"home" [(s%"user", .str s%"evil.org/")] false true =
      .ok s%"http://evil.org/.example.org/" := by decide +kernel

end Verif.Props.BuildP
