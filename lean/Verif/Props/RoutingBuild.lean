import Verif.Props.RoutingPath
/-!
C49: building an address and matching it (`/repo/verktyg/routing.py`).
-/
namespace Verif.Props.RoutingP
open Verif Verif.Routing Verif.Spec.Routing Verif.Spec

/-- The texts of a segment are not empty and have no slashes. -/
theorem segment_text (dec : Char → Option Nat) (hsl : dec '/' = none) (k : Kind) (hk : k.Ok) (hs : k.Segment) (t : Str)
    (ht : Re.Lang (k.conv dec).re t) : t ≠ [] ∧ '/' ∉ t := by
  cases k with
  | string min max =>
    obtain ⟨h1, h2, _⟩ := (lang_rep noSlash min max hk t).1 ht
    have hs : 1 ≤ min := hs
    refine ⟨?_, fun h => by have := h1 _ h; simp [noSlash] at this⟩
    rintro rfl
    simp at h2
    omega
  | any items =>
    rcases (lang_any items t).1 ht with h | ⟨h, _⟩
    · exact hs t h
    · exact absurd h hk
  | float F lo hi =>
    obtain ⟨a, b, rfl, ha, hb, h1, h2⟩ := (lang_float F dec lo hi t).1 ht
    refine ⟨by simp, fun h => ?_⟩
    rcases List.mem_append.1 h with h | h
    · have := h1 _ h; rw [hsl] at this; cases this
    · rcases List.mem_cons.1 h with h | h
      · exact absurd h (by decide)
      · have := h2 _ h; rw [hsl] at this; cases this
  | path => exact hs.elim
  | int fixed lo hi =>
    obtain ⟨h1, h2⟩ := (lang_plus _ t).1 ht
    refine ⟨h1, fun h => ?_⟩
    have := h2 _ h
    rw [hsl] at this
    cases this
  | uuid =>
    obtain ⟨a, b, c, d, e, rfl, ⟨hl, _⟩, hx⟩ := (lang_uuid t).1 ht
    have hn : isHex '/' = false := by decide
    simp only [List.mem_append] at hx
    refine ⟨by intro h; simp at h, ?_⟩
    intro h
    simp only [List.mem_append, List.mem_singleton] at h
    have : isHex '/' = true := by
      rcases h with (((((((h | h) | h) | h) | h) | h) | h) | h) | h
      · exact hx _ (by simp [h])
      · exact absurd h (by decide)
      · exact hx _ (by simp [h])
      · exact absurd h (by decide)
      · exact hx _ (by simp [h])
      · exact absurd h (by decide)
      · exact hx _ (by simp [h])
      · exact absurd h (by decide)
      · exact hx _ (by simp [h])
    rw [hn] at this
    cases this

/-- Up to the first slash. -/
theorem slash_split (a b x y : Str) (ha : '/' ∉ a) (hb : '/' ∉ b) (h : a ++ '/' :: x = b ++ '/' :: y) :
    a = b ∧ x = y := by
  have h1 := Py.split1_some '/' a x ha
  have h2 := Py.split1_some '/' b y hb
  rw [h, h2] at h1
  cases h1
  exact ⟨rfl, rfl⟩

/-- A segmented rule can be read in one way only. -/
theorem fill_inj (ps : List Part) : Segmented ps → (∀ n c, (n, c) ∈ vars ps → ∀ t, Re.Lang c.re t → '/' ∉ t) →
    ∀ ts ts', Fit ps ts → Fit ps ts' → fill ps ts = fill ps ts' → ts = ts' := by
  induction ps using Segmented.induct with
  | case1 =>
    intro _ _ ts ts' h h' _
    rw [show ts = [] from h, show ts' = [] from h']
  | case2 s ps ih =>
    intro hs hv ts ts' h h' he
    exact ih hs hv ts ts' h h' (List.append_cancel_left he)
  | case3 n c =>
    intro _ _ ts ts' h h' he
    cases ts with
    | nil => exact h.elim
    | cons t ts =>
      cases ts' with
      | nil => exact h'.elim
      | cons t' ts' =>
        rw [show ts = [] from h.2, show ts' = [] from h'.2]
        simp only [fill, List.append_nil] at he
        rw [he]
  | case4 n c s ps ih =>
    intro hs hv ts ts' h h' he
    cases ts with
    | nil => exact h.elim
    | cons t ts =>
      cases ts' with
      | nil => exact h'.elim
      | cons t' ts' =>
        obtain ⟨hh, hs⟩ := hs
        cases s with
        | nil => cases hh
        | cons x s =>
          cases hh
          simp only [fill, List.cons_append] at he
          obtain ⟨e1, e2⟩ := slash_split _ _ _ _ (hv n c (.head _) t h.1) (hv n c (.head _) t' h'.1) he
          rw [e1, ih hs (fun n c hc => hv n c (.tail _ hc)) ts ts' h.2 h'.2 (List.append_cancel_left e2)]
  | case5 n c n' c' ps => intro h; exact h.elim

/-- A variable has a value whose text is read back. -/
def Good (values : Values) (n : Str) (c : Converter) : Prop :=
  ∃ v u t, Dict.get values n = some v ∧ c.toUrl v = .ok (some u) ∧ Written u t ∧ Re.Lang c.re t ∧ c.toPython t = some v

/-- What is built for a rule stands for the rule with the variables replaced by texts which are
read back as the values. -/
theorem build_parts (values : Values) (ps : List Part) (h : ∀ n c, (n, c) ∈ vars ps → Good values n c) :
    ∃ u ts args, buildParts values ps = .ok (some u) ∧ Written u (fill ps ts) ∧ Fit ps ts ∧
      argsOf (vars ps) ts = some args ∧
      ∀ n, Dict.get args n = if n ∈ (vars ps).map (·.1) then Dict.get values n else none := by
  induction ps with
  | nil => exact ⟨[], [], [], rfl, Written.nil, rfl, rfl, fun n => rfl⟩
  | cons p ps ih =>
    cases p with
    | text s =>
      obtain ⟨u, ts, args, h1, h2, h3, h4, h5⟩ := ih h
      refine ⟨urlquote b%"/:|+" s ++ u, ts, args, ?_, (written_quote _ (by decide) (by decide) s).append h2, h3, h4, h5⟩
      rw [buildParts, h1]
    | var n c =>
      obtain ⟨u, ts, args, h1, h2, h3, h4, h5⟩ := ih fun n c hc => h n c (.tail _ hc)
      obtain ⟨v, u', t, g1, g2, g3, g4, g5⟩ := h n c (.head _)
      refine ⟨u' ++ u, t :: ts, (n, v) :: args, ?_, g3.append h2, ⟨g4, h3⟩, ?_, ?_⟩
      · simp only [buildParts, g1, g2, h1]
      · simp only [vars, argsOf, g5, h4, Option.map_some]
      · intro m
        simp only [vars, List.map_cons, List.mem_cons]
        by_cases hm : n = m
        · subst hm
          rw [if_pos (.inl rfl), g1]
          simp [Dict.get]
        · have : Dict.get ((n, v) :: args) m = Dict.get args m := by simp [Dict.get, hm]
          rw [this, h5]
          by_cases hx : m ∈ (vars ps).map (·.1)
          · rw [if_pos hx, if_pos (.inr hx)]
          · rw [if_neg hx, if_neg]
            rintro (h | h)
            · exact hm h.symm
            · exact hx h

theorem buildParts_append (values : Values) (ps qs : List Part) (v : Str) (hq : buildParts values qs = .ok (some v)) :
    ∀ u, buildParts values ps = .ok (some u) → buildParts values (ps ++ qs) = .ok (some (u ++ v)) := by
  induction ps with
  | nil => intro u h; cases h; exact hq
  | cons p ps ih =>
    intro u h
    cases p with
    | text s =>
      simp only [buildParts, List.cons_append] at h ⊢
      cases hb : buildParts values ps with
      | error e => rw [hb] at h; cases h
      | ok o =>
        cases o with
        | none => rw [hb] at h; cases h
        | some w =>
          rw [hb] at h
          cases h
          rw [ih w hb]
          simp
    | var n c =>
      simp only [buildParts, List.cons_append] at h ⊢
      cases hg : Dict.get values n with
      | none => rw [hg] at h; cases h
      | some x =>
        rw [hg] at h
        simp only at h ⊢
        cases hu : c.toUrl x with
        | error e => rw [hu] at h; cases h
        | ok o =>
          cases o with
          | none => rw [hu] at h; cases h
          | some u' =>
            rw [hu] at h
            simp only at h ⊢
            cases hb : buildParts values ps with
            | error e => rw [hb] at h; cases h
            | ok o =>
              cases o with
              | none => rw [hb] at h; cases h
              | some w =>
                rw [hb] at h
                cases h
                rw [ih w hb]
                simp

theorem urlquote_bar (safe : List UInt8) (s : Str) (h : '|' ∉ s) : '|' ∉ urlquote safe s := by
  induction s with
  | nil => simp [urlquote, utf8, Urls.quote]
  | cons c cs ih =>
    rw [urlquote_cons, List.mem_append]
    rintro (hx | hx)
    · exact urlquote_other safe c '|' (.inr rfl) (fun he => h (by rw [he]; exact .head _)) hx
    · exact ih (fun hm => h (.tail _ hm)) hx

theorem fill_append (ps qs : List Part) (ts us : List Str) (h : ts.length = (vars ps).length) :
    fill (ps ++ qs) (ts ++ us) = fill ps ts ++ fill qs us := by
  induction ps generalizing ts with
  | nil =>
    cases ts with
    | nil => rfl
    | cons _ _ => cases h
  | cons p ps ih =>
    cases p with
    | text s => simp only [List.cons_append, fill, ih ts h, List.append_assoc]
    | var n c =>
      cases ts with
      | nil => cases h
      | cons t ts =>
        simp only [List.cons_append, fill, ih ts (by simpa [vars] using h), List.append_assoc]

/-- The address built from acceptable arguments stands for a path which the route matches with
the same arguments. -/
theorem roundtrip (cfg : Config) (hcfg : PureConfig cfg) (i : Nat) (r : Route) (b : Bound)
    (hc : compile cfg i r = .ok b) (hbo : r.buildOnly = false)
    (hd : '<' ∉ domainOf cfg r ∧ '>' ∉ domainOf cfg r ∧ '|' ∉ domainOf cfg r)
    (hseg : Segmented b.path) (hsl : ∀ n c, (n, c) ∈ b.vars → ∀ t, Re.Lang c.re t → t ≠ [] ∧ '/' ∉ t)
    (values : Values) (hv : ∀ n c, (n, c) ∈ b.vars → Good values n c) :
    ∃ d p q path, d = urlquote b%"/:|+" (domainOf cfg r) ∧ q = queryOf b values ∧
      b.build values false = .ok (some (d, p)) ∧ b.build values true = .ok (some (d, p ++ q)) ∧
      (q = [] ∨ q.head? = some '?') ∧ (q ≠ [] → ∃ n, n ∈ Dict.keys values ∧ n ∉ b.arguments) ∧
      Percent.meaning (utf8 d) = utf8 (domainOf cfg r) ∧ Percent.meaning (utf8 p) = utf8 path ∧
      (path.getLast? ≠ some '\n' → ∃ out,
        b.match_ cfg (domainOf cfg r ++ s%"|" ++ path) =
          (if r.alias ∧ cfg.redirectDefaults then .alias out else .values out) ∧
        ∀ n, n ∉ Dict.keys r.defaults →
          Dict.get out n = if n ∈ b.vars.map (·.1) then Dict.get values n else none) := by
  have hp := pure_parts cfg hcfg i r b hc
  obtain ⟨_, _, hr, _, ds, ps, hds, _, hbd, _⟩ := compile_inv cfg i r b hc
  rw [parse_plain _ hd.1 hd.2.1] at hds
  have hdom : b.domain = if domainOf cfg r = [] then [] else [.text (domainOf cfg r)] := by
    cases hds
    split at hbd
    · rw [if_pos (by assumption)]
      exact (Except.ok.inj hbd).symm
    · rw [if_neg (by assumption)]
      simpa [build_regex] using hbd.symm
  have hvd : vars b.domain = [] := by rw [hdom]; split <;> rfl
  have hfd : ∀ ts, fill b.domain ts = domainOf cfg r := by
    intro ts
    rw [hdom]
    split
    · rename_i h; rw [h]; rfl
    · simp [fill]
  have hbv : b.vars = vars b.path := by simp [Bound.vars, hvd]
  have hbdp : buildParts values b.domain = .ok (some (urlquote b%"/:|+" (domainOf cfg r))) := by
    rw [hdom]
    split
    · rename_i h; rw [h]; rfl
    · simp [buildParts]
  obtain ⟨u, ts, args, h1, h2, h3, h4, h5⟩ := build_parts values b.path (by rw [← hbv]; exact hv)
  let tl : Str := if b.route.leaf then [] else s%"/"
  have htl : buildParts values (if b.route.leaf then [] else [.text s%"/"]) = .ok (some tl) := by
    show _ = Except.ok (some (if b.route.leaf then [] else s%"/"))
    have hsl : urlquote b%"/:|+" s%"/" = s%"/" := by decide +kernel
    split
    · rfl
    · simp [buildParts, hsl]
  have htr : buildParts values b.trace = .ok (some (urlquote b%"/:|+" (domainOf cfg r) ++ '|' :: (u ++ tl))) := by
    unfold Bound.trace
    rw [List.append_assoc]
    refine buildParts_append values _ _ ('|' :: (u ++ tl)) ?_ _ hbdp
    have := buildParts_append values b.path _ tl htl u h1
    rw [List.cons_append, buildParts, this]
    have hb : urlquote b%"/:|+" s%"|" = s%"|" := by decide +kernel
    simp [hb]
  have hsplit := Py.split1_some '|' _ (u ++ tl) (urlquote_bar b%"/:|+" _ hd.2.2)
  have hwtl : Written tl tl := by
    refine written_plain tl ?_
    show ∀ c ∈ (if b.route.leaf then [] else s%"/"), _
    split
    · simp
    · decide
  have hparts : fill (parts b) ts = domainOf cfg r ++ s%"|" ++ fill b.path ts := by
    have := fill_append b.domain (.text s%"|" :: b.path) [] ts (by rw [hvd]; rfl)
    unfold parts
    rw [List.nil_append] at this
    rw [this, hfd]
    simp [fill]
  have hvp : vars (parts b) = vars b.path := by rw [vars_parts, hbv]
  have hfit : Fit (parts b) ts ↔ Fit b.path ts := by
    unfold parts
    rw [hdom]
    split <;> exact Iff.rfl
  refine ⟨urlquote b%"/:|+" (domainOf cfg r), u ++ tl, queryOf b values, fill b.path ts ++ tl, rfl, rfl, ?_, ?_, ?_, ?_,
    (written_quote _ (by decide) (by decide) _).meaning, (h2.append hwtl).meaning, ?_⟩
  · unfold Bound.build
    rw [htr]
    simp [hsplit]
  · unfold Bound.build
    rw [htr]
    simp [hsplit]
  · unfold queryOf
    dsimp only
    split
    · exact .inl rfl
    · exact .inr rfl
  · intro hq
    unfold queryOf at hq
    dsimp only at hq
    split at hq
    · exact absurd rfl hq
    · rename_i hne
      obtain ⟨⟨n, v⟩, hx⟩ := List.exists_mem_of_ne_nil _ hne
      rw [List.mem_filter] at hx
      refine ⟨n, List.mem_map.2 ⟨_, hx.1, rfl⟩, ?_⟩
      intro hc
      have := hx.2
      simp at this
      exact this hc
  · intro hnl
    have hb : b.route.buildOnly = false := by rw [hr]; exact hbo
    have hfl := fill_last (parts b) ts (hfit.2 h3) (by unfold parts; simp) (fun s h => by
        rcases parts_last b _ h with h | ⟨_, h⟩
        · exact path_last cfg i r b hc s h
        · cases h; exact ⟨by decide, by decide⟩)
      (fun n c h t _ hl => by
        have hm : (n, c) ∈ b.vars := by
          rw [← vars_parts]
          have : ∀ (l : List Part), .var n c ∈ l → (n, c) ∈ vars l := by
            intro l
            induction l with
            | nil => intro h; cases h
            | cons p ps ih =>
              intro h
              cases p with
              | text s =>
                rcases List.mem_cons.1 h with h | h
                · cases h
                · exact ih h
              | var n' c' =>
                rcases List.mem_cons.1 h with h | h
                · cases h; exact .head _
                · exact .tail _ (ih h)
          exact this _ (List.mem_of_getLast? h)
        obtain ⟨e1, e2⟩ := hsl n c hm t hl
        exact ⟨e1, fun h => e2 (List.mem_of_getLast? h)⟩)
    have hpath : domainOf cfg r ++ s%"|" ++ (fill b.path ts ++ tl) = fill (parts b) ts ++ tl ++ [] := by
      rw [hparts]; simp
    have htl2 : tl = [] ∨ tl = s%"/" := by
      show (if b.route.leaf then [] else s%"/") = [] ∨ (if b.route.leaf then [] else s%"/") = s%"/"
      split
      · exact .inl rfl
      · exact .inr rfl
    have hreads : Reads b (domainOf cfg r ++ s%"|" ++ (fill b.path ts ++ tl)) ts tl [] := by
      refine ⟨hfit.2 h3, hpath, .inl rfl, ?_⟩
      split
      · exact ⟨hfl.2, htl2⟩
      · rename_i hns
        have : b.route.leaf = true := by
          cases hl : b.route.leaf with
          | true => rfl
          | false => simp [Bound.suffixed, hl] at hns
        show (if b.route.leaf then [] else s%"/") = []
        rw [if_pos this]
    rcases match_cases cfg b hp hb (domainOf cfg r ++ s%"|" ++ (fill b.path ts ++ tl)) with ⟨hn, _⟩ | ⟨ts', suf, nl, hr', _, hm⟩
    · exact absurd hreads (hn ts tl [])
    · have hnl' : nl = [] := by
        rcases hr'.nl with h | h
        · exact h
        · exfalso
          have hlast : (fill (parts b) ts ++ tl).getLast? = some '\n' := by
            have := hr'.path
            rw [hpath, List.append_nil, h] at this
            rw [this, List.getLast?_append]
            rfl
          by_cases hx : fill b.path ts ++ tl = []
          · simp at hx
            rw [hparts, hx.1, hx.2] at hlast
            simp at hlast
          · apply hnl
            rw [← hlast, hparts, List.append_assoc]
            exact suffix_last (List.suffix_append _ _) hx
      have heq : fill (parts b) ts ++ tl = fill (parts b) ts' ++ suf := by
        have := hr'.path
        rw [hpath, hnl'] at this
        simpa using this
      have hsuf : suf = tl := by
        have hs' := hr'.suffix
        have hs := hreads.suffix
        split at hs'
        · rename_i hsf
          rw [if_pos hsf] at hs
          rcases hs.2 with e1 | e1 <;> rcases hs'.2 with e2 | e2
          · rw [e1, e2]
          · exfalso
            rw [e1, e2, List.append_nil] at heq
            apply hs.1
            rw [heq, List.getLast?_append]
            rfl
          · exfalso
            rw [e1, e2, List.append_nil] at heq
            apply hs'.1
            rw [← heq, List.getLast?_append]
            rfl
          · rw [e1, e2]
        · rename_i hsf
          rw [if_neg hsf] at hs
          rw [hs, hs']
      rw [hsuf] at heq
      have heq := List.append_cancel_right heq
      have hts : ts = ts' := by
        have hsp : Segmented (parts b) := by
          unfold parts
          rw [hdom]
          split <;> exact hseg
        exact fill_inj (parts b) hsp (fun n c hc t ht => (hsl n c (by rw [← vars_parts]; exact hc) t ht).2) ts ts'
          hreads.fit hr'.fit heq
      rw [hm, ← hts, hsuf]
      refine ⟨update args r.defaults, ?_, ?_⟩
      · unfold outcome
        rw [if_neg]
        · rw [hbv, h4, hr]
        · rintro ⟨_, hl, ht⟩
          simp at hl
          have : tl = s%"/" := by
            show (if b.route.leaf then [] else s%"/") = s%"/"
            rw [hl]; rfl
          rw [this] at ht
          cases ht
      · intro n hn
        rw [get_update _ _ _ hn, h5, hbv]

/-! ### C49 -/

/-- The arguments of a route with the built-in converters are acceptable: every variable has a
value of its converter, one that can be written in a path. -/
def Acceptable (dec : Char → Option Nat) (b : Bound) (values : Values) : Prop :=
  ∀ n c, (n, c) ∈ b.vars → ∃ (k : Kind) (v : Val), c = k.conv dec ∧ k.Ok ∧ k.Segment ∧ Dict.get values n = some v ∧
    k.Plain v ∧ k.Valid v

theorem acceptable_good (dec : Char → Option Nat) (hdec : Decimal dec) (b : Bound) (values : Values)
    (h : Acceptable dec b values) (n : Str) (c : Converter) (hn : (n, c) ∈ b.vars) : Good values n c := by
  obtain ⟨k, v, rfl, hk, _, hg, hp, hv⟩ := h n c hn
  obtain ⟨u, t, h1, h2, h3, h4⟩ := kind_roundtrip dec hdec k hk v hv hp
  exact ⟨v, u, t, hg, h1, h2, h3, h4⟩

theorem acceptable_text (dec : Char → Option Nat) (hsl : dec '/' = none) (b : Bound) (values : Values)
    (h : Acceptable dec b values) (n : Str) (c : Converter) (hn : (n, c) ∈ b.vars) (t : Str) (ht : Re.Lang c.re t) :
    t ≠ [] ∧ '/' ∉ t := by
  obtain ⟨k, v, rfl, hk, hs, _, _⟩ := h n c hn
  exact segment_text dec hsl k hk hs t ht

/-- The address that a route builds from acceptable arguments, percent-decoded, is matched by
the route with the same arguments, if each variable fills a segment of the path and the path
does not end with a line break.  Other values become the query of the address. -/
theorem C49_route_partial (dec : Char → Option Nat) (hdec : Decimal dec) (hsl : dec '/' = none)
    (cfg : Config) (hcfg : PureConfig cfg) (i : Nat) (r : Route) (b : Bound)
    (hc : compile cfg i r = .ok b) (hbo : r.buildOnly = false)
    (hd : '<' ∉ domainOf cfg r ∧ '>' ∉ domainOf cfg r ∧ '|' ∉ domainOf cfg r)
    (hseg : Segmented b.path) (values : Values) (hv : Acceptable dec b values) :
    ∃ d p q path, b.build values false = .ok (some (d, p)) ∧ b.build values true = .ok (some (d, p ++ q)) ∧
      (q = [] ∨ q.head? = some '?') ∧ (q ≠ [] → ∃ n, n ∈ Dict.keys values ∧ n ∉ b.arguments) ∧
      Percent.meaning (utf8 d) = utf8 (domainOf cfg r) ∧ Percent.meaning (utf8 p) = utf8 path ∧
      (path.getLast? ≠ some '\n' → ∃ out,
        b.match_ cfg (domainOf cfg r ++ s%"|" ++ path) =
          (if r.alias ∧ cfg.redirectDefaults then .alias out else .values out) ∧
        ∀ n, n ∉ Dict.keys r.defaults →
          Dict.get out n = if n ∈ b.vars.map (·.1) then Dict.get values n else none) := by
  obtain ⟨d, p, q, path, _, _, h⟩ := roundtrip cfg hcfg i r b hc hbo hd hseg (acceptable_text dec hsl b values hv) values
    (acceptable_good dec hdec b values hv)
  exact ⟨d, p, q, path, h⟩

/-- The same through a map, if the route is the best one for the path: the path of the built
address, percent-decoded, finds the route with the same arguments. -/
theorem C49_map_partial (dec : Char → Option Nat) (hdec : Decimal dec) (hsl : dec '/' = none)
    (cfg : Config) (hcfg : PureConfig cfg) (ops : List Op) (hs : settled (URLMap.new cfg) true ops = true)
    (hdef : cfg.redirectDefaults = false ∨ ∀ r ∈ registered cfg ops, r.defaults = [] ∧ r.alias = false)
    (b : Bound) (hb : Registered cfg ops b) (hbo : b.route.buildOnly = false) (hto : b.route.redirectTo = none)
    (hd : '<' ∉ domainOf cfg b.route ∧ '>' ∉ domainOf cfg b.route ∧ '|' ∉ domainOf cfg b.route)
    (a : Adapter) (ha : (if cfg.hostMatching ∧ a.serverName ≠ [] then a.serverName else a.subdomain) = domainOf cfg b.route)
    (hseg : Segmented b.path) (values : Values) (hv : Acceptable dec b values) :
    ∃ d p path, b.build values false = .ok (some (d, p)) ∧ Percent.meaning (utf8 p) = utf8 path ∧
      (path.getLast? ≠ some '\n' → path = '/' :: lstripSlash path → Best cfg ops (fullPath cfg a path) b →
        ∀ query, ∃ out, match_ (run (URLMap.new cfg) ops) a path query = .ok (.found b out) ∧
          ∀ n, n ∉ Dict.keys b.route.defaults →
            Dict.get out n = if n ∈ b.vars.map (·.1) then Dict.get values n else none) := by
  obtain ⟨r, hr1, hr2⟩ := id hb
  obtain ⟨_, _, hr, _⟩ := compile_inv cfg _ r b hr2
  rw [hr] at hd hbo ha
  obtain ⟨d, p, q, path, h1, _, _, _, _, h2, h3⟩ :=
    C49_route_partial dec hdec hsl cfg hcfg _ r b hr2 hbo hd hseg values hv
  refine ⟨d, p, path, h1, h2, ?_⟩
  intro hnl hpath hbest query
  obtain ⟨out, h4, h5⟩ := h3 hnl
  have hfull : fullPath cfg a path = domainOf cfg r ++ s%"|" ++ path := by
    have : domainOf cfg r ++ s%"|" ++ path = domainOf cfg r ++ s%"|" ++ ('/' :: lstripSlash path) :=
      congrArg _ hpath
    unfold fullPath
    rw [ha, this]
    simp
  have hal : ¬ (r.alias = true ∧ cfg.redirectDefaults = true) := by
    rintro ⟨e1, e2⟩
    rcases hdef with h | h
    · rw [h] at e2; cases e2
    · rw [(h r (List.mem_of_getElem? hr1)).2] at e1; cases e1
  rw [if_neg hal] at h4
  refine ⟨out, ?_, by rw [hr]; exact h5⟩
  have hcu : ∀ m : URLMap, m.update.cfg = m.cfg := fun m => by unfold URLMap.update; split <;> rfl
  have hl := listed_run ops (URLMap.new cfg) [] (fun e b hb => by cases hb)
  have hcf : (run (URLMap.new cfg) ops).update.cfg = cfg := (hcu _).trans hl.2
  rw [match_best cfg ops hs a path query b hbest, hfull, h4, answer, hcf]
  have : (if cfg.redirectDefaults = true then getDefaultRedirect cfg a b out query
      ((run (URLMap.new cfg) ops).update.byEndpoint b.route.endpoint) else .ok none) = .ok none := by
    rcases hdef with h | h
    · rw [if_neg (by rw [h]; decide)]
    · split
      · exact redirect_none _ _ _ _ _ _ fun b hb => (h _ ((listed_update _ _ hl.1) _ b hb).1).1
      · rfl
  rw [this]
  dsimp only
  rw [hto]

/-- A map whose converter accepts the words `a` and `a` with a line break. -/
def lineCfg : Config := ⟨false, [], true, true, fun _ _ => .ok (anyConv [s%"a", s%"a\n"]), fun _ p => p⟩

/-- As stated C49 is false where a value ends with a line break: the end of the pattern is
found before it, and the argument that comes back is another one. -/
theorem C49_newline_false : ∃ (r : Route) (b : Bound), compile lineCfg 0 r = .ok b ∧ Segmented b.path ∧
    Acceptable asciiDec b [(s%"x", .str s%"a\n")] ∧
    b.build [(s%"x", .str s%"a\n")] true = .ok (some ([], s%"/a%0A")) ∧
    b.match_ lineCfg s%"|/a\n" = .values [(s%"x", .str s%"a")] := by
  refine ⟨sampleRoute s%"/<x>" s%"e", _, rfl, trivial, ?_, rfl, rfl⟩
  intro n c h
  rcases List.mem_cons.1 h with h | h
  · cases h
    exact ⟨.any [s%"a", s%"a\n"], .str s%"a\n", rfl, (by decide : [s%"a", s%"a\n"] ≠ []),
      (by decide : ∀ s ∈ [s%"a", s%"a\n"], s ≠ [] ∧ '/' ∉ s), rfl, trivial, (by decide : s%"a\n" ∈ [s%"a", s%"a\n"])⟩
  · cases h

/-- Where the variables do not fill segments, the arguments that come back can be others. -/
theorem C49_segments_false : ∃ (r : Route) (b : Bound), compile sampleCfg 0 r = .ok b ∧
    Acceptable asciiDec b [(s%"x", .str s%"a"), (s%"y", .str s%"b-c")] ∧
    b.build [(s%"x", .str s%"a"), (s%"y", .str s%"b-c")] true = .ok (some ([], s%"/a-b-c")) ∧
    b.match_ sampleCfg s%"|/a-b-c" = .values [(s%"x", .str s%"a-b"), (s%"y", .str s%"c")] := by
  refine ⟨sampleRoute s%"/<x>-<y>" s%"e", _, rfl, ?_, rfl, rfl⟩
  have hk : Kind.Ok (.string 1 none) := by intro k hk; cases hk
  intro n c h
  rcases List.mem_cons.1 h with h | h
  · cases h
    exact ⟨.string 1 none, .str s%"a", rfl, hk, Nat.le_refl _, rfl, trivial,
      (by decide : '/' ∉ s%"a"), (by decide : 1 ≤ s%"a".length), by intro k hk; cases hk⟩
  · rcases List.mem_cons.1 h with h | h
    · cases h
      exact ⟨.string 1 none, .str s%"b-c", rfl, hk, Nat.le_refl _, rfl, trivial,
        (by decide : '/' ∉ s%"b-c"), (by decide : 1 ≤ s%"b-c".length), by intro k hk; cases hk⟩
    · cases h

/-- A branch route with two variables, and what is built for it. -/
def userRoute : Route := sampleRoute s%"/u/<x>/<int:n>/" s%"user"

def userBound : Bound := ⟨0, userRoute, true, [], [.text s%"/u/", .var s%"x" (Kind.conv asciiDec (.string 1 none)),
  .text s%"/", .var s%"n" (Kind.conv asciiDec (.int 0 none none))]⟩

def userArgs : Values := [(s%"n", .int 7), (s%"page", .int 2), (s%"x", .str s%"a b")]

set_option maxRecDepth 8000 in
example : compile sampleCfg 0 userRoute = .ok userBound ∧ Segmented userBound.path ∧ Acceptable asciiDec userBound userArgs ∧
    userBound.build userArgs true = .ok (some ([], s%"/u/a%20b/7/?page=2")) ∧
    userBound.match_ sampleCfg s%"|/u/a b/7/" = .values [(s%"x", .str s%"a b"), (s%"n", .int 7)] := by
  refine ⟨rfl, ⟨rfl, trivial⟩, ?_, by decide +kernel, rfl⟩
  intro n c h
  rcases List.mem_cons.1 h with h | h
  · cases h
    exact ⟨.string 1 none, .str s%"a b", rfl, (by intro k hk; cases hk), Nat.le_refl _, rfl, trivial,
      (by decide : '/' ∉ s%"a b"), (by decide : 1 ≤ s%"a b".length), by intro k hk; cases hk⟩
  · rcases List.mem_cons.1 h with h | h
    · cases h
      exact ⟨.int 0 none none, .int 7, rfl, trivial, trivial, rfl, trivial, (by decide : (0 : Int) ≤ 7), (by simp), (by simp), by simp⟩
    · cases h

end Verif.Props.RoutingP
