import Verif.Model.BuildArgs
import Verif.Props.BuildUrl
/-!
C132: what is given to `build` arrives in the address.
-/
namespace Verif.Props.BuildArgsP
open Verif Verif.Py Verif.Routing Verif.Props Verif.Props.RoutingP Verif.Props.BuildP

/-- The values of a dictionary given to `build`: those that are not `None`, of lists the first. -/
def heads (d : List (Str × GivenArg)) : Values :=
  d.filterMap fun p => match p.2 with
    | .one v => some (p.1, v)
    | .many (v :: _) => some (p.1, v)
    | _ => none

/-- The dictionary without `None`. -/
def given (d : List (Str × GivenArg)) : List (Str × GivenArg) := d.filter fun p => decide (p.2 ≠ .none)

theorem heads_given (d : List (Str × GivenArg)) : heads (given d) = heads d := by
  induction d with
  | nil => rfl
  | cons p d ih =>
    obtain ⟨k, a⟩ := p
    cases a with
    | none => simpa [given, heads] using ih
    | one v => simpa [given, heads] using ih
    | many vs =>
      unfold given heads at ih ⊢
      cases vs <;> simpa using ih

/-- No list is given for an argument of the routes. -/
def Single (bs : List Bound) (d : List (Str × GivenArg)) : Prop :=
  ∀ p ∈ d, ∀ vs, p.2 = .many vs → ∀ b ∈ bs, p.1 ∉ b.arguments

/-- A key for which no list is given. -/
theorem get_heads {d : List (Str × GivenArg)} (hn : ∀ p ∈ d, p.2 ≠ .none) {k : Str}
    (hk : ∀ p ∈ d, ∀ vs, p.2 = .many vs → p.1 ≠ k) : Dict.get d k = (Dict.get (heads d) k).map .one := by
  induction d with
  | nil => rfl
  | cons p d ih =>
    obtain ⟨j, a⟩ := p
    have ih := ih (fun q hq => hn q (by simp [hq])) (fun q hq => hk q (by simp [hq]))
    unfold heads at ih ⊢
    cases a with
    | none => exact absurd rfl (hn (j, .none) (by simp))
    | one v =>
      simp only [Dict.get, List.filterMap_cons]
      by_cases h : j = k
      · simp [h]
      · simp [h, ih]
    | many vs =>
      have hj : j ≠ k := hk (j, .many vs) (by simp) vs rfl
      cases vs with
      | nil => simp [Dict.get, hj, ih]
      | cons v vs => simp [Dict.get, hj, ih]

theorem has_heads {d : List (Str × GivenArg)} (hn : ∀ p ∈ d, p.2 ≠ .none) {k : Str}
    (hk : ∀ p ∈ d, ∀ vs, p.2 = .many vs → p.1 ≠ k) : Dict.has (heads d) k = Dict.has d k := by
  unfold Dict.has
  rw [get_heads hn hk]
  cases Dict.get (heads d) k <;> rfl

theorem suitable_heads {d : List (Str × GivenArg)} (hn : ∀ p ∈ d, p.2 ≠ .none) {b : Bound} {bs : List Bound} (hb : b ∈ bs)
    (hp : Single bs d) : b.suitableArgs d = b.suitableFor (heads d) := by
  have hs : ∀ k ∈ b.arguments, ∀ p ∈ d, ∀ vs, p.2 = .many vs → p.1 ≠ k := fun k hk p h vs e he => hp p h vs e b hb (by rw [he]; exact hk)
  unfold Bound.suitableArgs Bound.suitableFor
  congr 1
  · rw [Bool.eq_iff_iff, List.all_eq_true, List.all_eq_true]
    constructor <;> intro h k hk <;> have := h k hk
    · rw [has_heads hn (hs k hk)]; exact this
    · rw [has_heads hn (hs k hk)] at this; exact this
  · rw [Bool.eq_iff_iff, List.all_eq_true, List.all_eq_true]
    have key : ∀ kv ∈ b.route.defaults, Dict.get d kv.1 = (Dict.get (heads d) kv.1).map .one := by
      intro kv hkv
      refine get_heads hn (hs kv.1 ?_)
      unfold Bound.arguments Dict.keys
      exact List.mem_append_left _ (List.mem_map_of_mem hkv)
    constructor
    · intro h kv hkv
      have := h kv hkv
      rw [key kv hkv] at this
      cases hg : Dict.get (heads d) kv.1 <;> simp [hg] at this ⊢
      exact this
    · intro h kv hkv
      have := h kv hkv
      rw [key kv hkv]
      cases hg : Dict.get (heads d) kv.1 <;> simp [hg] at this ⊢
      exact this

theorem get_single {listText : List Val → Str} {d : List (Str × GivenArg)} (k : Str) :
    Dict.get (d.map fun p => (p.1, p.2.single listText)) k = (Dict.get d k).map (·.single listText) := by
  induction d with
  | nil => rfl
  | cons p d ih =>
    simp only [List.map_cons, Dict.get]
    split
    · rfl
    · exact ih

theorem buildParts_congr {v w : Values} : ∀ {ps : List Part}, (∀ n c, Part.var n c ∈ ps → Dict.get v n = Dict.get w n) →
    buildParts v ps = buildParts w ps
  | [], _ => rfl
  | .text s :: ps, h => by
    simp only [buildParts]
    rw [buildParts_congr (ps := ps) fun n c hm => h n c (by simp [hm])]
  | .var n c :: ps, h => by
    simp only [buildParts]
    rw [buildParts_congr (ps := ps) fun n c hm => h n c (by simp [hm]), h n c (by simp)]

theorem mem_vars {n : Str} {c : Converter} : ∀ {ps : List Part}, Part.var n c ∈ ps → (n, c) ∈ vars ps
  | .text _ :: ps, h => by
    rcases List.mem_cons.1 h with h | h
    · cases h
    · simpa [vars] using mem_vars (ps := ps) h
  | .var m d :: ps, h => by
    rcases List.mem_cons.1 h with h | h
    · cases h; simp [vars]
    · simp [vars, mem_vars (ps := ps) h]

theorem trace_var {b : Bound} {n : Str} {c : Converter} (h : Part.var n c ∈ b.trace) : n ∈ b.arguments := by
  unfold Bound.trace at h
  have h' : Part.var n c ∈ b.domain ∨ Part.var n c ∈ b.path := by
    rcases List.mem_append.1 h with h | h
    · rcases List.mem_append.1 h with h | h
      · exact .inl h
      · rcases List.mem_cons.1 h with h | h
        · cases h
        · exact .inr h
    · split at h <;> simp at h
  unfold Bound.arguments Bound.vars
  refine List.mem_append_right _ ?_
  rw [List.map_append]
  rcases h' with h | h
  · exact List.mem_append_left _ (List.mem_map.2 ⟨_, mem_vars h, rfl⟩)
  · exact List.mem_append_right _ (List.mem_map.2 ⟨_, mem_vars h, rfl⟩)

theorem firsts_heads : ∀ {d : List (Str × GivenArg)}, (∀ p ∈ d, p.2 ≠ .none) → (∀ p ∈ d, p.2 ≠ .many []) → firsts d = .ok (heads d)
  | [], _, _ => rfl
  | (k, a) :: d, hn, hm => by
    have ih := firsts_heads (d := d) (fun q hq => hn q (by simp [hq])) (fun q hq => hm q (by simp [hq]))
    unfold heads at ih ⊢
    cases a with
    | none => exact absurd rfl (hn (k, .none) (by simp))
    | one v => simp [firsts, ih]
    | many vs =>
      cases vs with
      | nil => exact absurd rfl (hm (k, .many []) (by simp))
      | cons v vs => simp [firsts, ih]

theorem heads_filter (f : Str → Bool) (d : List (Str × GivenArg)) :
    heads (d.filter fun p => f p.1) = (heads d).filter fun p => f p.1 := by
  induction d with
  | nil => rfl
  | cons p d ih =>
    obtain ⟨k, a⟩ := p
    unfold heads at ih ⊢
    cases hf : f k
    · cases a with
      | none => simp [hf, ih]
      | one v => simp [hf, ih]
      | many vs => cases vs <;> simp [hf, ih]
    · cases a with
      | none => simp [hf, ih]
      | one v => simp [hf, ih]
      | many vs => cases vs <;> simp [hf, ih]

theorem parts_heads {listText : List Val → Str} {d : List (Str × GivenArg)} (hn : ∀ p ∈ d, p.2 ≠ .none) {b : Bound} {bs : List Bound}
    (hb : b ∈ bs) (hp : Single bs d) :
    buildParts (d.map fun p => (p.1, p.2.single listText)) b.trace = buildParts (heads d) b.trace := by
  refine buildParts_congr fun n c hc => ?_
  rw [get_single, get_heads hn (k := n) fun p h vs e he => hp p h vs e b hb (by rw [he]; exact trace_var hc)]
  cases Dict.get (heads d) n <;> rfl

theorem build_heads {listText : List Val → Str} {d : List (Str × GivenArg)} (hn : ∀ p ∈ d, p.2 ≠ .none) {b : Bound} {bs : List Bound}
    (hb : b ∈ bs) (hp : Single bs d) (u : Bool) (hm : u = true → ∀ p ∈ d, p.2 ≠ .many []) :
    b.buildArgs listText d u = b.build (heads d) u := by
  unfold Bound.buildArgs Bound.build
  rw [parts_heads hn hb hp]
  cases buildParts (heads d) b.trace with
  | error e => rfl
  | ok o =>
    cases o with
    | none => rfl
    | some t =>
      cases u with
      | false => simp
      | true =>
        have hf : firsts (d.filter fun kv => !b.arguments.contains kv.1) = .ok ((heads d).filter fun kv => !b.arguments.contains kv.1) := by
          rw [firsts_heads (fun p h => hn p (List.mem_filter.1 h).1) (fun p h => hm rfl p (List.mem_filter.1 h).1)]
          rw [heads_filter (fun k => !b.arguments.contains k)]
        simp only [if_true]
        rw [hf]
        simp only [queryOf]

theorem go_heads {listText : List Val → Str} {d : List (Str × GivenArg)} (hn : ∀ p ∈ d, p.2 ≠ .none) (u : Bool)
    (hm : u = true → ∀ p ∈ d, p.2 ≠ .many []) {all : List Bound}
    (hp : Single all d) : ∀ {bs : List Bound}, (∀ b ∈ bs, b ∈ all) → buildArgsGo listText d u bs = buildGo (heads d) u bs
  | [], _ => rfl
  | b :: bs, h => by
    simp only [buildArgsGo, buildGo]
    rw [suitable_heads hn (h b (by simp)) hp, build_heads hn (h b (by simp)) hp u hm,
      go_heads hn u hm hp (bs := bs) fun x hx => h x (by simp [hx])]
    split
    · rcases hh : b.build (heads d) u with e | (_ | v) <;> simp
    · rfl

theorem firsts_empty : ∀ {d : List (Str × GivenArg)} {k : Str}, (k, .many []) ∈ d → firsts d = .error .indexError
  | (j, a) :: d, k, h => by
    rcases List.mem_cons.1 h with h | h
    · cases h; rfl
    · have ih := firsts_empty h
      cases a with
      | none => simp [firsts, ih]
      | one v => simp [firsts, ih]
      | many vs => cases vs <;> simp [firsts, ih]

theorem go_empty {listText : List Val → Str} {d : List (Str × GivenArg)} (hn : ∀ p ∈ d, p.2 ≠ .none) {k : Str} (hk : (k, .many []) ∈ d)
    {all : List Bound} (hp : Single all d) : ∀ {bs : List Bound}, (∀ b ∈ bs, b ∈ all) → ∀ {r}, buildGo (heads d) false bs = .ok (some r) →
    buildArgsGo listText d true bs = .error .indexError
  | [], _, _, hr => by cases hr
  | b :: bs, h, r, hr => by
    simp only [buildArgsGo, buildGo] at hr ⊢
    rw [suitable_heads hn (h b (by simp)) hp]
    by_cases hs : b.suitableFor (heads d) = true
    · rw [if_pos hs] at hr ⊢
      unfold Bound.buildArgs
      unfold Bound.build at hr
      rw [parts_heads hn (h b (by simp)) hp]
      cases hb : buildParts (heads d) b.trace with
      | error e => rw [hb] at hr; cases hr
      | ok o =>
        cases o with
        | none =>
          rw [hb] at hr
          exact go_empty hn hk hp (fun x hx => h x (by simp [hx])) hr
        | some t =>
          simp only [if_true]
          rw [firsts_empty (k := k)]
          refine List.mem_filter.2 ⟨hk, ?_⟩
          simpa using hp _ hk [] rfl b (h b (by simp))
    · rw [if_neg hs] at hr ⊢
      exact go_empty hn hk hp (fun x hx => h x (by simp [hx])) hr

/-- **C132, what counts.**  What is given as `None` counts as not given, and of a list which is not for
an argument of the route only the first value counts.  Missing: lists for arguments. -/
theorem C132_values_partial (listText : List Val → Str) (m : URLMap) (a : Adapter) (endpoint : Str) (d : List (Str × GivenArg))
    (hp : Single (m.update.byEndpoint endpoint) d) (forceExternal appendUnknown : Bool)
    (hm : appendUnknown = true → ∀ p ∈ d, p.2 ≠ .many []) :
    buildGiven listText m a endpoint (.dict d) forceExternal appendUnknown =
      build m a endpoint (heads d) forceExternal appendUnknown := by
  have hn : ∀ p ∈ given d, p.2 ≠ .none := fun p h => by simpa using (List.mem_filter.1 h).2
  have hp' : Single (m.update.byEndpoint endpoint) (given d) := fun p h => hp p (List.mem_filter.1 h).1
  have := go_heads (listText := listText) hn appendUnknown (fun h p hq => hm h p (List.mem_filter.1 hq).1) hp' (bs := m.update.byEndpoint endpoint) fun b h => h
  unfold buildGiven Given.resolve build
  simp only
  rw [show (d.filter fun p => decide (p.2 ≠ .none)) = given d from rfl, this, heads_given]
  rcases buildGo (heads d) appendUnknown (m.update.byEndpoint endpoint) with e | (_ | ⟨x, y⟩)
  · rfl
  · rfl
  · simp only [addressOf]
    split <;> rfl

/-- **C132, nothing given** is the same as an empty dictionary. -/
theorem C132_nothing (listText : List Val → Str) (m : URLMap) (a : Adapter) (endpoint : Str) (forceExternal appendUnknown : Bool) :
    buildGiven listText m a endpoint .nothing forceExternal appendUnknown = build m a endpoint [] forceExternal appendUnknown ∧
    buildGiven listText m a endpoint (.multi []) forceExternal appendUnknown = build m a endpoint [] forceExternal appendUnknown := by
  have := C132_values_partial listText m a endpoint [] (fun p h => by cases h) forceExternal appendUnknown (fun _ p h => by cases h)
  exact ⟨this, this⟩

/-- **C132, empty lists** raise `IndexError`, although the address could be built without them. -/
theorem C132_empty_limits (listText : List Val → Str) (m : URLMap) (a : Adapter) (endpoint : Str) (d : List (Str × GivenArg))
    (hp : Single (m.update.byEndpoint endpoint) d) (forceExternal : Bool) (k : Str) (hk : (k, .many []) ∈ d) (url : Str)
    (h : buildGiven listText m a endpoint (.dict d) forceExternal false = .ok url) :
    buildGiven listText m a endpoint (.dict d) forceExternal true = .error .indexError := by
  rw [C132_values_partial listText m a endpoint d hp forceExternal false (fun h => by cases h)] at h
  have hn : ∀ p ∈ given d, p.2 ≠ .none := fun p h => by simpa using (List.mem_filter.1 h).2
  have hp' : Single (m.update.byEndpoint endpoint) (given d) := fun p h => hp p (List.mem_filter.1 h).1
  have hk' : (k, .many []) ∈ given d := List.mem_filter.2 ⟨hk, by simp⟩
  unfold build at h
  unfold buildGiven Given.resolve
  simp only
  rcases hg : buildGo (heads d) false (m.update.byEndpoint endpoint) with e | (_ | r)
  · rw [hg] at h; cases h
  · rw [hg] at h; cases h
  · rw [← heads_given] at hg
    rw [show (d.filter fun p => decide (p.2 ≠ .none)) = given d from rfl,
      go_empty hn hk' hp' (bs := m.update.byEndpoint endpoint) (fun b h => h) hg]

/-- **C132 is false of multi dictionaries**: `build` raises `AttributeError` for each one that is not
empty, whatever the map holds. -/
theorem C132_multi_false (listText : List Val → Str) (m : URLMap) (a : Adapter) (endpoint : Str) (d : List (Str × List Val))
    (hd : d ≠ []) (forceExternal appendUnknown : Bool) :
    buildGiven listText m a endpoint (.multi d) forceExternal appendUnknown = .error .attributeError := by
  cases d with
  | nil => exact absurd rfl hd
  | cons p d => rfl

theorem lstrip_query {p q : Str} (hq : q.head? ≠ some '/') : lstripSlash (p ++ q) = lstripSlash p ++ q := by
  unfold lstripSlash
  induction p with
  | nil =>
    cases q with
    | nil => rfl
    | cons c q =>
      have : c ≠ '/' := by simpa using hq
      simp [this]
  | cons c p ih =>
    by_cases h : c = '/'
    · simp [h]; simpa using ih
    · simp [h]

theorem join_query {s p q : Str} (hs : s.getLast? = some '/') (hp : p.head? ≠ some '/') (hq : q.head? ≠ some '/') :
    joinPath s (p ++ q) = joinPath s p ++ q := by
  have h1 : (p ++ q).head? ≠ some '/' := by
    cases p with
    | nil => simpa using hq
    | cons c p => simpa using hp
  unfold joinPath
  rw [if_neg h1, if_neg hp, if_pos (.inr hs), if_pos (.inr hs), List.append_assoc]

theorem lstrip_head (p : Str) : (lstripSlash p).head? ≠ some '/' := by
  unfold lstripSlash
  induction p with
  | nil => simp
  | cons c p ih =>
    by_cases h : c = '/'
    · simpa [h] using ih
    · simp [h]

theorem unparse_query {scheme host p q : Str} (hh : host ≠ []) (hp : p ≠ []) :
    unparse scheme host (p ++ q) [] = unparse scheme host p [] ++ q := by
  have h1 : (p ++ q).head? = p.head? := by
    cases p with
    | nil => exact absurd rfl hp
    | cons c p => rfl
  have h2 : p ++ q ≠ [] := fun h => hp (List.append_eq_nil_iff.1 h).1
  unfold unparse
  simp only [hh, ne_eq, not_false_eq_true, true_or, if_true, h1, h2, hp, true_and, not_true_eq_false, if_false]
  split <;> split <;> simp

/-- **C132, the query.**  An absolute address is the one built without the extra values, followed by a
query from which exactly the values that are no arguments of a route of the end point are read. -/
theorem C132_query_partial (m : URLMap) (a : Adapter) (endpoint : Str) (values : Values) (url : Str)
    (hs : a.scriptName.getLast? = some '/') (hh : ∀ d, getHost m.cfg a (some d) ≠ [])
    (h : build m a endpoint values true true = .ok url) :
    ∃ b ∈ m.update.byEndpoint endpoint, ∃ url0 q, build m a endpoint values true false = .ok url0 ∧
      QueryFor b values q ∧ url = url0 ++ q.elim [] ('?' :: ·) := by
  have go : ∀ (bs : List Bound) (d p : Str), buildGo values true bs = .ok (some (d, p)) →
      ∃ b ∈ bs, ∃ p0 q, buildGo values false bs = .ok (some (d, p0)) ∧ QueryFor b values q ∧ p = p0 ++ q.elim [] ('?' :: ·) := by
    intro bs
    induction bs with
    | nil => intro d p h; cases h
    | cons b bs ih =>
      intro d p h
      simp only [buildGo] at h ⊢
      by_cases hsu : b.suitableFor values = true
      · rw [if_pos hsu] at h ⊢
        unfold Bound.build at h ⊢
        cases hb : buildParts values b.trace with
        | error e => rw [hb] at h; cases h
        | ok o =>
          cases o with
          | none =>
            rw [hb] at h
            obtain ⟨b', hb', r⟩ := ih d p h
            exact ⟨b', by simp [hb'], r⟩
          | some t =>
            rw [hb] at h
            simp only [if_true] at h
            have h := Option.some.inj (Except.ok.inj h)
            obtain ⟨q, hq1, hq2⟩ := queryOf_spec b values
            refine ⟨b, by simp, (split1 '|' t).2.getD [], q, ?_, hq1, ?_⟩
            · have : (split1 '|' t).1 = d := congrArg Prod.fst h
              simp [this]
            · rw [← hq2]
              exact (congrArg Prod.snd h).symm
      · rw [if_neg hsu] at h ⊢
        obtain ⟨b', hb', r⟩ := ih d p h
        exact ⟨b', by simp [hb'], r⟩
  unfold build at h ⊢
  rcases hg : buildGo values true (m.update.byEndpoint endpoint) with e | (_ | ⟨d, p⟩)
  · rw [hg] at h; cases h
  · rw [hg] at h; cases h
  · rw [hg] at h
    obtain ⟨b, hb, p0, q, h1, h2, h3⟩ := go _ _ _ hg
    simp only [Bool.true_eq_false, false_and, if_false] at h ⊢
    have hq : (q.elim [] ('?' :: ·) : Str).head? ≠ some '/' := by cases q <;> simp
    refine ⟨b, hb, _, q, by rw [h1], h2, ?_⟩
    rw [← Except.ok.inj h, h3, lstrip_query hq, join_query hs (lstrip_head _) hq]
    refine unparse_query (hh d) ?_
    unfold joinPath
    rw [if_neg (lstrip_head _), if_pos (.inr hs)]
    intro h0
    rw [(List.append_eq_nil_iff.1 h0).1] at hs
    cases hs

/-! ### Cases -/

/-- The map with the route `/u/<x>/<int:n>/`. -/
def userMap : URLMap := run (URLMap.new urlCfg) [.add [userRoute]]

/-- A user, a page that is not given, and two tags. -/
def tagged : List (Str × GivenArg) :=
  [(s%"x", .one (.str s%"a b")), (s%"page", .none), (s%"n", .one (.int 7)), (s%"tag", .many [.str s%"p", .str s%"q"])]

theorem user_single (d : List (Str × GivenArg)) (h : ∀ p ∈ d, ∀ vs, p.2 = .many vs → p.1 ∉ [s%"x", s%"n"]) :
    Single (userMap.update.byEndpoint s%"user") d := by
  intro p hp vs e b hb
  have : userMap.update.byEndpoint s%"user" = [userBound] := rfl
  rw [this] at hb
  rw [List.mem_singleton.1 hb]
  exact h p hp vs e

theorem tagged_single : ∀ p ∈ tagged, ∀ vs, p.2 = .many vs → p.1 ∉ [s%"x", s%"n"] := by
  intro p hp vs e
  simp only [tagged, List.mem_cons, List.not_mem_nil, or_false] at hp
  rcases hp with rfl | rfl | rfl | rfl
  · cases e
  · cases e
  · cases e
  · show s%"tag" ∉ _
    decide

/-- **C132 is false of lists**: of two tags only the first is in the query. -/
theorem C132_lists_false :
    buildGiven (fun _ => []) userMap userAdapter s%"user" (.dict tagged) true true =
      .ok s%"http://example.org/app/v1/u/a%20b/7/?tag=p" := by
  rw [C132_values_partial _ _ _ _ _ (user_single _ tagged_single) _ _ (by
    intro _ p hp e
    simp only [tagged, List.mem_cons, List.not_mem_nil, or_false] at hp
    rcases hp with rfl | rfl | rfl | rfl <;> cases e)]
  decide +kernel

/-- A user and no tags. -/
def tagless : List (Str × GivenArg) := [(s%"x", .one (.str s%"a b")), (s%"n", .one (.int 7)), (s%"tag", .many [])]

theorem tagless_single : ∀ p ∈ tagless, ∀ vs, p.2 = .many vs → p.1 ∉ [s%"x", s%"n"] := by
  intro p hp vs e
  simp only [tagless, List.mem_cons, List.not_mem_nil, or_false] at hp
  rcases hp with rfl | rfl | rfl
  · cases e
  · cases e
  · show s%"tag" ∉ _
    decide

/-- The hypotheses of `C132_empty_limits` are met. -/
example : buildGiven (fun _ => []) userMap userAdapter s%"user" (.dict tagless) true true = .error .indexError := by
  refine C132_empty_limits _ _ _ _ _ (user_single _ tagless_single) true s%"tag" (by decide +kernel)
    s%"http://example.org/app/v1/u/a%20b/7/" ?_
  rw [C132_values_partial _ _ _ _ _ (user_single _ tagless_single) _ _ (fun h => by cases h)]
  decide +kernel

/-- The hypotheses of `C132_query_partial` are met, with a page in the query. -/
example : build userMap userAdapter s%"user" userArgs true true = .ok s%"http://example.org/app/v1/u/a%20b/7/?page=2" ∧
    userAdapter.scriptName.getLast? = some '/' ∧ (∀ d, getHost urlCfg userAdapter (some d) ≠ []) ∧
    ∃ b ∈ userMap.update.byEndpoint s%"user", ∃ url0 q, build userMap userAdapter s%"user" userArgs true false = .ok url0 ∧
      QueryFor b userArgs q ∧ s%"http://example.org/app/v1/u/a%20b/7/?page=2" = url0 ++ q.elim [] ('?' :: ·) := by
  have h1 : build userMap userAdapter s%"user" userArgs true true = .ok s%"http://example.org/app/v1/u/a%20b/7/?page=2" := by
    decide +kernel
  have h2 : ∀ d, getHost urlCfg userAdapter (some d) ≠ [] := by
    intro d h
    have h' : (if d ≠ [] then d ++ s%"." ++ s%"example.org" else s%"example.org") = [] := h
    split at h' <;> simp at h'
  exact ⟨h1, rfl, h2, C132_query_partial userMap userAdapter s%"user" userArgs _ rfl h2 h1⟩

/-- A multi dictionary that is not empty. -/
example : buildGiven (fun _ => []) userMap userAdapter s%"user" (.multi [(s%"x", [.str s%"a b"]), (s%"n", [.int 7])]) true true =
    .error .attributeError := C132_multi_false _ _ _ _ _ (by simp) _ _

end Verif.Props.BuildArgsP
