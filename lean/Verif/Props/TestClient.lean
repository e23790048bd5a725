import Verif.Model.TestClient
import Verif.Props.EnvironBuilder
/-!
C100: redirects followed by the test client.
-/
namespace Verif.Props.ClientP
open Verif Verif.Py Verif.ReqUrl Verif.Iri Verif.Builder Verif.Client Verif.Props.IriP Verif.Props.ReqUrlP Verif.Props.BuilderP

/-! ### Specification -/

/-- A response that is a redirect with this location and status. -/
def Redirects {β : Type} (cfg : Cfg) (r : Resp β) (hop : Str × Int) : Prop :=
  statusCode r.status = .ok hop.2 ∧ hop.2 ∈ ([301, 302, 303, 305, 307] : List Int) ∧
  Headers.getItem cfg.lower r.headers s%"location" = some hop.1

/-- A response that is not a redirect. -/
def Final {β : Type} (r : Resp β) : Prop := ∃ c, statusCode r.status = .ok c ∧ c ∉ ([301, 302, 303, 305, 307] : List Int)

/-- From one response to another by following redirects: every request is the one that its location
and the request before it ask for, sent to the application in the state it was left in. -/
inductive Follows {σ β : Type} (cfg : Cfg) (subs : Bool) (serve : σ → Environ → σ × Except PyErr (Resp β)) :
    σ × Environ × Resp β → List (Str × Int) → σ × Environ × Resp β → Prop
  | here (x) : Follows cfg subs serve x [] x
  | hop {st env r hop env' st' r' hops y} : Redirects cfg r hop →
      redirectEnviron cfg subs hop.1 hop.2 env.vars = .ok env' → serve st env' = (st', .ok r') →
      Follows cfg subs serve (st', env', r') hops y → Follows cfg subs serve (st, env, r) (hop :: hops) y

/-! ### The loop -/

section
variable {σ β : Type} {cfg : Cfg} {subs : Bool} {serve : σ → Environ → σ × Except PyErr (Resp β)}

theorem follow_hop {r : Resp β} {hop : Str × Int} (h : Redirects cfg r hop) (fuel : Nat) (chain : List (Str × Int)) (st : σ) (env : Environ) :
    follow cfg subs serve (fuel + 1) chain st env r =
      if hop ∈ chain then (st, .loop)
      else match redirectEnviron cfg subs hop.1 hop.2 env.vars with
        | .error e => (st, .error e)
        | .ok environ' => match serve st environ' with
          | (st', .error e) => (st', .error e)
          | (st', .ok response') => follow cfg subs serve fuel (chain ++ [hop]) st' environ' response' := by
  obtain ⟨h1, h2, h3⟩ := h
  rw [follow]
  simp only [h1, h3]
  rw [if_neg (by unfold codes; exact not_not_intro h2)]
  rfl

theorem follow_final {r : Resp β} (h : Final r) (fuel : Nat) (chain : List (Str × Int)) (st : σ) (env : Environ) :
    follow cfg subs serve (fuel + 1) chain st env r = (st, .done env r) := by
  obtain ⟨c, h1, h2⟩ := h
  rw [follow]
  simp only [h1]
  rw [if_pos (by unfold codes; exact h2)]

/-- One turn of the loop: a final response, an exception, or a redirect. -/
theorem response_cases (cfg : Cfg) (r : Resp β) : Final r ∨ (∃ hop, Redirects cfg r hop) ∨
    (∃ e, ∀ {σ : Type} (subs : Bool) (serve : σ → Environ → σ × Except PyErr (Resp β)) fuel chain st env,
      follow cfg subs serve (fuel + 1) chain st env r = (st, .error e)) := by
  cases hs : statusCode r.status with
  | error e => exact Or.inr (Or.inr ⟨e, by intros; rw [follow]; simp only [hs]⟩)
  | ok c =>
    by_cases hc : c ∈ codes
    · cases hl : Headers.getItem cfg.lower r.headers s%"location" with
      | none => exact Or.inr (Or.inr ⟨.keyError, by intros; rw [follow]; simp only [hs, hl]; rw [if_neg (not_not_intro hc)]⟩)
      | some l => exact Or.inr (Or.inl ⟨(l, c), hs, hc, hl⟩)
    · exact Or.inl ⟨c, hs, hc⟩

theorem follow_sound (fuel : Nat) : ∀ (chain : List (Str × Int)) (st : σ) (env : Environ) (r : Resp β),
    (∀ st' env' r', follow cfg subs serve fuel chain st env r = (st', .done env' r') →
      ∃ hops, hops.Nodup ∧ (∀ h ∈ hops, h ∉ chain) ∧ Follows cfg subs serve (st, env, r) hops (st', env', r') ∧ Final r') ∧
    (∀ st', follow cfg subs serve fuel chain st env r = (st', .loop) →
      ∃ hops env' r' hop, hops.Nodup ∧ (∀ h ∈ hops, h ∉ chain) ∧ Follows cfg subs serve (st, env, r) hops (st', env', r') ∧
        Redirects cfg r' hop ∧ hop ∈ chain ++ hops) := by
  induction fuel with
  | zero =>
    intro chain st env r
    refine ⟨fun st' env' r' h => ?_, fun st' h => ?_⟩ <;> simp [follow] at h
  | succ fuel ih =>
    intro chain st env r
    rcases response_cases cfg r with hf | ⟨hop, hr⟩ | ⟨e, he⟩
    · rw [follow_final hf]
      refine ⟨fun st' env' r' h => ?_, fun st' h => by simp at h⟩
      simp at h
      obtain ⟨rfl, rfl, rfl⟩ := h
      exact ⟨[], List.nodup_nil, by simp, .here _, hf⟩
    · rw [follow_hop hr]
      by_cases hc : hop ∈ chain
      · rw [if_pos hc]
        refine ⟨fun st' env' r' h => by simp at h, fun st' h => ?_⟩
        simp at h
        subst h
        exact ⟨[], env, r, hop, List.nodup_nil, by simp, .here _, hr, by simpa using hc⟩
      · rw [if_neg hc]
        cases hv : redirectEnviron cfg subs hop.1 hop.2 env.vars with
        | error e => exact ⟨fun st' env' r' h => by simp at h, fun st' h => by simp at h⟩
        | ok env1 =>
          simp only
          cases hw : serve st env1 with
          | mk st1 o =>
            cases o with
            | error e => exact ⟨fun st' env' r' h => by simp at h, fun st' h => by simp at h⟩
            | ok r1 =>
              simp only
              obtain ⟨i1, i2⟩ := ih (chain ++ [hop]) st1 env1 r1
              have grow : ∀ hops : List (Str × Int), hops.Nodup → (∀ h ∈ hops, h ∉ chain ++ [hop]) →
                  (hop :: hops).Nodup ∧ ∀ h ∈ hop :: hops, h ∉ chain := by
                intro hops hn hd
                refine ⟨List.nodup_cons.2 ⟨fun h => hd _ h (by simp), hn⟩, ?_⟩
                intro h hh
                rcases List.mem_cons.1 hh with rfl | hh
                · exact hc
                · exact fun h0 => hd h hh (by simp [h0])
              refine ⟨fun st' env' r' h => ?_, fun st' h => ?_⟩
              · obtain ⟨hops, j1, j2, j3, j4⟩ := i1 st' env' r' h
                exact ⟨hop :: hops, (grow hops j1 j2).1, (grow hops j1 j2).2, .hop hr hv hw j3, j4⟩
              · obtain ⟨hops, env', r', hop', j1, j2, j3, j4, j5⟩ := i2 st' h
                exact ⟨hop :: hops, env', r', hop', (grow hops j1 j2).1, (grow hops j1 j2).2, .hop hr hv hw j3, j4, by simpa using j5⟩
    · rw [he]
      exact ⟨fun st' env' r' h => by simp at h, fun st' h => by simp at h⟩

theorem follow_complete {x y : σ × Environ × Resp β} {hops : List (Str × Int)} (h : Follows cfg subs serve x hops y) :
    ∀ (chain : List (Str × Int)) (fuel : Nat), hops.Nodup → (∀ h ∈ hops, h ∉ chain) →
    follow cfg subs serve (hops.length + fuel) chain x.1 x.2.1 x.2.2 = follow cfg subs serve fuel (chain ++ hops) y.1 y.2.1 y.2.2 := by
  induction h with
  | here x => intro chain fuel _ _; simp
  | @hop st env r hop env' st' r' hops y hr hv hw _ ih =>
    intro chain fuel hn hd
    rw [List.length_cons, show hops.length + 1 + fuel = (hops.length + fuel) + 1 by omega, follow_hop hr, if_neg (hd _ (by simp))]
    simp only [hv, hw]
    rw [ih (chain ++ [hop]) fuel (List.nodup_cons.1 hn).2]
    · simp
    · intro h hh h0
      rcases List.mem_append.1 h0 with h0 | h0
      · exact hd h (by simp [hh]) h0
      · have : h = hop := by simpa using h0
        subst this
        exact (List.nodup_cons.1 hn).1 hh

end

/-- **C100, following.**  The client returns exactly the response at the end of the redirects, as
long as no location is given twice with the same status: with enough turns of the loop it returns a
response just when following redirects that are all different leads to it and it is no redirect. -/
theorem C100_follows {σ β : Type} (cfg : Cfg) (subs : Bool) (serve : σ → Environ → σ × Except PyErr (Resp β))
    (st st' : σ) (env env' : Environ) (r r' : Resp β) :
    (∃ fuel, follow cfg subs serve fuel [] st env r = (st', .done env' r')) ↔
    ∃ hops, hops.Nodup ∧ Follows cfg subs serve (st, env, r) hops (st', env', r') ∧ Final r' := by
  constructor
  · rintro ⟨fuel, h⟩
    obtain ⟨hops, h1, _, h2, h3⟩ := (follow_sound fuel [] st env r).1 st' env' r' h
    exact ⟨hops, h1, h2, h3⟩
  · rintro ⟨hops, h1, h2, h3⟩
    exact ⟨hops.length + 1, by rw [follow_complete h2 [] 1 h1 (by simp)]; exact follow_final h3 0 _ _ _⟩

/-- **C100, loops.**  The client reports a loop exactly when a location it already followed is given
again with the same status. -/
theorem C100_loop {σ β : Type} (cfg : Cfg) (subs : Bool) (serve : σ → Environ → σ × Except PyErr (Resp β))
    (st st' : σ) (env : Environ) (r : Resp β) :
    (∃ fuel, follow cfg subs serve fuel [] st env r = (st', .loop)) ↔
    ∃ hops env' r' hop, hops.Nodup ∧ Follows cfg subs serve (st, env, r) hops (st', env', r') ∧ Redirects cfg r' hop ∧ hop ∈ hops := by
  constructor
  · rintro ⟨fuel, h⟩
    obtain ⟨hops, env', r', hop, h1, _, h2, h3, h4⟩ := (follow_sound fuel [] st env r).2 st' h
    exact ⟨hops, env', r', hop, h1, h2, h3, by simpa using h4⟩
  · rintro ⟨hops, env', r', hop, h1, h2, h3, h4⟩
    refine ⟨hops.length + 1, ?_⟩
    rw [follow_complete h2 [] 1 h1 (by simp), follow_hop h3 0, if_pos (by simpa using h4)]

theorem nodup_length {α : Type} [DecidableEq α] (l : List α) : ∀ m : List α, l.Nodup → (∀ x ∈ l, x ∈ m) → l.length ≤ m.length := by
  induction l with
  | nil => intro m _ _; simp
  | cons a l ih =>
    intro m hn hs
    have hn' := List.nodup_cons.1 hn
    have ha : a ∈ m := hs a (by simp)
    have := ih (m.erase a) hn'.2 (by
      intro x hx
      have hxa : x ≠ a := fun h => hn'.1 (h ▸ hx)
      exact (List.mem_erase_of_ne hxa).2 (hs x (by simp [hx])))
    rw [List.length_erase_of_mem ha] at this
    have := List.length_pos_of_mem ha
    simp; omega

/-- **C100, the end.**  When the locations an application gives are among finitely many, the client
comes to an end: after at most five requests for each of them and one more. -/
theorem C100_ends {σ β : Type} (cfg : Cfg) (subs : Bool) (serve : σ → Environ → σ × Except PyErr (Resp β)) (L : List Str)
    (hL : ∀ st env st' r, serve st env = (st', .ok r) → ∀ l, Headers.getItem cfg.lower r.headers s%"location" = some l → l ∈ L)
    (fuel : Nat) (hfuel : 5 * L.length + 2 ≤ fuel) (st : σ) (env : Environ) :
    (openEnviron cfg subs true serve fuel st env).2 ≠ .more := by
  have key : ∀ (fuel : Nat) (chain : List (Str × Int)) (st : σ) (env : Environ) (r : Resp β), chain.Nodup →
      (∀ h ∈ chain, h ∈ L.flatMap fun l => ([301, 302, 303, 305, 307] : List Int).map fun c => (l, c)) →
      (∀ l, Headers.getItem cfg.lower r.headers s%"location" = some l → l ∈ L) →
      5 * L.length + 1 ≤ fuel + chain.length → 1 ≤ fuel → (follow cfg subs serve fuel chain st env r).2 ≠ .more := by
    intro fuel
    induction fuel with
    | zero => intro _ _ _ _ _ _ _ _ h; omega
    | succ fuel ih =>
      intro chain st env r hn hc hr hlen _
      rcases response_cases cfg r with hf | ⟨hop, hr'⟩ | ⟨e, he⟩
      · rw [follow_final hf]; simp
      · rw [follow_hop hr']
        split
        · simp
        · rename_i hnew
          split
          · simp
          · split
            · simp
            · rename_i env' _ st' r' hserve
              have hmem : hop ∈ L.flatMap fun l => ([301, 302, 303, 305, 307] : List Int).map fun c => (l, c) := by
                simp only [List.mem_flatMap, List.mem_map]
                exact ⟨hop.1, hr _ hr'.2.2, hop.2, hr'.2.1, rfl⟩
              have hn2 : (chain ++ [hop]).Nodup := by
                rw [List.nodup_append]
                refine ⟨hn, List.nodup_cons.2 ⟨by simp, List.nodup_nil⟩, ?_⟩
                intro a ha b hb hab
                have : b = hop := by simpa using hb
                subst this; subst hab; exact hnew ha
              have hc2 : ∀ h ∈ chain ++ [hop], h ∈ L.flatMap fun l => ([301, 302, 303, 305, 307] : List Int).map fun c => (l, c) := by
                intro h hh
                rcases List.mem_append.1 hh with hh | hh
                · exact hc h hh
                · have : h = hop := by simpa using hh
                  exact this ▸ hmem
              have hcard := nodup_length _ _ hn2 hc2
              have hlen5 : (L.flatMap fun l => ([301, 302, 303, 305, 307] : List Int).map fun c => (l, c)).length = 5 * L.length := by
                clear hc hr hlen hmem hc2 hcard hL ih hfuel
                induction L with
                | nil => rfl
                | cons a L ihL => simp only [List.flatMap_cons, List.length_append, ihL]; simp; omega
              rw [hlen5, List.length_append, List.length_singleton] at hcard
              exact ih _ _ _ _ hn2 hc2 (fun l hl => hL _ _ _ _ hserve l hl) (by simp; omega) (by omega)
      · rw [he]; simp
  unfold openEnviron
  split
  · simp
  · rename_i st' r hserve
    rw [if_pos rfl]
    exact key fuel [] st' env r List.nodup_nil (by simp) (fun l hl => hL _ _ _ _ hserve l hl) (by simp; omega) (by omega)

/-! ### The request made of a location -/

theorem splitOn_inj {c : Char} {a b : Str} (h : splitOn c a = splitOn c b) : a = b := by
  rw [← join_splitOn c a, ← join_splitOn c b, h]

/-- A host is a name, perhaps with a port. -/
def Named (host name : Str) : Prop := host = name ∨ ∃ d, host = name ++ ':' :: d ∧ d ≠ [] ∧ ∀ c ∈ d, IsDig c

theorem dig_not_colon {d : Str} (h : ∀ c ∈ d, IsDig c) : ':' ∉ d := by
  intro h0
  obtain ⟨_, h2⟩ := h _ h0
  revert h2; decide

theorem realName_eq {host name : Str} (hn : ':' ∉ name) (h : Named host name) : realName host = splitOn '.' name := by
  unfold realName
  rcases h with rfl | ⟨d, rfl, _, hd⟩
  · rw [rsplit1_none.2 hn]
  · rw [rsplit1_eq (dig_not_colon hd)]

theorem split1_named {host name : Str} (hn : ':' ∉ name) (h : Named host name) : (split1 ':' host).1 = name := by
  rcases h with rfl | ⟨d, rfl, _, _⟩
  · rw [split1_none _ _ hn]
  · rw [split1_some _ _ _ hn]

theorem location_split {lower : Str → Str} (hl : LowerOk lower) {scheme host p q f : Str} (hs : scheme = s%"http" ∨ scheme = s%"https")
    (hh : ∀ c ∈ s%"/?#\\", c ∉ host) (hb : '[' ∈ host ↔ ']' ∈ host) (hp : p = [] ∨ p.head? = some '/') (hp' : '?' ∉ p ∧ '#' ∉ p) (hq : '#' ∉ q) :
    urlsplit lower (scheme ++ s%"://" ++ (host ++ (p ++ optText '?' q ++ optText '#' f))) = .ok ⟨scheme, host, p, q, f⟩ := by
  have hl' : lower s%"https" = s%"https" := by
    rw [hl.ascii _ (by unfold Ascii; decide)]; decide
  rw [urlsplit_web lower hl' hs, splitRest_web scheme host p q f (fun c hc => hh c (by
    simp only [List.mem_cons, List.not_mem_nil, or_false] at hc ⊢
    rcases hc with rfl | rfl | rfl <;> simp)) hb hp hp'.1 hp'.2 hq]

theorem makeEnviron_ok {cfg : Cfg} (hu : cfg.usesNetloc [] = false) (hl : LowerOk cfg.lower) (hl0 : cfg.lower [] = [])
    {scheme host name p q method : Str} (hs : scheme = s%"http" ∨ scheme = s%"https") (hne : host ≠ []) (hh : ∀ c ∈ s%"/?#\\", c ∉ host)
    (hb : '[' ∈ host ↔ ']' ∈ host) (hhost : encodeNetloc cfg.idna cfg.lower host = .ok host) (hp : LocalPath p)
    (hn : ':' ∉ name) (hname : Named host name) :
    ∃ b e, init cfg.lower (iriToUri cfg.idna cfg.lower cfg.usesNetloc) (urlFix cfg.idna cfg.lower cfg.usesNetloc cfg.isAlpha) p
        (some (scheme ++ s%"://" ++ host ++ s%"/")) (.text q) method [] none none none .missing [] [] = .ok b ∧
      getEnviron cfg.upper cfg.lower cfg.guess cfg.boundary b = .ok e ∧ e.input = [] ∧ b.headers = [] := by
  obtain ⟨base', k1, k2⟩ := base_web (idna := cfg.idna) (usesNetloc := cfg.usesNetloc) (isAlpha := cfg.isAlpha) hl (root := []) 1 hs hne hh hb hhost
    (Or.inl rfl) (by simp) (by simp)
  have k1' : fixBase (urlFix cfg.idna cfg.lower cfg.usesNetloc cfg.isAlpha) (some (scheme ++ s%"://" ++ host ++ s%"/")) = .ok base' := by
    rw [← k1]; simp
  have hi := iriToUri_local (idna := cfg.idna) (lower := cfg.lower) hu hl0 hp
  have hport : ∃ n, serverPort ⟨method, scheme, host, quoteText fixPathSafe [], quoteText Urls.pathSafe p, some q, none, [], none, none, none, [], []⟩ = .ok n := by
    unfold serverPort
    rcases hname with rfl | ⟨d, rfl, hd, hdig⟩
    · rw [split1_none _ _ hn]; exact ⟨_, rfl⟩
    · rw [split1_some _ _ _ hn]
      cases d with
      | nil => exact absurd rfl hd
      | cons c d =>
        simp only
        rw [if_pos, intOf_digits _ hdig hd]
        · exact ⟨_, rfl⟩
        · rw [List.all_eq_true]
          intro x hx
          have := hdig x hx
          unfold IsDig at this
          unfold Range.isDigit
          simp at this ⊢
          left; left; left
          exact this
  obtain ⟨port, hport⟩ := hport
  refine ⟨⟨method, scheme, host, quoteText fixPathSafe [], quoteText Urls.pathSafe p, some q, none, [], none, none, none, [], []⟩, ?_⟩
  have hinit : init cfg.lower (iriToUri cfg.idna cfg.lower cfg.usesNetloc) (urlFix cfg.idna cfg.lower cfg.usesNetloc cfg.isAlpha) p
      (some (scheme ++ s%"://" ++ host ++ s%"/")) (.text q) method [] none none none .missing [] [] =
      .ok ⟨method, scheme, host, quoteText fixPathSafe [], quoteText Urls.pathSafe p, some q, none, [], none, none, none, [], []⟩ := by
    unfold init
    simp only [splitQuery, hi, k1', k2]
    rfl
  have hbody : body cfg.lower cfg.guess cfg.boundary
      ⟨method, scheme, host, quoteText fixPathSafe [], quoteText Urls.pathSafe p, some q, none, [], none, none, none, [], []⟩ = .ok ([], none, none) := rfl
  have hge : ∃ e, getEnviron cfg.upper cfg.lower cfg.guess cfg.boundary
      ⟨method, scheme, host, quoteText fixPathSafe [], quoteText Urls.pathSafe p, some q, none, [], none, none, none, [], []⟩ = .ok e ∧ e.input = [] := by
    unfold getEnviron
    rw [hbody, hport]
    exact ⟨_, rfl, rfl⟩
  obtain ⟨e, he, hi⟩ := hge
  exact ⟨e, hinit, he, hi, rfl⟩

/-- **C100, the request.**  A location on the host of the last request, or on another port of it, is
asked for with its path and query on the host and scheme it names, with the method `GET`, or with
the method of the last request after status 307.  The request has no body. -/
theorem C100_target_partial {cfg : Cfg} (hu : cfg.usesNetloc [] = false) (hl : LowerOk cfg.lower) (hl0 : cfg.lower [] = [])
    {scheme host name p q f : Str} (hs : scheme = s%"http" ∨ scheme = s%"https") (hne : host ≠ []) (hh : ∀ c ∈ s%"/?#\\", c ∉ host)
    (hb : '[' ∈ host ↔ ']' ∈ host) (hhost : encodeNetloc cfg.idna cfg.lower host = .ok host) (hp : LocalPath p) (hq : '#' ∉ q)
    (hn : ':' ∉ name) (hname : Named host name) {environ : List (Str × Str)} {last method : Str} (hlast : Wsgi.hostOf environ = .ok last)
    (hlast' : Named last name) (hm : Dict.get environ s%"REQUEST_METHOD" = some method) (code : Int) :
    ∃ e, redirectEnviron cfg false (scheme ++ s%"://" ++ (host ++ (p ++ optText '?' q ++ optText '#' f))) code environ = .ok e ∧
      ReqUrl.path e.vars = .ok ('/' :: (Utf8.decode (Percent.meaning (Utf8.encode p))).dropWhile (· = '/')) ∧
      ('%' ∉ p → ReqUrl.path e.vars = .ok p) ∧ ReqUrl.queryString e.vars = .ok q ∧
      ReqUrl.scriptRoot e.vars = .ok [] ∧ Dict.get e.vars s%"wsgi.url_scheme" = some scheme ∧ Wsgi.hostOf e.vars = .ok host ∧
      Dict.get e.vars s%"REQUEST_METHOD" = some (if code = 307 then method else s%"GET") ∧ e.input = [] := by
  have hslash : p.head? = some '/' := by obtain ⟨t, rfl, _⟩ := hp.slash; rfl
  have hbase : rstripP (· = '/') (urlunsplit cfg.usesNetloc ⟨scheme, host, [], [], []⟩) ++ s%"/" = scheme ++ s%"://" ++ host ++ s%"/" := by
    rw [urlunsplit_parts cfg.usesNetloc hs hne (Or.inl rfl)]
    rw [rstripP_of_last]
    · simp [optText]
    · intro c hc
      apply decide_eq_false
      rintro rfl
      simp only [optText, List.nil_append, List.append_nil, if_true] at hc
      rw [last_append hne] at hc
      exact hh '/' (by decide) (List.mem_of_getLast? hc)
  have hmeth : (if code = 307 then Dict.get environ s%"REQUEST_METHOD" else some s%"GET") = some (if code = 307 then method else s%"GET") := by
    split <;> simp [*]
  obtain ⟨b, e, h1, h2, h3, h4⟩ := makeEnviron_ok (q := q) (method := if code = 307 then method else s%"GET") hu hl hl0 hs hne hh hb hhost hp hn hname
  have hred : redirectEnviron cfg false (scheme ++ s%"://" ++ (host ++ (p ++ optText '?' q ++ optText '#' f))) code environ = .ok e := by
    unfold redirectEnviron
    rw [location_split hl hs hh hb (Or.inr hslash) hp.plain hq]
    simp only [hlast, Bool.false_eq_true, if_false]
    rw [if_pos (by rw [split1_named hn hname, realName_eq hn hlast']), hmeth, hbase]
    simp only
    unfold makeEnviron
    rw [h1]
    exact h2
  obtain ⟨r1, r2, r3, r4⟩ := C97_request_partial hu hl0 hp (Or.inl ⟨rfl, rfl⟩) h1 (by simp) h2
  have h1' := h1
  rw [show scheme ++ s%"://" ++ host ++ s%"/" = scheme ++ s%"://" ++ host ++ [] ++ List.replicate 1 '/' by simp] at h1'
  obtain ⟨s1, s2, s3, s4, s5⟩ := C97_base_partial hl 1 hs hne hh hb hhost (Or.inl rfl) (by simp) (by simp) h1' (by simp) h2
  obtain ⟨i1, i2, i3, i4, i5⟩ := init_query hp.plain.1 (Or.inl ⟨rfl, rfl⟩) h1
  obtain ⟨data, len, type, qs, port, e1, e2, e3, e4, m1, _⟩ := get_of_entries h2 (by rw [i4]; simp)
  refine ⟨e, hred, r1, r2, r3, s4, s3, ?_, by rw [m1, i3], h3⟩
  rw [← s2]
  exact C97_host h2 (by rw [h4]; simp) (by rw [i4]; simp) (by rw [i5]; simp)

/-- **C100, other hosts.**  A location with another host name is refused, before the application is
called. -/
theorem C100_external {cfg : Cfg} (hl : LowerOk cfg.lower) {scheme host name other p q f : Str} (hs : scheme = s%"http" ∨ scheme = s%"https")
    (hh : ∀ c ∈ s%"/?#\\", c ∉ host) (hb : '[' ∈ host ↔ ']' ∈ host) (hp : p = [] ∨ p.head? = some '/') (hp' : '?' ∉ p ∧ '#' ∉ p) (hq : '#' ∉ q)
    (hn : ':' ∉ name) (hname : Named host name) {environ : List (Str × Str)} {last : Str} (hlast : Wsgi.hostOf environ = .ok last)
    (ho : ':' ∉ other) (hlast' : Named last other) (hdiff : name ≠ other) (code : Int) :
    redirectEnviron cfg false (scheme ++ s%"://" ++ (host ++ (p ++ optText '?' q ++ optText '#' f))) code environ = .error .runtimeError := by
  unfold redirectEnviron
  rw [location_split hl hs hh hb hp hp' hq]
  simp only [hlast, Bool.false_eq_true, if_false]
  rw [if_neg]
  rw [split1_named hn hname, realName_eq ho hlast']
  exact fun h => hdiff (splitOn_inj h)

/-- **C100 fails** for a location that is only a path: it is refused as if it named another host. -/
theorem C100_relative_false {cfg : Cfg} {p : Str} (hp : LocalPath p) {environ : List (Str × Str)} {last other : Str}
    (hlast : Wsgi.hostOf environ = .ok last) (ho : ':' ∉ other) (hlast' : Named last other) (hne : other ≠ []) (code : Int) :
    redirectEnviron cfg false p code environ = .error .runtimeError := by
  unfold redirectEnviron
  rw [urlsplit_local hp]
  simp only [hlast, Bool.false_eq_true, if_false]
  rw [if_neg]
  rw [realName_eq ho hlast']
  exact fun h => hne (splitOn_inj h).symm

/-- **C100 fails** for a client that allows subdomains: no redirect is ever followed. -/
theorem C100_subdomain_false {σ β : Type} (cfg : Cfg) (serve : σ → Environ → σ × Except PyErr (Resp β)) (fuel : Nat)
    (st : σ) (env : Environ) (r : Resp β) (hop : Str × Int) (h : Redirects cfg r hop) (last : Str) (hlast : Wsgi.hostOf env.vars = .ok last)
    (u : Split) (hu : urlsplit cfg.lower hop.1 = .ok u) :
    follow cfg true serve (fuel + 1) [] st env r = (st, .error .attributeError) := by
  rw [follow_hop h, if_neg (by simp)]
  have : redirectEnviron cfg true hop.1 hop.2 env.vars = .error .attributeError := by
    unfold redirectEnviron
    rw [hu]
    simp [hlast]
  rw [this]

/-- Without `follow_redirects` the first response is returned, whatever it is. -/
theorem C100_plain {σ β : Type} (cfg : Cfg) (subs : Bool) (serve : σ → Environ → σ × Except PyErr (Resp β)) (fuel : Nat)
    (st st' : σ) (env : Environ) (r : Resp β) (h : serve st env = (st', .ok r)) (c : Int) (hc : statusCode r.status = .ok c) :
    openEnviron cfg subs false serve fuel st env = (st', .done env r) := by
  unfold openEnviron
  rw [h]
  simp [hc]

/-! ### Examples -/

/-- A configuration for ASCII. -/
def demoCfg : Cfg := ⟨demoIdna, fun s => s.map Char.toUpper, demoLower, demoUses, Char.isAlpha, fun _ => none, []⟩

/-- A redirect to a path on the local host. -/
def to (status path : Str) : Resp Str := ⟨status, [(s%"Location", s%"http://localhost" ++ path)], []⟩

/-- A page that tells the method and how much of a body there was. -/
def page (e : Environ) : Resp Str := ⟨s%"200 OK", [], (Dict.get e.vars s%"REQUEST_METHOD").getD [] ++ e.input.map fun _ => '.'⟩

/-- An application with a few redirects, counting its requests. -/
def demoServe (n : Nat) (e : Environ) : Nat × Except PyErr (Resp Str) :=
  (n + 1, .ok (
    if Dict.get e.vars s%"PATH_INFO" = some s%"/a" then to s%"302 Found" s%"/b?x=1#top"
    else if Dict.get e.vars s%"PATH_INFO" = some s%"/b" then to s%"307 Temporary Redirect" s%"/c"
    else if Dict.get e.vars s%"PATH_INFO" = some s%"/post" then to s%"307 Temporary Redirect" s%"/c"
    else if Dict.get e.vars s%"PATH_INFO" = some s%"/again" then to s%"303 See Other" s%"/again"
    else if Dict.get e.vars s%"PATH_INFO" = some s%"/moved" then to s%"308 Permanent Redirect" s%"/c"
    else page e))

/-- A request of a test. -/
def demoRequest (path : Str) (data : Data) : Except PyErr Environ :=
  match init demoLower (iriToUri demoIdna demoLower demoUses) (urlFix demoIdna demoLower demoUses Char.isAlpha) path none .missing
      s%"POST" [] none none none data [] [] with
  | .error e => .error e
  | .ok b => getEnviron demoCfg.upper demoLower (fun _ => none) [] b

/-- What is seen of an outcome: the path at the end and the body. -/
def look : Outcome Str → Option (Option Str × Str × Str)
  | .done e r => some (Dict.get e.vars s%"PATH_INFO", r.status, r.body)
  | _ => none

def isLoop : Outcome Str → Bool
  | .loop => true
  | _ => false

example : (demoRequest s%"/a" .missing).map (fun e => ((openEnviron demoCfg false true demoServe 5 0 e).1,
    look (openEnviron demoCfg false true demoServe 5 0 e).2)) = .ok (3, some (some s%"/c", s%"200 OK", s%"GET")) := by decide +kernel

example : (demoRequest s%"/again" .missing).map (fun e => isLoop (openEnviron demoCfg false true demoServe 5 0 e).2) = .ok true := by decide +kernel

/-- Status 308 is not followed. -/
theorem C100_308_false : (demoRequest s%"/moved" .missing).map (fun e => look (openEnviron demoCfg false true demoServe 5 0 e).2) =
    .ok (some (some s%"/moved", s%"308 Permanent Redirect", [])) := by decide +kernel

/-- **C100 fails** for the body of a request that is redirected with status 307: it is posted again
without it. -/
theorem C100_body_false :
    (demoRequest s%"/c" (.text s%"hello")).map (fun e => look (openEnviron demoCfg false true demoServe 5 0 e).2) =
      .ok (some (some s%"/c", s%"200 OK", s%"POST.....")) ∧
    (demoRequest s%"/post" (.text s%"hello")).map (fun e => look (openEnviron demoCfg false true demoServe 5 0 e).2) =
      .ok (some (some s%"/c", s%"200 OK", s%"POST")) := by constructor <;> decide +kernel

/-- An application that is done after a visit to `/a`, to `/b` and to `/a` again. -/
def visitServe (n : Nat) (e : Environ) : Nat × Except PyErr (Resp Str) :=
  (n + 1, .ok (if n = 0 then to s%"302 Found" s%"/a" else if n = 1 then to s%"302 Found" s%"/b" else if n = 2 then to s%"302 Found" s%"/a" else page e))

/-- A location that is given twice is reported as a loop, although the application would have
answered it the second time. -/
theorem C100_revisit_limits :
    (demoRequest s%"/" .missing).map (fun e => isLoop (openEnviron demoCfg false true visitServe 9 0 e).2) = .ok true ∧
    ∀ e, ∃ r, (visitServe 3 e).2 = .ok r ∧ Final r := by
  refine ⟨by decide +kernel, fun e => ⟨page e, rfl, 200, ?_, by decide⟩⟩
  show statusCode s%"200 OK" = .ok 200
  decide +kernel

/-- An application that redirects to a new path every time. -/
def endless (n : Nat) (_ : Environ) : Nat × Except PyErr (Resp Unit) :=
  (n + 1, .ok ⟨s%"302 Found", [(s%"Location", s%"http" ++ s%"://" ++ (s%"localhost" ++ ('/' :: List.replicate n 'a' ++ optText '?' [] ++ optText '#' [])))], ()⟩)

/-- Redirects to ever new locations are followed without end. -/
theorem C100_endless_limits (fuel : Nat) (env : Environ) (hhost : Wsgi.hostOf env.vars = .ok s%"localhost")
    (hm : Dict.get env.vars s%"REQUEST_METHOD" = some s%"GET") : (openEnviron demoCfg false true endless fuel 0 env).2 = .more := by
  have hops : ∀ n e, ∃ r, endless n e = (n + 1, .ok r) ∧
      Redirects demoCfg r (s%"http" ++ s%"://" ++ (s%"localhost" ++ ('/' :: List.replicate n 'a' ++ optText '?' [] ++ optText '#' [])), 302) := by
    intro n e
    refine ⟨_, rfl, ?_, by simp, ?_⟩
    · show statusCode s%"302 Found" = .ok 302
      decide +kernel
    · unfold Headers.getItem
      rw [if_pos (by decide)]
  have key : ∀ (fuel n : Nat) (chain : List (Str × Int)) (env : Environ) (r : Resp Unit), Wsgi.hostOf env.vars = .ok s%"localhost" →
      Dict.get env.vars s%"REQUEST_METHOD" = some s%"GET" →
      Redirects demoCfg r (s%"http" ++ s%"://" ++ (s%"localhost" ++ ('/' :: List.replicate n 'a' ++ optText '?' [] ++ optText '#' [])), 302) →
      (∀ h ∈ chain, ∃ m, m < n ∧ h = (s%"http" ++ s%"://" ++ (s%"localhost" ++ ('/' :: List.replicate m 'a' ++ optText '?' [] ++ optText '#' [])), 302)) →
      (follow demoCfg false endless fuel chain (n + 1) env r).2 = .more := by
    intro fuel
    induction fuel with
    | zero => intros; rfl
    | succ fuel ih =>
      intro n chain env r he hm hr hc
      rw [follow_hop hr]
      have hloc : LocalPath ('/' :: List.replicate n 'a') := by
        refine ⟨⟨_, rfl, ?_⟩, ?_, ?_⟩
        · cases n <;> simp [List.replicate_succ]
        · simp [List.mem_replicate]
        · simp [List.mem_replicate]
      obtain ⟨e, h1, _, _, _, _, _, h2, h3, _⟩ := C100_target_partial (cfg := demoCfg) (name := s%"localhost") (q := []) (f := []) rfl demoLower_ok rfl
        (Or.inl rfl) (host := s%"localhost") (by simp) (by decide) (by decide) (by decide +kernel) hloc (by simp) (by decide) (Or.inl rfl)
        he (Or.inl rfl) hm 302
      rw [if_neg]
      · rw [h1]
        simp only
        obtain ⟨r', g1, g2⟩ := hops (n + 1) e
        rw [g1]
        simp only
        apply ih (n + 1) _ _ _ h2 (by rw [h3]; rfl) g2
        intro h hh
        rcases List.mem_append.1 hh with hh | hh
        · obtain ⟨m, hm, rfl⟩ := hc h hh
          exact ⟨m, by omega, rfl⟩
        · exact ⟨n, by omega, by simpa using hh⟩
      · intro h0
        obtain ⟨m, hm, h⟩ := hc _ h0
        have := congrArg (fun x => x.1.length) h
        simp [optText] at this
        omega
  unfold openEnviron
  obtain ⟨r, g1, g2⟩ := hops 0 env
  rw [g1]
  simp only [if_true]
  exact key fuel 0 [] env r hhost hm g2 (by simp)

end Verif.Props.ClientP
