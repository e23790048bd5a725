import Verif.Props.CookieText
import Verif.Props.Revalidate
import Verif.Spec.TimedAgent
/-! Property theorems C141: cookies over a session of requests and over time. -/
namespace Verif.Props.CookieTextP
open Verif Verif.CookieText Verif.Spec Verif.Props Verif.Spec.Calendar Verif.Response
open Verif.Spec.Agent (Timed alive pairs)
open Verif.Props.Resp (LowerNames demo)

/-! ### Both sides of the exchange -/

/-- One request: what the environ holds beside the cookies, what the server has to write cookies with (its clock
included), the clock of the user agent, and the response the view starts from. -/
structure Turn where
  environ : List (Str × Str)
  cfg : CookieText.Cfg
  now : Int
  page : Resp

/-- The request as it arrives: the cookies that have not ended are sent, if there are any. -/
def cookieEnviron (environ : List (Str × Str)) (cookies : List (Bytes × Bytes)) : List (Str × Str) :=
  if cookies = [] then environ else Dict.set environ s%"HTTP_COOKIE" (Utf8.latin1 (Agent.cookieLine cookies))

/-- The `Set-Cookie` headers of what is sent. -/
def cookieHeaders (lower : Str → Str) (h : Headers.HList) : List Bytes :=
  (Headers.getlist lower h s%"Set-Cookie").map headerBytes

/-- Requests one after the other.  `view` says which calls of `set_cookie` and `delete_cookie` the application makes
(responses.py:400-445) when it sees some cookies (requests.py:295-301); the headers are then sent (responses.py:496-573)
and the user agent keeps what it is told to.  The result are the cookies the view has seen at each request, `none`
when something raised. -/
def session (rcfg : Response.Cfg) (iri absolute : Str → Except PyErr Str) (date : Bytes → Option Int)
    (view : Turn → List (Str × Str) → List Call) : Timed Bytes → List Turn → Option (List (List (Str × Str)))
  | _, [] => some []
  | store, t :: ts =>
    match requestCookies (cookieEnviron t.environ (pairs (alive t.now store))) with
    | .error _ => none
    | .ok cookies =>
      match CookieText.run t.cfg t.page.headers (view t cookies) with
      | (_, .error _) => none
      | (h, .ok _) =>
        match wsgiHeaders rcfg iri absolute { t.page with headers := h } with
        | .error _ => none
        | .ok h' =>
          (session rcfg iri absolute date view
            ((cookieHeaders rcfg.lower h').foldl (Agent.accept date t.now) (alive t.now store)) ts).map (cookies :: ·)

/-! ### What is expected -/

/-- When a cookie is meant to end. -/
def meantEnd (date : Bytes → Option Int) (now : Int) (a : Args) : Option Int :=
  match a.maxAge, a.expires with
  | some m, _ => some (now + secondsIn m)
  | none, none => none
  | none, some (.stamp n) => some n
  | none, some (.time t) => some (epoch t)
  | none, some (.text s) => date (Agent.trim (Utf8.encode s))

/-- What a call means: a cookie is there until it ends, or it is not there. -/
def meantAt (date : Bytes → Option Int) (now : Int) (m : Timed Str) : Call → Timed Str
  | .set a => alive now (Dict.set m a.key (a.value, meantEnd date now a))
  | .delete key _ _ => alive now (Dict.del m key)

/-- The cookies a view is meant to see at each request, without any headers between. -/
def direct (date : Bytes → Option Int) (view : Turn → List (Str × Str) → List Call) :
    Timed Str → List Turn → List (List (Str × Str))
  | _, [] => []
  | m, t :: ts =>
    pairs (alive t.now m) ::
      direct date view ((view t (pairs (alive t.now m))).foldl (meantAt date t.now) (alive t.now m)) ts

/-- A user agent that reads the dates of cookies as they are written, from 1970 on. -/
def ReadsDates (date : Bytes → Option Int) : Prop :=
  ∀ t, Valid t → 1970 ≤ t.year → date (Utf8.encode (Date.dumpDate t s%"-")) = some (epoch t)

/-- A call whose name is one, which writes nothing but name, value and attributes, and whose Expires, if it counts,
is a time from 1970 on or a text. -/
def Regular (cfg : CookieText.Cfg) : Call → Prop
  | .set a => Name a.key ∧ Plain cfg a ∧
      (a.maxAge = none → (∀ n t, a.expires = some (.stamp n) → Date.gmtime n = some t → 1970 ≤ t.year) ∧
        ∀ t, a.expires = some (.time t) → Valid t ∧ 1970 ≤ t.year)
  | .delete key path _ => Name key ∧ ∀ p, pathUri cfg path = .ok (some p) → ';' ∉ p

/-! ### Proof -/

/-- A cookie as a user agent keeps it. -/
def keptAt (c : Str × Str × Option Int) : Bytes × Bytes × Option Int :=
  (Utf8.encode c.1, Cookie.cookieQuote (Utf8.encode c.2.1), c.2.2)

theorem alive_kept (now : Int) (m : Timed Str) : alive now (m.map keptAt) = (alive now m).map keptAt := by
  unfold alive
  rw [List.filter_map]
  rfl

theorem pairs_kept (m : Timed Str) : pairs (m.map keptAt) = (pairs m).map kept := by
  simp [pairs, keptAt, kept]

theorem set_keptAt (m : Timed Str) (k v : Str) (e : Option Int) :
    Dict.set (m.map keptAt) (Utf8.encode k) (Cookie.cookieQuote (Utf8.encode v), e) =
      (Dict.set m k (v, e)).map keptAt := by
  induction m with
  | nil => rfl
  | cons p m ih =>
    obtain ⟨x, y⟩ := p
    simp only [List.map_cons, keptAt, Dict.set]
    by_cases h : x = k
    · rw [if_pos (by rw [h]), if_pos h]; rfl
    · rw [if_neg (fun e => h (encode_inj e)), if_neg h, List.map_cons]
      exact congrArg _ ih

/-- A cookie that has ended is no cookie. -/
theorem alive_dead (now : Int) (m : Timed Str) (k v : Str) (e : Int) (he : e ≤ now) :
    alive now (Dict.set m k (v, some e)) = alive now (Dict.del m k) := by
  have hd : ¬ now < e := by omega
  induction m with
  | nil => simp [Dict.set, Dict.del, alive, hd]
  | cons p m ih =>
    obtain ⟨x, y⟩ := p
    simp only [Dict.set, Dict.del]
    by_cases h : x = k
    · rw [if_pos h, if_pos h]
      simp [alive, hd]
    · rw [if_neg h, if_neg h]
      unfold alive at ih ⊢
      rw [List.filter_cons, List.filter_cons, ih]

/-- What a call does to the headers and to the cookies of a user agent that receives the header. -/
theorem exec_at (cfg : CookieText.Cfg) (date : Bytes → Option Int) (hd : ReadsDates date) (now : Int)
    (h h' : Headers.HList) (c : Call) (hf : Regular cfg c) (hr : c.exec cfg h = (h', .ok ())) :
    ∃ v, h' = h ++ [(s%"Set-Cookie", v)] ∧
      ∀ m : Timed Str, Agent.accept date now (m.map keptAt) (headerBytes v) = (meantAt date now m c).map keptAt := by
  have key : ∀ (a : Args) (e : Option Int), setCookie cfg h a = (h', .ok ()) → Name a.key → Plain cfg a →
      (∀ at', attrsOf cfg a = .ok at' → (match at'.maxAge.bind Agent.number with
        | some n => some (now + n)
        | none => (at'.expires.map Agent.trim).bind date) = e) →
      ∃ v, h' = h ++ [(s%"Set-Cookie", v)] ∧ ∀ m : Timed Str, Agent.accept date now (m.map keptAt) (headerBytes v) =
        (alive now (Dict.set m a.key (a.value, e))).map keptAt := by
    intro a e hr hn hp hg
    obtain ⟨at', hat, rfl⟩ := set_ok cfg h h' a hr
    refine ⟨_, rfl, fun m => ?_⟩
    have h59 : 59 ∉ Utf8.encode a.key := not_mem_encode (c := ';') (by decide) hn.2
    obtain ⟨p1, p2, p3⟩ := attrs_plain cfg a at' hat hp
    obtain ⟨g1, g2, _⟩ := attr_age (Utf8.encode a.key) (Utf8.encode a.value) at' h59 p1 p2 p3
    have hm : at'.maxAge.map Agent.trim = at'.maxAge := by
      obtain ⟨_, _, _, _, _, _, e⟩ := attrs_ok cfg a at' hat
      rw [e]
      cases a.maxAge with
      | none => rfl
      | some n => exact congrArg some (number_int _).2.1
    rw [headerBytes_latin1]
    unfold Agent.accept
    rw [pair_read _ _ at' hn.1 h59]
    simp only
    have : Agent.ends date now (Cookie.dumpCookie (Utf8.encode a.key) (Utf8.encode a.value) at') = e := by
      rw [← hg at' hat]
      unfold Agent.ends
      rw [g1, g2, hm]
      rfl
    rw [this, set_keptAt, alive_kept]
  cases c with
  | set a =>
    obtain ⟨hn, hp, hx⟩ := hf
    refine key a _ hr hn hp ?_
    intro at' hat
    obtain ⟨_, _, x, _, _, hxt, e⟩ := attrs_ok cfg a at' hat
    subst e
    simp only
    unfold meantEnd
    cases ha : a.maxAge with
    | some n => simp only [Option.map_some, Option.bind_some, (number_int _).1, total_seconds]
    | none =>
      simp only [Option.map_none, Option.bind_none]
      unfold expiresText at hxt
      obtain ⟨hx1, hx2⟩ := hx ha
      cases hb : a.expires with
      | none =>
        rw [hb, ha] at hxt
        rw [← Except.ok.inj hxt]; rfl
      | some b =>
        rw [hb] at hxt hx1 hx2
        cases b with
        | text s => rw [← Except.ok.inj hxt]; rfl
        | stamp n =>
          simp only [stampText] at hxt
          cases hg : Date.gmtime n with
          | none => rw [hg] at hxt; cases hxt
          | some t =>
            rw [hg] at hxt
            rw [← Except.ok.inj hxt]
            obtain ⟨v1, v2⟩ := DateP.total_ofTotal _ t hg
            simp only [Option.map_some, Option.bind_some, date_trim]
            rw [hd t v1 (hx1 n t rfl hg), DateP.epoch_total t v1, v2]
            congr 1; omega
        | time t =>
          obtain ⟨v1, v2⟩ := hx2 t rfl
          rw [← Except.ok.inj hxt]
          simp only [Option.map_some, Option.bind_some, date_trim]
          exact hd t v1 v2
  | delete k path domain =>
    obtain ⟨hn, hp⟩ := hf
    obtain ⟨v, h1, h2⟩ := key { key := k, expires := some (.stamp 0), maxAge := some (.seconds 0), path, domain }
      (some (now + 0)) hr hn ⟨hp, fun s h => by cases h⟩ (by
        intro at' hat
        obtain ⟨_, _, x, _, _, hx, e⟩ := attrs_ok cfg _ at' hat
        subst e
        simp only [Option.map_some, Option.bind_some, (number_int _).1]
        rfl)
    exact ⟨v, h1, fun m => by rw [h2 m, alive_dead _ _ _ _ _ (by omega)]; rfl⟩

theorem run_at (cfg : CookieText.Cfg) (lower : Str → Str) (date : Bytes → Option Int) (hd : ReadsDates date) (now : Int)
    (calls : List Call) : ∀ (h h' : Headers.HList) (m : Timed Str) st,
    (∀ c ∈ calls, Regular cfg c) → CookieText.run cfg h calls = (h', .ok ()) →
    (cookieHeaders lower h).foldl (Agent.accept date now) st = m.map keptAt →
    (cookieHeaders lower h').foldl (Agent.accept date now) st = (calls.foldl (meantAt date now) m).map keptAt := by
  induction calls with
  | nil =>
    intro h h' m st _ hr hm
    cases hr; exact hm
  | cons c cs ih =>
    intro h h' m st hf hr hm
    unfold CookieText.run at hr
    cases hc : c.exec cfg h with
    | mk h1 r =>
      rw [hc] at hr
      cases r with
      | error e => cases hr
      | ok u =>
        obtain ⟨v, rfl, hv⟩ := exec_at cfg date hd now h h1 c (hf c (.head _)) hc
        simp only at hr
        refine ih _ h' (meantAt date now m c) st (fun c hc => hf c (.tail _ hc)) hr ?_
        have : cookieHeaders lower (h ++ [(s%"Set-Cookie", v)]) = cookieHeaders lower h ++ [headerBytes v] := by
          simp [cookieHeaders, Headers.getlist_eq, List.filter_append]
        rw [this, List.foldl_append, hm]
        exact hv m

/-- Names that occur once and are names. -/
def Good (m : Timed Str) : Prop := (Dict.keys m).Nodup ∧ ∀ k ∈ Dict.keys m, CookieName (Utf8.encode k)

theorem good_sub {m m' : Timed Str} (h : Good m) (hs : m'.Sublist m) : Good m' := by
  have hk : (Dict.keys m').Sublist (Dict.keys m) := hs.map _
  exact ⟨hk.nodup h.1, fun k hm => h.2 k (hk.subset hm)⟩

theorem good_alive {m : Timed Str} (h : Good m) (now : Int) : Good (alive now m) := good_sub h List.filter_sublist

theorem good_meant (cfg : CookieText.Cfg) (date : Bytes → Option Int) (now : Int) (calls : List Call)
    (hf : ∀ c ∈ calls, Regular cfg c) : ∀ m : Timed Str, Good m → Good (calls.foldl (meantAt date now) m) := by
  induction calls with
  | nil => exact fun m h => h
  | cons c cs ih =>
    intro m h
    rw [List.foldl_cons]
    refine ih (fun c hc => hf c (.tail _ hc)) _ ?_
    have hc := hf c (.head _)
    cases c with
    | set a =>
      refine good_alive ⟨Dict.nodup_set h.1 _ _, fun k hk => ?_⟩ now
      rw [Dict.keys_set] at hk
      split at hk
      · exact h.2 k hk
      · rcases List.mem_append.1 hk with hk | hk
        · exact h.2 k hk
        · rw [List.mem_singleton.1 hk]; exact hc.1.1
    | delete k p d =>
      refine good_alive ⟨Dict.nodup_del h.1 _, fun x hk => ?_⟩ now
      rw [Dict.keys_del] at hk
      exact h.2 x (@List.mem_of_mem_erase _ instBEqOfDecidableEq _ _ _ hk)

theorem request_at (environ : List (Str × Str)) (he : Dict.get environ s%"HTTP_COOKIE" = none) (m : Timed Str)
    (hm : Good m) : requestCookies (cookieEnviron environ (pairs (m.map keptAt))) = .ok (pairs m) := by
  have hk : Dict.keys m = (pairs m).map (·.1) := by simp [Dict.keys, pairs]
  rw [pairs_kept, C125_sent _ (pairs m), fold_nodup (pairs m) []]
  · rfl
  · show (Dict.keys (pairs m)).Nodup
    have : Dict.keys (pairs m) = Dict.keys m := by rw [hk]; rfl
    rw [this]; exact hm.1
  · intro p hp
    exact hm.2 p.1 (by rw [hk]; exact List.mem_map_of_mem hp)
  · unfold cookieEnviron
    by_cases hp : pairs m = []
    · rw [hp]; simp [he, Agent.cookieLine, Utf8.latin1]
    · rw [if_neg (by simpa using hp), Dict.get_set, if_pos rfl]; rfl

theorem session_spec (rcfg : Response.Cfg) (hl : LowerNames rcfg.lower)
    (hS : rcfg.lower s%"Set-Cookie" = s%"set-cookie") (iri absolute : Str → Except PyErr Str)
    (date : Bytes → Option Int) (hd : ReadsDates date) (view : Turn → List (Str × Str) → List Call) (turns : List Turn) :
    ∀ m : Timed Str, Good m →
    (∀ t ∈ turns, Dict.get t.environ s%"HTTP_COOKIE" = none ∧
      Headers.getlist rcfg.lower t.page.headers s%"Set-Cookie" = []) →
    (∀ t ∈ turns, ∀ c, ∀ call ∈ view t c, Regular t.cfg call) →
    ∀ seen, session rcfg iri absolute date view (m.map keptAt) turns = some seen → seen = direct date view m turns := by
  induction turns with
  | nil => intro m _ _ _ seen h; simp [session] at h; rw [h]; rfl
  | cons t ts ih =>
    intro m hm hp hf seen h
    obtain ⟨p1, p2⟩ := hp t (by simp)
    have hal := good_alive hm t.now
    unfold session at h
    rw [alive_kept, request_at t.environ p1 _ hal] at h
    simp only at h
    split at h
    · cases h
    rename_i h1 _ hrun
    split at h
    · cases h
    rename_i h2 hw
    have hget := Desc.wsgi_getlist rcfg hl iri absolute s%"Set-Cookie" (by rw [hS]; decide) _
      (fun _ => by rw [hS]; decide) h2 hw
    have hch : cookieHeaders rcfg.lower h2 = cookieHeaders rcfg.lower h1 := by
      unfold cookieHeaders; rw [hget]
    have hreg := hf t (by simp) (pairs (alive t.now m))
    rw [hch, run_at t.cfg rcfg.lower date hd t.now _ t.page.headers h1 (alive t.now m) _ hreg hrun
      (by unfold cookieHeaders; rw [p2]; rfl), Option.map_eq_some_iff] at h
    obtain ⟨rest, hr, rfl⟩ := h
    rw [ih _ (good_meant t.cfg date t.now _ hreg _ hal) (fun t ht => hp t (by simp [ht]))
      (fun t ht => hf t (by simp [ht])) rest hr]
    rfl

/-- C141.  Over any number of requests, at whatever times, the cookies an application sees are those it is meant to
see: what it set at the requests before, with the last value, unless it was deleted since or has ended.  With max_age
a cookie ends that many seconds after it was received, whatever the clock of the server shows. -/
theorem C141_session_partial (rcfg : Response.Cfg) (hl : LowerNames rcfg.lower)
    (hS : rcfg.lower s%"Set-Cookie" = s%"set-cookie") (iri absolute : Str → Except PyErr Str)
    (date : Bytes → Option Int) (hd : ReadsDates date) (view : Turn → List (Str × Str) → List Call) (turns : List Turn)
    (hp : ∀ t ∈ turns, Dict.get t.environ s%"HTTP_COOKIE" = none ∧
      Headers.getlist rcfg.lower t.page.headers s%"Set-Cookie" = [])
    (hf : ∀ t ∈ turns, ∀ c, ∀ call ∈ view t c, Regular t.cfg call)
    (seen : List (List (Str × Str))) (h : session rcfg iri absolute date view [] turns = some seen) :
    seen = direct date view [] turns :=
  session_spec rcfg hl hS iri absolute date hd view turns [] ⟨by simp, by simp⟩ hp hf seen h

theorem run_plain (cfg : CookieText.Cfg) (lower : Str → Str) (hS : lower s%"Set-Cookie" = s%"set-cookie")
    (calls : List Call) : ∀ (h h' : Headers.HList), Desc.Plain lower h → CookieText.run cfg h calls = (h', .ok ()) →
    Desc.Plain lower h' := by
  induction calls with
  | nil => intro h h' hh hr; cases hr; exact hh
  | cons c cs ih =>
    intro h h' hh hr
    unfold CookieText.run at hr
    have hc : ∃ a, c.exec cfg h = setCookie cfg h a := by
      cases c with
      | set a => exact ⟨a, rfl⟩
      | delete k p d => exact ⟨_, rfl⟩
    obtain ⟨a, ha⟩ := hc
    rw [ha] at hr
    rcases C125_atomic cfg h a with ⟨e, he⟩ | ⟨v, he, -, h1, h2⟩
    · rw [he] at hr; cases hr
    · rw [he] at hr
      refine ih _ h' ?_ hr
      intro p hp
      simp only [List.mem_append, List.mem_singleton] at hp
      rcases hp with hp | rfl
      · exact hh p hp
      · exact ⟨⟨h1, h2⟩, by rw [hS]; decide⟩

theorem session_some (rcfg : Response.Cfg) (hl : LowerNames rcfg.lower)
    (hS : rcfg.lower s%"Set-Cookie" = s%"set-cookie") (iri absolute : Str → Except PyErr Str)
    (date : Bytes → Option Int) (hd : ReadsDates date) (view : Turn → List (Str × Str) → List Call) (turns : List Turn) :
    ∀ m : Timed Str, Good m →
    (∀ t ∈ turns, Dict.get t.environ s%"HTTP_COOKIE" = none ∧
      Headers.getlist rcfg.lower t.page.headers s%"Set-Cookie" = []) →
    (∀ t ∈ turns, Desc.Plain rcfg.lower t.page.headers) →
    (∀ t ∈ turns, ∀ c, ∀ call ∈ view t c, Regular t.cfg call) →
    (∀ t ∈ turns, ∀ c, (CookieText.run t.cfg t.page.headers (view t c)).2 = .ok ()) →
    ∃ seen, session rcfg iri absolute date view (m.map keptAt) turns = some seen := by
  induction turns with
  | nil => intro m _ _ _ _ _; exact ⟨_, rfl⟩
  | cons t ts ih =>
    intro m hm hp hpl hf hok
    obtain ⟨p1, p2⟩ := hp t (by simp)
    have hal := good_alive hm t.now
    have hreg := hf t (by simp) (pairs (alive t.now m))
    have hrun := hok t (by simp) (pairs (alive t.now m))
    unfold session
    rw [alive_kept, request_at t.environ p1 _ hal]
    simp only
    cases hx : CookieText.run t.cfg t.page.headers (view t (pairs (alive t.now m))) with
    | mk h1 r =>
      rw [hx] at hrun
      simp only at hrun
      subst hrun
      simp only
      obtain ⟨h2, hw⟩ := Desc.plain_wsgi rcfg iri absolute { t.page with headers := h1 }
        (run_plain t.cfg rcfg.lower hS _ _ _ (hpl t (by simp)) hx)
      rw [hw]
      simp only
      have hget := Desc.wsgi_getlist rcfg hl iri absolute s%"Set-Cookie" (by rw [hS]; decide) _
        (fun _ => by rw [hS]; decide) h2 hw
      have hch : cookieHeaders rcfg.lower h2 = cookieHeaders rcfg.lower h1 := by
        unfold cookieHeaders; rw [hget]
      rw [hch, run_at t.cfg rcfg.lower date hd t.now _ t.page.headers h1 (alive t.now m) _ hreg hx
        (by unfold cookieHeaders; rw [p2]; rfl)]
      obtain ⟨rest, hr⟩ := ih _ (good_meant t.cfg date t.now _ hreg _ hal) (fun t ht => hp t (by simp [ht]))
        (fun t ht => hpl t (by simp [ht])) (fun t ht => hf t (by simp [ht])) (fun t ht => hok t (by simp [ht]))
      exact ⟨_, by rw [hr]; rfl⟩

/-- C141.  Nothing else fails: when no call of `set_cookie` raises and the other headers can be sent as they are, every
request of the session is answered, so that the cookies of one response never make the next request fail. -/
theorem C141_answers (rcfg : Response.Cfg) (hl : LowerNames rcfg.lower)
    (hS : rcfg.lower s%"Set-Cookie" = s%"set-cookie") (iri absolute : Str → Except PyErr Str)
    (date : Bytes → Option Int) (hd : ReadsDates date) (view : Turn → List (Str × Str) → List Call) (turns : List Turn)
    (hp : ∀ t ∈ turns, Dict.get t.environ s%"HTTP_COOKIE" = none ∧
      Headers.getlist rcfg.lower t.page.headers s%"Set-Cookie" = [])
    (hpl : ∀ t ∈ turns, Desc.Plain rcfg.lower t.page.headers)
    (hf : ∀ t ∈ turns, ∀ c, ∀ call ∈ view t c, Regular t.cfg call)
    (hok : ∀ t ∈ turns, ∀ c, (CookieText.run t.cfg t.page.headers (view t c)).2 = .ok ()) :
    session rcfg iri absolute date view [] turns = some (direct date view [] turns) := by
  obtain ⟨seen, hs⟩ := session_some rcfg hl hS iri absolute date hd view turns [] ⟨by simp, by simp⟩ hp hpl hf hok
  have := C141_session_partial rcfg hl hS iri absolute date hd view turns hp hf seen hs
  rw [← this]; exact hs

theorem direct_idle (date : Bytes → Option Int) (view : Turn → List (Str × Str) → List Call) (k v : Str) (e : Int)
    (ts : List Turn) : ∀ m : Timed Str, (∀ t ∈ ts, ∀ c, view t c = []) → ts.Pairwise (fun a b => a.now ≤ b.now) →
    (m = [(k, v, some e)] ∨ (m = [] ∧ ∀ t ∈ ts, e ≤ t.now)) →
    direct date view m ts = ts.map fun t => if t.now < e then [(k, v)] else [] := by
  induction ts with
  | nil => intro m _ _ _; rfl
  | cons t ts ih =>
    intro m hv hs hm
    rw [List.pairwise_cons] at hs
    have hv' : ∀ t ∈ ts, ∀ c, view t c = [] := fun t ht => hv t (by simp [ht])
    simp only [direct, hv t (by simp), List.foldl_nil, List.map_cons]
    rcases hm with rfl | ⟨rfl, hm⟩
    · by_cases h : t.now < e
      · have ha : alive t.now [(k, v, some e)] = [(k, v, some e)] := by simp [alive, h]
        rw [ha, ih _ hv' hs.2 (.inl rfl), if_pos h]
        rfl
      · have ha : alive t.now [(k, v, some e)] = [] := by simp [alive, h]
        rw [ha, ih _ hv' hs.2 (.inr ⟨rfl, fun x hx => by have := hs.1 x hx; omega⟩), if_neg h]
        rfl
    · have h : ¬ t.now < e := by have := hm t (by simp); omega
      rw [show alive t.now ([] : Timed Str) = [] from rfl,
        ih _ hv' hs.2 (.inr ⟨rfl, fun x hx => hm x (by simp [hx])⟩), if_neg h]
      rfl

/-- C141.  The life of a cookie: set once with a positive max_age and then left alone, it is seen at exactly the requests
that are made less than that many seconds later. -/
theorem C141_lifetime (rcfg : Response.Cfg) (hl : LowerNames rcfg.lower)
    (hS : rcfg.lower s%"Set-Cookie" = s%"set-cookie") (iri absolute : Str → Except PyErr Str)
    (date : Bytes → Option Int) (hd : ReadsDates date) (view : Turn → List (Str × Str) → List Call)
    (t : Turn) (ts : List Turn)
    (hp : ∀ u ∈ t :: ts, Dict.get u.environ s%"HTTP_COOKIE" = none ∧
      Headers.getlist rcfg.lower u.page.headers s%"Set-Cookie" = [])
    (a : Args) (age : Age) (hage : a.maxAge = some age) (hpos : 0 < secondsIn age) (hn : Name a.key) (ha : Plain t.cfg a)
    (hv : ∀ c, view t c = [.set a]) (hts : ∀ t ∈ ts, ∀ c, view t c = [])
    (hs : ts.Pairwise (fun a b => a.now ≤ b.now))
    (seen : List (List (Str × Str))) (h : session rcfg iri absolute date view [] (t :: ts) = some seen) :
    seen = [] :: ts.map fun later => if later.now < t.now + secondsIn age then [(a.key, a.value)] else [] := by
  rw [C141_session_partial rcfg hl hS iri absolute date hd view (t :: ts) hp ?_ seen h]
  · have hal : alive t.now (Dict.set ([] : Timed Str) a.key (a.value, some (t.now + secondsIn age))) =
        [(a.key, a.value, some (t.now + secondsIn age))] := by
      simp [Dict.set, alive]
      omega
    have hne : alive t.now ([] : Timed Str) = [] := rfl
    simp only [direct, hne, hv, List.foldl_cons, List.foldl_nil, meantAt, meantEnd, hage]
    rw [hal, direct_idle date view a.key a.value (t.now + secondsIn age) ts _ hts hs (.inl rfl)]
    rfl
  · intro u hu c call hc
    simp only [List.mem_cons] at hu
    rcases hu with rfl | hu
    · rw [hv] at hc
      cases List.mem_singleton.mp hc
      exact ⟨hn, ha, fun hx => by rw [hage] at hx; cases hx⟩
    · rw [hts u hu] at hc; cases hc

/-! ### Cases -/

/-- A user agent that reads dates as `parse_date` does. -/
def parsedDate (b : Bytes) : Option Int :=
  match Date.parseDate (Utf8.decode b) with
  | .ok (some t) => some (epoch t)
  | _ => none

theorem reads_parsed : ReadsDates parsedDate := by
  intro t ht hy
  unfold parsedDate
  rw [Utf8.decode_encode, C125_date t ht (by omega)]

/-- A counter kept in a cookie for a minute. -/
def counterView (_ : Turn) (cookies : List (Str × Str)) : List Call :=
  [.set { key := s%"n", value := (Dict.get cookies s%"n").getD [] ++ s%"ü", maxAge := some (.seconds 60) }]

def counterTurn (now : Int) : Turn :=
  ⟨[(s%"PATH_INFO", s%"/")], { cookieCfg with now := 1000000 }, now,
    ⟨[(s%"Content-Type", s%"text/plain")], s%"200 OK", 200, .list [], [], false⟩⟩

example : session demo .ok .ok parsedDate counterView [] [counterTurn 100, counterTurn 130, counterTurn 189, counterTurn 249] =
    some [[], [(s%"n", s%"ü")], [(s%"n", s%"üü")], []] := by decide +kernel

example : direct parsedDate counterView [] [counterTurn 100, counterTurn 130, counterTurn 189, counterTurn 249] =
    [[], [(s%"n", s%"ü")], [(s%"n", s%"üü")], []] := by decide +kernel

/-- C141 fails for paths that are written with a `;`: the cookie is meant to be there and never is. -/
theorem C141_path_false : ∃ view : Turn → List (Str × Str) → List Call,
    session demo .ok .ok parsedDate view [] [counterTurn 100, counterTurn 130] = some [[], []] ∧
    direct parsedDate view [] [counterTurn 100, counterTurn 130] = [[], [(s%"id", s%"1")]] :=
  ⟨fun _ _ => [.set { key := s%"id", value := s%"1", path := some s%"/a?;Max-Age=0" }],
    by decide +kernel, by decide +kernel⟩

example (now : Int) (c : List (Str × Str)) : (∀ call ∈ counterView (counterTurn now) c, Regular (counterTurn now).cfg call) ∧
    Dict.get (counterTurn now).environ s%"HTTP_COOKIE" = none ∧ Desc.Plain demo.lower (counterTurn now).page.headers := by
  refine ⟨?_, by rfl, by unfold Desc.Plain Verif.Spec.LegalValue; simp only [counterTurn]; decide⟩
  intro call hc
  cases List.mem_singleton.mp hc
  have hn : Name s%"n" := ⟨by unfold CookieName; decide +kernel, by decide⟩
  refine ⟨hn, ⟨?_, fun s h => by cases h⟩, fun h => by cases h⟩
  intro p h
  have e : pathUri { cookieCfg with now := 1000000 } (some s%"/") = .ok (some s%"/") := by decide +kernel
  have h' : pathUri { cookieCfg with now := 1000000 } (some s%"/") = .ok (some p) := h
  rw [e] at h'; cases h'; decide

end Verif.Props.CookieTextP
