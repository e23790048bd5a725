import Verif.Props.ClientAnswer
import Verif.Spec.PathAgent
/-!
C153: cookies for several hosts and paths (`/repo/verktyg/responses.py:400-445`, `/repo/verktyg/requests.py:295-301`).
-/
namespace Verif.Props.CookiePathsP
open Verif Verif.CookieText Verif.Spec Verif.Props Verif.Spec.Calendar
open Verif.Props.CookieTextP
open Verif.Props.ClientJarP (argsOf headers_run read_set placeAt set_map)
open Verif.Props.Resp (demo)
open Verif.Spec.PathAgent

/-! ### Specification -/

/-- A response to a request to `host`, whose path gives `dflt`: the clock of the browser, what cookies are written with,
the headers, and the calls that the view makes on it. -/
structure Answer where
  now : Int
  host : Str
  dflt : Bytes
  cfg : Cfg
  page : Headers.HList
  calls : List Call

/-- The path that a call gives a cookie. -/
def pathOf (cfg : Cfg) (dflt : Bytes) (path : Option Str) : Bytes :=
  match pathUri cfg path with
  | .ok (some p) => pathFor dflt (some (Agent.trim (Utf8.encode p)))
  | _ => dflt

/-- What a call means: a cookie of the host and the path is there until it ends, or it is not there. -/
def meantCall (date : Bytes → Option Int) (now : Int) (host : Str) (dflt : Bytes) (cfg : Cfg) (m : Store Str) :
    Call → Store Str
  | .set a => living now (Dict.set m (host, pathOf cfg dflt a.path, a.key) (a.value, meantEnd date now a))
  | .delete key path _ => living now (Dict.del m (host, pathOf cfg dflt path, key))

/-- What a response means. -/
def meantAnswer (date : Bytes → Option Int) (m : Store Str) (r : Answer) : Store Str :=
  r.calls.foldl (meantCall date r.now r.host r.dflt r.cfg) m

/-- What a browser keeps of a response. -/
def receive (lower : Str → Str) (date : Bytes → Option Int) (store : Store Bytes) (r : Answer) : Store Bytes :=
  ((Headers.getlist lower (CookieText.run r.cfg r.page r.calls).1 s%"Set-Cookie").map headerBytes).foldl
    (accept date r.now r.host r.dflt) store

/-- Calls with proper names, whose paths and dates are written without `;`, that give no domain and do not raise, on a
response without cookies. -/
structure Proper (lower : Str → Str) (r : Answer) : Prop where
  page : Headers.getlist lower r.page s%"Set-Cookie" = []
  calls : ∀ c ∈ r.calls, Regular r.cfg c ∧ (argsOf c).domain = none
  ok : (CookieText.run r.cfg r.page r.calls).2 = .ok ()

/-! ### What the browser keeps -/

/-- A cookie as the browser keeps it. -/
def keptP (c : (Str × Bytes × Str) × Str × Option Int) : (Str × Bytes × Bytes) × Bytes × Option Int :=
  (ClientJarP.keyJ c.1, Cookie.cookieQuote (Utf8.encode c.2.1), c.2.2)

theorem living_kept (now : Int) (m : Store Str) : living now (m.map keptP) = (living now m).map keptP := by
  unfold living
  rw [List.filter_map]
  rfl

/-- A cookie that has ended is no cookie. -/
theorem living_dead (now : Int) (m : Store Str) (k : Str × Bytes × Str) (v : Str) (e : Int) (he : e ≤ now) :
    living now (Dict.set m k (v, some e)) = living now (Dict.del m k) := by
  have hd : ¬ now < e := by omega
  induction m with
  | nil => simp [Dict.set, Dict.del, living, hd]
  | cons p m ih =>
    obtain ⟨x, y⟩ := p
    simp only [Dict.set, Dict.del]
    by_cases h : x = k
    · rw [if_pos h, if_pos h]
      simp [living, hd]
    · rw [if_neg h, if_neg h]
      unfold living at ih ⊢
      rw [List.filter_cons, List.filter_cons, ih]

theorem accept_call (date : Bytes → Option Int) (hd : ReadsDates date) (now : Int) (host : Str) (dflt : Bytes)
    (cfg : Cfg) (c : Call) (s : Str) (hf : Regular cfg c) (hs : dumpCookie cfg (argsOf c) = .ok s) (m : Store Str) :
    accept date now host dflt (m.map keptP) (headerBytes s) = (meantCall date now host dflt cfg m c).map keptP := by
  have hr : Regular cfg (.set (argsOf c)) := by
    cases c with
    | set a => exact hf
    | delete key path domain => exact ⟨hf.1, ⟨hf.2, fun s h => by cases h⟩, fun h => by cases h⟩
  obtain ⟨r1, r2, r3⟩ := read_set dflt (fun q => pathFor dflt (some q)) cfg date hd now (argsOf c) s hr hs
  have hdf : pathFor dflt (some dflt) = dflt := by
    unfold pathFor; split
    · rename_i h; exact (Option.some.inj h).symm
    · rfl
  have hp : pathFor dflt (Agent.attr b%"path" (headerBytes s)) = pathOf cfg dflt (argsOf c).path := by
    have e1 : pathFor dflt (Agent.attr b%"path" (headerBytes s)) =
        pathFor dflt (some ((Agent.attr b%"path" (headerBytes s)).getD dflt)) := by
      cases Agent.attr b%"path" (headerBytes s) with
      | some q => rfl
      | none => exact hdf.symm
    rw [e1, r2]
    unfold placeAt pathOf
    cases pathUri cfg (argsOf c).path with
    | error e => exact hdf
    | ok o =>
      cases o with
      | none => exact hdf
      | some p => rfl
  unfold accept
  rw [r1, r3, hp]
  simp only
  have e2 := set_map ClientJarP.keyJ ClientJarP.keyJ_inj
    (fun v : Str × Option Int => (Cookie.cookieQuote (Utf8.encode v.1), v.2)) m
    (host, pathOf cfg dflt (argsOf c).path, (argsOf c).key) ((argsOf c).value, meantEnd date now (argsOf c))
  have e3 : living now (Dict.set (m.map keptP) (host, pathOf cfg dflt (argsOf c).path, Utf8.encode (argsOf c).key)
      (Cookie.cookieQuote (Utf8.encode (argsOf c).value), meantEnd date now (argsOf c))) =
      (living now (Dict.set m (host, pathOf cfg dflt (argsOf c).path, (argsOf c).key)
        ((argsOf c).value, meantEnd date now (argsOf c)))).map keptP := by
    rw [← living_kept]
    exact congrArg _ e2
  rw [e3]
  cases c with
  | set a => rfl
  | delete key path domain =>
    have e : meantEnd date now (argsOf (.delete key path domain)) = some (now + 0) := rfl
    rw [e, living_dead _ _ _ _ _ (by omega)]
    rfl

theorem accept_calls (date : Bytes → Option Int) (hd : ReadsDates date) (now : Int) (host : Str) (dflt : Bytes)
    (cfg : Cfg) (calls : List Call) : ∀ ss : List Str, (∀ c ∈ calls, Regular cfg c) →
    calls.map (fun c => dumpCookie cfg (argsOf c)) = ss.map .ok → ∀ m : Store Str,
    (ss.map headerBytes).foldl (accept date now host dflt) (m.map keptP) =
      (calls.foldl (meantCall date now host dflt cfg) m).map keptP := by
  induction calls with
  | nil => intro ss _ h m; cases ss with | nil => rfl | cons s ss => cases h
  | cons c cs ih =>
    intro ss hf h m
    cases ss with
    | nil => cases h
    | cons s ss =>
      simp only [List.map_cons, List.cons.injEq] at h
      rw [List.map_cons, List.foldl_cons, accept_call date hd now host dflt cfg c s (hf c (.head _)) h.1,
        List.foldl_cons]
      exact ih ss (fun c hc => hf c (.tail _ hc)) h.2 _

/-- **C153, what is kept.**  After any responses for any hosts, whose views made any calls, a browser has exactly the
cookies that are meant, each for its host and path and with the moment at which it ends. -/
theorem C153_kept (lower : Str → Str) (date : Bytes → Option Int) (hd : ReadsDates date) (rs : List Answer)
    (hr : ∀ r ∈ rs, Proper lower r) :
    rs.foldl (receive lower date) [] = (rs.foldl (meantAnswer date) []).map fun c =>
      ((c.1.1, c.1.2.1, Utf8.encode c.1.2.2), Cookie.cookieQuote (Utf8.encode c.2.1), c.2.2) := by
  suffices ∀ m : Store Str, rs.foldl (receive lower date) (m.map keptP) = (rs.foldl (meantAnswer date) m).map keptP from
    this []
  induction rs with
  | nil => intro m; rfl
  | cons r rs ih =>
    intro m
    have h := hr r (.head _)
    rw [List.foldl_cons, List.foldl_cons, ← ih (fun r h => hr r (.tail _ h))]
    congr 1
    obtain ⟨ss, e1, e2⟩ := headers_run lower r.cfg r.calls r.page (CookieText.run r.cfg r.page r.calls).1
      (Prod.ext rfl h.ok)
    unfold receive
    rw [e1, h.page, List.nil_append]
    exact accept_calls date hd r.now r.host r.dflt r.cfg r.calls ss (fun c hc => (h.calls c hc).1) e2 m

/-! ### What the view sees -/

/-- Each cookie is there once, and its name is one. -/
def Tidy (m : Store Str) : Prop := (Dict.keys m).Nodup ∧ ∀ k ∈ Dict.keys m, CookieName (Utf8.encode k.2.2)

theorem tidy_sub {m m' : Store Str} (h : Tidy m) (hs : m'.Sublist m) : Tidy m' := by
  have hk : (Dict.keys m').Sublist (Dict.keys m) := hs.map _
  exact ⟨hk.nodup h.1, fun k hm => h.2 k (hk.subset hm)⟩

theorem tidy_call (date : Bytes → Option Int) (now : Int) (host : Str) (dflt : Bytes) (cfg : Cfg) (c : Call)
    (hc : Regular cfg c) (m : Store Str) (h : Tidy m) : Tidy (meantCall date now host dflt cfg m c) := by
  cases c with
  | set a =>
    refine tidy_sub (m := Dict.set m _ _) ⟨Dict.nodup_set h.1 _ _, fun k hk => ?_⟩ List.filter_sublist
    rw [Dict.keys_set] at hk
    split at hk
    · exact h.2 k hk
    · rcases List.mem_append.1 hk with hk | hk
      · exact h.2 k hk
      · rw [List.mem_singleton.1 hk]; exact hc.1.1
  | delete k p d =>
    refine tidy_sub (m := Dict.del m _) ⟨Dict.nodup_del h.1 _, fun x hk => ?_⟩ List.filter_sublist
    rw [Dict.keys_del] at hk
    exact h.2 x (@List.mem_of_mem_erase _ instBEqOfDecidableEq _ _ _ hk)

theorem tidy_answers (lower : Str → Str) (date : Bytes → Option Int) (rs : List Answer)
    (hr : ∀ r ∈ rs, Proper lower r) : Tidy (rs.foldl (meantAnswer date) []) := by
  suffices ∀ m : Store Str, Tidy m → Tidy (rs.foldl (meantAnswer date) m) from
    this [] ⟨List.nodup_nil, fun k hk => by cases hk⟩
  induction rs with
  | nil => exact fun m h => h
  | cons r rs ih =>
    intro m h
    rw [List.foldl_cons]
    refine ih (fun r h => hr r (.tail _ h)) _ ?_
    have hc := (hr r (.head _)).calls
    unfold meantAnswer
    revert m
    revert hc
    induction r.calls with
    | nil => exact fun _ m h => h
    | cons c cs ih2 =>
      intro hc m h
      rw [List.foldl_cons]
      exact ih2 (fun c h => hc c (.tail _ h)) _ (tidy_call date r.now r.host r.dflt r.cfg c (hc c (.head _)).1 m h)

theorem covers_prefix {p q : Bytes} (h : Covers p q) : p <+: q := by
  rcases h with rfl | ⟨rest, rfl, _⟩
  · exact List.prefix_refl _
  · exact List.prefix_append _ _

/-- What is left of pairs one after the other, where longer paths come first. -/
theorem get_sorted (k : Str) (l : Store Str)
    (hp : l.Pairwise fun a b => a.1.2.2 = b.1.2.2 → b.1.2.1.length < a.1.2.1.length) :
    ∀ (d : List (Str × Str)) (v : Str),
    Dict.get ((l.map fun c => (c.1.2.2, c.2.1)).foldl (fun d p => Dict.set d p.1 p.2) d) k = some v ↔
      (∃ c ∈ l, c.1.2.2 = k ∧ c.2.1 = v ∧ ∀ c' ∈ l, c'.1.2.2 = k → c.1.2.1.length ≤ c'.1.2.1.length) ∨
      ((∀ c ∈ l, c.1.2.2 ≠ k) ∧ Dict.get d k = some v) := by
  induction l with
  | nil => intro d v; simp
  | cons a l ih =>
    intro d v
    obtain ⟨h1, h2⟩ := List.pairwise_cons.1 hp
    rw [List.map_cons, List.foldl_cons, ih h2, Dict.get_set]
    constructor
    · rintro (⟨c, hc, rfl, rfl, hm⟩ | ⟨hn, hg⟩)
      · left
        refine ⟨c, .tail _ hc, rfl, rfl, fun c' hc' e => ?_⟩
        rcases List.mem_cons.1 hc' with rfl | hc'
        · exact Nat.le_of_lt (h1 c hc e)
        · exact hm c' hc' e
      · by_cases ha : k = a.1.2.2
        · rw [if_pos ha] at hg
          left
          refine ⟨a, .head _, ha.symm, Option.some.inj hg, fun c' hc' e => ?_⟩
          rcases List.mem_cons.1 hc' with rfl | hc'
          · exact Nat.le_refl _
          · exact absurd e (hn c' hc')
        · rw [if_neg ha] at hg
          right
          refine ⟨fun c hc => ?_, hg⟩
          rcases List.mem_cons.1 hc with rfl | hc
          · exact fun e => ha e.symm
          · exact hn c hc
    · rintro (⟨c, hc, rfl, rfl, hm⟩ | ⟨hn, hg⟩)
      · rcases List.mem_cons.1 hc with rfl | hc
        · right
          refine ⟨fun c' hc' e => ?_, by rw [if_pos rfl]⟩
          have l1 := h1 c' hc' e.symm
          have l2 := hm c' (.tail _ hc') e
          omega
        · left
          exact ⟨c, hc, rfl, rfl, fun c' hc' e => hm c' (.tail _ hc') e⟩
      · right
        exact ⟨fun c hc => hn c (.tail _ hc), by rw [if_neg fun e => hn a (.head _) e.symm]; exact hg⟩

theorem order_kept {m : Store Str} {order : Store Bytes} (h : ∀ c ∈ order, c ∈ m.map keptP) :
    ∃ o : Store Str, order = o.map keptP ∧ ∀ c ∈ o, c ∈ m := by
  induction order with
  | nil => exact ⟨[], rfl, fun c hc => by cases hc⟩
  | cons a order ih =>
    obtain ⟨o, rfl, ho⟩ := ih fun c hc => h c (.tail _ hc)
    obtain ⟨c, hc, rfl⟩ := List.mem_map.1 (h a (.head _))
    exact ⟨c :: o, rfl, fun x hx => by
      rcases List.mem_cons.1 hx with rfl | hx
      · exact hc
      · exact ho x hx⟩

theorem keptP_inj (a b : (Str × Bytes × Str) × Str × Option Int) (h : ClientJarP.keyJ a.1 = ClientJarP.keyJ b.1)
    {m : Store Str} (n : (Dict.keys m).Nodup) (ha : a ∈ m) (hb : b ∈ m) : a = b := by
  have e := ClientJarP.keyJ_inj _ _ h
  have g1 := Dict.get_of_mem n (show (a.1, a.2) ∈ m from ha)
  have g2 := Dict.get_of_mem n (show (b.1, b.2) ∈ m from hb)
  rw [e] at g1
  exact Prod.ext e (Option.some.inj (g1.symm.trans g2))

/-- **C153, what is seen.**  After any responses, a request to any host and path, at any time, is answered by a view
that sees a value for a name exactly when a cookie of that name is meant for the request, lasts, and has this value;
among several the one with the shortest path. -/
theorem C153_seen (lower : Str → Str) (date : Bytes → Option Int) (hd : ReadsDates date) (rs : List Answer)
    (hr : ∀ r ∈ rs, Proper lower r) (now : Int) (host : Str) (path : Bytes) (order : Store Bytes)
    (ho : Sent now host path (rs.foldl (receive lower date) []) order) (environ : List (Str × Str))
    (he : Dict.get environ s%"HTTP_COOKIE" = none) :
    ∃ d, requestCookies (cookieEnviron environ (order.map fun c => (c.1.2.2, c.2.1))) = .ok d ∧ ∀ name v,
      Dict.get d name = some v ↔ ∃ c ∈ rs.foldl (meantAnswer date) [], For now host path c ∧ c.1.2.2 = name ∧ c.2.1 = v ∧
        ∀ c' ∈ rs.foldl (meantAnswer date) [], For now host path c' → c'.1.2.2 = name →
          c.1.2.1.length ≤ c'.1.2.1.length := by
  have hk : rs.foldl (receive lower date) [] = (rs.foldl (meantAnswer date) []).map keptP := C153_kept lower date hd rs hr
  obtain ⟨n, hnames⟩ := tidy_answers lower date rs hr
  generalize rs.foldl (meantAnswer date) [] = m at *
  rw [hk] at ho
  obtain ⟨o1, o2, o3⟩ := ho
  obtain ⟨o, rfl, hom⟩ := order_kept (m := m) fun c hc => ((o2 c).1 hc).1
  have hfor : ∀ c ∈ m, (c ∈ o ↔ For now host path c) := by
    intro c hc
    constructor
    · intro h
      exact ((o2 (keptP c)).1 (List.mem_map_of_mem h)).2
    · intro h
      obtain ⟨c', hc', e⟩ := List.mem_map.1 ((o2 (keptP c)).2 ⟨List.mem_map_of_mem hc, h⟩)
      rw [← keptP_inj c' c (congrArg Prod.fst e) n (hom c' hc') hc]
      exact hc'
  have hpw : o.Pairwise fun a b => a.1.2.2 = b.1.2.2 → b.1.2.1.length < a.1.2.1.length := by
    have q1 : o.Pairwise fun a b => b.1.2.1.length ≤ a.1.2.1.length := List.pairwise_map.1 o3
    have q2 : o.Pairwise fun a b => keptP a ≠ keptP b := List.pairwise_map.1 o1
    refine List.Pairwise.imp_of_mem (fun {a b} ha hb hab e => ?_) (q1.and q2)
    refine Nat.lt_of_le_of_ne hab.1 fun el => hab.2 ?_
    have fa := (hfor a (hom a ha)).1 ha
    have fb := (hfor b (hom b hb)).1 hb
    have ep : a.1.2.1 = b.1.2.1 := by
      have p1 := covers_prefix fa.2.1
      have p2 := covers_prefix fb.2.1
      rw [List.prefix_iff_eq_take] at p1 p2
      rw [p1, p2, el]
    have ek : a.1 = b.1 := Prod.ext (fa.1.trans fb.1.symm) (Prod.ext ep e)
    rw [keptP_inj a b (by rw [ek]) n (hom a ha) (hom b hb)]
  refine ⟨_, C125_sent _ (o.map fun c => (c.1.2.2, c.2.1)) ?_ ?_, fun name v => ?_⟩
  · intro p hp
    obtain ⟨c, hc, rfl⟩ := List.mem_map.1 hp
    exact hnames c.1 (List.mem_map_of_mem (hom c hc))
  · unfold cookieEnviron
    cases o with
    | nil => simp [he, Agent.cookieLine, Utf8.latin1]
    | cons c o =>
      rw [if_neg (by simp), Dict.get_set, if_pos rfl, Option.getD_some]
      simp only [List.map_map, Function.comp_def, keptP, ClientJarP.keyJ]
  · rw [get_sorted name o hpw]
    constructor
    · rintro (⟨c, hc, e1, e2, hm⟩ | ⟨_, h⟩)
      · exact ⟨c, hom c hc, (hfor c (hom c hc)).1 hc, e1, e2,
          fun c' hc' f e => hm c' ((hfor c' hc').2 f) e⟩
      · cases h
    · rintro ⟨c, hc, f, e1, e2, hm⟩
      exact Or.inl ⟨c, (hfor c hc).2 f, e1, e2, fun c' hc' e => hm c' (hom c' hc') ((hfor c' (hom c' hc')).1 hc') e⟩

/-- **C153, one path for a name.**  Where the cookies of a name that are for the request have one path, the view sees
exactly what is meant.  Missing: several paths (`C153_specific_false`). -/
theorem C153_name_partial (lower : Str → Str) (date : Bytes → Option Int) (hd : ReadsDates date) (rs : List Answer)
    (hr : ∀ r ∈ rs, Proper lower r) (now : Int) (host : Str) (path : Bytes) (order : Store Bytes)
    (ho : Sent now host path (rs.foldl (receive lower date) []) order) (environ : List (Str × Str))
    (he : Dict.get environ s%"HTTP_COOKIE" = none) (name : Str) (place : Bytes)
    (h1 : ∀ c ∈ rs.foldl (meantAnswer date) [], For now host path c → c.1.2.2 = name → c.1.2.1 = place) :
    ∃ d, requestCookies (cookieEnviron environ (order.map fun c => (c.1.2.2, c.2.1))) = .ok d ∧ ∀ v,
      Dict.get d name = some v ↔ Covers place path ∧
        ∃ e, Dict.get (rs.foldl (meantAnswer date) []) (host, place, name) = some (v, e) ∧ ∀ t, e = some t → now < t := by
  obtain ⟨d, hd1, hd2⟩ := C153_seen lower date hd rs hr now host path order ho environ he
  obtain ⟨n, _⟩ := tidy_answers lower date rs hr
  refine ⟨d, hd1, fun v => ?_⟩
  rw [hd2]
  constructor
  · rintro ⟨c, hc, f, e1, e2, _⟩
    have hp := h1 c hc f e1
    obtain ⟨⟨a, b, k⟩, w, t⟩ := c
    simp only at e1 e2 hp
    subst e1; subst e2; subst hp
    obtain ⟨f1, f2, f3⟩ := f
    simp only at f1 f2 f3
    subst f1
    exact ⟨f2, t, Dict.get_of_mem n hc, f3⟩
  · rintro ⟨hc, e, hg, ht⟩
    refine ⟨_, Dict.mem_of_get hg, ⟨rfl, hc, ht⟩, rfl, rfl, fun c' hc' f e' => ?_⟩
    rw [h1 c' hc' f e']
    exact Nat.le_refl _

/-! ### Where it is not what is meant -/

/-- Two answers: a cookie for the whole host, and one of the same name for a part of it. -/
def twoPaths : List Answer :=
  [{ now := 100, host := s%"a.example", dflt := b%"/", cfg := cookieCfg, page := [],
     calls := [.set { key := s%"id", value := s%"all" },
       .set { key := s%"id", value := s%"part", path := some s%"/app" }] }]

instance (p q : Bytes) : Decidable (Covers p q) :=
  decidable_of_iff (q = p ∨ (p <+: q ∧ (p.getLast? = some 47 ∨ (q.drop p.length).head? = some 47))) (by
    unfold Covers
    refine or_congr Iff.rfl ⟨?_, ?_⟩
    · rintro ⟨⟨r, rfl⟩, h⟩
      exact ⟨r, rfl, by simpa using h⟩
    · rintro ⟨r, rfl, h⟩
      exact ⟨List.prefix_append _ _, by simpa using h⟩)

/-- **C153 fails** for two cookies of one name: below `/app` the view does not see the cookie that was set for `/app`
but the one for the whole host, as the last one counts and browsers send the more specific one first. -/
theorem C153_specific_false : ∃ order, Sent 200 s%"a.example" b%"/app/x" (twoPaths.foldl (receive demo.lower parsedDate) []) order ∧
    requestCookies (cookieEnviron [] (order.map fun c => (c.1.2.2, c.2.1))) = .ok [(s%"id", s%"all")] := by
  have hs : twoPaths.foldl (receive demo.lower parsedDate) [] =
      [((s%"a.example", b%"/", b%"id"), b%"all", none), ((s%"a.example", b%"/app", b%"id"), b%"part", none)] := by
    decide +kernel
  refine ⟨[((s%"a.example", b%"/app", b%"id"), b%"part", none), ((s%"a.example", b%"/", b%"id"), b%"all", none)],
    ⟨by decide +kernel, fun c => ?_, by decide +kernel⟩, by decide +kernel⟩
  rw [hs]
  simp only [List.mem_cons, List.not_mem_nil, or_false]
  constructor
  · rintro (rfl | rfl)
    · exact ⟨Or.inr rfl, rfl, by decide +kernel, fun e h => by cases h⟩
    · exact ⟨Or.inl rfl, rfl, by decide +kernel, fun e h => by cases h⟩
  · rintro ⟨h, _⟩
    exact h.symm

/-! ### Examples -/

example : ∀ r ∈ twoPaths, Proper demo.lower r := by
  intro r hr
  rw [List.mem_singleton.1 hr]
  refine ⟨by decide +kernel, ?_, by decide +kernel⟩
  have hn : Name s%"id" := ⟨by unfold CookieName; decide +kernel, by decide⟩
  have e1 : pathUri cookieCfg (some s%"/") = .ok (some s%"/") := by decide +kernel
  have e2 : pathUri cookieCfg (some s%"/app") = .ok (some s%"/app") := by decide +kernel
  intro c hc
  simp only [List.mem_cons, List.not_mem_nil, or_false] at hc
  rcases hc with rfl | rfl
  · refine ⟨⟨hn, ⟨fun p h => ?_, fun s h => by cases h⟩, fun _ => ⟨fun n t h => (by cases h), fun t h => (by cases h)⟩⟩, rfl⟩
    have h' : pathUri cookieCfg (some s%"/") = .ok (some p) := h
    rw [e1] at h'; cases h'; decide
  · refine ⟨⟨hn, ⟨fun p h => ?_, fun s h => by cases h⟩, fun _ => ⟨fun n t h => (by cases h), fun t h => (by cases h)⟩⟩, rfl⟩
    have h' : pathUri cookieCfg (some s%"/app") = .ok (some p) := h
    rw [e2] at h'; cases h'; decide

example : twoPaths.foldl (meantAnswer parsedDate) [] =
    [((s%"a.example", b%"/", s%"id"), s%"all", none), ((s%"a.example", b%"/app", s%"id"), s%"part", none)] := by
  decide +kernel

example : Covers b%"/app" b%"/app/x" ∧ ¬ Covers b%"/app" b%"/apple" ∧ Covers b%"/" b%"/app" := by decide +kernel

end Verif.Props.CookiePathsP
