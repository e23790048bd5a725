import Verif.Props.ClientJar
/-!
C152: the cookies that a response sets in the test client (`/repo/verktyg/test.py`).
-/
namespace Verif.Props.ClientJarP
open Verif Verif.CookieText Verif.Spec Verif.Props Verif.Spec.Calendar
open Verif.Props.CookieTextP
open Verif.Props.Resp (demo)
open Verif.ClientJar (Jar Op texts request)

/-! ### Specification -/

/-- Which cookie a call is about: the host of the request, the path, and the name. -/
def about (host : Str) (dflt : Bytes) (esc : Bytes → Bytes) (cfg : Cfg) : Call → Str × Bytes × Str
  | .set a => (host, placeAt dflt esc cfg a.path, a.key)
  | .delete key path _ => (host, placeAt dflt esc cfg path, key)

/-- The value the cookie has after the call, if it is there. -/
def leaves (date : Bytes → Option Int) (now : Int) : Call → Option Str
  | .set a =>
    match meantEnd date now a with
    | some e => if e ≤ now then none else some a.value
    | none => some a.value
  | .delete _ _ _ => none

/-- What calls mean, one after the other, for the cookies of a browser. -/
def inTurn (key : Call → Str × Bytes × Str) (val : Call → Option Str) (m : List ((Str × Bytes × Str) × Str)) (c : Call) :
    List ((Str × Bytes × Str) × Str) :=
  match val c with
  | none => Dict.del m (key c)
  | some v => Dict.set m (key c) v

/-- The calls that remove a cookie come first. -/
def removed (key : Call → Str × Bytes × Str) (val : Call → Option Str) (m : List ((Str × Bytes × Str) × Str)) (c : Call) :
    List ((Str × Bytes × Str) × Str) :=
  match val c with
  | none => Dict.del m (key c)
  | some _ => m

/-- The calls that set a cookie come last. -/
def added (key : Call → Str × Bytes × Str) (val : Call → Option Str) (m : List ((Str × Bytes × Str) × Str)) (c : Call) :
    List ((Str × Bytes × Str) × Str) :=
  match val c with
  | none => m
  | some v => Dict.set m (key c) v

/-- No call removes a cookie that an earlier one of the calls has set. -/
def NoUndo (key : Call → Str × Bytes × Str) (val : Call → Option Str) (cs : List Call) : Prop :=
  cs.Pairwise fun c c' => val c ≠ none → val c' = none → key c ≠ key c'

/-! ### The jar -/

/-- The arguments of a call. -/
def argsOf : Call → Args
  | .set a => a
  | .delete key path domain => { key, expires := some (.stamp 0), maxAge := some (.seconds 0), path, domain }

theorem cookie_call (dflt : Bytes) (esc : Bytes → Bytes) (cfg : Cfg) (date : Bytes → Option Int) (hd : ReadsDates date)
    (now : Int) (host : Str) (c : Call) (s : Str) (hf : Regular cfg c) (hs : dumpCookie cfg (argsOf c) = .ok s) :
    ClientJar.cookieOf esc date now host dflt (headerBytes s) =
      some (keyJ (about host dflt esc cfg c), (leaves date now c).map fun v => Cookie.cookieQuote (Utf8.encode v)) := by
  have hr : Regular cfg (.set (argsOf c)) := by
    cases c with
    | set a => exact hf
    | delete key path domain => exact ⟨hf.1, ⟨hf.2, fun s h => by cases h⟩, fun h => by cases h⟩
  obtain ⟨r1, r2, r3⟩ := read_set dflt esc cfg date hd now (argsOf c) s hr hs
  unfold ClientJar.cookieOf
  rw [r1, Option.map_some, r2, r3]
  cases c with
  | set a =>
    simp only [argsOf, leaves, about, keyJ]
    cases meantEnd date now a with
    | none => rfl
    | some e =>
      simp only
      by_cases h : e ≤ now
      · rw [if_pos h, if_pos h]; rfl
      · rw [if_neg h, if_neg h]; rfl
  | delete key path domain =>
    have e : meantEnd date now { key, expires := some (.stamp 0), maxAge := some (.seconds 0), path, domain } =
      some (now + 0) := rfl
    simp only [argsOf, leaves, about, keyJ, e]
    rw [if_pos (by omega)]
    rfl

/-- The headers a response has after some calls. -/
theorem headers_run (lower : Str → Str) (cfg : Cfg) (calls : List Call) : ∀ h h' : Headers.HList,
    CookieText.run cfg h calls = (h', .ok ()) →
    ∃ ss : List Str, Headers.getlist lower h' s%"Set-Cookie" = Headers.getlist lower h s%"Set-Cookie" ++ ss ∧
      calls.map (fun c => dumpCookie cfg (argsOf c)) = ss.map .ok := by
  induction calls with
  | nil => intro h h' hr; cases hr; exact ⟨[], by simp, rfl⟩
  | cons c cs ih =>
    intro h h' hr
    unfold CookieText.run at hr
    have ha : c.exec cfg h = CookieText.setCookie cfg h (argsOf c) := by cases c <;> rfl
    cases hc : c.exec cfg h with
    | mk h1 r =>
      rw [hc] at hr
      cases r with
      | error e => cases hr
      | ok u =>
        rw [ha] at hc
        obtain ⟨s, hs, rfl⟩ : ∃ s, dumpCookie cfg (argsOf c) = .ok s ∧ h1 = h ++ [(s%"Set-Cookie", s)] := by
          obtain ⟨at', hat, e⟩ := set_ok cfg h h1 (argsOf c) hc
          exact ⟨_, by unfold dumpCookie; rw [hat], e⟩
        obtain ⟨ss, e1, e2⟩ := ih _ h' hr
        refine ⟨s :: ss, ?_, ?_⟩
        · rw [e1]
          simp [Headers.getlist_eq, List.filter_append]
        · rw [List.map_cons, List.map_cons, e2, hs]

theorem cookies_run (dflt : Bytes) (esc : Bytes → Bytes) (cfg : Cfg) (date : Bytes → Option Int) (hd : ReadsDates date)
    (now : Int) (host : Str) (calls : List Call) : ∀ ss : List Str, (∀ c ∈ calls, Regular cfg c) →
    calls.map (fun c => dumpCookie cfg (argsOf c)) = ss.map .ok →
    (ss.map headerBytes).filterMap (ClientJar.cookieOf esc date now host dflt) = calls.map fun c =>
      (keyJ (about host dflt esc cfg c), (leaves date now c).map fun v => Cookie.cookieQuote (Utf8.encode v)) := by
  induction calls with
  | nil => intro ss _ h; cases ss with | nil => rfl | cons s ss => cases h
  | cons c cs ih =>
    intro ss hf h
    cases ss with
    | nil => cases h
    | cons s ss =>
      simp only [List.map_cons, List.cons.injEq] at h
      rw [List.map_cons, List.filterMap_cons, cookie_call dflt esc cfg date hd now host c s (hf c (.head _)) h.1,
        List.map_cons, ih ss (fun c hc => hf c (.tail _ hc)) h.2]

theorem fold_removed (key : Call → Str × Bytes × Str) (val : Call → Option Str) (cs : List Call) :
    ∀ m : List ((Str × Bytes × Str) × Str),
    (cs.map fun c => (keyJ (key c), (val c).map fun v => Cookie.cookieQuote (Utf8.encode v))).foldl
      (fun (j : Jar) c => match c.2 with | none => Dict.del j c.1 | some _ => j) (m.map keptJ) =
      (cs.foldl (removed key val) m).map keptJ := by
  induction cs with
  | nil => intro m; rfl
  | cons c cs ih =>
    intro m
    rw [List.map_cons, List.foldl_cons, List.foldl_cons, ← ih]
    congr 1
    unfold removed
    cases val c with
    | some v => rfl
    | none => exact del_map keyJ keyJ_inj (fun v : Str => Cookie.cookieQuote (Utf8.encode v)) m (key c)

theorem fold_added (key : Call → Str × Bytes × Str) (val : Call → Option Str) (cs : List Call) :
    ∀ m : List ((Str × Bytes × Str) × Str),
    (cs.map fun c => (keyJ (key c), (val c).map fun v => Cookie.cookieQuote (Utf8.encode v))).foldl
      (fun (j : Jar) c => match c.2 with | none => j | some v => Dict.set j c.1 v) (m.map keptJ) =
      (cs.foldl (added key val) m).map keptJ := by
  induction cs with
  | nil => intro m; rfl
  | cons c cs ih =>
    intro m
    rw [List.map_cons, List.foldl_cons, List.foldl_cons, ← ih]
    congr 1
    unfold added
    cases val c with
    | none => rfl
    | some v => exact set_map keyJ keyJ_inj (fun v : Str => Cookie.cookieQuote (Utf8.encode v)) m (key c) v

/-- **C152, the jar.**  A response whose view made any calls of `set_cookie` and `delete_cookie` leaves in the jar what
it had, without the cookies that one of the calls removes, and with those that one of the calls sets, with the last
value. -/
theorem C152_jar (lower : Str → Str) (esc : Bytes → Bytes) (date : Bytes → Option Int) (hd : ReadsDates date)
    (now : Int) (host : Str) (dflt : Bytes) (cfg : Cfg) (page h : Headers.HList) (calls : List Call)
    (hp : Headers.getlist lower page s%"Set-Cookie" = []) (hf : ∀ c ∈ calls, Regular cfg c)
    (hr : CookieText.run cfg page calls = (h, .ok ())) (m : List ((Str × Bytes × Str) × Str)) :
    ClientJar.answer lower esc date now host dflt (m.map fun c =>
        ((c.1.1, c.1.2.1, Utf8.encode c.1.2.2), Cookie.cookieQuote (Utf8.encode c.2))) h =
      (calls.foldl (added (about host dflt esc cfg) (leaves date now))
        (calls.foldl (removed (about host dflt esc cfg) (leaves date now)) m)).map fun c =>
        ((c.1.1, c.1.2.1, Utf8.encode c.1.2.2), Cookie.cookieQuote (Utf8.encode c.2)) := by
  obtain ⟨ss, e1, e2⟩ := headers_run lower cfg calls page h hr
  rw [hp, List.nil_append] at e1
  unfold ClientJar.answer ClientJar.extractAll
  rw [e1, cookies_run dflt esc cfg date hd now host calls ss hf e2]
  have e3 := fold_removed (about host dflt esc cfg) (leaves date now) calls m
  have e4 := fold_added (about host dflt esc cfg) (leaves date now) calls
    (calls.foldl (removed (about host dflt esc cfg) (leaves date now)) m)
  rw [← e3] at e4
  exact e4

/-! ### Calls one after the other -/

theorem get_added (key : Call → Str × Bytes × Str) (val : Call → Option Str) (cs : List Call) :
    ∀ m m' : List ((Str × Bytes × Str) × Str), (∀ k, Dict.get m k = Dict.get m' k) →
    ∀ k, Dict.get (cs.foldl (added key val) m) k = Dict.get (cs.foldl (added key val) m') k := by
  induction cs with
  | nil => intro m m' h; exact h
  | cons c cs ih =>
    intro m m' h
    rw [List.foldl_cons, List.foldl_cons]
    refine ih _ _ fun k => ?_
    unfold added
    cases val c with
    | none => exact h k
    | some v => simp only [Dict.get_set, h]

theorem nodup_removed (key : Call → Str × Bytes × Str) (val : Call → Option Str) (cs : List Call) :
    ∀ m : List ((Str × Bytes × Str) × Str), (Dict.keys m).Nodup → (Dict.keys (cs.foldl (removed key val) m)).Nodup := by
  induction cs with
  | nil => intro m h; exact h
  | cons c cs ih =>
    intro m h
    rw [List.foldl_cons]
    refine ih _ ?_
    unfold removed
    cases val c with
    | none => exact Dict.nodup_del h _
    | some v => exact h

theorem nodup_added (key : Call → Str × Bytes × Str) (val : Call → Option Str) (cs : List Call) :
    ∀ m : List ((Str × Bytes × Str) × Str), (Dict.keys m).Nodup → (Dict.keys (cs.foldl (added key val) m)).Nodup := by
  induction cs with
  | nil => intro m h; exact h
  | cons c cs ih =>
    intro m h
    rw [List.foldl_cons]
    refine ih _ ?_
    unfold added
    cases val c with
    | none => exact h
    | some v => exact Dict.nodup_set h _ _

theorem get_removed (key : Call → Str × Bytes × Str) (val : Call → Option Str) (k0 : Str × Bytes × Str) (v : Str)
    (cs : List Call) (hn : ∀ c ∈ cs, val c = none → k0 ≠ key c) :
    ∀ m m' : List ((Str × Bytes × Str) × Str), (Dict.keys m).Nodup → (Dict.keys m').Nodup →
    (∀ k, Dict.get m' k = if k = k0 then some v else Dict.get m k) →
    ∀ k, Dict.get (cs.foldl (removed key val) m') k =
      if k = k0 then some v else Dict.get (cs.foldl (removed key val) m) k := by
  induction cs with
  | nil => intro m m' _ _ h; exact h
  | cons c cs ih =>
    intro m m' n1 n2 h
    rw [List.foldl_cons, List.foldl_cons]
    have hc := hn c (.head _)
    unfold removed
    cases hv : val c with
    | some w => exact ih (fun c hc => hn c (.tail _ hc)) m m' n1 n2 h
    | none =>
      refine ih (fun c hc => hn c (.tail _ hc)) _ _ (Dict.nodup_del n1 _) (Dict.nodup_del n2 _) fun k => ?_
      rw [Dict.get_del n1, Dict.get_del n2, h]
      by_cases hk : k = key c
      · have : ¬ k = k0 := fun e => hc hv (e.symm.trans hk)
        rw [if_pos hk, if_neg this, if_pos hk]
      · rw [if_neg hk, if_neg hk]

theorem same_turn (key : Call → Str × Bytes × Str) (val : Call → Option Str) (cs : List Call) (hn : NoUndo key val cs) :
    ∀ m : List ((Str × Bytes × Str) × Str), (Dict.keys m).Nodup →
    ∀ k, Dict.get (cs.foldl (added key val) (cs.foldl (removed key val) m)) k =
      Dict.get (cs.foldl (inTurn key val) m) k := by
  induction cs with
  | nil => intro m _ k; rfl
  | cons c cs ih =>
    intro m nd k
    obtain ⟨h1, h2⟩ := List.pairwise_cons.1 hn
    simp only [List.foldl_cons]
    cases hv : val c with
    | none =>
      have e1 : removed key val m c = Dict.del m (key c) := by unfold removed; rw [hv]
      have e2 : inTurn key val m c = Dict.del m (key c) := by unfold inTurn; rw [hv]
      have e3 : ∀ x, added key val x c = x := by intro x; unfold added; rw [hv]
      rw [e1, e2, e3]
      exact ih h2 _ (Dict.nodup_del nd _) k
    | some v =>
      have e1 : removed key val m c = m := by unfold removed; rw [hv]
      have e2 : inTurn key val m c = Dict.set m (key c) v := by unfold inTurn; rw [hv]
      have e3 : ∀ x, added key val x c = Dict.set x (key c) v := by intro x; unfold added; rw [hv]
      rw [e1, e2, e3, ← ih h2 _ (Dict.nodup_set nd _ _) k]
      refine get_added key val cs _ _ (fun x => ?_) k
      rw [get_removed key val (key c) v cs (fun c' hc' hv' => h1 c' hc' (by rw [hv]; simp) hv') m _ nd
        (Dict.nodup_set nd _ _) (fun y => Dict.get_set _ _ _ _), Dict.get_set]

theorem names_calls (host : Str) (dflt : Bytes) (esc : Bytes → Bytes) (cfg : Cfg) (val : Call → Option Str)
    (cs : List Call) (hf : ∀ c ∈ cs, Regular cfg c) : ∀ m : List ((Str × Bytes × Str) × Str),
    (∀ c ∈ m, CookieName (Utf8.encode c.1.2.2)) →
    (∀ c ∈ cs.foldl (removed (about host dflt esc cfg) val) m, CookieName (Utf8.encode c.1.2.2)) ∧
    ∀ c ∈ cs.foldl (added (about host dflt esc cfg) val) m, CookieName (Utf8.encode c.1.2.2) := by
  induction cs with
  | nil => intro m h; exact ⟨h, h⟩
  | cons c cs ih =>
    intro m h
    rw [List.foldl_cons, List.foldl_cons]
    have hc : CookieName (Utf8.encode (about host dflt esc cfg c).2.2) := by
      have := hf c (.head _)
      cases c with
      | set a => exact this.1.1
      | delete key path domain => exact this.1.1
    refine ⟨(ih (fun c hc => hf c (.tail _ hc)) _ ?_).1, (ih (fun c hc => hf c (.tail _ hc)) _ ?_).2⟩
    · unfold removed
      cases val c with
      | none => exact fun x hx => h x (mem_del hx)
      | some v => exact h
    · unfold added
      cases val c with
      | none => exact h
      | some v =>
        intro x hx
        rcases mem_set hx with rfl | hx
        · exact hc
        · exact h x hx

/-- **C152, the next request.**  Where a view does not remove a cookie that it has set for the same response, the next
request has a cookie exactly for the names that a browser would have kept, by host, path and name, after the calls one
after the other, each with a value that it would have.  Missing: a cookie that is set and removed for one response
(`C152_undo_false`). -/
theorem C152_next_partial (lower : Str → Str) (esc : Bytes → Bytes) (date : Bytes → Option Int) (hd : ReadsDates date)
    (now : Int) (host : Str) (dflt : Bytes) (cfg : Cfg) (page h : Headers.HList) (calls : List Call)
    (hp : Headers.getlist lower page s%"Set-Cookie" = []) (hf : ∀ c ∈ calls, Regular cfg c)
    (hr : CookieText.run cfg page calls = (h, .ok ())) (m : List ((Str × Bytes × Str) × Str))
    (hm : (Dict.keys m).Nodup) (hk : ∀ c ∈ m, CookieName (Utf8.encode c.1.2.2))
    (hu : NoUndo (about host dflt esc cfg) (leaves date now) calls)
    (environ : List (Str × Str)) (he : Dict.get environ s%"HTTP_COOKIE" = none) (order : Jar)
    (ho : List.Perm order (ClientJar.answer lower esc date now host dflt (m.map fun c =>
      ((c.1.1, c.1.2.1, Utf8.encode c.1.2.2), Cookie.cookieQuote (Utf8.encode c.2))) h)) :
    ∃ d, requestCookies (request order environ) = .ok d ∧ ∀ name,
      (Dict.get d name = none ↔ ∀ host' path,
        Dict.get (calls.foldl (inTurn (about host dflt esc cfg) (leaves date now)) m) (host', path, name) = none) ∧
      ∀ v, Dict.get d name = some v → ∃ host' path,
        Dict.get (calls.foldl (inTurn (about host dflt esc cfg) (leaves date now)) m) (host', path, name) = some v := by
  rw [C152_jar lower esc date hd now host dflt cfg page h calls hp hf hr m] at ho
  have n1 := nodup_removed (about host dflt esc cfg) (leaves date now) calls m hm
  have n2 := nodup_added (about host dflt esc cfg) (leaves date now) calls _ n1
  have k1 := (names_calls host dflt esc cfg (leaves date now) calls hf m hk).1
  have k2 := (names_calls host dflt esc cfg (leaves date now) calls hf _ k1).2
  obtain ⟨d, d1, d2, d3⟩ := seen_any _ k2 environ he order ho
  have hs := same_turn (about host dflt esc cfg) (leaves date now) calls hu m hm
  refine ⟨d, d1, fun name => ⟨?_, fun v hv => ?_⟩⟩
  · rw [d2]
    constructor
    · intro h host' path
      rw [← hs]
      cases hg : Dict.get (calls.foldl (added (about host dflt esc cfg) (leaves date now))
          (calls.foldl (removed (about host dflt esc cfg) (leaves date now)) m)) (host', path, name) with
      | none => rfl
      | some v => exact absurd rfl (h _ (Dict.mem_of_get hg))
    · intro h c hc e
      obtain ⟨⟨h1, p1, x⟩, v⟩ := c
      simp only at e
      subst e
      have := h h1 p1
      rw [← hs, Dict.get_of_mem n2 hc] at this
      cases this
  · obtain ⟨host', path, h⟩ := d3 name v hv
    exact ⟨host', path, by rw [← hs]; exact Dict.get_of_mem n2 h⟩

/-! ### Whole histories -/

/-- What happens to a client: a call of `set_cookie` or `delete_cookie` on it, or a response of the application, for a
request to `host` whose path gives `dflt`, for which a view made some calls on a response with the headers `page`. -/
inductive Event where
  | call (op : Op)
  | response (now : Int) (host : Str) (dflt : Bytes) (cfg : Cfg) (page : Headers.HList) (calls : List Call)

/-- What it does to the jar. -/
def happen (lower : Str → Str) (esc : Bytes → Bytes) (date : Bytes → Option Int) (jar : Jar) : Event → Jar
  | .call op => ClientJar.step esc date jar op
  | .response now host dflt cfg page calls =>
    ClientJar.answer lower esc date now host dflt jar (CookieText.run cfg page calls).1

/-- What it means for the cookies, the calls of a view one after the other. -/
def meantEvent (esc : Bytes → Bytes) (date : Bytes → Option Int) (m : List ((Str × Bytes × Str) × Str)) :
    Event → List ((Str × Bytes × Str) × Str)
  | .call op => meantJar esc date m op
  | .response now host dflt cfg _ calls => calls.foldl (inTurn (about host dflt esc cfg) (leaves date now)) m

/-- Nothing raises, names are proper, and no view removes a cookie that it has set for the same response. -/
def FineEvent (lower : Str → Str) (esc : Bytes → Bytes) (date : Bytes → Option Int) : Event → Prop
  | .call op => Fine op
  | .response now host dflt cfg page calls => Headers.getlist lower page s%"Set-Cookie" = [] ∧
      (∀ c ∈ calls, Regular cfg c) ∧ (CookieText.run cfg page calls).2 = .ok () ∧
      NoUndo (about host dflt esc cfg) (leaves date now) calls

theorem get_inTurn (key : Call → Str × Bytes × Str) (val : Call → Option Str) (cs : List Call) :
    ∀ m m' : List ((Str × Bytes × Str) × Str), (Dict.keys m).Nodup → (Dict.keys m').Nodup →
    (∀ k, Dict.get m k = Dict.get m' k) →
    (Dict.keys (cs.foldl (inTurn key val) m')).Nodup ∧
    ∀ k, Dict.get (cs.foldl (inTurn key val) m) k = Dict.get (cs.foldl (inTurn key val) m') k := by
  induction cs with
  | nil => intro m m' _ n h; exact ⟨n, h⟩
  | cons c cs ih =>
    intro m m' n n' h
    rw [List.foldl_cons, List.foldl_cons]
    unfold inTurn
    cases val c with
    | none =>
      exact ih _ _ (Dict.nodup_del n _) (Dict.nodup_del n' _) fun k => by
        simp only [Dict.get_del n, Dict.get_del n', h]
    | some v =>
      exact ih _ _ (Dict.nodup_set n _ _) (Dict.nodup_set n' _ _) fun k => by simp only [Dict.get_set, h]

theorem get_meantJar (esc : Bytes → Bytes) (date : Bytes → Option Int) (op : Op)
    (m m' : List ((Str × Bytes × Str) × Str)) (n : (Dict.keys m).Nodup) (n' : (Dict.keys m').Nodup)
    (h : ∀ k, Dict.get m k = Dict.get m' k) :
    (Dict.keys (meantJar esc date m op)).Nodup ∧ (Dict.keys (meantJar esc date m' op)).Nodup ∧
    ∀ k, Dict.get (meantJar esc date m op) k = Dict.get (meantJar esc date m' op) k := by
  have hd : ∀ x, (Dict.keys (Dict.del m x)).Nodup ∧ (Dict.keys (Dict.del m' x)).Nodup ∧
      ∀ k, Dict.get (Dict.del m x) k = Dict.get (Dict.del m' x) k := fun x =>
    ⟨Dict.nodup_del n _, Dict.nodup_del n' _, fun k => by rw [Dict.get_del n, Dict.get_del n', h]⟩
  have hs : ∀ x v, (Dict.keys (Dict.set m x v)).Nodup ∧ (Dict.keys (Dict.set m' x v)).Nodup ∧
      ∀ k, Dict.get (Dict.set m x v) k = Dict.get (Dict.set m' x v) k := fun x v =>
    ⟨Dict.nodup_set n _ _, Dict.nodup_set n' _ _, fun k => by rw [Dict.get_set, Dict.get_set, h]⟩
  cases op with
  | delete host cfg key path => exact hd _
  | set host cfg a =>
    simp only [meantJar]
    cases meantEnd date cfg.now a with
    | none => exact hs _ _
    | some e =>
      simp only
      by_cases h : e ≤ cfg.now
      · simp only [if_pos h]; exact hd _
      · simp only [if_neg h]; exact hs _ _

theorem names_step (esc : Bytes → Bytes) (date : Bytes → Option Int) (op : Op) (hf : Fine op)
    (m : List ((Str × Bytes × Str) × Str)) (h : ∀ c ∈ m, CookieName (Utf8.encode c.1.2.2)) :
    ∀ c ∈ meantJar esc date m op, CookieName (Utf8.encode c.1.2.2) := by
  cases op with
  | delete host cfg key path => exact fun c hc => h c (mem_del hc)
  | set host cfg a =>
    have hs : ∀ c ∈ Dict.set m (host, place esc cfg a.path, a.key) a.value, CookieName (Utf8.encode c.1.2.2) := by
      intro c hc
      rcases mem_set hc with rfl | hc
      · exact hf.1.1.1
      · exact h c hc
    simp only [meantJar]
    intro c hc
    split at hc
    · split at hc
      · exact h c (mem_del hc)
      · exact hs c hc
    · exact hs c hc

theorem history (lower : Str → Str) (esc : Bytes → Bytes) (date : Bytes → Option Int) (hd : ReadsDates date)
    (events : List Event) : (∀ e ∈ events, FineEvent lower esc date e) →
    ∀ m m' : List ((Str × Bytes × Str) × Str), (Dict.keys m).Nodup → (Dict.keys m').Nodup →
    (∀ c ∈ m, CookieName (Utf8.encode c.1.2.2)) → (∀ k, Dict.get m k = Dict.get m' k) →
    ∃ m₁ : List ((Str × Bytes × Str) × Str),
      events.foldl (happen lower esc date) (m.map keptJ) = m₁.map keptJ ∧ (Dict.keys m₁).Nodup ∧
      (∀ c ∈ m₁, CookieName (Utf8.encode c.1.2.2)) ∧
      ∀ k, Dict.get m₁ k = Dict.get (events.foldl (meantEvent esc date) m') k := by
  induction events with
  | nil => intro _ m m' n _ hc h; exact ⟨m, rfl, n, hc, h⟩
  | cons e es ih =>
    intro hf m m' n n' hc h
    have he := hf e (.head _)
    rw [List.foldl_cons, List.foldl_cons]
    cases e with
    | call op =>
      obtain ⟨g1, g2, g3⟩ := get_meantJar esc date op m m' n n' h
      rw [show happen lower esc date (m.map keptJ) (.call op) = _ from step_ok esc date hd m op he]
      exact ih (fun e hm => hf e (.tail _ hm)) _ _ g1 g2 (names_step esc date op he m hc) g3
    | response now host dflt cfg page calls =>
      obtain ⟨f1, f2, f3, f4⟩ := he
      have hr : CookieText.run cfg page calls = ((CookieText.run cfg page calls).1, .ok ()) := Prod.ext rfl f3
      have hj := C152_jar lower esc date hd now host dflt cfg page _ calls f1 f2 hr m
      have n1 := nodup_removed (about host dflt esc cfg) (leaves date now) calls m n
      have k1 := (names_calls host dflt esc cfg (leaves date now) calls f2 m hc).1
      obtain ⟨g1, g2⟩ := get_inTurn (about host dflt esc cfg) (leaves date now) calls m m' n n' h
      rw [show happen lower esc date (m.map keptJ) (.response now host dflt cfg page calls) = _ from hj]
      exact ih (fun e hm => hf e (.tail _ hm)) _ _ (nodup_added _ _ calls _ n1) g1
        (names_calls host dflt esc cfg (leaves date now) calls f2 _ k1).2
        fun k => (same_turn _ _ calls f4 m n k).trans (g2 k)

/-- **C152, whole histories.**  After any calls on the client and any responses, in any order and whatever the views
made their calls depend on, the next request has a cookie exactly for the names for which some host and path is meant to
have one, each with a value that is meant.  Missing: as for `C152_next_partial`. -/
theorem C152_history_partial (lower : Str → Str) (esc : Bytes → Bytes) (date : Bytes → Option Int) (hd : ReadsDates date)
    (events : List Event) (hf : ∀ e ∈ events, FineEvent lower esc date e)
    (environ : List (Str × Str)) (he : Dict.get environ s%"HTTP_COOKIE" = none) (order : Jar)
    (ho : List.Perm order (events.foldl (happen lower esc date) [])) :
    ∃ d, requestCookies (request order environ) = .ok d ∧ ∀ name,
      (Dict.get d name = none ↔ ∀ host path,
        Dict.get (events.foldl (meantEvent esc date) []) (host, path, name) = none) ∧
      ∀ v, Dict.get d name = some v → ∃ host path,
        Dict.get (events.foldl (meantEvent esc date) []) (host, path, name) = some v := by
  obtain ⟨m, h1, h2, h3, h4⟩ := history lower esc date hd events hf [] [] List.nodup_nil List.nodup_nil
    (fun c hc => by cases hc) (fun k => rfl)
  rw [show events.foldl (happen lower esc date) [] = _ from h1] at ho
  obtain ⟨d, d1, d2, d3⟩ := seen_any _ h3 environ he order ho
  refine ⟨d, d1, fun name => ⟨?_, fun v hv => ?_⟩⟩
  · rw [d2]
    constructor
    · intro h host path
      rw [← h4]
      cases hg : Dict.get m (host, path, name) with
      | none => rfl
      | some v => exact absurd rfl (h _ (Dict.mem_of_get hg))
    · intro h c hc e
      obtain ⟨⟨host, path, x⟩, v⟩ := c
      simp only at e
      subst e
      have := h host path
      rw [← h4, Dict.get_of_mem h2 hc] at this
      cases this
  · obtain ⟨host, path, h⟩ := d3 name v hv
    exact ⟨host, path, by rw [← h4]; exact Dict.get_of_mem h2 h⟩

/-! ### Where it differs from a browser -/

/-- **C152 fails** for a view that sets a cookie and then removes it: a browser has it no more, the client keeps it. -/
theorem C152_undo_false : ∃ h,
    CookieText.run cookieCfg [] [.set { key := s%"id", value := s%"1" }, .delete s%"id" (some s%"/") none] =
      (h, .ok ()) ∧
    requestCookies (request (ClientJar.answer demo.lower id parsedDate cookieCfg.now s%"a.example" b%"/" [] h) []) =
      .ok [(s%"id", s%"1")] ∧
    [Call.set { key := s%"id", value := s%"1" }, .delete s%"id" (some s%"/") none].foldl
      (inTurn (about s%"a.example" b%"/" id cookieCfg) (leaves parsedDate cookieCfg.now)) [] = [] ∧
    ((Headers.getlist demo.lower h s%"Set-Cookie").map headerBytes).foldl
      (Agent.accept parsedDate cookieCfg.now) [] = [] :=
  ⟨(CookieText.run cookieCfg [] [.set { key := s%"id", value := s%"1" }, .delete s%"id" (some s%"/") none]).1,
    by decide +kernel, by decide +kernel, by decide +kernel, by decide +kernel⟩

/-- One header at a time, reading all headers is reading each. -/
theorem C152_single (esc : Bytes → Bytes) (date : Bytes → Option Int) (now : Int) (host : Str) (dflt : Bytes) (jar : Jar)
    (header : Bytes) : ClientJar.extractAll esc date now host dflt jar [header] =
      ClientJar.extract esc date now host dflt jar header := by
  unfold ClientJar.extractAll ClientJar.extract
  simp only [List.filterMap_cons, List.filterMap_nil]
  unfold ClientJar.cookieOf
  cases Agent.pairOf header with
  | none => rfl
  | some p =>
    cases Agent.ends date now header with
    | none => rfl
    | some e =>
      by_cases h : e ≤ now
      · simp [h]
      · simp [h]

/-! ### Examples -/

example : NoUndo (about s%"a.example" b%"/" id cookieCfg) (leaves parsedDate cookieCfg.now)
    [.delete s%"id" (some s%"/") none, .set { key := s%"id", value := s%"1" }, .set { key := s%"n", value := s%"ü" },
     .delete s%"x" (some s%"/") none] := by
  unfold NoUndo; decide +kernel

example : (CookieText.run cookieCfg [(s%"Content-Type", s%"text/plain")] [.delete s%"id" (some s%"/") none,
    .set { key := s%"id", value := s%"1" }, .set { key := s%"n", value := s%"ü" }]).2 = .ok () := by decide +kernel

example : FineEvent demo.lower id parsedDate (.response cookieCfg.now s%"a.example" b%"/" cookieCfg
    [(s%"Content-Type", s%"text/plain")] [.delete s%"id" (some s%"/") none]) := by
  refine ⟨by decide +kernel, ?_, by decide +kernel, by unfold NoUndo; decide +kernel⟩
  intro c hc
  rw [List.mem_singleton.1 hc]
  refine ⟨⟨by unfold CookieName; decide +kernel, by decide⟩, ?_⟩
  intro p h
  have e : pathUri cookieCfg (some s%"/") = .ok (some s%"/") := by decide +kernel
  rw [e] at h; cases h; decide

end Verif.Props.ClientJarP
