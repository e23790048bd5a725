import Verif.Model.ClientJar
import Verif.Props.CookieSession
/-!
C151: the cookies of the test client (`/repo/verktyg/test.py`).
-/
namespace Verif.Props.ClientJarP
open Verif Verif.CookieText Verif.Spec Verif.Props Verif.Spec.Calendar
open Verif.Props.CookieTextP
open Verif.ClientJar (Jar Op texts request)

/-! ### Specification -/

/-- Where a call puts the cookie: what the jar makes of the path, or of `dflt` where none is given. -/
def placeAt (dflt : Bytes) (esc : Bytes → Bytes) (cfg : Cfg) (path : Option Str) : Bytes :=
  match pathUri cfg path with
  | .ok (some p) => esc (Agent.trim (Utf8.encode p))
  | _ => esc dflt

/-- The same for a call on the client. -/
def place : (Bytes → Bytes) → Cfg → Option Str → Bytes := placeAt b%"/"

/-- What a call means for the cookies, by host, path and name: set, unless it ends at once, or removed. -/
def meantJar (esc : Bytes → Bytes) (date : Bytes → Option Int) (m : List ((Str × Bytes × Str) × Str)) : Op → List ((Str × Bytes × Str) × Str)
  | .set host cfg a =>
    match meantEnd date cfg.now a with
    | some e => if e ≤ cfg.now then Dict.del m (host, place esc cfg a.path, a.key)
      else Dict.set m (host, place esc cfg a.path, a.key) a.value
    | none => Dict.set m (host, place esc cfg a.path, a.key) a.value
  | .delete host cfg key path => Dict.del m (host, place esc cfg path, key)

/-- The same by name alone. -/
def meantOne (date : Bytes → Option Int) (m : List (Str × Str)) : Op → List (Str × Str)
  | .set _ cfg a =>
    match meantEnd date cfg.now a with
    | some e => if e ≤ cfg.now then Dict.del m a.key else Dict.set m a.key a.value
    | none => Dict.set m a.key a.value
  | .delete _ _ key _ => Dict.del m key

/-- A call that is made with a proper name, whose path and dates are written without `;`, that gives no domain, and
that does not raise. -/
def Fine : Op → Prop
  | .set _ cfg a => Regular cfg (.set a) ∧ a.domain = none ∧ ∃ s, dumpCookie cfg a = .ok s
  | .delete _ cfg key path => Regular cfg (.delete key path none) ∧
      ∃ s, dumpCookie cfg { key, expires := some (.stamp 0), maxAge := some (.seconds 0), path } = .ok s

/-- The host and the path of a call. -/
def site (esc : Bytes → Bytes) : Op → Str × Bytes
  | .set host cfg a => (host, place esc cfg a.path)
  | .delete host cfg _ path => (host, place esc cfg path)

/-! ### The jar -/

theorem set_map {κ κ' β β' : Type} [DecidableEq κ] [DecidableEq κ'] (f : κ → κ') (hf : ∀ a b, f a = f b → a = b)
    (g : β → β') (m : List (κ × β)) (k : κ) (v : β) :
    Dict.set (m.map fun p => (f p.1, g p.2)) (f k) (g v) = (Dict.set m k v).map fun p => (f p.1, g p.2) := by
  induction m with
  | nil => rfl
  | cons p m ih =>
    obtain ⟨x, y⟩ := p
    simp only [List.map_cons, Dict.set]
    by_cases h : x = k
    · subst h; rw [if_pos rfl, if_pos rfl]; rfl
    · rw [if_neg fun e => h (hf _ _ e), if_neg h, List.map_cons, ih]

theorem del_map {κ κ' β β' : Type} [DecidableEq κ] [DecidableEq κ'] (f : κ → κ') (hf : ∀ a b, f a = f b → a = b)
    (g : β → β') (m : List (κ × β)) (k : κ) :
    Dict.del (m.map fun p => (f p.1, g p.2)) (f k) = (Dict.del m k).map fun p => (f p.1, g p.2) := by
  induction m with
  | nil => rfl
  | cons p m ih =>
    obtain ⟨x, y⟩ := p
    simp only [List.map_cons, Dict.del]
    by_cases h : x = k
    · subst h; rw [if_pos rfl, if_pos rfl]
    · rw [if_neg fun e => h (hf _ _ e), if_neg h, List.map_cons, ih]

/-- The key of a cookie as the jar keeps it. -/
def keyJ (k : Str × Bytes × Str) : Str × Bytes × Bytes := (k.1, k.2.1, Utf8.encode k.2.2)

/-- A cookie as the jar keeps it. -/
def keptJ (c : (Str × Bytes × Str) × Str) : (Str × Bytes × Bytes) × Bytes := (keyJ c.1, Cookie.cookieQuote (Utf8.encode c.2))

theorem keyJ_inj (a b : Str × Bytes × Str) (h : keyJ a = keyJ b) : a = b := by
  obtain ⟨a1, a2, a3⟩ := a
  obtain ⟨b1, b2, b3⟩ := b
  simp only [keyJ, Prod.mk.injEq] at h
  obtain ⟨rfl, rfl, h⟩ := h
  rw [encode_inj h]

/-- What the jar reads of a cookie that was written. -/
theorem read_set (dflt : Bytes) (esc : Bytes → Bytes) (cfg : Cfg) (date : Bytes → Option Int) (hd : ReadsDates date) (now : Int) (a : Args) (s : Str)
    (hf : Regular cfg (.set a)) (hs : dumpCookie cfg a = .ok s) :
    Agent.pairOf (headerBytes s) = some (Utf8.encode a.key, Cookie.cookieQuote (Utf8.encode a.value)) ∧
    esc ((Agent.attr b%"path" (headerBytes s)).getD dflt) = placeAt dflt esc cfg a.path ∧
    Agent.ends date now (headerBytes s) = meantEnd date now a := by
  obtain ⟨hn, hp, hx⟩ := hf
  unfold dumpCookie at hs
  cases hat : attrsOf cfg a with
  | error e => rw [hat] at hs; cases hs
  | ok at' =>
  rw [hat] at hs
  rw [← Except.ok.inj hs, headerBytes_latin1]
  have h59 : 59 ∉ Utf8.encode a.key := not_mem_encode (c := ';') (by decide) hn.2
  obtain ⟨p1, p2, p3⟩ := attrs_plain cfg a at' hat hp
  obtain ⟨g1, g2, _, g4, _⟩ := attr_age (Utf8.encode a.key) (Utf8.encode a.value) at' h59 p1 p2 p3
  obtain ⟨pa, _, x, hpa, _, hxt, e⟩ := attrs_ok cfg a at' hat
  refine ⟨pair_read _ _ at' hn.1 h59, ?_, ?_⟩
  · rw [g4, e]
    unfold placeAt
    rw [hpa]
    cases pa <;> rfl
  · unfold Agent.ends
    rw [g1, g2]
    subst e
    simp only
    unfold meantEnd
    cases ha : a.maxAge with
    | some n => simp only [Option.map_some, Option.bind_some, (number_int _).2.1, (number_int _).1, total_seconds]
    | none =>
      simp only [Option.map_none, Option.bind_none]
      unfold expiresText at hxt
      obtain ⟨hx1, hx2⟩ := hx ha
      cases hb : a.expires with
      | none =>
        rw [hb, ha] at hxt
        rw [← Except.ok.inj hxt]; rfl
      | some b =>
        rw [hb] at hxt hx1 hx2
        cases b with
        | text s => rw [← Except.ok.inj hxt]; rfl
        | stamp n =>
          simp only [stampText] at hxt
          cases hg : Date.gmtime n with
          | none => rw [hg] at hxt; cases hxt
          | some t =>
            rw [hg] at hxt
            rw [← Except.ok.inj hxt]
            obtain ⟨v1, v2⟩ := DateP.total_ofTotal _ t hg
            simp only [Option.map_some, Option.bind_some, date_trim]
            rw [hd t v1 (hx1 n t rfl hg), DateP.epoch_total t v1, v2]
            congr 1; omega
        | time t =>
          obtain ⟨v1, v2⟩ := hx2 t rfl
          rw [← Except.ok.inj hxt]
          simp only [Option.map_some, Option.bind_some, date_trim]
          exact hd t v1 v2

theorem step_set (esc : Bytes → Bytes) (date : Bytes → Option Int) (hd : ReadsDates date) (m : List ((Str × Bytes × Str) × Str)) (host : Str)
    (cfg : Cfg) (a : Args) (hf : Regular cfg (.set a)) (hs : ∃ s, dumpCookie cfg a = .ok s) :
    (ClientJar.setCookie esc date (m.map keptJ) host cfg a).1 = (meantJar esc date m (.set host cfg a)).map keptJ := by
  obtain ⟨s, hs⟩ := hs
  obtain ⟨r1, r2, r3⟩ := read_set b%"/" esc cfg date hd cfg.now a s hf hs
  unfold ClientJar.setCookie
  rw [hs]
  simp only [ClientJar.extract, r1, r2, r3, meantJar]
  have e1 := set_map keyJ keyJ_inj (fun v => Cookie.cookieQuote (Utf8.encode v)) m (host, place esc cfg a.path, a.key) a.value
  have e2 := del_map keyJ keyJ_inj (fun v : Str => Cookie.cookieQuote (Utf8.encode v)) m (host, place esc cfg a.path, a.key)
  cases meantEnd date cfg.now a with
  | none => exact e1
  | some e =>
    simp only
    by_cases h : e ≤ cfg.now
    · rw [if_pos h, if_pos h]; exact e2
    · rw [if_neg h, if_neg h]; exact e1

theorem step_ok (esc : Bytes → Bytes) (date : Bytes → Option Int) (hd : ReadsDates date) (m : List ((Str × Bytes × Str) × Str)) (op : Op)
    (hf : Fine op) : ClientJar.step esc date (m.map keptJ) op = (meantJar esc date m op).map keptJ := by
  cases op with
  | set host cfg a => exact step_set esc date hd m host cfg a hf.1 hf.2.2
  | delete host cfg key path =>
    obtain ⟨⟨hn, hp⟩, hs⟩ := hf
    have := step_set esc date hd m host cfg { key, expires := some (.stamp 0), maxAge := some (.seconds 0), path }
      ⟨hn, ⟨hp, fun s h => by cases h⟩, fun h => by cases h⟩ hs
    have e : meantEnd date cfg.now { key, expires := some (.stamp 0), maxAge := some (.seconds 0), path } =
      some (cfg.now + 0) := rfl
    simp only [meantJar, e] at this
    rw [if_pos (by omega)] at this
    exact this

/-- **C151, the jar.**  After any calls of `set_cookie` and `delete_cookie`, for any hosts and paths, the jar of the
client has exactly the cookies that were set and not deleted since, each under its host, path and name. -/
theorem C151_jar (esc : Bytes → Bytes) (date : Bytes → Option Int) (hd : ReadsDates date) (ops : List Op) (hf : ∀ op ∈ ops, Fine op) :
    ClientJar.run esc date ops = (ops.foldl (meantJar esc date) []).map fun c =>
      ((c.1.1, c.1.2.1, Utf8.encode c.1.2.2), Cookie.cookieQuote (Utf8.encode c.2)) := by
  suffices ∀ m, ops.foldl (ClientJar.step esc date) (m.map keptJ) = (ops.foldl (meantJar esc date) m).map keptJ from this []
  induction ops with
  | nil => intro m; rfl
  | cons op ops ih =>
    intro m
    rw [List.foldl_cons, List.foldl_cons, step_ok esc date hd m op (hf op (by simp))]
    exact ih (fun o ho => hf o (by simp [ho])) _

/-! ### What the application sees -/

theorem mem_set {κ β : Type} [DecidableEq κ] {m : List (κ × β)} {k : κ} {v : β} {p : κ × β} (h : p ∈ Dict.set m k v) :
    p = (k, v) ∨ p ∈ m := by
  induction m with
  | nil => simp [Dict.set] at h; exact Or.inl h
  | cons q m ih =>
    obtain ⟨x, y⟩ := q
    simp only [Dict.set] at h
    split at h
    · rename_i hx
      rcases List.mem_cons.1 h with h | h
      · left; rw [h, hx]
      · exact Or.inr (List.mem_cons_of_mem _ h)
    · rcases List.mem_cons.1 h with h | h
      · right; rw [h]; exact List.mem_cons_self
      · rcases ih h with h | h
        · exact Or.inl h
        · exact Or.inr (List.mem_cons_of_mem _ h)

theorem mem_del {κ β : Type} [DecidableEq κ] {m : List (κ × β)} {k : κ} {p : κ × β} (h : p ∈ Dict.del m k) : p ∈ m := by
  induction m with
  | nil => exact h
  | cons q m ih =>
    obtain ⟨x, y⟩ := q
    simp only [Dict.del] at h
    split at h
    · exact List.mem_cons_of_mem _ h
    · rcases List.mem_cons.1 h with h | h
      · rw [h]; exact List.mem_cons_self
      · exact List.mem_cons_of_mem _ (ih h)

theorem names_meant (esc : Bytes → Bytes) (date : Bytes → Option Int) (ops : List Op) (hf : ∀ op ∈ ops, Fine op) :
    ∀ c ∈ ops.foldl (meantJar esc date) [], CookieName (Utf8.encode c.1.2.2) := by
  suffices ∀ m : List ((Str × Bytes × Str) × Str), (∀ c ∈ m, CookieName (Utf8.encode c.1.2.2)) →
      ∀ c ∈ ops.foldl (meantJar esc date) m, CookieName (Utf8.encode c.1.2.2) from this [] (by simp)
  induction ops with
  | nil => intro m h; exact h
  | cons op ops ih =>
    intro m h
    rw [List.foldl_cons]
    refine ih (fun o ho => hf o (by simp [ho])) _ ?_
    intro c hc
    have hop := hf op (by simp)
    cases op with
    | set host cfg a =>
      have hs : ∀ c ∈ Dict.set m (host, place esc cfg a.path, a.key) a.value, CookieName (Utf8.encode c.1.2.2) := by
        intro c hc
        rcases mem_set hc with rfl | hc
        · exact hop.1.1.1
        · exact h c hc
      simp only [meantJar] at hc
      split at hc
      · split at hc
        · exact h c (mem_del hc)
        · exact hs c hc
      · exact hs c hc
    | delete host cfg key path => exact h c (mem_del hc)

theorem get_fold (m : List (Str × Str)) (k : Str) : ∀ d : List (Str × Str),
    (∀ v, Dict.get (m.foldl (fun d p => Dict.set d p.1 p.2) d) k = some v → (k, v) ∈ m ∨ Dict.get d k = some v) ∧
    (Dict.get (m.foldl (fun d p => Dict.set d p.1 p.2) d) k = none ↔ (∀ p ∈ m, p.1 ≠ k) ∧ Dict.get d k = none) := by
  induction m with
  | nil => intro d; exact ⟨fun v h => Or.inr h, by simp⟩
  | cons p m ih =>
    intro d
    obtain ⟨h1, h2⟩ := ih (Dict.set d p.1 p.2)
    rw [List.foldl_cons]
    refine ⟨fun v hv => ?_, ?_⟩
    · rcases h1 v hv with h | h
      · exact Or.inl (List.mem_cons_of_mem _ h)
      · rw [Dict.get_set] at h
        split at h
        · rename_i hk
          left
          rw [hk, ← Option.some.inj h]
          exact List.mem_cons_self
        · exact Or.inr h
    · rw [h2, Dict.get_set]
      by_cases hk : k = p.1
      · rw [if_pos hk]
        constructor
        · rintro ⟨_, h⟩; cases h
        · rintro ⟨h, _⟩; exact absurd hk.symm (h p List.mem_cons_self)
      · rw [if_neg hk]
        constructor
        · rintro ⟨h, hd⟩
          exact ⟨fun q hq => by
            rcases List.mem_cons.1 hq with rfl | hq
            · exact fun e => hk e.symm
            · exact h q hq, hd⟩
        · rintro ⟨h, hd⟩
          exact ⟨fun q hq => h q (List.mem_cons_of_mem _ hq), hd⟩

theorem line_text (l : List (Bytes × Bytes)) : Py.join s%"; " ((l.map fun p => (Utf8.latin1 p.1, Utf8.latin1 p.2)).map
    fun c => c.1 ++ s%"=" ++ c.2) = Utf8.latin1 (Agent.cookieLine l) := by
  induction l with
  | nil => rfl
  | cons p l ih =>
    cases l with
    | nil => simp [Agent.cookieLine, Py.join, Utf8.latin1]
    | cons q l =>
      simp only [Agent.cookieLine, List.map_cons, Py.join] at ih ⊢
      rw [ih]
      simp [Utf8.latin1]

/-- What is seen of some cookies, in the order in which the jar goes through them. -/
theorem seen_order (environ : List (Str × Str)) (he : Dict.get environ s%"HTTP_COOKIE" = none)
    (m : List ((Str × Bytes × Str) × Str)) (hk : ∀ c ∈ m, CookieName (Utf8.encode c.1.2.2)) :
    requestCookies (request (m.map keptJ) environ) =
      .ok ((m.map fun c => (c.1.2.2, c.2)).foldl (fun d p => Dict.set d p.1 p.2) []) := by
  refine C125_sent _ (m.map fun c => (c.1.2.2, c.2)) ?_ ?_
  · intro p hp
    obtain ⟨c, hc, rfl⟩ := List.mem_map.1 hp
    exact hk c hc
  · unfold request texts injectWsgi
    cases m with
    | nil => simp only [List.map_nil, if_true, he]; rfl
    | cons c m =>
      rw [if_neg (by simp), Dict.get_set, if_pos rfl, ← line_text, Option.getD_some]
      simp only [List.map_map, Function.comp_def, keptJ, keyJ]

/-- What is seen of the cookies of a jar, in whatever order it goes through them. -/
theorem seen_any (m : List ((Str × Bytes × Str) × Str)) (hnames : ∀ c ∈ m, CookieName (Utf8.encode c.1.2.2))
    (environ : List (Str × Str)) (he : Dict.get environ s%"HTTP_COOKIE" = none) (order : Jar)
    (ho : List.Perm order (m.map keptJ)) :
    ∃ d, requestCookies (request order environ) = .ok d ∧
      (∀ k, Dict.get d k = none ↔ ∀ c ∈ m, c.1.2.2 ≠ k) ∧
      ∀ k v, Dict.get d k = some v → ∃ host path, ((host, path, k), v) ∈ m := by
  obtain ⟨m', hm', hp⟩ : ∃ m', order = List.map keptJ m' ∧ List.Perm m' m := by
    clear hnames
    have : ∀ {l l' : List ((Str × Bytes × Bytes) × Bytes)}, List.Perm l l' → ∀ m, l' = List.map keptJ m →
        ∃ m', l = List.map keptJ m' ∧ List.Perm m' m := by
      intro l l' h
      induction h with
      | nil => intro m hm; exact ⟨m, hm, List.Perm.refl _⟩
      | cons x _ ih =>
        intro m hm
        cases m with
        | nil => cases hm
        | cons c m =>
          rw [List.map_cons, List.cons.injEq] at hm
          obtain ⟨m', h1, h2⟩ := ih m hm.2
          exact ⟨c :: m', by rw [List.map_cons, h1, hm.1], h2.cons c⟩
      | swap x y l =>
        intro m hm
        match m, hm with
        | c :: c' :: m, hm =>
          simp only [List.map_cons, List.cons.injEq] at hm
          obtain ⟨rfl, rfl, rfl⟩ := hm
          exact ⟨c' :: c :: m, rfl, List.Perm.swap _ _ _⟩
      | trans _ _ ih1 ih2 =>
        intro m hm
        obtain ⟨m2, h1, h2⟩ := ih2 m hm
        obtain ⟨m1, h3, h4⟩ := ih1 m2 h1
        exact ⟨m1, h3, h4.trans h2⟩
    exact this ho m rfl
  subst hm'
  refine ⟨_, seen_order environ he m' (fun c hc => hnames c (hp.mem_iff.1 hc)), fun k => ?_, fun k v hv => ?_⟩
  · rw [(get_fold _ k []).2]
    simp only [List.mem_map]
    constructor
    · rintro ⟨h, _⟩ c hc
      exact h _ ⟨c, hp.mem_iff.2 hc, rfl⟩
    · intro h
      refine ⟨?_, rfl⟩
      rintro _ ⟨c, hc, rfl⟩
      exact h c (hp.mem_iff.1 hc)
  · rcases (get_fold _ k []).1 v hv with h | h
    · obtain ⟨c, hc, e⟩ := List.mem_map.1 h
      obtain ⟨⟨h1, h2, h3⟩, h4⟩ := c
      simp only [Prod.mk.injEq] at e
      obtain ⟨rfl, rfl⟩ := e
      exact ⟨h1, h2, hp.mem_iff.1 hc⟩
    · cases h

/-- **C151, what is seen.**  In whatever order the jar goes through its cookies, an application that is asked next,
on whatever host and path, sees a cookie exactly for the names in the jar, and for each name a value that was set for
it, on some host and path, and was not deleted since.  Reading the cookies does not fail. -/
theorem C151_seen (esc : Bytes → Bytes) (date : Bytes → Option Int) (hd : ReadsDates date) (ops : List Op)
    (hf : ∀ op ∈ ops, Fine op) (environ : List (Str × Str)) (he : Dict.get environ s%"HTTP_COOKIE" = none) (order : Jar)
    (ho : List.Perm order (ClientJar.run esc date ops)) :
    ∃ d, requestCookies (request order environ) = .ok d ∧
      (∀ k, Dict.get d k = none ↔ ∀ c ∈ ops.foldl (meantJar esc date) [], c.1.2.2 ≠ k) ∧
      ∀ k v, Dict.get d k = some v → ∃ host path, ((host, path, k), v) ∈ ops.foldl (meantJar esc date) [] :=
  seen_any _ (names_meant esc date ops hf) environ he order (C151_jar esc date hd ops hf ▸ ho)

theorem one_meant (esc : Bytes → Bytes) (date : Bytes → Option Int) (at_ : Str × Bytes) (ops : List Op) (ha : ∀ op ∈ ops, site esc op = at_) :
    ∀ m : List (Str × Str), ops.foldl (meantJar esc date) (m.map fun p => ((at_.1, at_.2, p.1), p.2)) =
      (ops.foldl (meantOne date) m).map fun p => ((at_.1, at_.2, p.1), p.2) := by
  have inj : ∀ a b : Str, (at_.1, at_.2, a) = (at_.1, at_.2, b) → a = b := by
    intro a b h
    simpa using h
  induction ops with
  | nil => intro m; rfl
  | cons op ops ih =>
    intro m
    have e1 := set_map (fun k : Str => (at_.1, at_.2, k)) inj (fun v : Str => v) m
    have e2 := del_map (fun k : Str => (at_.1, at_.2, k)) inj (fun v : Str => v) m
    have hop : meantJar esc date (m.map fun p => ((at_.1, at_.2, p.1), p.2)) op =
        (meantOne date m op).map fun p => ((at_.1, at_.2, p.1), p.2) := by
      have := ha op (by simp)
      subst this
      cases op with
      | set host cfg a =>
        simp only [meantJar, meantOne, site] at e1 e2 ⊢
        split
        · split
          · exact e2 a.key
          · exact e1 a.key a.value
        · exact e1 a.key a.value
      | delete host cfg key path => exact e2 key
    rw [List.foldl_cons, List.foldl_cons, hop]
    exact ih (fun o ho => ha o (by simp [ho])) _

/-- **C151, one host and path.**  When all calls are for one host and one path, an application sees exactly the
cookies that were set and not deleted since, with their last values. -/
theorem C151_one (esc : Bytes → Bytes) (date : Bytes → Option Int) (hd : ReadsDates date) (ops : List Op) (hf : ∀ op ∈ ops, Fine op)
    (at_ : Str × Bytes) (ha : ∀ op ∈ ops, site esc op = at_)
    (environ : List (Str × Str)) (he : Dict.get environ s%"HTTP_COOKIE" = none) (order : Jar)
    (ho : List.Perm order (ClientJar.run esc date ops)) :
    ∃ d, requestCookies (request order environ) = .ok d ∧
      ∀ k, Dict.get d k = Dict.get (ops.foldl (meantOne date) []) k := by
  obtain ⟨d, h1, h2, h3⟩ := C151_seen esc date hd ops hf environ he order ho
  have e := one_meant esc date at_ ops ha []
  rw [List.map_nil] at e
  rw [e] at h2 h3
  -- names are distinct
  have nd : (Dict.keys (ops.foldl (meantOne date) [])).Nodup := by
    suffices ∀ m : List (Str × Str), (Dict.keys m).Nodup → (Dict.keys (ops.foldl (meantOne date) m)).Nodup from
      this [] (by simp)
    clear h1 h2 h3 e ho hf ha
    induction ops with
    | nil => intro m h; exact h
    | cons op ops ih =>
      intro m h
      rw [List.foldl_cons]
      refine ih _ ?_
      cases op with
      | set host cfg a =>
        simp only [meantOne]
        split
        · split
          · exact Dict.nodup_del h _
          · exact Dict.nodup_set h _ _
        · exact Dict.nodup_set h _ _
      | delete host cfg key path => exact Dict.nodup_del h _
  refine ⟨d, h1, fun k => ?_⟩
  cases hk : Dict.get d k with
  | none =>
    have := (h2 k).1 hk
    symm
    cases hg : Dict.get (ops.foldl (meantOne date) []) k with
    | none => rfl
    | some v => exact absurd rfl (this _ (List.mem_map.2 ⟨(k, v), Dict.mem_of_get hg, rfl⟩))
  | some v =>
    obtain ⟨host, path, hm⟩ := h3 k v hk
    obtain ⟨p, hp, e⟩ := List.mem_map.1 hm
    obtain ⟨k', v'⟩ := p
    simp only [Prod.mk.injEq] at e
    obtain ⟨⟨rfl, rfl, rfl⟩, rfl⟩ := e
    exact (Dict.get_of_mem nd hp).symm

/-- **C151, failing calls.**  A call that raises leaves the jar as it is. -/
theorem C151_atomic (esc : Bytes → Bytes) (date : Bytes → Option Int) (jar : Jar) (host : Str) (cfg : Cfg) (a : Args) (e : PyErr)
    (h : (ClientJar.setCookie esc date jar host cfg a).2 = .error e) : (ClientJar.setCookie esc date jar host cfg a).1 = jar := by
  unfold ClientJar.setCookie at h ⊢
  cases hd : dumpCookie cfg a with
  | error e => rfl
  | ok s => rw [hd] at h; cases h

/-! ### Where it differs from a browser -/

/-- **C151 fails** for several hosts: a cookie that was set for one server is sent to every other, and there it even
takes the place of the one that was set for that server. -/
theorem C151_hosts_false :
    requestCookies (request (ClientJar.run id parsedDate
      [.set s%"a.example" cookieCfg { key := s%"id", value := s%"1" },
       .set s%"b.example" cookieCfg { key := s%"id", value := s%"2" },
       .set s%"b.example" cookieCfg { key := s%"secret", value := s%"3" }]) [(s%"HTTP_HOST", s%"a.example")]) =
      .ok [(s%"id", s%"2"), (s%"secret", s%"3")] := by decide +kernel

/-- **C151 fails** for cookies that end: a cookie for a minute is sent an hour later, as the clock is only looked at
when a cookie is set. -/
theorem C151_expired_false : ∃ a : Args, a.maxAge = some (.seconds 60) ∧
    requestCookies (request (ClientJar.run id parsedDate
      [.set s%"a.example" cookieCfg a,
       .set s%"a.example" { cookieCfg with now := cookieCfg.now + 3600 } { key := s%"n", value := s%"2" }])
      [(s%"HTTP_HOST", s%"a.example")]) = .ok [(s%"id", s%"1"), (s%"n", s%"2")] :=
  ⟨{ key := s%"id", value := s%"1", maxAge := some (.seconds 60) }, rfl, by decide +kernel⟩

/-- **C151** (deleting): a cookie is only deleted for the host and the path it was set for. -/
theorem C151_delete_limits :
    requestCookies (request (ClientJar.run id parsedDate
      [.set s%"a.example" cookieCfg { key := s%"id", value := s%"1" }, .delete s%"b.example" cookieCfg s%"id" (some s%"/"),
       .delete s%"a.example" cookieCfg s%"id" (some s%"/x")]) []) = .ok [(s%"id", s%"1")] ∧
    requestCookies (request (ClientJar.run id parsedDate
      [.set s%"a.example" cookieCfg { key := s%"id", value := s%"1" }, .delete s%"a.example" cookieCfg s%"id" (some s%"/")])
      []) = .ok [] := by
  constructor <;> decide +kernel

/-! ### Examples -/

example : ReadsDates parsedDate := reads_parsed

example : Fine (.set s%"a.example" cookieCfg { key := s%"n", value := s%"ü; \"", maxAge := some (.seconds 60) }) := by
  refine ⟨⟨⟨by unfold CookieName; decide +kernel, by decide⟩, ⟨?_, fun s h => by cases h⟩, fun h => by cases h⟩, rfl, ?_⟩
  · intro p h
    have e : pathUri cookieCfg (some s%"/") = .ok (some s%"/") := by decide +kernel
    have h' : pathUri cookieCfg (some s%"/") = .ok (some p) := h
    rw [e] at h'; cases h'; decide
  · have : (dumpCookie cookieCfg { key := s%"n", value := s%"ü; \"", maxAge := some (.seconds 60) }).isOk = true := by
      decide +kernel
    cases h : dumpCookie cookieCfg { key := s%"n", value := s%"ü; \"", maxAge := some (.seconds 60) } with
    | error e => rw [h] at this; cases this
    | ok s => exact ⟨s, rfl⟩

end Verif.Props.ClientJarP
