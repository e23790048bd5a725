import Verif.Model.SharedData
import Verif.Props.Descriptors
import Verif.Props.Wsgi
import Verif.Props.RequestUrl
/-! Property theorems C113: the answers of `SharedDataMiddleware`, `/repo/verktyg/wsgi.py` lines 381-520. -/
namespace Verif.Props.SharedP
open Verif Verif.Py Verif.Date Verif.Spec.Calendar Verif.SharedData Verif.Props.DateP

/-! ### Which file is sent -/

/-- The text of a path: every segment after a slash. -/
def slashed (segs : List Str) : Str := segs.flatMap ('/' :: ·)

/-- The key of an export for the path of these segments. -/
def keyText (ks : List Str) : Str := if ks = [] then s%"/" else slashed ks

/-- The segments of the path of a request; empty ones and `..` do not count. -/
def segments (path : Str) : List Str := (splitOn '/' path).filter fun x => x ≠ [] ∧ x ≠ s%".."

/-- What is below an export: an exported file answers for every path, an exported directory for the files in it. -/
def below (isfile : Str → Bool) (rest : List Str) : Wsgi.Export → Option Str
  | .file f => some f
  | .dir d => if isfile (d ++ slashed rest) then some (d ++ slashed rest) else none

/-- The file that an export has for the path of these segments: its key has to be the beginning of them. -/
def fileOf (isfile : Str → Bool) (segs : List Str) (x : List Str × Wsgi.Export) : Option Str :=
  if x.1 <+: segs then below isfile (segs.drop x.1.length) x.2 else none

/-- Exports with proper keys and directories: keys are made of segments, directories are named without a slash at the
right, and nothing with a slash at the right is a file. -/
def Proper (isfile : Str → Bool) (exports : List (List Str × Wsgi.Export)) : Prop :=
  (∀ x ∈ exports, ∀ s ∈ x.1, s ≠ [] ∧ '/' ∉ s) ∧
  (∀ ks d, (ks, Wsgi.Export.dir d) ∈ exports → d ≠ [] ∧ d.getLast? ≠ some '/') ∧
  (∀ d, isfile (d ++ s%"/") = false)

/-- The exports as they are given to the middleware. -/
def keyed (exports : List (List Str × Wsgi.Export)) : List (Str × Wsgi.Export) := exports.map fun x => (keyText x.1, x.2)

theorem cut_slash {a b a' b' : Str} (h : a ++ b = a' ++ b') (ha : '/' ∉ a) (ha' : '/' ∉ a')
    (hb : b = [] ∨ b.head? = some '/') (hb' : b' = [] ∨ b'.head? = some '/') : a = a' ∧ b = b' := by
  induction a generalizing a' with
  | nil =>
    cases a' with
    | nil => exact ⟨rfl, h⟩
    | cons x xs =>
      have h' : b = x :: (xs ++ b') := h
      rcases hb with rfl | hb
      · cases h'
      · rw [h'] at hb
        simp at hb
        exact absurd (by rw [hb]; exact .head _) ha'
  | cons x xs ih =>
    cases a' with
    | nil =>
      have h' : b' = x :: (xs ++ b) := h.symm
      rcases hb' with rfl | hb'
      · cases h'
      · rw [h'] at hb'
        simp at hb'
        exact absurd (by rw [hb']; exact .head _) ha
    | cons y ys =>
      simp only [List.cons_append, List.cons.injEq] at h
      obtain ⟨h1, h2⟩ := ih h.2 (fun hc => ha (.tail _ hc)) (fun hc => ha' (.tail _ hc))
      exact ⟨by rw [h.1, h1], h2⟩

theorem slashed_head (segs : List Str) : slashed segs = [] ∨ (slashed segs).head? = some '/' := by
  cases segs with
  | nil => exact .inl rfl
  | cons s ss => exact .inr rfl

theorem slashed_append (a b : List Str) : slashed (a ++ b) = slashed a ++ slashed b := by simp [slashed]

theorem slashed_cons (s : Str) (ss : List Str) : slashed (s :: ss) = '/' :: (s ++ slashed ss) := by simp [slashed]

theorem slashed_nil {ks : List Str} (h : slashed ks = []) : ks = [] := by
  cases ks with
  | nil => rfl
  | cons k ks => simp [slashed] at h

theorem slashed_inj : ∀ {ks ss : List Str}, (∀ s ∈ ks, '/' ∉ s) → (∀ s ∈ ss, '/' ∉ s) → slashed ks = slashed ss → ks = ss
  | [], ss, _, _, h => (slashed_nil h.symm).symm
  | k :: ks, [], _, _, h => by simp [slashed] at h
  | k :: ks, s :: ss, hk, hs, h => by
    rw [slashed_cons, slashed_cons, List.cons.injEq] at h
    obtain ⟨h1, h2⟩ := cut_slash h.2 (hk k (.head _)) (hs s (.head _)) (slashed_head _) (slashed_head _)
    rw [h1, slashed_inj (fun x hx => hk x (.tail _ hx)) (fun x hx => hs x (.tail _ hx)) h2]

theorem slashed_prefix : ∀ {ks ss : List Str} {t : Str}, (∀ s ∈ ks, '/' ∉ s) → (∀ s ∈ ss, '/' ∉ s) →
    slashed ks ++ '/' :: t = slashed ss → ∃ rest, rest ≠ [] ∧ ss = ks ++ rest ∧ slashed rest = '/' :: t
  | [], ss, t, _, _, h => ⟨ss, by rintro rfl; simp [slashed] at h, rfl, h.symm⟩
  | k :: ks, [], t, _, _, h => by simp [slashed] at h
  | k :: ks, s :: ss, t, hk, hs, h => by
    rw [slashed_cons, slashed_cons, List.cons_append, List.cons.injEq, List.append_assoc] at h
    have hh : slashed ks ++ '/' :: t = [] ∨ (slashed ks ++ '/' :: t).head? = some '/' := by
      cases ks with
      | nil => exact .inr rfl
      | cons x xs => exact .inr rfl
    obtain ⟨h1, h2⟩ := cut_slash h.2 (hk k (.head _)) (hs s (.head _)) hh (slashed_head _)
    obtain ⟨rest, r1, r2, r3⟩ := slashed_prefix (fun x hx => hk x (.tail _ hx)) (fun x hx => hs x (.tail _ hx)) h2
    exact ⟨rest, r1, by rw [h1, r2]; rfl, r3⟩

theorem slashed_last {ks : List Str} (h : ∀ s ∈ ks, s ≠ [] ∧ '/' ∉ s) : (slashed ks).getLast? ≠ some '/' := by
  rcases List.eq_nil_or_concat ks with rfl | ⟨init, last, rfl⟩
  · simp [slashed]
  · obtain ⟨h1, h2⟩ := h last (by simp)
    rw [List.concat_eq_append, slashed_append, slashed_cons]
    simp only [slashed, List.flatMap_nil, List.append_nil]
    intro hc
    obtain ⟨c, hc'⟩ : ∃ c, last.getLast? = some c := by
      cases hl : last.getLast? with
      | none => exact absurd (List.getLast?_eq_none_iff.1 hl) h1
      | some c => exact ⟨c, rfl⟩
    have e : (init.flatMap ('/' :: ·) ++ '/' :: last).getLast? = some c := by
      obtain ⟨ys, hy⟩ := List.getLast?_eq_some_iff.1 hc'
      rw [hy, List.getLast?_eq_some_iff]
      exact ⟨init.flatMap ('/' :: ·) ++ '/' :: ys, by simp⟩
    rw [e] at hc
    obtain ⟨ys, hy⟩ := List.getLast?_eq_some_iff.1 hc'
    rw [Option.some.inj hc] at hy
    exact h2 (by rw [hy]; simp)

theorem withSlash_key {ks : List Str} (h : ∀ s ∈ ks, s ≠ [] ∧ '/' ∉ s) : Wsgi.withSlash (keyText ks) = slashed ks ++ ['/'] := by
  unfold keyText
  by_cases h0 : ks = []
  · subst h0
    rfl
  · rw [if_neg h0]
    unfold Wsgi.withSlash
    rw [if_neg (slashed_last h)]

theorem segments_cons (p : Str) : segments ('/' :: p) = segments p := by simp [segments, splitOn]

theorem segments_snoc (p : Str) : segments (p ++ ['/']) = segments p := by
  unfold segments
  rw [splitOn_append_sep]
  simp [splitOn]

theorem segments_left : ∀ p : Str, segments (p.dropWhile (· = '/')) = segments p
  | [] => rfl
  | c :: cs => by
    by_cases hc : c = '/'
    · subst hc
      rw [List.dropWhile_cons_of_pos (by simp), segments_left cs, segments_cons]
    · rw [List.dropWhile_cons_of_neg (by simpa using hc)]

theorem segments_right (p : Str) : ∀ (q : Str), q.reverse = p → segments (p.dropWhile (· = '/')).reverse = segments q := by
  induction p with
  | nil => intro q hq; simp at hq; subst hq; rfl
  | cons c cs ih =>
    intro q hq
    have e : q = cs.reverse ++ [c] := by rw [← List.reverse_reverse q, hq]; simp
    by_cases hc : c = '/'
    · subst hc
      rw [List.dropWhile_cons_of_pos (by simp), ih cs.reverse (by simp), e, segments_snoc]
    · rw [List.dropWhile_cons_of_neg (by simpa using hc), e]
      simp

theorem segments_strip (p : Str) : segments (stripP (· = '/') p) = segments p := by
  unfold stripP rstripP lstripP
  rw [segments_right _ _ rfl, segments_left]

theorem join_slashed : ∀ segs : List Str, segs ≠ [] → '/' :: join ['/'] segs = slashed segs
  | [], h => absurd rfl h
  | [x], _ => by simp [join, slashed]
  | x :: y :: ys, _ => by
    rw [slashed_cons, ← join_slashed (y :: ys) (by simp)]
    simp [join]

theorem cleanPath_key (p : Str) : Wsgi.cleanPath p = keyText (segments p) := by
  have e : Wsgi.cleanPath p = '/' :: join ['/'] (segments (stripP (· = '/') p)) := rfl
  rw [e, segments_strip]
  unfold keyText
  by_cases h : segments p = []
  · rw [h]; rfl
  · rw [if_neg h, join_slashed _ h]

theorem mem_splitOn : ∀ (p : Str) (s : Str), s ∈ splitOn '/' p → '/' ∉ s := by
  intro p s hs
  exact splitOn_no_sep '/' p s hs

theorem segments_ok (p : Str) : ∀ s ∈ segments p, s ≠ [] ∧ '/' ∉ s := by
  intro s hs
  obtain ⟨h1, h2⟩ := List.mem_filter.1 hs
  exact ⟨by simpa using (of_decide_eq_true h2).1, mem_splitOn p s h1⟩

theorem keyText_inj {ks ss : List Str} (hk : ∀ s ∈ ks, s ≠ [] ∧ '/' ∉ s) (hs : ∀ s ∈ ss, s ≠ [] ∧ '/' ∉ s)
    (h : keyText ks = keyText ss) : ks = ss := by
  have h' := congrArg Wsgi.withSlash h
  rw [withSlash_key hk, withSlash_key hs] at h'
  exact slashed_inj (fun s m => (hk s m).2) (fun s m => (hs s m).2) (List.append_cancel_right h')

/-- One turn of the search. -/
theorem search_step (isfile : Str → Bool) (hf : ∀ d, isfile (d ++ s%"/") = false) (ks ss : List Str) (e : Wsgi.Export)
    (hk : ∀ s ∈ ks, s ≠ [] ∧ '/' ∉ s) (hs : ∀ s ∈ ss, s ≠ [] ∧ '/' ∉ s)
    (hd : ∀ d, e = .dir d → d ≠ [] ∧ d.getLast? ≠ some '/') (es : List (Str × Wsgi.Export)) :
    Wsgi.search isfile (keyText ss) ((keyText ks, e) :: es) =
      (fileOf isfile ss (ks, e)).or (Wsgi.search isfile (keyText ss) es) := by
  rw [Wsgi.search, withSlash_key hk]
  by_cases hp : ks <+: ss
  · obtain ⟨rest, rfl⟩ := hp
    have hfo : fileOf isfile (ks ++ rest) (ks, e) = below isfile rest e := by simp [fileOf]
    rw [hfo]
    by_cases hr : rest = []
    · subst hr
      rw [List.append_nil, if_pos rfl]
      cases e with
      | file f => simp [Wsgi.load, below]
      | dir d =>
        simp only [Wsgi.load, below, slashed, List.flatMap_nil, List.append_nil]
        by_cases hi : isfile d
        · simp [hi]
        · rw [if_neg hi]
          by_cases h0 : ks = []
          · subst h0
            have hj : Wsgi.pathJoin d [] = d ++ s%"/" := by
              obtain ⟨h1, h2⟩ := hd d rfl
              unfold Wsgi.pathJoin
              rw [if_neg (by simp), if_neg (by rintro (h | h) <;> contradiction)]
            simp [keyText, slashed, hj, hf]
          · have hn : ¬ (slashed ks ++ ['/']) <+: keyText ks := by
              intro h
              have := h.length_le
              simp [keyText, h0] at this
              omega
            simp only [slashed] at hn
            simp [hn]
    · have hne : keyText ks ≠ keyText (ks ++ rest) := by
        intro h
        have := keyText_inj hk hs h
        exact hr (by simpa using this)
      rw [if_neg hne]
      obtain ⟨r, rs, rfl⟩ : ∃ r rs, rest = r :: rs := by
        cases rest with
        | nil => exact absurd rfl hr
        | cons r rs => exact ⟨r, rs, rfl⟩
      have hkt : keyText (ks ++ r :: rs) = (slashed ks ++ ['/']) ++ (r ++ slashed rs) := by
        unfold keyText
        rw [if_neg (by simp), slashed_append, slashed_cons]
        simp
      have hpre : (slashed ks ++ ['/']) <+: keyText (ks ++ r :: rs) := by rw [hkt]; exact List.prefix_append _ _
      have hdrop : (keyText (ks ++ r :: rs)).drop (slashed ks ++ ['/']).length = r ++ slashed rs := by
        rw [hkt, List.drop_left]
      simp only [if_pos hpre, hdrop]
      cases e with
      | file f => simp [Wsgi.load, below]
      | dir d =>
        obtain ⟨h1, h2⟩ := hd d rfl
        obtain ⟨hr1, hr2⟩ := hs r (by simp)
        have hj : Wsgi.pathJoin d (r ++ slashed rs) = d ++ slashed (r :: rs) := by
          unfold Wsgi.pathJoin
          have hh : (r ++ slashed rs).head? ≠ some '/' := by
            cases r with
            | nil => exact absurd rfl hr1
            | cons c cs =>
              simp only [List.cons_append, List.head?_cons]
              intro h
              exact hr2 (by rw [Option.some.inj h]; exact .head _)
          rw [if_neg hh, if_neg (by rintro (h | h) <;> contradiction), slashed_cons]
        simp only [Wsgi.load, below, hj]
        by_cases hi : isfile (d ++ slashed (r :: rs)) <;> simp [hi]
  · have hfo : fileOf isfile ss (ks, e) = none := by simp [fileOf, hp]
    rw [hfo]
    have hne : keyText ks ≠ keyText ss := by
      intro h
      exact hp (by rw [keyText_inj hk hs h]; exact List.prefix_refl _)
    rw [if_neg hne]
    have hn : ¬ (slashed ks ++ ['/']) <+: keyText ss := by
      rintro ⟨t, ht⟩
      by_cases h0 : ss = []
      · subst h0
        have hl := congrArg List.length ht
        simp [keyText] at hl
        exact hp (by
          rw [slashed_nil (ks := ks) (List.eq_nil_of_length_eq_zero (by omega))]
          exact List.prefix_refl _)
      · rw [keyText, if_neg h0, List.append_assoc] at ht
        obtain ⟨rest, _, h2, _⟩ := slashed_prefix (fun s m => (hk s m).2) (fun s m => (hs s m).2) ht
        exact hp ⟨rest, h2.symm⟩
    rw [if_neg hn]
    rfl

/-- The file for a request is the one of the first export which has one for its segments. -/
theorem C113_found (isfile : Str → Bool) (exports : List (List Str × Wsgi.Export)) (hp : Proper isfile exports) (path : Str) :
    Wsgi.search isfile (Wsgi.cleanPath path) (keyed exports) = exports.findSome? (fileOf isfile (segments path)) := by
  rw [cleanPath_key]
  obtain ⟨h1, h2, h3⟩ := hp
  induction exports with
  | nil => rfl
  | cons x xs ih =>
    obtain ⟨ks, e⟩ := x
    have hs := search_step isfile h3 ks (segments path) e (h1 (ks, e) (.head _)) (segments_ok path)
      (fun d hd => h2 ks d (by rw [← hd]; exact .head _)) (keyed xs)
    have ih' := ih (fun x hx => h1 x (.tail _ hx)) (fun ks d hx => h2 ks d (.tail _ hx))
    rw [show keyed ((ks, e) :: xs) = (keyText ks, e) :: keyed xs from rfl, hs, ih', List.findSome?_cons]
    cases fileOf isfile (segments path) (ks, e) <;> rfl

/-! ### What is sent -/

/-- `name` is the last segment of `f`. -/
def Base (f name : Str) : Prop := '/' ∉ name ∧ (f = name ∨ ∃ dir, f = dir ++ '/' :: name)

/-- The request is for the path `path`, whose file is `f`, and the pattern does not disallow its name. -/
structure Hit (L : Lib) (w : World) (cfg : Shared) (env : List (Str × Str)) (exports : List (List Str × Wsgi.Export))
    (path f name : Str) : Prop where
  exported : cfg.exports = keyed exports
  proper : Proper w.isfile exports
  asked : Dict.get env s%"PATH_INFO" = some (ReqUrl.encodingDance path)
  found : exports.findSome? (fileOf w.isfile (segments path)) = some f
  base : Base f name
  allowed : ∀ p, cfg.disallow = some p → L.fnmatch name p = false

/-- The moments of the calendar: `t` is `n` seconds after the start of 1970. -/
def At (n : Int) (t : DateTime) : Prop := Valid t ∧ epoch t = n

/-- Requests that get a body. -/
def Reading (env : List (Str × Str)) : Prop :=
  Dict.get env s%"REQUEST_METHOD" = some s%"GET" ∨ Dict.get env s%"REQUEST_METHOD" = some s%"HEAD"

theorem basename_eq {f name : Str} (h : Base f name) : basename f = name := by
  obtain ⟨h1, rfl | ⟨dir, rfl⟩⟩ := h
  · simp [basename, rsplit1_none.2 h1]
  · simp [basename, rsplit1_eq h1]

theorem dance (env : List (Str × Str)) (path : Str) (h : Dict.get env s%"PATH_INFO" = some (ReqUrl.encodingDance path)) :
    ReqUrl.decodingDance (ReqUrl.envText env s%"PATH_INFO") = .ok path := by
  unfold ReqUrl.envText
  rw [h]
  exact (ReqUrlP.C88_round_trip path).1

theorem call_hit {L : Lib} {w : World} {cfg : Shared} {env : List (Str × Str)} {exports : List (List Str × Wsgi.Export)}
    {path f name : Str} (h : Hit L w cfg env exports path f name) (n : Nat) (now : Int) :
    call L w cfg n now env = answer L cfg n now env name (w.opened f) := by
  have hf := C113_found w.isfile exports h.proper path
  rw [h.found, ← h.exported] at hf
  have ha : isAllowed L cfg name = true := by
    unfold isAllowed
    cases hd : cfg.disallow with
    | none => rfl
    | some p => simp [h.allowed p hd]
  simp only [call, dance env path h.asked, hf, basename_eq h.base, ha, if_true]

theorem gmtime_at {n : Int} {t : DateTime} (h : At n t) : gmtime n = some t := by
  obtain ⟨hv, rfl⟩ := h
  rw [epoch_total t hv]
  unfold gmtime
  rw [show t.total - 719163 * 86400 + 719163 * 86400 = t.total by omega]
  exact ofTotal_total t hv

theorem at_of {n : Int} (h : -62135596800 ≤ n ∧ n ≤ 253402300799) : ∃ t, At n t := by
  obtain ⟨t, _, hv, he, _⟩ := C59_timestamp n h
  exact ⟨t, hv, he⟩

theorem at_unique {n : Int} {t t' : DateTime} (h : At n t) (h' : At n t') : t = t' := by
  have e := gmtime_at h
  rw [gmtime_at h'] at e
  exact (Option.some.inj e).symm

/-- The tag of a file. -/
def tagOf (L : Lib) (name : Str) (o : Opened) (mtime : DateTime) : Str :=
  s%"\"wzsdm-" ++ intStr (L.mktime mtime) ++ s%"-" ++ natStr o.size ++ s%"-" ++ natStr (L.adler name) ++ s%"\""

theorem tagOf_eq (L : Lib) (name : Str) (o : Opened) (mtime : DateTime) :
    tagOf L name o mtime = '"' :: (generateEtag L mtime o.size name ++ s%"\"") := by
  simp [tagOf, generateEtag]

theorem answer_cached {L : Lib} {cfg : Shared} {n : Nat} {now : Int} {env : List (Str × Str)} {name : Str} {o : Opened}
    {date expires mtime : DateTime} (hc : cfg.cache = true) (h1 : At (o.mtime / 1000000) mtime) (h2 : At now date)
    (h3 : At (now + cfg.timeout) expires) {b : Bool}
    (hm : modified n env (generateEtag L mtime o.size name) (mtime.total * 1000000 + o.mtime % 1000000) = .ok (some b)) :
    answer L cfg n now env name o =
      if b then .reply s%"200 OK" [(s%"Date", httpDate date), (s%"Etag", tagOf L name o mtime),
          (s%"Cache-Control", s%"max-age=" ++ intStr cfg.timeout ++ s%", public"), (s%"Expires", httpDate expires),
          (s%"Content-Type", (L.guess name).getD cfg.fallback), (s%"Content-Length", natStr o.size),
          (s%"Last-Modified", httpDate mtime)] o.data false
      else .reply s%"304 Not Modified" [(s%"Date", httpDate date), (s%"Etag", tagOf L name o mtime),
          (s%"Cache-Control", s%"max-age=" ++ intStr cfg.timeout ++ s%", public")] [] true := by
  unfold answer
  simp only [gmtime_at h1, gmtime_at h2, gmtime_at h3, hc, if_true, hm, tagOf_eq]
  cases b <;> rfl

/-- A request that is not for a shared file goes to the application, and so does one for a file whose name the pattern
disallows. -/
theorem C113_through (L : Lib) (w : World) (cfg : Shared) (exports : List (List Str × Wsgi.Export)) (path : Str)
    (env : List (Str × Str)) (n : Nat) (now : Int) (he : cfg.exports = keyed exports) (hp : Proper w.isfile exports)
    (ha : Dict.get env s%"PATH_INFO" = some (ReqUrl.encodingDance path)) :
    (exports.findSome? (fileOf w.isfile (segments path)) = none → call L w cfg n now env = .app) ∧
    (∀ f name p, exports.findSome? (fileOf w.isfile (segments path)) = some f → Base f name → cfg.disallow = some p →
      L.fnmatch name p = true → call L w cfg n now env = .app) := by
  have hf := C113_found w.isfile exports hp path
  rw [← he] at hf
  constructor
  · intro h
    rw [h] at hf
    simp only [call, dance env path ha, hf]
  · intro f name p h hb hd hm
    rw [h] at hf
    simp [call, dance env path ha, hf, basename_eq hb, isAllowed, hd, hm]

/-- A request without conditions gets the whole file, with its type, its size and the time of its last change, and with
headers that let it be kept until the timeout. -/
theorem C113_served (L : Lib) (w : World) (cfg : Shared) (exports : List (List Str × Wsgi.Export)) (path f name : Str)
    (env : List (Str × Str)) (n : Nat) (now : Int) (date expires mtime : DateTime)
    (h : Hit L w cfg env exports path f name) (hc : cfg.cache = true) (hr : Reading env)
    (hi : Dict.get env s%"HTTP_IF_NONE_MATCH" = none) (hs : Dict.get env s%"HTTP_IF_MODIFIED_SINCE" = none)
    (h1 : At ((w.opened f).mtime / 1000000) mtime) (h2 : At now date) (h3 : At (now + cfg.timeout) expires) :
    call L w cfg n now env = .reply s%"200 OK"
      [(s%"Date", httpDate date), (s%"Etag", tagOf L name (w.opened f) mtime),
        (s%"Cache-Control", s%"max-age=" ++ intStr cfg.timeout ++ s%", public"), (s%"Expires", httpDate expires),
        (s%"Content-Type", (L.guess name).getD cfg.fallback), (s%"Content-Length", natStr (w.opened f).size),
        (s%"Last-Modified", httpDate mtime)] (w.opened f).data false := by
  rw [call_hit h, answer_cached hc h1 h2 h3 (b := true)]
  · rfl
  · unfold modified
    rcases hr with hr | hr <;>
    simp [hr, hs, Desc.dateMicros, hi, Etag.isResourceModified, Etag.parseEtags, Etag.mk, Etag.ETags.truthy, generateEtag]

/-- Without caching every request gets the whole file, whatever its method and its conditions. -/
theorem C113_uncached (L : Lib) (w : World) (cfg : Shared) (exports : List (List Str × Wsgi.Export)) (path f name : Str)
    (env : List (Str × Str)) (n : Nat) (now : Int) (date expires mtime : DateTime)
    (h : Hit L w cfg env exports path f name) (hc : cfg.cache = false)
    (h1 : At ((w.opened f).mtime / 1000000) mtime) (h2 : At now date) (h3 : At (now + cfg.timeout) expires) :
    call L w cfg n now env = .reply s%"200 OK"
      [(s%"Date", httpDate date), (s%"Cache-Control", s%"public"), (s%"Content-Type", (L.guess name).getD cfg.fallback),
        (s%"Content-Length", natStr (w.opened f).size), (s%"Last-Modified", httpDate mtime)] (w.opened f).data false := by
  rw [call_hit h]
  unfold answer
  simp [gmtime_at h1, gmtime_at h2, gmtime_at h3, hc, fileHeaders]

/-! ### Asking again -/

theorem intStr_char (i : Int) : ∀ c ∈ intStr i, c = '-' ∨ IsDig c := by
  cases i with
  | ofNat k => exact fun c hc => .inr (natStr_digits k c hc)
  | negSucc k =>
    intro c hc
    rcases List.mem_cons.1 hc with h | h
    · exact .inl h
    · exact .inr (natStr_digits _ c h)

/-- The characters of tags. -/
theorem etag_char (L : Lib) (mtime : DateTime) (size : Nat) (name : Str) :
    ∀ c ∈ generateEtag L mtime size name, c ∈ s%"wzsdm-" ∨ IsDig c := by
  intro c hc
  unfold generateEtag at hc
  simp only [List.mem_append, List.mem_cons] at hc
  rcases hc with h | h | h | h | h | h
  · exact .inl (by simpa using h)
  · rcases intStr_char _ c h with rfl | h
    · exact .inl (by decide)
    · exact .inr h
  · exact .inl (by rw [h]; decide)
  · exact .inr (natStr_digits _ c h)
  · exact .inl (by rw [h]; decide)
  · exact .inr (natStr_digits _ c h)

theorem etag_plain (L : Lib) (mtime : DateTime) (size : Nat) (name : Str) :
    ∀ c ∈ generateEtag L mtime size name, isSpace c = false ∧ c ≠ '"' ∧ c ≠ '\n' := by
  intro c hc
  rcases etag_char L mtime size name c hc with h | h
  · simp only [List.mem_cons, List.not_mem_nil, or_false] at h
    rcases h with rfl | rfl | rfl | rfl | rfl | rfl <;> decide
  · refine ⟨isDig_not_space c h, ?_, ?_⟩ <;> (rintro rfl; simp [IsDig] at h)

theorem natStr_inj {a b : Nat} (h : natStr a = natStr b) : a = b := by
  have := intOf_natStr a
  rw [h, intOf_natStr] at this
  exact (Int.ofNat.inj (Except.ok.inj this)).symm

theorem intStr_inj {a b : Int} (h : intStr a = intStr b) : a = b := by
  have := intOf_intStr a
  rw [h, intOf_intStr] at this
  exact (Except.ok.inj this).symm

/-- Different times and sizes have different tags. -/
theorem etag_inj (L : Lib) {t t' : DateTime} {k k' : Nat} {name : Str} (h : generateEtag L t k name = generateEtag L t' k' name) :
    L.mktime t = L.mktime t' ∧ k = k' := by
  unfold generateEtag at h
  have h1 := List.append_cancel_left h
  have h2 : intStr (L.mktime t) ++ '-' :: natStr k = intStr (L.mktime t') ++ '-' :: natStr k' := by
    have e : ∀ a b : Str, a ++ '-' :: (b ++ '-' :: natStr (L.adler name)) = (a ++ '-' :: b) ++ '-' :: natStr (L.adler name) := by simp
    rw [e, e] at h1
    exact List.append_cancel_right h1
  have hn : ∀ k : Nat, '-' ∉ natStr k := fun k hc => by
    have := natStr_digits k '-' hc
    simp [IsDig] at this
  have h3 := congrArg (rsplit1 '-') h2
  rw [rsplit1_eq (hn k), rsplit1_eq (hn k')] at h3
  simp only [Option.some.injEq, Prod.mk.injEq] at h3
  exact ⟨intStr_inj h3.1, natStr_inj h3.2⟩

theorem strip_plain {s : Str} (h : ∀ c ∈ s, isSpace c = false) : strip s = s := by
  have hd : ∀ l : Str, (∀ c ∈ l, isSpace c = false) → l.dropWhile isSpace = l := by
    intro l hl
    cases l with
    | nil => rfl
    | cons c cs => rw [List.dropWhile_cons_of_neg (by simp [hl c (.head _)])]
  unfold strip stripP rstripP lstripP
  rw [hd s h, hd s.reverse (fun c hc => h c (List.mem_reverse.1 hc)), List.reverse_reverse]

theorem unquote_etag (L : Lib) (mtime : DateTime) (size : Nat) (name : Str) :
    Etag.unquoteEtag (generateEtag L mtime size name) = (some (generateEtag L mtime size name), some false) := by
  have hst := strip_plain (fun c hc => (etag_plain L mtime size name c hc).1)
  obtain ⟨t, ht⟩ : ∃ t, generateEtag L mtime size name = 'w' :: 'z' :: t := ⟨_, rfl⟩
  unfold Etag.unquoteEtag
  rw [hst, ht]
  simp

/-- What the tag of an earlier answer decides. -/
theorem modified_tag (L : Lib) {t t' : DateTime} {k k' : Nat} {name : Str} {env : List (Str × Str)} {n : Nat} (hn : 1 < n)
    (hr : Reading env) (m : Int)
    (hi : Dict.get env s%"HTTP_IF_NONE_MATCH" = some ('"' :: (generateEtag L t k name ++ s%"\""))) :
    modified n env (generateEtag L t' k' name) m =
      .ok (some (decide (generateEtag L t' k' name ≠ generateEtag L t k name))) := by
  obtain ⟨ims, hims⟩ := Desc.dateMicros_ok (Dict.get env s%"HTTP_IF_MODIFIED_SINCE")
  have hp := (C17_header_roundtrip_partial [generateEtag L t k name] []
    (by
      intro x hx
      rw [List.mem_singleton.1 hx]
      refine ⟨by simp [generateEtag], fun h => (etag_plain L t k name _ h).2.1 rfl, fun h => (etag_plain L t k name _ h).2.2 rfl⟩)
    (fun _ h => absurd h (by simp)) n (by simpa using hn)).1
  have hh : (Etag.mk ([generateEtag L t k name].map some) (([] : List Str).map some) false).toHeader =
      '"' :: (generateEtag L t k name ++ s%"\"") := by
    simp [Etag.mk, Etag.ETags.toHeader, Etag.tagText, join]
  rw [hh] at hp
  have hu := unquote_etag L t' k' name
  obtain ⟨e, he⟩ : ∃ e, generateEtag L t' k' name = 'w' :: e := ⟨_, rfl⟩
  have hcr : ∀ tags : Etag.ETags, tags = ⟨[some (generateEtag L t k name)], [], false⟩ →
      tags.containsRaw (generateEtag L t' k' name) = decide (generateEtag L t' k' name = generateEtag L t k name) := by
    rintro tags rfl
    simp only [Etag.ETags.containsRaw, hu, Etag.ETags.contains]
    by_cases hq : generateEtag L t' k' name = generateEtag L t k name <;> simp [hq]
  have hcr' := hcr _ rfl
  rw [he] at hcr' ⊢
  unfold modified
  rcases hr with hr | hr <;>
  · simp only [hr, hims, hi, Etag.isResourceModified]
    simp only [List.map_cons, List.map_nil] at hp
    rw [if_neg (by decide)]
    simp only [hp, Etag.ETags.truthy, hcr']
    by_cases hq : 'w' :: e = generateEtag L t k name <;> simp [hq]

theorem year_large {n : Int} {t : DateTime} (h : At n t) (hn : 0 ≤ n) : 100 ≤ t.year := by
  obtain ⟨⟨h1, h2, h3, h4, h5, h6, h7, h8, h9⟩, he⟩ := h
  have e : dayNumber 1970 1 1 = 719163 := by
    rw [← ymd2ord_eq _ _ _ (by omega)]; decide
  have hd : dayNumber t.year t.month t.day = ymd2ord t.year t.month t.day := (ymd2ord_eq _ _ _ (by omega)).symm
  unfold epoch at he
  rw [e, hd] at he
  have hb : ymd2ord t.year t.month t.day ≥ 719163 := by omega
  false_or_by_contra
  rename_i hy
  obtain ⟨a, b, c, e', k1, hb', hc', he', k2, k3⟩ := year_split t.year h1
  unfold ymd2ord at hb
  have hm : daysBeforeMonth (isLeap t.year) t.month ≤ 366 := by
    have : ∀ b : Bool, ∀ m, m < 13 → daysBeforeMonth b m ≤ 366 := by decide
    exact this _ _ (by omega)
  have hl : monthLength t.year t.month ≤ 31 := by
    unfold monthLength
    repeat' split
    all_goals omega
  omega

theorem at_total {n : Int} {t : DateTime} (h : At n t) : t.total = n + 719163 * 86400 := by
  have := epoch_total t h.1
  rw [h.2] at this
  omega

/-- What the date of an earlier answer decides. -/
theorem modified_date (L : Lib) {n n' : Int} {t t' : DateTime} {k : Nat} {name : Str} {env : List (Str × Str)} {fuel : Nat}
    (hr : Reading env) (h : At n t) (h' : At n' t') (h0 : 0 ≤ n) (micro : Int) (hm : 0 ≤ micro ∧ micro < 1000000)
    (hi : Dict.get env s%"HTTP_IF_NONE_MATCH" = none)
    (hs : Dict.get env s%"HTTP_IF_MODIFIED_SINCE" = some (httpDate t)) :
    modified fuel env (generateEtag L t' k name) (t'.total * 1000000 + micro) = .ok (some (decide (n < n'))) := by
  have hd := Desc.dateMicros_http t h.1 (year_large h h0)
  obtain ⟨e, he⟩ : ∃ e, generateEtag L t' k name = 'w' :: e := ⟨_, rfl⟩
  have htr : Etag.truncSec (t'.total * 1000000 + micro) = t'.total * 1000000 := by
    unfold Etag.truncSec
    omega
  rw [he]
  unfold modified
  have e1 := at_total h
  have e2 := at_total h'
  rcases hr with hr | hr <;>
  · simp only [hr, hs, hd, hi, Etag.isResourceModified]
    rw [if_neg (by decide)]
    simp only [Etag.parseEtags, Etag.mk, Etag.ETags.truthy, htr]
    by_cases hq : n < n'
    · simp [hq]
      omega
    · simp [hq]
      omega

/-- A client that sends back the tag it got is told to keep its copy exactly when the second of the last change and the
size are what they were; otherwise it gets the file as it is now, with another tag. -/
theorem C113_revalidate (L : Lib) (w w' : World) (cfg : Shared) (exports : List (List Str × Wsgi.Export)) (path f name : Str)
    (env env' : List (Str × Str)) (n n' : Nat) (now now' : Int) (hs : List (Str × Str)) (b : Bytes) (tag : Str)
    (mtime mtime' date expires : DateTime)
    (h : Hit L w cfg env exports path f name) (h' : Hit L w' cfg env' exports path f name) (hc : cfg.cache = true)
    (hr : Reading env) (hr' : Reading env') (hn : 1 < n')
    (hno : Dict.get env s%"HTTP_IF_NONE_MATCH" = none ∧ Dict.get env s%"HTTP_IF_MODIFIED_SINCE" = none)
    (hmk : ∀ t t', Valid t → Valid t' → L.mktime t = L.mktime t' → t = t')
    (h1 : At ((w.opened f).mtime / 1000000) mtime) (h1' : At ((w'.opened f).mtime / 1000000) mtime')
    (h2 : At now' date) (h3 : At (now' + cfg.timeout) expires)
    (h4 : call L w cfg n now env = .reply s%"200 OK" hs b false) (h5 : Dict.get hs s%"Etag" = some tag)
    (h6 : Dict.get env' s%"HTTP_IF_NONE_MATCH" = some tag) :
    ((w'.opened f).mtime / 1000000 = (w.opened f).mtime / 1000000 ∧ (w'.opened f).size = (w.opened f).size →
      call L w' cfg n' now' env' = .reply s%"304 Not Modified" [(s%"Date", httpDate date), (s%"Etag", tag),
        (s%"Cache-Control", s%"max-age=" ++ intStr cfg.timeout ++ s%", public")] [] true) ∧
    (¬ ((w'.opened f).mtime / 1000000 = (w.opened f).mtime / 1000000 ∧ (w'.opened f).size = (w.opened f).size) →
      tagOf L name (w'.opened f) mtime' ≠ tag ∧
      call L w' cfg n' now' env' = .reply s%"200 OK"
        [(s%"Date", httpDate date), (s%"Etag", tagOf L name (w'.opened f) mtime'),
          (s%"Cache-Control", s%"max-age=" ++ intStr cfg.timeout ++ s%", public"), (s%"Expires", httpDate expires),
          (s%"Content-Type", (L.guess name).getD cfg.fallback), (s%"Content-Length", natStr (w'.opened f).size),
          (s%"Last-Modified", httpDate mtime')] (w'.opened f).data false) := by
  have ht : tag = tagOf L name (w.opened f) mtime := by
    rw [call_hit h] at h4
    cases hg : gmtime now with
    | none => simp [answer, hg, gmtime_at h1] at h4
    | some d =>
      cases hg' : gmtime (now + cfg.timeout) with
      | none => simp [answer, hg, hg', gmtime_at h1] at h4
      | some e =>
        have ha : ∀ {k : Int} {t : DateTime}, gmtime k = some t → At k t := by
          intro k t hk
          obtain ⟨v, q⟩ := total_ofTotal _ t hk
          exact ⟨v, by rw [epoch_total t v, q]; omega⟩
        rw [← call_hit h, C113_served L w cfg exports path f name env n now d e mtime h hc hr hno.1 hno.2 h1 (ha hg) (ha hg')] at h4
        simp only [Outcome.reply.injEq] at h4
        rw [← h4.2.1] at h5
        simpa [Dict.get] using h5.symm
  rw [ht, tagOf_eq] at h6
  have hmod := modified_tag L (t' := mtime') (k' := (w'.opened f).size) hn hr'
    (mtime'.total * 1000000 + (w'.opened f).mtime % 1000000) h6
  rw [call_hit h', answer_cached hc h1' h2 h3 hmod]
  constructor
  · rintro ⟨e1, e2⟩
    have e3 : mtime' = mtime := at_unique h1' (by rw [e1]; exact h1)
    rw [ht, tagOf_eq, tagOf_eq, e2, e3]
    simp
  · intro hne
    have hd : generateEtag L mtime' (w'.opened f).size name ≠ generateEtag L mtime (w.opened f).size name := by
      intro he
      obtain ⟨q1, q2⟩ := etag_inj L he
      have := hmk _ _ h1'.1 h1.1 q1
      exact hne ⟨by rw [← h1'.2, ← h1.2, this], q2⟩
    refine ⟨?_, by simp [hd]⟩
    rw [ht, tagOf_eq, tagOf_eq]
    intro he
    simp only [List.cons.injEq, true_and] at he
    exact hd (List.append_cancel_right he)

/-- A client that sends back the date of its copy, and no tag, is told to keep it exactly when the file was not changed
in a later second. -/
theorem C113_since (L : Lib) (w w' : World) (cfg : Shared) (exports : List (List Str × Wsgi.Export)) (path f name : Str)
    (env env' : List (Str × Str)) (n n' : Nat) (now now' : Int) (hs : List (Str × Str)) (b : Bytes) (since : Str)
    (mtime mtime' date expires : DateTime)
    (h : Hit L w cfg env exports path f name) (h' : Hit L w' cfg env' exports path f name) (hc : cfg.cache = true)
    (hr' : Reading env') (h0 : 0 ≤ (w.opened f).mtime)
    (h1 : At ((w.opened f).mtime / 1000000) mtime) (h1' : At ((w'.opened f).mtime / 1000000) mtime')
    (h2 : At now' date) (h3 : At (now' + cfg.timeout) expires)
    (h4 : call L w cfg n now env = .reply s%"200 OK" hs b false) (h5 : Dict.get hs s%"Last-Modified" = some since)
    (h6 : Dict.get env' s%"HTTP_IF_MODIFIED_SINCE" = some since) (h7 : Dict.get env' s%"HTTP_IF_NONE_MATCH" = none) :
    ((w'.opened f).mtime / 1000000 ≤ (w.opened f).mtime / 1000000 →
      call L w' cfg n' now' env' = .reply s%"304 Not Modified" [(s%"Date", httpDate date), (s%"Etag", tagOf L name (w'.opened f) mtime'),
        (s%"Cache-Control", s%"max-age=" ++ intStr cfg.timeout ++ s%", public")] [] true) ∧
    ((w.opened f).mtime / 1000000 < (w'.opened f).mtime / 1000000 →
      call L w' cfg n' now' env' = .reply s%"200 OK"
        [(s%"Date", httpDate date), (s%"Etag", tagOf L name (w'.opened f) mtime'),
          (s%"Cache-Control", s%"max-age=" ++ intStr cfg.timeout ++ s%", public"), (s%"Expires", httpDate expires),
          (s%"Content-Type", (L.guess name).getD cfg.fallback), (s%"Content-Length", natStr (w'.opened f).size),
          (s%"Last-Modified", httpDate mtime')] (w'.opened f).data false) := by
  have ht : since = httpDate mtime := by
    rw [call_hit h] at h4
    unfold answer at h4
    cases hg : gmtime now with
    | none => simp [hg, gmtime_at h1] at h4
    | some d =>
      cases hg' : gmtime (now + cfg.timeout) with
      | none => simp [hg, hg', gmtime_at h1] at h4
      | some e =>
        simp only [hg, hg', gmtime_at h1, hc, if_true] at h4
        generalize modified n env _ _ = r at h4
        rcases r with r | _ | _ | _
        · simp at h4
        · simp at h4
        · simp at h4
        · simp only [Outcome.reply.injEq] at h4
          rw [← h4.2.1] at h5
          simpa [Dict.get, fileHeaders] using h5.symm
  rw [ht] at h6
  have hmod := modified_date L (k := (w'.opened f).size) (name := name) (fuel := n') hr' h1 h1' (by omega)
    ((w'.opened f).mtime % 1000000) (by omega) h7 h6
  rw [call_hit h', answer_cached hc h1' h2 h3 hmod]
  constructor
  · intro hle
    rw [decide_eq_false (by omega)]
    simp
  · intro hlt
    rw [decide_eq_true hlt]
    simp

/-- **Not so**: every other method is told that nothing changed, although nothing was asked and the client may have no
copy. -/
theorem C113_methods_false (L : Lib) (w : World) (cfg : Shared) (exports : List (List Str × Wsgi.Export)) (path f name : Str)
    (env : List (Str × Str)) (n : Nat) (now : Int) (date expires mtime : DateTime) (method : Str)
    (h : Hit L w cfg env exports path f name) (hc : cfg.cache = true)
    (hm : Dict.get env s%"REQUEST_METHOD" = some method) (h0 : method ≠ s%"GET" ∧ method ≠ s%"HEAD")
    (h1 : At ((w.opened f).mtime / 1000000) mtime) (h2 : At now date) (h3 : At (now + cfg.timeout) expires) :
    call L w cfg n now env = .reply s%"304 Not Modified" [(s%"Date", httpDate date), (s%"Etag", tagOf L name (w.opened f) mtime),
      (s%"Cache-Control", s%"max-age=" ++ intStr cfg.timeout ++ s%", public")] [] true := by
  rw [call_hit h, answer_cached hc h1 h2 h3 (b := false)]
  · rfl
  · obtain ⟨ims, hims⟩ := Desc.dateMicros_ok (Dict.get env s%"HTTP_IF_MODIFIED_SINCE")
    unfold modified
    simp only [hm, hims, Etag.isResourceModified, if_pos h0]

/-- **Not so**: a pattern that only matches names with a slash, such as `secret/*`, disallows nothing. -/
theorem C113_disallow_false (L : Lib) (w : World) (cfg : Shared) (n : Nat) (now : Int) (env : List (Str × Str)) (p : Str)
    (hp : ∀ name, L.fnmatch name p = true → '/' ∈ name) :
    call L w { cfg with disallow := some p } n now env = call L w { cfg with disallow := none } n now env := by
  have hb : ∀ f, '/' ∉ basename f := by
    intro f hf
    unfold basename at hf
    cases hr : rsplit1 '/' f with
    | none =>
      rw [hr] at hf
      exact rsplit1_none.1 hr hf
    | some q =>
      obtain ⟨a, b⟩ := q
      rw [hr] at hf
      exact (rsplit1_some hr).2 hf
  have ha : ∀ f, isAllowed L { cfg with disallow := some p } (basename f) = true := by
    intro f
    unfold isAllowed
    cases hm : L.fnmatch (basename f) p with
    | false => simp [hm]
    | true => exact absurd (hp _ hm) (hb f)
  unfold call
  cases ReqUrl.decodingDance (ReqUrl.envText env s%"PATH_INFO") with
  | error e => rfl
  | ok path =>
    simp only
    cases Wsgi.search w.isfile (Wsgi.cleanPath path) cfg.exports with
    | none => rfl
    | some f =>
      simp only [ha f]
      rfl

/-! ### A sample -/

/-- A library: patterns match themselves, names with `.css` at the right are style sheets, local time is UTC. -/
def someLib : Lib where
  fnmatch := fun name p => name == p
  guess := fun name => if name.drop (name.length - 4) = s%".css" then some s%"text/css" else none
  mktime := fun t => t.total - 719163 * 86400
  adler := fun name => name.length

/-- A directory with a style sheet. -/
def someWorld (data : Bytes) (mtime : Int) (size : Nat) : World where
  isfile := fun f => f == s%"/srv/css/a.css"
  opened := fun _ => ⟨data, mtime, size⟩

/-- The directory is exported as `/static`, after a single file. -/
def someExports : List (List Str × Wsgi.Export) := [([s%"robots"], .file s%"/srv/robots.txt"), ([s%"static"], .dir s%"/srv")]

/-- A middleware. -/
def someShared : Shared := { exports := keyed someExports }

/-- A request for the style sheet. -/
def someEnv : List (Str × Str) := [(s%"REQUEST_METHOD", s%"GET"), (s%"PATH_INFO", s%"/static/../css//a.css")]

theorem some_hit (data : Bytes) (mtime : Int) (size : Nat) (env : List (Str × Str))
    (he : Dict.get env s%"PATH_INFO" = some s%"/static/../css//a.css") :
    Hit someLib (someWorld data mtime size) someShared env someExports s%"/static/../css//a.css" s%"/srv/css/a.css" s%"a.css" where
  exported := rfl
  proper := by
    refine ⟨by unfold someExports; decide +kernel, ?_, ?_⟩
    · intro ks d h
      simp [someExports] at h
      obtain ⟨_, rfl⟩ := h
      decide
    · intro d
      refine beq_eq_false_iff_ne.2 fun h => ?_
      have := congrArg List.getLast? h
      rw [List.getLast?_concat] at this
      revert this
      decide
  asked := by rw [he]; decide +kernel
  found := by
    show List.findSome? (fileOf (fun f => f == s%"/srv/css/a.css") _) someExports = _
    decide +kernel
  base := ⟨by decide, .inr ⟨s%"/srv/css", rfl⟩⟩
  allowed := by intro p h; cases h

theorem some_mktime : ∀ t t', Valid t → Valid t' → someLib.mktime t = someLib.mktime t' → t = t' := by
  intro t t' h h' he
  have e : t.total = t'.total := by
    simp only [someLib] at he
    omega
  have := ofTotal_total t h
  rw [e, ofTotal_total t' h'] at this
  exact (Option.some.inj this).symm

/-- Friday, 14 July 2017, 02:40:00. -/
def someTime : DateTime := ⟨2017, 7, 14, 2, 40, 0⟩

theorem someTime_at : At 1500000000 someTime := by
  refine ⟨?_, by decide +kernel⟩
  unfold Valid
  decide +kernel

/-- Twelve hours later. -/
def laterTime : DateTime := ⟨2017, 7, 14, 14, 40, 0⟩

theorem laterTime_at : At (1500000000 + 43200) laterTime := by
  refine ⟨?_, by decide +kernel⟩
  unfold Valid
  decide +kernel

/-- What the first request gets. -/
def someHeaders (size : Str) : List (Str × Str) :=
  [(s%"Date", s%"Fri, 14 Jul 2017 02:40:00 GMT"), (s%"Etag", s%"\"wzsdm-1500000000-" ++ size ++ s%"-5\""),
    (s%"Cache-Control", s%"max-age=43200, public"), (s%"Expires", s%"Fri, 14 Jul 2017 14:40:00 GMT"),
    (s%"Content-Type", s%"text/css"), (s%"Content-Length", size), (s%"Last-Modified", s%"Fri, 14 Jul 2017 02:40:00 GMT")]

example : call someLib (someWorld b%"a{}" 1500000000250000 3) someShared 5 1500000000 someEnv =
    .reply s%"200 OK" (someHeaders s%"3") b%"a{}" false := by
  have h := C113_served someLib (someWorld b%"a{}" 1500000000250000 3) someShared someExports _ _ _ someEnv 5 1500000000
    someTime laterTime someTime (some_hit _ _ _ someEnv rfl) rfl (.inl rfl) rfl rfl someTime_at someTime_at laterTime_at
  rw [h]
  decide +kernel

example : call someLib (someWorld b%"a{}" 1500000000250000 3) { someShared with disallow := some s%"a.css" } 5 1500000000 someEnv =
    .app :=
  (C113_through someLib _ { someShared with disallow := some s%"a.css" } someExports s%"/static/../css//a.css" someEnv 5 1500000000 rfl
    (some_hit b%"a{}" 1500000000250000 3 someEnv rfl).proper
    (by decide +kernel)).2 s%"/srv/css/a.css" s%"a.css" s%"a.css" (some_hit b%"a{}" 1500000000250000 3 someEnv rfl).found
    ⟨by decide, .inr ⟨s%"/srv/css", rfl⟩⟩ rfl rfl

/-- A second request, which tells what the client has. -/
def againEnv (tag : Str) : List (Str × Str) := (s%"HTTP_IF_NONE_MATCH", tag) :: someEnv

example (data : Bytes) : call someLib (someWorld data 1500000000250000 4) someShared 5 1500000000 (againEnv s%"\"wzsdm-1500000000-3-5\"") =
    .reply s%"200 OK" (someHeaders s%"4") data false := by
  have h4 : call someLib (someWorld b%"a{}" 1500000000250000 3) someShared 5 1500000000 someEnv =
      .reply s%"200 OK" (someHeaders s%"3") b%"a{}" false := by decide +kernel
  have h := (C113_revalidate someLib (someWorld b%"a{}" 1500000000250000 3) (someWorld data 1500000000250000 4) someShared someExports
    _ _ _ someEnv (againEnv s%"\"wzsdm-1500000000-3-5\"") 5 5 1500000000 1500000000 _ _ s%"\"wzsdm-1500000000-3-5\""
    someTime someTime someTime laterTime (some_hit _ _ _ someEnv rfl) (some_hit _ _ _ _ rfl) rfl (.inl rfl) (.inl rfl) (by decide)
    ⟨rfl, rfl⟩ some_mktime someTime_at someTime_at someTime_at laterTime_at h4 rfl rfl).2 (fun hc => absurd (show 4 = 3 from hc.2) (by decide))
  have hh : [(s%"Date", httpDate someTime), (s%"Etag", tagOf someLib s%"a.css" ⟨[], 1500000000250000, 4⟩ someTime),
      (s%"Cache-Control", s%"max-age=" ++ intStr someShared.timeout ++ s%", public"), (s%"Expires", httpDate laterTime),
      (s%"Content-Type", (someLib.guess s%"a.css").getD someShared.fallback), (s%"Content-Length", natStr 4),
      (s%"Last-Modified", httpDate someTime)] = someHeaders s%"4" := by decide +kernel
  exact h.2.trans (by
    rw [← hh]
    rfl)

example (data : Bytes) (size : Nat) :
    call someLib (someWorld data 1499999999999999 size) someShared 5 1500000000
        ((s%"HTTP_IF_MODIFIED_SINCE", s%"Fri, 14 Jul 2017 02:40:00 GMT") :: someEnv) =
      .reply s%"304 Not Modified" [(s%"Date", httpDate someTime),
        (s%"Etag", tagOf someLib s%"a.css" ⟨data, 1499999999999999, size⟩ ⟨2017, 7, 14, 2, 39, 59⟩),
        (s%"Cache-Control", s%"max-age=" ++ intStr 43200 ++ s%", public")] [] true := by
  have h4 : call someLib (someWorld b%"a{}" 1500000000250000 3) someShared 5 1500000000 someEnv =
      .reply s%"200 OK" (someHeaders s%"3") b%"a{}" false := by decide +kernel
  exact (C113_since someLib (someWorld b%"a{}" 1500000000250000 3) (someWorld data 1499999999999999 size) someShared someExports
    _ _ _ someEnv _ 5 5 1500000000 1500000000 _ _ _
    someTime ⟨2017, 7, 14, 2, 39, 59⟩ someTime laterTime (some_hit _ _ _ someEnv rfl) (some_hit _ _ _ _ rfl) rfl (.inl rfl)
    (by decide) someTime_at (show At (1499999999999999 / 1000000) _ from
      ⟨by unfold Valid; decide +kernel, by decide +kernel⟩) someTime_at laterTime_at h4 rfl rfl rfl).1
    (show (1499999999999999 / 1000000 : Int) ≤ 1500000000250000 / 1000000 by decide)

example : ∃ hs, call someLib (someWorld b%"a{}" 1500000000250000 3) someShared 5 1500000000
    [(s%"REQUEST_METHOD", s%"POST"), (s%"PATH_INFO", s%"/static/../css//a.css")] = .reply s%"304 Not Modified" hs [] true :=
  ⟨_, C113_methods_false someLib _ _ someExports _ _ _ _ 5 1500000000 someTime laterTime someTime s%"POST"
    (some_hit _ _ _ _ rfl) rfl rfl (by decide) someTime_at someTime_at laterTime_at⟩

example : ∃ hs, call someLib (someWorld b%"a{}" 1500000000250000 3) { someShared with cache := false } 5 1500000000 (againEnv s%"*") =
    .reply s%"200 OK" hs b%"a{}" false :=
  ⟨_, C113_uncached someLib (someWorld b%"a{}" 1500000000250000 3) { someShared with cache := false } someExports _ _ _ _ 5 1500000000
    someTime laterTime someTime
    { (some_hit b%"a{}" 1500000000250000 3 (againEnv s%"*") rfl) with exported := rfl } rfl someTime_at someTime_at laterTime_at⟩

/-- **Not so**: contents that change without changing the size, within the second of the last change, are not sent to a
client that has the old ones. -/
theorem C113_stale_false :
    call someLib (someWorld b%"a{}" 1500000000250000 3) someShared 5 1500000000 someEnv =
      .reply s%"200 OK" (someHeaders s%"3") b%"a{}" false ∧
    Dict.get (someHeaders s%"3") s%"Etag" = some s%"\"wzsdm-1500000000-3-5\"" ∧
    call someLib (someWorld b%"b{}" 1500000000750000 3) someShared 5 1500000000 (againEnv s%"\"wzsdm-1500000000-3-5\"") =
      .reply s%"304 Not Modified" ((someHeaders s%"3").take 3) [] true := by decide +kernel

/-- **Not so**: data of a package that is not in the file system are announced with the length 0 and sent. -/
theorem C113_length_false :
    call someLib (someWorld b%"a{}" 1500000000250000 0) someShared 5 1500000000 someEnv =
      .reply s%"200 OK" (someHeaders s%"0") b%"a{}" false ∧
    Dict.get (someHeaders s%"0") s%"Content-Length" = some s%"0" := by decide +kernel

example : call { someLib with fnmatch := fun name p => p == s%"css/*" && s%"css/".isPrefixOf name } (someWorld b%"a{}" 1500000000250000 3)
    { someShared with disallow := some s%"css/*" } 5 1500000000 someEnv = .reply s%"200 OK" (someHeaders s%"3") b%"a{}" false := by
  rw [C113_disallow_false]
  · decide +kernel
  · intro name h
    simp only [Bool.and_eq_true] at h
    obtain ⟨t, rfl⟩ := List.isPrefixOf_iff_prefix.1 h.2
    simp

end Verif.Props.SharedP
