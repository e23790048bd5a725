import Verif.Model.Wsgi
import Verif.Spec.Paths
import Verif.Props.Stream
/-!
C35, C36, C37, C63: `/repo/verktyg/wsgi.py`.
-/
namespace Verif.Wsgi
open Verif Verif.Py Verif.Paths

/-! ### Mounts -/

theorem mountGo_spec {A} (mounts : Str → Option A) (app : A) (path : Str) :
    ∀ (n : Nat) (script info : Str), script.length < n → script ++ info = path → Boundary info →
      (∀ p r, path = p ++ r → Boundary r → script.length < p.length → mounts p = none) →
      let res := mountGo mounts app n script info
      res.2.1 ++ res.2.2 = path ∧ Boundary res.2.2 ∧
      (∀ p r, path = p ++ r → Boundary r → res.2.1.length < p.length → mounts p = none) ∧
      (mounts res.2.1 = some res.1 ∨ (mounts res.2.1 = none ∧ res.1 = app ∧ '/' ∉ res.2.1))
  | 0, _, _, h, _, _, _ => by omega
  | n + 1, script, info, hn, hp, hb, hl => by
    unfold mountGo
    cases hs : rsplit1 '/' script with
    | none =>
      refine ⟨hp, hb, hl, ?_⟩
      cases hm : mounts script with
      | some x => simp
      | none => exact Or.inr ⟨rfl, rfl, rsplit1_none.1 hs⟩
    | some ab =>
      obtain ⟨a, b⟩ := ab
      obtain ⟨h1, h2⟩ := rsplit1_some hs
      dsimp only
      cases hm : mounts script with
      | some x => exact ⟨hp, hb, hl, Or.inl hm⟩
      | none =>
        dsimp only
        refine mountGo_spec mounts app path n a ('/' :: b ++ info) ?_ ?_ (Or.inr rfl) ?_
        · have := congrArg List.length h1; simp at this; omega
        · rw [← hp, h1]; simp
        · intro p r hpr hbr hlt
          by_cases hgt : script.length < p.length
          · exact hl p r hpr hbr hgt
          · by_cases he : p.length = script.length
            · have : p = script := by
                rw [← hp] at hpr
                exact (List.append_inj hpr he.symm).1.symm
              rw [this]; exact hm
            · -- strictly between `a` and `script`: the next character is in `b`
              exfalso
              have hlt' : p.length < script.length := by omega
              have hpre : p <+: script := by
                rw [← hp] at hpr
                exact List.prefix_of_prefix_length_le ⟨r, hpr.symm⟩ ⟨info, rfl⟩ (by omega)
              obtain ⟨t, ht⟩ := hpre
              have hr : r = t ++ info := by
                rw [← hp, ← ht, List.append_assoc] at hpr
                exact (List.append_cancel_left hpr).symm
              have htne : t ≠ [] := by rintro rfl; simp at ht; rw [ht] at hlt'; omega
              have hth : t.head? = some '/' := by
                cases t with
                | nil => exact absurd rfl htne
                | cons x xs =>
                  rcases hbr with hbr | hbr
                  · rw [hr] at hbr; simp at hbr
                  · rw [hr] at hbr; simpa using hbr
              -- `a ++ '/' :: b = p ++ t` with `a` shorter than `p`
              have hap : a ++ '/' :: b = p ++ t := by rw [ht, ← h1]
              obtain ⟨u, hu⟩ : a <+: p := List.prefix_of_prefix_length_le ⟨'/' :: b, hap⟩ ⟨t, rfl⟩ (by omega)
              rw [← hu, List.append_assoc] at hap
              have h3 := List.append_cancel_left hap
              cases u with
              | nil => simp at hu; rw [hu] at hlt; omega
              | cons x xs =>
                simp at h3
                apply h2
                rw [h3.2]
                cases t with
                | nil => exact absurd rfl htne
                | cons y ys => simp at hth; simp [hth]

/-- **C35.**  One application is called, with `SCRIPT_NAME` extended and `PATH_INFO` cut so
that together they are what they were; the mount is the longest mounted prefix of the path
that ends at a segment boundary, and the default application is called exactly when there
is none (without moving anything when the path is empty or starts with a slash).  Nothing
else in the environ changes. -/
theorem C35_mount {A} (mounts : Str → Option A) (app : A) (environ : List (Str × Str)) :
    let path := (Dict.get environ s%"PATH_INFO").getD []
    let orig := (Dict.get environ s%"SCRIPT_NAME").getD []
    let res := mountCall mounts app environ
    ∃ script info, path = script ++ info ∧ Boundary info ∧
      Dict.get res.2 s%"SCRIPT_NAME" = some (orig ++ script) ∧
      Dict.get res.2 s%"PATH_INFO" = some info ∧
      (∀ k, k ≠ s%"SCRIPT_NAME" → k ≠ s%"PATH_INFO" → Dict.get res.2 k = Dict.get environ k) ∧
      ((mounts script = some res.1 ∧
          ∀ p r, path = p ++ r → Boundary r → script.length < p.length → mounts p = none) ∨
       (res.1 = app ∧ (∀ p r, path = p ++ r → Boundary r → mounts p = none) ∧
          (Boundary path → script = []))) := by
  intro path orig res
  obtain ⟨h1, h2, h3, h4⟩ := mountGo_spec mounts app path (path.length + 1) path [] (by omega) (by simp)
    (Or.inl rfl) (fun p r hp _ hl => by have := congrArg List.length hp; simp at this; omega)
  refine ⟨_, _, h1.symm, h2, ?_, ?_, ?_, ?_⟩
  · simp only [res, mountCall, Dict.get_set]
    rw [if_neg (by decide)]
    simp only [if_true]
    rfl
  · simp only [res, mountCall, Dict.get_set]
    rfl
  · intro k hk1 hk2
    simp only [res, mountCall, Dict.get_set]
    rw [if_neg hk2, if_neg hk1]
  · rcases h4 with h4 | ⟨h5, h6, h7⟩
    · exact Or.inl ⟨h4, h3⟩
    · refine Or.inr ⟨h6, ?_, ?_⟩
      · intro p r hp hb
        by_cases hl : (mountGo mounts app (path.length + 1) path []).2.1.length < p.length
        · exact h3 p r hp hb hl
        · generalize hm : (mountGo mounts app (path.length + 1) path []).2.1 = script at *
          generalize (mountGo mounts app (path.length + 1) path []).2.2 = info at *
          rw [← h1] at hp
          obtain ⟨t, ht⟩ : p <+: script :=
            List.prefix_of_prefix_length_le ⟨r, hp.symm⟩ ⟨info, rfl⟩ (by omega)
          cases t with
          | nil => simp at ht; rw [ht]; exact h5
          | cons x xs =>
            exfalso
            rw [← ht, List.append_assoc] at hp
            have hr := List.append_cancel_left hp
            rcases hb with hb | hb
            · rw [hb] at hr; simp at hr
            · rw [← hr] at hb
              simp at hb
              apply h7
              rw [← ht, hb]
              simp
      · intro hb
        generalize (mountGo mounts app (path.length + 1) path []).2.1 = script at *
        generalize (mountGo mounts app (path.length + 1) path []).2.2 = info at *
        cases script with
        | nil => rfl
        | cons x xs =>
          rw [← h1] at hb
          rcases hb with hb | hb
          · simp at hb
          · simp at hb
            simp [hb] at h7

example : mountCall (fun p => if p = s%"/a" then some 1 else if p = s%"/a/b" then some 2 else none) 0
    [(s%"PATH_INFO", s%"/a/b/c"), (s%"SCRIPT_NAME", s%"/x")]
    = (2, [(s%"PATH_INFO", s%"/c"), (s%"SCRIPT_NAME", s%"/x/a/b")]) := by decide

example : mountCall (fun p => if p = s%"/a" then some 1 else none) 0 [(s%"PATH_INFO", s%"/ab/c")]
    = (0, [(s%"PATH_INFO", s%"/ab/c"), (s%"SCRIPT_NAME", [])]) := by decide

/-! ### Shared data -/

theorem cleanPath_split (p : Str) : ∃ segs : List Str, (∀ x ∈ segs, x ≠ [] ∧ x ≠ ['.', '.'] ∧ '/' ∉ x) ∧
    cleanPath p = '/' :: join ['/'] segs ∧
    splitOn '/' (cleanPath p) = [] :: (if segs = [] then [[]] else segs) := by
  refine ⟨_, ?_, rfl, ?_⟩
  · intro x hx
    obtain ⟨h1, h2⟩ := List.mem_filter.1 hx
    simp at h2
    exact ⟨h2.1, h2.2, splitOn_no_sep _ _ x h1⟩
  · generalize hs : List.filter _ _ = segs
    have hseg : ∀ x ∈ segs, '/' ∉ x := by
      intro x hx
      rw [← hs] at hx
      exact splitOn_no_sep _ _ x (List.mem_filter.1 hx).1
    simp only [cleanPath, hs]
    have := splitOn_append_sep '/' [] (join ['/'] segs)
    simp only [List.nil_append] at this
    rw [this]
    split
    · rename_i h; subst h; simp [join, splitOn]
    · rename_i h
      rw [splitOn_join '/' segs h hseg]
      simp [splitOn]

/-- What remains of a sanitised path after a prefix that ends with a slash. -/
theorem rest_ok (p q rest : Str) (h : cleanPath p = q ++ '/' :: rest) :
    rest.head? ≠ some '/' ∧ ∀ x ∈ splitOn '/' rest, x ≠ ['.', '.'] := by
  obtain ⟨segs, h1, -, h3⟩ := cleanPath_split p
  rw [h, splitOn_append_sep] at h3
  obtain ⟨q0, qs, hq⟩ := List.exists_cons_of_ne_nil (splitOn_ne_nil '/' q)
  rw [hq, List.cons_append, List.cons.injEq] at h3
  obtain ⟨-, h3⟩ := h3
  constructor
  · intro hr
    cases rest with
    | nil => simp at hr
    | cons x xs =>
      simp at hr
      subst hr
      have h4 : splitOn '/' ('/' :: xs) = [] :: splitOn '/' xs := by simp [splitOn]
      rw [h4] at h3
      obtain ⟨y, ys, hy⟩ := List.exists_cons_of_ne_nil (splitOn_ne_nil '/' xs)
      rw [hy] at h3
      split at h3
      · have := congrArg List.length h3; simp at this; omega
      · have hm : ([] : Str) ∈ segs := by rw [← h3]; simp
        exact (h1 _ hm).1 rfl
  · intro x hx
    have hm : x ∈ (if segs = [] then [[]] else segs) := by rw [← h3]; simp [hx]
    split at hm
    · simp at hm; rw [hm]; decide
    · exact (h1 x hm).2.1

theorem walk_prefix (segs : List Str) : ∀ st : List Str, (∀ x ∈ segs, x ≠ ['.', '.']) → st <+: segs.foldl walk st := by
  induction segs with
  | nil => intro st _; exact List.prefix_refl st
  | cons x xs ih =>
    intro st h
    have hx := h x (by simp)
    refine List.IsPrefix.trans ?_ (ih (walk st x) fun y hy => h y (by simp [hy]))
    unfold walk
    split
    · exact List.prefix_refl st
    · simp [hx]

theorem resolve_sep (a b : Str) : resolve (a ++ '/' :: b) = (splitOn '/' b).foldl walk (resolve a) := by
  simp [resolve, splitOn_append_sep]

theorem join_inside (d rest : Str) (h1 : rest.head? ≠ some '/') (h2 : ∀ x ∈ splitOn '/' rest, x ≠ ['.', '.']) :
    Inside d (pathJoin d rest) := by
  unfold pathJoin
  rw [if_neg h1]
  split
  · rename_i hd
    rcases hd with rfl | hd
    · exact ⟨by simp [h1], by
        have : resolve [] = [] := by decide
        rw [this]; exact List.nil_prefix⟩
    · obtain ⟨d', rfl⟩ : ∃ d', d = d' ++ ['/'] := by
        obtain ⟨ys, hys⟩ := List.getLast?_eq_some_iff.1 hd
        exact ⟨ys, hys⟩
      refine ⟨by cases d' <;> simp, ?_⟩
      rw [List.append_assoc, List.singleton_append, resolve_sep d' rest]
      have : resolve (d' ++ ['/']) = resolve d' := by rw [resolve_sep]; simp [splitOn, walk]
      rw [this]
      exact walk_prefix _ _ h2
  · rename_i hd
    refine ⟨by cases d <;> simp_all, ?_⟩
    rw [resolve_sep]
    exact walk_prefix _ _ h2

theorem search_spec (isfile : Str → Bool) (p : Str) : ∀ (exports : List (Str × Export)) (f : Str),
    search isfile (cleanPath p) exports = some f →
    ∃ k e, (k, e) ∈ exports ∧ (e = .file f ∨ ∃ d, e = .dir d ∧ isfile f = true ∧ Inside d f)
  | [], f, h => by simp [search] at h
  | (sp, e) :: es, f, h => by
    unfold search at h
    have hload : ∀ arg, load isfile e arg = some f → (∀ r, arg = some r → r.head? ≠ some '/' ∧ ∀ x ∈ splitOn '/' r, x ≠ ['.', '.']) →
        ∃ k e', (k, e') ∈ (sp, e) :: es ∧ (e' = .file f ∨ ∃ d, e' = .dir d ∧ isfile f = true ∧ Inside d f) := by
      intro arg hl harg
      refine ⟨sp, e, by simp, ?_⟩
      cases e with
      | file g => simp [load] at hl; exact Or.inl (by rw [hl])
      | dir d =>
        right
        cases arg with
        | none =>
          simp only [load] at hl
          split at hl
          · rename_i hf
            simp at hl
            subst hl
            exact ⟨d, rfl, hf, Iff.rfl, List.prefix_refl _⟩
          · simp at hl
        | some r =>
          simp only [load] at hl
          split at hl
          · rename_i hf
            simp at hl
            obtain ⟨a, b⟩ := harg r rfl
            subst hl
            exact ⟨d, rfl, hf, join_inside d r a b⟩
          · simp at hl
    split at h
    · rename_i g hg
      simp at h
      subst h
      split at hg
      · exact hload none hg (by simp)
      · simp at hg
    · rename_i hg
      split at h
      · rename_i g hg2
        simp at h
        subst h
        split at hg2
        · rename_i hpre
          refine hload _ hg2 ?_
          rintro r hr
          simp only [Option.some.injEq] at hr
          obtain ⟨t, ht⟩ := hpre
          have hlast : ∃ q, withSlash sp = q ++ ['/'] := by
            unfold withSlash
            split
            · rename_i hl
              obtain ⟨ys, hys⟩ := List.getLast?_eq_some_iff.1 hl
              exact ⟨ys, hys⟩
            · exact ⟨sp, rfl⟩
          obtain ⟨q, hq⟩ := hlast
          rw [hq] at ht hr
          have hrt : r = t := by rw [← hr, ← ht]; simp
          subst hrt
          exact rest_ok p q r (by rw [← ht]; simp)
        · simp at hg2
      · obtain ⟨k, e', hm, hh⟩ := search_spec isfile p es f h
        exact ⟨k, e', List.mem_cons_of_mem _ hm, hh⟩

/-- **C36.**  Whatever path is requested, whatever the file system contains and whatever is
exported: the file that is served is an exported file, or a file inside an exported
directory after resolving dot segments (symbolic links aside). -/
theorem C36_no_escape (isfile allowed : Str → Bool) (exports : List (Str × Export)) (pathInfo f : Str)
    (h : serve isfile allowed exports pathInfo = some f) :
    allowed f = true ∧
    ∃ k e, (k, e) ∈ exports ∧ (e = .file f ∨ ∃ d, e = .dir d ∧ isfile f = true ∧ Inside d f) := by
  unfold serve at h
  split at h
  · simp at h
  · rename_i g hg
    split at h
    · rename_i ha
      simp at h
      subst h
      exact ⟨ha, search_spec isfile pathInfo exports g hg⟩
    · simp at h

example : serve (fun f => f = s%"/srv/pub/a/b.txt") (fun _ => true) [(s%"/static", .dir s%"/srv/pub")]
    s%"/static/../../a/./../b.txt" = none := by decide

example : serve (fun f => f = s%"/srv/pub/a/b.txt") (fun _ => true) [(s%"/static", .dir s%"/srv/pub")]
    s%"/..//static/a/../b.txt" = some s%"/srv/pub/a/b.txt" := by decide

/-- The refusal to look at `..` is needed: a path with it can leave the directory. -/
example : ¬ Inside s%"/srv/pub" (pathJoin s%"/srv/pub" s%"../secret") := by
  rintro ⟨-, h⟩
  revert h
  decide

/-! ### Hosts -/

/-- **C37, soundness.**  A host is only accepted when its name equals the name of a listed
entry (ignoring the leading dot of the entry), both without port and after IDNA. -/
theorem C37_sound (idna : Str → Except PyErr Bytes) (host : Str) (trusted : List Str)
    (h : hostIsTrusted idna host trusted = .ok true) :
    host ≠ [] ∧ ∃ ref ∈ trusted, ∃ n, normalizeHost idna host = .ok n ∧
      (normalizeHost idna ref = .ok n ∨ ∃ d, ref = '.' :: d ∧ normalizeHost idna d = .ok n) := by
  unfold hostIsTrusted at h
  by_cases h0 : host = []
  · simp [h0] at h
  refine ⟨h0, ?_⟩
  rw [if_neg h0] at h
  cases hn : normalizeHost idna host with
  | error e => simp [hn] at h
  | ok n =>
    simp only [hn] at h
    suffices hh : ∃ ref ∈ trusted, normalizeHost idna (entryName ref) = .ok n by
      obtain ⟨ref, h1, h2⟩ := hh
      refine ⟨ref, h1, n, rfl, ?_⟩
      unfold entryName at h2
      split at h2
      · rename_i hd
        cases ref with
        | nil => simp at hd
        | cons x xs =>
          simp at hd
          subst hd
          exact Or.inr ⟨xs, rfl, h2⟩
      · exact Or.inl h2
    induction trusted with
    | nil => simp [trustGo] at h
    | cons ref refs ih =>
      unfold trustGo at h
      cases hr : normalizeHost idna (entryName ref) with
      | error e => simp [hr] at h
      | ok r =>
        simp only [hr] at h
        by_cases he : r = n
        · exact ⟨ref, by simp, by rw [hr, he]⟩
        · rw [if_neg he] at h
          split at h
          · simp at h
          · obtain ⟨x, hx, hh⟩ := ih h
            exact ⟨x, by simp [hx], hh⟩

/-- **C37, exact decision for lists without dotted entries** whose names can be encoded: a
host is accepted exactly when it has the name of an entry. -/
theorem C37_exact_partial (idna : Str → Except PyErr Bytes) (host : Str) (trusted : List Str) (n : Bytes)
    (h0 : host ≠ []) (hn : normalizeHost idna host = .ok n)
    (hd : ∀ ref ∈ trusted, ref.head? ≠ some '.') (hk : ∀ ref ∈ trusted, ∃ m, normalizeHost idna ref = .ok m) :
    ∃ b, hostIsTrusted idna host trusted = .ok b ∧
      (b = true ↔ ∃ ref ∈ trusted, normalizeHost idna ref = .ok n) := by
  have h1 : hostIsTrusted idna host trusted = trustGo idna n trusted := by
    simp [hostIsTrusted, h0, hn]
  rw [h1]
  clear h1
  induction trusted with
  | nil => exact ⟨false, rfl, by simp⟩
  | cons ref refs ih =>
    obtain ⟨m, hm⟩ := hk ref (by simp)
    have hdr := hd ref (by simp)
    have hen : entryName ref = ref := if_neg hdr
    simp only [trustGo, hen, hm]
    by_cases he : m = n
    · subst he
      exact ⟨true, by simp, by simp [hm]⟩
    · rw [if_neg he, if_neg hdr]
      obtain ⟨b, hb1, hb2⟩ := ih (fun x hx => hd x (by simp [hx])) (fun x hx => hk x (by simp [hx]))
      refine ⟨b, hb1, hb2.trans ?_⟩
      constructor
      · rintro ⟨x, hx, hh⟩; exact ⟨x, by simp [hx], hh⟩
      · rintro ⟨x, hx, hh⟩
        rcases List.mem_cons.1 hx with rfl | hx
        · rw [hm] at hh; simp at hh; exact absurd hh he
        · exact ⟨x, hx, hh⟩

/-- `host` is `name`, or `name` with a port. -/
def Named (host name : Str) : Prop := (host = name ∧ ':' ∉ name) ∨ ∃ port, host = name ++ ':' :: port ∧ ':' ∉ port

theorem normalize_named (idna : Str → Except PyErr Bytes) {host name : Str} (h : Named host name)
    (ha : ∀ c ∈ host, c.toNat < 128) :
    normalizeHost idna host = .ok (name.map fun c => UInt8.ofNat c.toNat) := by
  have enc : ∀ s : Str, (∀ c ∈ s, c.toNat < 128) → encodeIdna idna s = .ok (s.map fun c => UInt8.ofNat c.toNat) := by
    intro s hs
    have : s.all (fun c => c.toNat < 128) = true := by simpa using hs
    simp only [encodeIdna, asciiEncode, this, if_true]
  unfold normalizeHost
  rcases h with ⟨rfl, h⟩ | ⟨port, rfl, h⟩
  · rw [rsplit1_none.mpr h]
    exact enc _ ha
  · rw [rsplit1_eq h]
    exact enc _ fun c hc => ha c (by simp [hc])

theorem octets_inj : ∀ {a b : Str}, (∀ c ∈ a, c.toNat < 128) → (∀ c ∈ b, c.toNat < 128) →
    (a.map fun c => UInt8.ofNat c.toNat) = (b.map fun c => UInt8.ofNat c.toNat) → a = b
  | [], [], _, _, _ => rfl
  | [], _ :: _, _, _, h => by simp at h
  | _ :: _, [], _, _, h => by simp at h
  | x :: xs, y :: ys, ha, hb, h => by
    simp only [List.map_cons, List.cons.injEq] at h
    have h1 := ha x (by simp)
    have h2 := hb y (by simp)
    have h3 := congrArg UInt8.toNat h.1
    simp only [UInt8.toNat_ofNat'] at h3
    have : x.toNat = y.toNat := by omega
    rw [Char.toNat_inj.mp this, octets_inj (fun c hc => ha c (by simp [hc])) (fun c hc => hb c (by simp [hc])) h.2]

/-- **C37, ports are ignored.**  For a host and a list of entries in ASCII, none of which starts
with a dot, the host is trusted exactly when its name without port is the name without port of
an entry. -/
theorem C37_ports_partial (idna : Str → Except PyErr Bytes) (host name : Str) (entries : List (Str × Str))
    (h0 : host ≠ []) (hn : Named host name) (ha : ∀ c ∈ host, c.toNat < 128)
    (he : ∀ e ∈ entries, Named e.1 e.2 ∧ (∀ c ∈ e.1, c.toNat < 128) ∧ e.1.head? ≠ some '.') :
    hostIsTrusted idna host (entries.map (·.1)) = .ok (decide (name ∈ entries.map (·.2))) := by
  have sub : ∀ {host name : Str}, Named host name → (∀ c ∈ host, c.toNat < 128) → ∀ c ∈ name, c.toNat < 128 := by
    intro host name h ha c hc
    rcases h with ⟨rfl, _⟩ | ⟨_, rfl, _⟩
    · exact ha c hc
    · exact ha c (by simp [hc])
  obtain ⟨b, hb, hiff⟩ := C37_exact_partial idna host (entries.map (·.1)) _ h0 (normalize_named idna hn ha)
    (by intro r hr; obtain ⟨e, h1, rfl⟩ := List.mem_map.mp hr; exact (he e h1).2.2)
    (by intro r hr; obtain ⟨e, h1, rfl⟩ := List.mem_map.mp hr; exact ⟨_, normalize_named idna (he e h1).1 (he e h1).2.1⟩)
  rw [hb]
  congr 1
  rw [Bool.eq_iff_iff, hiff, decide_eq_true_eq]
  constructor
  · rintro ⟨r, hr, h⟩
    obtain ⟨e, h1, rfl⟩ := List.mem_map.mp hr
    rw [normalize_named idna (he e h1).1 (he e h1).2.1] at h
    have := octets_inj (sub (he e h1).1 (he e h1).2.1) (sub hn ha) (by simpa using h)
    exact List.mem_map.mpr ⟨e, h1, this⟩
  · intro h
    obtain ⟨e, h1, h2⟩ := List.mem_map.mp h
    exact ⟨e.1, List.mem_map.mpr ⟨e, h1, rfl⟩, by rw [normalize_named idna (he e h1).1 (he e h1).2.1, h2]⟩

example : Named s%"example.com:80" s%"example.com" := Or.inr ⟨s%"80", rfl, by decide⟩

/-- **C37, which host.**  Without a trusted list `get_host` returns the first of the forwarded
hosts without surrounding white space, if there are any; else the `Host` header; else the name
of the server, with its port unless that is the standard one of the scheme. -/
theorem C37_source (idna : Str → Except PyErr Bytes) (environ : List (Str × Str)) :
    (∀ v, ',' ∉ v → Dict.get environ s%"HTTP_X_FORWARDED_HOST" = some v → getHost idna environ none = .ok (strip v)) ∧
    (∀ v rest, ',' ∉ v → Dict.get environ s%"HTTP_X_FORWARDED_HOST" = some (v ++ ',' :: rest) →
      getHost idna environ none = .ok (strip v)) ∧
    (∀ v, Dict.get environ s%"HTTP_X_FORWARDED_HOST" = none → Dict.get environ s%"HTTP_HOST" = some v →
      getHost idna environ none = .ok v) ∧
    (∀ name scheme port, Dict.get environ s%"HTTP_X_FORWARDED_HOST" = none → Dict.get environ s%"HTTP_HOST" = none →
      Dict.get environ s%"SERVER_NAME" = some name → Dict.get environ s%"wsgi.url_scheme" = some scheme →
      Dict.get environ s%"SERVER_PORT" = some port →
      getHost idna environ none =
        .ok (if scheme = s%"http" ∧ port = s%"80" ∨ scheme = s%"https" ∧ port = s%"443" then name
          else name ++ s%":" ++ port)) := by
  refine ⟨?_, ?_, ?_, ?_⟩
  · intro v hv h
    simp [getHost, hostOf, h, split1_none _ _ hv]
  · intro v rest hv h
    simp [getHost, hostOf, h, split1_some _ _ _ hv]
  · intro v h1 h2
    simp [getHost, hostOf, h1, h2]
  · intro name scheme port h1 h2 h3 h4 h5
    simp only [getHost, hostOf, h1, h2, h3, h4, h5, Prod.mk.injEq]
    simp only [or_comm, List.append_assoc, List.cons_append, List.nil_append]

example : getHost (fun _ => .error .unicodeError)
    [(s%"HTTP_X_FORWARDED_HOST", s%" a.example , b.example"), (s%"HTTP_HOST", s%"c")] none = .ok s%"a.example" := rfl

/-- **C37 fails** for dotted entries: a subdomain is not accepted but raises `TypeError`, and
so does every other host that reaches the entry, even when a later entry lists it. -/
theorem C37_subdomain_false :
    (∀ idna, hostIsTrusted idna s%"www.example.com" [s%".example.com"] = .error .typeError) ∧
    (∀ idna, hostIsTrusted idna s%"localhost" [s%".example.com", s%"localhost"] = .error .typeError) :=
  ⟨fun _ => rfl, fun _ => rfl⟩

/-- Any dotted entry that is reached and does not name the host itself raises. -/
theorem C37_dotted_raises (idna : Str → Except PyErr Bytes) (host d : Str) (rest : List Str) (n m : Bytes)
    (h0 : host ≠ []) (hn : normalizeHost idna host = .ok n) (hm : normalizeHost idna d = .ok m) (hne : m ≠ n) :
    hostIsTrusted idna host (('.' :: d) :: rest) = .error .typeError := by
  simp [hostIsTrusted, h0, hn, trustGo, entryName, hm, hne]

example : hostIsTrusted (fun _ => .error .unicodeError) s%"example.com:80" [s%"other", s%"example.com:8080"]
    = .ok true := rfl

/-- **C37.**  With a trusted list, `get_host` returns nothing but a trusted host. -/
theorem C37_get_host (idna : Str → Except PyErr Bytes) (environ : List (Str × Str)) (l : List Str) (h : Str)
    (hg : getHost idna environ (some l) = .ok h) : hostIsTrusted idna h l = .ok true := by
  unfold getHost at hg
  cases hx : hostOf environ with
  | error e => simp [hx] at hg
  | ok rv =>
    simp only [hx] at hg
    split at hg
    · simp at hg
    · rename_i ht
      simp at hg
      rw [← hg]
      exact ht
    · simp at hg

/-! ### Content length -/

/-- **C63.**  The declared length is absent or a non-negative integer, and it is the number
in the environ when that is one. -/
theorem C63_content_length (environ : List (Str × Str)) :
    (∀ n, getContentLength environ = some n → 0 ≤ n) ∧
    (∀ k : Nat, Dict.get environ s%"CONTENT_LENGTH" = some (natStr k) → getContentLength environ = some (k : Int)) ∧
    (Dict.get environ s%"CONTENT_LENGTH" = none → getContentLength environ = none) := by
  refine ⟨fun n h => ?_, fun k h => ?_, fun h => ?_⟩
  · unfold getContentLength at h
    split at h
    · simp at h
    · split at h <;> simp at h; omega
  · simp only [getContentLength, h, intOf_natStr]
    rw [show max (0 : Int) k = k by omega]
  · simp [getContentLength, h]

/-- **C63.**  Unless the server says that its input ends by itself, the safe input stream is
empty or limited to the declared length: whatever is read from it with permitted sizes, at
most that many bytes are taken from the server's stream. -/
theorem C63_body_bounded (environ : List (Str × Str)) :
    (getContentLength environ = none → getInputStream environ false true = .empty) ∧
    (∀ n, getContentLength environ = some n → getInputStream environ false true = .limited n ∧
      ∀ (D : Bytes) (fails : List Bool) (ops : List Stream.Op), (∀ o ∈ ops, Stream.Valid o) →
        ∃ taken, D = taken ++ (Stream.run ⟨⟨D, fails⟩, 0, n⟩ ops).src.data ∧ (taken.length : Int) ≤ n) := by
  refine ⟨fun h => by simp [getInputStream, h], fun n h => ⟨by simp [getInputStream, h], ?_⟩⟩
  intro D fails ops hv
  obtain ⟨t, h1, h2⟩ := Stream.C31_limit_partial D fails n ops hv
  have := (C63_content_length environ).1 n h
  exact ⟨t, h1, by omega⟩

example : getContentLength [(s%"CONTENT_LENGTH", s%"-5")] = some 0 := by decide
example : getContentLength [(s%"CONTENT_LENGTH", s%"12")] = some 12 := by decide

end Verif.Wsgi
