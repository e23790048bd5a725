import Verif.Props.RoutingBuild
import Verif.Props.RouteBind
import Verif.Props.UrlJoin
import Verif.Props.EnvironBuilder
/-!
C105: the addresses that a bound map builds lead back to the end points they were built for
(`/repo/verktyg/routing.py`, `/repo/verktyg/test.py`).
-/
namespace Verif.Props.BuildP
open Verif Verif.Py Verif.Routing Verif.Iri Verif.UrlJoin Verif.Spec Verif.Spec.Routing
open Verif.Props.IriP Verif.Props.JoinP Verif.Props.RoutingP

/-! ### the two models of UTF-8 and of quoting agree -/

theorem encodeChar_eq (c : Char) : String.utf8EncodeChar c = Utf8.encChar c := by
  have hv : c.val.toNat < 0x110000 := by
    have := c.valid
    rcases this with h | h
    · exact Nat.lt_trans h (by decide)
    · exact h.2
  unfold String.utf8EncodeChar Utf8.encChar Utf8.byte
  have e : c.toNat = c.val.toNat := rfl
  simp only [e]
  generalize c.val.toNat = v at hv
  by_cases h1 : v ≤ 127
  · rw [if_pos h1, if_pos (by omega)]
  · rw [if_neg h1, if_neg (by omega : ¬ v < 128)]
    by_cases h2 : v ≤ 2047
    · rw [if_pos h2, if_pos (by omega), Nat.mod_eq_of_lt (by omega : v / 64 < 32), Nat.add_comm, Nat.add_comm (v % 64)]
    · rw [if_neg h2, if_neg (by omega : ¬ v < 2048)]
      by_cases h3 : v ≤ 65535
      · rw [if_pos h3, if_pos (by omega), Nat.mod_eq_of_lt (by omega : v / 4096 < 16), Nat.add_comm,
          Nat.add_comm (v / 64 % 64), Nat.add_comm (v % 64)]
      · rw [if_neg h3, if_neg (by omega : ¬ v < 65536), Nat.mod_eq_of_lt (by omega : v / 262144 < 8), Nat.add_comm,
          Nat.add_comm (v / 4096 % 64), Nat.add_comm (v / 64 % 64), Nat.add_comm (v % 64)]

theorem utf8_eq (s : Str) : utf8 s = Utf8.encode s := by
  induction s with
  | nil => rfl
  | cons c s ih =>
    show String.utf8EncodeChar c ++ utf8 s = Utf8.encChar c ++ Utf8.encode s
    rw [encodeChar_eq, ih]

theorem utf8_inj {a b : Str} (h : utf8 a = utf8 b) : a = b := by
  rw [utf8_eq, utf8_eq] at h
  rw [← Utf8.decode_encode a, h, Utf8.decode_encode]

theorem urlquote_eq (safe : List UInt8) (s : Str) : urlquote safe s = quoteText safe s := by
  unfold urlquote quoteText
  rw [utf8_eq]; rfl

theorem quotePlus_eq (s : Str) : Routing.quotePlus s = ReqUrl.quotePlus s := by
  unfold Routing.quotePlus ReqUrl.quotePlus urlquote
  rw [utf8_eq]
  unfold Utf8.latin1
  rw [List.map_map, List.map_map]
  apply List.map_congr_left
  intro b _
  simp only [Function.comp]
  exact of_decide_eq_true (Urls.forall_byte (fun b => decide ((if Char.ofNat b.toNat = ' ' then '+' else Char.ofNat b.toNat) =
    Char.ofNat (if b = 32 then (43 : UInt8) else b).toNat)) (by decide +kernel) b)

theorem urlencode_eq (items : Values) : Routing.urlencode items = ReqUrl.urlencode (items.map fun kv => (kv.1, kv.2.text)) := by
  unfold Routing.urlencode ReqUrl.urlencode
  rw [List.map_map]
  congr 1
  apply List.map_congr_left
  intro kv _
  simp [quotePlus_eq]

/-! ### how paths are spelt -/

/-- The spelling of a text in which each character is quoted, with either of the sets of
characters that need not be. -/
inductive Spelt : Str → Str → Prop
  | nil : Spelt [] []
  | cons (safe : List UInt8) (c : Char) {u t : Str} : safe = b%"/:" ∨ safe = b%"/:|+" → Spelt u t →
      Spelt (quoteText safe [c] ++ u) (c :: t)

theorem safe_low {safe : List UInt8} (h : safe = b%"/:" ∨ safe = b%"/:|+") : ∀ b ∈ safe, b.toNat < 128 := by
  rcases h with rfl | rfl <;> decide

theorem safe_slash {safe : List UInt8} (h : safe = b%"/:" ∨ safe = b%"/:|+") : (47 : UInt8) ∈ safe := by
  rcases h with rfl | rfl <;> decide

theorem safe_percent {safe : List UInt8} (h : safe = b%"/:" ∨ safe = b%"/:|+") : (37 : UInt8) ∉ safe := by
  rcases h with rfl | rfl <;> decide

theorem Spelt.append {u t u' t' : Str} (h : Spelt u t) (h' : Spelt u' t') : Spelt (u ++ u') (t ++ t') := by
  induction h with
  | nil => exact h'
  | cons safe c hs _ ih =>
    rw [List.append_assoc, List.cons_append]
    exact .cons safe c hs ih

theorem spelt_quote {safe : List UInt8} (hs : safe = b%"/:" ∨ safe = b%"/:|+") (s : Str) : Spelt (quoteText safe s) s := by
  induction s with
  | nil => exact .nil
  | cons c s ih => rw [quoteText_cons]; exact .cons safe c hs ih

theorem Spelt.written {u t : Str} (h : Spelt u t) : Written u t := by
  induction h with
  | nil => exact Written.nil
  | cons safe c hs _ ih =>
    have := (written_quote safe (safe_low hs) (safe_percent hs) [c]).append ih
    rw [urlquote_eq] at this
    exact this

theorem Spelt.no {u t : Str} (h : Spelt u t) {c : Char} (hc : c ∈ s%"?#;") : c ∉ u := by
  induction h with
  | nil => simp
  | cons safe d hs _ ih =>
    intro hm
    rcases List.mem_append.1 hm with hm | hm
    · obtain ⟨h1, h2, h3, h4⟩ := (by decide +kernel : ∀ c ∈ s%"?#;", c ≠ '%' ∧ Urls.alwaysSafe (Utf8.byte c.toNat) = false ∧
        Utf8.byte c.toNat ∉ b%"/:" ∧ Utf8.byte c.toNat ∉ b%"/:|+") c hc
      exact quoteText_no (safe_low hs) h1 h2 (.inl (by rcases hs with rfl | rfl; exact h3; exact h4)) hm
    · exact ih hm

theorem Spelt.plain {u t : Str} (h : Spelt u t) (hp : '%' ∉ u) : u = t := by
  induction h with
  | nil => rfl
  | cons safe c hs _ ih =>
    simp only [List.mem_append, not_or] at hp
    rw [quoteText_plain (safe_low hs) hp.1, ih hp.2]; rfl

theorem Spelt.empty {t : Str} (h : Spelt [] t) : t = [] := (h.plain (by simp)).symm

/-- Two lists of the same length whose elements are related in order. -/
inductive Pairs : List Str → List Str → Prop
  | nil : Pairs [] []
  | cons {u t : Str} {us ts : List Str} : Spelt u t → Pairs us ts → Pairs (u :: us) (t :: ts)

theorem Pairs.mem {us ts : List Str} (h : Pairs us ts) : ∀ u ∈ us, ∃ t ∈ ts, Spelt u t := by
  induction h with
  | nil => intro u hu; cases hu
  | cons hs _ ih =>
    intro u hu
    rcases List.mem_cons.1 hu with rfl | hu
    · exact ⟨_, .head _, hs⟩
    · obtain ⟨t, ht, h⟩ := ih u hu
      exact ⟨t, .tail _ ht, h⟩

theorem Pairs.dropLast {us ts : List Str} (h : Pairs us ts) : Pairs us.dropLast ts.dropLast := by
  induction h with
  | nil => exact .nil
  | cons hs hr ih =>
    cases hr with
    | nil => exact .nil
    | cons hs' hr' => exact .cons hs ih

theorem Spelt.split {u t : Str} (h : Spelt u t) : Pairs (splitOn '/' u) (splitOn '/' t) := by
  induction h with
  | nil => exact .cons .nil .nil
  | @cons safe c u t hs h ih =>
    by_cases hc : c = '/'
    · subst hc
      have e : quoteText safe ['/'] = ['/'] := quoteText_slash (safe_slash hs) []
      rw [e, List.singleton_append]
      simp only [splitOn, if_true]
      exact .cons .nil ih
    · rw [splitOn_before '/' (quoteText_no (safe_low hs) (by decide) (by decide) (.inr (by simpa using Ne.symm hc)))]
      simp only [splitOn, if_neg hc]
      cases hu : splitOn '/' u with
      | nil => exact absurd hu (splitOn_ne_nil _ _)
      | cons x xs =>
        cases ht : splitOn '/' t with
        | nil => exact absurd ht (splitOn_ne_nil _ _)
        | cons y ys =>
          rw [hu, ht] at ih
          cases ih with
          | cons h1 h2 => exact .cons (.cons safe c hs h1) h2

theorem Spelt.dotless {u t : Str} (h : Spelt u t) (hd : Dotless t) : Dotless u := by
  intro s hs
  obtain ⟨x, hx, hsx⟩ := h.split.mem s hs
  refine ⟨?_, ?_⟩
  · rintro rfl; exact (hd x hx).1 (hsx.plain (by decide)).symm
  · rintro rfl; exact (hd x hx).2 (hsx.plain (by decide)).symm

theorem Spelt.packed {u t : Str} (h : Spelt u t) (hp : Packed t) : Packed u := by
  intro s hs
  obtain ⟨x, hx, hsx⟩ := h.split.dropLast.mem s hs
  rintro rfl
  exact hp x hx hsx.empty

/-- What follows the first bar is spelt too. -/
theorem Spelt.after_bar {u t : Str} (h : Spelt u t) : ∀ d p, '|' ∉ d → u = d ++ '|' :: p → ∃ t', Spelt p t' := by
  induction h with
  | nil => intro d p _ e; cases d <;> cases e
  | @cons safe c u t hs h ih =>
    intro d p hd e
    by_cases hc : '|' ∈ quoteText safe [c]
    · have hcb : c = '|' := by
        refine Classical.byContradiction fun hne => ?_
        exact quoteText_no (safe_low hs) (by decide) (by decide) (.inr (by simpa using Ne.symm hne)) hc
      subst hcb
      have hq : quoteText safe ['|'] = ['|'] := by
        rcases hs with rfl | rfl
        · exact absurd hc (by decide +kernel)
        · decide +kernel
      rw [hq] at e
      cases d with
      | nil => cases e; exact ⟨t, h⟩
      | cons x d => cases e; exact absurd (.head _) hd
    · rcases List.append_eq_append_iff.1 e with ⟨a, h1, h2⟩ | ⟨a, h1, h2⟩
      · exact ih a p (fun hm => hd (by rw [h1]; simp [hm])) h2
      · cases a with
        | nil => exact ih [] p (by simp) h2.symm
        | cons x a => cases h2; exact absurd (by rw [h1]; simp) hc

theorem Spelt.head {u t : Str} (h : Spelt ('/' :: u) t) : ∃ t', t = '/' :: t' ∧ Spelt u t' := by
  cases h' : ('/' :: u) with
  | nil => cases h'
  | cons x y =>
    cases h'
    generalize hw : '/' :: u = w at h
    cases h with
    | nil => cases hw
    | @cons safe c u' t hs h =>
      by_cases hc : c = '/'
      · subst hc
        rw [show quoteText safe ['/'] = ['/'] from quoteText_slash (safe_slash hs) []] at hw
        cases hw
        exact ⟨t, rfl, h⟩
      · have := quoteText_no (safe_low hs) (by decide) (by decide) (c := '/') (.inr (by simpa using Ne.symm hc)) (s := [c])
        cases hq : quoteText safe [c] with
        | nil => exact absurd (quoteText_nil.1 hq) (by simp)
        | cons z zs =>
          rw [hq] at hw this
          cases hw
          exact absurd (.head _) this

/-! ### what converters and routes write -/

theorem spelt_plain {s : Str} (h : ∀ c ∈ s, quoteText b%"/:" [c] = [c]) : Spelt s s := by
  induction s with
  | nil => exact .nil
  | cons c s ih =>
    have := Spelt.cons b%"/:" c (.inl rfl) (ih fun d hd => h d (.tail _ hd))
    rwa [h c (.head _)] at this

theorem quote_digit (c : Char) (h : IsDig c) : quoteText b%"/:" [c] = [c] := by
  have : ∀ n < 128, 48 ≤ n → n ≤ 57 → quoteText b%"/:" [Char.ofNat n] = [Char.ofNat n] := by decide +kernel
  have := this c.toNat (by have := h.2; omega) h.1 h.2
  rwa [Char.ofNat_toNat] at this

theorem quote_hex (d : Nat) (h : d < 16) : quoteText b%"/:" [hexChar d] = [hexChar d] := by
  revert d; decide +kernel

theorem kind_spelt (dec : Char → Option Nat) (k : Kind) (v : Val) (hp : k.Plain v) (hv : k.Valid v) (u : Str)
    (h : (k.conv dec).toUrl v = .ok (some u)) : ∃ t, Spelt u t := by
  have hbase : ∀ v : Val, baseUrl v = .ok (some u) → ∃ t, Spelt u t := by
    intro v h
    unfold baseUrl at h
    cases h
    exact ⟨_, urlquote_eq _ _ ▸ spelt_quote (.inl rfl) _⟩
  cases k with
  | string min max => exact hbase v h
  | any items => exact hbase v h
  | path => exact hbase v h
  | float F lo hi =>
    cases v with
    | str s => exact hv.elim
    | uuid n => exact hv.elim
    | int i => exact hv.elim
    | flt f =>
      obtain ⟨a, b, rfl, _, _, ha, hb⟩ : Digits f := hp
      cases h
      refine ⟨_, spelt_plain fun c hc => ?_⟩
      rcases List.mem_append.1 hc with hc | hc
      · exact quote_digit c (ha c hc)
      · rcases List.mem_cons.1 hc with rfl | hc
        · decide +kernel
        · exact quote_digit c (hb c hc)
  | int fixed lo hi =>
    cases v with
    | str s => exact hv.elim
    | flt s => exact hv.elim
    | uuid n => exact hv.elim
    | int i =>
      obtain ⟨n, rfl⟩ := Int.eq_ofNat_of_zero_le hv.1
      refine ⟨u, spelt_plain fun c hc => quote_digit c ?_⟩
      simp only [Kind.conv, intConv, numConvert] at h
      cases h
      split at hc
      · rw [zeroPad, if_neg (by omega)] at hc
        rcases List.mem_append.1 hc with hc | hc
        · rw [(List.mem_replicate.1 hc).2]; exact ⟨by decide, by decide⟩
        · exact natStr_digits _ c hc
      · exact natStr_digits n c hc
  | uuid =>
    cases v with
    | str s => exact hv.elim
    | flt s => exact hv.elim
    | int n => exact hv.elim
    | uuid n =>
      refine ⟨u, spelt_plain fun x hx => ?_⟩
      simp only [Kind.conv, uuidConv, Val.text] at h
      obtain ⟨a, b, c, d, e, h1, h2, _⟩ := uuid_parts n
      rw [h2] at h
      cases h
      have hh : x ∈ hexDigits 32 n ∨ x = '-' := by
        rw [h1]
        simp only [List.mem_append, List.mem_singleton] at hx ⊢
        rcases hx with (((((((h | h) | h) | h) | h) | h) | h) | h) | h <;> simp [h]
      rcases hh with hh | rfl
      · obtain ⟨d, hd, rfl⟩ := hexDigits_mem 32 n x hh
        exact quote_hex d hd
      · decide +kernel

theorem buildParts_spelt (values : Values) (ps : List Part)
    (h : ∀ n c v u, (n, c) ∈ vars ps → Dict.get values n = some v → c.toUrl v = .ok (some u) → ∃ t, Spelt u t) :
    ∀ u, buildParts values ps = .ok (some u) → ∃ t, Spelt u t := by
  induction ps with
  | nil => intro u hu; cases hu; exact ⟨[], .nil⟩
  | cons p ps ih =>
    intro u hu
    cases p with
    | text s =>
      simp only [buildParts] at hu
      cases hb : buildParts values ps with
      | error e => rw [hb] at hu; cases hu
      | ok o =>
        cases o with
        | none => rw [hb] at hu; cases hu
        | some w =>
          rw [hb] at hu
          cases hu
          obtain ⟨t, ht⟩ := ih h w hb
          exact ⟨_, (urlquote_eq b%"/:|+" s ▸ spelt_quote (.inr rfl) s).append ht⟩
    | var n c =>
      simp only [buildParts] at hu
      cases hg : Dict.get values n with
      | none => rw [hg] at hu; cases hu
      | some x =>
        rw [hg] at hu
        simp only at hu
        cases hc : c.toUrl x with
        | error e => rw [hc] at hu; cases hu
        | ok o =>
          cases o with
          | none => rw [hc] at hu; cases hu
          | some u' =>
            rw [hc] at hu
            simp only at hu
            cases hb : buildParts values ps with
            | error e => rw [hb] at hu; cases hu
            | ok o =>
              cases o with
              | none => rw [hb] at hu; cases hu
              | some w =>
                rw [hb] at hu
                cases hu
                obtain ⟨t, ht⟩ := ih (fun n c v u hm => h n c v u (.tail _ hm)) w hb
                obtain ⟨t', ht'⟩ := h n c x u' (.head _) hg hc
                exact ⟨_, ht'.append ht⟩

theorem vars_append (ps qs : List Part) : vars (ps ++ qs) = vars ps ++ vars qs := by
  induction ps with
  | nil => rfl
  | cons p ps ih => cases p <;> simp [vars, ih]

theorem mem_first {c : Char} {s : Str} (h : c ∈ s) : ∃ a b, s = a ++ c :: b ∧ c ∉ a := by
  induction s with
  | nil => cases h
  | cons x s ih =>
    by_cases hx : x = c
    · subst hx; exact ⟨[], s, rfl, by simp⟩
    · rcases List.mem_cons.1 h with h | h
      · exact absurd h.symm hx
      · obtain ⟨a, b, rfl, ha⟩ := ih h
        exact ⟨x :: a, b, rfl, by simp [ha, Ne.symm hx]⟩

/-- The path that a route builds is spelt so. -/
theorem build_spelt (dec : Char → Option Nat) (b : Bound) (values : Values) (hv : Acceptable dec b values) (d p : Str)
    (h : b.build values false = .ok (some (d, p))) : ∃ t, Spelt p t := by
  unfold Bound.build at h
  split at h
  · cases h
  · cases h
  · rename_i t ht
    have hvt : vars b.trace = b.vars := by
      unfold Bound.trace Bound.vars
      rw [List.append_assoc, vars_append, List.cons_append, vars, vars_append]
      split <;> simp [vars]
    obtain ⟨T, hT⟩ := buildParts_spelt values b.trace (by
      intro n c v u hm hg hu
      rw [hvt] at hm
      obtain ⟨k, v', rfl, _, _, hg', hp', hv'⟩ := hv n c hm
      rw [hg] at hg'
      cases hg'
      exact kind_spelt dec k v hp' hv' u hu) t ht
    by_cases hb : '|' ∈ t
    · obtain ⟨x, y, rfl, hx⟩ := mem_first hb
      rw [split1_some '|' x y hx] at h
      simp at h
      obtain ⟨rfl, rfl⟩ := h
      exact hT.after_bar _ _ hx rfl
    · rw [split1_none '|' t hb] at h
      simp at h
      obtain ⟨rfl, rfl⟩ := h
      exact ⟨[], .nil⟩

/-! ### joining to a script name -/

theorem resolve_skip (segs ps acc : List Str) (h : ∀ s ∈ segs, s ≠ s%"." ∧ s ≠ s%"..") (h' : ∀ s ∈ ps, s ≠ s%"." ∧ s ≠ s%"..") :
    resolve (acc ++ segs ++ s%"." :: ps) = resolve acc ++ (segs ++ ps) := by
  unfold resolve
  rw [List.foldl_append, List.foldl_append, resolve_go _ _ h, List.foldl_cons, if_neg (by decide), if_pos rfl,
    resolve_go _ _ h', List.append_assoc]

/-- `./` and a path are put after the directory. -/
theorem joinPath_dot (segs : List Str) (hs : ∀ s ∈ segs, Segment s) (r : Str) (h : Dotless r) (hp : Packed r) :
    UrlJoin.joinPath (dirText segs ++ s%"/") (s%"./" ++ r) = dirText segs ++ '/' :: r := by
  have hsp : splitOn '/' (s%"./" ++ r) = s%"." :: splitOn '/' r := by
    show splitOn '/' (s%"." ++ '/' :: r) = _
    rw [splitOn_append_sep]; rfl
  have hne := splitOn_ne_nil '/' r
  have e : segments (dirText segs ++ s%"/") (s%"./" ++ r) = [] :: segs ++ s%"." :: splitOn '/' r := by
    unfold segments
    rw [if_neg (by simp)]
    simp only
    rw [dir_slash segs (fun s h => (hs s h).2.1), if_neg (by rw [getLastD_concat]; simp), hsp,
      squeeze_dir _ _ (fun s h => (hs s h).1) ?_ (by simp)]
    intro s hm
    cases hr : splitOn '/' r with
    | nil => exact absurd hr hne
    | cons x l =>
      rw [hr, List.dropLast_cons_of_ne_nil (by simp)] at hm
      rcases List.mem_cons.1 hm with rfl | hm
      · decide
      · exact hp s (by rw [hr]; exact hm)
  have hres : resolve ([] :: segs ++ s%"." :: splitOn '/' r) = [] :: segs ++ splitOn '/' r := by
    have := resolve_skip segs (splitOn '/' r) [[]] (fun s hm => (hs s hm).2.2) h
    simpa [resolve] using this
  have hlast : ([] :: segs ++ s%"." :: splitOn '/' r).getLastD [] = (splitOn '/' r).getLastD [] := by
    obtain ⟨i, l, hl⟩ : ∃ i l, splitOn '/' r = i ++ [l] := ⟨_, _, (List.dropLast_concat_getLast hne).symm⟩
    rw [hl, show [] :: segs ++ s%"." :: (i ++ [l]) = ([] :: segs ++ s%"." :: i) ++ [l] from by simp, getLastD_concat, getLastD_concat]
  have hd := h _ (getLastD_mem [] hne)
  unfold UrlJoin.joinPath
  simp only
  rw [e, hres, hlast]
  have hif : (if (splitOn '/' r).getLastD [] = s%"." ∨ (splitOn '/' r).getLastD [] = s%".." then [[]] else []) =
      ([] : List Str) := if_neg (fun h => h.elim hd.1 hd.2)
  have hj : join s%"/" ([] :: segs ++ splitOn '/' r) = dirText segs ++ '/' :: r := by
    rw [join_dir _ _ hne]
    have : join s%"/" (splitOn '/' r) = r := join_splitOn '/' r
    rw [this]
  rw [hif, List.append_nil, hj, if_neg (by simp)]

/-- The script name of an application, as it is part of addresses. -/
structure Script (segs : List Str) : Prop where
  segment : ∀ s ∈ segs, Segment s
  plain : ∀ s ∈ segs, ∀ c ∈ s%"?#", c ∉ s

theorem script_no {segs : List Str} (h : Script segs) {c : Char} (hc : c ∈ s%"?#") : c ∉ dirText segs ++ s%"/" := by
  intro hm
  rcases List.mem_append.1 hm with hm | hm
  · rcases dirText_mem hm with rfl | ⟨s, hs, hm⟩
    · revert hc; decide
    · exact h.plain s hs c hc hm
  · have : c = '/' := by simpa using hm
    subst this
    revert hc; decide

theorem script_local {segs : List Str} (h : Script segs) : Local (dirText segs ++ s%"/") := by
  refine ⟨?_, schemeless_root ?_⟩
  · intro hp
    cases segs with
    | nil => revert hp; decide
    | cons x segs =>
      have hx := h.segment x (.head _)
      cases x with
      | nil => exact hx.1 rfl
      | cons c x =>
        obtain ⟨r, hr⟩ := hp
        simp [dirText] at hr
        exact hx.2.1 (by rw [← hr.1]; exact .head _)
  · rcases dirText_head segs with e | e
    · rw [e]; rfl
    · rw [List.head?_append, e]; rfl

theorem urljoin_script (lower : Str → Str) {segs : List Str} (hs : Script segs) (r : Str) (q : Option Str)
    (hr : RefParts r q) (hsemi : ';' ∉ r) (hcol : q ≠ some []) (hd : Dotless r) (hp : Packed r) :
    urljoin lower (dirText segs ++ s%"/") (s%"./" ++ refText r q none) = .ok (dirText segs ++ refText ('/' :: r) q none) := by
  have hq : ∀ x : Str, refText x q none = x ++ (if q.getD [] ≠ [] then '?' :: q.getD [] else []) := by
    intro x
    cases q with
    | none => simp [refText]
    | some q =>
      have : q ≠ [] := fun e => hcol (by rw [e])
      simp [refText, this]
  have hbase : urlparse lower (dirText segs ++ s%"/") [] = .ok ⟨[], [], dirText segs ++ s%"/", [], [], []⟩ := by
    have := urlsplit_ref lower (dirText segs ++ s%"/") none none ⟨script_no hs (by decide), script_no hs (by decide), by simp⟩
      (script_local hs)
    simp only [refText, Option.elim, List.append_nil] at this
    unfold urlparse
    rw [this]
    simp only [if_true]
    rw [if_pos (by decide), splitParams_dir]
    rfl
  have href : urlparse lower (s%"./" ++ refText r q none) [] = .ok ⟨[], [], s%"./" ++ r, [], q.getD [], []⟩ := by
    have e : s%"./" ++ refText r q none = s%"." ++ '/' :: refText r q none := rfl
    have e' : s%"." ++ '/' :: refText r q none = refText (s%"./" ++ r) q none := by simp [refText]
    have h1 := urlsplit_noscheme lower (a := s%".") (b := refText r q none) (d := '/') (by decide) (.inl rfl)
    rw [e'] at h1
    rw [splitRest_ref [] (s%"./" ++ r) q none ⟨by simpa using hr.noQuery, by simpa using hr.noFragment, hr.queryNoFragment⟩
      (by simp)] at h1
    unfold urlparse
    rw [e, e', h1]
    simp only [if_true]
    rw [if_pos (by decide), splitParams_none (by simpa using hsemi)]
    rfl
  unfold urljoin
  rw [if_neg (by simp), if_neg (by simp), hbase]
  simp only
  rw [href]
  simp only
  rw [if_neg (by simp [usesRelative]), if_neg (by simp), if_neg (by simp), joinPath_dot segs hs.segment r hd hp]
  unfold urlunparse ReqUrl.urlunsplit
  have hun : usesNetloc [] = false := by decide
  rw [hq]
  by_cases hqq : q.getD [] = []
  · simp [hqq, hun]
  · simp [hqq, hun]

/-! ### which route is built -/

/-- Each list of an end point has the routes of the map with that end point. -/
def Filed (m : URLMap) : Prop := ∀ e b, b ∈ m.byEndpoint e ↔ b ∈ m.routes ∧ b.route.endpoint = e

theorem filed_add (rs : List Route) : ∀ m : URLMap, Filed m → Filed (m.add rs).1 := by
  induction rs with
  | nil => intro m h; exact h
  | cons r rs ih =>
    intro m h
    rw [URLMap.add]
    split
    · exact h
    · rename_i b _
      refine ih _ fun e x => ?_
      simp only [URLMap.push]
      by_cases he : e = b.route.endpoint
      · rw [if_pos he, List.mem_append, List.mem_append, h e x, List.mem_singleton]
        constructor
        · rintro (⟨h1, h2⟩ | rfl)
          · exact ⟨.inl h1, h2⟩
          · exact ⟨.inr rfl, he.symm⟩
        · rintro ⟨h1 | h1, h2⟩
          · exact .inl ⟨h1, h2⟩
          · exact .inr h1
      · rw [if_neg he, h e x, List.mem_append, List.mem_singleton]
        constructor
        · rintro ⟨h1, h2⟩; exact ⟨.inl h1, h2⟩
        · rintro ⟨h1 | rfl, h2⟩
          · exact ⟨h1, h2⟩
          · exact absurd h2.symm he

theorem filed_update (m : URLMap) (h : Filed m) : Filed m.update := by
  unfold URLMap.update
  split
  · intro e b
    show b ∈ sortBy buildLe (m.byEndpoint e) ↔ b ∈ sortBy matchLe m.routes ∧ _
    rw [(sort_perm buildLe _).mem_iff, (sort_perm matchLe _).mem_iff]
    exact h e b
  · exact h

theorem filed_run (ops : List Op) : ∀ m : URLMap, Filed m → Filed (run m ops) := by
  induction ops with
  | nil => intro m h; exact h
  | cons op ops ih =>
    intro m h
    cases op with
    | add rs => exact ih _ (filed_add rs m h)
    | lookup => exact ih _ (filed_update m h)

theorem mem_endpoint (cfg : Config) (ops : List Op) (e : Str) (b : Bound) :
    b ∈ (run (URLMap.new cfg) ops).update.byEndpoint e ↔ Registered cfg ops b ∧ b.route.endpoint = e := by
  obtain ⟨h1, h2, _⟩ := history ops (URLMap.new cfg) [] true (holds_new cfg) (fun _ h => by cases h)
  obtain ⟨u1, u2, _, _⟩ := holds_update _ _ h1
  have hf := filed_update _ (filed_run ops (URLMap.new cfg) (fun e b => by simp [URLMap.new]))
  have hu : (run (URLMap.new cfg) ops).update.cfg = cfg := u2.trans h2
  rw [hf e b, u1.mem b, hu]
  rfl

theorem buildGo_first (values : Values) (u : Bool) (l : List Bound)
    (h : ∀ b ∈ l, b.suitableFor values = true → ∃ x, b.build values u = .ok (some x))
    (hex : ∃ b ∈ l, b.suitableFor values = true) :
    ∃ b ∈ l, b.suitableFor values = true ∧ buildGo values u l = b.build values u := by
  induction l with
  | nil => obtain ⟨b, hb, _⟩ := hex; cases hb
  | cons b l ih =>
    by_cases hs : b.suitableFor values = true
    · obtain ⟨x, hx⟩ := h b (.head _) hs
      refine ⟨b, .head _, hs, ?_⟩
      rw [buildGo, if_pos hs, hx]
    · obtain ⟨b0, hb0, hs0⟩ := hex
      rcases List.mem_cons.1 hb0 with rfl | hb0
      · exact absurd hs0 hs
      · obtain ⟨c, hc, hsc, hg⟩ := ih (fun c hc => h c (.tail _ hc)) ⟨b0, hb0, hs0⟩
        exact ⟨c, .tail _ hc, hsc, by rw [buildGo, if_neg hs]; exact hg⟩

/-! ### the address of an end point -/

/-- The routes of an adapter's own domain. -/
def Addressed (cfg : Config) (a : Adapter) (dom : Str) : Prop :=
  (cfg.hostMatching = true ∧ a.serverName = dom ∧ dom ≠ []) ∨ (cfg.hostMatching = false ∧ a.subdomain = dom)

/-- A route whose addresses can be read back: it is for matching, each variable fills a segment
and has an acceptable value, and the domain is a plain name. -/
structure Usable (dec : Char → Option Nat) (cfg : Config) (a : Adapter) (values : Values) (b : Bound) : Prop where
  matching : b.route.buildOnly = false
  serves : b.route.redirectTo = none
  name : ∀ c ∈ domainOf cfg b.route, c.isAlphanum = true ∨ c = '-' ∨ c = '.'
  addressed : Addressed cfg a (domainOf cfg b.route)
  segmented : Segmented b.path
  acceptable : Acceptable dec b values

theorem quote_name {s : Str} (h : ∀ c ∈ s, c.isAlphanum = true ∨ c = '-' ∨ c = '.') : urlquote b%"/:|+" s = s := by
  rw [urlquote_eq]
  induction s with
  | nil => rfl
  | cons c s ih =>
    rw [quoteText_cons, ih fun d hd => h d (.tail _ hd)]
    have : ∀ n < 128, ((Char.ofNat n).isAlphanum = true ∨ Char.ofNat n = '-' ∨ Char.ofNat n = '.') →
        quoteText b%"/:|+" [Char.ofNat n] = [Char.ofNat n] := by decide +kernel
    have hc : c.toNat < 128 := by
      rcases h c (.head _) with h | rfl | rfl
      · simp only [Char.isAlphanum, Char.isAlpha, Char.isUpper, Char.isLower, Char.isDigit, Bool.or_eq_true, Bool.and_eq_true,
          decide_eq_true_eq] at h
        show c.val.toNat < 128
        rcases h with (h | h) | h
        · have := UInt32.le_iff_toNat_le.1 h.2
          exact Nat.lt_of_le_of_lt this (by decide)
        · have := UInt32.le_iff_toNat_le.1 h.2
          exact Nat.lt_of_le_of_lt this (by decide)
        · have := UInt32.le_iff_toNat_le.1 h.2
          exact Nat.lt_of_le_of_lt this (by decide)
      · decide
      · decide
    have := this c.toNat hc (by rw [Char.ofNat_toNat]; exact h c (.head _))
    rw [Char.ofNat_toNat] at this
    rw [this]; rfl

/-- The values which are no arguments of a route, as texts. -/
def extra (b : Bound) (values : Values) : List (Str × Str) :=
  (values.filter fun kv => decide (kv.1 ∉ b.arguments)).map fun kv => (kv.1, kv.2.text)

/-- The query of an address that is built: none, or one from which the other values are read. -/
def QueryFor (b : Bound) (values : Values) (q : Option Str) : Prop :=
  (extra b values = [] ∧ q = none) ∨
  ∃ s, q = some s ∧ s ≠ [] ∧ '#' ∉ s ∧ ∀ semi, (ReqUrl.parseQsl semi s).Perm ((extra b values).filter fun p => p.2 ≠ [])

theorem urlencode_no {items : List (Str × Str)} : '#' ∉ ReqUrl.urlencode items := by
  intro h
  have := (ReqUrlP.urlencode_mem h).2
  revert this
  decide +kernel

theorem urlencode_ne_nil {items : List (Str × Str)} (h : items ≠ []) : ReqUrl.urlencode items ≠ [] := by
  cases items with
  | nil => exact absurd rfl h
  | cons x l =>
    unfold ReqUrl.urlencode
    cases l with
    | nil => simp [join]
    | cons y l => simp [join]

theorem queryOf_spec (b : Bound) (values : Values) : ∃ q, QueryFor b values q ∧ queryOf b values = q.elim [] ('?' :: ·) := by
  unfold queryOf
  have hrest : (values.filter fun kv => !b.arguments.contains kv.1) = values.filter fun kv => decide (kv.1 ∉ b.arguments) := by
    apply List.filter_congr
    intro kv _
    by_cases h : kv.1 ∈ b.arguments <;> simp [h]
  simp only [hrest]
  by_cases hn : (values.filter fun kv => decide (kv.1 ∉ b.arguments)) = []
  · exact ⟨none, .inl ⟨by unfold extra; rw [hn]; rfl, rfl⟩, by rw [if_pos hn]; rfl⟩
  · rw [if_neg hn]
    have hp := sort_perm (fun (x y : Str × Val) => !strLt y.1 x.1) (values.filter fun kv => decide (kv.1 ∉ b.arguments))
    refine ⟨some (Routing.urlencode _), .inr ⟨_, rfl, ?_, ?_, ?_⟩, rfl⟩
    · rw [urlencode_eq]
      refine urlencode_ne_nil fun he => hn ?_
      have := hp.length_eq
      rw [List.map_eq_nil_iff.1 he] at this
      exact List.eq_nil_of_length_eq_zero this.symm
    · rw [urlencode_eq]; exact urlencode_no
    · intro semi
      rw [urlencode_eq, ReqUrlP.parseQsl_urlencode]
      exact (hp.map _).filter _

theorem addressed_domain {cfg : Config} {a : Adapter} {dom : Str} (h : Addressed cfg a dom) :
    (if cfg.hostMatching ∧ a.serverName ≠ [] then a.serverName else a.subdomain) = dom := by
  rcases h with ⟨h1, h2, h3⟩ | ⟨h1, h2⟩
  · rw [if_pos ⟨h1, by rw [h2]; exact h3⟩, h2]
  · rw [if_neg (by simp [h1]), h2]

theorem packed_head {r : Str} (h : Packed r) : r.head? ≠ some '/' := by
  intro h0
  cases r with
  | nil => cases h0
  | cons x r =>
    cases h0
    refine h [] ?_ rfl
    simp only [splitOn, if_true]
    rw [List.dropLast_cons_of_ne_nil (splitOn_ne_nil _ _)]
    exact .head _

theorem address (dec : Char → Option Nat) (hdec : Decimal dec) (hsl : dec '/' = none)
    (cfg : Config) (hcfg : PureConfig cfg) (lower : Str → Str)
    (hjoin : ∀ b u r, urljoin lower b u = .ok r → cfg.urljoin b u = r)
    (ops : List Op) (hs : settled (URLMap.new cfg) true ops = true)
    (hdef : cfg.redirectDefaults = false ∨ ∀ r ∈ registered cfg ops, r.defaults = [] ∧ r.alias = false)
    (a : Adapter) (segs : List Str) (hscript : Script segs) (ha : a.scriptName = dirText segs ++ s%"/")
    (endpoint : Str) (values : Values)
    (hex : ∃ b, Registered cfg ops b ∧ b.route.endpoint = endpoint ∧ b.suitableFor values = true)
    (hall : ∀ b, Registered cfg ops b → b.route.endpoint = endpoint → b.suitableFor values = true →
      Usable dec cfg a values b) :
    ∃ b p q path, Registered cfg ops b ∧ b.route.endpoint = endpoint ∧ b.suitableFor values = true ∧
      b.build values false = .ok (some (domainOf cfg b.route, p)) ∧
      Percent.meaning (utf8 p) = utf8 path ∧ QueryFor b values q ∧
      ∀ r, path = '/' :: r → Dotless r → Packed r →
        build (run (URLMap.new cfg) ops) a endpoint values false true = .ok (dirText segs ++ refText p q none) ∧
        (∃ u, p = '/' :: u ∧ Spelt u r) ∧
        (r.getLast? ≠ some '\n' → ∀ a', Addressed cfg a' (domainOf cfg b.route) → Best cfg ops (fullPath cfg a path) b →
          ∀ query, ∃ out, match_ (run (URLMap.new cfg) ops) a' path query = .ok (.found b out) ∧
          ∀ n, n ∉ Dict.keys b.route.defaults →
            Dict.get out n = if n ∈ b.vars.map (·.1) then Dict.get values n else none) ∧
        Addressed cfg a (domainOf cfg b.route) := by
  have hplain : ∀ b, Usable dec cfg a values b →
      '<' ∉ domainOf cfg b.route ∧ '>' ∉ domainOf cfg b.route ∧ '|' ∉ domainOf cfg b.route := by
    intro b hu
    have : ∀ c ∈ s%"<>|", c ∉ domainOf cfg b.route := by
      intro c hc hm
      exact (by decide +kernel : ∀ c ∈ s%"<>|", ¬ (c.isAlphanum = true ∨ c = '-' ∨ c = '.')) c hc (hu.name c hm)
    exact ⟨this _ (by decide), this _ (by decide), this _ (by decide)⟩
  have key : ∀ b, Registered cfg ops b → b.route.endpoint = endpoint → b.suitableFor values = true →
      ∃ p path, b.build values false = .ok (some (domainOf cfg b.route, p)) ∧
        b.build values true = .ok (some (domainOf cfg b.route, p ++ queryOf b values)) ∧
        Percent.meaning (utf8 p) = utf8 path := by
    intro b hb he hsu
    have hu := hall b hb he hsu
    obtain ⟨r, hr1, hr2⟩ := id hb
    obtain ⟨_, _, hr, _⟩ := compile_inv cfg _ r b hr2
    have hd := hplain b hu
    obtain ⟨d, p, q, path, h1, h2, h3, h4, _, _, _, h5, _⟩ := roundtrip cfg hcfg _ r b hr2 (hr ▸ hu.matching) (hr ▸ hd)
      hu.segmented (acceptable_text dec hsl b values hu.acceptable) values (acceptable_good dec hdec b values hu.acceptable)
    rw [← hr, quote_name hu.name] at h1
    subst h1 h2
    exact ⟨p, path, h3, h4, h5⟩
  obtain ⟨b, hm, hsu, hgo⟩ := buildGo_first values true ((run (URLMap.new cfg) ops).update.byEndpoint endpoint)
    (fun b hb hsu => by
      obtain ⟨h1, h2⟩ := (mem_endpoint cfg ops endpoint b).1 hb
      obtain ⟨p, path, _, h4, _⟩ := key b h1 h2 hsu
      exact ⟨_, h4⟩)
    (by obtain ⟨b, h1, h2, h3⟩ := hex; exact ⟨b, (mem_endpoint cfg ops endpoint b).2 ⟨h1, h2⟩, h3⟩)
  obtain ⟨hb, he⟩ := (mem_endpoint cfg ops endpoint b).1 hm
  have hu := hall b hb he hsu
  obtain ⟨p, path, h3, h4, h5⟩ := key b hb he hsu
  obtain ⟨q, hq1, hq2⟩ := queryOf_spec b values
  refine ⟨b, p, q, path, hb, he, hsu, h3, h5, hq1, ?_⟩
  intro r hr hdot hpack
  obtain ⟨t, ht⟩ := build_spelt dec b values hu.acceptable _ _ h3
  have htp : t = path := utf8_inj (ht.written.meaning.symm.trans h5)
  subst htp
  rw [hr] at ht
  obtain ⟨u, rfl, hut⟩ : ∃ u, p = '/' :: u ∧ Spelt u r := by
    cases ht with
    | cons safe c hs h =>
      rw [show quoteText safe ['/'] = ['/'] from quoteText_slash (safe_slash hs) []]
      exact ⟨_, rfl, h⟩
  have hhead : u.head? ≠ some '/' := packed_head (hut.packed hpack)
  refine ⟨?_, ⟨u, rfl, hut⟩, ?_, hu.addressed⟩
  · unfold build
    rw [hgo, h4]
    simp only
    have hc : (run (URLMap.new cfg) ops).cfg = cfg := (BindP.tried cfg ops).1
    have hl : lstripSlash ('/' :: u ++ queryOf b values) = u ++ queryOf b values := by
      rw [hq2]
      cases u with
      | nil =>
        cases q with
        | none => rfl
        | some q => simp [lstripSlash]
      | cons x u =>
        have : x ≠ '/' := fun e => hhead (by rw [e]; rfl)
        simp [lstripSlash, this]
    have hcond : True ∧ ((cfg.hostMatching = true ∧ getHost cfg a (some (domainOf cfg b.route)) = a.serverName) ∨
        (cfg.hostMatching = false ∧ domainOf cfg b.route = a.subdomain)) := by
      refine ⟨trivial, ?_⟩
      rcases hu.addressed with ⟨e1, e2, _⟩ | ⟨e1, e2⟩
      · exact .inl ⟨e1, by simp [getHost, e1, e2]⟩
      · exact .inr ⟨e1, e2.symm⟩
    have hqn : RefParts u q ∧ q ≠ some [] := by
      refine ⟨⟨hut.no (by decide), hut.no (by decide), ?_⟩, ?_⟩
      · rcases hq1 with ⟨_, rfl⟩ | ⟨s, rfl, _, h, _⟩
        · simp
        · exact h
      · rcases hq1 with ⟨_, rfl⟩ | ⟨s, rfl, h, _, _⟩
        · simp
        · simpa using h
    have hj := hjoin _ _ _ (urljoin_script lower hscript u q hqn.1 (hut.no (by decide)) hqn.2 (hut.dotless hdot) (hut.packed hpack))
    rw [hc, if_pos hcond, hl, ha, hq2]
    have e : u ++ q.elim [] ('?' :: ·) = refText u q none := by simp [refText]
    rw [e, hj]
  · intro hnl a' ha' hbest query
    have hfull : fullPath cfg a t = fullPath cfg a' t := by
      unfold fullPath
      rw [addressed_domain ha', addressed_domain hu.addressed]
    rw [hfull] at hbest
    obtain ⟨d', p', path', g1, g2, g3⟩ := C49_map_partial dec hdec hsl cfg hcfg ops hs hdef b hb hu.matching hu.serves (hplain b hu) a'
      (addressed_domain ha') hu.segmented values hu.acceptable
    rw [h3] at g1
    cases g1
    have : path' = t := utf8_inj (g2.symm.trans h5)
    subst this
    refine g3 ?_ ?_ hbest query
    · rw [hr]
      cases r with
      | nil => simp
      | cons x r => rw [List.getLast?_cons_cons]; exact hnl
    · rw [hr]
      have := packed_head hpack
      cases r with
      | nil => rfl
      | cons x r =>
        have : x ≠ '/' := fun e => this (by rw [e]; rfl)
        simp [lstripSlash, this]

/-- C105, the address: what a bound map builds for an end point is the script name with the
path and the query that the route builds; the path stands for one that the map matches to the
same route with the same arguments. -/
theorem C105_build_partial (dec : Char → Option Nat) (hdec : Decimal dec) (hsl : dec '/' = none)
    (cfg : Config) (hcfg : PureConfig cfg) (lower : Str → Str)
    (hjoin : ∀ b u r, urljoin lower b u = .ok r → cfg.urljoin b u = r)
    (ops : List Op) (hs : settled (URLMap.new cfg) true ops = true)
    (hdef : cfg.redirectDefaults = false ∨ ∀ r ∈ registered cfg ops, r.defaults = [] ∧ r.alias = false)
    (a : Adapter) (segs : List Str) (hscript : Script segs) (ha : a.scriptName = dirText segs ++ s%"/")
    (endpoint : Str) (values : Values)
    (hex : ∃ b, Registered cfg ops b ∧ b.route.endpoint = endpoint ∧ b.suitableFor values = true)
    (hall : ∀ b, Registered cfg ops b → b.route.endpoint = endpoint → b.suitableFor values = true →
      Usable dec cfg a values b) :
    ∃ b p q path, Registered cfg ops b ∧ b.route.endpoint = endpoint ∧ b.suitableFor values = true ∧
      b.build values false = .ok (some (domainOf cfg b.route, p)) ∧
      Percent.meaning (utf8 p) = utf8 path ∧ QueryFor b values q ∧
      ∀ r, path = '/' :: r → Dotless r → Packed r →
        build (run (URLMap.new cfg) ops) a endpoint values false true = .ok (dirText segs ++ refText p q none) ∧
        (r.getLast? ≠ some '\n' → Best cfg ops (fullPath cfg a path) b → ∀ query, ∃ out,
          match_ (run (URLMap.new cfg) ops) a path query = .ok (.found b out) ∧
          ∀ n, n ∉ Dict.keys b.route.defaults →
            Dict.get out n = if n ∈ b.vars.map (·.1) then Dict.get values n else none) := by
  obtain ⟨b, p, q, path, hb, he, hsu, hpath, hmean, hq, hrest⟩ := address dec hdec hsl cfg hcfg lower hjoin ops hs hdef a segs
    hscript ha endpoint values hex hall
  refine ⟨b, p, q, path, hb, he, hsu, hpath, hmean, hq, fun r hr hdot hpack => ?_⟩
  obtain ⟨h1, _, h2, h3⟩ := hrest r hr hdot hpack
  exact ⟨h1, fun hnl => h2 hnl a h3⟩

/-- C105, the request: a request made for an address that was built, in a test or by anyone who
decodes the path once, finds the end point it was built for with the same arguments; the other
values are the arguments of its query. -/
theorem C105_request_partial (dec : Char → Option Nat) (hdec : Decimal dec) (hsl : dec '/' = none)
    (cfg : Config) (hcfg : PureConfig cfg) (lower : Str → Str) (hlow : lower [] = [])
    (hjoin : ∀ b u r, urljoin lower b u = .ok r → cfg.urljoin b u = r)
    (ops : List Op) (hs : settled (URLMap.new cfg) true ops = true)
    (hdef : cfg.redirectDefaults = false ∨ ∀ r ∈ registered cfg ops, r.defaults = [] ∧ r.alias = false)
    (a : Adapter) (ha : a.scriptName = s%"/") (endpoint : Str) (values : Values)
    (hex : ∃ b, Registered cfg ops b ∧ b.route.endpoint = endpoint ∧ b.suitableFor values = true)
    (hall : ∀ b, Registered cfg ops b → b.route.endpoint = endpoint → b.suitableFor values = true →
      Usable dec cfg a values b) :
    ∃ b p path, Registered cfg ops b ∧ b.route.endpoint = endpoint ∧ b.suitableFor values = true ∧
      b.build values false = .ok (some (domainOf cfg b.route, p)) ∧ Percent.meaning (utf8 p) = utf8 path ∧
      ∀ r, path = '/' :: r → Dotless r → Packed r → r.getLast? ≠ some '\n' → Best cfg ops (fullPath cfg a path) b →
      ∃ url, build (run (URLMap.new cfg) ops) a endpoint values false true = .ok url ∧
      ∀ (idna : Str → Except PyErr Bytes) (upper : Str → Str) (fix : Str → Except PyErr Str) (guess : Str → Option Str)
        (boundary method : Str) (headers : Headers.HList) (ct : Option Str) (stream : Option (Bytes × Nat)) (cl : Option Int)
        (data : Builder.Data) (eb : List (Str × Str)) (bl : Builder.Builder) (e : Builder.Environ),
        Builder.init lower (iriToUri idna lower usesNetloc) fix url none .missing method headers ct stream cl data eb [] = .ok bl →
        Builder.getEnviron upper lower guess boundary bl = .ok e →
        ReqUrl.path e.vars = .ok path ∧
        (∀ semi, ∃ args, ReqUrl.argPairs semi e.vars = .ok args ∧ args.Perm ((extra b values).filter fun p => p.2 ≠ [])) ∧
        ∀ (other : Str → Except PyErr Str) (server sub : Option Str) (x : BoundMap),
          bindToEnviron cfg lower other e.vars server sub = .ok x → Addressed cfg x.adapter (domainOf cfg b.route) →
          ∃ out, x.match_ (run (URLMap.new cfg) ops) none none = .ok (.found b out) ∧
            ∀ n, n ∉ Dict.keys b.route.defaults →
              Dict.get out n = if n ∈ b.vars.map (·.1) then Dict.get values n else none := by
  obtain ⟨b, p, q, path, hb, he, hsu, hpath, hmean, hq, hrest⟩ := address dec hdec hsl cfg hcfg lower hjoin ops hs hdef a []
    ⟨(fun s h => by cases h), (fun s h => by cases h)⟩ ha endpoint values hex hall
  refine ⟨b, p, path, hb, he, hsu, hpath, hmean, ?_⟩
  intro r hr hdot hpack hnl hbest
  obtain ⟨hbuild, ⟨u, rfl, hut⟩, hmatch, _⟩ := hrest r hr hdot hpack
  refine ⟨_, hbuild, ?_⟩
  intro idna upper fix guess boundary method headers ct stream cl data eb bl e hinit hget
  have hloc : BuilderP.LocalPath ('/' :: u) :=
    ⟨⟨u, rfl, packed_head (hut.packed hpack)⟩, by simpa using hut.no (by decide), by simpa using hut.no (by decide)⟩
  obtain ⟨h1, h2, h3, h4, h5⟩ := BuilderP.init_query (p := '/' :: u) (q := q.getD []) hloc.plain.1 (by
    cases q with
    | none => exact .inr (.inr ⟨by simp [refText, dirText], rfl, rfl⟩)
    | some q => exact .inr (.inl ⟨by simp [refText, dirText], rfl⟩)) hinit
  rw [BuilderP.iriToUri_local (by decide) hlow hloc] at h1
  injection h1 with h1
  obtain ⟨data, len, type, qs, port, e1, e2, e3, e4, k1, k2, k3, k4, k5, k6, k7, _⟩ := BuilderP.get_of_entries hget
    (by rw [h4]; simp)
  rw [h2] at e2
  cases e2
  have hpath : Dict.get e.vars s%"PATH_INFO" = some (ReqUrl.encodingDance path) := by
    rw [k3, ← h1]
    unfold Builder.pathEncode
    rw [BuilderP.unquote_quoteText_meaning pathSafe_low (by decide), ← utf8_eq, hmean, utf8_eq, Utf8.decode_encode]
  have hreq := (BuilderP.C97_request_partial (by decide) hlow hloc (q := q.getD []) (by
    cases q with
    | none => exact .inr (.inr ⟨by simp [refText, dirText], rfl, rfl⟩)
    | some q => exact .inr (.inl ⟨by simp [refText, dirText], rfl⟩)) hinit (by simp) hget).1
  refine ⟨?_, ?_, ?_⟩
  · rw [hreq, ← utf8_eq, hmean, utf8_eq, Utf8.decode_encode, hr]
    have := packed_head hpack
    cases r with
    | nil => rfl
    | cons x r =>
      have : x ≠ '/' := fun e => this (by rw [e]; rfl)
      simp [this]
  · intro semi
    refine ⟨_, by unfold ReqUrl.argPairs ReqUrl.envText; rw [k4, Option.getD_some, (ReqUrlP.C88_round_trip _).1], ?_⟩
    rcases hq with ⟨h, rfl⟩ | ⟨s, rfl, _, _, h⟩
    · rw [h]
      have : ∀ b, ReqUrl.parseQsl b [] = [] := by decide +kernel
      simp [this]
    · exact h semi
  · intro other server sub x hx hadr
    have hroot : BindP.Holds e.vars s%"SCRIPT_NAME" (some []) := by
      obtain ⟨pp, base', b0, i1, i2, i3, i4⟩ := BuilderP.init_front hinit
      cases i2
      obtain ⟨_, _, _, f4, _⟩ := BuilderP.front_eq i4
      obtain ⟨_, _, _, w4, _⟩ := BuilderP.withQuery_front b0 (Builder.splitQuery (dirText [] ++ refText ('/' :: u) q none) .missing).2
      cases i3
      unfold BindP.Holds
      rw [k2, f4, w4]
      show some (Builder.pathEncode []) = some (ReqUrl.encodingDance [])
      decide
    obtain ⟨m1, _, _⟩ := BindP.environ_bound cfg ops lower other e.vars (some []) (some (q.getD [])) path bl.scheme
      hroot hpath k4 k5 server sub x hx
    rw [m1]
    exact hmatch hnl x.adapter hadr hbest _


/-! ### Cases -/

/-- A configuration whose joining of URLs is the modelled one. -/
def urlCfg : Config := { sampleCfg with urljoin := fun b u => (urljoin asciiLower b u).toOption.getD [] }

theorem url_join (b u r : Str) (h : urljoin asciiLower b u = .ok r) : urlCfg.urljoin b u = r := by
  show ((urljoin asciiLower b u).toOption).getD [] = r
  rw [h]; rfl

theorem url_pure : PureConfig urlCfg := sample_pure

theorem user_registered (b : Bound) (h : Registered urlCfg [.add [userRoute]] b) : b = userBound := by
  obtain ⟨r, h1, h2⟩ := h
  have hr : registered urlCfg [.add [userRoute]] = [userRoute] := rfl
  rw [hr] at h1
  have hi : b.id = 0 := by
    have := (List.getElem?_eq_some_iff.1 h1).1
    simpa using this
  rw [hi] at h1 h2
  cases h1
  have : compile urlCfg 0 userRoute = .ok userBound := rfl
  rw [this] at h2
  exact (Except.ok.inj h2).symm

theorem user_usable (a : Adapter) (ha : a.subdomain = []) : Usable asciiDec urlCfg a userArgs userBound := by
  refine ⟨rfl, rfl, (fun c h => by cases h), .inr ⟨rfl, ha⟩, ⟨rfl, trivial⟩, ?_⟩
  intro n c h
  rcases List.mem_cons.1 h with h | h
  · cases h
    exact ⟨.string 1 none, .str s%"a b", rfl, (by intro k hk; cases hk), Nat.le_refl _, rfl, trivial,
      (by decide : '/' ∉ s%"a b"), (by decide : 1 ≤ s%"a b".length), by intro k hk; cases hk⟩
  · rcases List.mem_cons.1 h with h | h
    · cases h
      exact ⟨.int 0 none none, .int 7, rfl, trivial, trivial, rfl, trivial, (by decide : (0 : Int) ≤ 7), (by simp), (by simp), by simp⟩
    · cases h

/-- A map bound below a script. -/
def userAdapter : Adapter := Adapter.mk' s%"example.org" s%"/app/v1/" [] s%"http"

set_option maxRecDepth 8000 in
set_option synthInstance.maxSize 1000 in
/-- The hypotheses are met by the route `/u/<x>/<int:n>/` and the values `a b`, 7 and a page. -/
example : build (run (URLMap.new urlCfg) [.add [userRoute]]) userAdapter s%"user" userArgs false true =
      .ok s%"/app/v1/u/a%20b/7/?page=2" ∧
    match_ (run (URLMap.new urlCfg) [.add [userRoute]]) userAdapter s%"/u/a b/7/" [] =
      .ok (.found userBound [(s%"x", .str s%"a b"), (s%"n", .int 7)]) ∧
    Dotless s%"u/a b/7/" ∧ Packed s%"u/a b/7/" ∧
    Best urlCfg [.add [userRoute]] (fullPath urlCfg userAdapter s%"/u/a b/7/") userBound ∧
    ∃ b p q path, Registered urlCfg [.add [userRoute]] b ∧ b.build userArgs false = .ok (some (domainOf urlCfg b.route, p)) ∧
      Percent.meaning (utf8 p) = utf8 path ∧ QueryFor b userArgs q := by
  refine ⟨by decide +kernel, rfl, by unfold Dotless; decide +kernel, by unfold Packed; decide +kernel,
    ⟨⟨userRoute, rfl, rfl⟩, ?_, ?_⟩, ?_⟩
  · have : Bound.match_ urlCfg userBound (fullPath urlCfg userAdapter s%"/u/a b/7/") =
      .values [(s%"x", .str s%"a b"), (s%"n", .int 7)] := rfl
    rw [this]; intro h; cases h
  · intro c hc _ hne
    exact absurd (user_registered c hc) hne
  · obtain ⟨b, p, q, path, h1, _, _, h2, h3, h4, _⟩ := C105_build_partial asciiDec asciiDec_ok rfl urlCfg url_pure asciiLower url_join
      [.add [userRoute]] rfl (.inr (by
        intro r hr
        have : registered urlCfg [.add [userRoute]] = [userRoute] := rfl
        rw [this] at hr
        rw [List.mem_singleton.1 hr]
        exact ⟨rfl, rfl⟩)) userAdapter [s%"app", s%"v1"]
      ⟨by unfold Segment; decide +kernel, by decide +kernel⟩ rfl s%"user" userArgs
      ⟨userBound, ⟨userRoute, rfl, rfl⟩, rfl, rfl⟩
      (by intro b hb _ _; rw [user_registered b hb]; exact user_usable _ rfl)
    exact ⟨b, p, q, path, h1, h2, h3, h4⟩

/-- The environment of a request for a path, made as a test makes it. -/
def requestOf (path : Str) : Except PyErr Builder.Environ :=
  match Builder.init IriP.demoLower (iriToUri IriP.demoIdna IriP.demoLower usesNetloc)
      (urlFix IriP.demoIdna IriP.demoLower usesNetloc Char.isAlpha) path none .missing s%"GET" [] none none none .missing [] [] with
  | .error e => .error e
  | .ok b => Builder.getEnviron (fun s => s.map Char.toUpper) IriP.demoLower (fun _ => none) [] b

/-- What a map answers to such a request: the path and the arguments the request has, and
the name and the arguments of the route that is found. -/
def answered (ops : List Op) (path : Str) : Option (Str × List (Str × Str) × Option (Str × List (Str × Str))) :=
  match requestOf path with
  | .error _ => none
  | .ok e =>
    match bindToEnviron urlCfg IriP.demoLower (fun s => .ok s) e.vars none none, ReqUrl.path e.vars, ReqUrl.argPairs false e.vars with
    | .ok x, .ok p, .ok args =>
      some (p, args, match x.match_ (run (URLMap.new urlCfg) ops) none none with
        | .ok (.found b out) => some (b.route.endpoint, out.map fun kv => (kv.1, kv.2.text))
        | _ => none)
    | _, _, _ => none

set_option maxRecDepth 8000 in
set_option synthInstance.maxSize 1000 in
example : answered [.add [userRoute]] s%"/u/a%20b/7/?page=2" =
    some (s%"/u/a b/7/", [(s%"page", s%"2")], some (s%"user", [(s%"x", s%"a b"), (s%"n", s%"7")])) := by
  decide +kernel

/-- A route for the files of a person. -/
def fileRoute : Route := sampleRoute s%"/files/<name>" s%"file"

def listRoute : Route := sampleRoute s%"/files/" s%"list"

set_option maxRecDepth 8000 in
set_option synthInstance.maxSize 1000 in
/-- C105 as stated is false: the dots of a value survive quoting and are resolved when the address
is joined to the script, so the address for the file `.` is the one of the list, and the one for
the file `..` leaves the directory. -/
theorem C105_dots_false :
    build (run (URLMap.new urlCfg) [.add [fileRoute, listRoute]]) sampleAdapter s%"file" [(s%"name", .str s%".")] false true =
      .ok s%"/files/" ∧
    answered [.add [fileRoute, listRoute]] s%"/files/" = some (s%"/files/", [], some (s%"list", [])) ∧
    build (run (URLMap.new urlCfg) [.add [fileRoute, listRoute]]) sampleAdapter s%"file" [(s%"name", .str s%"..")] false true =
      .ok s%"/" ∧
    chosen (match_ (run (URLMap.new urlCfg) [.add [fileRoute, listRoute]]) sampleAdapter s%"/files/.." []) = some s%"file" :=
  ⟨by decide +kernel, by decide +kernel, by decide +kernel, rfl⟩

set_option maxRecDepth 8000 in
set_option synthInstance.maxSize 1000 in
/-- Neither do empty segments survive: the address of the route `/a//b` is `/a/b`, which the
map does not know, although it matches `/a//b`. -/
theorem C105_empty_segment_false :
    build (run (URLMap.new urlCfg) [.add [sampleRoute s%"/a//b" s%"e"]]) sampleAdapter s%"e" [] false true = .ok s%"/a/b" ∧
    match_ (run (URLMap.new urlCfg) [.add [sampleRoute s%"/a//b" s%"e"]]) sampleAdapter s%"/a/b" [] = .error .notFound ∧
    chosen (match_ (run (URLMap.new urlCfg) [.add [sampleRoute s%"/a//b" s%"e"]]) sampleAdapter s%"/a//b" []) = some s%"e" :=
  ⟨by decide +kernel, rfl, rfl⟩

set_option maxRecDepth 8000 in
set_option synthInstance.maxSize 1000 in
/-- The script name is not quoted: below the script `/what?`, which a server hands over decoded,
the address of a page is one outside of the script. -/
theorem C105_script_false :
    build (run (URLMap.new urlCfg) [.add [userRoute]]) (Adapter.mk' s%"example.org" s%"/what?/" [] s%"http") s%"user"
      userArgs false true = .ok s%"/u/a%20b/7/?page=2" := by decide +kernel

end Verif.Props.BuildP
