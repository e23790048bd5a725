import Verif.Model.Auth
import Verif.Spec.Base64
import Verif.Props.Urls
import Verif.Props.Quote
import Verif.Props.Headers
/-! Property theorems C56 and C57: the `Authorization` header. -/
namespace Verif.Props.AuthP
open Verif Verif.Quote Verif.Auth Verif.Spec.Base64

/-! ### latin-1 -/

theorem octet_char (x : UInt8) : (Char.ofNat x.toNat).toNat = x.toNat := by
  have := Urls.forall_byte (fun x => (Char.ofNat x.toNat).toNat == x.toNat) (by decide +kernel) x
  simpa using this

theorem toBytes_octets (b : Bytes) : wsgiToBytes (octets b) = .ok b := by
  induction b with
  | nil => rfl
  | cons x r ih =>
    have hx := octet_char x
    have : x.toNat < 256 := x.toNat_lt
    show wsgiToBytes (Char.ofNat x.toNat :: octets r) = _
    simp only [wsgiToBytes, hx, this, if_true, ih]
    simp

theorem toBytes_ok (v : Str) (h : ∀ c ∈ v, c.toNat < 256) : ∃ b, wsgiToBytes v = .ok b ∧ octets b = v := by
  induction v with
  | nil => exact ⟨[], rfl, rfl⟩
  | cons c r ih =>
    obtain ⟨b, h1, h2⟩ := ih fun x hx => h x (.tail _ hx)
    have hc := h c (.head _)
    refine ⟨UInt8.ofNat c.toNat :: b, by simp [wsgiToBytes, hc, h1], ?_⟩
    show Char.ofNat (UInt8.ofNat c.toNat).toNat :: octets b = _
    rw [h2, UInt8.toNat_ofNat', Nat.mod_eq_of_lt (by omega)]
    congr 1
    exact Char.ofNat_toNat c

/-! ### base 64 -/

theorem char_facts : ∀ n, n < 64 → char n ≠ 61 ∧ b64val (char n) = some n ∧ isSpaceB (char n) = false := by
  decide +kernel

theorem a2b_char (quad left bits n : Nat) (h : n < 64) (r : Bytes) :
    a2b quad left bits (char n :: r) =
      if bits + 6 ≥ 8 then
        (a2b ((quad + 1) % 4) ((left * 64 + n) % 2 ^ (bits + 6 - 8)) (bits + 6 - 8) r).map
          (UInt8.ofNat ((left * 64 + n) / 2 ^ (bits + 6 - 8)) :: ·)
      else a2b ((quad + 1) % 4) (left * 64 + n) (bits + 6) r := by
  obtain ⟨h1, h2, _⟩ := char_facts n h
  rw [a2b, if_neg h1, h2]

theorem ofNat_eq (n : Nat) (a : UInt8) (h : n = a.toNat) : UInt8.ofNat n = a := by
  subst h; simp

theorem decode_encode (l : Bytes) : b64decode (encode l) = some l := by
  unfold b64decode
  fun_induction encode l with
  | case1 => rfl
  | case2 a =>
    have ha := a.toNat_lt
    rw [a2b_char _ _ _ _ (by omega), if_neg (by omega), a2b_char _ _ _ _ (by omega), if_pos (by omega)]
    simp only [Nat.zero_mul, Nat.zero_add, Nat.reduceAdd, Nat.reduceSub, Nat.reducePow, Nat.reduceMod]
    rw [a2b, if_pos rfl, if_neg (by simp [nextValid])]
    simp only [Option.map_some]
    rw [ofNat_eq _ a (by omega)]
  | case3 a b =>
    have ha := a.toNat_lt
    have hb := b.toNat_lt
    rw [a2b_char _ _ _ _ (by omega), if_neg (by omega), a2b_char _ _ _ _ (by omega), if_pos (by omega),
      a2b_char _ _ _ _ (by omega), if_pos (by omega)]
    simp only [Nat.zero_mul, Nat.zero_add, Nat.reduceAdd, Nat.reduceSub, Nat.reducePow, Nat.reduceMod]
    rw [a2b, if_pos rfl, if_neg (by omega)]
    simp only [Option.map_some]
    rw [ofNat_eq _ a (by omega), ofNat_eq _ b (by omega)]
  | case4 a b c r ih =>
    have ha := a.toNat_lt
    have hb := b.toNat_lt
    have hc := c.toNat_lt
    rw [a2b_char _ _ _ _ (by omega), if_neg (by omega), a2b_char _ _ _ _ (by omega), if_pos (by omega),
      a2b_char _ _ _ _ (by omega), if_pos (by omega), a2b_char _ _ _ _ (by omega), if_pos (by omega)]
    simp only [Nat.zero_mul, Nat.zero_add, Nat.reduceAdd, Nat.reduceSub, Nat.reducePow, Nat.reduceMod]
    rw [Nat.mod_one, ih]
    simp only [Option.map_some]
    rw [ofNat_eq _ a (by omega), ofNat_eq _ b (by omega), ofNat_eq _ c (by omega)]

/-! ### splitting the header -/

theorem takeWhile_all {α} (p : α → Bool) (a b : List α) (ha : ∀ x ∈ a, p x = true)
    (hb : ∀ x, b.head? = some x → p x = false) : (a ++ b).takeWhile p = a ∧ (a ++ b).dropWhile p = b := by
  induction a with
  | nil =>
    cases b with
    | nil => exact ⟨rfl, rfl⟩
    | cons x b => simp [hb x rfl]
  | cons x a ih =>
    have := ih fun y hy => ha y (.tail _ hy)
    simp [ha x (.head _), this.1, this.2]

theorem splitWs_eq (t sep info : Bytes) (ht : t ≠ []) (ht' : ∀ c ∈ t, isSpaceB c = false)
    (hsep : sep ≠ []) (hsep' : ∀ c ∈ sep, isSpaceB c = true)
    (hi : info ≠ []) (hi' : ∀ c, info.head? = some c → isSpaceB c = false) :
    splitWsB (t ++ sep ++ info) = some (t, info) := by
  have e1 : (t ++ sep ++ info).dropWhile isSpaceB = t ++ (sep ++ info) := by
    rw [List.append_assoc]
    cases t with
    | nil => exact absurd rfl ht
    | cons c t => simp [ht' c (.head _)]
  have h2 := takeWhile_all (fun c => !isSpaceB c) t (sep ++ info) (fun x hx => by simp [ht' x hx]) (by
    intro x hx
    cases sep with
    | nil => exact absurd rfl hsep
    | cons c r =>
      cases hx
      rw [hsep' x (.head _)]; rfl)
  have h3 := takeWhile_all isSpaceB sep info hsep' hi'
  simp only [splitWsB, e1, h2.1, h2.2, h3.2, if_neg hi]

/-- Octets that may separate the scheme from the credentials. -/
def IsWs (c : UInt8) : Prop := c = 32 ∨ c = 9 ∨ c = 10 ∨ c = 11 ∨ c = 12 ∨ c = 13

theorem ws_space (c : UInt8) (h : IsWs c) : isSpaceB c = true := by
  rcases h with h | h | h | h | h | h <;> subst h <;> decide

theorem lower_octet (x : UInt8) : (Char.ofNat x.toNat).toLower =
    Char.ofNat (if 65 ≤ x && x ≤ 90 then x + 32 else x).toNat := by
  have := Urls.forall_byte (fun x => (Char.ofNat x.toNat).toLower ==
    Char.ofNat (if 65 ≤ x && x ≤ 90 then x + 32 else x).toNat) (by decide +kernel) x
  simpa using this

theorem lower_octets (b : Bytes) : (octets b).map Char.toLower = octets (lowerB b) := by
  simp only [octets, lowerB, List.map_map]
  apply List.map_congr_left
  intro x _
  exact lower_octet x

theorem octets_inj (a b : Bytes) (h : octets a = octets b) : a = b := by
  have := toBytes_octets a
  rw [h, toBytes_octets] at this
  cases this; rfl

theorem scheme_facts (t w : Bytes) (h : (octets t).map Char.toLower = octets w) (hw : w ≠ [])
    (hw' : ∀ c ∈ w, isSpaceB c = false) : lowerB t = w ∧ t ≠ [] ∧ ∀ c ∈ t, isSpaceB c = false := by
  rw [lower_octets] at h
  have h := octets_inj _ _ h
  refine ⟨h, ?_, ?_⟩
  · rintro rfl; exact hw h.symm
  · intro c hc
    have h1 := hw' (if 65 ≤ c && c ≤ 90 then c + 32 else c) (by
      rw [← h]; exact List.mem_map.2 ⟨c, hc, rfl⟩)
    have h2 := Urls.forall_byte (fun c => !isSpaceB c || isSpaceB (if 65 ≤ c && c ≤ 90 then c + 32 else c))
      (by decide +kernel) c
    rw [h1] at h2
    simpa using h2

theorem encode_head (l : Bytes) (h : l ≠ []) :
    encode l ≠ [] ∧ ∀ c, (encode l).head? = some c → isSpaceB c = false := by
  have key : ∀ n, n < 64 → ∀ r : Bytes, (char n :: r) ≠ [] ∧
      ∀ c, (char n :: r).head? = some c → isSpaceB c = false := by
    intro n hn r
    refine ⟨by simp, fun c hc => ?_⟩
    cases hc
    exact (char_facts n hn).2.2
  match l, h with
  | [a], _ => have ha := a.toNat_lt; exact key _ (by omega) _
  | [a, b], _ => have ha := a.toNat_lt; exact key _ (by omega) _
  | a :: b :: c :: r, _ => have ha := a.toNat_lt; exact key _ (by omega) _

theorem splitColon_eq (u p : Bytes) (h : (58 : UInt8) ∉ u) : splitColon (u ++ 58 :: p) = some (u, p) := by
  induction u with
  | nil => rfl
  | cons c u ih =>
    have h1 : c ≠ 58 := fun e => h (e ▸ .head _)
    have h2 : (58 : UInt8) ∉ u := fun e => h (.tail _ e)
    simp [splitColon, h1, ih h2]

/-! ### C56 -/

/-- For every username without a colon and every password, given as octets, the header built
from them (a scheme spelled in any case, white space, the base 64 encoding of `user:password`)
is parsed into exactly this username and password. -/
theorem C56_basic (scheme sep u p : Bytes) (hs : (octets scheme).map Char.toLower = s%"basic")
    (hsep : sep ≠ []) (hsep' : ∀ c ∈ sep, IsWs c) (hu : (58 : UInt8) ∉ u) :
    parseAuthorization (octets (scheme ++ sep ++ encode (u ++ 58 :: p))) =
      .ok (some ⟨s%"basic", [(s%"username", some (octets u)), (s%"password", some (octets p))]⟩) := by
  obtain ⟨h1, h2, h3⟩ := scheme_facts scheme b%"basic" hs (by decide) (by decide)
  obtain ⟨h4, h5⟩ := encode_head (u ++ 58 :: p) (by simp)
  have h6 := splitWs_eq scheme sep _ h2 h3 hsep (fun c hc => ws_space c (hsep' c hc)) h4 h5
  have hne : octets (scheme ++ sep ++ encode (u ++ 58 :: p)) ≠ [] := by
    intro e
    have := congrArg List.length e
    simp [octets] at this
    exact h2 this.1
  unfold parseAuthorization
  rw [if_neg hne, toBytes_octets]
  simp only [h6, h1, if_true]
  rw [parseBasic, decode_encode]
  simp only [splitColon_eq u p hu]
  rfl

example : octets b%"bAsIc" = s%"bAsIc" ∧ (s%"bAsIc").map Char.toLower = s%"basic" ∧
    octets (b%"bAsIc" ++ [32] ++ encode (b%"Aladdin" ++ 58 :: b%"open:sesame")) =
      s%"bAsIc QWxhZGRpbjpvcGVuOnNlc2FtZQ==" := by decide +kernel

/-- A username and password given as text in latin-1 come back as the same text. -/
theorem C56_basic_text (u p : Str) (hu : ∀ c ∈ u, c.toNat < 256) (hp : ∀ c ∈ p, c.toNat < 256) (hc : ':' ∉ u) :
    ∃ ub pb, octets ub = u ∧ octets pb = p ∧
      parseAuthorization (s%"Basic " ++ octets (encode (ub ++ 58 :: pb))) =
        .ok (some ⟨s%"basic", [(s%"username", some u), (s%"password", some p)]⟩) := by
  obtain ⟨ub, -, rfl⟩ := toBytes_ok u hu
  obtain ⟨pb, -, rfl⟩ := toBytes_ok p hp
  refine ⟨ub, pb, rfl, rfl, ?_⟩
  have := C56_basic b%"Basic" [32] ub pb (by decide) (by decide) (by simp [IsWs]) (by
    intro h
    exact hc (List.mem_map.2 ⟨58, h, rfl⟩))
  rw [← this]
  simp [octets]

/-! ### C57 -/

/-- What a digest header must contain. -/
def Complete (d : List (Str × Option Str)) : Prop :=
  (∀ k ∈ [s%"username", s%"realm", s%"nonce", s%"uri", s%"response"], ∃ v, (k, v) ∈ d) ∧
  ((∃ v, (s%"qop", v) ∈ d) →
    (∃ v, v ≠ [] ∧ (s%"nc", some v) ∈ d) ∧ ∃ v, v ≠ [] ∧ (s%"cnonce", some v) ∈ d)

theorem has_iff_mem (d : List (Str × Option Str)) (k : Str) : Dict.has d k = true ↔ ∃ v, (k, v) ∈ d := by
  rw [Dict.has_iff, Dict.keys, List.mem_map]
  constructor
  · rintro ⟨⟨a, v⟩, h, rfl⟩; exact ⟨v, h⟩
  · rintro ⟨v, h⟩; exact ⟨_, h, rfl⟩

theorem truthy_mem (d : List (Str × Option Str)) (k : Str) (h : truthy d k = true) :
    ∃ v, v ≠ [] ∧ (k, some v) ∈ d := by
  unfold truthy at h
  split at h
  · rename_i v hv
    exact ⟨v, by simpa using h, Dict.mem_of_get hv⟩
  · cases h

theorem truthy_iff (d : List (Str × Option Str)) (hd : (d.map (·.1)).Nodup) (k : Str) : truthy d k = true ↔
    ∃ v, v ≠ [] ∧ (k, some v) ∈ d := by
  refine ⟨truthy_mem d k, ?_⟩
  rintro ⟨v, h1, h2⟩
  have := Dict.get_of_mem (d := d) hd h2
  simp [truthy, this, h1]

theorem digest_some (info : Bytes) (a : Authorization) (h : parseDigest info = some a) :
    a.type = s%"digest" ∧ a.data = parseDictHeader (octets info) ∧ Complete a.data := by
  unfold parseDigest at h
  simp only at h
  split at h
  · cases h
  · rename_i h1
    split at h
    · cases h
    · rename_i h2
      cases h
      refine ⟨rfl, rfl, ?_, ?_⟩
      · intro k hk
        rw [Bool.not_eq_true, Bool.not_eq_false', List.all_eq_true] at h1
        exact (has_iff_mem _ _).1 (h1 k hk)
      · intro hq
        have hq' := (has_iff_mem _ _).2 hq
        simp only [bytesToWsgi] at h2 hq' ⊢
        simp only [hq', Bool.true_and, Bool.or_eq_true, Bool.not_eq_true', not_or, Bool.not_eq_false] at h2
        exact ⟨truthy_mem _ _ h2.1, truthy_mem _ _ h2.2⟩

/-- Whatever the header, an object of type `digest` has a username, a realm, a nonce, a uri and
a response, and if it has a qop also a non-empty nc and a non-empty cnonce; an object of the
other type is `basic` with a username and a password. -/
theorem C57_sound (value : Str) (a : Authorization) (h : parseAuthorization value = .ok (some a)) :
    (a.type = s%"digest" ∧ Complete a.data) ∨
    (a.type = s%"basic" ∧ ∃ u p, a.data = [(s%"username", some u), (s%"password", some p)]) := by
  unfold parseAuthorization at h
  split at h
  · cases h
  · split at h
    · cases h
    · split at h
      · cases h
      · split at h
        · right
          rename_i info _ _
          rw [Except.ok.injEq] at h
          unfold parseBasic at h
          split at h
          · cases h
          · split at h
            · cases h
            · cases h
              exact ⟨rfl, _, _, rfl⟩
        · split at h
          · left
            rw [Except.ok.injEq] at h
            have := digest_some _ _ h
            exact ⟨this.1, this.2.2⟩
          · cases h

/-- The header built from any mapping of directives is accepted, with exactly these directives,
if the mapping is complete, and otherwise gives nothing. -/
theorem C57_digest (d : List (Str × Option Str))
    (hk : ∀ kv ∈ d, kv.1 ≠ [] ∧ (∀ c ∈ kv.1, c ≠ ',' ∧ c ≠ '"' ∧ c ≠ '=') ∧ Py.strip kv.1 = kv.1)
    (hnd : (d.map (·.1)).Nodup)
    (hv : ∀ k v, (k, some v) ∈ d → ¬ (v.head? = some '"' ∧ v.getLast? = some '"'))
    (hl : ∀ c ∈ dumpHeaderDict d, c.toNat < 256) :
    (Complete d → parseAuthorization (s%"Digest " ++ dumpHeaderDict d) = .ok (some ⟨s%"digest", d⟩)) ∧
    (¬ Complete d → parseAuthorization (s%"Digest " ++ dumpHeaderDict d) = .ok none) := by
  have hrt := (Verif.Props.C04_dict_roundtrip_partial d true hk hnd).2 hv
  obtain ⟨info, hi1, hi2⟩ := toBytes_ok (dumpHeaderDict d) hl
  have hb : wsgiToBytes (s%"Digest " ++ dumpHeaderDict d) = .ok (b%"Digest" ++ [32] ++ info) := by
    rw [← hi2, ← toBytes_octets]
    simp [octets]
  cases d with
  | nil =>
    refine ⟨fun h => ?_, fun _ => by decide +kernel⟩
    obtain ⟨v, hv⟩ := h.1 s%"username" (.head _)
    cases hv
  | cons x xs =>
    have hhead : ∀ c, (dumpHeaderDict (x :: xs)).head? = some c → Py.isSpace c = false := by
      intro c hc
      have hx := hk x (.head _)
      have : (dumpHeaderDict (x :: xs)).head? = x.1.head? := by
        obtain ⟨k, v⟩ := x
        cases k with
        | nil => exact absurd rfl hx.1
        | cons a k =>
          cases xs <;> cases v <;> simp [dumpHeaderDict, dumpPair, Py.join]
      rw [this] at hc
      have h2 := Py.stripP_head Py.isSpace x.1
      have h3 : Py.stripP Py.isSpace x.1 = x.1 := hx.2.2
      rw [h3] at h2
      have := h2 c hc
      simpa using this
    have hne : dumpHeaderDict (x :: xs) ≠ [] := by
      have hx := (hk x (.head _)).1
      obtain ⟨k, v⟩ := x
      cases k with
      | nil => exact absurd rfl hx
      | cons a k => cases xs <;> cases v <;> simp [dumpHeaderDict, dumpPair, Py.join]
    have hine : info ≠ [] := by
      rintro rfl
      exact hne hi2.symm
    have hih : ∀ c, info.head? = some c → isSpaceB c = false := by
      intro c hc
      have h1 := hhead (Char.ofNat c.toNat) (by
        rw [← hi2, octets, List.head?_map, hc]; rfl)
      have h2 := Urls.forall_byte (fun c => !isSpaceB c || Py.isSpace (Char.ofNat c.toNat)) (by decide +kernel) c
      rw [h1] at h2
      simpa using h2
    have hsp := splitWs_eq b%"Digest" [32] info (by decide) (by decide) (by decide) (by decide) hine hih
    have hp : parseAuthorization (s%"Digest " ++ dumpHeaderDict (x :: xs)) = .ok (parseDigest info) := by
      unfold parseAuthorization
      rw [if_neg (by simp), hb]
      simp only [hsp]
      rw [if_neg (by decide), if_pos (by decide)]
    have hm : parseDictHeader (bytesToWsgi info) = x :: xs := by
      show parseDictHeader (octets info) = _
      rw [hi2]; exact hrt
    rw [hp]
    constructor
    · intro hc
      unfold parseDigest
      simp only [hm]
      rw [if_neg, if_neg]
      · rw [Bool.and_eq_true, not_and, has_iff_mem]
        intro hq
        have := hc.2 hq
        rw [← truthy_iff _ hnd, ← truthy_iff _ hnd] at this
        rw [this.1, this.2]; decide
      · rw [Bool.not_eq_true, Bool.not_eq_false', List.all_eq_true]
        intro k hk
        exact (has_iff_mem _ _).2 (hc.1 k hk)
    · intro hc
      cases hd : parseDigest info with
      | none => rfl
      | some a =>
        have := digest_some _ _ hd
        exfalso
        rw [this.2.1, hi2, hrt] at this
        exact hc this.2.2

example : Complete [(s%"username", some s%"u"), (s%"realm", some s%"a b"), (s%"nonce", some s%"n"),
    (s%"uri", some s%"/"), (s%"response", some s%"r"), (s%"qop", some s%"auth"), (s%"nc", some s%"1"),
    (s%"cnonce", some s%"c")] := by
  refine ⟨?_, fun _ => ⟨⟨s%"1", by decide, by decide⟩, ⟨s%"c", by decide, by decide⟩⟩⟩
  intro k hk
  simp only [List.mem_cons, List.not_mem_nil, or_false] at hk
  rcases hk with rfl | rfl | rfl | rfl | rfl <;> simp

example : ¬ Complete [(s%"username", some s%"u"), (s%"realm", some s%"a b"), (s%"nonce", some s%"n"),
    (s%"uri", some s%"/"), (s%"response", some s%"r"), (s%"qop", some s%"auth"), (s%"nc", some s%"1")] := by
  intro h
  obtain ⟨_, v, _, hv⟩ := h.2 ⟨some s%"auth", by decide⟩
  simp at hv

/-! ### C75 -/

theorem splitWsS_eq (t info : Str) (ht : t ≠ []) (ht' : ∀ c ∈ t, Py.isSpace c = false)
    (hi : info ≠ []) (hi' : ∀ c, info.head? = some c → Py.isSpace c = false) :
    splitWs (t ++ s%" " ++ info) = some (t, info) := by
  have e1 : (t ++ s%" " ++ info).dropWhile Py.isSpace = t ++ (s%" " ++ info) := by
    rw [List.append_assoc]
    cases t with
    | nil => exact absurd rfl ht
    | cons c t => simp [ht' c (.head _)]
  have h2 := takeWhile_all (fun c => !Py.isSpace c) t (s%" " ++ info) (fun x hx => by simp [ht' x hx]) (by
    intro x hx
    cases hx; decide)
  have h3 := takeWhile_all Py.isSpace s%" " info (by decide) hi'
  simp only [splitWs, e1, h2.1, h2.2, h3.2, if_neg hi]

theorem splitWsS_none (t : Str) (ht : t ≠ []) (ht' : ∀ c ∈ t, Py.isSpace c = false) :
    splitWs (t ++ s%" ") = none ∧ Py.strip (t ++ s%" ") = t := by
  have e1 : (t ++ s%" ").dropWhile Py.isSpace = t ++ s%" " := by
    cases t with
    | nil => exact absurd rfl ht
    | cons c t => simp [ht' c (.head _)]
  have h2 := takeWhile_all (fun c => !Py.isSpace c) t s%" " (fun x hx => by simp [ht' x hx]) (by
    intro x hx
    cases hx; decide)
  refine ⟨?_, ?_⟩
  · simp only [splitWs, e1, h2.2]
    exact if_pos (by decide)
  · show Py.rstripP Py.isSpace ((t ++ s%" ").dropWhile Py.isSpace) = t
    rw [e1, Py.rstripP_append _ _ _ (by decide)]
    apply Py.rstripP_of_last
    intro c hc
    exact ht' c (List.mem_of_getLast? hc)

/-- The challenge written by a server is parsed into the same challenge: scheme and every
parameter, for parameter names in header syntax and text values that are not themselves
enclosed in quotes. -/
theorem C75_roundtrip_partial (title lower : Str → Str) (w : WWW) (t : Str) (hnd : (Dict.keys w).Nodup)
    (ht : Dict.get w s%"__auth_type__" = some (some t)) (ht0 : t ≠ []) (htl : lower (title t) = t)
    (htt : title t ≠ [] ∧ ∀ c ∈ title t, Py.isSpace c = false)
    (hw : ∀ k v, (k, v) ∈ w → k ≠ s%"__auth_type__" →
      (k ≠ [] ∧ (∀ c ∈ k, c ≠ ',' ∧ c ≠ '"' ∧ c ≠ '=') ∧ Py.strip k = k) ∧
      ∃ s, v = some s ∧ ¬ (s.head? = some '"' ∧ s.getLast? = some '"')) :
    ∀ k, Dict.get (parseWWW lower (wwwToHeader title w)) k = Dict.get w k := by
  have hs : schemeOf w = t := by
    unfold schemeOf typeKey; rw [ht]; simp [ht0]
  have hdnd := Dict.nodup_del hnd typeKey
  have hdm : ∀ k v, (k, v) ∈ Dict.del w typeKey → k ≠ s%"__auth_type__" ∧ (k, v) ∈ w := by
    intro k v hm
    have h1 := Dict.get_of_mem hdnd hm
    rw [Dict.get_del hnd] at h1
    split at h1
    · cases h1
    · rename_i hne
      exact ⟨hne, Dict.mem_of_get h1⟩
  have hmap : (Dict.del w typeKey).map (fun kv =>
      kv.1 ++ s%"=" ++ quoteHeaderValue (strOf kv.2) [] (!requireQuoting.contains kv.1)) =
      (Dict.del w typeKey).map (fun kv => dumpPair (!requireQuoting.contains kv.1) kv) := by
    apply List.map_congr_left
    rintro ⟨k, v⟩ hm
    obtain ⟨h1, h2⟩ := hdm k v hm
    obtain ⟨_, s, rfl, _⟩ := hw k v h2 h1
    rfl
  have hrt := parse_dump_dictF (fun k => !requireQuoting.contains k) (Dict.del w typeKey) (by
    rintro ⟨k, v⟩ hm
    obtain ⟨h1, h2⟩ := hdm k v hm
    exact (hw k v h2 h1).1) hdnd
  have hid : (Dict.del w typeKey).map (fun kv => (kv.1, kv.2.map (fun v =>
      if !requireQuoting.contains kv.1 && v.all (fun c => tokenChars.contains c) then v
      else unquoteHeaderValue v))) = Dict.del w typeKey := by
    apply Py.map_eq_self.2
    rintro ⟨k, v⟩ hm
    obtain ⟨h1, h2⟩ := hdm k v hm
    obtain ⟨_, s, rfl, hq⟩ := hw k v h2 h1
    simp only [Option.map_some, Prod.mk.injEq, Option.some.injEq, true_and]
    split
    · rfl
    · unfold unquoteHeaderValue
      rw [if_neg hq]
  rw [hid] at hrt
  have hnew : ∀ k, Dict.get (newWWW t (Dict.del w typeKey)) k = Dict.get w k := by
    intro k
    unfold newWWW
    rw [if_neg ht0, Dict.get_set, Dict.get_del hnd]
    by_cases hk : k = typeKey
    · subst hk; simp; exact ht.symm
    · simp [hk]
  intro k
  rw [← hnew k]
  congr 1
  unfold wwwToHeader
  rw [hs, hmap]
  have hne : title t ++ s%" " ++ Py.join s%", " ((Dict.del w typeKey).map
      (fun kv => dumpPair (!requireQuoting.contains kv.1) kv)) ≠ [] := by simp
  unfold parseWWW
  rw [if_neg hne]
  cases hd : Dict.del w typeKey with
  | nil =>
    simp only [List.map_nil, Py.join, List.append_nil]
    rw [(splitWsS_none _ htt.1 htt.2).1, (splitWsS_none _ htt.1 htt.2).2]
    simp only [htl]
  | cons x xs =>
    rw [hd] at hrt
    have hx : x ∈ Dict.del w typeKey := by rw [hd]; exact .head _
    obtain ⟨h1, h2⟩ := hdm x.1 x.2 hx
    obtain ⟨⟨k1, k2, k3⟩, _⟩ := hw x.1 x.2 h2 h1
    have hhead : (Py.join s%", " ((x :: xs).map (fun kv => dumpPair (!requireQuoting.contains kv.1) kv))).head? =
        x.1.head? := by
      obtain ⟨k, v⟩ := x
      cases k with
      | nil => exact absurd rfl k1
      | cons a k => cases xs <;> cases v <;> simp [dumpPair, Py.join]
    have hsp := splitWsS_eq (title t) (Py.join s%", " ((x :: xs).map
      (fun kv => dumpPair (!requireQuoting.contains kv.1) kv))) htt.1 htt.2 (by
        intro e
        rw [e] at hhead
        cases hk : x.1 with
        | nil => exact k1 hk
        | cons a r => rw [hk] at hhead; cases hhead) (by
        intro c hc
        rw [hhead] at hc
        have h2 := Py.stripP_head Py.isSpace x.1
        have h3 : Py.stripP Py.isSpace x.1 = x.1 := k3
        rw [h3] at h2
        simpa using h2 c hc)
    rw [hsp]
    simp only [htl, hrt]

/-- A parameter without value does not survive: it is written as the text `None`. -/
theorem C75_roundtrip_false : ∃ h : Str,
    parseWWW asciiLower h = [(s%"foo", none), (s%"__auth_type__", some s%"basic")] ∧
    parseWWW asciiLower (wwwToHeader (fun _ => s%"Basic") (parseWWW asciiLower h)) =
      [(s%"foo", some s%"None"), (s%"__auth_type__", some s%"basic")] :=
  ⟨s%"Basic foo", by decide +kernel, by decide +kernel⟩

/-- The challenges set by `set_digest` meet the conditions of the round trip. -/
theorem C75_digest (title lower : Str → Str) (htl : lower (title s%"digest") = s%"digest")
    (htt : title s%"digest" ≠ [] ∧ ∀ c ∈ title s%"digest", Py.isSpace c = false)
    (realm nonce : Str) (qop : List Str) (opaq : Option Str) (stale : Bool)
    (hq : ∀ s, s = realm ∨ s = nonce ∨ s = dumpHeaderList qop ∨ opaq = some s →
      ¬ (s.head? = some '"' ∧ s.getLast? = some '"')) :
    let w := parseWWW lower (wwwToHeader title (setDigest realm nonce qop opaq none stale))
    getProp w s%"__auth_type__" = some s%"digest" ∧ getProp w s%"realm" = some realm ∧
    getProp w s%"nonce" = some nonce ∧ getProp w s%"qop" = some (dumpHeaderList qop) ∧
    getProp w s%"opaque" = opaq ∧ getProp w s%"stale" = if stale then some s%"TRUE" else none := by
  have key := C75_roundtrip_partial title lower (setDigest realm nonce qop opaq none stale) s%"digest"
    (by cases stale <;> cases opaq <;> simp [setDigest, Dict.keys, typeKey])
    (by simp [setDigest, Dict.get, typeKey]) (by decide) htl htt (by
      intro k v hm hne
      have hK : ∀ k ∈ [s%"realm", s%"nonce", s%"qop", s%"stale", s%"opaque"],
        k ≠ [] ∧ (∀ c ∈ k, c ≠ ',' ∧ c ≠ '"' ∧ c ≠ '=') ∧ Py.strip k = k := by decide
      have hS : ¬ (List.head? s%"TRUE" = some '"' ∧ List.getLast? s%"TRUE" = some '"') := by decide
      unfold setDigest at hm
      rcases List.mem_append.1 hm with hm | hm
      · rcases List.mem_append.1 hm with hm | hm
        · rcases List.mem_append.1 hm with hm | hm
          · simp only [List.mem_cons, Prod.mk.injEq, List.not_mem_nil, or_false] at hm
            rcases hm with ⟨rfl, rfl⟩ | ⟨rfl, rfl⟩ | ⟨rfl, rfl⟩ | ⟨rfl, rfl⟩
            · exact absurd rfl hne
            · exact ⟨hK _ (by decide), _, rfl, hq _ (by simp)⟩
            · exact ⟨hK _ (by decide), _, rfl, hq _ (by simp)⟩
            · exact ⟨hK _ (by decide), _, rfl, hq _ (by simp)⟩
          · split at hm
            · rw [List.mem_singleton] at hm
              cases hm
              exact ⟨hK _ (by decide), _, rfl, hS⟩
            · cases hm
        · cases opaq with
          | none => cases hm
          | some o =>
            rw [List.mem_singleton] at hm
            cases hm
            exact ⟨hK _ (by decide), _, rfl, hq _ (by simp)⟩
      · cases hm)
  intro w
  have hg : ∀ k, getProp w k = getProp (setDigest realm nonce qop opaq none stale) k := by
    intro k
    unfold getProp
    rw [key k]
  simp only [hg]
  cases stale <;> cases opaq <;> simp [getProp, setDigest, Dict.get, typeKey]

/-- Reading a property after setting it gives the set value, unsetting removes it, and other
properties are not affected. -/
theorem C75_properties (lower : Str → Str) (hl : lower s%"TRUE" = s%"true" ∧ lower s%"FALSE" ≠ s%"true")
    (w : WWW) (hnd : (Dict.keys w).Nodup) (name : Str) (v : Option Str) (b : Option Bool) :
    getProp (setProp w name v) name = v ∧ (∀ x, x ≠ name → getProp (setProp w name v) x = getProp w x) ∧
    getStale lower (setStale w b) = b ∧ ∀ x, x ≠ s%"stale" → getProp (setStale w b) x = getProp w x := by
  refine ⟨?_, ?_, ?_, ?_⟩
  · cases v <;> simp [getProp, setProp, Dict.get_set, Dict.get_del hnd]
  · intro x hx
    cases v <;> simp [getProp, setProp, Dict.get_set, Dict.get_del hnd, hx]
  · cases b with
    | none => simp [getStale, getProp, setStale, Dict.get_del hnd]
    | some b => cases b <;> simp [getStale, getProp, setStale, Dict.get_set, hl.1, hl.2]
  · intro x hx
    cases b <;> simp [getProp, setStale, Dict.get_set, Dict.get_del hnd, hx]

example : wwwToHeader (fun _ => s%"Digest") (setDigest s%"a \"b\" c" s%"n" [s%"auth", s%"auth-int"]
    (some s%"o") none true) =
    s%"Digest realm=\"a \\\"b\\\" c\", nonce=\"n\", qop=\"auth, auth-int\", stale=TRUE, opaque=\"o\"" := by
  decide +kernel

end Verif.Props.AuthP
