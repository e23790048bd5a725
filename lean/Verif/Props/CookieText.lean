import Verif.Model.CookieText
import Verif.Spec.UserAgent
import Verif.Props.Cookie
import Verif.Props.Date
import Verif.Props.Iri
import Verif.Props.EnvironBuilder
import Verif.Utf8Lemmas
/-! Property theorems C125: cookies from a response to the next request. -/
namespace Verif.Props.CookieTextP
open Verif Verif.CookieText Verif.Spec Verif.Props Verif.Spec.Calendar

/-! ### texts and bytes -/

theorem headerBytes_latin1 (b : Bytes) : headerBytes (Utf8.latin1 b) = b := by
  unfold headerBytes Utf8.latin1
  rw [List.map_map]
  conv => rhs; rw [← List.map_id b]
  apply List.map_congr_left
  intro x _
  have hx : x.toNat < 256 := x.toNat_lt
  have : (Char.ofNat x.toNat).toNat = x.toNat := Utf8.toNat_ofNat (.inl (by omega))
  simp only [Function.comp, this, hx, if_true, id]
  simp

theorem encode_inj {s t : Str} (h : Utf8.encode s = Utf8.encode t) : s = t := by
  rw [← Utf8.decode_encode s, h, Utf8.decode_encode]

theorem mem_encode {s : Str} {b : UInt8} (h : b ∈ Utf8.encode s) (hb : b.toNat < 128) : ∃ c ∈ s, c.toNat = b.toNat := by
  unfold Utf8.encode at h
  obtain ⟨c, hc, hm⟩ := List.mem_flatMap.1 h
  refine ⟨c, hc, ?_⟩
  by_cases h1 : c.toNat < 128
  · rw [Utf8.encChar_ascii h1] at hm
    rw [List.mem_singleton.1 hm, Utf8.byte_toNat (by omega)]
  · have := Utf8.encChar_high (by omega : 128 ≤ c.toNat) b hm
    omega

theorem not_mem_encode {s : Str} {c : Char} (hc : c.toNat < 128) (h : c ∉ s) : UInt8.ofNat c.toNat ∉ Utf8.encode s := by
  intro hm
  have e : (UInt8.ofNat c.toNat).toNat = c.toNat := Utf8.byte_toNat (by omega)
  obtain ⟨d, hd, he⟩ := mem_encode hm (by omega)
  rw [e] at he
  exact h (by rw [← Utf8.ofNat_toNat c, ← he, Utf8.ofNat_toNat]; exact hd)

/-! ### reading a header -/

theorem trim_id (b : Bytes) (h1 : ∀ c, b.head? = some c → c ≠ 32 ∧ c ≠ 9) (h2 : ∀ c, b.getLast? = some c → c ≠ 32 ∧ c ≠ 9) :
    Agent.trim b = b := by
  unfold Agent.trim
  have hd : ∀ l : Bytes, (∀ c, l.head? = some c → c ≠ 32 ∧ c ≠ 9) → l.dropWhile (fun c => c == 32 || c == 9) = l := by
    intro l hl
    cases l with
    | nil => rfl
    | cons a as =>
      obtain ⟨x, y⟩ := hl a rfl
      simp [x, y]
  rw [hd b h1, hd b.reverse (by rw [List.head?_reverse]; exact h2), List.reverse_reverse]

theorem quote_ends (b : Bytes) : (∀ c, (Cookie.cookieQuote b).head? = some c → c ≠ 32 ∧ c ≠ 9) ∧
    ∀ c, (Cookie.cookieQuote b).getLast? = some c → c ≠ 32 ∧ c ≠ 9 := by
  rw [CookieAux.cookieQuote_eq]
  split
  · rename_i h
    rw [List.all_eq_true] at h
    have hl : ∀ c ∈ b, c ≠ 32 ∧ c ≠ 9 := by
      intro c hc
      have := h c hc
      constructor <;> (rintro rfl; revert this; decide)
    exact ⟨fun c hc => hl c (List.mem_of_head? hc), fun c hc => hl c (List.mem_of_getLast? hc)⟩
  · constructor
    · intro c hc
      simp at hc; subst hc; decide
    · intro c hc
      rw [← List.cons_append, List.getLast?_concat] at hc
      cases hc; decide

theorem takeWhile_stop (p : UInt8 → Bool) (a : Bytes) (x : UInt8) (rest : Bytes) (h : ∀ c ∈ a, p c = true) (hx : p x = false) :
    (a ++ x :: rest).takeWhile p = a ∧ (a ++ x :: rest).dropWhile p = x :: rest := by
  induction a with
  | nil => simp [hx]
  | cons c cs ih =>
    have hc := h c (.head _)
    obtain ⟨i1, i2⟩ := ih fun d hd => h d (.tail _ hd)
    simp [hc, i1, i2]

theorem takeWhile_all (p : UInt8 → Bool) (a : Bytes) (h : ∀ c ∈ a, p c = true) : a.takeWhile p = a ∧ a.dropWhile p = [] := by
  induction a with
  | nil => simp
  | cons c cs ih =>
    obtain ⟨i1, i2⟩ := ih fun d hd => h d (.tail _ hd)
    simp [h c (.head _), i1, i2]

/-- The head of a written cookie is what stands before the first `;`. -/
theorem first_seg (x : Bytes) (segs : List Bytes) (hx : 59 ∉ x) :
    (Cookie.joinSemi (x :: segs)).takeWhile (· != 59) = x := by
  have hp : ∀ c ∈ x, (c != 59) = true := by
    intro c hc; simp only [bne_iff_ne]; rintro rfl; exact hx hc
  cases segs with
  | nil => exact (takeWhile_all _ x hp).1
  | cons s ss =>
    show (x ++ [59, 32] ++ _).takeWhile _ = x
    rw [List.append_assoc]
    exact (takeWhile_stop _ x 59 _ hp (by decide)).1

theorem name_trim {k : Bytes} (h : CookieName k) : Agent.trim k = k := by
  have : ∀ c ∈ k, c ≠ 32 ∧ c ≠ 9 := by
    intro c hc
    have := (h.2.1 c hc).2.2
    constructor <;> (rintro rfl; revert this; decide)
  exact trim_id k (fun c hc => this c (List.mem_of_head? hc)) fun c hc => this c (List.mem_of_getLast? hc)

theorem pair_read (k v : Bytes) (a : Cookie.Attrs) (hk : CookieName k) (h59 : 59 ∉ k) :
    Agent.pairOf (Cookie.dumpCookie k v a) = some (k, Cookie.cookieQuote v) := by
  have h61 : ∀ c ∈ k, (c != 61) = true := fun c hc => by simp only [bne_iff_ne]; exact (hk.2.1 c hc).1
  have hq : 59 ∉ Cookie.cookieQuote v := fun h => ((C22_value_safe v).1 59 h).2.2.1 rfl
  unfold Agent.pairOf Cookie.dumpCookie
  rw [first_seg _ _ (by simp [h59, hq])]
  simp only
  have e : k ++ [61] ++ Cookie.cookieQuote v = k ++ 61 :: Cookie.cookieQuote v := by simp
  obtain ⟨t1, t2⟩ := takeWhile_stop (· != 61) k 61 (Cookie.cookieQuote v) h61 (by decide)
  have hb : Agent.before (k ++ [61] ++ Cookie.cookieQuote v) = k := by unfold Agent.before; rw [e, t1]
  have ha : Agent.after (k ++ [61] ++ Cookie.cookieQuote v) = Cookie.cookieQuote v := by
    unfold Agent.after; rw [e, t2]; rfl
  rw [hb, ha, name_trim hk, trim_id _ (quote_ends v).1 (quote_ends v).2]
  rw [if_neg]
  rintro (h | h)
  · exact h (by simp)
  · exact hk.1 h

/-- The attributes a user agent reads in a written cookie. -/
theorem attrs_read (k v : Bytes) (a : Cookie.Attrs) (hk : 59 ∉ k)
    (he : ∀ e, a.expires = some e → 59 ∉ e) (hm : ∀ e, a.maxAge = some e → 59 ∉ e) (hp : ∀ e, a.path = some e → 59 ∉ e) :
    Agent.attrs (Cookie.dumpCookie k v a) =
      (a.domain.map fun d => (b%"domain", Cookie.cookieQuote d)).toList ++
      (a.expires.map fun e => (b%"expires", Agent.trim e)).toList ++
      (a.maxAge.map fun e => (b%"max-age", Agent.trim e)).toList ++
      (if a.secure then [(b%"secure", [])] else []) ++
      (if a.httponly then [(b%"httponly", [])] else []) ++
      (a.path.map fun e => (b%"path", Agent.trim e)).toList := by
  unfold Agent.attrs
  rw [C22_no_injection k v a hk he hm hp]
  obtain ⟨d, e, m, s, h, p⟩ := a
  have hd : ∀ d, Agent.trim (Cookie.cookieQuote d) = Cookie.cookieQuote d := fun d => trim_id _ (quote_ends d).1 (quote_ends d).2
  have e1 : ∀ x, (Agent.small (Agent.trim (Agent.before (b%" Domain=" ++ x))), Agent.trim (Agent.after (b%" Domain=" ++ x))) =
      (b%"domain", Agent.trim x) := fun _ => rfl
  have e2 : ∀ x, (Agent.small (Agent.trim (Agent.before (b%" Expires=" ++ x))), Agent.trim (Agent.after (b%" Expires=" ++ x))) =
      (b%"expires", Agent.trim x) := fun _ => rfl
  have e3 : ∀ x, (Agent.small (Agent.trim (Agent.before (b%" Max-Age=" ++ x))), Agent.trim (Agent.after (b%" Max-Age=" ++ x))) =
      (b%"max-age", Agent.trim x) := fun _ => rfl
  have e4 : ∀ x, (Agent.small (Agent.trim (Agent.before (b%" Path=" ++ x))), Agent.trim (Agent.after (b%" Path=" ++ x))) =
      (b%"path", Agent.trim x) := fun _ => rfl
  have e5 : (Agent.small (Agent.trim (Agent.before b%" Secure")), Agent.trim (Agent.after b%" Secure")) = (b%"secure", []) := rfl
  have e6 : (Agent.small (Agent.trim (Agent.before b%" HttpOnly")), Agent.trim (Agent.after b%" HttpOnly")) = (b%"httponly", []) := rfl
  simp only [List.tail_cons, List.map_append]
  congr 1
  · congr 1
    · congr 1
      · congr 1
        · congr 1
          · cases d with
            | none => rfl
            | some d => exact congrArg (· :: []) ((e1 _).trans (by rw [hd]))
          · cases e with
            | none => rfl
            | some e => exact congrArg (· :: []) (e2 e)
        · cases m with
          | none => rfl
          | some e => exact congrArg (· :: []) (e3 e)
      · cases s <;> first | rfl | exact congrArg (· :: []) e5
    · cases h <;> first | rfl | exact congrArg (· :: []) e6
  · cases p with
    | none => rfl
    | some e => exact congrArg (· :: []) (e4 e)

/-! ### attributes -/

theorem attr_age (k v : Bytes) (a : Cookie.Attrs) (hk : 59 ∉ k)
    (he : ∀ e, a.expires = some e → 59 ∉ e) (hm : ∀ e, a.maxAge = some e → 59 ∉ e) (hp : ∀ e, a.path = some e → 59 ∉ e) :
    Agent.attr b%"max-age" (Cookie.dumpCookie k v a) = a.maxAge.map Agent.trim ∧
    Agent.attr b%"expires" (Cookie.dumpCookie k v a) = a.expires.map Agent.trim ∧
    Agent.attr b%"domain" (Cookie.dumpCookie k v a) = a.domain.map Cookie.cookieQuote ∧
    Agent.attr b%"path" (Cookie.dumpCookie k v a) = a.path.map Agent.trim ∧
    (Agent.attr b%"secure" (Cookie.dumpCookie k v a) = if a.secure then some [] else none) ∧
    (Agent.attr b%"httponly" (Cookie.dumpCookie k v a) = if a.httponly then some [] else none) := by
  unfold Agent.attr
  rw [attrs_read k v a hk he hm hp]
  obtain ⟨d, e, m, s, h, p⟩ := a
  cases d <;> cases e <;> cases m <;> cases s <;> cases h <;> cases p <;> exact ⟨rfl, rfl, rfl, rfl, rfl, rfl⟩

theorem pad2_semi (n : Nat) : ';' ∉ Date.pad2 n := by
  have := Py.natStr_not_mem n ';' (by decide)
  unfold Date.pad2
  split <;> simp [this]

theorem getD_semi (l : List Str) (h : ∀ s ∈ l, ';' ∉ s) (n : Nat) : ';' ∉ l.getD n [] := by
  rw [List.getD_eq_getElem?_getD]
  cases hl : l[n]? with
  | none => simp
  | some s => exact h s (List.mem_of_getElem? hl)

theorem date_semi (t : Date.DateTime) : ';' ∉ Date.dumpDate t s%"-" := by
  have h1 := getD_semi Date.dayNames (by decide) (Date.weekday t)
  have h2 := getD_semi Date.monthNames (by decide) (t.month - 1)
  have h3 := Py.natStr_not_mem t.year ';' (by decide)
  unfold Date.dumpDate
  simp only [List.mem_append, not_or]
  and_intros <;> first | assumption | exact pad2_semi _ | decide

theorem digit_byte {c : Char} (h : Py.IsDig c) : 48 ≤ UInt8.ofNat c.toNat ∧ UInt8.ofNat c.toNat ≤ 57 ∧
    (UInt8.ofNat c.toNat).toNat = c.toNat := by
  simp only [Py.IsDig] at h
  have e : (UInt8.ofNat c.toNat).toNat = c.toNat := Utf8.byte_toNat (by omega)
  refine ⟨?_, ?_, e⟩ <;> (rw [UInt8.le_iff_toNat_le, e]; first | exact h.1 | exact h.2)

theorem encode_nat (n : Nat) : Utf8.encode (Py.natStr n) = (Py.natStr n).map fun c => UInt8.ofNat c.toNat :=
  Utf8.encode_ascii fun c hc => by have := Py.natStr_digits n c hc; simp only [Py.IsDig] at this; omega

theorem nat_bytes (n : Nat) : Utf8.encode (Py.natStr n) ≠ [] ∧ (∀ d ∈ Utf8.encode (Py.natStr n), 48 ≤ d ∧ d ≤ 57) ∧
    (Utf8.encode (Py.natStr n)).foldl (fun n d => n * 10 + (d.toNat - 48)) 0 = n := by
  rw [encode_nat]
  refine ⟨by simp [Py.natStr_ne_nil], ?_, ?_⟩
  · intro d hd
    obtain ⟨c, hc, rfl⟩ := List.mem_map.1 hd
    have := digit_byte (Py.natStr_digits n c hc)
    exact ⟨this.1, this.2.1⟩
  · rw [List.foldl_map]
    have : ∀ (l : Str) (acc : Nat), (∀ c ∈ l, Py.IsDig c) → l.foldl (fun x y => x * 10 + ((UInt8.ofNat y.toNat).toNat - 48)) acc =
        l.foldl (fun a x => a * 10 + (x.toNat - 48)) acc := by
      intro l
      induction l with
      | nil => intros; rfl
      | cons c cs ih =>
        intro acc h
        simp only [List.foldl_cons]
        rw [(digit_byte (h c (.head _))).2.2, ih _ fun d hd => h d (.tail _ hd)]
    rw [this _ _ (Py.natStr_digits n), Py.natStr_val]

theorem number_nat (b : Bytes) (h : b ≠ []) (hd : ∀ d ∈ b, 48 ≤ d ∧ d ≤ 57) : Agent.number b =
    some ((b.foldl (fun n d => n * 10 + (d.toNat - 48)) 0 : Nat) : Int) := by
  unfold Agent.number
  split
  · exact absurd (hd 45 (.head _)).1 (by decide)
  · rw [if_pos ⟨h, hd⟩]

/-- The text of a number is read as that number, and has nothing to trim and no `;`. -/
theorem number_int (n : Int) : Agent.number (Utf8.encode (Py.intStr n)) = some n ∧
    Agent.trim (Utf8.encode (Py.intStr n)) = Utf8.encode (Py.intStr n) ∧ 59 ∉ Utf8.encode (Py.intStr n) := by
  have hc : ∀ d ∈ Utf8.encode (Py.intStr n), d = 45 ∨ 48 ≤ d ∧ d ≤ 57 := by
    cases n with
    | ofNat n => exact fun d hd => .inr ((nat_bytes n).2.1 d hd)
    | negSucc n =>
      intro d hd
      have e : Utf8.encode (Py.intStr (.negSucc n)) = 45 :: Utf8.encode (Py.natStr (n + 1)) := by
        simp only [Py.intStr]; rw [Utf8.encode_cons]; rfl
      rw [e] at hd
      rcases List.mem_cons.1 hd with rfl | hd
      · exact .inl rfl
      · exact .inr ((nat_bytes _).2.1 d hd)
  have hs : ∀ d ∈ Utf8.encode (Py.intStr n), (d ≠ 32 ∧ d ≠ 9) ∧ d ≠ 59 := by
    intro d hd
    rcases hc d hd with rfl | ⟨h1, h2⟩
    · decide
    · refine ⟨⟨?_, ?_⟩, ?_⟩ <;> (rintro rfl; revert h1 h2; decide)
  refine ⟨?_, trim_id _ (fun c h => (hs c (List.mem_of_head? h)).1) fun c h => (hs c (List.mem_of_getLast? h)).1,
    fun h => (hs 59 h).2 rfl⟩
  cases n with
  | ofNat n =>
    obtain ⟨h1, h2, h3⟩ := nat_bytes n
    simp only [Py.intStr]
    rw [number_nat _ h1 h2, h3]; rfl
  | negSucc n =>
    obtain ⟨h1, h2, h3⟩ := nat_bytes (n + 1)
    simp only [Py.intStr]
    rw [Utf8.encode_cons]
    show Agent.number (45 :: Utf8.encode (Py.natStr (n + 1))) = _
    unfold Agent.number
    simp only
    rw [if_pos ⟨h1, h2⟩, h3]; rfl

/-! ### one call -/

/-- The name of a cookie: a name that is no attribute, without `=`, quotes, white space and `;`. -/
def Name (key : Str) : Prop := CookieName (Utf8.encode key) ∧ ';' ∉ key

/-- The path as it is written and the text given for Expires have no `;`. -/
structure Plain (cfg : Cfg) (a : Args) : Prop where
  path : ∀ p, pathUri cfg a.path = .ok (some p) → ';' ∉ p
  expires : ∀ s, a.expires = some (.text s) → ';' ∉ s

theorem stamp_semi {n : Int} {s : Str} (h : stampText n = .ok s) : ';' ∉ s := by
  unfold stampText at h
  split at h
  · cases h
  · rw [← Except.ok.inj h]; exact date_semi _

theorem expires_semi (cfg : Cfg) (a : Args) (hp : Plain cfg a) (s : Str) (h : expiresText cfg a = .ok (some s)) : ';' ∉ s := by
  unfold expiresText at h
  split at h
  · rename_i t ht
    rw [← Option.some.inj (Except.ok.inj h)]; exact hp.expires _ ht
  · rename_i n _
    cases hs : stampText n with
    | error e => rw [hs] at h; cases h
    | ok x => rw [hs] at h; rw [← Option.some.inj (Except.ok.inj h)]; exact stamp_semi hs
  · rw [← Option.some.inj (Except.ok.inj h)]; exact date_semi _
  · split at h
    · cases h
    · rename_i m _
      cases hs : stampText (cfg.now + m.total) with
      | error e => rw [hs] at h; cases h
      | ok x => rw [hs] at h; rw [← Option.some.inj (Except.ok.inj h)]; exact stamp_semi hs

theorem attrs_ok (cfg : Cfg) (a : Args) (at' : Cookie.Attrs) (h : attrsOf cfg a = .ok at') :
    ∃ path domain expires, pathUri cfg a.path = .ok path ∧ cookieDomain cfg.idna a.domain = .ok domain ∧
      expiresText cfg a = .ok expires ∧
      at' = ⟨domain, expires.map Utf8.encode, a.maxAge.map fun m => Utf8.encode (Py.intStr m.total),
        a.secure, a.httponly, path.map Utf8.encode⟩ := by
  unfold attrsOf at h
  cases h1 : pathUri cfg a.path with
  | error e => rw [h1] at h; cases h
  | ok p =>
    rw [h1] at h; simp only at h
    cases h2 : cookieDomain cfg.idna a.domain with
    | error e => rw [h2] at h; cases h
    | ok d =>
      rw [h2] at h; simp only at h
      cases h3 : expiresText cfg a with
      | error e => rw [h3] at h; cases h
      | ok x =>
        rw [h3] at h; simp only at h
        exact ⟨p, d, x, rfl, rfl, rfl, (Except.ok.inj h).symm⟩

theorem attrs_plain (cfg : Cfg) (a : Args) (at' : Cookie.Attrs) (h : attrsOf cfg a = .ok at') (hp : Plain cfg a) :
    (∀ e, at'.expires = some e → 59 ∉ e) ∧ (∀ e, at'.maxAge = some e → 59 ∉ e) ∧ (∀ e, at'.path = some e → 59 ∉ e) := by
  obtain ⟨p, d, x, h1, h2, h3, rfl⟩ := attrs_ok cfg a at' h
  refine ⟨?_, ?_, ?_⟩
  · intro e he
    cases x with
    | none => cases he
    | some s => rw [← Option.some.inj he]; exact not_mem_encode (c := ';') (by decide) (expires_semi cfg a hp s h3)
  · intro e he
    cases hm : a.maxAge with
    | none => simp only [hm] at he; cases he
    | some m => simp only [hm] at he; rw [← Option.some.inj he]; exact (number_int _).2.2
  · intro e he
    cases p with
    | none => cases he
    | some s => rw [← Option.some.inj he]; exact not_mem_encode (c := ';') (by decide) (hp.path s h1)

theorem eff_nil (s : Str) : Headers.effValue s [] = s := by simp [Headers.effValue]

/-- A call that does not raise adds one header. -/
theorem set_ok (cfg : Cfg) (h h' : Headers.HList) (a : Args) (hr : setCookie cfg h a = (h', .ok ())) :
    ∃ at', attrsOf cfg a = .ok at' ∧
      h' = h ++ [(s%"Set-Cookie", Utf8.latin1 (Cookie.dumpCookie (Utf8.encode a.key) (Utf8.encode a.value) at'))] := by
  unfold setCookie dumpCookie at hr
  cases hat : attrsOf cfg a with
  | error e => rw [hat] at hr; cases hr
  | ok at' =>
    rw [hat] at hr
    simp only [Headers.add, eff_nil] at hr
    refine ⟨at', rfl, ?_⟩
    split at hr
    · cases hr
    · exact (congrArg Prod.fst hr).symm

/-! ### the store of the user agent -/

/-- A cookie as a user agent keeps it. -/
def kept (p : Str × Str) : Bytes × Bytes := (Utf8.encode p.1, Cookie.cookieQuote (Utf8.encode p.2))

theorem set_kept (m : List (Str × Str)) (k v : Str) :
    Dict.set (m.map kept) (Utf8.encode k) (Cookie.cookieQuote (Utf8.encode v)) = (Dict.set m k v).map kept := by
  induction m with
  | nil => rfl
  | cons p m ih =>
    obtain ⟨x, y⟩ := p
    simp only [List.map_cons, kept, Dict.set]
    by_cases h : x = k
    · rw [if_pos (by rw [h]), if_pos h]; rfl
    · rw [if_neg (fun e => h (encode_inj e)), if_neg h, List.map_cons]
      exact congrArg _ ih

theorem del_kept (m : List (Str × Str)) (k : Str) : Dict.del (m.map kept) (Utf8.encode k) = (Dict.del m k).map kept := by
  induction m with
  | nil => rfl
  | cons p m ih =>
    obtain ⟨x, y⟩ := p
    simp only [List.map_cons, kept, Dict.del]
    by_cases h : x = k
    · rw [if_pos (by rw [h]), if_pos h]
    · rw [if_neg (fun e => h (encode_inj e)), if_neg h, List.map_cons]
      exact congrArg _ ih

/-- The cookies after a call, as the application means it. -/
def meant (d : List (Str × Str)) : Call → List (Str × Str)
  | .set a => Dict.set d a.key a.value
  | .delete key _ _ => Dict.del d key

/-- A call is `Fair` if the name is one and nothing but the name, the value and the attributes is written; a cookie
that is set does not expire at once. -/
def Fair (cfg : Cfg) (past : Bytes → Bool) : Call → Prop
  | .set a => Name a.key ∧ Plain cfg a ∧ (∀ m, a.maxAge = some m → 0 < m.total) ∧
      (a.maxAge = none → ∀ s, expiresText cfg a = .ok (some s) → past (Agent.trim (Utf8.encode s)) = false)
  | .delete key path _ => Name key ∧ ∀ p, pathUri cfg path = .ok (some p) → ';' ∉ p

/-- What a call does to the headers and to the cookies of a user agent that receives the header. -/
theorem exec_ok (cfg : Cfg) (past : Bytes → Bool) (h h' : Headers.HList) (c : Call) (hf : Fair cfg past c)
    (hr : c.exec cfg h = (h', .ok ())) :
    ∃ v, h' = h ++ [(s%"Set-Cookie", v)] ∧
      ∀ m : List (Str × Str), Agent.receive past (m.map kept) (headerBytes v) = (meant m c).map kept := by
  have key : ∀ (a : Args) (gone : Bool), setCookie cfg h a = (h', .ok ()) → Name a.key → Plain cfg a →
      (∀ at', attrsOf cfg a = .ok at' → (match at'.maxAge.bind Agent.number with
        | some n => decide (n ≤ 0)
        | none => match at'.expires.map Agent.trim with
          | some d => past d
          | none => false) = gone) →
      ∃ v, h' = h ++ [(s%"Set-Cookie", v)] ∧ ∀ m : List (Str × Str), Agent.receive past (m.map kept) (headerBytes v) =
        if gone then (Dict.del m a.key).map kept else (Dict.set m a.key a.value).map kept := by
    intro a gone hr hn hp hg
    obtain ⟨at', hat, rfl⟩ := set_ok cfg h h' a hr
    refine ⟨_, rfl, fun m => ?_⟩
    have h59 : 59 ∉ Utf8.encode a.key := not_mem_encode (c := ';') (by decide) hn.2
    obtain ⟨p1, p2, p3⟩ := attrs_plain cfg a at' hat hp
    obtain ⟨g1, g2, _⟩ := attr_age (Utf8.encode a.key) (Utf8.encode a.value) at' h59 p1 p2 p3
    have hm : at'.maxAge.map Agent.trim = at'.maxAge := by
      obtain ⟨_, _, _, _, _, _, e⟩ := attrs_ok cfg a at' hat
      rw [e]
      cases a.maxAge with
      | none => rfl
      | some n => exact congrArg some (number_int _).2.1
    rw [headerBytes_latin1]
    unfold Agent.receive
    rw [pair_read _ _ at' hn.1 h59]
    simp only
    have : Agent.gone past (Cookie.dumpCookie (Utf8.encode a.key) (Utf8.encode a.value) at') = gone := by
      rw [← hg at' hat]
      unfold Agent.gone
      rw [g1, g2, hm]
      rfl
    rw [this, set_kept, del_kept]
  cases c with
  | set a =>
    obtain ⟨hn, hp, hm, he⟩ := hf
    obtain ⟨v, h1, h2⟩ := key a false hr hn hp (by
      intro at' hat
      obtain ⟨_, _, x, _, _, hx, e⟩ := attrs_ok cfg a at' hat
      subst e
      simp only
      cases ha : a.maxAge with
      | some n =>
        simp only [Option.map_some, Option.bind_some, (number_int _).1]
        have := hm n ha
        exact decide_eq_false (by omega)
      | none =>
        simp only [Option.map_none, Option.bind_none]
        cases x with
        | none => rfl
        | some s => exact he ha s hx)
    exact ⟨v, h1, fun m => by rw [h2 m]; rfl⟩
  | delete k path domain =>
    obtain ⟨hn, hp⟩ := hf
    obtain ⟨v, h1, h2⟩ := key { key := k, expires := some (.stamp 0), maxAge := some (.seconds 0), path, domain } true hr hn
      ⟨hp, fun s h => by cases h⟩ (by
        intro at' hat
        obtain ⟨_, _, x, _, _, hx, e⟩ := attrs_ok cfg _ at' hat
        subst e
        simp only [Option.map_some, Option.bind_some, (number_int _).1]
        rfl)
    exact ⟨v, h1, fun m => by rw [h2 m]; rfl⟩

/-- The values of the `Set-Cookie` headers, as bytes. -/
def sent (h : Headers.HList) : List Bytes := (h.filter (·.1 = s%"Set-Cookie")).map fun p => headerBytes p.2

theorem run_ok (cfg : Cfg) (past : Bytes → Bool) (calls : List Call) : ∀ (h h' : Headers.HList) (m : List (Str × Str)) st,
    (∀ c ∈ calls, Fair cfg past c) → run cfg h calls = (h', .ok ()) → (sent h).foldl (Agent.receive past) st = m.map kept →
    (sent h').foldl (Agent.receive past) st = (calls.foldl meant m).map kept := by
  induction calls with
  | nil =>
    intro h h' m st _ hr hm
    cases hr; exact hm
  | cons c cs ih =>
    intro h h' m st hf hr hm
    unfold run at hr
    cases hc : c.exec cfg h with
    | mk h1 r =>
      rw [hc] at hr
      cases r with
      | error e => cases hr
      | ok u =>
        obtain ⟨v, rfl, hv⟩ := exec_ok cfg past h h1 c (hf c (.head _)) hc
        simp only at hr
        refine ih _ h' (meant m c) st (fun c hc => hf c (.tail _ hc)) hr ?_
        have : sent (h ++ [(s%"Set-Cookie", v)]) = sent h ++ [headerBytes v] := by
          simp [sent, List.filter_append]
        rw [this, List.foldl_append, hm]
        exact hv m

/-! ### the next request -/

theorem line_join (l : List (Bytes × Bytes)) : Agent.cookieLine l = Cookie.joinSemi (l.map CookieAux.segText) := by
  induction l with
  | nil => rfl
  | cons p l ih =>
    cases l with
    | nil => simp [Agent.cookieLine, Cookie.joinSemi, CookieAux.segText]
    | cons q l =>
      simp only [Agent.cookieLine, List.map_cons, Cookie.joinSemi] at ih ⊢
      rw [ih]
      simp [CookieAux.segText]

theorem decode_all (m : List (Str × Str)) :
    decodePairs (m.map fun p => (Utf8.encode p.1, Utf8.encode p.2)) = .ok m := by
  induction m with
  | nil => rfl
  | cons p m ih =>
    simp only [List.map_cons, decodePairs]
    rw [(Utf8.decodeStrict_iff _ p.1).2 rfl, (Utf8.decodeStrict_iff _ p.2).2 rfl, ih]
    rfl

theorem parse_line (m : List (Str × Str)) (hk : ∀ p ∈ m, CookieName (Utf8.encode p.1)) :
    Cookie.cookieParse (Agent.cookieLine (m.map kept)) = m.map fun p => (Utf8.encode p.1, Utf8.encode p.2) := by
  rw [line_join, CookieAux.cookieParse_segs]
  · induction m with
    | nil => rfl
    | cons p m ih =>
      have hn : ¬ Cookie.cookieParams.contains (Cookie.lower (Utf8.encode p.1)) = true := by
        have := (hk p (.head _)).2.2
        simpa [Cookie.cookieParams] using this
      have : CookieAux.readSeg (kept p) = some (Utf8.encode p.1, Utf8.encode p.2) := by
        unfold CookieAux.readSeg kept
        rw [if_neg hn, C21_value_roundtrip]
      simp only [List.map_cons, List.filterMap_cons, this]
      rw [ih fun q hq => hk q (.tail _ hq)]
  · intro kv h
    obtain ⟨p, hp, rfl⟩ := List.mem_map.1 h
    exact ⟨⟨(hk p hp).1, (hk p hp).2.1⟩, CookieAux.goodVal_quote _⟩

/-- **C125** (a request with cookies): the cookies of a request are those the user agent sends, of several with the
same name the last one. -/
theorem C125_sent (environ : List (Str × Str)) (m : List (Str × Str)) (hk : ∀ p ∈ m, CookieName (Utf8.encode p.1))
    (he : (Dict.get environ s%"HTTP_COOKIE").getD [] = Utf8.latin1 (Agent.cookieLine
      (m.map fun p => (Utf8.encode p.1, Cookie.cookieQuote (Utf8.encode p.2))))) :
    requestCookies environ = .ok (m.foldl (fun d p => Dict.set d p.1 p.2) []) := by
  unfold requestCookies
  rw [he, headerBytes_latin1]
  have := parse_line m hk
  unfold kept at this
  rw [this, decode_all]
  rfl

theorem set_fresh {d : List (Str × Str)} {k v : Str} (h : k ∉ Dict.keys d) : Dict.set d k v = d ++ [(k, v)] := by
  induction d with
  | nil => rfl
  | cons p d ih =>
    simp only [Dict.keys_cons, List.mem_cons, not_or] at h
    obtain ⟨x, y⟩ := p
    simp only [Dict.set]
    rw [if_neg (fun e => h.1 e.symm), ih h.2]; rfl

theorem fold_nodup (m : List (Str × Str)) : ∀ d : List (Str × Str), (Dict.keys (d ++ m)).Nodup →
    m.foldl (fun d p => Dict.set d p.1 p.2) d = d ++ m := by
  induction m with
  | nil => intro d _; simp
  | cons p m ih =>
    intro d h
    have e : d ++ p :: m = (d ++ [p]) ++ m := by simp
    have hp : p.1 ∉ Dict.keys d := by
      rw [Dict.keys_append, List.nodup_append] at h
      exact fun hm => h.2.2 p.1 hm p.1 (by simp) rfl
    rw [List.foldl_cons, set_fresh hp, e]
    exact ih _ (by rw [← e]; exact h)

theorem meant_ok (cfg : Cfg) (past : Bytes → Bool) (calls : List Call) (hf : ∀ c ∈ calls, Fair cfg past c) :
    ∀ m : List (Str × Str), (Dict.keys m).Nodup → (∀ p ∈ m, CookieName (Utf8.encode p.1)) →
    (Dict.keys (calls.foldl meant m)).Nodup ∧ ∀ p ∈ calls.foldl meant m, CookieName (Utf8.encode p.1) := by
  have hkey : ∀ m : List (Str × Str), (∀ p ∈ m, CookieName (Utf8.encode p.1)) ↔ ∀ k ∈ Dict.keys m, CookieName (Utf8.encode k) := by
    intro m
    simp [Dict.keys]

  induction calls with
  | nil => intro m h1 h2; exact ⟨h1, h2⟩
  | cons c cs ih =>
    intro m h1 h2
    rw [List.foldl_cons]
    refine ih (fun c hc => hf c (.tail _ hc)) _ ?_ ?_
    · cases c with
      | set a => exact Dict.nodup_set h1 _ _
      | delete k p d => exact Dict.nodup_del h1 _
    · have hc := hf c (.head _)
      rw [hkey] at h2 ⊢
      cases c with
      | set a =>
        intro k hk
        unfold meant at hk
        rw [Dict.keys_set] at hk
        split at hk
        · exact h2 k hk
        · rcases List.mem_append.1 hk with hk | hk
          · exact h2 k hk
          · rw [List.mem_singleton.1 hk]; exact hc.1.1
      | delete k p d =>
        intro k hk
        unfold meant at hk
        rw [Dict.keys_del] at hk
        exact h2 k (@List.mem_of_mem_erase _ instBEqOfDecidableEq _ _ _ hk)

/-- **C125** (cookies arrive): whatever cookies an application sets and deletes on its responses, with whatever
attributes, the next request of a user agent that follows RFC 6265 has exactly the cookies that were set and not
deleted since, with their last values. -/
theorem C125_arrives (cfg : Cfg) (past : Bytes → Bool) (h h' : Headers.HList) (calls : List Call)
    (environ : List (Str × Str)) (h0 : ∀ p ∈ h, p.1 ≠ s%"Set-Cookie") (hf : ∀ c ∈ calls, Fair cfg past c)
    (hr : run cfg h calls = (h', .ok ()))
    (he : (Dict.get environ s%"HTTP_COOKIE").getD [] =
      Utf8.latin1 (Agent.cookieLine ((sent h').foldl (Agent.receive past) []))) :
    requestCookies environ = .ok (calls.foldl meant []) := by
  have hs : sent h = [] := by
    unfold sent
    rw [List.filter_eq_nil_iff.2 fun p hp => by simpa using h0 p hp]; rfl
  have hrun := run_ok cfg past calls h h' [] [] hf hr (by rw [hs]; rfl)
  obtain ⟨n1, n2⟩ := meant_ok cfg past calls hf [] (by simp) (by simp)
  rw [hrun] at he
  rw [C125_sent environ _ n2 he, fold_nodup _ [] (by simpa using n1)]
  rfl

/-- **C125** (test client): the requests of the test client have exactly the cookies in its jar; without cookies the
environ stays as it is. -/
theorem C125_client (environ : List (Str × Str)) (m : List (Str × Str)) (hk : ∀ p ∈ m, CookieName (Utf8.encode p.1))
    (hd : (m.map (·.1)).Nodup) (jar : List (Str × Str))
    (hj : jar = m.map fun p => (Utf8.latin1 (Utf8.encode p.1), Utf8.latin1 (Cookie.cookieQuote (Utf8.encode p.2)))) :
    (m ≠ [] → requestCookies (injectWsgi jar environ) = .ok m) ∧
    (∀ k, k ≠ s%"HTTP_COOKIE" → Dict.get (injectWsgi jar environ) k = Dict.get environ k) ∧
    (m = [] → injectWsgi jar environ = environ) := by
  have hline : ∀ l : List (Bytes × Bytes), Py.join s%"; " ((l.map fun p => (Utf8.latin1 p.1, Utf8.latin1 p.2)).map
      fun c => c.1 ++ s%"=" ++ c.2) = Utf8.latin1 (Agent.cookieLine l) := by
    intro l
    induction l with
    | nil => rfl
    | cons p l ih =>
      cases l with
      | nil => simp [Agent.cookieLine, Py.join, Utf8.latin1]
      | cons q l =>
        simp only [Agent.cookieLine, List.map_cons, Py.join] at ih ⊢
        rw [ih]
        simp [Utf8.latin1]
  refine ⟨fun hm => ?_, fun k hk' => ?_, ?_⟩
  · rw [C125_sent _ m hk, fold_nodup m [] (by simpa [Dict.keys] using hd)]
    · rfl
    · unfold injectWsgi
      rw [if_neg (by rw [hj]; simpa using hm), Dict.get_set, if_pos rfl, ← hline, hj]
      simp only [List.map_map, Function.comp_def, Option.getD_some]
  · unfold injectWsgi
    split
    · rfl
    · rw [Dict.get_set, if_neg hk']
  · rintro rfl
    unfold injectWsgi
    rw [if_pos (by rw [hj]; rfl)]

/-- **C125** (a call is one header or none): `set_cookie` adds one header `Set-Cookie` at the end, without line
breaks, or raises and leaves the headers as they are. -/
theorem C125_atomic (cfg : Cfg) (h : Headers.HList) (a : Args) :
    (∃ e, setCookie cfg h a = (h, .error e)) ∨
    ∃ v, setCookie cfg h a = (h ++ [(s%"Set-Cookie", v)], .ok ()) ∧ dumpCookie cfg a = .ok v ∧ '\n' ∉ v ∧ '\r' ∉ v := by
  unfold setCookie
  cases hd : dumpCookie cfg a with
  | error e => exact .inl ⟨e, rfl⟩
  | ok s =>
    simp only [Headers.add, eff_nil, Headers.validate]
    by_cases hs : (s.contains '\n' || s.contains '\r') = true
    · rw [if_pos hs]; exact .inl ⟨_, rfl⟩
    · rw [if_neg hs]
      refine .inr ⟨s, rfl, rfl, ?_, ?_⟩ <;> (intro hm; exact hs (by simp [hm]))

/-! ### moments -/

/-- The date of a cookie is read back by `parse_date`. -/
theorem C125_date (t : Date.DateTime) (h : Valid t) (hy : 100 ≤ t.year) :
    Date.parseDate (Date.dumpDate t s%"-") = .ok (some t) := by
  have hd := DateP.day_bound t h
  have hv := h
  obtain ⟨h1, h2, h3, h4, h5, h6, h7, h8, h9⟩ := h
  have hyd := DateP.natStr_Digits t.year
  have e : Date.dumpDate t s%"-" = Py.join s%" " [Date.dayNames.getD (Date.weekday t) [] ++ s%",",
      Py.join s%"-" [Date.pad2 t.day, Date.monthNames.getD (t.month - 1) [], Py.natStr t.year],
      DateP.clock t.hour t.minute t.second, s%"GMT"] := by
    simp [Date.dumpDate, DateP.clock, Py.join]
  have hw : ∀ w ∈ [Date.dayNames.getD (Date.weekday t) [] ++ s%",",
      Py.join s%"-" [Date.pad2 t.day, Date.monthNames.getD (t.month - 1) [], Py.natStr t.year],
      DateP.clock t.hour t.minute t.second, s%"GMT"], DateP.Word w := by
    intro w hw
    simp only [List.mem_cons, List.not_mem_nil, or_false] at hw
    rcases hw with rfl | rfl | rfl | rfl
    · exact DateP.day_word _ (DateP.weekday_lt t)
    · refine ⟨by simp [Py.join], fun c hc => ?_⟩
      simp only [Py.join, List.mem_append, List.mem_singleton] at hc
      rcases hc with (hc | rfl) | ((hc | rfl) | hc)
      · exact (DateP.digits_word _ (DateP.pad2_digits _ hd)).2 c hc
      · decide
      · exact (DateP.month_word _ ⟨h3, h4⟩).2 c hc
      · decide
      · exact (DateP.digits_word _ hyd).2 c hc
    · exact DateP.clock_word _ _ _ (by omega) (by omega) (by omega)
    · exact ⟨by decide, by decide⟩
  have hsp : Py.splitOn '-' (Py.join s%"-" [Date.pad2 t.day, Date.monthNames.getD (t.month - 1) [], Py.natStr t.year]) =
      [Date.pad2 t.day, Date.monthNames.getD (t.month - 1) [], Py.natStr t.year] := by
    apply Py.splitOn_join '-' _ (by simp)
    intro p hp
    simp only [List.mem_cons, List.not_mem_nil, or_false] at hp
    rcases hp with rfl | rfl | rfl
    · exact DateP.digits_not_mem _ (DateP.pad2_digits _ hd) _ (by decide)
    · intro hm
      have := List.all_eq_true.1 (DateP.month_check t.month (by omega) h3).2.2 _ hm
      simp at this
    · exact DateP.digits_not_mem _ hyd _ (by decide)
  rw [e]
  have hp : Date.parsedateTz (Py.join s%" " [Date.dayNames.getD (Date.weekday t) [] ++ s%",",
      Py.join s%"-" [Date.pad2 t.day, Date.monthNames.getD (t.month - 1) [], Py.natStr t.year],
      DateP.clock t.hour t.minute t.second, s%"GMT"]) =
      .ok (some ⟨t.year, t.month, t.day, t.hour, t.minute, t.second, 0⟩) := by
    unfold Date.parsedateTz
    rw [DateP.words_join _ hw]
    have e1 : Date.dropDay [Date.dayNames.getD (Date.weekday t) [] ++ s%",",
        Py.join s%"-" [Date.pad2 t.day, Date.monthNames.getD (t.month - 1) [], Py.natStr t.year],
        DateP.clock t.hour t.minute t.second, s%"GMT"] =
        [Py.join s%"-" [Date.pad2 t.day, Date.monthNames.getD (t.month - 1) [], Py.natStr t.year],
        DateP.clock t.hour t.minute t.second, s%"GMT"] := by
      unfold Date.dropDay
      exact if_pos (.inl (by simp))
    simp only [e1]
    unfold Date.unhyphen
    simp only [hsp, List.length_cons, List.length_nil, if_true, List.cons_append, List.nil_append, Date.addZone]
    rw [DateP.fields_std _ _ _ t.year t.day t.month t.hour t.minute t.second ⟨h3, h4⟩ (Py.intOf_natStr _) hyd
      (DateP.pad2_check _ hd).1 (DateP.pad2_digits _ hd) (by omega) (by omega) (by omega)]
    have hz : Date.zoneSeconds s%"GMT" = 0 := by decide
    have ha : DateP.adjust t.year = t.year := by unfold DateP.adjust; rw [if_neg (by omega)]
    rw [hz, ha]
  rw [DateP.parse_of_parsed _ hw (by simp) t 0 hv hy hp, DateP.sub_zero t hv]

theorem date_trim (t : Date.DateTime) : Agent.trim (Utf8.encode (Date.dumpDate t s%"-")) =
    Utf8.encode (Date.dumpDate t s%"-") := by
  obtain ⟨x, hx⟩ : ∃ x, Date.dumpDate t s%"-" = Date.dayNames.getD (Date.weekday t) [] ++ (x ++ s%" GMT") :=
    ⟨s%", " ++ Date.pad2 t.day ++ s%"-" ++ Date.monthNames.getD (t.month - 1) [] ++ s%"-" ++
      Py.natStr t.year ++ s%" " ++ Date.pad2 t.hour ++ s%":" ++ Date.pad2 t.minute ++ s%":" ++ Date.pad2 t.second,
      by simp [Date.dumpDate]⟩
  have hday : ∀ d < 7, ∃ c cs, Utf8.encode (Date.dayNames.getD d []) = c :: cs ∧ c ≠ 32 ∧ c ≠ 9 := by
    intro d hd
    have : ∀ d < 7, ((Utf8.encode (Date.dayNames.getD d [])).head?.map fun c => c != 32 && c != 9) = some true := by decide +kernel
    have := this d hd
    cases he : Utf8.encode (Date.dayNames.getD d []) with
    | nil => rw [he] at this; cases this
    | cons c cs =>
      rw [he] at this
      simp at this
      exact ⟨c, cs, rfl, this⟩
  obtain ⟨c, cs, hc, hc'⟩ := hday _ (DateP.weekday_lt t)
  rw [hx, Utf8.encode_append, Utf8.encode_append, hc]
  have hg : Utf8.encode s%" GMT" = [32, 71, 77] ++ [84] := by decide
  refine trim_id _ ?_ ?_
  · intro d hd; simp at hd; subst hd; exact hc'
  · intro d hd
    rw [hg, ← List.append_assoc, ← List.append_assoc, List.getLast?_concat] at hd
    cases hd; decide

/-- The seconds in a `max_age`: a day has 86400 of them. -/
def secondsIn : Age → Int
  | .seconds n => n
  | .delta d s => 86400 * d + s

theorem total_seconds (m : Age) : m.total = secondsIn m := by
  cases m <;> simp only [Age.total, secondsIn]
  omega

/-- **C125** (life of a cookie): with a `max_age` and no `expires`, the cookie carries both Max-Age and the moment
that many seconds after now, which `parse_date` reads back. -/
theorem C125_expiry (cfg : Cfg) (h h' : Headers.HList) (a : Args) (m : Age) (hm : a.maxAge = some m) (he : a.expires = none)
    (hn : ';' ∉ a.key) (hp : Plain cfg a) (hr : setCookie cfg h a = (h', .ok ())) :
    ∃ v t, h' = h ++ [(s%"Set-Cookie", v)] ∧ Date.gmtime (cfg.now + secondsIn m) = some t ∧ Valid t ∧
      epoch t = cfg.now + secondsIn m ∧
      (Agent.attr b%"max-age" (headerBytes v)).bind Agent.number = some (secondsIn m) ∧
      Agent.attr b%"expires" (headerBytes v) = some (Utf8.encode (Date.dumpDate t s%"-")) ∧
      (100 ≤ t.year → Date.parseDate (Date.dumpDate t s%"-") = .ok (some t)) := by
  rw [← total_seconds]
  obtain ⟨at', hat, rfl⟩ := set_ok cfg h h' a hr
  obtain ⟨p, d, x, h1, h2, h3, e⟩ := attrs_ok cfg a at' hat
  obtain ⟨p1, p2, p3⟩ := attrs_plain cfg a at' hat hp
  obtain ⟨g1, g2, _⟩ := attr_age (Utf8.encode a.key) (Utf8.encode a.value) at' (not_mem_encode (c := ';') (by decide) hn) p1 p2 p3
  unfold expiresText at h3
  rw [he, hm] at h3
  simp only [stampText] at h3
  cases hg : Date.gmtime (cfg.now + m.total) with
  | none => rw [hg] at h3; cases h3
  | some t =>
    rw [hg] at h3
    have hx : some (Date.dumpDate t s%"-") = x := Except.ok.inj h3
    obtain ⟨v1, v2⟩ := DateP.total_ofTotal _ t hg
    refine ⟨_, t, rfl, rfl, v1, by rw [DateP.epoch_total t v1, v2]; omega, ?_, ?_, C125_date t v1⟩
    · rw [headerBytes_latin1, g1, e, hm]
      simp only [Option.map_some, Option.bind_some, (number_int _).2.1, (number_int _).1]
    · rw [headerBytes_latin1, g2, e, ← hx]
      simp only [Option.map_some, date_trim]

/-- **C125** (attributes): a user agent reads the attributes given, and no others. -/
theorem C125_attributes (cfg : Cfg) (h h' : Headers.HList) (a : Args) (hn : ';' ∉ a.key) (hp : Plain cfg a)
    (hr : setCookie cfg h a = (h', .ok ())) :
    ∃ v, h' = h ++ [(s%"Set-Cookie", v)] ∧
      ((Agent.attr b%"secure" (headerBytes v)).isSome = a.secure) ∧
      ((Agent.attr b%"httponly" (headerBytes v)).isSome = a.httponly) ∧
      ((Agent.attr b%"domain" (headerBytes v)).isSome = a.domain.isSome) ∧
      ((Agent.attr b%"path" (headerBytes v)).isSome = a.path.isSome) ∧
      ((Agent.attr b%"max-age" (headerBytes v)).bind Agent.number = a.maxAge.map secondsIn) ∧
      ∀ x ∈ Agent.attrs (headerBytes v), x.1 ∈ [b%"domain", b%"expires", b%"max-age", b%"secure", b%"httponly", b%"path"] := by
  rw [← show Age.total = secondsIn from funext total_seconds]
  obtain ⟨at', hat, rfl⟩ := set_ok cfg h h' a hr
  obtain ⟨p, d, x, h1, h2, h3, e⟩ := attrs_ok cfg a at' hat
  obtain ⟨p1, p2, p3⟩ := attrs_plain cfg a at' hat hp
  have h59 := not_mem_encode (c := ';') (by decide) hn
  obtain ⟨g1, g2, g3, g4, g5, g6⟩ := attr_age (Utf8.encode a.key) (Utf8.encode a.value) at' h59 p1 p2 p3
  have hdom : d.isSome = a.domain.isSome := by
    unfold cookieDomain at h2
    cases hd : a.domain with
    | none => rw [hd] at h2; rw [← Except.ok.inj h2]; rfl
    | some s =>
      rw [hd] at h2
      simp only at h2
      cases hb : Wsgi.encodeIdna cfg.idna s with
      | error _ => rw [hb] at h2; cases h2
      | ok b =>
        rw [hb] at h2
        simp only at h2
        generalize (if 58 ∈ b then b.takeWhile (· ≠ 58) else b) = c at h2
        by_cases hc : 46 ∈ c
        · rw [if_pos hc] at h2; rw [← Except.ok.inj h2]; rfl
        · rw [if_neg hc] at h2; cases h2
  have hpath : p.isSome = a.path.isSome := by
    unfold pathUri at h1
    cases hd : a.path with
    | none => rw [hd] at h1; rw [← Except.ok.inj h1]
    | some s =>
      rw [hd] at h1
      simp only at h1
      cases hi : Iri.iriToUri cfg.idna cfg.lower cfg.usesNetloc s with
      | error _ => rw [hi] at h1; cases h1
      | ok _ => rw [hi] at h1; rw [← Except.ok.inj h1]; rfl
  refine ⟨_, rfl, ?_, ?_, ?_, ?_, ?_, ?_⟩
  · rw [headerBytes_latin1, g5, e]; cases a.secure <;> rfl
  · rw [headerBytes_latin1, g6, e]; cases a.httponly <;> rfl
  · rw [headerBytes_latin1, g3, e, ← hdom]; cases d <;> rfl
  · rw [headerBytes_latin1, g4, e, ← hpath]; cases p <;> rfl
  · rw [headerBytes_latin1, g1, e]
    cases a.maxAge with
    | none => rfl
    | some m => simp only [Option.map_some, Option.bind_some, (number_int _).2.1, (number_int _).1]
  · rw [headerBytes_latin1, attrs_read _ _ _ h59 p1 p2 p3]
    generalize at'.domain = d'
    generalize at'.expires = e'
    generalize at'.maxAge = m'
    generalize at'.secure = s'
    generalize at'.httponly = o'
    generalize at'.path = p'
    intro x hx
    simp only [List.mem_append, Option.mem_toList, Option.map_eq_some_iff] at hx
    rcases hx with ((((⟨_, _, rfl⟩ | ⟨_, _, rfl⟩) | ⟨_, _, rfl⟩) | hx) | hx) | ⟨_, _, rfl⟩
    · simp
    · simp
    · simp
    · cases s' <;> simp at hx; subst hx; simp
    · cases o' <;> simp at hx; subst hx; simp
    · simp

/-- **C125** (domain): the domain written is the host before the first `:`, in the encoding for names; it has a dot
and no colon.  A host without a dot raises ValueError. -/
theorem C125_domain (idna : Str → Except PyErr Bytes) (host : Str) (b : Bytes) (hb : Wsgi.encodeIdna idna host = .ok b) :
    (∀ dom rest, b = dom ++ rest → 58 ∉ dom → (rest = [] ∨ rest.head? = some 58) →
      (46 ∈ dom → cookieDomain idna (some host) = .ok (some dom)) ∧
      (46 ∉ dom → cookieDomain idna (some host) = .error .valueError)) ∧
    ∀ dom, (∀ c ∈ dom, (Cookie.legalChars.contains c) = true) → Cookie.cookieQuote dom = dom := by
  refine ⟨fun dom rest e h58 hr => ?_, fun dom h => ?_⟩
  · unfold cookieDomain
    simp only
    rw [hb]
    simp only
    have hp : ∀ c ∈ dom, (fun c : UInt8 => decide (c ≠ 58)) c = true := by
      intro c hc; simp only [decide_eq_true_eq]; rintro rfl; exact h58 hc
    have hcut : (if 58 ∈ b then b.takeWhile (· ≠ 58) else b) = dom := by
      rcases hr with rfl | hr
      · rw [if_neg (by rw [e]; simpa using h58), e, List.append_nil]
      · cases rest with
        | nil => cases hr
        | cons x xs =>
          cases hr
          rw [if_pos (by rw [e]; simp), e]
          exact (takeWhile_stop _ dom 58 xs hp (by decide)).1
    rw [hcut]
    exact ⟨fun h => if_pos h, fun h => if_neg h⟩
  · rw [CookieAux.cookieQuote_eq, if_pos (List.all_eq_true.2 h)]

/-- **C125** (path): a path that begins with one slash and has neither `?` nor `#` is written with its escapes, all
`;` among them: it can not bring in further attributes. -/
theorem C125_path (cfg : Cfg) (hu : cfg.usesNetloc [] = false) (hl : cfg.lower [] = []) (p : Str)
    (h : BuilderP.LocalPath p) :
    pathUri cfg (some p) = .ok (some (Iri.quoteText Urls.pathSafe p)) ∧ ';' ∉ Iri.quoteText Urls.pathSafe p ∧
    Percent.meaning (Utf8.encode (Iri.quoteText Urls.pathSafe p)) = Percent.meaning (Utf8.encode p) := by
  refine ⟨?_, ?_, ?_⟩
  · unfold pathUri
    simp only
    rw [BuilderP.iriToUri_local hu hl h]; rfl
  · exact IriP.quoteText_no (by decide) (by decide) (by decide +kernel) (.inl (by decide +kernel))
  · exact IriP.quoteText_meaning (by decide) (by decide) p

/-! ### what is not so -/

/-- The outside for the examples; it is the first of March 2020. -/
def cookieCfg : Cfg := ⟨IriP.demoIdna, IriP.demoLower, IriP.demoUses, 1583020800⟩

/-- **C125** (malformed cookies): reading the cookies of a request may raise UnicodeError, although errors are to be
replaced: one cookie that is no UTF-8 takes all others away. -/
theorem C125_malformed_false :
    ¬ (∀ environ, ∃ d, requestCookies environ = .ok d) ∧
    requestCookies [(s%"HTTP_COOKIE", s%"id=1; x=\"\\377\"")] = .error .unicodeError := by
  have h : requestCookies [(s%"HTTP_COOKIE", s%"id=1; x=\"\\377\"")] = .error .unicodeError := by decide +kernel
  refine ⟨fun hall => ?_, h⟩
  obtain ⟨d, hd⟩ := hall [(s%"HTTP_COOKIE", s%"id=1; x=\"\\377\"")]
  rw [h] at hd; cases hd

/-- **C125** (what reading may raise): nothing but UnicodeError. -/
theorem C125_malformed_partial (environ : List (Str × Str)) (e : PyErr) (h : requestCookies environ = .error e) :
    e = .unicodeError := by
  have hd : ∀ b e, Utf8.decodeStrict b = .error e → e = .unicodeError := by
    intro b e h
    unfold Utf8.decodeStrict at h
    split at h <;> cases h
    rfl
  have hp : ∀ l e, decodePairs l = .error e → e = .unicodeError := by
    intro l
    induction l with
    | nil => intro e h; cases h
    | cons p l ih =>
      obtain ⟨k, v⟩ := p
      intro e h
      unfold decodePairs at h
      cases h1 : Utf8.decodeStrict k with
      | error x => rw [h1] at h; cases h; exact hd _ _ h1
      | ok key =>
        rw [h1] at h; simp only at h
        cases h2 : Utf8.decodeStrict v with
        | error x => rw [h2] at h; cases h; exact hd _ _ h2
        | ok val =>
          rw [h2] at h; simp only at h
          cases h3 : decodePairs l with
          | error x => rw [h3] at h; cases h; exact ih _ h3
          | ok ps => rw [h3] at h; cases h
  unfold requestCookies at h
  cases h3 : decodePairs (Cookie.cookieParse (headerBytes ((Dict.get environ s%"HTTP_COOKIE").getD []))) with
  | error x => rw [h3] at h; cases h; exact hp _ _ h3
  | ok ps => rw [h3] at h; cases h

/-- **C125** (paths with a query): a `;` after `?` or `#` in the path is written as it is, so such a path can set
any attribute and even take the cookie away. -/
theorem C125_path_limits :
    (setCookie cookieCfg [] { key := s%"id", value := s%"1", path := some s%"/a?;Max-Age=0" }) =
      ([(s%"Set-Cookie", s%"id=1; Path=/a?;Max-Age=0")], .ok ()) ∧
    Agent.receive (fun _ => false) [] b%"id=1; Path=/a?;Max-Age=0" = [] := by
  constructor <;> decide +kernel

/-- **C125** (paths and names): of two cookies with the same name, which a user agent keeps for two paths and sends
with the longer path first, the one with the shorter path is seen. -/
theorem C125_paths_limits (environ : List (Str × Str)) (key inner outer : Str) (hk : CookieName (Utf8.encode key))
    (he : (Dict.get environ s%"HTTP_COOKIE").getD [] = Utf8.latin1 (Agent.cookieLine
      [(Utf8.encode key, Cookie.cookieQuote (Utf8.encode inner)), (Utf8.encode key, Cookie.cookieQuote (Utf8.encode outer))])) :
    requestCookies environ = .ok [(key, outer)] := by
  rw [C125_sent environ [(key, inner), (key, outer)] (by simpa using hk) he]
  simp [Dict.set]

/-! ### examples -/

/-- Some calls: two cookies with attributes, one of them set again, and one deleted. -/
def someCalls : List Call :=
  [.set { key := s%"id", value := s%"a;b \"ü\"", maxAge := some (.delta 1 60), domain := some s%".example.com:8080", secure := true },
   .set { key := s%"täg", value := [], httponly := true, path := none },
   .set { key := s%"old", value := s%"x" },
   .set { key := s%"id", value := s%"2", expires := some (.stamp 1700000000) },
   .delete s%"old" (some s%"/") none]

example : someCalls.foldl meant [] = [(s%"id", s%"2"), (s%"täg", [])] := by decide +kernel

example : (run cookieCfg [] someCalls).2 = .ok () ∧ ((run cookieCfg [] someCalls).1.map (·.2)).head? =
    some s%"id=\"a\\073b \\\"\\303\\274\\\"\"; Domain=.example.com; Expires=Mon, 02-Mar-2020 00:01:00 GMT; Max-Age=86460; Secure; Path=/" := by
  constructor <;> decide +kernel

example : ∀ c ∈ someCalls, Fair cookieCfg (fun _ => false) c := by
  have hpath : ∀ p, pathUri cookieCfg (some s%"/") = .ok (some p) → ';' ∉ p := by
    intro p h
    have e : pathUri cookieCfg (some s%"/") = .ok (some s%"/") := by decide +kernel
    rw [e] at h; cases h; decide
  have n1 : Name s%"id" := ⟨by unfold CookieName; decide +kernel, by decide⟩
  have n2 : Name s%"täg" := ⟨by unfold CookieName; decide +kernel, by decide⟩
  have n3 : Name s%"old" := ⟨by unfold CookieName; decide +kernel, by decide⟩
  intro c hc
  simp only [someCalls, List.mem_cons, List.not_mem_nil, or_false] at hc
  rcases hc with rfl | rfl | rfl | rfl | rfl
  · exact ⟨n1, ⟨hpath, (fun s h => by cases h)⟩, (fun m h => by cases h; decide), (fun h => by cases h)⟩
  · exact ⟨n2, ⟨(fun p h => by cases h), (fun s h => by cases h)⟩, (fun m h => by cases h), fun _ _ _ => rfl⟩
  · exact ⟨n3, ⟨hpath, (fun s h => by cases h)⟩, (fun m h => by cases h), fun _ _ _ => rfl⟩
  · exact ⟨n1, ⟨hpath, (fun s h => by cases h)⟩, (fun m h => by cases h), fun _ _ _ => rfl⟩
  · exact ⟨n3, hpath⟩

example : requestCookies [(s%"HTTP_COOKIE", Utf8.latin1 (Agent.cookieLine
    ((sent (run cookieCfg [] someCalls).1).foldl (Agent.receive fun _ => false) [])))] =
    .ok [(s%"id", s%"2"), (s%"täg", [])] := by decide +kernel

example : BuilderP.LocalPath s%"/a;b ü" ∧ pathUri cookieCfg (some s%"/a;b ü") = .ok (some s%"/a%3Bb%20%C3%BC") :=
  ⟨⟨⟨s%"a;b ü", rfl, by decide⟩, by decide⟩, by decide +kernel⟩

example : cookieDomain IriP.demoIdna (some s%"localhost:80") = .error .valueError ∧
    cookieDomain IriP.demoIdna (some s%"dev.localhost:80") = .ok (some b%"dev.localhost") := by
  constructor <;> decide +kernel

example : Valid ⟨2020, 3, 1, 0, 0, 0⟩ ∧ Date.dumpDate ⟨2020, 3, 1, 0, 0, 0⟩ s%"-" = s%"Sun, 01-Mar-2020 00:00:00 GMT" := by
  constructor
  · unfold Valid; decide +kernel
  · decide +kernel

end Verif.Props.CookieTextP
