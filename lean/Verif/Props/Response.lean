import Verif.HeadersLemmas
import Verif.Model.Response
import Verif.Props.Headers
/-! Property theorems C51-C54 and C73: responses. -/
namespace Verif.Props.Resp
open Verif Verif.Headers Verif.Spec Verif.Response

/-- `lower` maps the header names the library writes as `str.lower` does. -/
structure LowerNames (lower : Str → Str) : Prop where
  length : lower s%"Content-Length" = s%"content-length"
  location : lower s%"Location" = s%"location"
  contentLocation : lower s%"Content-Location" = s%"content-location"
  contentType : lower s%"Content-Type" = s%"content-type"
  expires : lower s%"expires" = s%"expires"
  clower : lower s%"content-location" = s%"content-location"

theorem lowerNames_ascii : LowerNames asciiLower := by constructor <;> decide

/-- A configuration for the examples: ASCII lower case, UTF-8 for one non-ASCII character. -/
def demo : Cfg where
  lower := asciiLower
  encode s := .ok (s.flatMap fun c => if c = 'é' then [195, 169] else [UInt8.ofNat c.toNat])
  reason n := if n = 200 then some s%"OK" else if n = 204 then some s%"NO CONTENT" else none
  autoLength := true
  implicitSeq := true

/-! ### C51 -/

/-- Requests and statuses without a body, as in RFC 7230 3.3. -/
def Bodyless (method : Str) (code : Int) : Prop :=
  method = s%"HEAD" ∨ (100 ≤ code ∧ code ≤ 199) ∨ code = 204 ∨ code = 304

theorem bodyless_iff (method : Str) (code : Int) :
    (method == s%"HEAD" || informational code || code == 204 || code == 304) = true ↔ Bodyless method code := by
  unfold Bodyless informational
  simp only [Bool.or_eq_true, beq_iff_eq, decide_eq_true_eq]
  constructor
  · rintro (((h | h) | h) | h)
    · exact .inl h
    · exact .inr (.inl ⟨h.1, by omega⟩)
    · exact .inr (.inr (.inl h))
    · exact .inr (.inr (.inr h))
  · rintro (h | h | h | h)
    · exact .inl (.inl (.inl h))
    · exact .inl (.inl (.inr ⟨h.1, by omega⟩))
    · exact .inl (.inr h)
    · exact .inr h

theorem C51_no_body (cfg : Cfg) (method : Str) (r : Resp) (h : Bodyless method r.code) :
    (appIter method r).yields cfg = .ok [] := by
  unfold appIter
  rw [if_pos ((bodyless_iff _ _).mpr h)]
  rfl

example : Bodyless s%"GET" 204 ∧ Bodyless s%"HEAD" 200 ∧ ¬ Bodyless s%"GET" 200 := by
  simp [Bodyless]

theorem C51_otherwise_body (cfg : Cfg) (method : Str) (r : Resp) (h : ¬ Bodyless method r.code) :
    (appIter method r).yields cfg =
      if r.direct then .ok r.body.items else (encodeAll cfg r.body.items).map (·.map .bytes) := by
  unfold appIter
  rw [if_neg (fun e => h ((bodyless_iff _ _).mp e))]
  cases r.direct
  · simp only [AppIter.yields, Bool.false_eq_true, if_false]
    cases encodeAll cfg r.body.items <;> rfl
  · rfl

theorem set_legal_getlist (lower : Str → Str) (h : HList) (k v x : Str) (hv : LegalValue v) :
    getlist lower (Headers.set lower h k v []).1 x = if lower x = lower k then [v] else getlist lower h x :=
  getlist_set lower h k v x hv

theorem natStr_legal (n : Nat) : LegalValue (Py.natStr n) :=
  ⟨Py.natStr_not_mem n _ (by decide), Py.natStr_not_mem n _ (by decide)⟩

theorem C51_length (cfg : Cfg) (iri absolute : Str → Except PyErr Str) (r : Resp)
    (hc : (100 ≤ r.code ∧ r.code ≤ 199) ∨ r.code = 204) (h : HList)
    (hh : wsgiHeaders cfg iri absolute r = .ok h) :
    getlist cfg.lower h s%"Content-Length" = [s%"0"] := by
  unfold wsgiHeaders at hh
  split at hh
  · cases hh
  split at hh
  · cases hh
  rename_i h2 _
  have hc' : (informational r.code || r.code == 204) = true := by
    unfold informational
    simp only [Bool.or_eq_true, beq_iff_eq, decide_eq_true_eq]
    omega
  unfold fixLength at hh
  rw [if_pos hc'] at hh
  cases hh
  rw [set_legal_getlist _ _ _ _ _ (by decide), if_pos rfl]

theorem C51_not_modified (cfg : Cfg) (hl : LowerNames cfg.lower) (iri absolute : Str → Except PyErr Str) (r : Resp)
    (hc : r.code = 304) (h : HList) (hh : wsgiHeaders cfg iri absolute r = .ok h) :
    ∀ p ∈ h, cfg.lower p.1 ∉ [s%"allow", s%"content-encoding", s%"content-language", s%"content-length",
      s%"content-md5", s%"content-range", s%"content-type", s%"last-modified"] := by
  unfold wsgiHeaders at hh
  split at hh
  · cases hh
  split at hh
  · cases hh
  rename_i h2 _
  have hc' : (informational r.code || r.code == 204) = false := by rw [hc]; decide
  unfold fixLength at hh
  rw [if_neg (by simp [hc']), if_pos (by simp [hc])] at hh
  unfold dropEntity setSlice at hh
  split at hh
  · cases hh
  rename_i h' _ he
  cases hh
  split at he
  · cases he
  cases he
  intro p hp
  simp only [List.take_zero, List.nil_append, List.drop_length, List.append_nil,
    Nat.max_eq_right, Nat.zero_le] at hp
  unfold removeEntityHeaders isEntityHeader at hp
  have := (List.mem_filter.mp hp).2
  simp only [List.map_cons, List.map_nil, hl.expires, hl.clower] at this
  intro hm
  simp only [List.mem_cons, List.not_mem_nil, or_false] at hm
  rcases hm with e | e | e | e | e | e | e | e <;> rw [e] at this <;> revert this <;> decide

/-- A 204 response made from a body of two elements and with a Content-Length of its own. -/
example : wsgiHeaders demo .ok .ok
      ⟨[(s%"content-length", s%"77"), (s%"X", s%"y")], s%"204", 204, .list [.bytes b%"abc"], [], false⟩ =
    .ok [(s%"Content-Length", s%"0"), (s%"X", s%"y")] := by decide +kernel

example : wsgiHeaders demo .ok .ok
      ⟨[(s%"Content-Type", s%"text/plain"), (s%"ETag", s%"\"a\""), (s%"Expires", s%"0")], s%"304", 304,
        .list [.bytes b%"abc"], [], false⟩ =
    .ok [(s%"ETag", s%"\"a\""), (s%"Expires", s%"0")] := by decide +kernel

/-! ### C52 -/

/-- An element whose length is the number of bytes it is sent as. -/
def Fit (cfg : Cfg) (x : Item) : Prop := ∃ b, encodeItem cfg x = .ok b ∧ b.length = x.len

theorem fit_bytes (cfg : Cfg) (b : Bytes) : Fit cfg (.bytes b) := ⟨b, rfl, rfl⟩

/-- Header calls that add no `Content-Length`; removing any entry is allowed. -/
def NoLength (lower : Str → Str) : Headers.Op → Prop
  | .add k _ _ => lower k ≠ s%"content-length"
  | .set k _ _ => lower k ≠ s%"content-length"
  | .setIndex _ k _ => lower k ≠ s%"content-length"
  | .setdefault k _ => lower k ≠ s%"content-length"
  | .extend ps => ∀ p ∈ ps, lower p.1 ≠ s%"content-length"
  | .setSlice _ _ ps => ∀ p ∈ ps, lower p.1 ≠ s%"content-length"
  | _ => True

/-- Calls of the history considered by C52. -/
def OkOp (cfg : Cfg) : Response.Op → Prop
  | .write v => Fit cfg v
  | .header op => NoLength cfg.lower op
  | _ => True

theorem getlist_none (lower : Str → Str) (ps : HList) (k : Str) (h : ∀ p ∈ ps, lower p.1 ≠ lower k) :
    getlist lower ps k = [] := by
  rw [getlist_eq, List.map_eq_nil_iff, List.filter_eq_nil_iff]
  intro p hp; simpa using h p hp

theorem getlist_sublist (lower : Str → Str) {l l' : HList} (k : Str) (h : List.Sublist l l') :
    List.Sublist (getlist lower l k) (getlist lower l' k) := by
  rw [getlist_eq, getlist_eq]
  exact (h.filter _).map _

theorem set_other (lower : Str → Str) (l : HList) (k v x : Str) (kw) (hx : lower k ≠ lower x) :
    getlist lower (Headers.set lower l k v kw).1 x = getlist lower l x := by
  have hx' : ¬ lower x = lower k := fun h => hx h.symm
  by_cases hv : LegalValue (effValue v kw)
  · have h1 := getlist_set lower l k (effValue v kw) x hv
    rw [if_neg hx'] at h1
    have : Headers.set lower l k v kw = Headers.set lower l k (effValue v kw) [] := by
      unfold Headers.set
      rw [show effValue (effValue v kw) [] = effValue v kw from by simp [effValue]]
    rw [this, h1]
  · rw [set_illegal lower l k v kw hv]

theorem header_step_sublist (lower : Str → Str) (hl : lower s%"Content-Length" = s%"content-length")
    (l : HList) (op : Headers.Op) (h : NoLength lower op) :
    List.Sublist (getlist lower (Headers.step lower l op) s%"Content-Length") (getlist lower l s%"Content-Length") := by
  have del : ∀ k, List.Sublist (delKey lower l k) l := fun k => List.filter_sublist
  cases op with
  | add k v kw =>
    simp only [Headers.step]
    by_cases hv : LegalValue (effValue v kw)
    · rw [add_legal l k v kw hv, getlist_append]
      rw [getlist_none lower [(k, effValue v kw)] _ (by
        intro p hp; simp only [List.mem_singleton] at hp; subst hp; rw [hl]; exact h)]
      simp
    · rw [add_illegal l k v kw hv]; exact List.Sublist.refl _
  | set k v kw =>
    simp only [Headers.step]
    rw [set_other lower l k v _ kw (by rw [hl]; exact h)]
    exact List.Sublist.refl _
  | setIndex i k v =>
    simp only [Headers.step, Headers.setIndex, validate_ok]
    by_cases hv : LegalValue v
    · simp only [hv, if_true]
      split
      · rename_i n hn
        rw [getlist_eq, getlist_eq]
        apply List.Sublist.map
        clear del hn
        have h : lower k ≠ s%"content-length" := h
        show List.Sublist (List.filter _ (l.set n (k, v))) _
        induction l generalizing n with
        | nil => simp
        | cons p ps ih =>
          cases n with
          | zero =>
            rw [List.set_cons_zero, List.filter_cons_of_neg (by rw [hl]; simpa using h), List.filter_cons]
            split
            · exact List.Sublist.cons _ (List.Sublist.refl _)
            · exact List.Sublist.refl _
          | succ n =>
            rw [List.set_cons_succ, List.filter_cons, List.filter_cons]
            split
            · exact List.Sublist.cons_cons _ (ih n)
            · exact ih n
      · exact List.Sublist.refl _
    · simp only [hv, if_false]; exact List.Sublist.refl _
  | setSlice i j ps =>
    simp only [Headers.step, Headers.setSlice]
    rcases validateAll_ok ps with hv | hv
    · rw [hv]
      simp only
      rw [getlist_append, getlist_append, getlist_none lower ps _ (by rw [hl]; exact h), List.append_nil,
        ← getlist_append]
      apply getlist_sublist
      have : List.Sublist (l.take i ++ l.drop (max i j)) (l.take i ++ l.drop i) := by
        apply List.Sublist.append (List.Sublist.refl _)
        have : l.drop (max i j) = (l.drop i).drop (max i j - i) := by
          rw [List.drop_drop]; congr 1; omega
        rw [this]; exact List.drop_sublist _ _
      rwa [List.take_append_drop] at this
    · rw [hv]; exact List.Sublist.refl _
  | delKey k => exact getlist_sublist lower _ (del k)
  | delIndex i =>
    simp only [Headers.step, Headers.delIndex]
    split
    · exact getlist_sublist lower _ (List.eraseIdx_sublist _ _)
    · exact List.Sublist.refl _
  | extend ps =>
    simp only [Headers.step]
    have h0 : getlist lower (ps.takeWhile (fun p => decide (LegalValue p.2))) s%"Content-Length" = [] :=
      getlist_none lower _ _ (by intro p hp; rw [hl]; exact h p ((List.takeWhile_sublist _).subset hp))
    rw [extend_eq, getlist_append, h0]
    simp
  | popKey k d =>
    simp only [Headers.step, Headers.popKey]
    split
    · exact getlist_sublist lower _ (del k)
    · split <;> exact List.Sublist.refl _
  | popLast =>
    simp only [Headers.step, Headers.popLast]
    split
    · exact getlist_sublist lower _ (List.dropLast_sublist _)
    · exact List.Sublist.refl _
  | popIndex i =>
    simp only [Headers.step, Headers.popIndex]
    split
    · split
      · exact getlist_sublist lower _ (List.eraseIdx_sublist _ _)
      · exact List.Sublist.refl _
    · exact List.Sublist.refl _
  | setdefault k v =>
    simp only [Headers.step, Headers.setdefault]
    split
    · exact List.Sublist.refl _
    · have := set_other lower l k v s%"Content-Length" [] (by rw [hl]; exact h)
      split <;> (rename_i e; rw [e] at this; rw [this]; exact List.Sublist.refl _)
  | clear => exact getlist_sublist lower (l := []) _ (List.nil_sublist _)

/-- Number of bytes of a body, counted as the library counts. -/
def total (xs : List Item) : Nat := (xs.map Item.len).sum

theorem encodeAll_fit (cfg : Cfg) (xs : List Item) (h : ∀ x ∈ xs, Fit cfg x) :
    ∃ bs, encodeAll cfg xs = .ok bs ∧ total (bs.map .bytes) = total xs := by
  induction xs with
  | nil => exact ⟨[], rfl, rfl⟩
  | cons x xs ih =>
    obtain ⟨b, hb, hlen⟩ := h x (by simp)
    obtain ⟨bs, hbs, ht⟩ := ih (fun y hy => h y (by simp [hy]))
    refine ⟨b :: bs, by simp [encodeAll, hb, hbs], ?_⟩
    unfold total at *
    simp only [List.map_cons, List.sum_cons, ht]
    rw [← hlen]; rfl

theorem total_bytes (bs : List Bytes) : total (bs.map .bytes) = (bs.map List.length).sum := by
  unfold total
  rw [List.map_map]
  rfl

/-- The state kept by every history: a sequence body has fitting elements, and a
`Content-Length` in the headers is single and right for a sequence body. -/
def Inv (cfg : Cfg) (r : Resp) : Prop :=
  (r.body.isSequence = true → ∀ x ∈ r.body.items, Fit cfg x) ∧
  (getlist cfg.lower r.headers s%"Content-Length" = [] ∨
    (r.body.isSequence = true ∧
      getlist cfg.lower r.headers s%"Content-Length" = [Py.natStr (total r.body.items)]))

theorem inv_makeSequence (cfg : Cfg) (r : Resp) (h : Inv cfg r) : Inv cfg (makeSequence cfg r).1 := by
  unfold makeSequence
  split
  · exact h
  rename_i hs
  split
  · exact h
  rename_i bs _
  refine ⟨fun _ x hx => ?_, ?_⟩
  · obtain ⟨b, _, rfl⟩ := List.mem_map.mp hx
    exact fit_bytes cfg b
  · left
    rcases h.2 with h2 | ⟨h2, _⟩
    · exact h2
    · exact absurd h2 hs

theorem inv_ensure (cfg : Cfg) (r : Resp) (m : Bool) (h : Inv cfg r) : Inv cfg (ensureSequence cfg r m).1 := by
  unfold ensureSequence
  by_cases hs : r.body.isSequence = true
  · rw [if_pos hs]
    cases m
    · exact h
    · refine ⟨fun _ x hx => h.1 hs x hx, ?_⟩
      rcases h.2 with h2 | ⟨_, h2⟩
      · exact .inl h2
      · exact .inr ⟨rfl, h2⟩
  · rw [if_neg hs]
    split
    · exact h
    split
    · exact h
    exact inv_makeSequence cfg r h

theorem ensure_fst_getData (cfg : Cfg) (r : Resp) : (getData cfg r).1 = (ensureSequence cfg r false).1 := by
  unfold getData
  split
  · rename_i e; rw [e]
  · rename_i e; rw [e]; split <;> rfl

theorem ensure_fst_calc (cfg : Cfg) (r : Resp) : (calcLength cfg r).1 = (ensureSequence cfg r false).1 := by
  unfold calcLength
  split <;> (rename_i e; rw [e])

theorem setLength_getlist (cfg : Cfg) (h : HList) (n : Nat) :
    getlist cfg.lower (setLength cfg h n) s%"Content-Length" = [Py.natStr n] := by
  unfold setLength
  rw [set_legal_getlist _ _ _ _ _ (natStr_legal n), if_pos rfl]

theorem inv_step (cfg : Cfg) (hl : cfg.lower s%"Content-Length" = s%"content-length") (ha : cfg.autoLength = true)
    (r : Resp) (op : Response.Op) (ho : OkOp cfg op) (h : Inv cfg r) : Inv cfg (Response.step cfg r op) := by
  cases op with
  | setData v =>
    simp only [Response.step, setData]
    split
    · exact h
    rename_i b _
    refine ⟨fun _ x hx => ?_, .inr ⟨rfl, ?_⟩⟩
    · simp only [Body.items, List.mem_singleton] at hx
      subst hx; exact fit_bytes cfg b
    · simp only [ha, if_true]
      rw [setLength_getlist]
      simp [Body.items, total, Item.len]
  | getData => simp only [Response.step, ensure_fst_getData]; exact inv_ensure cfg r _ h
  | calcLength => simp only [Response.step, ensure_fst_calc]; exact inv_ensure cfg r _ h
  | makeSequence => exact inv_makeSequence cfg r h
  | freeze =>
    simp only [Response.step, freeze]
    split
    · exact h
    rename_i bs _
    refine ⟨fun _ x hx => ?_, .inr ⟨rfl, ?_⟩⟩
    · obtain ⟨b, _, rfl⟩ := List.mem_map.mp hx
      exact fit_bytes cfg b
    · simp only
      rw [setLength_getlist]
      simp only [Body.items, total_bytes]
  | write v =>
    simp only [Response.step, write]
    have hi := inv_ensure cfg r true h
    split
    · rename_i e; rw [e] at hi; exact hi
    rename_i r' _ e
    rw [e] at hi
    have hseq : r'.body.isSequence = true := by
      unfold ensureSequence at e
      split at e
      · cases e; rfl
      split at e
      · cases e
      split at e
      · cases e
      unfold makeSequence at e
      split at e
      · cases e; assumption
      split at e
      · cases e
      · cases e; rfl
    refine ⟨fun _ x hx => ?_, .inl ?_⟩
    · simp only [Body.items, List.mem_append, List.mem_singleton] at hx
      rcases hx with hx | rfl
      · exact hi.1 hseq x hx
      · exact ho
    · simp only
      rw [getlist_delKey, if_pos rfl]
  | callOnClose n => exact h
  | setStatus s =>
    simp only [Response.step, setStatus]
    split
    · exact h
    · split <;> exact h
  | setStatusCode n => exact h
  | header op =>
    simp only [Response.step]
    refine ⟨h.1, ?_⟩
    have hs := header_step_sublist cfg.lower hl r.headers op ho
    rcases h.2 with h2 | ⟨h1, h2⟩
    · left; rw [h2] at hs; exact List.eq_nil_of_sublist_nil hs
    · rw [h2] at hs
      generalize getlist cfg.lower (Headers.step cfg.lower r.headers op) s%"Content-Length" = g at hs
      cases hs with
      | cons _ h3 => exact .inl (List.eq_nil_of_sublist_nil h3)
      | cons_cons _ h3 => rw [List.eq_nil_of_sublist_nil h3]; exact .inr ⟨h1, rfl⟩

theorem inv_run (cfg : Cfg) (hl : cfg.lower s%"Content-Length" = s%"content-length") (ha : cfg.autoLength = true)
    (ops : List Response.Op) (r : Resp) (ho : ∀ op ∈ ops, OkOp cfg op) (h : Inv cfg r) :
    Inv cfg (Response.run cfg r ops) := by
  induction ops generalizing r with
  | nil => exact h
  | cons op ops ih =>
    exact ih _ (fun o ho' => ho o (by simp [ho'])) (inv_step cfg hl ha r op (ho op (by simp)) h)

theorem lastValue_none (cfg : Cfg) (hl : cfg.lower s%"Content-Length" = s%"content-length") (h : HList) :
    lastValue cfg s%"content-length" h = none ↔ getlist cfg.lower h s%"Content-Length" = [] := by
  have gen : ∀ (h : HList) (acc : Option Str),
      h.foldl (fun acc p => if cfg.lower p.1 = s%"content-length" then some p.2 else acc) acc = none ↔
        acc = none ∧ getlist cfg.lower h s%"Content-Length" = [] := by
    intro h
    induction h with
    | nil => intro acc; simp [getlist]
    | cons p ps ih =>
      intro acc
      obtain ⟨a, b⟩ := p
      rw [List.foldl_cons, ih]
      by_cases hp : cfg.lower a = s%"content-length"
      · simp [getlist, hp, hl]
      · simp [getlist, hp, hl]
  unfold lastValue
  rw [gen]; simp

theorem fixLocation_getlist (cfg : Cfg) (hl : LowerNames cfg.lower) (iri absolute : Str → Except PyErr Str)
    (loc : Option Str) (h h' : HList) (e : fixLocation cfg iri absolute loc h = .ok h') :
    getlist cfg.lower h' s%"Content-Length" = getlist cfg.lower h s%"Content-Length" := by
  unfold fixLocation at e
  split at e
  · cases e; rfl
  rename_i old
  split at e
  · cases e
  split at e
  · cases e
  split at e
  · cases e; rfl
  rename_i l _ _
  have := set_other cfg.lower h s%"Location" l s%"Content-Length" [] (by rw [hl.length, hl.location]; decide)
  split at e
  · cases e
  · rename_i e'; cases e; rw [e'] at this; exact this

theorem fixContentLocation_getlist (cfg : Cfg) (hl : LowerNames cfg.lower) (iri : Str → Except PyErr Str)
    (loc : Option Str) (h h' : HList) (e : fixContentLocation cfg iri loc h = .ok h') :
    getlist cfg.lower h' s%"Content-Length" = getlist cfg.lower h s%"Content-Length" := by
  unfold fixContentLocation at e
  split at e
  · cases e; rfl
  split at e
  · cases e
  rename_i l _
  have := set_other cfg.lower h s%"Content-Location" l s%"Content-Length" [] (by
    rw [hl.length, hl.contentLocation]; decide)
  split at e
  · cases e
  · rename_i e'; cases e; rw [e'] at this; exact this

theorem init_inv (cfg : Cfg) (hl : LowerNames cfg.lower) (ha : cfg.autoLength = true)
    (headers : HList) (hh : ∀ p ∈ headers, cfg.lower p.1 ≠ s%"content-length")
    (ct : Option Str) (code : Int) (direct : Bool) (b : Init)
    (hb : ∀ bd, b = .body bd → bd.isSequence = true → ∀ x ∈ bd.items, Fit cfg x) (r : Resp)
    (hr : Response.init cfg headers ct code direct b = .ok r) : Inv cfg r := by
  have h0 : getlist cfg.lower headers s%"Content-Length" = [] :=
    getlist_none cfg.lower headers _ (by rw [hl.length]; exact hh)
  have hct : ∀ t, getlist cfg.lower (Headers.set cfg.lower headers s%"Content-Type" t []).1
      s%"Content-Length" = [] := fun t => by
    rw [set_other cfg.lower headers _ t _ [] (by rw [hl.length, hl.contentType]; decide), h0]
  unfold Response.init at hr
  cases b with
  | none =>
    cases hr
    refine ⟨fun _ x hx => (nomatch hx), .inl ?_⟩
    cases ct with
    | none => exact h0
    | some t => exact hct t
  | body bd =>
    cases hr
    refine ⟨hb bd rfl, .inl ?_⟩
    cases ct with
    | none => exact h0
    | some t => exact hct t
  | data v =>
    simp only at hr
    split at hr
    · rename_i r' _ e
      cases hr
      unfold setData at e
      split at e
      · cases e
      · rename_i b _
        cases e
        refine ⟨fun _ x hx => ?_, .inr ⟨rfl, ?_⟩⟩
        · simp only [Body.items, List.mem_singleton] at hx
          subst hx; exact fit_bytes cfg b
        · simp only [ha, if_true]
          rw [setLength_getlist]
          simp [Body.items, total, Item.len]
    · cases hr

/-- What a response in a good state announces and sends. -/
theorem emit_inv (cfg : Cfg) (hl : LowerNames cfg.lower) (ha : cfg.autoLength = true)
    (iri absolute : Str → Except PyErr Str) (method : Str) (hm : method ≠ s%"HEAD") (r : Resp) (hi : Inv cfg r)
    (h : HList) (hh : wsgiHeaders cfg iri absolute r = .ok h) (ys : List Item)
    (hy : (appIter method r).yields cfg = .ok ys) :
    (getlist cfg.lower h s%"Content-Length" = [] ∨
      getlist cfg.lower h s%"Content-Length" = [Py.natStr (total ys)]) ∧
    (r.body.isSequence = true → r.code ≠ 304 →
      getlist cfg.lower h s%"Content-Length" = [Py.natStr (total ys)]) := by
  by_cases h1 : (100 ≤ r.code ∧ r.code ≤ 199) ∨ r.code = 204
  · have hg := C51_length cfg iri absolute r h1 h hh
    have hb := C51_no_body cfg method r (.inr (h1.elim .inl (.inr ∘ .inl)))
    rw [hb] at hy; cases hy
    have : Py.natStr (total []) = s%"0" := by decide +kernel
    rw [hg, this]; exact ⟨.inr rfl, fun _ _ => rfl⟩
  by_cases h2 : r.code = 304
  · have hg := C51_not_modified cfg hl iri absolute r h2 h hh
    have : getlist cfg.lower h s%"Content-Length" = [] :=
      getlist_none cfg.lower h _ (by intro p hp e; exact hg p hp (by rw [e, hl.length]; simp))
    exact ⟨.inl this, fun _ h => absurd h2 h⟩
  have hnb : ¬ Bodyless method r.code := by
    rintro (h | h | h | h)
    · exact hm h
    · exact h1 (.inl h)
    · exact h1 (.inr h)
    · exact h2 h
  rw [C51_otherwise_body cfg method r hnb] at hy
  have hys : r.body.isSequence = true → total ys = total r.body.items := by
    intro hs
    split at hy
    · cases hy; rfl
    · obtain ⟨bs, hbs, ht⟩ := encodeAll_fit cfg r.body.items (hi.1 hs)
      rw [hbs] at hy
      cases hy; exact ht
  unfold wsgiHeaders at hh
  split at hh
  · cases hh
  rename_i ha' he1
  split at hh
  · cases hh
  rename_i hb' he2
  have hg : getlist cfg.lower hb' s%"Content-Length" = getlist cfg.lower r.headers s%"Content-Length" := by
    rw [fixContentLocation_getlist cfg hl iri _ _ _ he2, fixLocation_getlist cfg hl iri absolute _ _ _ he1]
  have hn : (informational r.code || r.code == 204) = false := by
    unfold informational
    simp only [Bool.or_eq_false_iff, decide_eq_false_iff_not, beq_eq_false_iff_ne]
    omega
  unfold fixLength at hh
  rw [if_neg (by simp [hn]), if_neg (by simpa using h2)] at hh
  split at hh
  · rename_i hcond
    simp only [Bool.and_eq_true] at hcond
    cases hh
    have : getlist cfg.lower (setLength cfg hb' (r.body.items.map Item.len).sum) s%"Content-Length" =
        [Py.natStr (total ys)] := by
      rw [setLength_getlist, hys hcond.1.2]; rfl
    exact ⟨.inr this, fun _ _ => this⟩
  · rename_i hcond
    cases hh
    rw [hg]
    rcases hi.2 with h3 | ⟨hs, h3⟩
    · refine ⟨.inl h3, fun hs _ => ?_⟩
      exfalso
      apply hcond
      rw [ha, hs, (lastValue_none cfg hl.length r.headers).mpr h3]; rfl
    · rw [h3, hys hs]; exact ⟨.inr rfl, fun _ _ => rfl⟩

/-- For a response created without a `Content-Length` of its own and never given one, after every
history of calls, the emitted `Content-Length` is the number of bytes of the emitted body, and it is
present when the body is a sequence.  Missing: text elements in a list or written to the stream
must take as many bytes as they have characters; the class attribute
`automatically_set_content_length` is on. -/
theorem C52_length_partial (cfg : Cfg) (hl : LowerNames cfg.lower) (ha : cfg.autoLength = true)
    (headers : HList) (hh : ∀ p ∈ headers, cfg.lower p.1 ≠ s%"content-length")
    (ct : Option Str) (code : Int) (direct : Bool) (b : Init)
    (hb : ∀ bd, b = .body bd → bd.isSequence = true → ∀ x ∈ bd.items, Fit cfg x)
    (r0 : Resp) (hr : Response.init cfg headers ct code direct b = .ok r0)
    (ops : List Response.Op) (ho : ∀ op ∈ ops, OkOp cfg op)
    (iri absolute : Str → Except PyErr Str) (method : Str) (hm : method ≠ s%"HEAD")
    (h : HList) (he : wsgiHeaders cfg iri absolute (Response.run cfg r0 ops) = .ok h) (ys : List Item)
    (hy : (appIter method (Response.run cfg r0 ops)).yields cfg = .ok ys) :
    (getlist cfg.lower h s%"Content-Length" = [] ∨
      getlist cfg.lower h s%"Content-Length" = [Py.natStr (ys.map Item.len).sum]) ∧
    ((Response.run cfg r0 ops).body.isSequence = true → (Response.run cfg r0 ops).code ≠ 304 →
      getlist cfg.lower h s%"Content-Length" = [Py.natStr (ys.map Item.len).sum]) :=
  emit_inv cfg hl ha iri absolute method hm _
    (inv_run cfg hl.length ha ops r0 ho (init_inv cfg hl ha headers hh ct code direct b hb r0 hr)) h he ys hy

/-- `Response('é')`, a write, a header, `freeze`, another write. -/
def demoOps : List Response.Op :=
  [.write (.bytes b%"ab"), .header (.add s%"X" s%"1" []), .freeze, .write (.bytes b%"c")]

example : (∀ op ∈ demoOps, OkOp demo op) ∧
    ∃ r0, Response.init demo [] (some s%"text/plain") 200 false (.data (.text s%"é")) = .ok r0 ∧
      wsgiHeaders demo .ok .ok (Response.run demo r0 demoOps) =
        .ok [(s%"Content-Type", s%"text/plain"), (s%"X", s%"1"), (s%"Content-Length", s%"5")] ∧
      (appIter s%"GET" (Response.run demo r0 demoOps)).yields demo =
        .ok [.bytes [195, 169], .bytes b%"ab", .bytes b%"c"] := by
  refine ⟨?_, _, rfl, ?_⟩
  · intro op h
    simp only [demoOps, List.mem_cons, List.not_mem_nil, or_false] at h
    rcases h with rfl | rfl | rfl | rfl
    · exact fit_bytes _ _
    · show asciiLower s%"X" ≠ s%"content-length"; decide
    · trivial
    · exact fit_bytes _ _
  · exact ⟨by decide +kernel, by decide +kernel⟩

/-- A list with the text `é` is announced with one byte and sent with two. -/
theorem C52_text_false :
    ∃ (cfg : Cfg) (r : Resp) (h : HList) (ys : List Item), cfg.autoLength = true ∧
      Response.init cfg [] none 200 false (.body (.list [.text s%"é"])) = .ok r ∧
      wsgiHeaders cfg .ok .ok r = .ok h ∧ (appIter s%"GET" r).yields cfg = .ok ys ∧
      getlist cfg.lower h s%"Content-Length" = [s%"1"] ∧ ys = [.bytes [195, 169]] :=
  ⟨demo, _, [(s%"Content-Length", s%"1")], _, rfl, rfl, by decide +kernel, by decide +kernel,
    by decide +kernel, rfl⟩

/-- With `automatically_set_content_length` off, the length computed by `freeze` survives a later
`set_data`. -/
theorem C52_stale_false :
    ∃ (cfg : Cfg) (r : Resp) (h : HList) (ys : List Item),
      r = Response.run cfg ⟨[], s%"200 OK", 200, .list [.bytes b%"abc"], [], false⟩
        [.freeze, .setData (.bytes b%"a")] ∧
      wsgiHeaders cfg .ok .ok r = .ok h ∧ (appIter s%"GET" r).yields cfg = .ok ys ∧
      getlist cfg.lower h s%"Content-Length" = [s%"3"] ∧ ys = [.bytes b%"a"] :=
  ⟨{ demo with autoLength := false }, _, [(s%"Content-Length", s%"3")], _, rfl, by decide +kernel,
    by decide +kernel, by decide +kernel, rfl⟩

/-! ### C53 -/

theorem callAll_quiet (cs : List Cb) : callAll (fun _ => false) cs = (cs, false) := by
  induction cs with
  | nil => rfl
  | cons c cs ih => simp [callAll, ih]

/-- The functions of the user among those called. -/
def users (cs : List Cb) : List Nat := cs.filterMap fun | .user n => some n | .body => none

/-- The functions registered by a history, in order. -/
def registered (ops : List Response.Op) : List Nat := ops.filterMap fun | .callOnClose n => some n | _ => none

theorem users_append (a b : List Cb) : users (a ++ b) = users a ++ users b := List.filterMap_append

theorem users_body (c : Bool) : users (if c then [Cb.body] else []) = [] := by cases c <;> rfl

theorem makeSequence_fields (cfg : Cfg) (r : Resp) :
    users (makeSequence cfg r).1.onClose = users r.onClose ∧
      (makeSequence cfg r).1.direct = r.direct ∧ (makeSequence cfg r).1.status = r.status ∧
      (makeSequence cfg r).1.code = r.code := by
  unfold makeSequence
  by_cases hs : r.body.isSequence = true
  · rw [if_pos hs]; exact ⟨rfl, rfl, rfl, rfl⟩
  rw [if_neg hs]
  cases encodeAll cfg r.body.items with
  | error e => exact ⟨rfl, rfl, rfl, rfl⟩
  | ok bs =>
    refine ⟨?_, rfl, rfl, rfl⟩
    cases r.body.hasClose
    · rfl
    · show users (r.onClose ++ [Cb.body]) = _
      rw [users_append]; simp [users]

theorem ensure_fields (cfg : Cfg) (r : Resp) (m : Bool) :
    users (ensureSequence cfg r m).1.onClose = users r.onClose ∧
      (ensureSequence cfg r m).1.direct = r.direct ∧ (ensureSequence cfg r m).1.status = r.status ∧
      (ensureSequence cfg r m).1.code = r.code := by
  unfold ensureSequence
  split
  · cases m <;> exact ⟨rfl, rfl, rfl, rfl⟩
  split
  · exact ⟨rfl, rfl, rfl, rfl⟩
  split
  · exact ⟨rfl, rfl, rfl, rfl⟩
  · exact makeSequence_fields cfg r

theorem write_fields (cfg : Cfg) (r : Resp) (v : Item) :
    users (write cfg r v).1.onClose = users r.onClose ∧
      (write cfg r v).1.direct = r.direct ∧ (write cfg r v).1.status = r.status ∧
      (write cfg r v).1.code = r.code := by
  have h := ensure_fields cfg r true
  unfold write
  split <;> (rename_i e; rw [e] at h; exact h)

theorem step_users (cfg : Cfg) (r : Resp) (op : Response.Op) :
    users (Response.step cfg r op).onClose = users r.onClose ++ registered [op] ∧
      (Response.step cfg r op).direct = r.direct := by
  cases op with
  | setData v => simp only [Response.step, setData]; split <;> simp [registered]
  | getData =>
    simp only [Response.step, ensure_fst_getData]
    exact ⟨by rw [(ensure_fields cfg r false).1]; simp [registered], (ensure_fields cfg r false).2.1⟩
  | calcLength =>
    simp only [Response.step, ensure_fst_calc]
    exact ⟨by rw [(ensure_fields cfg r false).1]; simp [registered], (ensure_fields cfg r false).2.1⟩
  | makeSequence =>
    exact ⟨by rw [Response.step, (makeSequence_fields cfg r).1]; simp [registered], (makeSequence_fields cfg r).2.1⟩
  | freeze => simp only [Response.step, freeze]; split <;> simp [registered]
  | write v =>
    exact ⟨by rw [Response.step, (write_fields cfg r v).1]; simp [registered], (write_fields cfg r v).2.1⟩
  | callOnClose n => simp [Response.step, callOnClose, registered, users]
  | setStatus s =>
    simp only [Response.step, setStatus]
    split
    · simp [registered]
    · split <;> simp [registered]
  | setStatusCode n => simp [Response.step, setStatusCode, registered]
  | header op => simp [Response.step, registered]

theorem run_users (cfg : Cfg) (ops : List Response.Op) (r : Resp) :
    users (Response.run cfg r ops).onClose = users r.onClose ++ registered ops ∧
      (Response.run cfg r ops).direct = r.direct := by
  induction ops generalizing r with
  | nil => simp [Response.run, registered]
  | cons op ops ih =>
    have h1 := step_users cfg r op
    have h2 := ih (Response.step cfg r op)
    refine ⟨?_, h2.2.trans h1.2⟩
    show users (Response.run cfg (Response.step cfg r op) ops).onClose = _
    rw [h2.1, h1.1, List.append_assoc]
    congr 1
    unfold registered
    rw [← List.filterMap_append]; rfl

theorem close_users (r : Resp) : users (Response.close (fun _ => false) r).1 = users r.onClose := by
  unfold Response.close
  rw [callAll_quiet, users_append, users_body, List.nil_append]

/-- A server that closes the iterable of a response once calls every function registered in the
history once, in order.  Missing: direct passthrough with a body, and functions that raise. -/
theorem C53_server_partial (cfg : Cfg) (r : Resp) (hr : r.onClose = []) (ops : List Response.Op) (method : Str)
    (h : r.direct = false ∨ Bodyless method (Response.run cfg r ops).code) :
    users ((appIter method (Response.run cfg r ops)).close (fun _ => false) (Response.run cfg r ops)).1 =
      registered ops := by
  have hu := run_users cfg ops r
  rw [hr] at hu
  have hcl : ∃ xs, appIter method (Response.run cfg r ops) = .closing xs := by
    unfold appIter
    split
    · exact ⟨_, rfl⟩
    · rename_i hn
      rcases h with h | h
      · rw [hu.2, h]; exact ⟨_, rfl⟩
      · exact absurd ((bodyless_iff _ _).mpr h) hn
  obtain ⟨xs, hx⟩ := hcl
  rw [hx]
  show users (Response.close _ _).1 = _
  rw [close_users, hu.1]; rfl

/-- The response of the examples: a generator of two parts. -/
def demoResp : Resp := ⟨[], s%"200 OK", 200, .stream [.bytes b%"a", .text s%"b"] true, [], false⟩

example : users ((appIter s%"GET" (Response.run demo demoResp [.callOnClose 1, .getData, .callOnClose 2])).close
    (fun _ => false) (Response.run demo demoResp [.callOnClose 1, .getData, .callOnClose 2])).1 = [1, 2] := by
  decide +kernel

/-- In direct passthrough mode the functions are never called by the server. -/
theorem C53_direct_false (cfg : Cfg) (r : Resp) (ops : List Response.Op) (method : Str) (raises : Cb → Bool)
    (hd : r.direct = true) (h : ¬ Bodyless method (Response.run cfg r ops).code) :
    users ((appIter method (Response.run cfg r ops)).close raises (Response.run cfg r ops)).1 = [] := by
  unfold appIter
  rw [if_neg (fun e => h ((bodyless_iff _ _).mp e)), (run_users cfg ops r).2, hd]
  show users (callAll raises _).1 = []
  cases (Response.run cfg r ops).body.hasClose
  · rfl
  · simp only [if_true, callAll]
    split <;> rfl

example : registered [.callOnClose 1] = [1] ∧
    ¬ Bodyless s%"GET" (Response.run demo { demoResp with direct := true } [.callOnClose 1]).code := by
  refine ⟨rfl, ?_⟩
  show ¬ Bodyless s%"GET" 200
  simp [Bodyless]

/-- A function that raises keeps the later ones from being called. -/
theorem C53_raising_false :
    ∃ (cfg : Cfg) (r : Resp) (ops : List Response.Op) (raises : Cb → Bool), registered ops = [1, 2] ∧
      users ((appIter s%"GET" (Response.run cfg r ops)).close raises (Response.run cfg r ops)).1 = [1] :=
  ⟨demo, demoResp, [.callOnClose 1, .callOnClose 2], fun c => c == .user 1, rfl, by decide +kernel⟩

theorem serve_done (cfg : Cfg) (raises : Cb → Bool) (method : Str) (r : Resp) (n : Nat) :
    Gen.serve cfg raises method r n .done = [] := by
  induction n with
  | zero => rfl
  | succ n ih => simp [Gen.serve, Gen.next, ih]

theorem resume_cons (cfg : Cfg) (raises : Cb → Bool) (r : Resp) (it : AppIter) (x : Item) (rest : List Item) :
    resume cfg raises r it (x :: rest) = (.suspended it rest, []) ∨
      (resume cfg raises r it (x :: rest) = (.done, exitWith raises r) ∧ ∃ e, encodeItem cfg x = .error e) := by
  cases it with
  | raw b => left; simp [resume]
  | closing xs =>
    cases h : encodeItem cfg x with
    | error e => right; simp [resume, h]
    | ok b => left; simp [resume, h]

theorem serve_suspended_full (cfg : Cfg) (raises : Cb → Bool) (method : Str) (r : Resp) (it : AppIter)
    (rest : List Item) (n : Nat) (h : rest.length < n) :
    Gen.serve cfg raises method r n (.suspended it rest) = (Response.close raises r).1 := by
  induction rest generalizing n with
  | nil =>
    obtain ⟨n, rfl⟩ : ∃ m, n = m + 1 := ⟨n - 1, by simp at h; omega⟩
    simp [Gen.serve, Gen.next, resume, serve_done, exitWith]
  | cons x rest ih =>
    obtain ⟨n, rfl⟩ : ∃ m, n = m + 1 := ⟨n - 1, by simp at h; omega⟩
    simp only [Gen.serve, Gen.next]
    rcases resume_cons cfg raises r it x rest with e | ⟨e, _⟩
    · rw [e, ih n (by simp at h; omega)]; rfl
    · rw [e]; simp [serve_done, exitWith]

theorem serve_suspended_part (cfg : Cfg) (raises : Cb → Bool) (method : Str) (r : Resp) (it : AppIter)
    (rest : List Item) (n : Nat) (h : n ≤ rest.length) (he : ∀ x ∈ rest, ∃ b, encodeItem cfg x = .ok b) :
    Gen.serve cfg raises method r n (.suspended it rest) =
      (it.close raises r).1 ++ (Response.close raises r).1 := by
  induction rest generalizing n with
  | nil =>
    obtain rfl : n = 0 := by simpa using h
    rfl
  | cons x rest ih =>
    cases n with
    | zero => rfl
    | succ n =>
      obtain ⟨b, hb⟩ := he x (by simp)
      simp only [Gen.serve, Gen.next]
      have : resume cfg raises r it (x :: rest) = (.suspended it rest, []) := by
        rcases resume_cons cfg raises r it x rest with e | ⟨_, e, he'⟩
        · exact e
        · rw [hb] at he'; cases he'
      rw [this, List.nil_append]
      exact ih n (by simpa using h) (fun y hy => he y (by simp [hy]))

theorem next_fresh (cfg : Cfg) (raises : Cb → Bool) (method : Str) (r : Resp) (it : AppIter)
    (h : appIter method r = it) (n : Nat) :
    Gen.serve cfg raises method r (n + 1) .fresh =
      Gen.serve cfg raises method r (n + 1) (.suspended it it.items) := by
  subst h
  simp only [Gen.serve, Gen.next]

/-- An application whose iterable is read to the end: every registered function is called once,
in order, whatever the mode of the response; also when encoding the body fails. -/
theorem C53_application_partial (cfg : Cfg) (r : Resp) (hr : r.onClose = []) (ops : List Response.Op)
    (method : Str) (n : Nat)
    (hn : (Response.run cfg r ops).body.items.length < n) :
    users (Gen.serve cfg (fun _ => false) method (Response.run cfg r ops) n .fresh) = registered ops := by
  have hu := run_users cfg ops r
  rw [hr] at hu
  obtain ⟨m, rfl⟩ : ∃ m, n = m + 1 := ⟨n - 1, by omega⟩
  rw [next_fresh cfg _ method _ _ rfl, serve_suspended_full, close_users, hu.1]
  · rfl
  · refine Nat.lt_of_le_of_lt ?_ hn
    unfold appIter
    split
    · simp [AppIter.items]
    split <;> simp [AppIter.items]

/-- An application whose iterable is closed after at least one element but before its end: every
registered function is called twice. -/
theorem C53_application_twice_false (cfg : Cfg) (r : Resp) (hr : r.onClose = []) (ops : List Response.Op)
    (hd : r.direct = false) (method : Str) (hb : ¬ Bodyless method (Response.run cfg r ops).code)
    (he : ∀ x ∈ (Response.run cfg r ops).body.items, ∃ b, encodeItem cfg x = .ok b)
    (n : Nat) (h0 : 0 < n) (hn : n ≤ (Response.run cfg r ops).body.items.length) :
    users (Gen.serve cfg (fun _ => false) method (Response.run cfg r ops) n .fresh) =
      registered ops ++ registered ops := by
  have hu := run_users cfg ops r
  rw [hr] at hu
  obtain ⟨m, rfl⟩ : ∃ m, n = m + 1 := ⟨n - 1, by omega⟩
  have hx : appIter method (Response.run cfg r ops) = .closing (Response.run cfg r ops).body.items := by
    unfold appIter
    rw [if_neg (fun e => hb ((bodyless_iff _ _).mp e)), hu.2, hd]; rfl
  rw [next_fresh cfg _ method _ _ hx]
  refine (congrArg users (serve_suspended_part cfg (fun _ => false) method _ _ _ _ hn he)).trans ?_
  rw [users_append]
  show users (Response.close _ _).1 ++ _ = _
  rw [close_users, hu.1]; rfl

example : users (Gen.serve demo (fun _ => false) s%"GET" (Response.run demo demoResp [.callOnClose 1, .callOnClose 2])
      1 .fresh) = [1, 2, 1, 2] ∧
    users (Gen.serve demo (fun _ => false) s%"GET" (Response.run demo demoResp [.callOnClose 1, .callOnClose 2])
      3 .fresh) = [1, 2] := by decide +kernel

/-! ### C73 -/

/-- Calls that replace the body without keeping track of the old one. -/
def Replaces : Response.Op → Bool
  | .setData _ => true
  | .freeze => true
  | _ => false

/-- How often closing the response closes the wrapped iterable. -/
def bodyCount (r : Resp) : Nat := (if r.body.hasClose then 1 else 0) + r.onClose.count .body

theorem bodyCount_make (cfg : Cfg) (r : Resp) : bodyCount (makeSequence cfg r).1 = bodyCount r := by
  unfold makeSequence
  split
  · rfl
  split
  · rfl
  · unfold bodyCount
    show 0 + List.count Cb.body (if r.body.hasClose then r.onClose ++ [Cb.body] else r.onClose) = _
    cases r.body.hasClose
    · simp
    · simp [Nat.add_comm]

theorem bodyCount_ensure (cfg : Cfg) (r : Resp) (m : Bool) : bodyCount (ensureSequence cfg r m).1 = bodyCount r := by
  unfold ensureSequence
  split
  · rename_i h
    cases m
    · rfl
    · unfold bodyCount
      simp only [if_true]
      cases hb : r.body <;> simp_all [Body.hasClose, Body.isSequence]
  split
  · rfl
  split
  · rfl
  · exact bodyCount_make cfg r

theorem bodyCount_step (cfg : Cfg) (r : Resp) (op : Response.Op) (h : Replaces op = false) :
    bodyCount (Response.step cfg r op) = bodyCount r := by
  cases op with
  | setData v => cases h
  | freeze => cases h
  | getData => simp only [Response.step, ensure_fst_getData]; exact bodyCount_ensure cfg r _
  | calcLength => simp only [Response.step, ensure_fst_calc]; exact bodyCount_ensure cfg r _
  | makeSequence => exact bodyCount_make cfg r
  | write v =>
    have he := bodyCount_ensure cfg r true
    simp only [Response.step, write]
    split
    · rename_i e; rw [e] at he; exact he
    · rename_i r' _ e
      rw [e] at he
      have hseq : r'.body.hasClose = false := by
        unfold ensureSequence at e
        split at e
        · cases e; rfl
        split at e
        · cases e
        split at e
        · cases e
        unfold makeSequence at e
        split at e
        · rename_i h1 _ _ h2; exact absurd h2 h1
        split at e
        · cases e
        · cases e; rfl
      rw [← he]
      unfold bodyCount
      rw [hseq]; rfl
  | callOnClose n =>
    unfold bodyCount
    show _ + List.count Cb.body (r.onClose ++ [Cb.user n]) = _
    rw [List.count_append]; rfl
  | setStatus s =>
    simp only [Response.step, setStatus]
    split
    · rfl
    · split <;> rfl
  | setStatusCode n => rfl
  | header op => rfl

/-- Whatever is done with a response short of replacing its body, closing the iterable given to
the server closes the wrapped iterable exactly once. -/
theorem C73_closed_once_partial (cfg : Cfg) (r : Resp) (hr : r.onClose = []) (hb : r.body.hasClose = true)
    (hd : r.direct = false) (ops : List Response.Op) (ho : ∀ op ∈ ops, Replaces op = false) (method : Str) :
    ((appIter method (Response.run cfg r ops)).close (fun _ => false) (Response.run cfg r ops)).1.count .body = 1 := by
  have h1 : bodyCount (Response.run cfg r ops) = 1 := by
    have : bodyCount r = 1 := by simp [bodyCount, hr, hb]
    rw [← this]
    clear this hr hb hd
    induction ops generalizing r with
    | nil => rfl
    | cons op ops ih =>
      show bodyCount (Response.run cfg (Response.step cfg r op) ops) = _
      rw [ih _ (fun o h => ho o (by simp [h])), bodyCount_step cfg r op (ho op (by simp))]
  have hx : ∃ xs, appIter method (Response.run cfg r ops) = .closing xs := by
    unfold appIter
    rw [(run_users cfg ops r).2, hd]
    split <;> exact ⟨_, rfl⟩
  obtain ⟨xs, hx⟩ := hx
  rw [hx]
  show (Response.close _ _).1.count .body = 1
  unfold Response.close
  rw [callAll_quiet, List.count_append]
  unfold bodyCount at h1
  rw [← h1]
  cases (Response.run cfg r ops).body.hasClose <;> simp

example : ∀ op ∈ [Response.Op.callOnClose 1, .getData, .write (.bytes b%"x")], Replaces op = false := by decide

/-- `freeze`, which is meant to keep the response usable, loses the `close` of the iterable;
`set_data` loses it too; `make_sequence` in direct passthrough mode registers it where it is
never called. -/
theorem C73_closed_false :
    (∃ r : Resp, r.body.hasClose = true ∧ r.direct = false ∧
      ((appIter s%"GET" (Response.run demo r [.freeze])).close (fun _ => false) (Response.run demo r [.freeze])).1.count .body = 0) ∧
    (∃ r : Resp, r.body.hasClose = true ∧ r.direct = false ∧
      ((appIter s%"GET" (Response.run demo r [.setData (.bytes b%"x")])).close (fun _ => false)
        (Response.run demo r [.setData (.bytes b%"x")])).1.count .body = 0) ∧
    (∃ r : Resp, r.body.hasClose = true ∧ r.direct = true ∧
      ((appIter s%"GET" (Response.run demo r [.makeSequence])).close (fun _ => false)
        (Response.run demo r [.makeSequence])).1.count .body = 0) :=
  ⟨⟨demoResp, rfl, rfl, by decide +kernel⟩, ⟨demoResp, rfl, rfl, by decide +kernel⟩,
    ⟨{ demoResp with direct := true }, rfl, rfl, by decide +kernel⟩⟩

/-! ### C54 -/

theorem takeWhile_all {α} (p : α → Bool) (a b : List α) (h : ∀ x ∈ a, p x = true) (c : α) (hc : p c = false) :
    (a ++ c :: b).takeWhile p = a := by
  induction a with
  | nil => simp [hc]
  | cons x a ih =>
    rw [List.cons_append, List.takeWhile_cons, if_pos (h x (by simp)), ih (fun y hy => h y (by simp [hy]))]

theorem intStr_nospace (i : Int) : ∀ c ∈ Py.intStr i, Py.isSpace c = false := by
  intro c hc
  cases i with
  | ofNat n => exact Py.isDig_not_space c (Py.natStr_digits n c hc)
  | negSucc n =>
    simp only [Py.intStr, List.mem_cons] at hc
    rcases hc with rfl | hc
    · decide
    · exact Py.isDig_not_space c (Py.natStr_digits _ c hc)

theorem intStr_ne_nil (i : Int) : Py.intStr i ≠ [] := by
  cases i with
  | ofNat n => exact Py.natStr_ne_nil n
  | negSucc n => simp [Py.intStr]

theorem firstWord_intStr (i : Int) (t : Str) : firstWord (Py.intStr i ++ ' ' :: t) = some (Py.intStr i) := by
  have hne := intStr_ne_nil i
  have hns := intStr_nospace i
  unfold firstWord
  obtain ⟨c, cs, e⟩ : ∃ c cs, Py.intStr i = c :: cs := by
    cases h : Py.intStr i with
    | nil => exact absurd h hne
    | cons c cs => exact ⟨c, cs, rfl⟩
  have h1 : Py.lstrip (Py.intStr i ++ ' ' :: t) = Py.intStr i ++ ' ' :: t := by
    rw [e]
    unfold Py.lstrip Py.lstripP
    rw [List.cons_append, List.dropWhile_cons, if_neg]
    rw [hns c (by rw [e]; simp)]; simp
  rw [h1]
  have h2 := takeWhile_all (fun x => !Py.isSpace x) (Py.intStr i) t (fun x hx => by simp [hns x hx]) ' ' (by decide)
  rw [e, List.cons_append] at *
  simp only
  rw [h2]

/-- The first word of the status line is a number equal to the status code. -/
def Coherent (status : Str) (code : Int) : Prop :=
  ∃ w, firstWord status = some w ∧ Py.intOf w = .ok code

theorem coherent_setStatusCode (cfg : Cfg) (r : Resp) (n : Int) :
    Coherent (setStatusCode cfg r n).status (setStatusCode cfg r n).code := by
  unfold setStatusCode Coherent
  refine ⟨Py.intStr n, ?_, Py.intOf_intStr n⟩
  simp only
  split
  · rw [List.append_assoc]; exact firstWord_intStr n _
  · exact firstWord_intStr n _

theorem coherent_setStatus (r : Resp) (s : Str) (hs : ∃ c ∈ s, Py.isSpace c = false) :
    Coherent (setStatus r s).1.status (setStatus r s).1.code := by
  unfold setStatus
  split
  · rename_i h
    exfalso
    unfold firstWord at h
    split at h
    · rename_i h0
      obtain ⟨c, hc, hcs⟩ := hs
      unfold Py.lstrip Py.lstripP at h0
      have h3 := List.takeWhile_append_dropWhile (p := Py.isSpace) (l := s)
      rw [h0, List.append_nil] at h3
      rw [← h3] at hc
      have := List.all_takeWhile (p := Py.isSpace) (l := s)
      rw [List.all_eq_true] at this
      rw [this c hc] at hcs; cases hcs
    · cases h
  · rename_i w hw
    split
    · rename_i n hn
      exact ⟨w, hw, hn⟩
    · refine ⟨s%"0", ?_, show Py.intOf s%"0" = .ok 0 by decide +kernel⟩
      have := firstWord_intStr 0 s
      rw [show Py.intStr 0 = s%"0" from by decide +kernel] at this
      exact this

theorem status_step (cfg : Cfg) (r : Resp) (op : Response.Op) :
    ((Response.step cfg r op).status = r.status ∧ (Response.step cfg r op).code = r.code) ∨
      (∃ s, op = .setStatus s) ∨ ∃ n, op = .setStatusCode n := by
  cases op with
  | setData v => left; simp only [Response.step, setData]; split <;> exact ⟨rfl, rfl⟩
  | getData =>
    left; simp only [Response.step, ensure_fst_getData]
    exact (ensure_fields cfg r false).2.2
  | calcLength =>
    left; simp only [Response.step, ensure_fst_calc]
    exact (ensure_fields cfg r false).2.2
  | makeSequence => left; exact (makeSequence_fields cfg r).2.2
  | freeze => left; simp only [Response.step, freeze]; split <;> exact ⟨rfl, rfl⟩
  | write v => left; exact (write_fields cfg r v).2.2
  | callOnClose n => left; exact ⟨rfl, rfl⟩
  | setStatus s => right; left; exact ⟨s, rfl⟩
  | setStatusCode n => right; right; exact ⟨n, rfl⟩
  | header op => left; exact ⟨rfl, rfl⟩

/-- After every history, the number at the start of the status line is the status code.  Missing:
blank status lines are never assigned. -/
theorem C54_coherent_partial (cfg : Cfg) (headers : HList) (ct : Option Str) (code : Int) (direct : Bool)
    (b : Init) (r : Resp) (hr : Response.init cfg headers ct code direct b = .ok r) (ops : List Response.Op)
    (ho : ∀ s, Response.Op.setStatus s ∈ ops → ∃ c ∈ s, Py.isSpace c = false) :
    Coherent (Response.run cfg r ops).status (Response.run cfg r ops).code := by
  have h0 : Coherent r.status r.code := by
    unfold Response.init at hr
    cases b with
    | none => cases hr; exact coherent_setStatusCode cfg ⟨[], [], 0, .list [], [], direct⟩ code
    | body bd =>
      cases hr
      exact coherent_setStatusCode cfg ⟨[], [], 0, .list [], [], direct⟩ code
    | data v =>
      simp only at hr
      split at hr
      · rename_i e
        cases hr
        unfold setData at e
        split at e
        · cases e
        · cases e; exact coherent_setStatusCode cfg ⟨[], [], 0, .list [], [], direct⟩ code
      · cases hr
  clear hr
  induction ops generalizing r with
  | nil => exact h0
  | cons op ops ih =>
    apply ih
    · exact fun s hs => ho s (by simp [hs])
    · rcases status_step cfg r op with ⟨h1, h2⟩ | ⟨s, rfl⟩ | ⟨n, rfl⟩
      · rw [h1, h2]; exact h0
      · exact coherent_setStatus r s (ho s (by simp))
      · exact coherent_setStatusCode cfg r n

/-- A status line as it should be assigned: a decimal number first, or no number at all. -/
def Canonical (s : Str) : Prop :=
  ∀ w, firstWord s = some w → ∀ n, Py.intOf w = .ok n → Py.intStr n <+: s

/-- With such lines only, the status line starts with the decimal status code.  An assignment
that raises (a blank line) leaves the response incoherent and is excluded. -/
theorem C54_prefix_partial (cfg : Cfg) (headers : HList) (ct : Option Str) (code : Int) (direct : Bool)
    (b : Init) (r : Resp) (hr : Response.init cfg headers ct code direct b = .ok r) (ops : List Response.Op)
    (ho : ∀ s, Response.Op.setStatus s ∈ ops → Canonical s ∧ ∃ c ∈ s, Py.isSpace c = false) :
    Py.intStr (Response.run cfg r ops).code <+: (Response.run cfg r ops).status := by
  have hp : ∀ (r : Resp) n, Py.intStr (setStatusCode cfg r n).code <+: (setStatusCode cfg r n).status := by
    intro r n
    unfold setStatusCode
    simp only
    split
    · rw [List.append_assoc]; exact List.prefix_append _ _
    · exact List.prefix_append _ _
  have h0 : Py.intStr r.code <+: r.status := by
    unfold Response.init at hr
    cases b with
    | none => cases hr; exact hp ⟨[], [], 0, .list [], [], direct⟩ code
    | body bd => cases hr; exact hp ⟨[], [], 0, .list [], [], direct⟩ code
    | data v =>
      simp only at hr
      split at hr
      · rename_i e
        cases hr
        unfold setData at e
        split at e
        · cases e
        · cases e; exact hp ⟨[], [], 0, .list [], [], direct⟩ code
      · cases hr
  clear hr
  induction ops generalizing r with
  | nil => exact h0
  | cons op ops ih =>
    apply ih
    · exact fun s hs => ho s (by simp [hs])
    · rcases status_step cfg r op with ⟨h1, h2⟩ | ⟨s, rfl⟩ | ⟨n, rfl⟩
      · rw [h1, h2]; exact h0
      · obtain ⟨hc, hne⟩ := ho s (by simp)
        have hcoh := coherent_setStatus r s hne
        simp only [Response.step]
        unfold setStatus at hcoh ⊢
        split
        · rename_i h
          simp only [h] at hcoh
          obtain ⟨w, hw, _⟩ := hcoh
          simp only [h] at hw; cases hw
        · rename_i w hw
          split
          · rename_i n hn; exact hc w hw n hn
          · show Py.intStr 0 <+: _
            rw [show Py.intStr 0 = s%"0" from by decide +kernel]
            exact List.prefix_append s%"0" (' ' :: s)
      · exact hp r n

example : Canonical s%"404 NOT FOUND" ∧ Canonical s%"WOW" := by
  constructor
  · intro w hw n hn
    have h1 : firstWord s%"404 NOT FOUND" = some s%"404" := by decide +kernel
    rw [h1] at hw; cases hw
    have h2 : Py.intOf s%"404" = .ok 404 := by decide +kernel
    rw [h2] at hn; cases hn
    have h3 : Py.intStr 404 = s%"404" := by decide +kernel
    rw [h3]; exact List.prefix_append s%"404" s%" NOT FOUND"
  · intro w hw n hn
    have h1 : firstWord s%"WOW" = some s%"WOW" := by decide +kernel
    rw [h1] at hw; cases hw
    have h2 : Py.intOf s%"WOW" = .error .valueError := by decide +kernel
    rw [h2] at hn; cases hn

/-- A padded number, leading white space and a blank line all break the claim. -/
theorem C54_prefix_false :
    (let r := Response.run demo demoResp [.setStatus s%"007 X"]; r.code = 7 ∧ r.status = s%"007 X") ∧
    (let r := Response.run demo demoResp [.setStatus s%" 404 X"]; r.code = 404 ∧ r.status = s%" 404 X") ∧
    (let r := Response.run demo demoResp [.setStatus s%" "]; r.code = 200 ∧ r.status = s%" ") := by
  decide +kernel

end Verif.Props.Resp
