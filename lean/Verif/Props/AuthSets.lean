import Verif.Model.AuthSets
import Verif.Props.DescriptorViews
/-! Property theorems C154: the set-valued parameters of challenges and credentials. -/
namespace Verif.Props.AuthSetsP
open Verif Verif.Headers Verif.Spec Verif.AuthSets Verif.Quote Verif.Props.Desc Verif.Props.Resp

/-- Names that survive being written into a parameter: not empty and not quoted at both ends. -/
def Item (x : Str) : Prop := x ≠ [] ∧ ¬ (x.head? = some '"' ∧ x.getLast? = some '"')

theorem parse_item (xs : List Str) (hx : ∀ x ∈ xs, Item x) : parseListHeader (dumpHeaderList xs) = xs := by
  rw [C03_list_roundtrip_partial]
  refine ⟨fun v hv => (hx v hv).2, ?_⟩
  rintro ⟨rfl, _⟩
  exact (hx [] (by simp)).1 rfl

/-- One call keeps the parameter and the set together. -/
theorem live_step (lower : Str → Str) (name : Str) (w : Auth.WWW) (s : HeaderSet.HS) (op : HeaderSet.Op)
    (hnd : (Dict.keys w).Nodup) (hv : view lower w name = s) (hc : HSet.Coherent lower s)
    (hi : ∀ x ∈ s.headers, Item x) (hs : HSet.SafeCall lower op) (ha : ∀ x ∈ addedNames op, Item x) :
    let r := wwwCall lower name (w, s) op
    view lower r.1 name = r.2 ∧ HSet.Coherent lower r.2 ∧ (∀ x ∈ r.2.headers, Item x) ∧
      (Dict.keys r.1).Nodup ∧ ∀ k, k ≠ name → Dict.get r.1 k = Dict.get w k := by
  have hc' := HSet.coherent_step lower s op hs hc
  have hi' : ∀ x ∈ (HeaderSet.step lower s op).headers, Item x := by
    intro x hx
    rcases headers_step lower s op x hx with h | h
    · exact hi x h
    · exact ha x h
  simp only [wwwCall]
  cases hn : HeaderSet.notifies lower s op with
  | false =>
    simp only [Bool.false_eq_true, if_false]
    exact ⟨by rw [silent_step lower s op hc hn]; exact hv, hc', hi', hnd, fun _ _ => trivial⟩
  | true =>
    simp only [if_true]
    obtain ⟨s', hs'⟩ : ∃ s', s' = HeaderSet.step lower s op := ⟨_, rfl⟩
    rw [← hs'] at hc' hi' ⊢
    have hlen : HeaderSet.len s' = s'.headers.length := by
      unfold HeaderSet.len; rw [hc'.1, List.length_map]
    have hinit := init_coherent lower s' hc'
    unfold wwwUpdate
    rw [hlen]
    by_cases he : s'.headers = []
    · rw [if_pos (by simp [he])]
      have hempty : HeaderSet.init lower [] = s' := by rw [← hinit, he]
      by_cases hcn : Dict.has w name = true
      · simp only [hcn, if_true]
        refine ⟨?_, hc', hi', Dict.nodup_del hnd name, fun k hk => by rw [Dict.get_del hnd, if_neg hk]⟩
        unfold view Auth.getProp
        rw [Dict.get_del hnd, if_pos rfl]
        exact hempty
      · rw [if_neg hcn]
        refine ⟨?_, hc', hi', hnd, fun _ _ => rfl⟩
        unfold view Auth.getProp
        have : Dict.get w name = none := by
          unfold Dict.has at hcn
          simpa using hcn
        rw [this]
        exact hempty
    · rw [if_neg (by simpa using he)]
      have hto : HeaderSet.toHeader s' = dumpHeaderList s'.headers := rfl
      rw [hto]
      refine ⟨?_, hc', hi', Dict.nodup_set hnd name _, fun k hk => by rw [Dict.get_set, if_neg hk]⟩
      unfold view Auth.getProp
      rw [Dict.get_set, if_pos rfl]
      simp only [Option.join_some, Option.getD_some]
      rw [parse_item _ hi']
      exact hinit

theorem live_run (lower : Str → Str) (name : Str) (ops : List HeaderSet.Op) :
    ∀ (w : Auth.WWW) (s : HeaderSet.HS), (Dict.keys w).Nodup → view lower w name = s →
    HSet.Coherent lower s → (∀ x ∈ s.headers, Item x) →
    (∀ op ∈ ops, HSet.SafeCall lower op ∧ ∀ x ∈ addedNames op, Item x) →
    let r := ops.foldl (wwwCall lower name) (w, s)
    view lower r.1 name = r.2 ∧ r.2 = HeaderSet.run lower s ops ∧ (Dict.keys r.1).Nodup ∧
      ∀ k, k ≠ name → Dict.get r.1 k = Dict.get w k := by
  induction ops with
  | nil => intro w s hnd hv _ _ _; exact ⟨hv, rfl, hnd, fun _ _ => rfl⟩
  | cons op ops ih =>
    intro w s hnd hv hc hi ho
    obtain ⟨hs, ha⟩ := ho op (by simp)
    obtain ⟨h1, h2, h3, h4, h5⟩ := live_step lower name w s op hnd hv hc hi hs ha
    obtain ⟨i1, i2, i3, i4⟩ := ih _ _ h4 h1 h2 h3 (fun o h => ho o (by simp [h]))
    exact ⟨i1, i2, i3, fun k hk => (i4 k hk).trans (h5 k hk)⟩

/-- C154.  Whatever is done to the set obtained from `qop` or `domain` of a challenge (adding,
updating, clearing, deleting by position, and removing or discarding names given in lower case),
reading the parameter again gives the same set, and the other parameters of the challenge keep their
values.  The names at first are distinct up to case.  (Missing: removal with an argument that is not
in lower case, where the claim is false, and assignment by position.) -/
theorem C154_challenge_partial (lower : Str → Str) (name : Str) (w : Auth.WWW) (hnd : (Dict.keys w).Nodup)
    (hd : ((view lower w name).headers.map lower).Nodup)
    (hi : ∀ x ∈ (view lower w name).headers, Item x) (ops : List HeaderSet.Op)
    (ho : ∀ op ∈ ops, HSet.SafeCall lower op ∧ ∀ x ∈ addedNames op, Item x) :
    let r := ops.foldl (wwwCall lower name) (w, view lower w name)
    view lower r.1 name = r.2 ∧ r.2 = HeaderSet.run lower (view lower w name) ops ∧
      ∀ k, k ≠ name → Dict.get r.1 k = Dict.get w k := by
  obtain ⟨h1, h2, _, h4⟩ := live_run lower name ops w _ hnd rfl (HSet.coherent_init lower _ hd) hi ho
  exact ⟨h1, h2, h4⟩

/-- A digest challenge. -/
def digest : Auth.WWW := Auth.setDigest s%"r" s%"n" [s%"auth"] none none false

example : ([.add s%"auth-int", .remove s%"auth"].foldl (wwwCall asciiLower s%"qop")
    (digest, view asciiLower digest s%"qop")).1 =
    Auth.setDigest s%"r" s%"n" [s%"auth-int"] none none false := by decide +kernel
example : (Dict.keys digest).Nodup ∧ Item s%"auth-int" ∧
    ((view asciiLower digest s%"qop").headers.map asciiLower).Nodup :=
  ⟨by decide +kernel, ⟨by decide, by decide⟩, by decide +kernel⟩

/-- C154 (refutation).  Removing a name with a capital letter leaves it in the challenge. -/
theorem C154_remove_false :
    let w := Auth.setDigest s%"r" s%"n" [s%"Auth", s%"auth-int"] none none false
    let r := wwwCall asciiLower s%"qop" (w, view asciiLower w s%"qop") (.remove s%"Auth")
    HeaderSet.contains asciiLower r.2 s%"Auth" = false ∧ r.1 = w ∧
      HeaderSet.contains asciiLower (view asciiLower r.1 s%"qop") s%"Auth" = true := by decide +kernel

theorem mem_init (lower : Str → Str) (l : List Str) (x : Str) (hx : x ∈ l) :
    lower x ∈ (HeaderSet.init lower l).set := by
  have : ∀ (l acc : List Str), (lower x ∈ acc ∨ x ∈ l) →
      lower x ∈ l.foldl (fun s x => HeaderSet.setAdd s (lower x)) acc := by
    intro l
    induction l with
    | nil => intro acc h; simpa using h
    | cons a as ih =>
      intro acc h
      rw [List.foldl_cons]
      apply ih
      rcases h with h | h
      · left
        unfold HeaderSet.setAdd
        split
        · exact h
        · simp [h]
      · rcases List.mem_cons.mp h with rfl | h
        · left
          unfold HeaderSet.setAdd
          split
          · rename_i hc; simpa using hc
          · simp
        · exact Or.inr h
  exact this l [] (Or.inr hx)

theorem silent_init (lower : Str → Str) (l : List Str) (op : HeaderSet.Op)
    (hn : HeaderSet.notifies lower (HeaderSet.init lower l) op = false) :
    HeaderSet.step lower (HeaderSet.init lower l) op = HeaderSet.init lower l := by
  by_cases hd : ∃ i, op = .delIdx i
  · obtain ⟨i, rfl⟩ := hd
    simp only [HeaderSet.notifies, HeaderSet.delIdx] at hn
    simp only [HeaderSet.step, HeaderSet.delIdx]
    split at hn
    · rfl
    · rename_i rv hi
      split at hn
      · simp [Except.toOption] at hn
      · rename_i hx
        exfalso
        apply hx
        rw [List.contains_iff_mem]
        exact mem_init lower l rv (List.mem_of_getElem? hi)
  · exact C66_notified_on_change lower _ op hn (fun i hi => hd ⟨i, hi⟩)

/-- C154.  The set obtained from the `qop` of credentials is for reading: a call on it that ends
without an error has not changed it, so that reading `qop` again gives the same set; a call that
changes the names it lists raises `TypeError`. -/
theorem C154_credentials (lower : Str → Str) (a : Auth.Authorization) (op : HeaderSet.Op) :
    let s := view lower a.data s%"qop"
    let r := credCall lower a s op
    (r.2 = .ok () → r.1 = s) ∧ (r.1.headers ≠ s.headers → r.2 = .error .typeError) := by
  intro s r
  have hsil : HeaderSet.notifies lower s op = false → r.1 = s := fun h => silent_init lower _ op h
  have hok : r.2 = .ok () → r.1 = s := by
    intro h
    cases hn : HeaderSet.notifies lower s op with
    | false => exact hsil hn
    | true =>
      have h' : credUpdate a (HeaderSet.step lower s op) = .ok () := by
        have : (if HeaderSet.notifies lower s op then credUpdate a (HeaderSet.step lower s op)
          else plainOutcome lower s op) = .ok () := h
        rwa [hn, if_pos rfl] at this
      unfold credUpdate at h'
      by_cases hl : HeaderSet.len (HeaderSet.step lower s op) = 0
      · rw [if_pos hl] at h'
        by_cases hq : Dict.has a.data s%"qop" = true
        · rw [if_pos hq] at h'; cases h'
        · have hs : s = ⟨[], []⟩ := by
            have : Dict.get a.data s%"qop" = none := by
              unfold Dict.has at hq
              simpa using hq
            show view lower a.data s%"qop" = _
            unfold view Auth.getProp
            rw [this]
            rfl
          show HeaderSet.step lower s op = s
          rw [hs] at hl ⊢
          rw [hs] at hn
          cases op with
          | add x => simp [HeaderSet.step, HeaderSet.update, HeaderSet.updateOne, HeaderSet.setAdd, HeaderSet.len] at hl
          | remove x => simp [HeaderSet.notifies, HeaderSet.remove, Except.toOption] at hn
          | discard x => simp [HeaderSet.notifies, HeaderSet.remove, Except.toOption] at hn
          | update xs =>
            have hgrow : ∀ (xs : List Str) (t : HeaderSet.HS × Bool), (t.2 = true → t.1.set ≠ []) →
                (xs.foldl (HeaderSet.updateOne lower) t).2 = true →
                (xs.foldl (HeaderSet.updateOne lower) t).1.set ≠ [] := by
              intro xs
              induction xs with
              | nil => intro t h; exact h
              | cons x xs ih =>
                intro t h
                rw [List.foldl_cons]
                apply ih
                unfold HeaderSet.updateOne
                split
                · exact h
                · intro _
                  simp only [HeaderSet.setAdd]
                  split
                  · rename_i hc
                    intro he
                    rw [he] at hc
                    simp at hc
                  · simp
            exact absurd (List.eq_nil_of_length_eq_zero hl) (hgrow xs (⟨[], []⟩, false) (by simp) hn)
          | delIdx i => simp [HeaderSet.notifies, HeaderSet.delIdx, Except.toOption] at hn
          | setIdx i v => simp [HeaderSet.notifies, HeaderSet.setIdx, Except.toOption] at hn
          | clear => rfl
      · rw [if_neg hl] at h'; cases h'
  refine ⟨hok, fun hne => ?_⟩
  cases hn : HeaderSet.notifies lower s op with
  | false => exact absurd (congrArg HeaderSet.HS.headers (hsil hn)) hne
  | true =>
    have hr : r.2 = credUpdate a (HeaderSet.step lower s op) := by
      show (if HeaderSet.notifies lower s op then credUpdate a (HeaderSet.step lower s op)
          else plainOutcome lower s op) = _
      rw [hn, if_pos rfl]
    cases hc : credUpdate a (HeaderSet.step lower s op) with
    | ok u => exact absurd (congrArg HeaderSet.HS.headers (hok (hr.trans hc))) hne
    | error e =>
      rw [hr, hc]
      unfold credUpdate at hc
      split at hc
      · split at hc
        · cases hc; rfl
        · cases hc
      · cases hc; rfl

/-- Digest credentials with `qop`. -/
def creds : Auth.Authorization := ⟨s%"digest", [(s%"username", some s%"u"), (s%"qop", some s%"auth")]⟩

example : (credCall asciiLower creds (view asciiLower creds.data s%"qop") (.add s%"AUTH")) =
    (view asciiLower creds.data s%"qop", .ok ()) ∧
    (credCall asciiLower creds (view asciiLower creds.data s%"qop") (.remove s%"x")).2 = .error .keyError :=
  ⟨by decide +kernel, by rfl⟩

/-- C154 (refutation).  A change of the `qop` of credentials that is refused has taken place in
the set: the set then differs from the credentials. -/
theorem C154_refused_false :
    let s := view asciiLower creds.data s%"qop"
    let r := credCall asciiLower creds s (.add s%"auth-int")
    r.2 = .error .typeError ∧ s.headers = [s%"auth"] ∧ r.1.headers = [s%"auth", s%"auth-int"] :=
  ⟨by rfl, by decide +kernel, by decide +kernel⟩

/-! ### Challenges of responses -/

/-- Names made of the characters of RFC 7230 tokens. -/
def Word (x : Str) : Prop :=
  x ≠ [] ∧ ∀ c ∈ x, c ∈ s%"!#$%&'*+-.0123456789ABCDEFGHIJKLMNOPQRSTUVWXYZ^_`abcdefghijklmnopqrstuvwxyz|~"

theorem word_ne (x : Str) (h : Word x) (c : Char) (hc : c ∈ x) : c ≠ '"' ∧ c ≠ '\n' ∧ c ≠ '\r' := by
  have := h.2 c hc
  refine ⟨?_, ?_, ?_⟩ <;> (rintro rfl; revert this; decide)

theorem word_item (x : Str) (h : Word x) : Item x := by
  refine ⟨h.1, fun hq => ?_⟩
  have : '"' ∈ x := List.mem_of_mem_head? (by rw [hq.1]; rfl)
  exact (word_ne x h _ this).1 rfl

theorem mem_join (sep : Str) (l : List Str) (c : Char) (h : c ∈ Py.join sep l) : c ∈ sep ∨ ∃ x ∈ l, c ∈ x := by
  induction l with
  | nil => simp [Py.join] at h
  | cons a as ih =>
    cases as with
    | nil => exact Or.inr ⟨a, by simp, by simpa [Py.join] using h⟩
    | cons b bs =>
      rw [Py.join] at h
      · simp only [List.mem_append] at h
        rcases h with (h | h) | h
        · exact Or.inr ⟨a, by simp, h⟩
        · exact Or.inl h
        · rcases ih h with h | ⟨x, hx, hc⟩
          · exact Or.inl h
          · exact Or.inr ⟨x, by simp [List.mem_cons.mp hx], hc⟩
      all_goals simp

theorem words_plain (xs : List Str) (hx : ∀ x ∈ xs, Word x) (c : Char) (hc : c ∈ dumpHeaderList xs) :
    c ≠ '"' ∧ c ≠ '\n' ∧ c ≠ '\r' := by
  rcases mem_join _ _ c hc with h | ⟨y, hy, hcy⟩
  · have : c = ',' ∨ c = ' ' := by simpa using h
    rcases this with rfl | rfl <;> decide
  · obtain ⟨x, hxm, rfl⟩ := List.mem_map.mp hy
    have hw := hx x hxm
    have : quoteHeaderValue x = x := by
      unfold quoteHeaderValue
      rw [if_pos]
      rw [Bool.true_and, List.all_eq_true]
      intro d hd
      rw [Bool.or_eq_true]
      left
      rw [List.contains_iff_mem]
      exact hw.2 d hd
    rw [this] at hcy
    exact word_ne x hw c hcy

/-- What a history leaves in the parameter: what was there, nothing, or a list of words. -/
theorem value_run (lower : Str → Str) (name : Str) (ops : List HeaderSet.Op) :
    ∀ (w : Auth.WWW) (s : HeaderSet.HS), (Dict.keys w).Nodup → (∀ x ∈ s.headers, Word x) →
    (∀ op ∈ ops, ∀ x ∈ addedNames op, Word x) →
    let r := ops.foldl (wwwCall lower name) (w, s)
    Dict.get r.1 name = Dict.get w name ∨ Dict.get r.1 name = none ∨
      ∃ xs, (∀ x ∈ xs, Word x) ∧ Dict.get r.1 name = some (some (dumpHeaderList xs)) := by
  induction ops with
  | nil => intro w s _ _ _; exact Or.inl rfl
  | cons op ops ih =>
    intro w s hnd hi ho
    have hi' : ∀ x ∈ (HeaderSet.step lower s op).headers, Word x := by
      intro x hx
      rcases headers_step lower s op x hx with h | h
      · exact hi x h
      · exact ho op (by simp) x h
    have hone : (Dict.keys (wwwCall lower name (w, s) op).1).Nodup ∧
        (Dict.get (wwwCall lower name (w, s) op).1 name = Dict.get w name ∨
          Dict.get (wwwCall lower name (w, s) op).1 name = none ∨
          ∃ xs, (∀ x ∈ xs, Word x) ∧
            Dict.get (wwwCall lower name (w, s) op).1 name = some (some (dumpHeaderList xs))) := by
      simp only [wwwCall]
      split
      · unfold wwwUpdate
        split
        · split
          · exact ⟨Dict.nodup_del hnd name, Or.inr (Or.inl (by rw [Dict.get_del hnd, if_pos rfl]))⟩
          · exact ⟨hnd, Or.inl rfl⟩
        · exact ⟨Dict.nodup_set hnd name _, Or.inr (Or.inr ⟨_, hi', by rw [Dict.get_set, if_pos rfl]; rfl⟩)⟩
      · exact ⟨hnd, Or.inl rfl⟩
    have hrest := ih _ (HeaderSet.step lower s op) hone.1 hi' (fun o h => ho o (by simp [h]))
    rcases hrest with h | h | h
    · rcases hone.2 with g | g | ⟨xs, gx, g⟩
      · exact Or.inl (h.trans g)
      · exact Or.inr (Or.inl (h.trans g))
      · exact Or.inr (Or.inr ⟨xs, gx, h.trans g⟩)
    · exact Or.inr (Or.inl h)
    · exact Or.inr (Or.inr h)

/-- C154.  The same through a response: after a history of calls on a set-valued parameter of the
challenge of a response, reading the challenge and the parameter from the header it is written to
gives the same set, every other parameter and the other headers are as before.  The names are tokens.
(Missing: names that need quotes, where the claim is false, and what is missing above.) -/
theorem C154_response_partial (lower title : Str → Str) (hn : Names lower) (h : HList) (w : Auth.WWW) (t name : Str)
    (hname : name ≠ s%"__auth_type__" ∧ name ≠ [] ∧ LegalValue name ∧
      (∀ c ∈ name, c ≠ ',' ∧ c ≠ '"' ∧ c ≠ '=') ∧ Py.strip name = name)
    (hnd : (Dict.keys w).Nodup)
    (ht : Dict.get w s%"__auth_type__" = some (some t)) (ht0 : t ≠ []) (htl : lower (title t) = t)
    (htt : title t ≠ [] ∧ ∀ c ∈ title t, Py.isSpace c = false)
    (hw : ∀ k v, (k, v) ∈ w → k ≠ s%"__auth_type__" →
      (k ≠ [] ∧ (∀ c ∈ k, c ≠ ',' ∧ c ≠ '"' ∧ c ≠ '=') ∧ Py.strip k = k) ∧
      ∃ s, v = some s ∧ ¬ (s.head? = some '"' ∧ s.getLast? = some '"'))
    (hl : ∀ k v, (k, v) ∈ w → LegalValue k ∧ ∀ s, v = some s → LegalValue s)
    (hd : ((view lower w name).headers.map lower).Nodup)
    (hi : ∀ x ∈ (view lower w name).headers, Word x) (ops : List HeaderSet.Op)
    (ho : ∀ op ∈ ops, HSet.SafeCall lower op ∧ ∀ x ∈ addedNames op, Word x) :
    let r := ops.foldl (wwwCall lower name) (w, view lower w name)
    let g := Desc.wwwUpdate lower title h r.1
    g.2 = .ok () ∧ view lower (Desc.wwwView lower g.1) name = HeaderSet.run lower (view lower w name) ops ∧
      (∀ k, k ≠ name → Dict.get (Desc.wwwView lower g.1) k = Dict.get w k) ∧
      SameOthers lower s%"WWW-Authenticate" h g.1 := by
  obtain ⟨h1, h2, h3, h4⟩ := live_run lower name ops w _ hnd rfl (HSet.coherent_init lower _ hd)
    (fun x hx => word_item x (hi x hx)) (fun op hop => ⟨(ho op hop).1, fun x hx => word_item x ((ho op hop).2 x hx)⟩)
  have h5 := value_run lower name ops w _ hnd hi (fun op hop => (ho op hop).2)
  intro r g
  have hmem : ∀ k v, (k, v) ∈ r.1 → (k, v) ∈ w ∨
      (k = name ∧ ∃ xs, (∀ x ∈ xs, Word x) ∧ v = some (dumpHeaderList xs)) := by
    intro k v hkv
    have hg : Dict.get r.1 k = some v := Dict.get_of_mem h3 hkv
    by_cases hk : k = name
    · subst hk
      rcases h5 with h5 | h5 | ⟨xs, hx, h5⟩
      · exact Or.inl (Dict.mem_of_get (h5.symm.trans hg))
      · exact absurd (hg.symm.trans h5) (by intro hx; cases hx)
      · exact Or.inr ⟨rfl, xs, hx, by simpa using hg.symm.trans h5⟩
    · exact Or.inl (Dict.mem_of_get ((h4 k hk).symm.trans hg))
  obtain ⟨c1, c2, c3⟩ := C87_live_partial lower title hn h r.1 t h3
    ((h4 _ (Ne.symm hname.1)).trans ht) ht0 htl htt
    (by
      intro k v hkv hk
      rcases hmem k v hkv with hm | ⟨rfl, xs, hx, rfl⟩
      · exact hw k v hm hk
      · refine ⟨⟨hname.2.1, hname.2.2.2.1, hname.2.2.2.2⟩, _, rfl, fun hq => ?_⟩
        have : '"' ∈ dumpHeaderList xs := List.mem_of_mem_head? (by rw [hq.1]; rfl)
        exact (words_plain xs hx _ this).1 rfl)
    (by
      intro k v hkv
      rcases hmem k v hkv with hm | ⟨rfl, xs, hx, rfl⟩
      · exact hl k v hm
      · refine ⟨hname.2.2.1, fun s hs => ?_⟩
        cases hs
        exact ⟨fun hc => (words_plain xs hx _ hc).2.1 rfl, fun hc => (words_plain xs hx _ hc).2.2 rfl⟩)
  refine ⟨c1, ?_, fun k hk => (c2 k).trans (h4 k hk), c3⟩
  have hv : view lower (Desc.wwwView lower g.1) name = view lower r.1 name := by
    unfold view Auth.getProp
    rw [c2]
  exact hv.trans (h1.trans h2)

example : (Desc.wwwUpdate asciiLower (fun _ => s%"Digest") []
    ([.add s%"auth-int"].foldl (wwwCall asciiLower s%"qop") (digest, view asciiLower digest s%"qop")).1).1 =
    [(s%"WWW-Authenticate", s%"Digest realm=\"r\", nonce=\"n\", qop=\"auth, auth-int\"")] := by decide +kernel
example : Word s%"auth-int" ∧ Dict.get digest s%"__auth_type__" = some (some s%"digest") :=
  ⟨⟨by decide, by decide⟩, by decide +kernel⟩

/-- C154 (refutation).  Two paths added to the `domain` of the challenge of a response are read
back as one name that was never added. -/
theorem C154_domain_false :
    let r := [.add s%"/a", .add s%"/b"].foldl (wwwCall asciiLower s%"domain")
      (digest, view asciiLower digest s%"domain")
    let g := (Desc.wwwUpdate asciiLower (fun _ => s%"Digest") [] r.1).1
    r.2.headers = [s%"/a", s%"/b"] ∧
    g = [(s%"WWW-Authenticate",
      s%"Digest realm=\"r\", nonce=\"n\", qop=\"auth\", domain=\"\\\"/a\\\", \\\"/b\\\"\"")] ∧
    (view asciiLower (Desc.wwwView asciiLower g) s%"domain").headers = [s%"/a\", \"/b"] :=
  ⟨by decide +kernel, by decide +kernel, by decide +kernel⟩

end Verif.Props.AuthSetsP
