import Verif.HeadersLemmas
/-! Property theorems C06-C09 and C64: the `Headers` object. -/
namespace Verif.Props
open Verif Verif.Headers Verif.Spec

/-- The ASCII part of `str.lower`, for the examples. -/
def asciiLower (s : Str) : Str := s.map Char.toLower

/-! ### C06 -/

theorem C06_step (lower : Str → Str) (l : HList) (op : Op) (h : ∀ p ∈ l, LegalValue p.2) :
    ∀ p ∈ step lower l op, LegalValue p.2 := by
  have hset : ∀ k v kw, ∀ p ∈ (set lower l k v kw).1, LegalValue p.2 := by
    intro k v kw p hp
    by_cases hv : LegalValue (effValue v kw)
    · rcases set_legal lower l k v kw hv with ⟨_, e⟩ | ⟨pre, q, post, e, _, _, h3⟩
      · rw [e] at hp
        simp only [List.mem_append, List.mem_singleton] at hp
        rcases hp with hp | rfl
        · exact h p hp
        · exact hv
      · rw [h3] at hp
        subst e
        simp only [List.mem_append, List.mem_cons, List.mem_filter] at hp
        rcases hp with hp | rfl | hp
        · exact h p (by simp [hp])
        · exact hv
        · exact h p (by simp [hp.1])
    · rw [set_illegal lower l k v kw hv] at hp; exact h p hp
  cases op with
  | add k v kw =>
    simp only [step]
    by_cases hv : LegalValue (effValue v kw)
    · rw [add_legal l k v kw hv]
      intro p hp
      simp only [List.mem_append, List.mem_singleton] at hp
      rcases hp with hp | rfl
      · exact h p hp
      · exact hv
    · rw [add_illegal l k v kw hv]; exact h
  | set k v kw => exact hset k v kw
  | setIndex i k v =>
    simp only [step, setIndex, validate_ok]
    by_cases hv : LegalValue v
    · simp only [hv, if_true]
      split
      · intro p hp
        rcases List.mem_or_eq_of_mem_set hp with hp | rfl
        · exact h p hp
        · exact hv
      · exact h
    · simp only [hv, if_false]; exact h
  | setSlice i j ps =>
    simp only [step, setSlice]
    rcases validateAll_ok ps with hv | hv
    · rw [hv]
      intro p hp
      simp only [List.mem_append] at hp
      rcases hp with (hp | hp) | hp
      · exact h p (List.mem_of_mem_take hp)
      · exact (validateAll_iff ps).mp hv p hp
      · exact h p (List.mem_of_mem_drop hp)
    · rw [hv]; exact h
  | delKey k => intro p hp; exact h p (List.mem_filter.mp hp).1
  | delIndex i =>
    simp only [step, delIndex]
    split
    · intro p hp; exact h p (List.mem_of_mem_eraseIdx hp)
    · exact h
  | extend ps =>
    simp only [step, extend_eq]
    intro p hp
    simp only [List.mem_append] at hp
    rcases hp with hp | hp
    · exact h p hp
    · simpa using List.all_eq_true.mp List.all_takeWhile p hp
  | popKey k d =>
    simp only [step, popKey]
    split
    · intro p hp; exact h p (List.mem_filter.mp hp).1
    · split <;> exact h
  | popLast =>
    simp only [step, popLast]
    split
    · intro p hp; exact h p ((List.dropLast_sublist l).subset hp)
    · exact h
  | popIndex i =>
    simp only [step, popIndex]
    split
    · split
      · intro p hp; exact h p (List.mem_of_mem_eraseIdx hp)
      · exact h
    · exact h
  | setdefault k v =>
    simp only [step, setdefault]
    split
    · exact h
    · have := hset k v []
      split <;> (rename_i he; rw [he] at this; exact this)
  | clear => simp [step]

/-- C06.  From an empty `Headers`, after any sequence of public mutating calls with
arbitrary arguments, no stored value contains a line break. -/
theorem C06_no_newlines (lower : Str → Str) (ops : List Op) :
    ∀ p ∈ run lower [] ops, '\n' ∉ p.2 ∧ '\r' ∉ p.2 := by
  have : ∀ l : HList, (∀ p ∈ l, LegalValue p.2) → ∀ p ∈ run lower l ops, LegalValue p.2 := by
    induction ops with
    | nil => intro l h; exact h
    | cons op ops ih => intro l h; exact ih _ (C06_step lower l op h)
  exact this [] (by simp)

example : run asciiLower [] [.add s%"A" s%"1" [], .add s%"b" s%"x\ny" [], .set s%"a" s%"2" []] =
    [(s%"a", s%"2")] := by decide

/-- C06, serialised form: if the names passed in contain no line breaks either, the text
form is exactly one CRLF-terminated line per stored header followed by an empty line:
splitting it at CR or LF shows no other break. -/
theorem C06_one_line_per_header (lower : Str → Str) (ops : List Op)
    (hn : ∀ p ∈ run lower [] ops, '\n' ∉ p.1 ∧ '\r' ∉ p.1) :
    Py.splitOn '\n' (toText (run lower [] ops)) =
      (run lower [] ops).map (fun p => p.1 ++ s%": " ++ p.2 ++ s%"\r") ++ [s%"\r", []] := by
  have hv := C06_no_newlines lower ops
  generalize run lower [] ops = l at hn hv
  unfold toText
  induction l with
  | nil => decide
  | cons p ps ih =>
    have hjoin : Py.join ['\r', '\n'] ((p :: ps).map (fun p => p.1 ++ [':', ' '] ++ p.2) ++ [['\r', '\n']]) =
        (p.1 ++ [':', ' '] ++ p.2 ++ ['\r']) ++ '\n' ::
          Py.join ['\r', '\n'] (ps.map (fun p => p.1 ++ [':', ' '] ++ p.2) ++ [['\r', '\n']]) := by
      cases ps <;> simp [Py.join]
    rw [hjoin, Py.splitOn_append]
    · rw [ih (fun q hq => hn q (by simp [hq])) (fun q hq => hv q (by simp [hq]))]
      simp
    · have a := hn p (by simp)
      have b := hv p (by simp)
      simp [a.1, b.1]

/-- C06 (limits).  Neither names nor values given to the constructor as a list are
checked, so the claim does not extend to them. -/
theorem C06_unchecked_inputs :
    (∃ l, ∃ p ∈ initList l, '\n' ∈ p.2) ∧
    (∃ ops, ∃ p ∈ run asciiLower [] ops, '\n' ∈ p.1) :=
  ⟨⟨[(s%"a", s%"x\ny")], _, by simp [initList]; rfl, by decide⟩,
   ⟨[.add s%"a\nb" s%"x" []], (s%"a\nb", s%"x"), by decide, by decide⟩⟩

/-! ### C07 -/

/-- The API call each abstract call stands for. -/
def NameCall.toOp : NameCall → Op
  | .add k v => .add k v []
  | .set k v => .set k v []
  | .del k => .delKey k
  | .setdefault k v => .setdefault k v
  | .pop k d => .popKey k d
  | .extend ps => .extend ps
  | .clear => .clear

theorem C07_step (lower : Str → Str) (l : HList) (m : MMap) (c : NameCall)
    (h : ∀ k, getlist lower l k = m (lower k)) :
    ∀ k, getlist lower (step lower l (NameCall.toOp c)) k = (m.call lower c) (lower k) := by
  intro x
  cases c with
  | add k v =>
    simp only [NameCall.toOp, step, MMap.call]
    by_cases hv : LegalValue v
    · rw [add_legal l k v [] (by simpa [effValue] using hv)]
      simp only [hv, if_true, MMap.upd, getlist_append, effValue, h]
      by_cases hx : lower x = lower k
      · simp [getlist, hx]
      · have : ¬ lower k = lower x := fun e => hx e.symm
        simp [getlist, hx, this]
    · rw [add_illegal l k v [] (by simpa [effValue] using hv)]
      simp [hv, h]
  | set k v =>
    simp only [NameCall.toOp, step, MMap.call]
    by_cases hv : LegalValue v
    · rw [getlist_set lower l k v x hv]
      simp only [hv, if_true, MMap.upd, h]
    · rw [set_illegal lower l k v [] (by simpa [effValue] using hv)]
      simp [hv, h]
  | del k =>
    simp only [NameCall.toOp, step, MMap.call, getlist_delKey, MMap.upd, h]
  | setdefault k v =>
    simp only [NameCall.toOp, step, MMap.call, setdefault, getItem_eq]
    rw [h k]
    cases hk : m (lower k) with
    | cons a b => simp [h]
    | nil =>
      simp only [List.head?_nil, true_and]
      by_cases hv : LegalValue v
      · have e := getlist_set lower l k v x hv
        rcases set_legal lower l k v [] (by simpa [effValue] using hv) with ⟨_, e2⟩ | ⟨_, _, _, _, _, _, e2⟩ <;>
        · rw [e2] at e ⊢
          simp only [hv, if_true, MMap.upd, ← h]
          exact e
      · rw [set_illegal lower l k v [] (by simpa [effValue] using hv)]
        simp [hv, h]
  | pop k d =>
    simp only [NameCall.toOp, step, MMap.call, popKey, getItem_eq]
    rw [h k]
    cases hk : m (lower k) with
    | cons a b => simp [getlist_delKey, MMap.upd, h]
    | nil =>
      simp only [List.head?_nil]
      have : (m.upd (lower k) []) (lower x) = getlist lower l x := by
        simp only [MMap.upd]; split
        · rename_i e; rw [h, e, hk]
        · exact (h x).symm
      rw [this]; cases d <;> rfl
  | extend ps =>
    simp only [NameCall.toOp, step, MMap.call, extend_eq]
    generalize ps.takeWhile _ = qs
    induction qs generalizing l m with
    | nil => simpa using h x
    | cons q qs ih =>
      have := ih (l ++ [q]) (m.upd (lower q.1) (m (lower q.1) ++ [q.2])) (by
        intro k
        simp only [getlist_append, MMap.upd, h]
        by_cases hx : lower k = lower q.1
        · simp [getlist, hx]
        · have : ¬ lower q.1 = lower k := fun e => hx e.symm
          simp [getlist, hx, this])
      simpa using this
  | clear => simp [NameCall.toOp, step, MMap.call, getlist]

/-- C07.  `Headers` refines a case-insensitive multimap: starting from any header list and
the multimap it denotes, after any history of named calls `getlist` agrees with the
multimap for every name. -/
theorem C07_refines (lower : Str → Str) (l : HList) (m : MMap) (cs : List NameCall)
    (h : ∀ k, getlist lower l k = m (lower k)) :
    ∀ k, getlist lower (run lower l (cs.map NameCall.toOp)) k =
      (cs.foldl (MMap.call lower) m) (lower k) := by
  induction cs generalizing l m with
  | nil => exact h
  | cons c cs ih => exact ih _ _ (C07_step lower l m c h)

/-- C07, empty start. -/
theorem C07_refines_empty (lower : Str → Str) (cs : List NameCall) (k : Str) :
    getlist lower (run lower [] (cs.map NameCall.toOp)) k =
      (cs.foldl (MMap.call lower) (fun _ => [])) (lower k) :=
  C07_refines lower [] (fun _ => []) cs (fun _ => rfl) k

/-- C07, single lookups: `headers[k]`/`get` is the first element of `getlist`, membership
is non-emptiness, and names that differ only by case are indistinguishable. -/
theorem C07_lookups (lower : Str → Str) (l : HList) (k k' : Str) (h : lower k = lower k') :
    Headers.get lower l k = (getlist lower l k).head? ∧
    (contains lower l k = true ↔ getlist lower l k ≠ []) ∧
    getlist lower l k = getlist lower l k' ∧ Headers.get lower l k = Headers.get lower l k' ∧
    contains lower l k = contains lower l k' := by
  have e : getlist lower l k = getlist lower l k' := by rw [getlist_eq, getlist_eq, h]
  refine ⟨getItem_eq lower l k, ?_, e, ?_, ?_⟩
  · unfold contains; rw [getItem_eq]; cases getlist lower l k <;> simp
  · unfold Headers.get; rw [getItem_eq, getItem_eq, e]
  · unfold contains; rw [getItem_eq, getItem_eq, e]

/-- C07, `getlist` reads exactly the stored values whose name matches, in order. -/
theorem C07_getlist_exact (lower : Str → Str) (l : HList) (k : Str) :
    getlist lower l k = (l.filter (fun p => decide (lower p.1 = lower k))).map (·.2) :=
  getlist_eq lower l k

example : getlist asciiLower (run asciiLower [] ([NameCall.add s%"X-A" s%"1", .add s%"x-a" s%"2",
    .set s%"Y" s%"3", .setdefault s%"y" s%"4"].map NameCall.toOp)) s%"X-a" = [s%"1", s%"2"] := by decide

/-! ### C08 -/

/-- C08.  After setting a name to a legal value: either the name was absent and the pair is
appended, or the first old entry is replaced in place, all later entries of that name are
gone, and everything else keeps its order. -/
theorem C08_set_in_place (lower : Str → Str) (l : HList) (k v : Str) (hv : '\n' ∉ v ∧ '\r' ∉ v) :
    ((∀ p ∈ l, lower p.1 ≠ lower k) ∧ (set lower l k v []).1 = l ++ [(k, v)]) ∨
    ∃ pre p post, l = pre ++ p :: post ∧ (∀ q ∈ pre, lower q.1 ≠ lower k) ∧ lower p.1 = lower k ∧
      (set lower l k v []).1 = pre ++ (k, v) :: post.filter (fun t => decide (lower t.1 ≠ lower k)) := by
  rcases set_legal lower l k v [] (by simpa [effValue, LegalValue] using hv) with ⟨h, e⟩ | ⟨pre, p, post, e, h1, h2, h3⟩
  · left; exact ⟨h, by rw [e]; simp [effValue]⟩
  · right; exact ⟨pre, p, post, e, h1, h2, by rw [h3]; simp [effValue]⟩

/-- C08.  Exactly one entry for the name remains, it holds the value, and the entries of
other names are unchanged. -/
theorem C08_set_unique (lower : Str → Str) (l : HList) (k v : Str) (hv : '\n' ∉ v ∧ '\r' ∉ v) :
    (set lower l k v []).1.filter (fun p => decide (lower p.1 = lower k)) = [(k, v)] ∧
    (set lower l k v []).1.filter (fun p => decide (lower p.1 ≠ lower k)) =
      l.filter (fun p => decide (lower p.1 ≠ lower k)) := by
  rcases C08_set_in_place lower l k v hv with ⟨h, e⟩ | ⟨pre, p, post, e, h1, h2, h3⟩
  · rw [e]
    have : l.filter (fun p => decide (lower p.1 = lower k)) = [] := by
      rw [List.filter_eq_nil_iff]; intro p hp; simpa using h p hp
    simp [List.filter_append, this]
  · rw [h3]
    subst e
    have : pre.filter (fun p => decide (lower p.1 = lower k)) = [] := by
      rw [List.filter_eq_nil_iff]; intro p hp; simpa using h1 p hp
    simp only [List.filter_append, List.filter_cons, decide_true, if_true, this, List.nil_append,
      List.filter_filter, ne_eq, not_true_eq_false, decide_false, h2, Bool.false_eq_true, if_false]
    refine ⟨?_, ?_⟩
    · congr 1
      rw [List.filter_eq_nil_iff]
      intro q _; by_cases hq : lower q.1 = lower k <;> simp [hq]
    · congr 1
      apply List.filter_congr
      intro q _; simp

example : (set asciiLower [(s%"A", s%"1"), (s%"B", s%"2"), (s%"a", s%"3")] s%"a" s%"9" []).1 =
    [(s%"a", s%"9"), (s%"B", s%"2")] := by decide

/-! ### C09 -/

/-- C09.  A call that raises leaves the headers unchanged, for every call except
`extend`. -/
theorem C09_atomic (lower : Str → Str) (l : HList) (op : Op) (h : raises lower l op = true)
    (hne : ∀ ps, op ≠ .extend ps) : step lower l op = l := by
  cases op with
  | add k v kw =>
    simp only [raises, step] at *
    by_cases hv : LegalValue (effValue v kw)
    · rw [add_legal l k v kw hv] at h; simp [Except.toOption] at h
    · rw [add_illegal l k v kw hv]
  | set k v kw =>
    simp only [raises, step] at *
    by_cases hv : LegalValue (effValue v kw)
    · rcases set_legal lower l k v kw hv with ⟨_, e⟩ | ⟨_, _, _, _, _, _, e⟩ <;>
        (rw [e] at h; simp [Except.toOption] at h)
    · rw [set_illegal lower l k v kw hv]
  | setIndex i k v =>
    simp only [raises, step, setIndex, validate_ok] at *
    by_cases hv : LegalValue v
    · simp only [hv, if_true] at *
      split at h
      · simp [Except.toOption] at h
      · rfl
    · simp [hv]
  | setSlice i j ps =>
    simp only [raises, step, setSlice] at *
    rcases validateAll_ok ps with hv | hv
    · rw [hv] at h; simp [Except.toOption] at h
    · rw [hv]
  | delKey k => simp [raises] at h
  | delIndex i =>
    simp only [raises, step, delIndex] at *
    split at h
    · simp [Except.toOption] at h
    · rfl
  | extend ps => exact absurd rfl (hne ps)
  | popKey k d =>
    simp only [raises, step, popKey] at *
    split at h
    · simp [Except.toOption] at h
    · cases d <;> rfl
  | popLast =>
    simp only [raises, step, popLast] at *
    split at h
    · simp [Except.toOption] at h
    · rfl
  | popIndex i =>
    simp only [raises, step, popIndex] at *
    split at h
    · split at h
      · simp [Except.toOption] at h
      · rfl
    · rfl
  | setdefault k v =>
    simp only [raises, step, setdefault] at *
    split at h
    · simp [Except.toOption] at h
    · by_cases hv : LegalValue v
      · rcases set_legal lower l k v [] (by simpa [effValue] using hv) with ⟨_, e⟩ | ⟨_, _, _, _, _, _, e⟩ <;>
          (rw [e] at h; simp [Except.toOption] at h)
      · rw [set_illegal lower l k v [] (by simpa [effValue] using hv)]
  | clear => simp [raises] at h

/-- C09, when the named calls raise: exactly on values with a line break. -/
theorem C09_rejects_iff (lower : Str → Str) (l : HList) (k v : Str) :
    (raises lower l (.add k v []) = true ↔ ('\n' ∈ v ∨ '\r' ∈ v)) ∧
    (raises lower l (.set k v []) = true ↔ ('\n' ∈ v ∨ '\r' ∈ v)) := by
  have hiff : ¬ LegalValue v ↔ ('\n' ∈ v ∨ '\r' ∈ v) := by
    unfold LegalValue
    by_cases h1 : '\n' ∈ v <;> by_cases h2 : '\r' ∈ v <;> simp [h1, h2]
  rw [← hiff]
  constructor
  · simp only [raises]
    by_cases hv : LegalValue v
    · rw [add_legal l k v [] (by simpa [effValue] using hv)]; simp [Except.toOption, hv]
    · rw [add_illegal l k v [] (by simpa [effValue] using hv)]; simp [Except.toOption, hv]
  · simp only [raises]
    by_cases hv : LegalValue v
    · rcases set_legal lower l k v [] (by simpa [effValue] using hv) with ⟨_, e⟩ | ⟨_, _, _, _, _, _, e⟩ <;>
        (rw [e]; simp [Except.toOption, hv])
    · rw [set_illegal lower l k v [] (by simpa [effValue] using hv)]; simp [Except.toOption, hv]

/-- C09, calls by position.  A position counts from the front, or from the back when negative.
Deleting, replacing or popping a position that exists affects that entry alone; a position that
does not exist raises `IndexError`, and nothing changes. -/
theorem C09_positions (before after : HList) (p : Str × Str) (k v : Str) (i : Int) :
    (i = before.length ∨ i = -(after.length : Int) - 1 →
      delIndex (before ++ p :: after) i = (before ++ after, .ok ()) ∧
      popIndex (before ++ p :: after) i = (before ++ after, .ok p) ∧
      ('\n' ∉ v → '\r' ∉ v → setIndex (before ++ p :: after) i k v = (before ++ (k, v) :: after, .ok ()))) ∧
    (∀ l : HList, (l.length : Int) ≤ i ∨ i < -(l.length : Int) →
      delIndex l i = (l, .error .indexError) ∧ popIndex l i = (l, .error .indexError) ∧
      ('\n' ∉ v → '\r' ∉ v → setIndex l i k v = (l, .error .indexError))) := by
  have hval : '\n' ∉ v → '\r' ∉ v → validate v = .ok () := by
    intro h1 h2
    simp [validate, h1, h2]
  constructor
  · intro hi
    have hp : pyIndex (before ++ p :: after).length i = some before.length := by
      unfold pyIndex
      simp only [List.length_append, List.length_cons]
      rcases hi with rfl | rfl
      · rw [if_pos (by omega)]; simp
      · rw [if_neg (by omega), if_pos (by omega)]; congr 1; omega
    have he : (before ++ p :: after).eraseIdx before.length = before ++ after := by
      rw [List.eraseIdx_append_of_length_le (Nat.le_refl _)]; simp
    refine ⟨by simp only [delIndex, hp, he], ?_, ?_⟩
    · simp only [popIndex, hp, he]
      rw [List.getElem?_append_right (Nat.le_refl _)]
      simp
    intro h1 h2
    simp only [setIndex, hval h1 h2, hp]
    rw [List.set_append_right _ _ (Nat.le_refl _)]
    simp
  · intro l hi
    have hp : pyIndex l.length i = none := by
      unfold pyIndex
      rw [if_neg (by omega), if_neg (by omega)]
    refine ⟨by simp only [delIndex, hp], by simp only [popIndex, hp], ?_⟩
    intro h1 h2
    simp only [setIndex, hval h1 h2, hp]

example : popIndex [(s%"a", s%"1"), (s%"b", s%"2"), (s%"c", s%"3")] (-2) =
    ([(s%"a", s%"1"), (s%"c", s%"3")], .ok (s%"b", s%"2")) := by decide

/-- C09 (limit).  `extend` is not atomic: pairs before the rejected one stay. -/
theorem C09_extend_not_atomic :
    ∃ l ps, raises asciiLower l (.extend ps) = true ∧ step asciiLower l (.extend ps) ≠ l :=
  ⟨[], [(s%"a", s%"1"), (s%"b", s%"x\n")], by decide, by decide⟩

example : raises asciiLower [(s%"a", s%"1")] (.set s%"a" s%"x\r\nevil: 1" []) = true := by decide

/-! ### C64 -/

/-- C64.  `remove_entity_headers` keeps a header exactly when it is not an entity header or
is explicitly allowed (ignoring case); order and duplicates are preserved because the
result is a sublist, and a second pass changes nothing. -/
theorem C64_remove_entity (lower : Str → Str) (l : HList) (allowed : List Str) :
    (removeEntityHeaders lower l allowed).Sublist l ∧
    (∀ p, p ∈ removeEntityHeaders lower l allowed ↔
      p ∈ l ∧ (lower p.1 ∉ [s%"allow", s%"content-encoding", s%"content-language",
        s%"content-length", s%"content-location", s%"content-md5", s%"content-range",
        s%"content-type", s%"expires", s%"last-modified"] ∨ ∃ a ∈ allowed, lower a = lower p.1)) ∧
    (∀ p ∈ removeEntityHeaders lower l allowed,
      (removeEntityHeaders lower l allowed).count p = l.count p) ∧
    removeEntityHeaders lower (removeEntityHeaders lower l allowed) allowed =
      removeEntityHeaders lower l allowed := by
  refine ⟨List.filter_sublist, ?_, ?_, ?_⟩
  · intro p
    unfold removeEntityHeaders isEntityHeader entityHeaders
    simp only [List.mem_filter, Bool.or_eq_true, Bool.not_eq_true', List.contains_eq_mem,
      decide_eq_false_iff_not, decide_eq_true_eq, List.mem_map]
  · intro p hp
    unfold removeEntityHeaders
    rw [List.count_filter]
    exact (List.mem_filter.mp hp).2
  · unfold removeEntityHeaders; rw [List.filter_filter]; simp

/-- C64.  `remove_hop_by_hop_headers` likewise. -/
theorem C64_remove_hop_by_hop (lower : Str → Str) (l : HList) :
    (removeHopByHopHeaders lower l).Sublist l ∧
    (∀ p, p ∈ removeHopByHopHeaders lower l ↔
      p ∈ l ∧ lower p.1 ∉ [s%"connection", s%"keep-alive", s%"proxy-authenticate",
        s%"proxy-authorization", s%"te", s%"trailer", s%"transfer-encoding", s%"upgrade"]) ∧
    (∀ p ∈ removeHopByHopHeaders lower l, (removeHopByHopHeaders lower l).count p = l.count p) ∧
    removeHopByHopHeaders lower (removeHopByHopHeaders lower l) = removeHopByHopHeaders lower l := by
  refine ⟨List.filter_sublist, ?_, ?_, ?_⟩
  · intro p
    unfold removeHopByHopHeaders isHopByHopHeader hopByHopHeaders
    simp only [List.mem_filter, Bool.not_eq_true', List.contains_eq_mem, decide_eq_false_iff_not]
  · intro p hp
    unfold removeHopByHopHeaders
    rw [List.count_filter]
    exact (List.mem_filter.mp hp).2
  · unfold removeHopByHopHeaders; rw [List.filter_filter]; simp

example : removeEntityHeaders asciiLower [(s%"Content-Type", s%"x"), (s%"ETag", s%"y"),
    (s%"Expires", s%"z")] [s%"expires"] = [(s%"ETag", s%"y"), (s%"Expires", s%"z")] := by decide

end Verif.Props
