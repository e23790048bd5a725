import Verif.Model.HeaderSetQueries
import Verif.Props.HeaderSet
/-! Property theorems C127: the answers of a `HeaderSet` agree with each other. -/
namespace Verif.Props.HSetQ
open Verif Verif.HeaderSet

/-- The names listed are distinct up to case, and the set holds exactly them in lower case. -/
def Agree (lower : Str → Str) (s : HS) : Prop :=
  s.set.Nodup ∧ (s.headers.map lower).Nodup ∧ ∀ x, x ∈ s.set ↔ x ∈ s.headers.map lower

/-- A name is assigned to a position only if no other position has it, up to case. -/
def Free (lower : Str → Str) (l : List Str) (n : Nat) (v : Str) : Prop :=
  ∀ j h, j ≠ n → l[j]? = some h → n < l.length → lower h ≠ lower v

/-- The position meant by an index, if there is one. -/
def place (l : List Str) (i : Int) : Nat := if i < 0 then (i + l.length).toNat else i.toNat

/-- The calls after which the answers still agree: names are removed as they are written in
lower case, unless they are not there, and a name that another position has is not assigned. -/
def Safe (lower : Str → Str) (s : HS) : Change → Prop
  | .call (.remove h) => lower h = h ∨ ∀ x ∈ s.headers, lower x ≠ lower h
  | .call (.discard h) => lower h = h ∨ ∀ x ∈ s.headers, lower x ≠ lower h
  | .call (.setIdx n v) => Free lower s.headers n v
  | .setAt i v => -(s.headers.length : Int) ≤ i → Free lower s.headers (place s.headers i) v
  | _ => True

/-- Every call of a history is safe in the state in which it is made. -/
def SafeAll (lower : Str → Str) : HS → List Change → Prop
  | _, [] => True
  | s, c :: cs => Safe lower s c ∧ SafeAll lower (change lower s c) cs

theorem agree_of_coherent (lower : Str → Str) (s : HS) (h : HSet.Coherent lower s) :
    Agree lower s := ⟨h.1 ▸ h.2, h.2, fun x => by rw [h.1]⟩

theorem mem_setAdd (l : List Str) (x y : Str) : y ∈ setAdd l x ↔ y ∈ l ∨ y = x := by
  unfold setAdd
  by_cases h : x ∈ l
  · simp only [List.contains_eq_mem, h, decide_true, if_true]
    exact ⟨.inl, fun h' => h'.elim id (fun e => e ▸ h)⟩
  · simp [h]

theorem nodup_setAdd (l : List Str) (x : Str) (h : l.Nodup) : (setAdd l x).Nodup := by
  unfold setAdd
  by_cases hx : x ∈ l
  · simpa [hx] using h
  · simp only [List.contains_eq_mem, hx, decide_false, Bool.false_eq_true, if_false]
    rw [List.nodup_append]
    refine ⟨h, by simp, ?_⟩
    intro a ha b hb
    rcases List.mem_singleton.1 hb with rfl
    rintro rfl; exact hx ha

theorem mem_setRemove (l : List Str) (x y : Str) : y ∈ setRemove l x ↔ y ∈ l ∧ y ≠ x := by
  simp [setRemove]

theorem agree_update (lower : Str → Str) (hs : List Str) (s : HS × Bool)
    (h : Agree lower s.1) : Agree lower (hs.foldl (updateOne lower) s).1 := by
  induction hs generalizing s with
  | nil => exact h
  | cons a hs ih =>
    apply ih
    obtain ⟨n1, n2, hm⟩ := h
    unfold updateOne
    split
    · exact ⟨n1, n2, hm⟩
    · rename_i hc
      have hc' : lower a ∉ s.1.set := by simpa using hc
      refine ⟨nodup_setAdd _ _ n1, ?_, fun x => ?_⟩
      · simp only [List.map_append, List.map_cons, List.map_nil]
        rw [List.nodup_append]
        refine ⟨n2, by simp, ?_⟩
        intro x hx y hy
        rcases List.mem_singleton.1 hy with rfl
        rintro rfl; exact hc' ((hm _).2 hx)
      · rw [mem_setAdd, hm]; simp

theorem removeLoop_none (lower : Str → Str) (h : Str) (l : List Str)
    (hn : ∀ x ∈ l, lower x ≠ h) : removeLoop lower h l = l := by
  induction l with
  | nil => rfl
  | cons k l ih =>
    simp only [removeLoop, if_neg (hn k List.mem_cons_self)]
    rw [ih fun x hx => hn x (List.mem_cons_of_mem _ hx)]

theorem agree_remove (lower : Str → Str) (idem : ∀ x, lower (lower x) = lower x) (s : HS)
    (h : Str) (ha : Agree lower s) :
    Agree lower (remove lower s h).1 ↔ (lower h = h ∨ ∀ x ∈ s.headers, lower x ≠ lower h) := by
  obtain ⟨n1, n2, hm⟩ := ha
  unfold remove
  by_cases hc : lower h ∈ s.set
  · rw [if_pos (by simpa using hc)]
    have hin : ∃ x ∈ s.headers, lower x = lower h := by simpa using (hm _).1 hc
    constructor
    · intro hA
      left
      false_or_by_contra; rename_i hne
      have hr := removeLoop_none lower h s.headers (fun x _ he => hne (by rw [← he]; exact idem x))
      have := (hA.2.2 (lower h)).2 (by
        show lower h ∈ (removeLoop lower h s.headers).map lower
        rw [hr]; exact (hm _).1 hc)
      exact ((mem_setRemove _ _ _).1 this).2 rfl
    · rintro (hl | hl)
      · have hr := HSet.removeLoop_map lower h s.headers n2
        rw [hl]
        refine ⟨HSet.setRemove_nodup _ _ n1, ?_, fun x => ?_⟩
        · show ((removeLoop lower h s.headers).map lower).Nodup
          rw [hr]; exact HSet.setRemove_nodup _ _ n2
        · show x ∈ setRemove s.set h ↔ x ∈ (removeLoop lower h s.headers).map lower
          rw [hr, mem_setRemove, mem_setRemove, hm]
      · obtain ⟨x, hx, he⟩ := hin
        exact absurd he (hl x hx)
  · rw [if_neg (by simpa using hc)]
    refine ⟨fun _ => .inr fun x hx he => hc ?_, fun _ => ⟨n1, n2, hm⟩⟩
    exact (hm _).2 (List.mem_map.2 ⟨x, hx, he⟩)

theorem agree_delIdx (lower : Str → Str) (s : HS) (i : Nat) (ha : Agree lower s) :
    Agree lower (delIdx lower s i).1 := by
  obtain ⟨n1, n2, hm⟩ := ha
  unfold delIdx
  split
  · exact ⟨n1, n2, hm⟩
  · rename_i rv hi
    have := HSet.eraseIdx_map_remove lower s.headers i rv hi n2
    have hc : lower rv ∈ s.set := (hm _).2 (List.mem_map_of_mem (List.mem_of_getElem? hi))
    rw [if_pos (by simpa using hc)]
    refine ⟨HSet.setRemove_nodup _ _ n1, ?_, fun x => ?_⟩
    · show ((s.headers.eraseIdx i).map lower).Nodup
      rw [this]; exact HSet.setRemove_nodup _ _ n2
    · show x ∈ setRemove s.set (lower rv) ↔ x ∈ (s.headers.eraseIdx i).map lower
      rw [this, mem_setRemove, mem_setRemove, hm]

theorem nodup_map_iff (lower : Str → Str) (l : List Str) :
    (l.map lower).Nodup ↔ ∀ (i j : Nat) (a b : Str), l[i]? = some a → l[j]? = some b → lower a = lower b → i = j := by
  constructor
  · intro nd i j a b hi hj he
    obtain ⟨hl1, h1⟩ := List.getElem?_eq_some_iff.1 hi
    obtain ⟨hl2, h2⟩ := List.getElem?_eq_some_iff.1 hj
    have e1 : (l.map lower)[i]'(by simpa using hl1) = lower a := by simp [h1]
    have e2 : (l.map lower)[j]'(by simpa using hl2) = lower b := by simp [h2]
    exact (List.getElem_inj nd).1 (e1.trans (he.trans e2.symm))
  · intro h
    apply List.pairwise_iff_getElem.2
    intro i j hi hj hij he
    rw [List.getElem_map, List.getElem_map] at he
    have := h i j _ _ (List.getElem?_eq_getElem (by simpa using hi))
      (List.getElem?_eq_getElem (by simpa using hj)) he
    omega

theorem agree_setIdx (lower : Str → Str) (s : HS) (i : Nat) (v : Str) (ha : Agree lower s) :
    Agree lower (setIdx lower s i v).1 ↔ Free lower s.headers i v := by
  obtain ⟨n1, n2, hm⟩ := ha
  unfold setIdx
  split
  · rename_i hi
    have hl : ¬ i < s.headers.length := by
      intro hl; rw [List.getElem?_eq_getElem hl] at hi; cases hi
    exact ⟨fun _ j h _ _ hlt => absurd hlt hl, fun _ => ⟨n1, n2, hm⟩⟩
  · rename_i old hi
    have hl : i < s.headers.length := (List.getElem?_eq_some_iff.1 hi).1
    have hc : lower old ∈ s.set := (hm _).2 (List.mem_map_of_mem (List.mem_of_getElem? hi))
    rw [if_pos (by simpa using hc)]
    have hdist := (nodup_map_iff lower s.headers).1 n2
    constructor
    · intro hA j h hj hjh _ he
      have := (nodup_map_iff lower (s.headers.set i v)).1 hA.2.1 j i h v
        (by rw [List.getElem?_set_ne (Ne.symm hj)]; exact hjh)
        (by rw [List.getElem?_set_self hl]) he
      exact hj this
    · intro hf
      refine ⟨nodup_setAdd _ _ (HSet.setRemove_nodup _ _ n1), ?_, fun x => ?_⟩
      · show ((s.headers.set i v).map lower).Nodup
        rw [nodup_map_iff]
        intro a b x y hx hy he
        rw [List.getElem?_set] at hx hy
        by_cases h1 : i = a <;> by_cases h2 : i = b
        · omega
        · rw [if_pos h1, if_pos (h1 ▸ hl)] at hx
          rw [if_neg h2] at hy
          exact absurd (by rw [← he, ← Option.some.inj hx]) (hf b y (Ne.symm h2) hy hl)
        · rw [if_pos h2, if_pos (h2 ▸ hl)] at hy
          rw [if_neg h1] at hx
          exact absurd (by rw [he, ← Option.some.inj hy]) (hf a x (Ne.symm h1) hx hl)
        · rw [if_neg h1] at hx
          rw [if_neg h2] at hy
          exact hdist a b x y hx hy he
      · show x ∈ setAdd (setRemove s.set (lower old)) (lower v) ↔ x ∈ (s.headers.set i v).map lower
        rw [mem_setAdd, mem_setRemove, hm]
        simp only [List.mem_map]
        constructor
        · rintro (⟨⟨h, hmem, rfl⟩, hne⟩ | rfl)
          · obtain ⟨j, hj⟩ := List.mem_iff_getElem?.1 hmem
            have hij : i ≠ j := by
              rintro rfl
              rw [hi] at hj
              exact hne (by rw [Option.some.inj hj])
            exact ⟨h, List.mem_iff_getElem?.2 ⟨j, by rw [List.getElem?_set_ne hij]; exact hj⟩, rfl⟩
          · exact ⟨v, List.mem_iff_getElem?.2 ⟨i, by rw [List.getElem?_set_self hl]⟩, rfl⟩
        · rintro ⟨h, hmem, rfl⟩
          obtain ⟨j, hj⟩ := List.mem_iff_getElem?.1 hmem
          rw [List.getElem?_set] at hj
          by_cases hij : i = j
          · rw [if_pos hij, if_pos (hij ▸ hl)] at hj
            right; rw [Option.some.inj hj]
          · rw [if_neg hij] at hj
            left
            refine ⟨⟨h, List.mem_of_getElem? hj, rfl⟩, fun he => hij ?_⟩
            exact (hdist j i h old hj hi he).symm

theorem pyIndex_some (n : Nat) (i : Int) (m : Nat) (h : Headers.pyIndex n i = some m) :
    -(n : Int) ≤ i ∧ m = (if i < 0 then (i + n).toNat else i.toNat) ∧ m < n := by
  unfold Headers.pyIndex at h
  split at h
  · have := Option.some.inj h
    rw [if_neg (by omega)]; omega
  · split at h
    · have := Option.some.inj h
      rw [if_pos (by omega)]; omega
    · cases h

theorem pyIndex_none (n : Nat) (i : Int) (h : Headers.pyIndex n i = none) :
    i < -(n : Int) ∨ (n : Int) ≤ i := by
  unfold Headers.pyIndex at h
  split at h
  · cases h
  · split at h
    · cases h
    · omega

/-- C127: as long as the answers of a header set agree, the only calls after which they do
not are removing a present name that is not written in lower case and assigning a name that
another position has. -/
theorem C127_exact (lower : Str → Str) (idem : ∀ x, lower (lower x) = lower x) (s : HS)
    (ha : Agree lower s) (c : Change) : Agree lower (change lower s c) ↔ Safe lower s c := by
  cases c with
  | call o =>
    cases o with
    | add h => exact ⟨fun _ => trivial, fun _ => agree_update lower [h] (s, false) ha⟩
    | remove h => exact agree_remove lower idem s h ha
    | discard h => exact agree_remove lower idem s h ha
    | update hs => exact ⟨fun _ => trivial, fun _ => agree_update lower hs (s, false) ha⟩
    | delIdx i => exact ⟨fun _ => trivial, fun _ => agree_delIdx lower s i ha⟩
    | setIdx i v => exact agree_setIdx lower s i v ha
    | clear => exact ⟨fun _ => trivial, fun _ => ⟨List.nodup_nil, List.nodup_nil, fun x => Iff.rfl⟩⟩
  | delAt i =>
    refine ⟨fun _ => trivial, fun _ => ?_⟩
    simp only [change, delAt]
    split
    · exact agree_delIdx lower s _ ha
    · exact ha
  | setAt i v =>
    simp only [change, setAt, Safe]
    rcases hp : Headers.pyIndex s.headers.length i with _ | n
    · simp only
      refine ⟨fun _ hle j h _ _ hlt => ?_, fun _ => ha⟩
      exfalso
      have := pyIndex_none _ _ hp
      unfold place at hlt
      split at hlt <;> omega
    · obtain ⟨h1, h2, h3⟩ := pyIndex_some _ _ _ hp
      simp only [agree_setIdx lower s n v ha]
      have e : place s.headers i = n := h2.symm
      rw [e]
      exact ⟨fun h _ => h, fun h => h h1⟩

theorem asciiLower_idem (x : Str) : asciiLower (asciiLower x) = asciiLower x := by
  unfold asciiLower
  rw [List.map_map]
  apply List.map_congr_left
  intro c _
  simp only [Function.comp]
  by_cases h : c.toNat < 128
  · have key : ∀ m < 128, (Char.ofNat m).toLower.toLower = (Char.ofNat m).toLower := by
      decide +kernel
    have := key c.toNat h
    rwa [Char.ofNat_toNat] at this
  · have e : c.toLower = c := by
      unfold Char.toLower
      rw [dif_neg]
      rintro ⟨_, h2⟩
      have : c.toNat ≤ 'Z'.toNat := h2
      have e : 'Z'.toNat = 90 := by decide
      omega
    rw [e, e]

example : Agree asciiLower (init asciiLower [s%"Foo", s%"Bar"]) ∧
    Safe asciiLower (init asciiLower [s%"Foo", s%"Bar"]) (.setAt (-1) s%"baz") := by
  refine ⟨agree_of_coherent _ _ (HSet.coherent_init _ _ (by decide)), ?_⟩
  intro _ j h hj hjh _
  have : j = 0 ∨ 2 ≤ j := by
    have : place (init asciiLower [s%"Foo", s%"Bar"]).headers (-1) = 1 := by decide
    omega
  rcases this with rfl | h2
  · have : h = s%"Foo" := (Option.some.inj hjh).symm
    subst this; decide
  · rw [List.getElem?_eq_none (by simpa [init] using h2)] at hjh; cases hjh

theorem agree_all (lower : Str → Str) (idem : ∀ x, lower (lower x) = lower x)
    (cs : List Change) (s : HS) (ha : Agree lower s) (h : SafeAll lower s cs) :
    Agree lower (changes lower s cs) := by
  induction cs generalizing s with
  | nil => exact ha
  | cons c cs ih => exact ih _ ((C127_exact lower idem s ha c).2 h.1) h.2

theorem asSet_mem (l acc : List Str) (x : Str) : x ∈ l.foldl setAdd acc ↔ x ∈ acc ∨ x ∈ l := by
  induction l generalizing acc with
  | nil => simp
  | cons a l ih => rw [List.foldl_cons, ih, mem_setAdd]; simp [or_assoc]

theorem asSet_nodup (l acc : List Str) (h : acc.Nodup) : (l.foldl setAdd acc).Nodup := by
  induction l generalizing acc with
  | nil => exact h
  | cons a l ih => exact ih _ (nodup_setAdd _ _ h)

theorem asSet_self (l acc : List Str) (h : (acc ++ l).Nodup) : l.foldl setAdd acc = acc ++ l := by
  induction l generalizing acc with
  | nil => simp
  | cons a l ih =>
    have ha : a ∉ acc := by
      intro hm
      exact (List.nodup_append.1 h).2.2 a hm a List.mem_cons_self rfl
    rw [List.foldl_cons, show setAdd acc a = acc ++ [a] by simp [setAdd, ha],
      ih _ (by simpa using h)]
    simp

theorem findIdx?_spec {α} (p : α → Bool) (l : List α) (i : Nat) :
    l.findIdx? p = some i ↔ ∃ a, l[i]? = some a ∧ p a = true ∧
      ∀ j b, j < i → l[j]? = some b → p b = false := by
  rw [List.findIdx?_eq_some_iff_getElem]
  constructor
  · rintro ⟨h, hp, hj⟩
    refine ⟨l[i], List.getElem?_eq_getElem h, hp, fun j b hlt hb => ?_⟩
    obtain ⟨hl, he⟩ := List.getElem?_eq_some_iff.1 hb
    have := hj j hlt
    rw [he] at this
    simpa using this
  · rintro ⟨a, ha, hp, hj⟩
    obtain ⟨hl, he⟩ := List.getElem?_eq_some_iff.1 ha
    refine ⟨hl, he ▸ hp, fun j hlt => ?_⟩
    have := hj j _ hlt (List.getElem?_eq_getElem (by omega))
    simpa using this

theorem perm_length (a b : List Str) (na : a.Nodup) (nb : b.Nodup) (h : ∀ x, x ∈ a ↔ x ∈ b) :
    a.length = b.length := by
  have hle : ∀ (a b : List Str), a.Nodup → (∀ x ∈ a, x ∈ b) → a.length ≤ b.length := by
    intro a
    induction a with
    | nil => intro b _ _; exact Nat.zero_le _
    | cons x a ih =>
      intro b na h
      obtain ⟨hx, na⟩ := List.nodup_cons.1 na
      have hxb := h x List.mem_cons_self
      have hl := List.length_erase_of_mem hxb
      have hpos : 0 < b.length := List.length_pos_of_mem hxb
      have := ih (b.erase x) na fun p hp =>
        (List.mem_erase_of_ne (fun (e : p = x) => hx (e ▸ hp))).2 (h p (List.mem_cons_of_mem _ hp))
      simp only [List.length_cons]; omega
  have h1 := hle a b na fun x hx => (h x).1 hx
  have h2 := hle b a nb fun x hx => (h x).2 hx
  omega

/-- C127: for a set made from names that are distinct up to case and every history of safe
calls: a name is a member exactly when it is listed up to case, when `index` finds it and
when its lower-case form is in `as_set()`; `index` gives the one position at which it
stands and otherwise raises IndexError; `as_set(True)` has the names as listed; no name is
listed twice; and the length, the size of both sets and the truth value fit the list. -/
theorem C127_answers_partial (lower : Str → Str) (idem : ∀ x, lower (lower x) = lower x)
    (names : List Str) (nd : (names.map lower).Nodup) (cs : List Change)
    (hs : SafeAll lower (init lower names) cs) :
    let s := changes lower (init lower names) cs
    (∀ x, contains lower s x = true ↔ ∃ h ∈ iter s, lower h = lower x) ∧
    (∀ x (i : Nat), index lower s x = .ok i ↔ ∃ h, getIdx s i = .ok h ∧ lower h = lower x) ∧
    (∀ x e, index lower s x = .error e ↔ e = .indexError ∧ contains lower s x = false) ∧
    (∀ x, x ∈ asSet s false ↔ ∃ h ∈ iter s, lower h = x) ∧
    (∀ x, x ∈ asSet s true ↔ x ∈ iter s) ∧
    len s = (iter s).length ∧ (asSet s false).length = len s ∧ (asSet s true).length = len s ∧
    ((iter s).map lower).Nodup ∧ (truth s = true ↔ iter s ≠ []) := by
  intro s
  have hA : Agree lower s := agree_all lower idem cs _
    (agree_of_coherent _ _ (HSet.coherent_init _ _ nd)) hs
  clear_value s
  obtain ⟨n1, n2, hm⟩ := hA
  have hlen : len s = (iter s).length := by
    have := perm_length _ _ n1 n2 hm
    simpa [len, iter] using this
  have hcont : ∀ x, contains lower s x = true ↔ ∃ h ∈ iter s, lower h = lower x := by
    intro x
    simp only [contains, List.contains_eq_mem, decide_eq_true_eq, hm, List.mem_map, iter]
  have hget : ∀ (i : Nat) h, getIdx s i = .ok h ↔ s.headers[i]? = some h := by
    intro i h
    unfold getIdx
    rcases hp : Headers.pyIndex s.headers.length i with _ | n
    · have := pyIndex_none _ _ hp
      rw [List.getElem?_eq_none (by omega)]; simp
    · obtain ⟨_, h2, h3⟩ := pyIndex_some _ _ _ hp
      rw [if_neg (by omega)] at h2
      have e : n = i := by omega
      subst e
      simp [List.getElem?_eq_getElem h3]
  have hdist := (nodup_map_iff lower s.headers).1 n2
  have nodup_headers : s.headers.Nodup := by
    apply List.pairwise_iff_getElem.2
    intro i j hi hj hij he
    have := hdist i j _ _ (List.getElem?_eq_getElem hi) (List.getElem?_eq_getElem hj)
      (congrArg lower he)
    omega
  refine ⟨hcont, ?_, ?_, ?_, ?_, hlen, ?_, ?_, n2, ?_⟩
  · intro x i
    unfold index find
    constructor
    · intro h
      rcases hf : s.headers.findIdx? (fun h => decide (lower h = lower x)) with _ | n
      · rw [hf] at h; cases h
      · rw [hf] at h
        have e : n = i := Except.ok.inj h
        subst e
        obtain ⟨a, ha, hp, _⟩ := (findIdx?_spec _ _ _).1 hf
        exact ⟨a, (hget n a).2 ha, by simpa using hp⟩
    · rintro ⟨a, ha, he⟩
      have ha' := (hget i a).1 ha
      have hf : s.headers.findIdx? (fun h => decide (lower h = lower x)) = some i := by
        rw [findIdx?_spec]
        refine ⟨a, ha', by simpa using he, fun j b hlt hb => ?_⟩
        simp only [decide_eq_false_iff_not]
        intro hb'
        have := hdist j i b a hb ha' (hb'.trans he.symm)
        omega
      rw [hf]
  · intro x e
    unfold index find
    rcases hf : s.headers.findIdx? (fun h => decide (lower h = lower x)) with _ | n
    · have hno : contains lower s x = false := by
        rw [Bool.eq_false_iff, ne_eq, hcont]
        rintro ⟨a, ha, he⟩
        have := List.findIdx?_eq_none_iff.1 hf a ha
        simp [he] at this
      simp only [Except.error.injEq, hno, and_true]
      exact eq_comm
    · obtain ⟨a, ha, hp, _⟩ := (findIdx?_spec _ _ _).1 hf
      have : contains lower s x = true := (hcont x).2 ⟨a, List.mem_of_getElem? ha, by simpa using hp⟩
      simp [this]
  · intro x
    simp only [asSet, Bool.false_eq_true, if_false, asSet_mem, List.not_mem_nil, false_or, hm,
      List.mem_map, iter]
  · intro x
    simp only [asSet, if_true, asSet_mem, List.not_mem_nil, false_or, iter]
  · simp only [asSet, Bool.false_eq_true, if_false, asSet_self s.set [] (by simpa using n1),
      List.nil_append, len]
  · rw [hlen]
    simp only [asSet, if_true, asSet_self s.headers [] (by simpa using nodup_headers),
      List.nil_append, iter]
  · simp only [truth, hlen, bne_iff_ne, ne_eq, List.length_eq_zero_iff]

/-- A history with an assignment and removals. -/
def demoChanges : List Change :=
  [.call (.add s%"Baz"), .delAt (-2), .call (.remove s%"foo"), .call (.update [s%"BAZ", s%"x"])]

example : SafeAll asciiLower (init asciiLower [s%"Foo", s%"Bar"]) demoChanges :=
  ⟨trivial, trivial, .inl (by decide), trivial, trivial⟩
example : (changes asciiLower (init asciiLower [s%"Foo", s%"Bar"]) demoChanges).headers =
    [s%"Baz", s%"x"] := by decide

/-- C127, the claim for every call is false: after removing a name as it is listed, `index`
finds it although it is no member; after assigning a name that is there, the length is
smaller than the list, and deleting one of the two makes the other no member; and a set
made from a list with a name twice counts it once and lists it twice. -/
theorem C127_answers_false :
    (let s := changes asciiLower (init asciiLower [s%"Foo"]) [.call (.remove s%"Foo")]
     index asciiLower s s%"Foo" = .ok 0 ∧ contains asciiLower s s%"Foo" = false ∧
     asSet s false = [] ∧ asSet s true = [s%"Foo"] ∧ truth s = false ∧ iter s ≠ []) ∧
    (let s := changes asciiLower (init asciiLower [s%"a", s%"b"]) [.setAt 0 s%"B"]
     iter s = [s%"B", s%"b"] ∧ len s = 1 ∧
     contains asciiLower (change asciiLower s (.delAt 0)) s%"b" = false ∧
     iter (change asciiLower s (.delAt 0)) = [s%"b"]) ∧
    (len (init asciiLower [s%"a", s%"A"]) = 1 ∧
     iter (init asciiLower [s%"a", s%"A"]) = [s%"a", s%"A"]) := by decide

/-- C127: an index from the far side means the entry so many places before the far side, in
reading, deleting and assigning, and one beyond the list raises IndexError and changes
nothing. -/
theorem C127_positions (lower : Str → Str) (s : HS) (i : Int) (v : Str) :
    (-(s.headers.length : Int) ≤ i → i < 0 →
      getIdx s i = getIdx s (i + s.headers.length) ∧
      delAt lower s i = delAt lower s (i + s.headers.length) ∧
      setAt lower s i v = setAt lower s (i + s.headers.length) v) ∧
    ((i < -(s.headers.length : Int) ∨ (s.headers.length : Int) ≤ i) →
      getIdx s i = .error .indexError ∧ delAt lower s i = (s, .error .indexError) ∧
      setAt lower s i v = (s, .error .indexError)) ∧
    (∀ (pre post : List Str) h, s.headers = pre ++ h :: post → i = pre.length →
      getIdx s i = .ok h ∧
      (lower h ∈ s.set → (delAt lower s i).1.headers = pre ++ post ∧
        (setAt lower s i v).1.headers = pre ++ v :: post)) := by
  have hp : -(s.headers.length : Int) ≤ i → i < 0 → Headers.pyIndex s.headers.length i =
      Headers.pyIndex s.headers.length (i + s.headers.length) := by
    intro h1 h2
    unfold Headers.pyIndex
    rw [if_neg (by omega), if_pos (by omega), if_pos (by omega)]
  refine ⟨fun h1 h2 => ?_, fun h => ?_, ?_⟩
  · unfold getIdx delAt setAt
    rw [hp h1 h2]
    exact ⟨rfl, rfl, rfl⟩
  · have : Headers.pyIndex s.headers.length i = none := by
      unfold Headers.pyIndex
      rw [if_neg (by omega), if_neg (by omega)]
    unfold getIdx delAt setAt
    rw [this]
    exact ⟨rfl, rfl, rfl⟩
  · rintro pre post h he rfl
    have hl : s.headers.length = pre.length + (post.length + 1) := by simp [he]
    have : Headers.pyIndex s.headers.length (pre.length : Int) = some pre.length := by
      unfold Headers.pyIndex
      rw [if_pos (by omega)]; simp
    have hg : s.headers[pre.length]? = some h := by simp [he]
    unfold getIdx delAt setAt delIdx setIdx
    simp only [this, hg]
    refine ⟨trivial, fun hc => ?_⟩
    have hc' : s.set.contains (lower h) = true := by simpa using hc
    simp only [hc', if_true]
    constructor
    · rw [he, List.eraseIdx_append_of_length_le (Nat.le_refl _)]; simp
    · rw [he, List.set_append_right _ _ (Nat.le_refl _)]; simp

example : getIdx (init asciiLower [s%"a", s%"b"]) (-1) = .ok s%"b" := by decide

end Verif.Props.HSetQ
