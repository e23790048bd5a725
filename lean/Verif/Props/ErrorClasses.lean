import Verif.Model.ErrorClasses
import Verif.Props.Abort
import Verif.Props.Application
import Verif.Props.RequestUrl
import Verif.Props.Copies
import Verif.Props.Wire
/-! Property theorems C145: exception classes, their codes, and the answers to them. -/
namespace Verif.Props.ErrorsP
open Verif Verif.Errors Verif.Log
open Verif.Dispatch hiding Op run step log
open Verif.Accept Verif.Application

/-! ### Linearization -/

theorem merge_step (n : Nat) (ls : List (List Str)) (c : Str) (h0 : ls.all (·.isEmpty) = false)
    (h : candidate ls ls = some c) : merge (n + 1) ls = (merge n (remove c ls)).map (c :: ·) := by
  rw [merge, h0, h]
  rfl

theorem cand_first (c : Str) (t : List Str) (rest : List (List Str)) (h0 : c ∉ t) (h : ∀ l ∈ rest, c ∉ l.tail) :
    candidate ((c :: t) :: rest) ((c :: t) :: rest) = some c := by
  rw [candidate, if_neg]
  simp only [List.any_eq_true, List.contains_iff_mem, not_exists, not_and]
  intro l hl
  rcases List.mem_cons.1 hl with rfl | hm
  · exact h0
  · exact h l hm

theorem cand_second (T : List Str) (b : Str) (t : List Str) (R : List (List Str)) (hT : ∀ x ∈ T.head?, x ∈ t)
    (h0 : b ∉ t) (h1 : b ∉ T) (h : ∀ l ∈ R, b ∉ l.tail) :
    candidate (T :: (b :: t) :: R) (T :: (b :: t) :: R) = some b := by
  have hb : candidate (T :: (b :: t) :: R) ((b :: t) :: R) = some b := by
    rw [candidate, if_neg]
    simp only [List.any_eq_true, List.contains_iff_mem, not_exists, not_and]
    intro l hl
    rcases List.mem_cons.1 hl with rfl | hm
    · exact fun hx => h1 (List.mem_of_mem_tail hx)
    · rcases List.mem_cons.1 hm with rfl | hm
      · exact h0
      · exact h l hm
  cases T with
  | nil => rw [candidate]; exact hb
  | cons x T =>
    rw [candidate, if_pos]
    · exact hb
    · simp only [List.any_eq_true, List.contains_iff_mem]
      exact ⟨b :: t, by simp, by simpa using hT x (by simp)⟩

theorem merge_same (T : List Str) : ∀ n, T.length < n → T.Nodup → merge n [T, T, []] = some T := by
  induction T with
  | nil =>
    intro n h _
    obtain ⟨m, rfl⟩ : ∃ m, n = m + 1 := ⟨n - 1, by simp at h; omega⟩
    rfl
  | cons t T ih =>
    intro n h hn
    simp only [List.length_cons] at h
    obtain ⟨m, rfl⟩ : ∃ m, n = m + 1 := ⟨n - 1, by omega⟩
    have hn' := List.nodup_cons.1 hn
    rw [merge_step m _ t (by simp) (cand_first t T _ hn'.1 (by simpa using hn'.1))]
    have : remove t [t :: T, t :: T, []] = [T, T, []] := by simp [remove]
    rw [this, ih m (by omega) hn'.2]
    rfl

theorem head_mem_append {T B : List Str} : ∀ x ∈ T.head?, x ∈ B ++ T := by
  intro x hx
  cases T with
  | nil => cases hx
  | cons y T => simp at hx; simp [hx]

theorem remove_head_ne (c : Str) (l : List Str) (h : c ∉ l) : (if l.head? = some c then l.tail else l) = l := by
  rw [if_neg]
  cases l with
  | nil => simp
  | cons x l => simp only [List.head?_cons, Option.some.injEq]; rintro rfl; simp at h

theorem merge_second (T B : List Str) : ∀ n, (B ++ T).length < n → (B ++ T).Nodup →
    merge n [T, B ++ T, []] = some (B ++ T) := by
  induction B with
  | nil => intro n h hn; exact merge_same T n h hn
  | cons b B ih =>
    intro n h hn
    simp only [List.cons_append, List.length_cons] at h
    obtain ⟨m, rfl⟩ : ∃ m, n = m + 1 := ⟨n - 1, by omega⟩
    have hn' := List.nodup_cons.1 hn
    have hb : b ∉ T := fun hx => hn'.1 (List.mem_append_right _ hx)
    rw [List.cons_append, merge_step m _ b (by simp) (cand_second T b (B ++ T) [[]] head_mem_append hn'.1 hb (by simp))]
    have : remove b [T, b :: (B ++ T), []] = [T, B ++ T, []] := by
      simp only [remove, List.map_cons, List.map_nil, remove_head_ne b T hb]
      simp
    rw [this, ih m (by omega) hn'.2]
    rfl

theorem merge_first (T : List Str) (b : Str) (B : List Str) (A : List Str) : ∀ n, (A ++ (b :: B ++ T)).length < n →
    (A ++ (b :: B ++ T)).Nodup → merge n [A ++ T, b :: B ++ T, [b]] = some (A ++ (b :: B ++ T)) := by
  induction A with
  | nil =>
    intro n h hn
    simp only [List.cons_append, List.nil_append, List.length_cons] at h hn
    obtain ⟨m, rfl⟩ : ∃ m, n = m + 1 := ⟨n - 1, by omega⟩
    have hn' := List.nodup_cons.1 hn
    have hb : b ∉ T := fun hx => hn'.1 (List.mem_append_right _ hx)
    rw [List.nil_append, List.cons_append,
      merge_step m _ b (by simp) (cand_second T b (B ++ T) [[b]] head_mem_append hn'.1 hb (by simp))]
    have : remove b [T, b :: (B ++ T), [b]] = [T, B ++ T, []] := by
      simp only [remove, List.map_cons, List.map_nil, remove_head_ne b T hb]
      simp
    rw [this, merge_second T B m (by omega) hn'.2]
    rfl
  | cons a A ih =>
    intro n h hn
    simp only [List.cons_append, List.length_cons] at h
    obtain ⟨m, rfl⟩ : ∃ m, n = m + 1 := ⟨n - 1, by omega⟩
    have hn' := List.nodup_cons.1 hn
    have h1 : a ∉ A ++ T := by
      intro hx
      apply hn'.1
      rcases List.mem_append.1 hx with hx | hx
      · exact List.mem_append_left _ hx
      · exact List.mem_append_right _ (List.mem_append_right _ hx)
    have h2 : a ∉ b :: B ++ T := fun hx => hn'.1 (List.mem_append_right _ hx)
    have h3 : a ≠ b := fun e => h2 (by simp [e])
    rw [List.cons_append, merge_step m _ a (by simp) (cand_first a (A ++ T) _ h1 ?_)]
    · have : remove a [a :: (A ++ T), b :: B ++ T, [b]] = [A ++ T, b :: B ++ T, [b]] := by
        simp only [remove, List.map_cons, List.map_nil, remove_head_ne a _ h2]
        simp [Ne.symm h3]
      rw [this, ih m (by simp at h ⊢; omega) hn'.2]
      rfl
    · intro l hl
      simp only [List.mem_cons, List.not_mem_nil, or_false] at hl
      rcases hl with rfl | rfl
      · intro hx; exact h2 (List.mem_of_mem_tail hx)
      · simp

theorem merge_wrap (T : List Str) (a : Str) (A : List Str) (b : Str) (B : List Str) (n : Nat)
    (h : (a :: A ++ (b :: B ++ T)).length < n) (hn : (a :: A ++ (b :: B ++ T)).Nodup) :
    merge n [a :: A ++ T, b :: B ++ T, [a, b]] = some (a :: A ++ (b :: B ++ T)) := by
  simp only [List.cons_append, List.length_cons] at h
  obtain ⟨m, rfl⟩ : ∃ m, n = m + 1 := ⟨n - 1, by omega⟩
  have hn' := List.nodup_cons.1 (by simpa only [List.cons_append] using hn)
  have h1 : a ∉ A ++ T := by
    intro hx
    apply hn'.1
    simp only [List.mem_append, List.mem_cons] at hx ⊢
    rcases hx with hx | hx
    · exact .inl hx
    · exact .inr (.inr (.inr hx))
  have h2 : a ∉ b :: B ++ T := fun hx => hn'.1 (List.mem_append_right _ hx)
  have h3 : a ≠ b := fun e => h2 (by simp [e])
  rw [List.cons_append, merge_step m _ a (by simp) (cand_first a (A ++ T) _ h1 ?_)]
  · have : remove a [a :: (A ++ T), b :: B ++ T, [a, b]] = [A ++ T, b :: B ++ T, [b]] := by
      simp only [remove, List.map_cons, List.map_nil, remove_head_ne a _ h2]
      simp
    rw [this, merge_first T b B A m (by simp at h ⊢; omega) hn'.2]
    rfl
  · intro l hl
    simp only [List.mem_cons, List.not_mem_nil, or_false] at hl
    rcases hl with rfl | rfl
    · intro hx; exact h2 (List.mem_of_mem_tail hx)
    · simpa using h3

theorem merge_single (b : Str) (M : List Str) (n : Nat) (h : (b :: M).length < n) (hn : (b :: M).Nodup) :
    merge n [b :: M, [b]] = some (b :: M) := by
  have go : ∀ (M : List Str) (n : Nat), M.length < n → M.Nodup → merge n [M, []] = some M := by
    intro M
    induction M with
    | nil =>
      intro n h _
      obtain ⟨m, rfl⟩ : ∃ m, n = m + 1 := ⟨n - 1, by simp at h; omega⟩
      rfl
    | cons t T ih =>
      intro n h hn
      simp only [List.length_cons] at h
      obtain ⟨m, rfl⟩ : ∃ m, n = m + 1 := ⟨n - 1, by omega⟩
      have hn' := List.nodup_cons.1 hn
      rw [merge_step m _ t (by simp) (cand_first t T _ hn'.1 (by simp))]
      have : remove t [t :: T, []] = [T, []] := by simp [remove]
      rw [this, ih m (by omega) hn'.2]
      rfl
  simp only [List.length_cons] at h
  obtain ⟨m, rfl⟩ : ∃ m, n = m + 1 := ⟨n - 1, by omega⟩
  have hn' := List.nodup_cons.1 hn
  rw [merge_step m _ b (by simp) (cand_first b M _ hn'.1 (by simp))]
  have : remove b [b :: M, [b]] = [M, []] := by simp [remove]
  rw [this, go M m (by omega) hn'.2]
  rfl

/-- C145, derived classes: a class with one base has the resolution order of the base behind it. -/
theorem C145_single (classes : List (Str × Cls)) (new b : Str) (M : List Str) (c0 c : Option (Option Int))
    (hb : Dict.get classes b = some ⟨b :: M, c0⟩) (hn : (b :: M).Nodup) :
    define classes ⟨new, [b], c⟩ = some (Dict.set classes new ⟨new :: b :: M, c⟩) := by
  unfold define
  simp only [List.mapM_cons, List.mapM_nil, hb, Option.map_some]
  have := merge_single b M (([b :: M, [b]] : List (List Str)).flatten.length + 1)
    (by simp only [List.flatten_cons, List.flatten_nil, List.length_append, List.length_cons]; omega) hn
  simp only [bind, Option.bind, pure, List.cons_append, List.nil_append]
  simp only [this]

/-- The name of the class that `wrap` makes. -/
def wrapName (cls exception : Str) (name : Option Str) : Str :=
  match name with
  | some n => if n = [] then cls ++ exception else n
  | none => cls ++ exception

theorem codeIn_congr (c1 c2 : List (Str × Cls)) (l : List Str) (h : ∀ x ∈ l, Dict.get c1 x = Dict.get c2 x) :
    codeIn c1 l = codeIn c2 l := by
  induction l with
  | nil => rfl
  | cons x l ih => rw [codeIn, codeIn, h x (.head _), ih fun y hy => h y (.tail _ hy)]

theorem codeIn_append (classes : List (Str × Cls)) (A B : List Str)
    (h : ∃ x ∈ A, ((Dict.get classes x).bind (·.code)).isSome) : codeIn classes (A ++ B) = codeIn classes A := by
  induction A with
  | nil => obtain ⟨x, hx, -⟩ := h; cases hx
  | cons a A ih =>
    rw [List.cons_append, codeIn, codeIn]
    split
    · rfl
    · rename_i hn
      refine ih ?_
      obtain ⟨x, hx, hs⟩ := h
      rcases List.mem_cons.1 hx with rfl | hm
      · rw [hn] at hs; cases hs
      · exact ⟨x, hm, hs⟩

/-- C145, wrapped classes.  Whatever class and exception are wrapped: the new class derives from both; all
classes of the former (but the common ones) come before those of the latter; and it has the code of the
former. -/
theorem C145_wrap (classes : List (Str × Cls)) (cls exception : Str) (name : Option Str) (A B T : List Str)
    (c1 c2 : Option (Option Int)) (h1 : Dict.get classes cls = some ⟨cls :: A ++ T, c1⟩)
    (h2 : Dict.get classes exception = some ⟨exception :: B ++ T, c2⟩)
    (hn : (cls :: A ++ (exception :: B ++ T)).Nodup)
    (hnew : wrapName cls exception name ∉ cls :: A ++ (exception :: B ++ T))
    (hcode : ∃ x ∈ cls :: A, ((Dict.get classes x).bind (·.code)).isSome) :
    ∃ classes', wrap classes cls exception name = some classes' ∧
      (∀ x, x ≠ wrapName cls exception name → Dict.get classes' x = Dict.get classes x) ∧
      ∃ c, Dict.get classes' (wrapName cls exception name) = some c ∧
        c.mro = wrapName cls exception name :: (cls :: A ++ (exception :: B ++ T)) ∧
        (∀ x ∈ cls :: A ++ T, x ∈ c.mro) ∧ (∀ x ∈ exception :: B ++ T, x ∈ c.mro) ∧
        codeIn classes' c.mro = codeIn classes (cls :: A ++ T) := by
  have hw : wrap classes cls exception name = some (Dict.set classes (wrapName cls exception name)
      ⟨wrapName cls exception name :: (cls :: A ++ (exception :: B ++ T)), none⟩) := by
    have := merge_wrap T cls A exception B
      (([cls :: A ++ T, exception :: B ++ T, [cls, exception]] : List (List Str)).flatten.length + 1)
      (by simp only [List.flatten_cons, List.flatten_nil, List.length_append, List.length_cons]; omega) hn
    unfold wrap define
    simp only [List.mapM_cons, List.mapM_nil, h1, h2, Option.map_some]
    simp only [bind, Option.bind, pure]
    have e : ([cls :: A ++ T, exception :: B ++ T] : List (List Str)) ++ [[cls, exception]] =
        [cls :: A ++ T, exception :: B ++ T, [cls, exception]] := rfl
    rw [e, this]
    rfl
  generalize wrapName cls exception name = new at hw hnew ⊢
  refine ⟨_, hw, fun x hx => by rw [Dict.get_set, if_neg hx], _, by rw [Dict.get_set, if_pos rfl], rfl, ?_, ?_, ?_⟩
  · intro x hx
    simp only [List.mem_append, List.mem_cons] at hx ⊢
    rcases hx with hx | hx
    · exact .inr (.inl hx)
    · exact .inr (.inr (.inr hx))
  · intro x hx
    simp only [List.mem_append, List.mem_cons] at hx ⊢
    exact .inr (.inr hx)
  · have hg : ∀ x ∈ cls :: A ++ (exception :: B ++ T),
        Dict.get (Dict.set classes new ⟨new :: (cls :: A ++ (exception :: B ++ T)), none⟩) x = Dict.get classes x := by
      intro x hx
      rw [Dict.get_set, if_neg]
      rintro rfl
      exact hnew hx
    rw [codeIn, Dict.get_set, if_pos rfl]
    simp only [Option.bind_some]
    rw [codeIn_congr _ classes _ hg, codeIn_append _ _ _ hcode, codeIn_append _ _ _ hcode]

/-! ### The classes of the module -/

/-- C145, the classes of the module.  All are HTTP exceptions and instances of `Exception`; derived from what
the source says (the table of C65), in order; with the code of the most derived class that has one; and all
codes but that of the common base have a reason phrase. -/
theorem C145_classes :
    (statements.map (·.name) = Abort.repoClasses.map (·.name)) ∧
    (∀ c ∈ Abort.repoClasses, mro c.name = c.bases ++ [s%"Exception", s%"BaseException", s%"object"] ∧
      code c.name = c.code ∧ s%"HTTPException" ∈ mro c.name) ∧
    mro s%"BadRequestKeyError" = [s%"BadRequestKeyError", s%"BadRequest", s%"HTTPException", s%"KeyError",
      s%"LookupError", s%"Exception", s%"BaseException", s%"object"] ∧
    code s%"BadRequestKeyError" = some 400 := by
  refine ⟨by decide +kernel, ?_, by decide +kernel, by decide +kernel⟩
  have : (Abort.repoClasses.all fun c => decide (mro c.name = c.bases ++ [s%"Exception", s%"BaseException", s%"object"] ∧
      code c.name = c.code ∧ s%"HTTPException" ∈ mro c.name)) = true := by decide +kernel
  intro c hc
  simpa using List.all_eq_true.1 this c hc

theorem known_codes (cls : Str) (n : Int) (h : code cls = some n) :
    ∃ p, Dict.get statusCodes n = some p ∧ 400 ≤ n ∧ n ≤ 599 := by
  have hall : ∃ classes, loaded = some classes ∧ (classes.all fun q =>
      match codeIn classes q.2.mro with
      | none => true
      | some n => (Dict.get statusCodes n).isSome && decide (400 ≤ n ∧ n ≤ 599)) = true := by
    have : (match loaded with
      | none => false
      | some classes => classes.all fun q =>
        match codeIn classes q.2.mro with
        | none => true
        | some n => (Dict.get statusCodes n).isSome && decide (400 ≤ n ∧ n ≤ 599)) = true := by decide +kernel
    cases hl : loaded with
    | none => rw [hl] at this; cases this
    | some classes => rw [hl] at this; exact ⟨classes, rfl, this⟩
  obtain ⟨classes, hl, ha⟩ := hall
  unfold code mro at h
  rw [hl] at h
  simp only at h
  cases hc : Dict.get classes cls with
  | none => rw [hc] at h; cases h
  | some c =>
    rw [hc] at h
    simp only at h
    have := List.all_eq_true.1 ha (cls, c) (Dict.mem_of_get hc)
    simp only [h, Bool.and_eq_true, decide_eq_true_eq] at this
    obtain ⟨p, hp⟩ := Option.isSome_iff_exists.1 this.1
    exact ⟨p, hp, this.2⟩

theorem init_status (cfg : Response.Cfg) (headers : Headers.HList) (ct : Option Str) (n : Int) (direct : Bool)
    (b : Response.Init) (r : Response.Resp) (h : Response.init cfg headers ct n direct b = .ok r) :
    r.code = n ∧ r.status = (match cfg.reason n with
      | some t => Py.intStr n ++ s%" " ++ t
      | none => Py.intStr n ++ s%" UNKNOWN") := by
  unfold Response.init at h
  simp only at h
  split at h
  · cases h; exact ⟨rfl, rfl⟩
  · cases h; exact ⟨rfl, rfl⟩
  · split at h
    · rename_i r' _ hs
      unfold Response.setData at hs
      split at hs
      · cases hs
      · cases hs; cases h; exact ⟨rfl, rfl⟩
    · cases h

/-- C145, answers.  For every class with a code, an answer made with that code has a status line of the code
and the name of the exception in capitals; reading the line gives the code; and the text of the exception
has both.  Without a code there is no text. -/
theorem C145_answer (web : Response.Cfg) (upper : Str → Str) (hr : web.reason = reason upper) (cls : Str)
    (ct : Option Str) (body : Response.Init) (r : Response.Resp) (hp : errorPage web cls ct body = .ok r) :
    (∀ n, code cls = some n → ∃ p, (n, p) ∈ statusCodes ∧ name (code cls) = p ∧
      r.code = n ∧ r.status = Py.intStr n ++ s%" " ++ upper p ∧
      (Response.setStatus r r.status).1 = r ∧ str (code cls) = .ok (Py.intStr n ++ s%": " ++ p)) ∧
    (code cls = none → r.code = 200 ∧ str (code cls) = .error .typeError ∧ name (code cls) = s%"Unknown Error") := by
  refine ⟨fun n hn => ?_, fun hn => ?_⟩
  · obtain ⟨p, h1, -, -⟩ := known_codes cls n hn
    unfold errorPage at hp
    rw [hn] at hp
    obtain ⟨e1, e2⟩ := init_status _ _ _ _ _ _ _ hp
    rw [hr] at e2
    simp only [reason, h1, Option.map_some] at e2
    refine ⟨p, Dict.mem_of_get h1, ?_, e1, e2, ?_, ?_⟩
    · simp [hn, name, h1]
    · have hw : Response.firstWord (Py.intStr n ++ ' ' :: upper p) = some (Py.intStr n) := Resp.firstWord_intStr n (upper p)
      have e3 : r.status = Py.intStr n ++ ' ' :: upper p := by rw [e2]; simp
      unfold Response.setStatus
      rw [e3, hw]
      simp only [Py.intOf_intStr]
      rw [← e3, ← e1]
    · simp [hn, str, name, h1]
  · unfold errorPage at hp
    rw [hn] at hp
    refine ⟨(init_status _ _ _ _ _ _ _ hp).1, ?_, ?_⟩ <;> rw [hn] <;> rfl

/-- Letters of ASCII in capitals. -/
def asciiUp (c : Char) : Char := if 'a' ≤ c ∧ c ≤ 'z' then Char.ofNat (c.toNat - 32) else c

/-- C145, reason phrases: those of the table stand in one line, so that what C142 asks of them holds. -/
theorem C145_reasons (web : Response.Cfg) (upper : Str → Str) (hr : web.reason = reason upper)
    (hu : ∀ s : Str, (∀ c ∈ s, c.toNat < 128) → upper s = s.map asciiUp) : WireP.PlainReasons web := by
  intro n t ht
  rw [hr] at ht
  unfold reason at ht
  obtain ⟨p, hp, rfl⟩ := Option.map_eq_some_iff.1 ht
  have : (statusCodes.all fun q => decide ((∀ c ∈ q.2, c.toNat < 128) ∧ Spec.LegalValue (q.2.map asciiUp))) = true := by
    decide +kernel
  have := List.all_eq_true.1 this _ (Dict.mem_of_get hp)
  simp only [decide_eq_true_eq] at this
  rw [hu p this.1]
  exact this.2

/-- C145 (limits): codes of today's registry that the table lacks are sent without a phrase. -/
theorem C145_unknown_limits (web : Response.Cfg) (upper : Str → Str) (hr : web.reason = reason upper) (r : Response.Resp) :
    ∀ n ∈ ([308, 421, 451, 508, 511] : List Int), (Response.setStatusCode web r n).status = Py.intStr n ++ s%" UNKNOWN" := by
  intro n hn
  have : Dict.get statusCodes n = none := by
    revert n
    decide
  simp [Response.setStatusCode, hr, reason, this]

/-! ### A missing parameter -/

theorem getitem_ofPairs (ps : List (Str × Str)) (k : Str) : MD.getitem (MD.ofPairs ps) k =
    match valuesFor ps k with
    | [] => .error .keyError
    | v :: _ => .ok v := by
  have key : ∀ (ps : List (Str × Str)) (acc : MD.MDict Str Str),
      Dict.get (ps.foldl (fun d p => MD.add d p.1 p.2) acc) k =
        if valuesFor ps k = [] then Dict.get acc k else some ((Dict.get acc k).getD [] ++ valuesFor ps k) := by
    intro ps
    induction ps with
    | nil => intro acc; simp [valuesFor]
    | cons p ps ih =>
      intro acc
      have hv : valuesFor (p :: ps) k = if k = p.1 then p.2 :: valuesFor ps k else valuesFor ps k := by
        unfold valuesFor
        by_cases hk : k = p.1
        · simp [hk]
        · have hk' : ¬ p.1 = k := fun e => hk e.symm
          simp [hk, hk']
      rw [List.foldl_cons, ih, hv]
      unfold MD.add
      rw [Dict.get_set]
      by_cases hk : k = p.1
      · subst hk
        by_cases h0 : valuesFor ps p.1 = [] <;> simp [h0]
      · simp only [if_neg hk]
  unfold MD.getitem MD.ofPairs
  rw [key]
  cases h : valuesFor ps k with
  | nil => simp [Dict.get]
  | cons v vs => simp [Dict.get, MD.idx0]

/-- C145, a missing parameter, from the request to the status line.  Where the view for a request begins by
reading a parameter of the query: if the query has it with a value, the view goes on with the first one.
If it has not, the handler is chosen among those of `BadRequest` and its bases before any handler for
`KeyError`, and if that answers with the code of the exception, what is sent is `400 BAD REQUEST`. -/
theorem C145_missing_partial (a : Parts) (classOf : Exc → List Nat) (num : Str → Nat)
    (hmro : classOf (.lib .keyError) = (mro s%"BadRequestKeyError").map num)
    (autocorrect : Bool) (label : Str → Str) (environ : List (Str × Str))
    (ops : List Dispatch.Op) (d : Nat) (hdisp : a.disp = Dispatch.run ops d)
    (b : Routing.Bound) (vs : Routing.Values) (path query : Str) (hp : ReqUrl.path environ = .ok path)
    (hq : ReqUrl.queryString environ = .ok query)
    (hm : Routing.match_ a.map a.bound.adapter path query = .ok (.found b vs))
    (rep : Rep) (hsel : specLookup (a.select environ) (Dispatch.log ops d) b.route.endpoint (method environ) = .ok rep)
    (semi : Bool) (pairs : List (Str × Str)) (hquery : Dict.get environ s%"QUERY_STRING" = some (ReqUrl.urlencode pairs))
    (parameter : Str) (rest : Str → Except Exc Response.Resp)
    (hv : a.view rep environ vs = reading (ReqUrl.argPairs semi environ) parameter rest)
    (l : List Handler) (hl : a.handlers = register l)
    (pre post : List Str) (c : Str) (hc : [s%"BadRequestKeyError", s%"BadRequest", s%"HTTPException"] = pre ++ c :: post)
    (hpre : ∀ x ∈ pre, Skipped (a.select environ) l (num x)) (hne : handlersFor l (num c) ≠ [])
    (h : Rep) (hh : a.select environ ((handlersFor l (num c)).map (·.rep)) = .ok h) (hred : h ≠ a.redirects)
    (ct : Option Str) (body : Response.Init) (r : Response.Resp)
    (hpage : errorPage a.web s%"BadRequestKeyError" ct body = .ok r) (hhandle : a.handle h environ (.lib .keyError) = .ok r)
    (hs : Headers.HList) (hsent : UrlJoin.sentHeaders a.web autocorrect a.idna label environ r = .ok hs)
    (upper : Str → Str) (hr : a.web.reason = reason upper) (hu : upper s%"Bad Request" = s%"BAD REQUEST") :
    (∀ v vs', (valuesFor pairs parameter).filter (· ≠ []) = v :: vs' → a.view rep environ vs = rest v) ∧
    ((valuesFor pairs parameter).filter (· ≠ []) = [] →
      ∃ sent, a.serve classOf autocorrect label environ = .ok sent ∧ sent.status = s%"400 BAD REQUEST") := by
  have hargs := ReqUrlP.C90_args_partial semi environ pairs hquery
  have hvals : valuesFor (pairs.filter fun p => p.2 ≠ []) parameter = (valuesFor pairs parameter).filter (· ≠ []) := by
    unfold valuesFor
    rw [List.filter_filter, List.filter_map, List.filter_filter]
    congr 1
    apply List.filter_congr
    intro p _
    simp [Bool.and_comm]
  have hview : a.view rep environ vs = match (valuesFor pairs parameter).filter (· ≠ []) with
      | [] => .error (.lib .keyError)
      | v :: _ => rest v := by
    rw [hv, hargs]
    unfold reading
    simp only
    rw [getitem_ofPairs, hvals]
    cases (valuesFor pairs parameter).filter (· ≠ []) <;> rfl
  refine ⟨fun v vs' e => by rw [hview, e], fun e => ?_⟩
  have hroute : a.route environ = .ok (b.route.endpoint, vs) := by
    unfold Parts.route
    rw [hp]; simp only
    rw [hq]; simp only
    simp only [Routing.BoundMap.match_, Option.some_or, Option.getD_some]
    rw [hm]
  have hout : viewOutcome a.app method a.select environ = .error (.lib .keyError) := by
    unfold viewOutcome
    simp only [Parts.app]
    rw [hroute]
    simp only
    rw [hdisp, C40_lookup, hsel]
    simp only
    rw [hview, e]
  have hfull : classOf (.lib .keyError) = pre.map num ++ num c :: (post ++ [s%"KeyError", s%"LookupError", s%"Exception",
      s%"BaseException", s%"object"]).map num := by
    rw [hmro, C145_classes.2.2.1]
    have e5 : ([s%"BadRequestKeyError", s%"BadRequest", s%"HTTPException", s%"KeyError", s%"LookupError", s%"Exception",
        s%"BaseException", s%"object"] : List Str) = [s%"BadRequestKeyError", s%"BadRequest", s%"HTTPException"] ++
        [s%"KeyError", s%"LookupError", s%"Exception", s%"BaseException", s%"object"] := rfl
    rw [e5, hc]
    simp
  have hresp := ((C62_errors_partial a.app l hl classOf method a.select environ).2 _ hout).2.2 rfl _ _ _ h hfull
    (by
      intro x hx
      obtain ⟨y, hy, rfl⟩ := List.mem_map.1 hx
      exact hpre y hy) hne hh
  have hcall : a.app.handle h environ (.lib .keyError) = .ok r := by
    show a.call h environ (.lib .keyError) = .ok r
    unfold Parts.call
    rw [if_neg hred, hhandle]
  refine ⟨⟨r.status, hs, Response.appIter (method environ) r⟩, ?_, ?_⟩
  · unfold Parts.serve Parts.response
    rw [hresp, hcall]
    simp only
    unfold Parts.send
    rw [hsent]
  · show r.status = _
    obtain ⟨p, h1, h2, -, h4, -⟩ := (C145_answer a.web upper hr _ ct body r hpage).1 400 C145_classes.2.2.2
    have : p = s%"Bad Request" := by
      rw [← h2, C145_classes.2.2.2]
      decide
    rw [h4, this, hu]
    decide +kernel

/-! ### Examples -/

/-- Numbers for the classes. -/
def exNum (c : Str) : Nat := ((mro s%"BadRequestKeyError").findIdx (· = c)) + 10

/-- Resolution orders with these numbers. -/
def exMro : Exc → List Nat
  | .lib .keyError => (mro s%"BadRequestKeyError").map exNum
  | _ => []

/-- The handlers of the example: one for all HTTP exceptions and one for `KeyError`. -/
def exHandlers : List Handler :=
  [⟨0, AppP.appRedirects⟩, ⟨exNum s%"KeyError", offer 6 s%"application/json"⟩, ⟨exNum s%"HTTPException", offer 5 s%"text/html"⟩]

/-- The library functions of the example. -/
def exWeb : Response.Cfg := { Verif.Props.JoinP.locCfg with reason := reason (List.map asciiUp) }

/-- The answer to a missing parameter in the example. -/
def exPage : Response.Resp := ⟨[], s%"400 BAD REQUEST", 400, .list [], [], false⟩

/-- An application whose view reads the parameter `id`. -/
def exApp : Parts :=
  { AppP.appOf AppP.dirOps with
    web := exWeb
    handlers := register exHandlers
    view := fun _ environ _ => reading (ReqUrl.argPairs false environ) s%"id" fun v => .ok ⟨[], v, 200, .list [], [], false⟩
    handle := fun h _ e => if h.id = 5 then .ok exPage else .error e }

/-- The status lines of the example. -/
def exStatus (query : Str) : Option Str :=
  match exApp.serve exMro true id (AppP.appEnv s%"/a b/" query) with
  | .ok x => some x.status
  | .error _ => none

set_option synthInstance.maxSize 1000 in
set_option maxRecDepth 8000 in
example : exStatus s%"id=7&x=1" = some s%"7" ∧ exStatus s%"x=1" = some s%"400 BAD REQUEST" ∧
    exStatus s%"id=&x=1" = some s%"400 BAD REQUEST" := by
  refine ⟨?_, ?_, ?_⟩ <;> decide +kernel

/-- The hypotheses of the theorem are met by the example. -/
example : ∃ sent, exApp.serve exMro true id (AppP.appEnv s%"/a b/" s%"x=1") = .ok sent ∧ sent.status = s%"400 BAD REQUEST" := by
  have hm : ∃ b vs, Routing.match_ exApp.map exApp.bound.adapter s%"/a b/" s%"x=1" = .ok (.found b vs) ∧
      b.route.endpoint = s%"dir" := by
    have : (match Routing.match_ exApp.map exApp.bound.adapter s%"/a b/" s%"x=1" with
      | .ok (.found b _) => decide (b.route.endpoint = s%"dir")
      | _ => false) = true := by decide +kernel
    split at this
    · exact ⟨_, _, by assumption, by simpa using this⟩
    · cases this
  obtain ⟨b, vs, hm, he⟩ := hm
  refine (C145_missing_partial exApp exMro exNum rfl true id (AppP.appEnv s%"/a b/" s%"x=1")
    [.add 0 [⟨s%"dir", s%"GET", offer 0 s%"text/html"⟩, ⟨s%"dir", s%"GET", offer 1 s%"application/json"⟩]] 0 rfl b vs
    s%"/a b/" s%"x=1" (by decide +kernel) (by decide +kernel) hm (offer 1 s%"application/json") (by rw [he]; decide +kernel) false
    [(s%"x", s%"1")] (by decide +kernel) s%"id"
    (fun v => .ok ⟨[], v, 200, .list [], [], false⟩) rfl exHandlers rfl [s%"BadRequestKeyError", s%"BadRequest"] []
    s%"HTTPException" rfl ?_ (by decide +kernel) (offer 5 s%"text/html") (by decide +kernel) (by decide) none .none exPage
    (by decide +kernel) rfl [(s%"Content-Length", s%"0")] (by decide +kernel) (List.map asciiUp) rfl (by decide)).2 (by decide)
  intro x hx
  simp only [List.mem_cons, List.not_mem_nil, or_false] at hx
  rcases hx with rfl | rfl <;> exact .inl (by decide +kernel)

example : wrap ((loaded).getD []) s%"NotFound" s%"LookupError" none ≠ none ∧
    wrapName s%"NotFound" s%"LookupError" none = s%"NotFoundLookupError" := by decide +kernel

end Verif.Props.ErrorsP
