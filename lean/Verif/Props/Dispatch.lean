import Verif.Model.Dispatch
import Verif.Props.Accept
/-!
C40, C44, C45, C61, C62: dispatching requests and exceptions (`/repo/verktyg/dispatch.py`,
`/repo/verktyg/exception_dispatch.py`, `/repo/verktyg/application.py`).
-/
namespace Verif.Dispatch
open Verif Verif.Accept

/-! ### Specification: what was added, in order -/

/-- What has been added to each dispatcher by a history. -/
def added (l : Nat → List Binding) : Op → Nat → List Binding
  | .add d bs => fun i => if i = d then l d ++ bs else l i
  | .nest d d' => if d = d' then l else fun i => if i = d then l d ++ l d' else l i

/-- All additions of a history. -/
def log (ops : List Op) : Nat → List Binding := ops.foldl added fun _ => []

/-- The bindings added for a name and a method, in order. -/
def candidates (l : List Binding) (name method : Str) : List Binding :=
  l.filter fun b => b.name = name ∧ b.method = method

/-- What a lookup should do, read off the list of additions. -/
def specLookup (sel : List Rep → Except PyErr Rep) (l : List Binding) (name method : Str) : Except PyErr Rep :=
  if ∀ b ∈ l, b.name ≠ name then .error .notImplemented
  else if candidates l name method ≠ [] then sel ((candidates l name method).map (·.rep))
  else if method = s%"HEAD" ∧ candidates l name s%"GET" ≠ [] then sel ((candidates l name s%"GET").map (·.rep))
  else .error .methodNotAllowed

/-! ### The index -/

/-- A list, or nothing for the empty one. -/
def nonempty {α} (l : List α) : Option (List α) := if l.isEmpty then none else some l

/-- The index of methods for one name. -/
def GoodName (l : List Binding) (n : Str) : Option (List (Str × List Binding)) → Prop
  | none => ∀ b ∈ l, b.name ≠ n
  | some w => (∃ b ∈ l, b.name = n) ∧ ∀ m, Dict.get w m = nonempty (candidates l n m)

/-- The state agrees with the list of additions. -/
def Good (d : Disp) (l : List Binding) : Prop := d.views = l ∧ ∀ n, GoodName l n (Dict.get d.index n)

theorem good_empty : Good .empty [] := ⟨rfl, fun _ => by simp [Disp.empty, GoodName]⟩

theorem candidates_append (l : List Binding) (b : Binding) (n m : Str) : candidates (l ++ [b]) n m =
    if b.name = n ∧ b.method = m then candidates l n m ++ [b] else candidates l n m := by
  unfold candidates
  by_cases h : b.name = n ∧ b.method = m
  · rw [if_pos h]; simp [List.filter_append, h]
  · rw [if_neg h]; simp [List.filter_append]; simpa using h

theorem good_add {d l} (h : Good d l) (b : Binding) : Good (d.add b) (l ++ [b]) := by
  obtain ⟨hv, hi⟩ := h
  refine ⟨by simp [Disp.add, hv], ?_⟩
  intro n
  -- the entry for the name of the binding, created if missing
  have e1 : ∀ n', Dict.get (if Dict.has d.index b.name then d.index else Dict.set d.index b.name []) n' =
      if n' = b.name then some ((Dict.get d.index b.name).getD []) else Dict.get d.index n' := by
    intro n'
    unfold Dict.has
    cases hg : Dict.get d.index b.name with
    | none =>
      simp only [Option.isSome_none, Bool.false_eq_true, if_false, Dict.get_set, Option.getD_none]
    | some w =>
      simp only [Option.isSome_some, if_true, Option.getD_some]
      split
      · rename_i h; rw [h, hg]
      · rfl
  simp only [Disp.add]
  rw [Dict.get_set]
  by_cases hn : n = b.name
  · subst hn
    rw [if_pos rfl, e1, if_pos rfl]
    simp only [Option.getD_some]
    refine ⟨⟨b, by simp, rfl⟩, ?_⟩
    intro m
    -- the methods known for that name before
    have hw : ∀ m, Dict.get ((Dict.get d.index b.name).getD []) m = nonempty (candidates l b.name m) := by
      intro m
      have := hi b.name
      cases hg : Dict.get d.index b.name with
      | none =>
        rw [hg] at this
        have hc : candidates l b.name m = [] := by
          unfold candidates
          rw [List.filter_eq_nil_iff]
          intro x hx
          simp [this x hx]
        simp [hc, nonempty]
      | some w =>
        rw [hg] at this
        simpa using this.2 m
    generalize hW : (Dict.get d.index b.name).getD [] = W at hw
    have e2 : ∀ m', Dict.get (if Dict.has W b.method then W else Dict.set W b.method []) m' =
        if m' = b.method then some ((Dict.get W b.method).getD []) else Dict.get W m' := by
      intro m'
      unfold Dict.has
      cases hg : Dict.get W b.method with
      | none =>
        simp only [Option.isSome_none, Bool.false_eq_true, if_false, Dict.get_set, Option.getD_none]
      | some w =>
        simp only [Option.isSome_some, if_true, Option.getD_some]
        split
        · rename_i h; rw [h, hg]
        · rfl
    rw [Dict.get_set, candidates_append]
    by_cases hm : m = b.method
    · subst hm
      rw [if_pos rfl, e2, if_pos rfl, if_pos ⟨rfl, rfl⟩, hw]
      unfold nonempty
      cases candidates l b.name b.method <;> simp
    · rw [if_neg hm, e2, if_neg hm, if_neg (by simp [Ne.symm hm]), hw]
  · rw [if_neg hn, e1, if_neg hn]
    have := hi n
    cases hg : Dict.get d.index n with
    | none =>
      rw [hg] at this
      intro x hx
      rcases List.mem_append.1 hx with hx | hx
      · exact this x hx
      · simp at hx; rw [hx]; exact Ne.symm hn
    | some w =>
      rw [hg] at this
      obtain ⟨⟨x, hx, hxn⟩, hm⟩ := this
      refine ⟨⟨x, by simp [hx], hxn⟩, ?_⟩
      intro m
      rw [candidates_append, if_neg (by simp [Ne.symm hn]), hm]

theorem good_addAll {d l} (h : Good d l) (bs : List Binding) : Good (d.addAll bs) (l ++ bs) := by
  induction bs generalizing d l with
  | nil => simpa [Disp.addAll] using h
  | cons b bs ih =>
    have := ih (good_add h b)
    simpa [Disp.addAll] using this

theorem good_run (ops : List Op) : ∀ i, Good (run ops i) (log ops i) := by
  unfold run log
  suffices ∀ (w : Nat → Disp) (l : Nat → List Binding), (∀ i, Good (w i) (l i)) →
      ∀ i, Good (ops.foldl step w i) (ops.foldl added l i) from this _ _ fun _ => good_empty
  induction ops with
  | nil => intro w l h; exact h
  | cons op ops ih =>
    intro w l h
    apply ih
    intro i
    cases op with
    | add d bs =>
      simp only [step, added]
      split
      · exact good_addAll (h d) bs
      · exact h i
    | nest d d' =>
      simp only [step, added]
      split
      · exact h i
      · by_cases hi : i = d
        · simp only [hi, if_true]
          rw [(h d').1]
          exact good_addAll (h d) _
        · simp only [hi, if_false]
          exact h i

/-- **C40.**  After any history of adding views and nesting dispatchers, a lookup answers as
the list of additions says: 501 if nothing has the name, otherwise a choice among exactly the
bindings with the name and the method in order of addition, with HEAD answered by the GET
bindings when it has none of its own, and 405 otherwise. -/
theorem C40_lookup (sel : List Rep → Except PyErr Rep) (ops : List Op) (d : Nat) (name method : Str) :
    (run ops d).lookup sel name method = specLookup sel (log ops d) name method := by
  have hg := (good_run ops d).2 name
  generalize hl : log ops d = l at hg
  unfold Disp.lookup specLookup
  cases h : Dict.get (run ops d).index name with
  | none =>
    rw [h] at hg
    rw [if_pos (show ∀ b ∈ l, b.name ≠ name from hg)]
  | some w =>
    rw [h] at hg
    obtain ⟨⟨b, hb, hbn⟩, hm⟩ := hg
    rw [if_neg (by intro h; exact h b hb hbn)]
    simp only
    rw [hm, hm]
    unfold nonempty
    cases hc : candidates l name method with
    | cons x xs => simp
    | nil =>
      simp only [List.isEmpty_nil, if_true, ne_eq, not_true, if_false]
      by_cases hh : method = s%"HEAD"
      · rw [if_pos hh]
        cases hc2 : candidates l name s%"GET" with
        | cons x xs => simp [hh]
        | nil => simp
      · rw [if_neg hh, if_neg (by simp [hh])]

/-- **C40, with the library's negotiation.**  What is returned belongs to a binding that was
added under the name, for the method (or for GET, if the method is HEAD). -/
theorem C40_sound (float : Str → Option Flt) (mul : Flt → Flt → Flt) (accept language charset : Option Str)
    (ops : List Op) (d : Nat) (name method : Str) (r : Rep)
    (h : (run ops d).lookup (fun rs => select float mul rs accept language charset) name method = .ok r) :
    ∃ b ∈ log ops d, b.name = name ∧ b.rep = r ∧ (b.method = method ∨ (method = s%"HEAD" ∧ b.method = s%"GET")) := by
  rw [C40_lookup] at h
  unfold specLookup at h
  have key : ∀ m, select float mul ((candidates (log ops d) name m).map (·.rep)) accept language charset = .ok r →
      ∃ b ∈ log ops d, b.name = name ∧ b.rep = r ∧ b.method = m := by
    intro m h
    obtain ⟨hm, _⟩ := C41_sound _ _ _ _ _ _ _ h
    obtain ⟨b, hb, e⟩ := List.mem_map.1 hm
    obtain ⟨h1, h2⟩ := List.mem_filter.1 hb
    simp at h2
    exact ⟨b, h1, h2.1, e, h2.2⟩
  split at h
  · simp at h
  · split at h
    · obtain ⟨b, h1, h2, h3, h4⟩ := key method h
      exact ⟨b, h1, h2, h3, Or.inl h4⟩
    · split at h
      · rename_i hh
        obtain ⟨b, h1, h2, h3, h4⟩ := key _ h
        exact ⟨b, h1, h2, h3, Or.inr ⟨hh.1, h4⟩⟩
      · simp at h

theorem mem_dedup (x : Str) (l : List Str) : x ∈ dedup l ↔ x ∈ l := by
  induction l with
  | nil => simp [dedup]
  | cons y ys ih =>
    simp only [dedup]
    split
    · rename_i h
      rw [ih]
      constructor
      · intro hx; simp [hx]
      · intro hx
        rcases List.mem_cons.1 hx with rfl | hx
        · exact h
        · exact hx
    · simp [ih]

theorem nodup_dedup (l : List Str) : (dedup l).Nodup := by
  induction l with
  | nil => simp [dedup]
  | cons y ys ih =>
    simp only [dedup]
    split
    · exact ih
    · rename_i h
      rw [List.nodup_cons]
      exact ⟨fun hm => h ((mem_dedup y ys).1 hm), ih⟩

/-- The methods a view was given: GET if none were named. -/
def Methods.Has : Methods → Str → Prop
  | .none, m => m = s%"GET"
  | .one x, m => m = x
  | .many ms, m => m ∈ ms

theorem mem_set (ms : Methods) (m : Str) : m ∈ ms.set ↔ ms.Has m := by
  cases ms <;> simp [Methods.set, Methods.Has, mem_dedup]

/-- **C40, views.**  A view answers each of its methods once, and no other method. -/
theorem C40_view (name : Str) (ms : Methods) (rep : Rep) (m : Str) :
    (ms.Has m → candidates (viewBindings name ms rep) name m = [⟨name, m, rep⟩]) ∧
    (¬ ms.Has m → candidates (viewBindings name ms rep) name m = []) := by
  suffices h : candidates (viewBindings name ms rep) name m = if m ∈ ms.set then [⟨name, m, rep⟩] else [] by
    rw [h]
    exact ⟨fun hm => if_pos ((mem_set ms m).2 hm), fun hm => if_neg fun h => hm ((mem_set ms m).1 h)⟩
  have hn : ms.set.Nodup := by
    cases ms with
    | none => simp [Methods.set]
    | one m => simp [Methods.set]
    | many ms => exact nodup_dedup ms
  unfold candidates viewBindings
  generalize ms.set = l at hn
  induction l with
  | nil => simp
  | cons x xs ih =>
    rw [List.nodup_cons] at hn
    simp only [List.map_cons, List.filter_cons, ih hn.2, List.mem_cons]
    by_cases hx : x = m
    · subst hx
      simp [hn.1]
    · have : ¬ (m = x) := fun h => hx h.symm
      simp [hx, this]

example : (run [.add 0 (viewBindings s%"page" (.many [s%"GET", s%"POST"]) (offer 7 s%"text/html")), .nest 1 0] 1).lookup
    (fun rs => select demoFloat demoMul rs none none none) s%"page" s%"HEAD" = .ok (offer 7 s%"text/html") := by
  decide +kernel
example : (run [.add 0 (viewBindings s%"page" .none (offer 7 s%"text/html"))] 0).lookup
    (fun rs => select demoFloat demoMul rs none none none) s%"page" s%"POST" = .error .methodNotAllowed := by
  decide +kernel

/-! ### Exceptions -/

/-- The handlers registered for a class, in order. -/
def handlersFor (l : List Handler) (c : Nat) : List Handler := l.filter fun h => h.cls = c

/-- A dispatcher with the given handlers added one after the other. -/
def register (l : List Handler) : Handlers := l.foldl addHandler []

theorem get_register (l : List Handler) (c : Nat) : Dict.get (register l) c = nonempty (handlersFor l c) := by
  unfold register
  suffices ∀ (hs : Handlers) (pre : List Handler), (∀ c, Dict.get hs c = nonempty (handlersFor pre c)) →
      Dict.get (l.foldl addHandler hs) c = nonempty (handlersFor (pre ++ l) c) from
    this [] [] fun _ => rfl
  induction l with
  | nil => intro hs pre h; simpa using h c
  | cons x xs ih =>
    intro hs pre h
    have := ih (addHandler hs x) (pre ++ [x]) ?_
    · simpa using this
    · intro c
      unfold addHandler
      rw [Dict.get_set]
      unfold handlersFor
      rw [List.filter_append]
      by_cases hc : c = x.cls
      · subst hc
        rw [if_pos rfl, h]
        unfold nonempty handlersFor
        cases List.filter (fun h => decide (h.cls = x.cls)) pre <;> simp
      · rw [if_neg hc, h]
        unfold handlersFor
        simp [Ne.symm hc]

/-- The class has no handler, or none that is acceptable. -/
def Skipped (sel : List Rep → Except PyErr Rep) (l : List Handler) (c : Nat) : Prop :=
  handlersFor l c = [] ∨ sel ((handlersFor l c).map (·.rep)) = .error .notAcceptable

/-- **C44.**  Handler lookup answers with the choice made among the handlers of the first class,
in resolution order, that has an acceptable one; with `None` exactly when no class has one;
and an error of the negotiation itself (other than NotAcceptable) is passed on, with all
classes before skipped. -/
theorem C44_lookup (sel : List Rep → Except PyErr Rep) (l : List Handler) (mro : List Nat) :
    (∀ h, exLookup sel (register l) mro = .ok (some h) ↔
      ∃ pre c post, mro = pre ++ c :: post ∧ (∀ x ∈ pre, Skipped sel l x) ∧ handlersFor l c ≠ [] ∧
        sel ((handlersFor l c).map (·.rep)) = .ok h) ∧
    (exLookup sel (register l) mro = .ok none ↔ ∀ c ∈ mro, Skipped sel l c) ∧
    (∀ e, exLookup sel (register l) mro = .error e ↔
      ∃ pre c post, mro = pre ++ c :: post ∧ (∀ x ∈ pre, Skipped sel l x) ∧ handlersFor l c ≠ [] ∧
        sel ((handlersFor l c).map (·.rep)) = .error e ∧ e ≠ .notAcceptable) := by
  induction mro with
  | nil =>
    refine ⟨?_, ?_, ?_⟩
    · intro h; simp [exLookup]
    · simp [exLookup]
    · intro e; simp [exLookup]
  | cons c cs ih =>
    obtain ⟨i1, i2, i3⟩ := ih
    -- a skipped first class changes nothing
    have skip : Skipped sel l c → exLookup sel (register l) (c :: cs) = exLookup sel (register l) cs := by
      intro hs
      simp only [exLookup, get_register, nonempty]
      rcases hs with hs | hs
      · simp [hs]
      · cases he : (handlersFor l c).isEmpty with
        | true => simp
        | false => simp [hs]
    have skipEx : ∀ (P : Nat → Prop), Skipped sel l c → (∀ x, P x → ¬ Skipped sel l x) →
        ((∃ pre x post, cs = pre ++ x :: post ∧ (∀ y ∈ pre, Skipped sel l y) ∧ P x) ↔
         ∃ pre x post, c :: cs = pre ++ x :: post ∧ (∀ y ∈ pre, Skipped sel l y) ∧ P x) := by
      intro P hs hP
      constructor
      · rintro ⟨pre, x, post, e, h1, h2⟩
        refine ⟨c :: pre, x, post, by rw [e]; rfl, ?_, h2⟩
        intro y hy
        rcases List.mem_cons.1 hy with rfl | hy
        · exact hs
        · exact h1 y hy
      · rintro ⟨pre, x, post, e, h1, h2⟩
        cases pre with
        | nil =>
          simp at e
          exact absurd hs (hP c (e.1 ▸ h2))
        | cons p pre =>
          simp at e
          exact ⟨pre, x, post, e.2, fun y hy => h1 y (by simp [hy]), h2⟩
    -- otherwise the first class decides
    have own : ∀ (P : Nat → Prop), ¬ Skipped sel l c →
        ((∃ pre x post, c :: cs = pre ++ x :: post ∧ (∀ y ∈ pre, Skipped sel l y) ∧ P x) ↔ P c) := by
      intro P hs
      constructor
      · rintro ⟨pre, x, post, e, h1, h2⟩
        cases pre with
        | nil => simp at e; exact e.1 ▸ h2
        | cons p pre =>
          simp at e
          exact absurd (e.1 ▸ h1 p (by simp)) hs
      · intro h
        exact ⟨[], c, cs, rfl, by simp, h⟩
    by_cases hs : Skipped sel l c
    · rw [skip hs]
      refine ⟨?_, ?_, ?_⟩
      · intro h
        rw [i1 h]
        exact skipEx (fun x => handlersFor l x ≠ [] ∧ sel ((handlersFor l x).map (·.rep)) = .ok h) hs (by
          rintro x ⟨h1, h2⟩ (h3 | h3)
          · exact h1 h3
          · rw [h2] at h3; simp at h3)
      · rw [i2]
        simp [hs]
      · intro e
        rw [i3 e]
        exact skipEx (fun x => handlersFor l x ≠ [] ∧ sel ((handlersFor l x).map (·.rep)) = .error e ∧ e ≠ .notAcceptable) hs (by
          rintro x ⟨h1, h2, h4⟩ (h3 | h3)
          · exact h1 h3
          · rw [h2] at h3; simp at h3; exact h4 h3)
    · have h1 : handlersFor l c ≠ [] := fun h => hs (Or.inl h)
      have h2 : sel ((handlersFor l c).map (·.rep)) ≠ .error .notAcceptable := fun h => hs (Or.inr h)
      have hex : exLookup sel (register l) (c :: cs) = (sel ((handlersFor l c).map (·.rep))).map some := by
        simp only [exLookup, get_register, nonempty, List.isEmpty_iff, h1, if_false]
        cases hsel : sel ((handlersFor l c).map (·.rep)) with
        | ok h => rfl
        | error e =>
          cases e
          case notAcceptable => exact absurd hsel h2
          all_goals rfl
      rw [hex]
      refine ⟨?_, ?_, ?_⟩
      · intro h
        rw [own (fun x => handlersFor l x ≠ [] ∧ sel ((handlersFor l x).map (·.rep)) = .ok h) hs]
        cases sel ((handlersFor l c).map (·.rep)) <;> simp [Except.map, h1]
      · constructor
        · intro h
          exfalso
          cases hsel : sel ((handlersFor l c).map (·.rep)) <;> simp [hsel, Except.map] at h
        · intro h
          exact absurd (h c (by simp)) hs
      · intro e
        rw [own (fun x => handlersFor l x ≠ [] ∧ sel ((handlersFor l x).map (·.rep)) = .error e ∧ e ≠ .notAcceptable) hs]
        cases hsel : sel ((handlersFor l c).map (·.rep)) with
        | ok h => simp [Except.map]
        | error e' =>
          simp [Except.map, h1]
          intro h
          subst h
          intro h
          subst h
          exact h2 hsel

example : exLookup (fun rs => select demoFloat demoMul rs (some s%"text/html") none none)
    (register [⟨1, offer 10 s%"text/html"⟩, ⟨0, offer 11 s%"application/json"⟩]) [0, 1, 2]
      = .ok (some (offer 10 s%"text/html")) := by decide +kernel

/-- **C45 fails**: adding a dispatcher that has any handler raises `AttributeError`. -/
theorem C45_nested_false (outer : Handlers) (inner : List Handler) (h : inner ≠ []) :
    addNested outer (register inner) = .error .attributeError := by
  unfold addNested
  rw [if_neg]
  intro he
  cases inner with
  | nil => exact h rfl
  | cons x xs =>
    have := get_register (x :: xs) x.cls
    rw [he] at this
    simp [handlersFor, nonempty] at this

/-- **C45, what is left**: adding an empty dispatcher changes nothing. -/
theorem C45_nested_partial (outer : List Handler) : addNested (register outer) (register []) = .ok (register outer) := by
  rfl

/-! ### Applications -/

variable {Req Args Resp : Type}

/-- What routing, dispatch and the view produce. -/
def viewOutcome (app : App Req Args Resp) (method : Req → Str) (sel : Req → List Rep → Except PyErr Rep) (req : Req) :
    Except Exc Resp :=
  match app.route req with
  | .error e => .error e
  | .ok (endpoint, args) =>
    match app.disp.lookup (sel req) endpoint (method req) with
    | .error e => .error (.lib e)
    | .ok b => app.view b req args

/-- **C62.**  A response of the view is used as it is.  An exception for whose class some
acceptable handler is registered (in resolution order) is answered by that handler.  One
without any propagates unchanged, and so does everything that is not an `Exception`.  The
remaining case, an error of the handler lookup itself, is what is missing from the full claim;
see `C62_handler_false`. -/
theorem C62_errors_partial (app : App Req Args Resp) (l : List Handler) (hl : app.handlers = register l)
    (mro : Exc → List Nat) (method : Req → Str) (sel : Req → List Rep → Except PyErr Rep) (req : Req) :
    (∀ r, viewOutcome app method sel req = .ok r → getResponse app mro method sel req = .ok r) ∧
    (∀ e, viewOutcome app method sel req = .error e →
      (e.isException = false → getResponse app mro method sel req = .error e) ∧
      ((∀ c ∈ mro e, Skipped (sel req) l c) → getResponse app mro method sel req = .error e) ∧
      (e.isException = true → ∀ pre c post h, mro e = pre ++ c :: post → (∀ x ∈ pre, Skipped (sel req) l x) →
        handlersFor l c ≠ [] → sel req ((handlersFor l c).map (·.rep)) = .ok h →
        getResponse app mro method sel req = app.handle h req e)) := by
  have hb : getResponse app mro method sel req =
      match viewOutcome app method sel req with
      | .ok r => .ok r
      | .error e =>
        if e.isException then
          match exLookup (sel req) app.handlers (mro e) with
          | .error e' => .error (.lib e')
          | .ok none => .error e
          | .ok (some h) => app.handle h req e
        else .error e := rfl
  rw [hb]
  refine ⟨fun r h => by rw [h], fun e h => ?_⟩
  rw [h, hl]
  simp only
  obtain ⟨c1, c2, _⟩ := C44_lookup (sel req) l (mro e)
  refine ⟨fun he => by simp [he], fun hs => ?_, fun he pre c post hd hm hp hne hok => ?_⟩
  · rw [c2.2 hs]
    simp
  · rw [if_pos he, (c1 hd).2 ⟨pre, c, post, hm, hp, hne, hok⟩]

/-- **C62 fails** for a malformed Accept header: dispatch raises `ValueError`, and although a
handler for every exception is registered, looking it up raises again. -/
theorem C62_handler_false : ∃ (app : App Unit Unit Nat) (l : List Handler) (c : Nat), app.handlers = register l ∧
    handlersFor l c ≠ [] ∧ (∀ h req e, app.handle h req e = .ok 500) ∧
    ∀ mro : Exc → List Nat, (∀ e, mro e = [c]) →
      getResponse app mro (fun _ => s%"GET") (fun _ rs => select demoFloat demoMul rs (some []) none none) ()
        = .error (.lib .valueError) := by
  refine ⟨⟨fun _ => .ok (s%"page", ()), run [.add 0 [⟨s%"page", s%"GET", offer 1 s%"text/html"⟩]] 0,
    register [⟨0, offer 2 s%"text/html"⟩], fun _ _ _ => .ok 200, fun _ _ _ => .ok 500⟩, _, 0, rfl,
    by decide, fun _ _ _ => rfl, ?_⟩
  intro mro hm
  have hs : ∀ rs, select demoFloat demoMul rs (some []) none none = .error .valueError := by
    intro rs
    have : parseAccept demoFloat .contentType [] = .error .valueError := by decide +kernel
    simp [select, this]
  simp only [getResponse, hs]
  have h1 : (run [.add 0 [⟨s%"page", s%"GET", offer 1 s%"text/html"⟩]] 0).lookup
      (fun _ => .error .valueError) s%"page" s%"GET" = .error .valueError := by decide +kernel
  rw [h1]
  simp only [hm]
  rfl

/-! ### Middleware -/

/-- What happens to a request: passing through middleware `i` inwards and outwards, and the
application itself. -/
inductive Event where
  | enter (i : Nat) | app | leave (i : Nat)
deriving DecidableEq

/-- A middleware that records when it is passed. -/
def tracing (i : Nat) (app : List Event) : List Event := .enter i :: app ++ [.leave i]

/-- **C61, order.**  The request passes the middleware in reverse order of registration, then
the application, and the response passes them in order of registration: the one added last is
outermost. -/
theorem C61_order (ids : List Nat) :
    stack [Event.app] (ids.map tracing) = ids.reverse.map .enter ++ [.app] ++ ids.map .leave := by
  unfold stack
  suffices ∀ (mid : List Event), (ids.map tracing).foldl (fun app w => w app) mid =
      ids.reverse.map .enter ++ mid ++ ids.map .leave from this _
  induction ids with
  | nil => intro mid; simp
  | cons i ids ih =>
    intro mid
    simp only [List.map_cons, List.foldl_cons, ih, tracing]
    simp

/-- **C61, composition.**  For arbitrary wrappers: the outermost layer is the last one added,
around the application built from the others; with none it is the application. -/
theorem C61_outermost {A : Type} (inner : A) (ms : List (A → A)) (m : A → A) :
    stack inner [] = inner ∧ stack inner (ms ++ [m]) = m (stack inner ms) := by
  simp [stack]

example : stack [Event.app] [tracing 1, tracing 2] = [.enter 2, .enter 1, .app, .leave 1, .leave 2] := rfl

end Verif.Dispatch
