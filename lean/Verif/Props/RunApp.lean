import Verif.Model.RunApp
/-!
C99: running applications in tests.
-/
namespace Verif.Props.RunAppP
open Verif Verif.RunApp

/-! ### What an application sends, in the order of time -/

/-- The call, each step and the end: what was done, and what was yielded. -/
def phases (a : App) : List (List Act × Option Bytes) :=
  (a.call, none) :: a.steps.map (fun p => (p.1, some p.2)) ++ [(a.final, none)]

/-- The bytes written. -/
def writes : List Act → List Bytes
  | [] => []
  | .write b :: r => b :: writes r
  | _ :: r => writes r

/-- The last `start_response`. -/
def started : List Act → Option (Str × List (Str × Str))
  | [] => none
  | .start s h :: r => (started r).or (some (s, h))
  | _ :: r => started r

/-- Everything sent, in order. -/
def output (ps : List (List Act × Option Bytes)) : List Bytes := ps.flatMap fun p => writes p.1 ++ p.2.toList

/-- No act calls `start_response` with `exc_info`. -/
def Quiet (a : App) : Prop := Act.startExc ∉ a.call ∧ (∀ p ∈ a.steps, Act.startExc ∉ p.1) ∧ Act.startExc ∉ a.final

/-- Everything sent up to the end of the phase in which the response is started, and what is
yielded after that. -/
def seen : Bool → List (List Act × Option Bytes) → List Bytes
  | _, [] => []
  | on, (as, y) :: r => (if on then [] else writes as) ++ y.toList ++ seen (on || (started as).isSome) r

/-- The response as started first: by the last `start_response` of the first phase that has one. -/
def first : List (List Act × Option Bytes) → Option (Str × List (Str × Str))
  | [] => none
  | (as, _) :: r => (started as).or (first r)

/-- Nothing is written after the phase in which the response is started. -/
def Prompt : List (List Act × Option Bytes) → Prop
  | [] => True
  | (as, _) :: r => if (started as).isSome then ∀ p ∈ r, writes p.1 = [] else Prompt r

theorem acts_quiet (w : World) (as : List Act) (h : Act.startExc ∉ as) :
    acts w as = ({ w with response := (started as).or w.response, buffer := w.buffer ++ writes as }, none) := by
  induction as generalizing w with
  | nil => simp [acts, started, writes]
  | cons a as ih =>
    have ha : Act.startExc ∉ as := fun h0 => h (by simp [h0])
    cases a with
    | startExc => exact absurd (by simp) h
    | start s hd => simp only [acts, act]; rw [ih _ ha]; simp [started, writes, Option.or_assoc]
    | write b => simp only [acts, act]; rw [ih _ ha]; simp [started, writes]

theorem started_append (x y : List Act) : started (x ++ y) = (started y).or (started x) := by
  induction x with
  | nil => simp [started]
  | cons a x ih => cases a <;> simp [started, ih, Option.or_assoc]

theorem drain_quiet (w : World) (final : List Act) (steps : List (List Act × Bytes)) (h1 : ∀ p ∈ steps, Act.startExc ∉ p.1)
    (h2 : Act.startExc ∉ final) : (drain w final steps).2 = (steps.map Prod.snd, none) ∧ (drain w final steps).1.closes = w.closes ∧
      (drain w final steps).1.response = (started ((steps.map Prod.fst).flatten ++ final)).or w.response := by
  induction steps generalizing w with
  | nil => simp [drain, acts_quiet w final h2]
  | cons p steps ih =>
    obtain ⟨as, b⟩ := p
    simp only [drain]
    rw [acts_quiet w as (h1 (as, b) (by simp))]
    simp only
    obtain ⟨i1, i2, i3⟩ := ih { w with response := (started as).or w.response, buffer := w.buffer ++ writes as }
      (fun q hq => h1 q (by simp [hq]))
    refine ⟨by simp [i1], i2, ?_⟩
    rw [i3]
    simp only [List.map_cons, List.flatten_cons, List.append_assoc]
    generalize (steps.map Prod.fst).flatten ++ final = t
    rw [started_append, Option.or_assoc]

/-- The phases of the steps and the end. -/
def later (a : App) : List (List Act × Option Bytes) := a.steps.map (fun p => (p.1, some p.2)) ++ [(a.final, none)]

theorem seen_true (steps : List (List Act × Bytes)) (final : List Act) :
    seen true (steps.map (fun p => (p.1, some p.2)) ++ [(final, none)]) = steps.map Prod.snd := by
  induction steps with
  | nil => simp [seen]
  | cons p steps ih => simp [seen, ih]

theorem await_on {w : World} (h : w.response ≠ none) (final : List Act) (steps : List (List Act × Bytes)) :
    await w final steps = (w, .ok steps) := by
  cases hr : w.response with
  | none => exact absurd hr h
  | some x => cases steps <;> simp [await, hr]

theorem await_off (w : World) (hw : w.response = none) (final : List Act) (steps : List (List Act × Bytes))
    (h1 : ∀ p ∈ steps, Act.startExc ∉ p.1) (h2 : Act.startExc ∉ final) :
    (first (steps.map fun p => (p.1, some p.2)) = none → (await w final steps).2 = .error .stopIteration ∧ (await w final steps).1.closes = w.closes) ∧
    (∀ r, first (steps.map fun p => (p.1, some p.2)) = some r → ∃ w' rest, await w final steps = (w', .ok rest) ∧ w'.response = some r ∧
      w'.closes = w.closes ∧ (∀ p ∈ rest, p ∈ steps) ∧
      w'.buffer ++ rest.map Prod.snd = w.buffer ++ seen false (steps.map (fun p => (p.1, some p.2)) ++ [(final, none)])) := by
  induction steps generalizing w with
  | nil =>
    refine ⟨fun _ => ?_, fun r hr => by simp [first] at hr⟩
    simp [await, hw, acts_quiet w final h2]
  | cons p steps ih =>
    obtain ⟨as, b⟩ := p
    have ha := h1 (as, b) (by simp)
    have h1' : ∀ p ∈ steps, Act.startExc ∉ p.1 := fun q hq => h1 q (by simp [hq])
    have hstep : await w final ((as, b) :: steps) =
        await ⟨started as, w.buffer ++ writes as ++ [b], w.closes⟩ final steps := by
      simp only [await, hw]
      rw [acts_quiet w as ha]
      simp [hw]
    cases hs : started as with
    | some x =>
      refine ⟨fun h => by simp [first, hs] at h, ?_⟩
      intro r hr
      simp [first, hs] at hr
      subst hr
      refine ⟨⟨started as, w.buffer ++ writes as ++ [b], w.closes⟩, steps, ?_, hs, rfl, fun p hp => by simp [hp], ?_⟩
      · rw [hstep, await_on (by simp [hs])]
      · rw [List.map_cons, List.cons_append, seen, hs]
        simp only [Option.isSome_some, Bool.or_true]
        rw [seen_true]
        simp
    | none =>
      obtain ⟨i1, i2⟩ := ih ⟨started as, w.buffer ++ writes as ++ [b], w.closes⟩ hs h1'
      rw [hstep]
      refine ⟨fun h => i1 (by simpa [first, hs] using h), ?_⟩
      intro r hr
      obtain ⟨w', rest, j1, j2, j3, j4, j5⟩ := i2 r (by simpa [first, hs] using hr)
      refine ⟨w', rest, j1, j2, j3, fun p hp => by simp [j4 p hp], ?_⟩
      rw [j5, List.map_cons, List.cons_append, seen, hs]
      simp

theorem seen_prompt (ps : List (List Act × Option Bytes)) (h : Prompt ps) : seen false ps = output ps := by
  have on : ∀ ps : List (List Act × Option Bytes), (∀ p ∈ ps, writes p.1 = []) → seen true ps = output ps := by
    intro ps
    induction ps with
    | nil => intro _; rfl
    | cons p ps ih =>
      intro h
      have hp : writes p.1 = [] := h p (by simp)
      have := ih (fun q hq => h q (by simp [hq]))
      simp [seen, output, hp, this]
  induction ps with
  | nil => rfl
  | cons p ps ih =>
    obtain ⟨as, y⟩ := p
    unfold Prompt at h
    split at h
    · rename_i hs
      have := on ps h
      simp [seen, output, hs] at this ⊢
      exact this
    · rename_i hs
      have hs' : (started as).isSome = false := by simpa using hs
      have := ih h
      simp [seen, output, hs'] at this ⊢
      exact this

/-- **C99, unbuffered.**  For an application that raises nothing and starts its response in the
call or before some bytes it yields: the status and headers are those it started with; iterating
over the result gives everything it wrote or yielded up to then, and everything it yields later;
which is all it sends when it does not write later; and closing the result closes the application
once.  Missing from the claim: later writes (`C99_write_false`), and responses without any bytes
(`C99_empty_false`). -/
theorem C99_unbuffered_partial (a : App) (hq : Quiet a) (s : Str) (h : List (Str × Str))
    (hs : first ((a.call, none) :: a.steps.map fun p => (p.1, some p.2)) = some (s, h)) :
    ∃ w r, run a false = (w, .ok r) ∧ r.status = s ∧ r.headers = h ∧ w.closes = 0 ∧
      (consume a r w).2 = (seen false (phases a), none) ∧ (consume a r w).1.closes = (if a.hasClose then 1 else 0) ∧
      (Prompt (phases a) → (consume a r w).2.1 = output (phases a)) := by
  obtain ⟨q1, q2, q3⟩ := hq
  have fin : ∀ (w : World) (rest : List (List Act × Bytes)), w.closes = 0 → (∀ p ∈ rest, p ∈ a.steps) →
      w.buffer ++ rest.map Prod.snd = seen false (phases a) → ∀ own wrapped : Bool, wrapped = (a.hasClose && !own) →
      (consume a ⟨w.buffer, rest, a.final, wrapped, own, s, h⟩ w).2 = (seen false (phases a), none) ∧
      (consume a ⟨w.buffer, rest, a.final, wrapped, own, s, h⟩ w).1.closes = (if a.hasClose then 1 else 0) ∧
      (Prompt (phases a) → (consume a ⟨w.buffer, rest, a.final, wrapped, own, s, h⟩ w).2.1 = output (phases a)) := by
    intro w rest hc hr hb own wrapped hwr
    obtain ⟨d1, d2, _⟩ := drain_quiet w a.final rest (fun p hp => q2 p (hr p hp)) q3
    have e1 : (consume a ⟨w.buffer, rest, a.final, wrapped, own, s, h⟩ w).2 = (seen false (phases a), none) := by
      unfold consume
      simp only
      simp [d1, hb]
    refine ⟨e1, ?_, ?_⟩
    · unfold consume
      simp only
      rw [hwr]
      unfold RunApp.close
      cases a.hasClose <;> cases own <;> simp [d2, hc]
    · intro hp; rw [e1]; exact seen_prompt _ hp
  unfold run
  rw [acts_quiet _ _ q1]
  simp only [Bool.false_eq_true, if_false, Option.or_none, List.nil_append]
  cases hc : started a.call with
  | some x =>
    simp [first, hc] at hs
    subst hs
    rw [await_on (by simp)]
    refine ⟨_, _, rfl, rfl, rfl, rfl, ?_⟩
    refine fin _ a.steps rfl (fun p hp => hp) ?_ _ _ rfl
    simp only [phases, List.cons_append]
    rw [seen, hc]
    simp only [Option.isSome_some, Bool.or_true]
    rw [seen_true]
    simp
  | none =>
    obtain ⟨w', rest, j1, j2, j3, j4, j5⟩ := (await_off ⟨none, writes a.call, 0⟩ rfl a.final a.steps q2 q3).2 (s, h)
      (by simpa [first, hc] using hs)
    rw [j1]
    simp only [j2]
    refine ⟨_, _, rfl, rfl, rfl, j3, ?_⟩
    refine fin _ rest j3 j4 ?_ _ _ rfl
    simp only [phases, List.cons_append]
    rw [seen, hc, j5]
    simp

/-- An application that starts no response before its last bytes makes the call raise. -/
theorem C99_unstarted (a : App) (hq : Quiet a) (hs : first ((a.call, none) :: a.steps.map fun p => (p.1, some p.2)) = none) :
    (run a false).2 = .error .stopIteration := by
  obtain ⟨q1, q2, q3⟩ := hq
  unfold run
  rw [acts_quiet _ _ q1]
  have hc : started a.call = none := by
    cases hc : started a.call with
    | none => rfl
    | some x => simp [first, hc] at hs
  simp only [Bool.false_eq_true, if_false, Option.or_none, List.nil_append]
  rw [hc]
  have := (await_off ⟨none, writes a.call, 0⟩ rfl a.final a.steps q2 q3).1 (by simpa [first, hc] using hs)
  generalize await ⟨none, writes a.call, 0⟩ a.final a.steps = r at this
  obtain ⟨w, r⟩ := r
  simp only at this
  rw [this.1]

/-- **C99, buffered.**  With buffering the application is run to its end and closed once, also when
it raises on the way; the body is what it yielded. -/
theorem C99_buffered_partial (a : App) (hc : Act.startExc ∉ a.call) :
    (run a true).1.closes = (if a.hasClose then 1 else 0) ∧
    (∀ r, (run a true).2 = .ok r → ∀ w, (consume a r w).1.closes = w.closes) ∧
    (Quiet a → ∀ s h, started (a.call ++ (a.steps.map Prod.fst).flatten ++ a.final) = some (s, h) →
      ∃ w r, run a true = (w, .ok r) ∧ r.status = s ∧ r.headers = h ∧ ∀ w', (consume a r w').2 = (a.steps.map Prod.snd, none)) := by
  have closes : ∀ (w : World), (drain w a.final a.steps).1.closes = w.closes := by
    have ac : ∀ (w : World) as, (acts w as).1.closes = w.closes := by
      intro w as
      induction as generalizing w with
      | nil => rfl
      | cons x as ih => cases x <;> simp [acts, act, ih]
    generalize a.steps = steps
    intro w
    induction steps generalizing w with
    | nil => simp only [drain]; exact ac w a.final
    | cons p steps ih =>
      obtain ⟨as, b⟩ := p
      simp only [drain]
      have := ac w as
      generalize acts w as = r at this
      obtain ⟨w', o⟩ := r
      cases o with
      | some e => exact this
      | none => simp only at this ⊢; rw [ih, this]
  unfold run
  rw [acts_quiet _ _ hc]
  simp only [if_true, Option.or_none, List.nil_append]
  refine ⟨?_, ?_, ?_⟩
  · have := closes ⟨started a.call, writes a.call, 0⟩
    generalize drain ⟨started a.call, writes a.call, 0⟩ a.final a.steps = r at this
    obtain ⟨w, bs, o⟩ := r
    simp only at this
    cases o with
    | some e => simp only [RunApp.close]; split <;> simp [this]
    | none =>
      simp only
      cases hr : (RunApp.close a w).response with
      | none => simp only [RunApp.close]; split <;> simp [this]
      | some x => simp only [RunApp.close]; split <;> simp [this]
  · intro r hr w
    generalize drain ⟨started a.call, writes a.call, 0⟩ a.final a.steps = q at hr
    obtain ⟨w', bs, o⟩ := q
    cases o with
    | some e => simp at hr
    | none =>
      simp only at hr
      cases hx : (RunApp.close a w').response with
      | none => rw [hx] at hr; simp at hr
      | some x =>
        rw [hx] at hr
        simp at hr
        subst hr
        simp [consume, drain, acts]
  · rintro ⟨q1, q2, q3⟩ s h hst
    obtain ⟨d1, d2, d3⟩ := drain_quiet ⟨started a.call, writes a.call, 0⟩ a.final a.steps q2 q3
    generalize drain ⟨started a.call, writes a.call, 0⟩ a.final a.steps = q at d1 d2 d3
    obtain ⟨w', bs, o⟩ := q
    simp only [Prod.mk.injEq] at d1 d3
    obtain ⟨rfl, rfl⟩ := d1
    simp only
    have hr : (RunApp.close a w').response = some (s, h) := by
      have : (RunApp.close a w').response = w'.response := by unfold RunApp.close; split <;> rfl
      rw [this, d3, ← hst, List.append_assoc, started_append a.call]
    rw [hr]
    exact ⟨_, _, rfl, rfl, rfl, fun w'' => by simp [consume, drain, acts]⟩

/-- A response started in the call, with a chunk written and a chunk yielded. -/
def demoApp : App := ⟨[.start s%"200 OK" [], .write [1]], [([], [2]), ([], [3])], [], true, false⟩

example : Quiet demoApp ∧ Prompt (phases demoApp) ∧
    first ((demoApp.call, none) :: demoApp.steps.map fun p => (p.1, some p.2)) = some (s%"200 OK", []) :=
  ⟨⟨by decide, by decide, by decide⟩, by simp [Prompt, phases, demoApp, started, writes], rfl⟩

/-- A response started late. -/
example : ∃ w r, run ⟨[], [([], [1]), ([.start s%"404 X" [], .write [5]], [2]), ([], [3])], [], true, true⟩ false = (w, .ok r) ∧
    r.status = s%"404 X" ∧ (consume ⟨[], [], [], true, true⟩ r w).2 = ([[1], [5], [2], [3]], none) := ⟨_, _, rfl, rfl, rfl⟩

/-- **C99 fails** for writes: buffering loses what was written, although it is meant for such
applications; and without buffering, bytes written after the first that were yielded are lost. -/
theorem C99_write_false :
    (∃ w r, run demoApp true = (w, .ok r) ∧ (consume demoApp r w).2.1 = [[2], [3]] ∧ output (phases demoApp) = [[1], [2], [3]]) ∧
    (∃ a w r, run a false = (w, .ok r) ∧ Quiet a ∧ (consume a r w).2.1 = [[1], [3]] ∧ output (phases a) = [[1], [2], [3]]) :=
  ⟨⟨_, _, rfl, rfl, rfl⟩, ⟨⟨[.start s%"200 OK" []], [([], [1]), ([.write [2]], [3])], [], false, true⟩, _, _, rfl,
    ⟨by decide, by decide, by decide⟩, rfl, rfl⟩⟩

/-- **C99 fails** for a generator that starts a response and yields nothing: the call raises, and
the application is not closed. -/
theorem C99_empty_false : ∃ a, Quiet a ∧ (started a.final).isSome = true ∧ a.hasClose = true ∧
    (run a false).2 = .error .stopIteration ∧ (run a false).1.closes = 0 ∧ ∃ r, (run a true).2 = .ok r :=
  ⟨⟨[], [], [.start s%"204 No Content" []], true, true⟩, ⟨by decide, by decide, by decide⟩, rfl, rfl, rfl, rfl, ⟨_, rfl⟩⟩

end Verif.Props.RunAppP
