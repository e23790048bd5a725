import Verif.Model.AppBuilder
import Verif.Props.RouteFactory
import Verif.Props.Dispatch
import Verif.Props.Headers
/-!
Property theorems C107: what the application builder builds (`/repo/verktyg/application.py`).
-/
namespace Verif.Props.AppBuilderP
open Verif Verif.Py Verif.Accept Verif.AppBuilder
open Verif.Routing hiding build update bind
open Verif.Dispatch hiding Op run step log
open Verif.Props.RoutingP hiding Op run step
open Verif.Props.FactoryP

/-! ### Linearisation -/

/-- The order of each list is kept. -/
theorem merge_sublist (fuel : Nat) : ∀ (ls : List (List Nat)) (r : List Nat), mergeGo fuel ls = some r → ∀ l ∈ ls, l.Sublist r := by
  induction fuel with
  | zero =>
    intro ls r h l hl
    simp only [mergeGo] at h
    split at h
    · rename_i h0
      have := List.all_eq_true.1 h0 l hl
      rw [List.isEmpty_iff] at this
      rw [this]; exact List.nil_sublist _
    · cases h
  | succ fuel ih =>
    intro ls r h l hl
    simp only [mergeGo] at h
    split at h
    · rename_i h0
      have := List.all_eq_true.1 h0 l hl
      rw [List.isEmpty_iff] at this
      rw [this]; exact List.nil_sublist _
    · split at h
      · rename_i c hc
        cases hm : mergeGo fuel (removeHead c ls) with
        | none => rw [hm] at h; cases h
        | some r' =>
          rw [hm] at h
          cases h
          have := ih _ r' hm (if l.head? = some c then l.tail else l) (List.mem_map.2 ⟨l, hl, rfl⟩)
          split at this
          · rename_i hh
            cases l with
            | nil => cases hh
            | cons d l =>
              have : d = c := by simpa using hh
              subst this
              exact List.Sublist.cons_cons _ (by assumption)
          · exact .cons _ this
      · cases h

/-- Where no class is twice in a list, none is twice in the result. -/
theorem merge_nodup (fuel : Nat) : ∀ (ls : List (List Nat)) (r : List Nat), mergeGo fuel ls = some r → (∀ l ∈ ls, l.Nodup) →
    r.Nodup ∧ ∀ c ∈ r, ∃ l ∈ ls, c ∈ l := by
  induction fuel with
  | zero =>
    intro ls r h _
    simp only [mergeGo] at h
    split at h
    · cases h; exact ⟨List.nodup_nil, fun c hc => by cases hc⟩
    · cases h
  | succ fuel ih =>
    intro ls r h hn
    simp only [mergeGo] at h
    split at h
    · cases h; exact ⟨List.nodup_nil, fun c hc => by cases hc⟩
    · split at h
      · rename_i c hc
        cases hm : mergeGo fuel (removeHead c ls) with
        | none => rw [hm] at h; cases h
        | some r' =>
          rw [hm] at h
          cases h
          have hsub : ∀ l ∈ removeHead c ls, ∃ l' ∈ ls, l.Sublist l' ∧ (l.Nodup → c ∉ l) := by
            intro l hl
            obtain ⟨l', hl', rfl⟩ := List.mem_map.1 hl
            refine ⟨l', hl', ?_, ?_⟩
            · split
              · exact List.tail_sublist _
              · exact .refl _
            · intro _ hm
              have hc' := hc
              unfold candidate at hc'
              have htail := List.all_eq_true.1 (List.find?_some (p := fun c => ls.all fun l => decide (c ∉ l.tail)) hc') l' hl'
              have htail : c ∉ l'.tail := by simpa using htail
              split at hm
              · exact htail hm
              · rename_i hh
                cases l' with
                | nil => cases hm
                | cons d l' =>
                  rcases List.mem_cons.1 hm with rfl | hm
                  · exact hh rfl
                  · exact htail hm
          obtain ⟨h1, h2⟩ := ih _ r' hm fun l hl => by
            obtain ⟨l', hl', hs, _⟩ := hsub l hl
            exact hs.nodup (hn l' hl')
          refine ⟨List.nodup_cons.2 ⟨?_, h1⟩, ?_⟩
          · intro hcr
            obtain ⟨l, hl, hcl⟩ := h2 c hcr
            obtain ⟨l', hl', hs, hx⟩ := hsub l hl
            exact hx (hs.nodup (hn l' hl')) hcl
          · intro d hd
            rcases List.mem_cons.1 hd with rfl | hd
            · have hc' := hc
              unfold candidate at hc'
              have hmem := List.mem_of_find?_eq_some hc'
              obtain ⟨l, hl, hh⟩ := List.mem_filterMap.1 hmem
              exact ⟨l, hl, List.mem_of_mem_head? hh⟩
            · obtain ⟨l, hl, hcl⟩ := h2 d hd
              obtain ⟨l', hl', hs, _⟩ := hsub l hl
              exact ⟨l', hl', hs.subset hcl⟩
      · cases h

/-- The linearisations of classes: each starts with its class, and has none twice. -/
def Classes (mro : Nat → List Nat) : Prop := ∀ c, (mro c).head? = some c ∧ (mro c).Nodup

theorem classes_self {mro : Nat → List Nat} (h : Classes mro) (c : Nat) : ∃ t, mro c = c :: t := by
  have := (h c).1
  cases hc : mro c with
  | nil => rw [hc] at this; cases this
  | cons d t => rw [hc] at this; exact ⟨t, by simpa using this⟩

/-- Two classes have one order only. -/
theorem order_once {r : List Nat} (hr : r.Nodup) {a b : Nat} (hne : a ≠ b) (h1 : [a, b].Sublist r) (h2 : [b, a].Sublist r) : False := by
  induction r with
  | nil => cases h1
  | cons x r ih =>
    have hn := List.nodup_cons.1 hr
    cases h1 with
    | cons _ h1 =>
      cases h2 with
      | cons _ h2 => exact ih hn.2 h1 h2
      | cons_cons _ h2 => exact hn.1 (h1.subset (by simp))
    | cons_cons _ h1 =>
      cases h2 with
      | cons _ h2 => exact hn.1 (h2.subset (by simp))
      | cons_cons _ h2 => exact hne rfl

theorem addBases_spec (ms : List Nat) : ∀ (bs : List Nat), bs.Nodup →
    (addBases bs ms).Nodup ∧ bs <+: addBases bs ms ∧ ∀ c, c ∈ addBases bs ms ↔ c ∈ bs ∨ c ∈ ms := by
  induction ms with
  | nil => intro bs h; exact ⟨h, List.prefix_rfl, fun c => by simp [addBases]⟩
  | cons m ms ih =>
    intro bs h
    show (addBases (if m ∈ bs then bs else bs ++ [m]) ms).Nodup ∧ bs <+: addBases (if m ∈ bs then bs else bs ++ [m]) ms ∧
      ∀ c, c ∈ addBases (if m ∈ bs then bs else bs ++ [m]) ms ↔ _
    by_cases hm : m ∈ bs
    · rw [if_pos hm]
      obtain ⟨h1, h2, h3⟩ := ih bs h
      refine ⟨h1, h2, fun c => ?_⟩
      rw [h3]
      simp only [List.mem_cons]
      constructor
      · rintro (h | h)
        · exact .inl h
        · exact .inr (.inr h)
      · rintro (h | rfl | h)
        · exact .inl h
        · exact .inl hm
        · exact .inr h
    · rw [if_neg hm]
      have hn : (bs ++ [m]).Nodup := by
        rw [List.nodup_append]
        refine ⟨h, by simp, ?_⟩
        intro a ha b hb e
        rw [List.mem_singleton] at hb
        exact hm (hb ▸ e ▸ ha)
      obtain ⟨h1, h2, h3⟩ := ih (bs ++ [m]) hn
      refine ⟨h1, (List.prefix_append bs [m]).trans h2, fun c => ?_⟩
      rw [h3]
      simp only [List.mem_append, List.mem_cons, List.not_mem_nil, or_false, or_assoc]

theorem addBases_append (bs ms ms' : List Nat) : addBases bs (ms ++ ms') = addBases (addBases bs ms) ms' := by
  simp [addBases, List.foldl_append]

/-- What is known about a linearisation. -/
theorem linearise_spec {mro : Nat → List Nat} (hm : Classes mro) {bases r : List Nat} (hb : bases.Nodup)
    (h : linearise mro bases = some r) :
    r.Nodup ∧ bases.Sublist r ∧ (∀ b ∈ bases, (mro b).Sublist r) ∧ ∀ c ∈ r, ∃ b ∈ bases, c ∈ mro b := by
  have hs := merge_sublist _ _ r h
  have hn : ∀ l ∈ bases.map mro ++ [bases], l.Nodup := by
    intro l hl
    rcases List.mem_append.1 hl with hl | hl
    · obtain ⟨b, _, rfl⟩ := List.mem_map.1 hl
      exact (hm b).2
    · rw [List.mem_singleton.1 hl]; exact hb
  obtain ⟨h1, h2⟩ := merge_nodup _ _ r h hn
  refine ⟨h1, hs bases (by simp), fun b hb => hs _ (List.mem_append.2 (.inl (List.mem_map.2 ⟨b, hb, rfl⟩))), fun c hc => ?_⟩
  obtain ⟨l, hl, hcl⟩ := h2 c hc
  rcases List.mem_append.1 hl with hl | hl
  · obtain ⟨b, hb, rfl⟩ := List.mem_map.1 hl
    exact ⟨b, hb, hcl⟩
  · rw [List.mem_singleton.1 hl] at hcl
    obtain ⟨t, ht⟩ := classes_self hm c
    exact ⟨c, hcl, by rw [ht]; exact List.mem_cons_self⟩

/-- No other class comes before the first. -/
theorem linearise_head {mro : Nat → List Nat} (hm : Classes mro) {base : Nat} {ms r : List Nat} (hb : (base :: ms).Nodup)
    (h : linearise mro (base :: ms) = some r) : r.head? = some base := by
  obtain ⟨h1, h2, h3, h4⟩ := linearise_spec hm hb h
  cases r with
  | nil => cases h2
  | cons x r =>
    by_cases hx : x = base
    · rw [hx]; rfl
    · exfalso
      obtain ⟨b, hbm, hxb⟩ := h4 x List.mem_cons_self
      obtain ⟨t, ht⟩ := classes_self hm b
      -- the class before all others is one of the bases
      have hxb' : x = b := by
        rw [ht] at hxb
        rcases List.mem_cons.1 hxb with e | hxt
        · exact e
        · have hs := h3 b hbm
          rw [ht] at hs
          cases hs with
          | cons _ hs => exact absurd (hs.subset (List.mem_cons_of_mem _ hxt)) (List.nodup_cons.1 h1).1
          | cons_cons _ hs => rfl
      subst hxb'
      cases h2 with
      | cons _ h2 => exact (List.nodup_cons.1 h1).1 (h2.subset hbm)
      | cons_cons _ h2 => exact hx rfl

/-- A base can not come after a class that derives from it. -/
theorem linearise_derived {mro : Nat → List Nat} (hm : Classes mro) {base m : Nat} {ms : List Nat} (hb : (base :: ms).Nodup)
    (hmem : m ∈ ms) (hd : base ∈ mro m) : linearise mro (base :: ms) = none := by
  cases h : linearise mro (base :: ms) with
  | none => rfl
  | some r =>
    exfalso
    obtain ⟨h1, h2, h3, _⟩ := linearise_spec hm hb h
    have hne : base ≠ m := fun e => (List.nodup_cons.1 hb).1 (e ▸ hmem)
    obtain ⟨t, ht⟩ := classes_self hm m
    have hs := h3 m (List.mem_cons_of_mem _ hmem)
    rw [ht] at hs hd
    have hbt : base ∈ t := by
      rcases List.mem_cons.1 hd with e | h
      · exact absurd e hne
      · exact h
    exact order_once h1 hne ((List.Sublist.cons_cons _ (List.singleton_sublist.2 hmem)).trans h2)
      ((List.Sublist.cons_cons _ (List.singleton_sublist.2 hbt)).trans hs)

/-! ### What is registered: the specification -/

/-- The routes and factories given to `add_routes`, in order. -/
def routesOf (ops : List Op) : List Factory := ops.flatMap fun
  | .addRoutes fs => fs
  | _ => []

/-- The converters given to `add_converters`, in order. -/
def convsOf (ops : List Op) : List (Str × ConvClass) := ops.flatMap fun
  | .addConverters cs => cs
  | _ => []

/-- What was given to `add_bindings`, in order. -/
def sourcesOf (ops : List Op) : List Source := ops.flatMap fun
  | .addBindings ss => ss
  | _ => []

/-- What was added to a dispatcher, in order. -/
def sentTo (d : Nat) (ops : List Op) : List Binding := ops.flatMap fun
  | .addTo d' bs => if d' = d then bs else []
  | _ => []

/-- The bindings: a dispatcher stands for all that was added to it, before it was given to the
builder or after. -/
def bindingsOf (ops : List Op) : List Binding := (sourcesOf ops).flatMap fun
  | .own bs => bs
  | .dispatcher d => sentTo d ops

/-- The handlers given to `add_exception_handlers`, in order. -/
def handlersOf (ops : List Op) : List Handler := ops.flatMap fun
  | .addHandlers hs => hs
  | _ => []

/-- The middleware, in order. -/
def middlewareOf (ops : List Op) : List Nat := ops.flatMap fun
  | .addMiddleware m => [m]
  | _ => []

/-- The mixins for the application, in order. -/
def appMixinsOf (ops : List Op) : List Nat := ops.flatMap fun
  | .addAppMixins ms => ms
  | _ => []

/-- The mixins for the requests, in order. -/
def reqMixinsOf (ops : List Op) : List Nat := ops.flatMap fun
  | .addRequestMixins ms => ms
  | _ => []

/-- The last entry with a name. -/
def lastWith (cs : List (Str × ConvClass)) (name : Str) : Option ConvClass :=
  (cs.reverse.find? fun c => c.1 = name).map (·.2)

/-- The settings of a map: a converter that was given comes before the others. -/
def settings (cfg : Config) (cs : List (Str × ConvClass)) : Config :=
  { cfg with conv := fun name args =>
      match lastWith cs name with
      | some c => c args
      | none => cfg.conv name args }

/-- No decorator of the builder is used. -/
def Undecorated (ops : List Op) : Prop := ∀ op ∈ ops, ∀ k name obj rep, op ≠ .decorate k name obj rep

/-- A program with route objects and a new builder. -/
def start (w : World) (b : Builder) : State := ⟨w, fun _ => .empty, [], b, [], 0⟩

/-! ### What the builder holds -/

theorem lastWith_append (cs cs' : List (Str × ConvClass)) (n : Str) :
    lastWith (cs ++ cs') n = (lastWith cs' n).or (lastWith cs n) := by
  unfold lastWith
  rw [List.reverse_append, List.find?_append]
  cases (cs'.reverse.find? fun c => c.1 = n) <;> rfl

theorem get_update (new : List (Str × ConvClass)) : ∀ (d : List (Str × ConvClass)) (n : Str),
    Dict.get (AppBuilder.update d new) n = (lastWith new n).or (Dict.get d n) := by
  induction new with
  | nil => intro d n; rfl
  | cons c cs ih =>
    intro d n
    show Dict.get (AppBuilder.update (Dict.set d c.1 c.2) cs) n = _
    rw [ih, Dict.get_set, show c :: cs = [c] ++ cs from rfl, lastWith_append]
    cases lastWith cs n with
    | some v => rfl
    | none =>
      simp only [Option.none_or, lastWith, List.reverse_cons, List.reverse_nil, List.nil_append, List.find?_cons, List.find?_nil]
      by_cases h : n = c.1
      · simp [h]
      · simp [h, Ne.symm h]

/-- The build changes neither what is registered nor the dispatchers. -/
theorem build_keeps (e : Env) (s : State) (root : Str) :
    (AppBuilder.build e s root).1.builder = s.builder ∧ (AppBuilder.build e s root).1.disps = s.disps ∧
    (AppBuilder.build e s root).1.decos = s.decos := by
  unfold AppBuilder.build
  split
  · exact ⟨rfl, rfl, rfl⟩
  · split
    · exact ⟨rfl, rfl, rfl⟩
    · simp only
      split
      · exact ⟨rfl, rfl, rfl⟩
      · split <;> exact ⟨rfl, rfl, rfl⟩

theorem request_keeps (e : Env) (s : State) (k : Nat) :
    (step e s (.request k)).builder = s.builder ∧ (step e s (.request k)).disps = s.disps ∧
    (step e s (.request k)).world.objs = s.world.objs ∧ (step e s (.request k)).apps = s.apps ∧
    (step e s (.request k)).count = s.count := by
  simp only [step]
  split <;> exact ⟨rfl, rfl, rfl, rfl, rfl⟩

/-- One call, seen from the builder. -/
theorem step_registered (e : Env) (s : State) (op : Op) (h : ∀ k name obj rep, op ≠ .decorate k name obj rep) :
    (step e s op).builder.routes = s.builder.routes ++ routesOf [op] ∧
    (∀ n, Dict.get (step e s op).builder.convs n = (lastWith (convsOf [op]) n).or (Dict.get s.builder.convs n)) ∧
    (step e s op).builder.bindings = s.builder.bindings ++ sourcesOf [op] ∧
    (step e s op).builder.handlers = s.builder.handlers ++ handlersOf [op] ∧
    (step e s op).builder.middleware = s.builder.middleware ++ middlewareOf [op] ∧
    (step e s op).builder.appBases = addBases s.builder.appBases (appMixinsOf [op]) ∧
    (step e s op).builder.reqBases = addBases s.builder.reqBases (reqMixinsOf [op]) ∧
    (∀ d, ((step e s op).disps d).views = (s.disps d).views ++ sentTo d [op]) := by
  have hv : ∀ (bs : List Binding) (d : Disp), (d.addAll bs).views = d.views ++ bs := by
    intro bs
    induction bs with
    | nil => intro d; simp [Disp.addAll]
    | cons b bs ih =>
      intro d
      show ((d.add b).addAll bs).views = _
      rw [ih]; simp [Disp.add]
  cases op with
  | addRoutes fs => simp [step, routesOf, convsOf, sourcesOf, handlersOf, middlewareOf, appMixinsOf, reqMixinsOf, sentTo, lastWith, addBases]
  | addConverters fs => simp [step, routesOf, convsOf, sourcesOf, handlersOf, middlewareOf, appMixinsOf, reqMixinsOf, sentTo, addBases, get_update]
  | addBindings fs => simp [step, routesOf, convsOf, sourcesOf, handlersOf, middlewareOf, appMixinsOf, reqMixinsOf, sentTo, lastWith, addBases]
  | addTo d bs =>
    simp only [step, routesOf, convsOf, sourcesOf, handlersOf, middlewareOf, appMixinsOf, reqMixinsOf, sentTo, lastWith, addBases,
      List.flatMap_cons, List.flatMap_nil, List.append_nil, List.reverse_nil, List.find?_nil, Option.map_none, Option.none_or,
      List.foldl_nil, implies_true, true_and]
    intro i
    by_cases hi : i = d
    · subst hi; simp [hv]
    · simp [hi, Ne.symm hi]
  | addHandlers fs => simp [step, routesOf, convsOf, sourcesOf, handlersOf, middlewareOf, appMixinsOf, reqMixinsOf, sentTo, lastWith, addBases]
  | addMiddleware fs => simp [step, routesOf, convsOf, sourcesOf, handlersOf, middlewareOf, appMixinsOf, reqMixinsOf, sentTo, lastWith, addBases]
  | addAppMixins fs => simp [step, routesOf, convsOf, sourcesOf, handlersOf, middlewareOf, appMixinsOf, reqMixinsOf, sentTo, lastWith, addBases]
  | addRequestMixins fs => simp [step, routesOf, convsOf, sourcesOf, handlersOf, middlewareOf, appMixinsOf, reqMixinsOf, sentTo, lastWith, addBases]
  | expose d => simp [step, routesOf, convsOf, sourcesOf, handlersOf, middlewareOf, appMixinsOf, reqMixinsOf, sentTo, lastWith, addBases]
  | decorate k name obj rep => exact absurd rfl (h k name obj rep)
  | build root =>
    obtain ⟨h1, h2, _⟩ := build_keeps e s root
    simp [step, h1, h2, routesOf, convsOf, sourcesOf, handlersOf, middlewareOf, appMixinsOf, reqMixinsOf, sentTo, lastWith, addBases]
  | request k =>
    obtain ⟨h1, h2, _⟩ := request_keeps e s k
    simp [h1, h2, routesOf, convsOf, sourcesOf, handlersOf, middlewareOf, appMixinsOf, reqMixinsOf, sentTo, lastWith, addBases]

/-- A history, seen from the builder. -/
theorem run_registered (e : Env) (ops : List Op) : ∀ (s : State), Undecorated ops →
    (run e s ops).builder.routes = s.builder.routes ++ routesOf ops ∧
    (∀ n, Dict.get (run e s ops).builder.convs n = (lastWith (convsOf ops) n).or (Dict.get s.builder.convs n)) ∧
    (run e s ops).builder.bindings = s.builder.bindings ++ sourcesOf ops ∧
    (run e s ops).builder.handlers = s.builder.handlers ++ handlersOf ops ∧
    (run e s ops).builder.middleware = s.builder.middleware ++ middlewareOf ops ∧
    (run e s ops).builder.appBases = addBases s.builder.appBases (appMixinsOf ops) ∧
    (run e s ops).builder.reqBases = addBases s.builder.reqBases (reqMixinsOf ops) ∧
    (∀ d, ((run e s ops).disps d).views = (s.disps d).views ++ sentTo d ops) := by
  induction ops with
  | nil =>
    intro s _
    simp [run, routesOf, convsOf, sourcesOf, handlersOf, middlewareOf, appMixinsOf, reqMixinsOf, sentTo, lastWith, addBases]
  | cons op ops ih =>
    intro s hu
    obtain ⟨a1, a2, a3, a4, a5, a6, a7, a8⟩ := step_registered e s op (hu op List.mem_cons_self)
    obtain ⟨b1, b2, b3, b4, b5, b6, b7, b8⟩ := ih (step e s op) fun op' h => hu op' (.tail _ h)
    have hrun : run e s (op :: ops) = run e (step e s op) ops := rfl
    rw [hrun]
    refine ⟨?_, ?_, ?_, ?_, ?_, ?_, ?_, ?_⟩
    · rw [b1, a1, List.append_assoc]; simp [routesOf]
    · intro n
      rw [b2, a2, show convsOf (op :: ops) = convsOf [op] ++ convsOf ops by simp [convsOf], lastWith_append, Option.or_assoc]
    · rw [b3, a3, List.append_assoc]; simp [sourcesOf]
    · rw [b4, a4, List.append_assoc]; simp [handlersOf]
    · rw [b5, a5, List.append_assoc]; simp [middlewareOf]
    · rw [b6, a6, ← addBases_append]; simp [appMixinsOf]
    · rw [b7, a7, ← addBases_append]; simp [reqMixinsOf]
    · intro d
      rw [b8, a8, List.append_assoc]; simp [sentTo]

/-! ### Maps and route objects -/

theorem addOne_other (w : World) (k : Nat) (f : Factory) (j : Nat) (h : j ≠ k) : (w.addOne k f).1.maps j = w.maps j := by
  cases f with
  | route i =>
    simp only [World.addOne]
    split
    · rfl
    · simp [World.setMap, h]
  | _ => simp [World.addOne, World.setMap, h]

theorem add_other (fs : List Factory) : ∀ (w : World) (k j : Nat), j ≠ k → (w.add k fs).1.maps j = w.maps j := by
  induction fs with
  | nil => intro w k j h; simp [World.add, World.setMap, h]
  | cons f fs ih =>
    intro w k j h
    simp only [World.add]
    split
    · exact addOne_other w k f j h
    · rw [ih _ k j h]; exact addOne_other w k f j h

theorem update_update (m : URLMap) : m.update.update = m.update := by
  unfold URLMap.update
  by_cases h : m.remap = true <;> simp [h]

theorem update_cfg (m : URLMap) : m.update.cfg = m.cfg := by
  unfold URLMap.update
  split <;> rfl

/-- What the build does to the rest of the program. -/
theorem build_effect (e : Env) (s : State) (root : Str) :
    s.count ≤ (AppBuilder.build e s root).1.count ∧
    (∀ j, j < s.count → (AppBuilder.build e s root).1.world.maps j = s.world.maps j) ∧
    (∀ i, Factory.route i ∉ s.builder.routes → (AppBuilder.build e s root).1.world.objs i = s.world.objs i) ∧
    (∀ i, (s.world.objs i).bound = true → (AppBuilder.build e s root).1.world.objs i = s.world.objs i) ∧
    ((AppBuilder.build e s root).1.apps = s.apps ∨ ∃ app, (AppBuilder.build e s root).2 = .ok app ∧
      (AppBuilder.build e s root).1.apps = s.apps ++ [app] ∧ app.map = s.count ∧ (AppBuilder.build e s root).1.count = s.count + 1) := by
  have ho : ∀ j, j < s.count → ((s.world.setMap s.count (URLMap.new (config e s.builder.convs))).add s.count
      s.builder.routes).1.maps j = s.world.maps j := by
    intro j hj
    rw [add_other _ _ _ _ (by omega)]
    simp only [World.setMap]
    rw [if_neg (by omega)]
  have hb := add_bound s.builder.routes (s.world.setMap s.count (URLMap.new (config e s.builder.convs))) s.count
  unfold AppBuilder.build
  split
  · exact ⟨Nat.le_refl _, fun _ _ => rfl, fun _ _ => rfl, fun _ _ => rfl, .inl rfl⟩
  · split
    · exact ⟨Nat.le_refl _, fun _ _ => rfl, fun _ _ => rfl, fun _ _ => rfl, .inl rfl⟩
    · simp only
      split
      · exact ⟨Nat.le_succ _, ho, fun i h => (hb i).2.2 h, fun i h => (hb i).1 h, .inl rfl⟩
      · split
        · exact ⟨Nat.le_succ _, ho, fun i h => (hb i).2.2 h, fun i h => (hb i).1 h, .inl rfl⟩
        · exact ⟨Nat.le_succ _, ho, fun i h => (hb i).2.2 h, fun i h => (hb i).1 h, .inr ⟨_, rfl, rfl, rfl, rfl⟩⟩

theorem decorate_keeps (s : State) (k : Nat) (name : Str) (obj : Nat) (rep : Rep) :
    (AppBuilder.decorate s k name obj rep).world.maps = s.world.maps ∧ (AppBuilder.decorate s k name obj rep).apps = s.apps ∧
    (AppBuilder.decorate s k name obj rep).count = s.count ∧
    ∀ i, i ≠ obj → (AppBuilder.decorate s k name obj rep).world.objs i = s.world.objs i := by
  unfold AppBuilder.decorate
  split
  · exact ⟨rfl, rfl, rfl, fun _ _ => rfl⟩
  · simp only
    split
    · exact ⟨rfl, rfl, rfl, fun _ _ => rfl⟩
    · split
      · exact ⟨rfl, rfl, rfl, fun _ _ => rfl⟩
      · exact ⟨rfl, rfl, rfl, fun i h => by simp [h]⟩

/-- One call, seen from a map and an application that are already there. -/
theorem step_later (e : Env) (s : State) (op : Op) :
    s.count ≤ (step e s op).count ∧
    (∀ j, j < s.count → (step e s op).world.maps j = s.world.maps j ∨ (step e s op).world.maps j = (s.world.maps j).update) ∧
    ∃ l, (step e s op).apps = s.apps ++ l ∧ ∀ a ∈ l, s.count ≤ a.map ∧ a.map < (step e s op).count := by
  cases op with
  | build root =>
    obtain ⟨h1, h2, _, _, h3⟩ := build_effect e s root
    refine ⟨h1, fun j hj => .inl (h2 j hj), ?_⟩
    rcases h3 with h3 | ⟨app, h3, h4, h5, h6⟩
    · exact ⟨[], by simp [step, h3], fun a h => by cases h⟩
    · refine ⟨[app], h4, fun a h => ?_⟩
      rw [List.mem_singleton.1 h, h5]
      simp only [step, h6]
      omega
  | decorate k name obj rep =>
    obtain ⟨h1, h2, h3, _⟩ := decorate_keeps s k name obj rep
    exact ⟨by simp [step, h3], fun j _ => .inl (by simp [step, h1]), [], by simp [step, h2], fun a h => by cases h⟩
  | request k =>
    obtain ⟨_, _, _, h2, h3⟩ := request_keeps e s k
    refine ⟨by rw [h3]; exact Nat.le_refl _, fun j hj => ?_, [], by simp [h2], fun a h => by cases h⟩
    simp only [step]
    split
    · exact .inl rfl
    · rename_i a _
      simp only [World.setMap]
      by_cases h : j = a.map
      · rw [if_pos h, h]; exact .inr rfl
      · rw [if_neg h]; exact .inl rfl
  | _ => exact ⟨Nat.le_refl _, fun _ _ => .inl rfl, [], by simp [step], fun a h => by cases h⟩

theorem run_later (e : Env) (ops : List Op) : ∀ (s : State),
    s.count ≤ (run e s ops).count ∧
    (∀ j, j < s.count → (run e s ops).world.maps j = s.world.maps j ∨ (run e s ops).world.maps j = (s.world.maps j).update) ∧
    ∃ l, (run e s ops).apps = s.apps ++ l ∧ ∀ a ∈ l, s.count ≤ a.map ∧ a.map < (run e s ops).count := by
  induction ops with
  | nil => intro s; exact ⟨Nat.le_refl _, fun _ _ => .inl rfl, [], by simp [run], fun a h => by cases h⟩
  | cons op ops ih =>
    intro s
    obtain ⟨a1, a2, la, a3, a4⟩ := step_later e s op
    obtain ⟨b1, b2, lb, b3, b4⟩ := ih (step e s op)
    have hrun : run e s (op :: ops) = run e (step e s op) ops := rfl
    rw [hrun]
    refine ⟨Nat.le_trans a1 b1, fun j hj => ?_, la ++ lb, by rw [b3, a3, List.append_assoc], fun a h => ?_⟩
    · rcases b2 j (Nat.lt_of_lt_of_le hj a1) with hb | hb <;> rcases a2 j hj with ha | ha <;> rw [hb, ha]
      · exact .inl rfl
      · exact .inr rfl
      · exact .inr rfl
      · exact .inr (update_update _)
    · rcases List.mem_append.1 h with h | h
      · exact ⟨(a4 a h).1, Nat.lt_of_lt_of_le (a4 a h).2 b1⟩
      · exact ⟨Nat.le_trans a1 (b4 a h).1, (b4 a h).2⟩

/-- Route objects stay as they are where none is bound by a build. -/
theorem run_objs (e : Env) (ops : List Op) : ∀ (s : State), Undecorated ops →
    ((∀ op ∈ ops, ∀ root, op ≠ .build root) ∨ ∀ i, Factory.route i ∉ s.builder.routes ++ routesOf ops) →
    (run e s ops).world.objs = s.world.objs := by
  induction ops with
  | nil => intro s _ _; rfl
  | cons op ops ih =>
    intro s hu hb
    have hrun : run e s (op :: ops) = run e (step e s op) ops := rfl
    have hreg := (step_registered e s op (hu op List.mem_cons_self)).1
    rw [hrun, ih (step e s op) (fun op' h => hu op' (.tail _ h))]
    · cases op with
      | build root =>
        rcases hb with hb | hb
        · exact absurd rfl (hb _ List.mem_cons_self root)
        · funext i
          exact (build_effect e s root).2.2.1 i fun h => hb i (List.mem_append.2 (.inl h))
      | decorate k name obj rep => exact absurd rfl (hu _ List.mem_cons_self k name obj rep)
      | request k => exact (request_keeps e s k).2.2.1
      | _ => rfl
    · rcases hb with hb | hb
      · exact .inl fun op' h => hb op' (.tail _ h)
      · refine .inr fun i h => hb i ?_
        rw [hreg, List.append_assoc] at h
        simpa [routesOf] using h

/-- Every application has a map. -/
theorem run_maps (e : Env) (w : World) (b : Builder) (ops : List Op) :
    ∀ a ∈ (run e (start w b) ops).apps, a.map < (run e (start w b) ops).count := by
  obtain ⟨_, _, l, h1, h2⟩ := run_later e ops (start w b)
  intro a ha
  rw [h1] at ha
  exact (h2 a (by simpa [start] using ha)).2

/-! ### The theorems -/

/-- Sorting a map changes no answer. -/
theorem answers_update (m m' : URLMap) (h : m' = m ∨ m' = m.update) :
    Routing.match_ m' = Routing.match_ m ∧ Routing.build m' = Routing.build m := by
  rcases h with rfl | rfl
  · exact ⟨rfl, rfl⟩
  · constructor
    · funext a p q
      simp only [Routing.match_, update_update, update_cfg]
    · funext a ep vs f u
      simp only [Routing.build, update_update, update_cfg]

/-- **C107 (applications do not change).**  Whatever is registered with the builder, done with the
dispatchers, built or requested after an application was built, the application is the same, and its
map gives the same answer to every request and the same address for every end point. -/
theorem C107_frozen (e : Env) (w : World) (b : Builder) (pre post : List Op) (k : Nat) (app : Built)
    (h : (run e (start w b) pre).apps[k]? = some app) :
    (run e (start w b) (pre ++ post)).apps[k]? = some app ∧
    Routing.match_ ((run e (start w b) (pre ++ post)).world.maps app.map) =
      Routing.match_ ((run e (start w b) pre).world.maps app.map) ∧
    Routing.build ((run e (start w b) (pre ++ post)).world.maps app.map) =
      Routing.build ((run e (start w b) pre).world.maps app.map) := by
  have hrun : run e (start w b) (pre ++ post) = run e (run e (start w b) pre) post := by simp [run, List.foldl_append]
  rw [hrun]
  obtain ⟨_, h2, l, h3, _⟩ := run_later e post (run e (start w b) pre)
  refine ⟨?_, answers_update _ _ (h2 _ (run_maps e w b pre app (List.mem_of_getElem? h)))⟩
  rw [h3, List.getElem?_append_left (List.getElem?_eq_some_iff.1 h).1]
  exact h

/-- **C107 (no map is shared).**  The applications of a builder have maps of their own. -/
theorem C107_apart (e : Env) (w : World) (b : Builder) (ops : List Op) :
    ((run e (start w b) ops).apps.map (·.map)).Nodup := by
  suffices ∀ (ops : List Op) (s : State), (s.apps.map (·.map)).Nodup → (∀ a ∈ s.apps, a.map < s.count) →
      ((run e s ops).apps.map (·.map)).Nodup from
    this ops (start w b) (by simp [start]) (fun a h => by cases h)
  intro ops
  induction ops with
  | nil => intro s h _; exact h
  | cons op ops ih =>
    intro s h hlt
    have hrun : run e s (op :: ops) = run e (step e s op) ops := rfl
    rw [hrun]
    obtain ⟨a1, _, l, a3, a4⟩ := step_later e s op
    have hl : l = [] ∨ ∃ a, l = [a] := by
      cases op with
      | build root =>
        rcases (build_effect e s root).2.2.2.2 with h3 | ⟨app, _, h4, _⟩
        · rw [step, h3] at a3
          exact .inl (by simpa using a3)
        · rw [step, h4] at a3
          exact .inr ⟨app, by simpa using a3.symm⟩
      | decorate k name obj rep =>
        rw [step, (decorate_keeps s k name obj rep).2.1] at a3
        exact .inl (by simpa using a3)
      | request k =>
        rw [(request_keeps e s k).2.2.2.1] at a3
        exact .inl (by simpa using a3)
      | _ => exact .inl (by simpa [step] using a3)
    apply ih
    · rw [a3]
      rcases hl with rfl | ⟨a, rfl⟩
      · simpa using h
      · rw [List.map_append, List.nodup_append]
        refine ⟨h, by simp, ?_⟩
        intro x hx y hy
        obtain ⟨c, hc, rfl⟩ := List.mem_map.1 hx
        have := hlt c hc
        have := (a4 a List.mem_cons_self).1
        simp only [List.map_cons, List.map_nil, List.mem_singleton] at hy
        omega
    · intro a ha
      rw [a3] at ha
      rcases List.mem_append.1 ha with ha | ha
      · exact Nat.lt_of_lt_of_le (hlt a ha) a1
      · exact (a4 a ha).2

theorem foldl_addAll (ss : List Source) (disps : Nat → Disp) : ∀ (d : Disp),
    ss.foldl (fun d f => d.addAll (f.bindings disps)) d = d.addAll (ss.flatMap (Source.bindings disps)) := by
  induction ss with
  | nil => intro d; rfl
  | cons x ss ih =>
    intro d
    rw [List.foldl_cons, ih, List.flatMap_cons]
    simp [Disp.addAll, List.foldl_append]

/-- **C107 (an application is what was registered).**  Where the routes registered are those of a
list, each one fit for the map and bound to none, an application is built, and from then on routes
requests and builds addresses as a map with exactly these routes and with the converters that
were registered last, chooses among exactly the bindings registered, dispatchers with all that was
added to them before the build, has exactly the handlers registered, after the default one, and
the middleware, in the order of registration. -/
theorem C107_contents_partial (e : Env) (w : World) (base reqBase : Nat) (redirects : Option Handler) (mixins : List Nat)
    (pre post : List Op) (root : Str) (rs : List Route) (bound : BoundMap) (appMro reqMro : List Nat)
    (hu : Undecorated pre)
    (hbare : (∀ op ∈ pre, ∀ r, op ≠ .build r) ∨ ∀ i, Factory.route i ∉ routesOf pre)
    (hn : (mentionsL (routesOf pre)).Nodup) (hb : ∀ i, Factory.route i ∈ routesOf pre → (w.objs i).bound = false)
    (hr : RootedL w.objs (routesOf pre)) (hl : LeavesL w.objs {} (routesOf pre) rs)
    (hfit : ((URLMap.new (settings e.cfg (convsOf pre))).add rs).2 = none)
    (hroot : Application.bindRoot (settings e.cfg (convsOf pre)) e.lower e.other root = .ok bound)
    (happ : linearise e.mro (addBases [base] (appMixinsOf pre)) = some appMro)
    (hreq : linearise e.mro (addBases [reqBase] (mixins ++ reqMixinsOf pre)) = some reqMro) :
    let s := start w (Builder.new base reqBase redirects mixins)
    ∃ app : Built, (AppBuilder.build e (run e s pre) root).2 = .ok app ∧
      (run e s (pre ++ .build root :: post)).apps[(run e s pre).apps.length]? = some app ∧
      Routing.match_ ((run e s (pre ++ .build root :: post)).world.maps app.map) =
        Routing.match_ ((URLMap.new (settings e.cfg (convsOf pre))).add rs).1 ∧
      Routing.build ((run e s (pre ++ .build root :: post)).world.maps app.map) =
        Routing.build ((URLMap.new (settings e.cfg (convsOf pre))).add rs).1 ∧
      app.bound = bound ∧
      (∀ sel name method, app.disp.lookup sel name method = specLookup sel (bindingsOf pre) name method) ∧
      (∀ c, Dict.get app.handlers c = nonempty (handlersFor (redirects.toList ++ handlersOf pre) c)) ∧
      app.middleware = middlewareOf pre ∧ app.appMro = appMro ∧ app.reqMro = reqMro := by
  intro s
  obtain ⟨a1, a2, a3, a4, a5, a6, a7, a8⟩ := run_registered e pre s hu
  have hobjs := run_objs e pre s hu (by
    rcases hbare with h | h
    · exact .inl h
    · exact .inr (by simpa [s, start, Builder.new] using h))
  generalize hs1 : run e s pre = s1 at a1 a2 a3 a4 a5 a6 a7 a8 hobjs
  simp only [s, start, Builder.new, List.nil_append] at a1 a3 a4 a5 a6 a7 hobjs
  have a2' : ∀ n, Dict.get s1.builder.convs n = lastWith (convsOf pre) n := by
    intro n
    rw [a2 n]
    simp [s, start, Builder.new]
  have hcfg : config e s1.builder.convs = settings e.cfg (convsOf pre) := by
    simp only [config, settings, Config.mk.injEq, true_and, and_true]
    funext n args
    rw [a2' n]
    cases lastWith (convsOf pre) n <;> rfl
  rw [← addBases_append] at a7
  rw [← a6] at happ
  rw [← a7] at hreq
  obtain ⟨c1, c2, _⟩ := C101_added_partial (s1.world.setMap s1.count (URLMap.new (config e s1.builder.convs))) s1.count
    s1.builder.routes rs (by rw [a1]; exact hn) (by rw [a1]; simpa [World.setMap, hobjs] using hb)
    (by rw [a1]; simpa [World.setMap, hobjs] using hr) (by rw [a1]; simpa [World.setMap, hobjs] using hl)
  have hm0 : (s1.world.setMap s1.count (URLMap.new (config e s1.builder.convs))).maps s1.count =
      URLMap.new (settings e.cfg (convsOf pre)) := by
    simp [World.setMap, hcfg]
  rw [hm0] at c1 c2
  rw [hfit] at c2
  -- the application
  have hbuild : ∃ app s2, AppBuilder.build e s1 root = (s2, .ok app) ∧ s2.apps = s1.apps ++ [app] ∧ app.map = s1.count ∧
      s2.count = s1.count + 1 ∧ s2.world.maps s1.count = ((URLMap.new (settings e.cfg (convsOf pre))).add rs).1 ∧
      app.bound = bound ∧ app.disp = s1.builder.bindings.foldl (fun d f => d.addAll (f.bindings s1.disps)) .empty ∧
      app.handlers = s1.builder.handlers.foldl addHandler [] ∧ app.middleware = s1.builder.middleware ∧
      app.appMro = appMro ∧ app.reqMro = reqMro := by
    unfold AppBuilder.build
    rw [happ, hreq]
    simp only
    rw [c2, hcfg, hroot]
    exact ⟨_, _, rfl, rfl, rfl, rfl, by rw [← c1, hcfg], rfl, rfl, rfl, rfl, rfl, rfl⟩
  obtain ⟨app, s2, d1, d2, d3, d4, d5, d6, d7, d8, d9, d10, d11⟩ := hbuild
  have hrun : run e s (pre ++ .build root :: post) = run e s2 post := by
    have : run e s (pre ++ .build root :: post) = run e (step e (run e s pre) (.build root)) post := by
      simp [run, List.foldl_append]
    rw [this, hs1, step, d1]
  obtain ⟨_, f2, l, f3, _⟩ := run_later e post s2
  have hans := answers_update _ _ (f2 app.map (by omega))
  rw [d3, d5] at hans
  refine ⟨app, by rw [d1], ?_, ?_, ?_, d6, ?_, ?_, d9.trans a5, d10, d11⟩
  · rw [hrun, f3, d2]
    rw [List.getElem?_append_left (by simp)]
    simp
  · rw [hrun, d3]; exact hans.1
  · rw [hrun, d3]; exact hans.2
  · intro sel name method
    rw [d7, foldl_addAll, a3]
    have hbs : (sourcesOf pre).flatMap (Source.bindings s1.disps) = bindingsOf pre := by
      unfold bindingsOf
      congr 1
      funext x
      cases x with
      | own bs => rfl
      | dispatcher d =>
        simp only [Source.bindings]
        rw [a8 d]
        simp [s, start, Disp.empty]
    rw [hbs]
    exact C40_lookup sel [.add 0 (bindingsOf pre)] 0 name method
  · intro c
    rw [d8, a4]
    exact get_register _ c

/-- A map that is to have a bound route can not be filled. -/
theorem add_again (fs : List Factory) (i : Nat) (hi : Factory.route i ∈ fs) : ∀ (w : World) (k : Nat),
    (w.objs i).bound = true → (w.add k fs).2 ≠ none := by
  induction fs with
  | nil => cases hi
  | cons f fs ih =>
    intro w k hb
    simp only [World.add]
    split
    · simp
    · rename_i hnone
      rcases List.mem_cons.1 hi with h | h
      · exfalso
        rw [← h] at hnone
        simp only [World.addOne, hb, if_true] at hnone
        cases hnone
      · exact ih h _ k (by rw [(addOne_bound w k f i).1 hb]; exact hb)

theorem run_again (e : Env) (ops : List Op) (i : Nat) (hfresh : ∀ op ∈ ops, ∀ k name rep, op ≠ .decorate k name i rep) :
    ∀ (s : State), Factory.route i ∈ s.builder.routes → (s.world.objs i).bound = true →
    Factory.route i ∈ (run e s ops).builder.routes ∧ ((run e s ops).world.objs i).bound = true := by
  induction ops with
  | nil => intro s h1 h2; exact ⟨h1, h2⟩
  | cons op ops ih =>
    intro s h1 h2
    refine ih (fun op' h => hfresh op' (.tail _ h)) (step e s op) ?_ ?_
    · cases op with
      | decorate k name obj rep =>
        simp only [step, AppBuilder.decorate]
        split
        · exact h1
        · split
          · exact h1
          · split
            · exact h1
            · exact List.mem_append.2 (.inl h1)
      | _ =>
        rw [(step_registered e s _ (by intro k name obj rep h; cases h)).1]
        exact List.mem_append.2 (.inl h1)
    · cases op with
      | build root => rw [step, (build_effect e s root).2.2.2.1 i h2]; exact h2
      | decorate k name obj rep =>
        have : i ≠ obj := fun h => hfresh _ List.mem_cons_self k name rep (by rw [h])
        rw [step, (decorate_keeps s k name obj rep).2.2.2 i this]; exact h2
      | request k => rw [(request_keeps e s k).2.2.1]; exact h2
      | _ => exact h2

/-- **C107 (one application for a route).**  After an application was built by a builder with a
route that is in no factory, no further application can be built by it, whatever happens in
between. -/
theorem C107_again (e : Env) (s : State) (root : Str) (app : Built) (hok : (AppBuilder.build e s root).2 = .ok app) (i : Nat)
    (hi : Factory.route i ∈ s.builder.routes) (ops : List Op) (hfresh : ∀ op ∈ ops, ∀ k name rep, op ≠ .decorate k name i rep)
    (root' : Str) (app' : Built) : (AppBuilder.build e (run e (AppBuilder.build e s root).1 ops) root').2 ≠ .ok app' := by
  have hb : ((AppBuilder.build e s root).1.world.objs i).bound = true := by
    revert hok
    unfold AppBuilder.build
    split
    · intro h; cases h
    · split
      · intro h; cases h
      · simp only
        split
        · intro h; cases h
        · rename_i hnone
          split
          · intro h; cases h
          · intro _
            exact (add_bound s.builder.routes _ s.count i).2.1 hi hnone
  obtain ⟨h1, h2⟩ := run_again e ops i hfresh (AppBuilder.build e s root).1 (by rw [(build_keeps e s root).1]; exact hi) hb
  generalize run e (AppBuilder.build e s root).1 ops = s' at h1 h2
  unfold AppBuilder.build
  split
  · simp
  · split
    · simp
    · simp only
      have := add_again s'.builder.routes i h1 (s'.world.setMap s'.count (URLMap.new (config e s'.builder.convs))) s'.count h2
      split
      · simp
      · rename_i hnone
        exact absurd hnone this

/-- **C107 (mixins come last).**  Whatever mixins are added, anything that the class of
applications or of requests itself defines is found there, and a mixin comes before those added
after it. -/
theorem C107_mixins (mro : Nat → List Nat) (hm : Classes mro) (base : Nat) (ms : List Nat) (r : List Nat)
    (h : linearise mro (addBases [base] ms) = some r) (defines : Nat → Str → Bool) (name : Str) :
    (defines base name = true → resolve defines name r = some base) ∧
    (∀ m ∈ ms, defines m name = true → ∃ c, resolve defines name r = some c ∧ defines c name = true) ∧
    (∀ a b, [a, b].Sublist (addBases [base] ms) → defines a name = true → resolve defines name r ≠ some b) := by
  obtain ⟨h1, h2, h3⟩ := addBases_spec ms [base] (by simp)
  obtain ⟨t, ht⟩ := h2
  have ht' : addBases [base] ms = base :: t := ht.symm
  rw [ht'] at h h1
  have hhead := linearise_head hm h1 h
  obtain ⟨g1, g2, -, -⟩ := linearise_spec hm h1 h
  refine ⟨fun hd => ?_, fun m hmem hd => ?_, fun a b hab hd hres => ?_⟩
  · cases r with
    | nil => cases hhead
    | cons x r =>
      have : x = base := by simpa using hhead
      subst this
      simp [resolve, hd]
  · have hmr : m ∈ r := g2.subset (by rw [← ht', h3]; exact .inr hmem)
    unfold resolve
    cases hf : r.find? fun c => defines c name with
    | none => exact absurd hd (List.find?_eq_none.1 hf m hmr)
    | some c => exact ⟨c, rfl, List.find?_some (p := fun c => defines c name) hf⟩
  · rw [ht'] at hab
    have hsub := hab.trans g2
    clear h h1 hhead g2 h3 ht ht' hab
    unfold resolve at hres
    induction r with
    | nil => cases hsub
    | cons x r ih =>
      have hn := List.nodup_cons.1 g1
      rw [List.find?_cons] at hres
      cases hsub with
      | cons _ hs =>
        split at hres
        · cases hres
          exact hn.1 (hs.subset (by simp))
        · exact ih hn.2 hres hs
      | cons_cons _ hs =>
        rw [hd] at hres
        simp only [Option.some.injEq] at hres
        subst hres
        exact hn.1 (hs.subset (by simp))

/-- **C107 (mixins that derive from the base class).**  Once a mixin was added that derives from
the class of applications, or from that of requests, each build raises `TypeError`. -/
theorem C107_derived (e : Env) (hm : Classes e.mro) (w : World) (base reqBase : Nat) (redirects : Option Handler)
    (mixins : List Nat) (ops : List Op) (hu : Undecorated ops) (m : Nat)
    (h : (m ∈ appMixinsOf ops ∧ m ≠ base ∧ base ∈ e.mro m) ∨
      (m ∈ mixins ++ reqMixinsOf ops ∧ m ≠ reqBase ∧ reqBase ∈ e.mro m)) (root : Str) :
    let s := run e (start w (Builder.new base reqBase redirects mixins)) ops
    AppBuilder.build e s root = (s, .error .typeError) := by
  intro s
  obtain ⟨_, _, _, _, _, a6, a7, _⟩ := run_registered e ops (start w (Builder.new base reqBase redirects mixins)) hu
  have key : ∀ (b : Nat) (ms : List Nat), m ∈ ms → m ≠ b → b ∈ e.mro m → linearise e.mro (addBases [b] ms) = none := by
    intro b ms h1 h2 h3
    obtain ⟨g1, ⟨t, g2⟩, g3⟩ := addBases_spec ms [b] (by simp)
    have ht' : addBases [b] ms = b :: t := g2.symm
    have hmem : m ∈ addBases [b] ms := (g3 m).2 (.inr h1)
    rw [ht'] at g1 hmem ⊢
    exact linearise_derived hm g1 (by
      rcases List.mem_cons.1 hmem with h | h
      · exact absurd h h2
      · exact h) h3
  simp only [start, Builder.new] at a6 a7
  rw [← addBases_append] at a7
  unfold AppBuilder.build
  rcases h with ⟨h1, h2, h3⟩ | ⟨h1, h2, h3⟩
  · have : linearise e.mro s.builder.appBases = none := by
      show linearise e.mro (run e _ ops).builder.appBases = none
      rw [show (run e (start w (Builder.new base reqBase redirects mixins)) ops).builder.appBases = _ from a6]
      exact key base _ h1 h2 h3
    rw [this]
  · have : linearise e.mro s.builder.reqBases = none := by
      show linearise e.mro (run e _ ops).builder.reqBases = none
      rw [show (run e (start w (Builder.new base reqBase redirects mixins)) ops).builder.reqBases = _ from a7]
      exact key reqBase _ h1 h2 h3
    rw [this]
    cases linearise e.mro s.builder.appBases <;> rfl

/-- **C107 (decorators).**  The first function that a decorator of `expose` is used on is bound to
the end point, by default the name of the function, and the route is registered for it; a second
one is bound to the same end point whatever its name, and nothing is routed for it. -/
theorem C107_expose (e : Env) (s : State) (d : Deco) (name name' : Str) (obj obj' : Nat) (rep rep' : Rep)
    (hr : ∀ r, d.route = some r → r.head? = some '/') :
    let k := s.decos.length
    let s1 := run e s [.expose d, .decorate k name obj rep]
    let s2 := step e s1 (.decorate k name' obj' rep')
    s1.builder.routes = s.builder.routes ++ (d.route.map fun _ => Factory.route obj).toList ∧
    (∀ r, d.route = some r → s1.world.objs obj = ⟨{ rule := r, endpoint := d.endpoint.getD name }, false⟩) ∧
    s1.builder.bindings = s.builder.bindings ++ [.own (viewBindings (d.endpoint.getD name) d.methods rep)] ∧
    s2.builder.routes = s1.builder.routes ∧ s2.world.objs = s1.world.objs ∧
    s2.builder.bindings = s1.builder.bindings ++ [.own (viewBindings (d.endpoint.getD name) d.methods rep')] := by
  obtain ⟨ep, route, ms⟩ := d
  cases route with
  | none =>
    simp [run, step, AppBuilder.decorate]
  | some r =>
    have := hr r rfl
    simp [run, step, AppBuilder.decorate, this]

/-! ### Examples, and what does not hold -/

/-- Classes: 0 is that of applications, 1 that of requests, 9 the base of all, 3 derives from 0. -/
def demoMro (c : Nat) : List Nat := if c = 3 then [3, 0, 9] else if c = 9 then [9] else [c, 9]

theorem demo_classes : Classes demoMro := by
  intro c
  unfold demoMro
  split
  · rename_i h; subst h; decide
  · split
    · rename_i h; subst h; decide
    · rename_i h; simp [h]

/-- The rest of a program. -/
def demoRest : Env := ⟨sampleCfg, asciiLower, fun s => .ok s, demoMro⟩

/-- A converter for the text `x` only. -/
def xConv : ConvClass := fun args => if args = none then .ok { pathConv with weight := 7 } else .error .typeError

/-- The handler of redirects. -/
def demoRedirects : Handler := ⟨0, ⟨99, none, none, none, .one⟩⟩

def demoProgram : State := start ⟨demoObjs, fun _ => URLMap.new sampleCfg⟩ (Builder.new 0 1 (some demoRedirects) [1, 5, 6])

/-- What a program registers: a dispatcher is filled after it is given to the builder. -/
def demoPre : List Op :=
  [.addRoutes [demoNest], .addConverters [(s%"x", fun _ => .error .typeError)], .addBindings [.dispatcher 4], .addAppMixins [2, 2],
   .addTo 4 [⟨s%"blog/index", s%"GET", offer 1 s%"text/html"⟩], .addHandlers [⟨0, offer 7 s%"text/html"⟩, ⟨2, offer 8 s%"text/html"⟩],
   .addConverters [(s%"x", xConv)], .addBindings [.own [⟨s%"blog/show", s%"GET", offer 2 s%"text/html"⟩]], .addMiddleware 11,
   .addRoutes [.submount s%"/c" [.route 4]], .build [], .request 0, .addMiddleware 12]

/-- What it does after the build. -/
def demoPost : List Op :=
  [.addRoutes [.route 3], .addConverters [(s%"int", xConv)], .addTo 4 [⟨s%"blog/index", s%"GET", offer 5 s%"text/html"⟩],
   .request 1, .addMiddleware 13, .expose ⟨none, some s%"/f", .one s%"GET"⟩, .decorate 0 s%"f" 8 (offer 6 s%"text/html"), .build []]

/-- All of the hypotheses of `C107_contents_partial` are met by this program, which has built another
application before. -/
example : ∃ app : Built, (AppBuilder.build demoRest (run demoRest demoProgram demoPre) []).2 = .ok app ∧
    (run demoRest demoProgram (demoPre ++ .build [] :: demoPost)).apps[1]? = some app ∧
    app.middleware = [11, 12] ∧ app.appMro = [0, 2, 9] ∧ app.reqMro = [1, 5, 6, 9] ∧
    (∀ sel, app.disp.lookup sel s%"blog/index" s%"HEAD" = sel [offer 1 s%"text/html"]) ∧
    chosen (Routing.match_ ((run demoRest demoProgram (demoPre ++ .build [] :: demoPost)).world.maps app.map)
      (Adapter.mk' s%"example.org" s%"/" s%"de" s%"http") s%"/user/12" []) = some s%"blog/user.show" := by
  have hl : LeavesL demoObjs {} (routesOf demoPre) (demoLeaves ++ [sampleRoute s%"/c/x" s%"x"]) := by
    refine ⟨demoLeaves, [sampleRoute s%"/c/x" s%"x"], rfl, demo_leaves.2, [sampleRoute s%"/c/x" s%"x"], [], rfl, ?_, rfl⟩
    exact ⟨s%"/c", 0, rfl, by decide, [sampleRoute s%"/c/x" s%"x"], [], rfl, rfl, rfl⟩
  obtain ⟨app, h1, h2, h3, h4, h5, h6, h7, h8, h9, h10⟩ := C107_contents_partial demoRest ⟨demoObjs, fun _ => URLMap.new sampleCfg⟩ 0 1
    (some demoRedirects) [1, 5, 6] demoPre demoPost [] (demoLeaves ++ [sampleRoute s%"/c/x" s%"x"])
    ⟨⟨[], s%"/", [], []⟩, none, none⟩ [0, 2, 9] [1, 5, 6, 9]
    (by intro op h k name obj rep; simp only [demoPre, List.mem_cons, List.not_mem_nil, or_false] at h; rintro rfl; simp at h)
    (.inr (by intro i h; simp [routesOf, demoPre, demoNest] at h))
    (by decide +kernel) (by intro i h; simp [routesOf, demoPre, demoNest] at h)
    ⟨demo_leaves.1, by simp [Rooted, RootedL, demoObjs, sampleRoute]⟩ hl rfl rfl (by decide) (by decide)
  refine ⟨app, h1, h2, h8, h9, h10, fun sel => ?_, ?_⟩
  · rw [h6]; rfl
  · rw [show (run demoRest demoProgram (demoPre ++ .build [] :: demoPost)).world.maps app.map = _ from rfl]
    unfold demoProgram
    rw [h3]
    decide +kernel

/-- The outcome of a build. -/
def outcome (x : State × Except PyErr Built) : Except PyErr Nat := x.2.map (·.map)

/-- C107, what does not hold: that a builder can be used again.  With a single route that is not in a
factory, the second application can not be built, nor can one where the first attempt failed, for the
root was wrong. -/
theorem C107_again_false : ∃ (e : Env) (s : State) (bad : Str), outcome (AppBuilder.build e s []) = .ok s.count ∧
    outcome (AppBuilder.build e (AppBuilder.build e s []).1 []) = .error .runtimeError ∧
    outcome (AppBuilder.build e s bad) = .error .valueError ∧
    outcome (AppBuilder.build e (AppBuilder.build e s bad).1 []) = .error .runtimeError :=
  ⟨demoRest, run demoRest demoProgram [.addRoutes [.route 4]], s%"http://[x", rfl, rfl, rfl, rfl⟩

/-- C107, what does not hold: that a mixin overrides what the class of applications does. -/
theorem C107_override_false : ∃ (e : Env) (s : State) (app : Built) (defines : Nat → Str → Bool), Classes e.mro ∧
    2 ∈ appMixinsOf [.addAppMixins [2]] ∧
    (AppBuilder.build e (run e s [.addAppMixins [2]]) []).2 = .ok app ∧ defines 2 s%"url_for" = true ∧
    resolve defines s%"url_for" app.appMro = some 0 :=
  ⟨demoRest, demoProgram, _, fun c n => (c = 0 || c = 2) && n = s%"url_for", demo_classes, by decide, rfl, by decide, by decide⟩

/-- A mixin of one's own, and one that derives from the class of applications. -/
example : linearise demoMro (addBases [0] [2, 4, 2]) = some [0, 2, 4, 9] ∧ linearise demoMro (addBases [0] [3]) = none ∧
    resolve (fun c n => (c = 2 || c = 4) && n = s%"greet") s%"greet" [0, 2, 4, 9] = some 2 := by decide

example (root : Str) : let s := run demoRest demoProgram [.addAppMixins [2, 3], .addMiddleware 1]
    AppBuilder.build demoRest s root = (s, .error .typeError) :=
  C107_derived demoRest demo_classes _ 0 1 _ _ _
    (by intro op h k name obj rep; simp only [List.mem_cons, List.not_mem_nil, or_false] at h; rintro rfl; simp at h)
    3 (.inl ⟨by decide, by decide, by decide⟩) root

/-- An application that was built stays as it is. -/
example : ∃ app, (run demoRest demoProgram demoPre).apps[0]? = some app ∧
    (run demoRest demoProgram (demoPre ++ demoPost)).apps[0]? = some app ∧ app.middleware = [11] :=
  ⟨_, rfl, (C107_frozen demoRest _ _ demoPre demoPost 0 _ rfl).1, rfl⟩

/-- A decorator that is used twice. -/
example : (run demoRest demoProgram [.expose ⟨none, some s%"/f", .one s%"GET"⟩, .decorate 0 s%"f" 8 (offer 6 s%"text/html"),
      .decorate 0 s%"g" 9 (offer 7 s%"text/html")]).builder.bindings.flatMap (Source.bindings fun _ => .empty) =
    [⟨s%"f", s%"GET", offer 6 s%"text/html"⟩, ⟨s%"f", s%"GET", offer 7 s%"text/html"⟩] := by decide +kernel

end Verif.Props.AppBuilderP
