import Verif.Props.RuleText
/-!
C112: floats in paths.
-/
namespace Verif.Props.FloatP
open Verif Verif.Routing Verif.Spec.Routing Verif.Props Verif.Props.RoutingP Verif.Props.ConvArgsP

/-! ### C112 -/

/-- **C112** (reading): what a route delivers for a float is the value of a piece of the path that is a float in the
usual notation, and is within the bounds. -/
theorem C112_delivered (L : ArgLib) (cfg : Config) (hcfg : cfg.conv = defaultConv L) (i : Nat) (r : Route) (b : Bound)
    (hc : compile cfg i r = .ok b) (n : Str) (lo hi : Option Str) (hn : (n, floatConv L.floats L.dec lo hi) ∈ b.vars)
    (hd : n ∉ Dict.keys b.route.defaults) (path : Str) (vs : Values)
    (hm : b.match_ cfg path = .values vs ∨ b.match_ cfg path = .alias vs) :
    ∃ t f, t <:+: path ∧ Usual L.dec t ∧ L.floats.canon t = some f ∧ Within L.floats lo hi f ∧ Dict.get vs n = some (.flt f) := by
  obtain ⟨t, v, h1, h2, h3, h4⟩ := delivered cfg i r b hc (pure_parts cfg (C110_pure L cfg hcfg) i r b hc) path vs hm n _ hn hd
  simp only [floatConv] at h3
  split at h3
  · cases h3
  · rename_i f hf
    split at h3
    · cases h3
    · rename_i hw
      cases h3
      exact ⟨t, f, h1, (lang_float _ _ _ _ _).1 h2, hf, (within _ _ _ _).1 (by simpa using hw), h4⟩

/-- **C112** (all of them): every float in the usual notation within the bounds is accepted; outside of them none is. -/
theorem C112_accepted (F : FloatLib) (dec : Char → Option Nat) (lo hi : Option Str) (t f : Str) (ht : Usual dec t)
    (hf : F.canon t = some f) :
    Re.Lang (floatConv F dec lo hi).re t ∧
    (Within F lo hi f → (floatConv F dec lo hi).toPython t = some (.flt f)) ∧
    (¬ Within F lo hi f → (floatConv F dec lo hi).toPython t = none) := by
  refine ⟨(lang_float _ _ _ _ _).2 ht, ?_, ?_⟩
  · intro hw
    simp only [floatConv, hf, (within F lo hi f).2 hw]
    rfl
  · intro hw
    cases h : (lo.any (fun l => F.lt f l) || hi.any (fun h => F.lt h f)) with
    | false => exact absurd ((within F lo hi f).1 h) hw
    | true => simp only [floatConv, hf, h]; rfl

/-- **C112** (arguments): `float(min=..., max=...)`, either or both in either order, takes the floats between these
whole numbers. -/
theorem C112_bounds (L : ArgLib) (hL : LibOk L) (ns : List (Str × Nat)) (hk : ∀ kn ∈ ns, kn.1 ∈ [s%"min", s%"max"])
    (hnd : (ns.map (·.1)).Nodup) (val : Nat → Str) (hval : ∀ kn ∈ ns, L.floats.ofInt (kn.2 : Int) = .ok (val kn.2)) :
    defaultConv L s%"float" (some (render (numbers ns))) =
      .ok (floatConv L.floats L.dec ((Dict.get ns s%"min").map val) ((Dict.get ns s%"max").map val)) := by
  have hg : ∀ k n, Dict.get ns k = some n → L.floats.ofInt (n : Int) = .ok (val n) := fun k n h => hval (k, n) (Dict.mem_of_get h)
  have hp := parse_numbers hL ns (fun kn h => by
    have := hk kn h
    simp only [List.mem_cons, List.not_mem_nil, or_false] at this
    rcases this with e | e <;> rw [e] <;> exact ⟨by decide, by decide⟩) hnd
  simp only [defaultConv, hp]
  show newFloat L [] _ = _
  unfold newFloat
  rw [bind_numbers _ ns hk]
  dsimp only
  rw [param_numbers, param_numbers]
  cases h1 : Dict.get ns s%"min" with
  | none =>
    cases h2 : Dict.get ns s%"max" with
    | none => rfl
    | some y => simp [floatBound, hg _ _ h2]
  | some x =>
    cases h2 : Dict.get ns s%"max" with
    | none => simp [floatBound, hg _ _ h1]
    | some y => simp [floatBound, hg _ _ h1, hg _ _ h2]

/-- **C112** (round trip, part): a float that Python writes in the usual notation is written to a URL in a form which
is read as the same float. -/
theorem C112_roundtrip_partial (F : FloatLib) (dec : Char → Option Nat) (lo hi : Option Str) (f : Str) (hu : Usual dec f)
    (hf : F.canon f = some f) (hw : Within F lo hi f) :
    (floatConv F dec lo hi).toUrl (.flt f) = .ok (some f) ∧ Re.Lang (floatConv F dec lo hi).re f ∧
      (floatConv F dec lo hi).toPython f = some (.flt f) :=
  ⟨rfl, (C112_accepted F dec lo hi f f hu hf).1, (C112_accepted F dec lo hi f f hu hf).2.1 hw⟩

example : defaultConv demoLib s%"float" (some s%"max=10, min=2") =
    .ok (floatConv demoLib.floats asciiDec (some s%"2.0") (some s%"10.0")) := by
  have h := C112_bounds demoLib demoLib_ok [(s%"max", 10), (s%"min", 2)] (by decide +kernel) (by decide +kernel)
    (fun n => Py.intStr n ++ s%".0") (fun _ _ => rfl)
  rwa [show render (numbers [(s%"max", 10), (s%"min", 2)]) = s%"max=10, min=2" by decide +kernel,
    show (Dict.get [(s%"max", 10), (s%"min", 2)] s%"min").map (fun n : Nat => Py.intStr n ++ s%".0") = some s%"2.0" by decide +kernel,
    show (Dict.get [(s%"max", 10), (s%"min", 2)] s%"max").map (fun n : Nat => Py.intStr n ++ s%".0") = some s%"10.0" by decide +kernel] at h

/-- Some floats. -/
def someFloats : FloatLib :=
  { canon := fun s => if s = s%"0.00001" ∨ s = s%"1e-05" then some s%"1e-05" else if s = s%"1.50" ∨ s = s%"1.5" then some s%"1.5" else none
    ofInt := fun i => .ok (Py.intStr i ++ s%".0")
    lt := fun a b => a = s%"1e-05" && b = s%"1.5" }

/-- **C112** fails for small and large floats: `0.00001` is read, but the address made for what was read has
`1e-05`, which no route with a float takes; and bounds are not looked at when an address is made. -/
theorem C112_roundtrip_false : ∃ v u, (floatConv someFloats asciiDec none none).toPython s%"0.00001" = some v ∧
    (floatConv someFloats asciiDec none none).toUrl v = .ok (some u) ∧
    ¬ Re.Lang (floatConv someFloats asciiDec none none).re u ∧
    (floatConv someFloats asciiDec (some s%"1.5") none).toPython s%"0.00001" = none ∧
    (floatConv someFloats asciiDec (some s%"1.5") none).toUrl v = .ok (some u) := by
  refine ⟨.flt s%"1e-05", s%"1e-05", by decide +kernel, rfl, ?_, by decide +kernel, rfl⟩
  rw [lang_float]
  rintro ⟨a, b, h, _⟩
  have : '.' ∈ s%"1e-05" := by rw [h]; simp
  exact absurd this (by decide)

example : (floatConv someFloats asciiDec (some s%"1e-05") none).toPython s%"1.50" = some (.flt s%"1.5") ∧
    (floatConv someFloats asciiDec (some s%"1e-05") none).toUrl (.flt s%"1.5") = .ok (some s%"1.5") :=
  ⟨(C112_accepted someFloats asciiDec _ _ s%"1.50" s%"1.5" ⟨s%"1", s%"50", rfl, by decide, by decide, by decide, by decide⟩
    (by decide)).2.1 ⟨(by intro l hl; cases hl; decide), (by intro h hh; cases hh)⟩,
   (C112_roundtrip_partial someFloats asciiDec (some s%"1e-05") none s%"1.5" ⟨s%"1", s%"5", rfl, by decide, by decide, by decide, by decide⟩
    (by decide) ⟨(by intro l hl; cases hl; decide), (by intro h hh; cases hh)⟩).1⟩

/-- A map with floats, and a route with one. -/
def floatCfg : Config := ⟨false, [], true, true, fun k _ => if k = s%"float" then .ok (floatConv someFloats asciiDec none none)
  else .ok (stringConv 1 none), fun _ p => p⟩

def priceRoute : Route := sampleRoute s%"/price/<float:f>" s%"price"

/-- A float in a path: C49 and C50 hold of it. -/
example : ∃ b, compile floatCfg 0 priceRoute = .ok b ∧ Segmented b.path ∧ Acceptable asciiDec b [(s%"f", .flt s%"1.5")] ∧
    b.build [(s%"f", .flt s%"1.5")] true = .ok (some ([], s%"/price/1.5")) ∧
    b.match_ floatCfg s%"|/price/1.50" = .values [(s%"f", .flt s%"1.5")] := by
  refine ⟨_, rfl, trivial, ?_, rfl, rfl⟩
  intro n c h
  rcases List.mem_cons.1 h with h | h
  · cases h
    refine ⟨.float someFloats none none, .flt s%"1.5", rfl, ?_, trivial, rfl,
      ⟨s%"1", s%"5", rfl, by decide, by decide, by decide, by decide⟩, by decide, by simp, by simp⟩
    intro t f hf
    simp only [someFloats] at hf ⊢
    split at hf
    · cases hf; decide
    · split at hf
      · cases hf; decide
      · cases hf
  · cases h

end Verif.Props.FloatP
