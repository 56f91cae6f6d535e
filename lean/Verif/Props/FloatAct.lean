import Verif.Model.FloatAct
import Verif.Props.FloatTensor
import Mathlib.Algebra.Field.Rat

/-!
# C125: minifloat activation quantisers

What they return, what passes through them when they are disabled, and what they answer about their format.
-/

set_option linter.unusedSectionVars false

namespace Brevitas.Props

open Brevitas Brevitas.FloatAct Brevitas.ActLayer

variable {K : Type*} [Field K] [LinearOrder K] [IsStrictOrderedRing K] [FloorRing K]

/-- The activation function of the layer, where it is applied: a Hardtanh is left to the clamping of the quantiser. -/
def appliedTo (p : Proxy K) (v : K) : K :=
  match p.actImpl with
  | none => v
  | some (.hardtanh _ _) => v
  | some (.fn f) => f v

private theorem activate_eq (p : Proxy K) (hq : p.tensorQuant.isSome) (y : List K) : p.activate y = y.map (appliedTo p) := by
  unfold Proxy.activate appliedTo
  cases p.actImpl with
  | none => simp
  | some a =>
    cases a with
    | hardtanh lo hi => simp [isActEnabled, hq]
    | fn f => simp [isActEnabled, ActImpl.eval]

private theorem forward_float (p : Proxy K) (hq : p.tensorQuant.isSome) {x : FTensor K} {q : FloatQT K} (ho : p.output x = some (.float q)) :
    p.forward x = some (if !p.training && p.cacheOn then { p with cached := some (Cached.of q p.metadataOnly) } else p, .float q) := by
  obtain ⟨c, hc⟩ := Option.isSome_iff_exists.1 hq
  simp only [Proxy.forward, ho, Option.map_some, hc, Option.isNone_some, Bool.and_false, Bool.false_eq_true, if_false]

private theorem output_enabled (p : Proxy K) {c : FloatCfg K} {scaleOf : List K → K} (hp : p.tensorQuant = some (c, scaleOf)) (hd : p.disableQuant = false) (x : FTensor K) :
    p.output x = some (.float (quantised c scaleOf p.training (x.value.map (appliedTo p)))) := by
  have ha := activate_eq p (by rw [hp]; rfl) x.value
  unfold Proxy.output
  simp only [hp, hd, ha, Option.isNone_some, Bool.and_false, Bool.false_eq_true, if_false]

/-- Enabled, the quantiser returns for every input - plain tensor or quant tensor of any kind - a minifloat quant tensor: each element is the activation, quantised to a
value of the format within its range, and the format, scale and sign it declares are those of the quantiser. -/
theorem C125_enabled (p : Proxy K) (c : FloatCfg K) (hc : FloatOk c) (scaleOf : List K → K) (hp : p.tensorQuant = some (c, scaleOf)) (hd : p.disableQuant = false)
    (x : FTensor K) : ∃ p' q, p.forward x = some (p', .float q) ∧ q.scale = scaleOf (x.value.map (appliedTo p)) ∧
      q.value = x.value.map (fun v => c.forwardSat q.scale (appliedTo p v)) ∧ (∀ v ∈ q.value, FloatGrid c q.scale v) ∧
      (q.E, q.M, q.bias, q.signed) = (c.E, c.M, c.bias, c.signed) ∧ (q.infValues, q.nanValues, q.saturating) = (c.infValues, c.nanValues, c.saturating) ∧
      q.zeroPoint = 0 ∧ q.training = p.training := by
  have ho := output_enabled p hp hd x
  refine ⟨_, quantised c scaleOf p.training (x.value.map (appliedTo p)), forward_float p (by rw [hp]; rfl) ho, rfl, ?_, ?_, rfl, rfl, rfl, rfl⟩
  · simp [quantised, Function.comp_def]
  · intro v hv
    simp only [quantised, List.map_map, List.mem_map, Function.comp_apply] at hv
    obtain ⟨w, -, rfl⟩ := hv
    exact C22_representable c hc _ _

/-- Non-vacuity: a rectified E4M3 activation with scale 1/2. -/
example : let p : Proxy ℚ := ⟨some relu, true, some (e4m3 ℚ, fun _ => 1 / 2), false, false, false, true, none⟩
    FloatOk (e4m3 ℚ) ∧ p.tensorQuant = some (e4m3 ℚ, fun _ => 1 / 2) ∧ p.disableQuant = false := ⟨e4m3_ok, rfl, rfl⟩

/-- Disabled, a plain tensor comes out as a plain tensor, with only the activation function applied. -/
theorem C125_disabled_plain (p : Proxy K) (hq : p.tensorQuant.isSome) (hd : p.disableQuant = true) (y : List K) :
    p.forward (.plain y) = some (p, .plain (y.map (appliedTo p))) := by
  have ha := activate_eq p hq y
  obtain ⟨⟨c, scaleOf⟩, hc⟩ := Option.isSome_iff_exists.1 hq
  have ho : p.output (.plain y) = some (.plain (y.map (appliedTo p))) := by
    unfold Proxy.output
    simp only [hc, hd, FTensor.value, ha, Option.isNone_some, Bool.and_false, Bool.false_eq_true, if_false, if_true]
    cases isPassthroughAct p.actImpl p.passthroughAct <;> rfl
  simp only [Proxy.forward, ho, Option.map_some, hc, Option.isNone_some, Bool.and_false, Bool.false_eq_true, if_false]

/-- What a disabled quantiser makes of a minifloat quant tensor: of functions that keep the grid (identity, ReLU, Hardtanh) a quant tensor, of others a plain one. -/
theorem C125_disabled_kind (p : Proxy K) (hq : p.tensorQuant.isSome) (hd : p.disableQuant = true) (q : FloatQT K) :
    (∃ p' r, p.forward (.float q) = some (p', .float r)) ↔ p.actImpl = none ∨ p.passthroughAct = true := by
  obtain ⟨⟨c, scaleOf⟩, hc⟩ := Option.isSome_iff_exists.1 hq
  have hpass : isPassthroughAct p.actImpl p.passthroughAct = true ↔ p.actImpl = none ∨ p.passthroughAct = true := by
    unfold isPassthroughAct
    cases p.actImpl <;> simp
  rw [← hpass]
  simp only [Proxy.forward, Proxy.output, hc, hd, Option.isNone_some, Bool.and_false, Bool.false_eq_true, if_false, if_true]
  cases isPassthroughAct p.actImpl p.passthroughAct with
  | true => simp
  | false => simp

/-- Disabled, a minifloat quant tensor that passes keeps its scale, zero point, bias, codes and sign, with the activation applied to its value. It keeps its format when the
exponent is as wide as the mantissa. Missing: other formats, where it fails (`C125_widths_swapped`). -/
theorem C125_passes_partial (p : Proxy K) (hq : p.tensorQuant.isSome) (hd : p.disableQuant = true) (q : FloatQT K) (hp : p.actImpl = none ∨ p.passthroughAct = true) :
    ∃ p' r, p.forward (.float q) = some (p', .float r) ∧ r.value = q.value.map (appliedTo p) ∧ (r.scale, r.zeroPoint, r.bias, r.signed) = (q.scale, q.zeroPoint, q.bias, q.signed) ∧
      (r.infValues, r.nanValues, r.saturating) = (q.infValues, q.nanValues, q.saturating) ∧ r.training = p.training ∧ (q.E = q.M → r.E = q.E ∧ r.M = q.M) := by
  obtain ⟨⟨c, scaleOf⟩, hc⟩ := Option.isSome_iff_exists.1 hq
  have hpass : isPassthroughAct p.actImpl p.passthroughAct = true := by
    unfold isPassthroughAct
    rcases hp with h | h
    · rw [h]
    · cases p.actImpl <;> simp [h]
  have ho : p.output (.float q) = some (.float (passed q p.training (q.value.map (appliedTo p)))) := by
    unfold Proxy.output
    simp only [hc, hd, FTensor.value, activate_eq p hq, Option.isNone_some, Bool.and_false, Bool.false_eq_true, if_false, if_true, hpass]
  exact ⟨_, passed q p.training (q.value.map (appliedTo p)), forward_float p hq ho, rfl, rfl, rfl, rfl, fun h => ⟨h.symm, h⟩⟩

/-- The widths of exponent and mantissa are exchanged: no other format comes out as it went in. -/
theorem C125_widths_swapped (p p' : Proxy K) (hd : p.disableQuant = true) (hq : p.tensorQuant.isSome) (q r : FloatQT K) (hne : q.E ≠ q.M)
    (h : p.forward (.float q) = some (p', .float r)) : r.E = q.M ∧ r.M = q.E ∧ (r.E, r.M) ≠ (q.E, q.M) := by
  obtain ⟨⟨c, scaleOf⟩, hc⟩ := Option.isSome_iff_exists.1 hq
  have key : r.E = q.M ∧ r.M = q.E := by
    simp only [Proxy.forward, Proxy.output, hc, hd, Option.isNone_some, Bool.and_false, Bool.false_eq_true, if_false, if_true] at h
    cases hp : isPassthroughAct p.actImpl p.passthroughAct with
    | true =>
      simp only [hp, Option.map_some, Option.some.injEq, Prod.mk.injEq, FTensor.float.injEq] at h
      rw [← h.2]
      exact ⟨rfl, rfl⟩
    | false => simp [hp] at h
  refine ⟨key.1, key.2, fun e => ?_⟩
  rw [Prod.mk.injEq, key.1] at e
  exact hne e.1.symm

/-- A disabled QuantIdentity. -/
def disabledIdentity : Proxy ℚ := ⟨none, true, some (e4m3 ℚ, fun _ => 1), true, false, false, true, none⟩

/-- A value of a format with two exponent and three mantissa bits (an OCP 6-bit type) is no longer valid after a disabled QuantIdentity. -/
theorem C125_becomes_invalid : let q : FloatQT ℚ := ⟨[9 / 8], 1, 0, 2, 3, 1, true, none, none, true, false⟩
    q.isValid (1 / 2 ^ 126) (1 / 5) = some true ∧
      ((disabledIdentity.forward (.float q)).bind fun r => match r.2 with | .float r => r.isValid (1 / 2 ^ 126) (1 / 5) | _ => none) = some false := by
  have l1 : Int.log 2 (9 / 8 + 1 / 2 ^ 126 : ℚ) = 0 := by
    rw [show (0 : ℤ) = ((0 : ℕ) : ℤ) from rfl]
    rw [Int.log_of_one_le_right _ (by norm_num)]
    have : ⌊(9 / 8 + 1 / 2 ^ 126 : ℚ)⌋₊ = 1 := by
      rw [Nat.floor_eq_iff (by norm_num)]
      norm_num
    rw [this]
    decide
  constructor
  · simp only [FloatQT.isValid, FloatQT.preRound, FloatQT.intScale, FloatQT.fpInternalScale, floatInternalScale, internalExponent]
    rw [if_neg (by simp)]
    simp only [List.all_cons, List.all_nil, Bool.and_true, abs_of_pos (show (0 : ℚ) < 9 / 8 by norm_num), l1]
    have : torchRound (9 / 8 / 1 / 2 ^ max (0 - ((3 : ℕ) : ℤ)) (1 - 1 - ((3 : ℕ) : ℤ)) : ℚ) = 9 := by
      have e : (9 / 8 / 1 / 2 ^ max (0 - ((3 : ℕ) : ℤ)) (1 - 1 - ((3 : ℕ) : ℤ)) : ℚ) = 9 := by norm_num
      rw [e]
      decide +kernel
    rw [this]
    norm_num
  · change FloatQT.isValid (⟨[9 / 8], 1, 0, 3, 2, 1, true, none, none, true, false⟩ : FloatQT ℚ) (1 / 2 ^ 126) (1 / 5) = some false
    simp only [FloatQT.isValid, FloatQT.preRound, FloatQT.intScale, FloatQT.fpInternalScale, floatInternalScale, internalExponent]
    rw [if_neg (by simp)]
    simp only [List.all_cons, List.all_nil, Bool.and_true, abs_of_pos (show (0 : ℚ) < 9 / 8 by norm_num), l1]
    have e : (9 / 8 / 1 / 2 ^ max (0 - ((2 : ℕ) : ℤ)) (1 - 1 - ((2 : ℕ) : ℤ)) : ℚ) = 9 / 2 := by norm_num
    have : torchRound (9 / 2 : ℚ) = 4 := by decide +kernel
    rw [e, this]
    norm_num

/-- Integer quant tensors do not pass a disabled quantiser that would keep them: it raises. -/
theorem C125_int_raises (p : Proxy K) (hq : p.tensorQuant.isSome) (hd : p.disableQuant = true) (hp : p.actImpl = none ∨ p.passthroughAct = true) (y : List K) :
    p.forward (.int y) = none := by
  obtain ⟨⟨c, scaleOf⟩, hc⟩ := Option.isSome_iff_exists.1 hq
  have hpass : isPassthroughAct p.actImpl p.passthroughAct = true := by
    unfold isPassthroughAct
    rcases hp with h | h
    · rw [h]
    · cases p.actImpl <;> simp [h]
  simp [Proxy.forward, Proxy.output, hc, hd, hpass]

/-- An activation function in a proxy without quantiser raises for every input; without either the input is returned as it is. -/
theorem C125_no_quantiser (p : Proxy K) (hq : p.tensorQuant = none) (x : FTensor K) :
    p.forward x = if p.actImpl.isSome then none else some (p, x) := by
  cases ha : p.actImpl with
  | none => simp [Proxy.forward, Proxy.output, hq, ha, isActEnabled]
  | some a => cases a <;> simp [Proxy.forward, Proxy.output, hq, ha, isActEnabled]

/-! ### What the quantiser answers about its format -/

/-- Without a cache, an enabled quantiser answers with its own format, and stays in the mode it was in. -/
theorem C125_query_enabled (p : Proxy K) (c : FloatCfg K) (scaleOf : List K → K) (hp : p.tensorQuant = some (c, scaleOf)) (hd : p.disableQuant = false) (hn : p.cached = none) :
    ∃ p' a, p.query = some (p', some a) ∧ (a.E, a.M, a.bias, a.signed) = (c.E, c.M, c.bias, c.signed) ∧
      (a.infValues, a.nanValues, a.saturating) = (c.infValues, c.nanValues, c.saturating) ∧ a.zeroPoint = 0 ∧ a.scale = scaleOf [appliedTo p 0] ∧ p'.training = p.training := by
  have hf := forward_float ({ p with training := false } : Proxy K) (by rw [hp]; rfl) (output_enabled ({ p with training := false } : Proxy K) hp hd (.plain [0]))
  have he : p.isEnabled = true := by simp [Proxy.isEnabled, hp, hd]
  unfold Proxy.query
  simp only [hn, he, if_true]
  simp only [hn] at hf
  rw [hf]
  refine ⟨_, _, rfl, rfl, rfl, rfl, rfl, rfl⟩

/-- Disabled and without a cache it answers `None`. -/
theorem C125_query_disabled (p : Proxy K) (hd : p.disableQuant = true) (hn : p.cached = none) : p.query = some (p, none) := by
  simp [Proxy.query, hn, Proxy.isEnabled, hd]

/-- The flags after a history. -/
structure Flags where
  training : Bool
  cacheOn : Bool
  metadataOnly : Bool

/-- Specification of the cache over a history and its outputs: the metadata of the last minifloat quant tensor returned in eval mode with caching on. -/
def lastCached : Flags → Option (Cached K) → List (Op K) → List (FTensor K) → Option (Cached K)
  | _, c, [], _ => c
  | f, c, .train b :: os, outs => lastCached { f with training := b } c os outs
  | f, c, .disable _ :: os, outs => lastCached f c os outs
  | f, c, .setCache b :: os, outs => lastCached { f with cacheOn := b } c os outs
  | f, c, .setMetadataOnly b :: os, outs => lastCached { f with metadataOnly := b } c os outs
  | f, _, .call _ :: os, .float q :: outs =>
    if f.training = false ∧ f.cacheOn = true then
      lastCached f (some ⟨q.value.length, if f.metadataOnly then none else some q.value, q.scale, q.zeroPoint, q.E, q.M, q.bias, q.saturating, q.infValues, q.nanValues, q.signed⟩) os outs
    else lastCached f ‹_› os outs
  | f, c, .call _ :: os, _ :: outs => lastCached f c os outs
  | _, c, .call _ :: _, [] => c

/-- After every history, what a quantiser with caching answers is the metadata of the last quant tensor it returned in eval mode with caching on. -/
theorem C125_cache (p : Proxy K) (hq : p.tensorQuant.isSome) (ops : List (Op K)) (p' : Proxy K) (outs : List (FTensor K)) (h : p.run ops = some (p', outs)) :
    p'.cached = lastCached ⟨p.training, p.cacheOn, p.metadataOnly⟩ p.cached ops outs ∧
      (p'.cached.isSome → p'.query = some (p', p'.cached)) := by
  constructor
  · induction ops generalizing p p' outs with
    | nil =>
      simp only [Proxy.run, Option.some.injEq, Prod.mk.injEq] at h
      rw [← h.1]
      rfl
    | cons o os ih =>
      simp only [Proxy.run, Option.bind_eq_some_iff, Option.map_eq_some_iff] at h
      obtain ⟨⟨p1, o1⟩, h1, ⟨p2, o2⟩, h2, he⟩ := h
      simp only [Prod.mk.injEq] at he
      obtain ⟨rfl, rfl⟩ := he
      cases o with
      | train b =>
        simp only [Proxy.step, Option.some.injEq, Prod.mk.injEq] at h1
        obtain ⟨rfl, rfl⟩ := h1
        exact ih { p with training := b } hq _ _ h2
      | disable b =>
        simp only [Proxy.step, Option.some.injEq, Prod.mk.injEq] at h1
        obtain ⟨rfl, rfl⟩ := h1
        exact ih { p with disableQuant := b } hq _ _ h2
      | setCache b =>
        simp only [Proxy.step, Option.some.injEq, Prod.mk.injEq] at h1
        obtain ⟨rfl, rfl⟩ := h1
        exact ih { p with cacheOn := b } hq _ _ h2
      | setMetadataOnly b =>
        simp only [Proxy.step, Option.some.injEq, Prod.mk.injEq] at h1
        obtain ⟨rfl, rfl⟩ := h1
        exact ih { p with metadataOnly := b } hq _ _ h2
      | call x =>
        obtain ⟨c, hc⟩ := Option.isSome_iff_exists.1 hq
        simp only [Proxy.step, Proxy.forward, Option.map_map, Option.map_eq_some_iff, Function.comp_apply, hc, Option.isNone_some, Bool.and_false, Bool.false_eq_true,
          if_false] at h1
        obtain ⟨out, ho, h1⟩ := h1
        simp only [Prod.mk.injEq] at h1
        obtain ⟨h1, rfl⟩ := h1
        cases out with
        | plain y =>
          simp only at h1
          subst h1
          exact ih p hq _ _ h2
        | int y =>
          simp only at h1
          subst h1
          exact ih p hq _ _ h2
        | float q =>
          simp only at h1
          by_cases hf : p.training = false ∧ p.cacheOn = true
          · rw [if_pos (by simp [hf.1, hf.2])] at h1
            subst h1
            have := ih { p with tensorQuant := some c, cached := some (Cached.of q p.metadataOnly) } rfl _ _ h2
            simp only [Option.toList_some, List.cons_append, List.nil_append, lastCached, if_pos hf]
            exact this
          · rw [if_neg (by simpa using hf)] at h1
            subst h1
            have := ih p hq _ _ h2
            simp only [Option.toList_some, List.cons_append, List.nil_append, lastCached, if_neg hf]
            exact this
  · intro hs
    obtain ⟨c, hc⟩ := Option.isSome_iff_exists.1 hs
    simp only [Proxy.query, hc]

/-- Non-vacuity: calibrating with the cache on, then a change of mode. -/
example : let p : Proxy ℚ := { disabledIdentity with disableQuant := false, cacheOn := true }
    p.tensorQuant.isSome ∧ ((p.run [.call (.plain [1, 2]), .train true, .call (.plain [3])]).bind fun r => r.1.cached.map fun c => (c.size, c.E, c.M)) = some (2, 4, 3) :=
  ⟨rfl, rfl⟩

end Brevitas.Props
