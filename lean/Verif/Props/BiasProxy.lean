import Verif.Model.BiasProxy
import Verif.Spec.BiasHistory
import Verif.Props.IntQuant
import Mathlib.Algebra.Field.Rat

/-!
# C127: the bias of a quantised layer, inside and outside of forward passes

Integer bias quantisers (`Int8Bias`, `Int16Bias`, `Int24Bias`, `Int32Bias` and those with a scale of their own), for every history of training and evaluation modes, forward
passes, questions and settings.
-/

set_option linter.unusedSectionVars false

namespace Brevitas.Props

open Brevitas Brevitas.BiasProxy
open _root_.Spec.BiasHistory (Settings settings recorded QuantisedAt)

variable {K : Type*} [Field K] [LinearOrder K] [IsStrictOrderedRing K] [FloorRing K]

/-- The settings of a quantiser. -/
private def settingsOf (p : Proxy K) : Settings K := ⟨p.enabled, p.training, p.cacheOn, p.bias⟩

/-- What no operation changes. -/
private def Same (p p' : Proxy K) : Prop :=
  p'.cfg = p.cfg ∧ p'.bitWidth = p.bitWidth ∧ p'.ownScale = p.ownScale ∧ p'.tracked = p.tracked

private theorem Same.refl (p : Proxy K) : Same p p := ⟨rfl, rfl, rfl, rfl⟩

private theorem note_settings (p : Proxy K) (q : BiasQT K) : settingsOf (p.note q) = settingsOf p ∧ Same p (p.note q) := by
  unfold Proxy.note
  split <;> exact ⟨rfl, Same.refl _⟩

private theorem forward_settings (p : Proxy K) (args : Args K) : settingsOf (p.forward args).1 = settingsOf p ∧ Same p (p.forward args).1 := by
  unfold Proxy.forward
  split
  · exact ⟨rfl, Same.refl _⟩
  · split
    · split
      · exact ⟨rfl, Same.refl _⟩
      · exact note_settings _ _
    · exact ⟨rfl, Same.refl _⟩

private theorem ask_settings (p : Proxy K) (attr : BiasQT K → Out K) : settingsOf (p.ask attr).1 = settingsOf p ∧ Same p (p.ask attr).1 := by
  unfold Proxy.ask
  split
  · exact forward_settings p none
  · exact ⟨rfl, Same.refl _⟩

private theorem askScale_settings (p : Proxy K) : settingsOf p.askScale.1 = settingsOf p ∧ Same p p.askScale.1 := by
  unfold Proxy.askScale
  split
  · exact ⟨rfl, Same.refl _⟩
  · exact ask_settings _ _

private theorem run_settings (ops : List (Op K)) : ∀ p : Proxy K, settingsOf (p.run ops) = settings (settingsOf p) ops ∧ Same p (p.run ops) := by
  induction ops with
  | nil => exact fun p => ⟨rfl, Same.refl _⟩
  | cons o os ih =>
    intro p
    obtain ⟨h1, h2⟩ := ih (p.step o).1
    have key : settingsOf (p.run (o :: os)) = settings (settingsOf (p.step o).1) os := h1
    have trans : ∀ {a b c : Proxy K}, Same a b → Same b c → Same a c := fun h h' =>
      ⟨h'.1.trans h.1, h'.2.1.trans h.2.1, h'.2.2.1.trans h.2.2.1, h'.2.2.2.trans h.2.2.2⟩
    cases o with
    | train b => exact ⟨key, h2⟩
    | setEnabled b => exact ⟨key, h2⟩
    | setCache b => exact ⟨key, h2⟩
    | setMetadataOnly b => exact ⟨key, h2⟩
    | setBias b => exact ⟨key, h2⟩
    | forward args =>
      have h := forward_settings p args
      exact ⟨key.trans (by rw [show settingsOf (p.step (.forward args)).1 = settingsOf p from h.1]; rfl), trans h.2 h2⟩
    | quantBias =>
      have h := forward_settings p none
      exact ⟨key.trans (by rw [show settingsOf (p.step .quantBias).1 = settingsOf p from h.1]; rfl), trans h.2 h2⟩
    | askScale =>
      have h := askScale_settings p
      exact ⟨key.trans (by rw [show settingsOf (p.step .askScale).1 = settingsOf p from h.1]; rfl), trans h.2 h2⟩
    | askZeroPoint =>
      have h := ask_settings p fun q => .number q.zeroPoint
      exact ⟨key.trans (by rw [show settingsOf (p.step .askZeroPoint).1 = settingsOf p from h.1]; rfl), trans h.2 h2⟩
    | askBitWidth =>
      have h := ask_settings p fun q => .number (q.bitWidth : K)
      exact ⟨key.trans (by rw [show settingsOf (p.step .askBitWidth).1 = settingsOf p from h.1]; rfl), trans h.2 h2⟩

/-- A quantiser that is not shared, without scale of its own. -/
private structure External (p : Proxy K) : Prop where
  own : p.ownScale = none
  single : p.tracked.length ≤ 1

private theorem computeScale_external {p : Proxy K} (h : External p) (args : Args K) :
    p.computeScale args = some (args.map fun x => x.2.map fun w => w * x.1) := by
  have hn : ¬ p.tracked.length > 1 := by have := h.single; omega
  cases args with
  | none => simp [Proxy.computeScale]
  | some x => simp [Proxy.computeScale, h.own, hn]

private theorem note_cachedScale (p : Proxy K) (q : BiasQT K) :
    (p.note q).cachedScale = if !p.training && p.cacheOn then some q.scale else p.cachedScale := by
  unfold Proxy.note
  split <;> simp_all [Proxy.cachedScale]

private theorem forward_none {p : Proxy K} (h : External p) :
    p.forward none = if p.enabled then
      match p.cachedScale with
      | none => (p, .error)
      | some s => (p.note (p.quantised s), .quant (p.quantised s))
    else (p, .plain p.bias) := by
  simp only [Proxy.forward, computeScale_external h, Option.map_none, Proxy.useScale, h.own]
  rfl

private theorem forward_none_cached {p : Proxy K} (h : External p) : (p.forward none).1.cachedScale = p.cachedScale := by
  rw [forward_none h]
  split
  · split
    · rfl
    · rename_i s hs
      rw [note_cachedScale]
      split
      · exact hs.symm
      · rfl
  · rfl

private theorem forward_some {p : Proxy K} (h : External p) (a : K) (ws : List K) :
    p.forward (some (a, ws)) = if p.enabled then
      (p.note (p.quantised (ws.map fun w => w * a)), .quant (p.quantised (ws.map fun w => w * a)))
    else (p, .plain p.bias) := by
  simp only [Proxy.forward, computeScale_external h, Option.map_some, Proxy.useScale, h.own]
  rfl

private theorem ask_cached {p : Proxy K} (h : External p) (attr : BiasQT K → Out K) : (p.ask attr).1.cachedScale = p.cachedScale := by
  unfold Proxy.ask
  split
  · exact forward_none_cached h
  · rfl

private theorem askScale_external {p : Proxy K} (h : External p) :
    p.askScale = (p, if p.enabled then (p.cachedScale.map Out.scale).getD .nothing else .nothing) := by
  unfold Proxy.askScale
  cases he : p.enabled <;> simp [h.own, Proxy.ask, he]

private theorem run_cached (ops : List (Op K)) : ∀ p : Proxy K, External p → (p.run ops).cachedScale = recorded (settingsOf p) p.cachedScale ops := by
  induction ops with
  | nil => exact fun p _ => rfl
  | cons o os ih =>
    intro p h
    have next : ∀ {p' : Proxy K}, Same p p' → External p' := fun {p'} hs => ⟨hs.2.2.1.trans h.own, by rw [hs.2.2.2]; exact h.single⟩
    cases o with
    | train b => exact ih { p with training := b } ⟨h.own, h.single⟩
    | setEnabled b => exact ih { p with enabled := b } ⟨h.own, h.single⟩
    | setCache b => exact ih { p with cacheOn := b } ⟨h.own, h.single⟩
    | setMetadataOnly b => exact ih { p with metadataOnly := b } ⟨h.own, h.single⟩
    | setBias b =>
      have key := ih { p with bias := b } ⟨h.own, h.single⟩
      refine Eq.trans key ?_
      change recorded (settingsOf { p with bias := b }) p.cachedScale os = recorded (settingsOf p) p.cachedScale os
      have irrel : ∀ (os : List (Op K)) (s s' : Settings K) (r : Option (List K)), s.enabled = s'.enabled → s.training = s'.training →
          s.caching = s'.caching → recorded s r os = recorded s' r os := by
        intro os
        induction os with
        | nil => exact fun _ _ _ _ _ _ => rfl
        | cons o os ih =>
          intro s s' r h1 h2 h3
          cases o with
          | train b => exact ih { s with training := b } { s' with training := b } r h1 rfl h3
          | setEnabled b => exact ih { s with enabled := b } { s' with enabled := b } r rfl h2 h3
          | setCache b => exact ih { s with caching := b } { s' with caching := b } r h1 h2 rfl
          | forward args =>
            cases args with
            | none => exact ih s s' r h1 h2 h3
            | some x =>
              obtain ⟨a, ws⟩ := x
              simp only [recorded, h1, h2, h3]
              exact ih s s' _ h1 h2 h3
          | _ => exact ih s s' r h1 h2 h3
      exact irrel os _ _ _ rfl rfl rfl
    | forward args =>
      have hs := forward_settings p args
      have key := ih (p.forward args).1 (next hs.2)
      rw [hs.1] at key
      refine Eq.trans key ?_
      cases args with
      | none => rw [forward_none_cached h]; rfl
      | some x =>
        obtain ⟨a, ws⟩ := x
        change _ = recorded (settingsOf p) (if p.enabled && !p.training && p.cacheOn then some (ws.map fun w => w * a) else p.cachedScale) os
        congr 1
        rw [forward_some h]
        cases he : p.enabled
        · simp
        · simp [note_cachedScale, Proxy.quantised]
    | quantBias =>
      have hs := forward_settings p none
      have key := ih (p.forward none).1 (next hs.2)
      rw [hs.1, forward_none_cached h] at key
      exact key
    | askScale =>
      have key := ih p h
      have e : (p.step .askScale).1 = p := by simp [Proxy.step, askScale_external h]
      simp only [Proxy.run, e]
      exact key
    | askZeroPoint =>
      have hs := ask_settings p fun q => .number q.zeroPoint
      have key := ih _ (next hs.2)
      rw [hs.1, ask_cached h] at key
      exact key
    | askBitWidth =>
      have hs := ask_settings p fun q => .number (q.bitWidth : K)
      have key := ih _ (next hs.2)
      rw [hs.1, ask_cached h] at key
      exact key

private theorem quantised_at (p : Proxy K) (hb : 1 ≤ p.bitWidth) (s : List K) :
    QuantisedAt p.cfg.signed p.cfg.narrow p.bitWidth (p.cfg.floatToInt = torchRound ∨ p.cfg.floatToInt = dpuRound) s p.bias (p.quantised s).value := by
  refine ⟨by simp [Proxy.quantised, quantValues], fun i s' b v hs hb' hv => ?_⟩
  have hv' : v = p.cfg.forward s' 0 p.bitWidth b := by
    simp only [Proxy.quantised, quantValues, List.getElem?_zipWith, hs, hb'] at hv
    exact (Option.some.inj hv).symm
  subst hv'
  exact ⟨C02_on_grid p.cfg s' 0 p.bitWidth hb b, fun hn hp => C04_closest p.cfg hn s' 0 hp p.bitWidth hb b⟩

/-- C127: a forward pass on a quantised input and weight. Whatever happened before, the bias is quantised at the scale of the accumulator (input scale times weight scale, per
channel) and the tensor returned says so; a bias quantiser that is off leaves the bias alone. -/
theorem C127_forward (p : Proxy K) (hown : p.ownScale = none) (hone : p.tracked.length ≤ 1) (hb : 1 ≤ p.bitWidth) (ops : List (Op K)) (a : K) (ws : List K) :
    let s := settings ⟨p.enabled, p.training, p.cacheOn, p.bias⟩ ops
    (s.enabled = false → ((p.run ops).step (.forward (some (a, ws)))).2 = .plain s.bias) ∧
      (s.enabled = true → ∃ q, ((p.run ops).step (.forward (some (a, ws)))).2 = .quant q ∧ q.scale = ws.map (fun w => w * a) ∧ q.zeroPoint = 0 ∧
        q.bitWidth = p.bitWidth ∧ q.signed = p.cfg.signed ∧ q.training = s.training ∧
        QuantisedAt p.cfg.signed p.cfg.narrow p.bitWidth (p.cfg.floatToInt = torchRound ∨ p.cfg.floatToInt = dpuRound) (ws.map fun w => w * a) s.bias q.value) := by
  obtain ⟨h1, h2⟩ := run_settings ops p
  have hx : External (p.run ops) := ⟨h2.2.2.1.trans hown, by rw [h2.2.2.2]; exact hone⟩
  have hs : settings ⟨p.enabled, p.training, p.cacheOn, p.bias⟩ ops = settingsOf (p.run ops) := h1.symm
  have hq := quantised_at (p.run ops) (by rw [h2.2.1]; exact hb) (ws.map fun w => w * a)
  rw [h2.1, h2.2.1] at hq
  simp only [hs, Proxy.step, forward_some hx]
  refine ⟨fun he => ?_, fun he => ?_⟩
  · have he' : (p.run ops).enabled = false := he
    simp [he', settingsOf]
  · have he' : (p.run ops).enabled = true := he
    exact ⟨(p.run ops).quantised (ws.map fun w => w * a), by simp [he'], rfl, rfl, h2.2.1, by rw [← h2.1]; rfl, rfl, hq⟩

/-- C127: outside of a forward pass (`quant_bias()`, or a pass on something that is not quantised) the bias is quantised at the scale that was recorded by the last inference
pass with caching on; without one this raises. Questions about the bias change nothing. -/
theorem C127_quant_bias (p : Proxy K) (hown : p.ownScale = none) (hone : p.tracked.length ≤ 1) (hb : 1 ≤ p.bitWidth) (hnew : p.cached = none) (ops : List (Op K))
    (o : Op K) (ho : o = .quantBias ∨ o = .forward none) :
    let s := settings ⟨p.enabled, p.training, p.cacheOn, p.bias⟩ ops
    let r := recorded ⟨p.enabled, p.training, p.cacheOn, p.bias⟩ none ops
    (s.enabled = false → ((p.run ops).step o).2 = .plain s.bias) ∧
      (s.enabled = true → r = none → ((p.run ops).step o).2 = .error) ∧
      (∀ scale, s.enabled = true → r = some scale → ∃ q, ((p.run ops).step o).2 = .quant q ∧ q.scale = scale ∧ q.zeroPoint = 0 ∧ q.bitWidth = p.bitWidth ∧
        q.signed = p.cfg.signed ∧ q.training = s.training ∧
        QuantisedAt p.cfg.signed p.cfg.narrow p.bitWidth (p.cfg.floatToInt = torchRound ∨ p.cfg.floatToInt = dpuRound) scale s.bias q.value) := by
  obtain ⟨h1, h2⟩ := run_settings ops p
  have hx : External (p.run ops) := ⟨h2.2.2.1.trans hown, by rw [h2.2.2.2]; exact hone⟩
  have hs : settings ⟨p.enabled, p.training, p.cacheOn, p.bias⟩ ops = settingsOf (p.run ops) := h1.symm
  have hc : (p.run ops).cachedScale = recorded ⟨p.enabled, p.training, p.cacheOn, p.bias⟩ none ops := by
    rw [run_cached ops p ⟨hown, hone⟩]
    simp [Proxy.cachedScale, hnew, settingsOf]
  have hstep : (p.run ops).step o = (p.run ops).forward none := by rcases ho with rfl | rfl <;> rfl
  simp only [hs, hstep, forward_none hx, hc]
  refine ⟨fun he => ?_, fun he hr => ?_, fun scale he hr => ?_⟩
  · have he' : (p.run ops).enabled = false := he
    simp [he', settingsOf]
  · have he' : (p.run ops).enabled = true := he
    simp [he', hr]
  · have he' : (p.run ops).enabled = true := he
    have hq := quantised_at (p.run ops) (by rw [h2.2.1]; exact hb) scale
    rw [h2.1, h2.2.1] at hq
    refine ⟨(p.run ops).quantised scale, by simp [he', hr], rfl, rfl, h2.2.1, by rw [← h2.1]; rfl, rfl, hq⟩

/-- C127: `scale()` answers with the recorded scale, or `None` if there is none or the quantiser is off; `zero_point()` with 0 and `bit_width()` with the bit width when
there is a recorded scale. -/
theorem C127_questions (p : Proxy K) (hown : p.ownScale = none) (hone : p.tracked.length ≤ 1) (hnew : p.cached = none) (ops : List (Op K)) :
    let s := settings ⟨p.enabled, p.training, p.cacheOn, p.bias⟩ ops
    let r := recorded ⟨p.enabled, p.training, p.cacheOn, p.bias⟩ none ops
    (s.enabled = false → ((p.run ops).step .askScale).2 = .nothing ∧ ((p.run ops).step .askZeroPoint).2 = .nothing ∧ ((p.run ops).step .askBitWidth).2 = .nothing) ∧
      (s.enabled = true → r = none → ((p.run ops).step .askScale).2 = .nothing ∧ ((p.run ops).step .askZeroPoint).2 = .error ∧
        ((p.run ops).step .askBitWidth).2 = .error) ∧
      (∀ scale, s.enabled = true → r = some scale → ((p.run ops).step .askScale).2 = .scale scale ∧ ((p.run ops).step .askZeroPoint).2 = .number 0 ∧
        ((p.run ops).step .askBitWidth).2 = .number p.bitWidth) := by
  obtain ⟨h1, h2⟩ := run_settings ops p
  have hx : External (p.run ops) := ⟨h2.2.2.1.trans hown, by rw [h2.2.2.2]; exact hone⟩
  have hs : settings ⟨p.enabled, p.training, p.cacheOn, p.bias⟩ ops = settingsOf (p.run ops) := h1.symm
  have hc : (p.run ops).cachedScale = recorded ⟨p.enabled, p.training, p.cacheOn, p.bias⟩ none ops := by
    rw [run_cached ops p ⟨hown, hone⟩]
    simp [Proxy.cachedScale, hnew, settingsOf]
  simp only [hs, Proxy.step, askScale_external hx, Proxy.ask, forward_none hx, hc]
  refine ⟨fun he => ?_, fun he hr => ?_, fun scale he hr => ?_⟩
  · have he' : (p.run ops).enabled = false := he
    simp [he']
  · have he' : (p.run ops).enabled = true := he
    simp [he', hr]
  · have he' : (p.run ops).enabled = true := he
    simp [he', hr, Proxy.quantised, h2.2.1]

/-- C127: a quantiser with a scale of its own returns the same in and outside of forward passes, whatever happened before and however many layers share it: the current bias
at the scale that its scaling gives for it. -/
theorem C127_own_scale (p : Proxy K) (f : List K → List K) (hown : p.ownScale = some f) (hb : 1 ≤ p.bitWidth) (ops : List (Op K)) (o : Op K)
    (ho : o = .quantBias ∨ ∃ args, o = .forward args) :
    let s := settings ⟨p.enabled, p.training, p.cacheOn, p.bias⟩ ops
    s.enabled = true → (∃ q, ((p.run ops).step o).2 = .quant q ∧ q.scale = f s.bias ∧ q.zeroPoint = 0 ∧ q.bitWidth = p.bitWidth ∧ q.signed = p.cfg.signed ∧
        q.training = s.training ∧
        QuantisedAt p.cfg.signed p.cfg.narrow p.bitWidth (p.cfg.floatToInt = torchRound ∨ p.cfg.floatToInt = dpuRound) (f s.bias) s.bias q.value) ∧
      ((p.run ops).step .askScale).2 = .scale (f s.bias) ∧ ((p.run ops).step .askZeroPoint).2 = .number 0 ∧
      ((p.run ops).step .askBitWidth).2 = .number p.bitWidth := by
  obtain ⟨h1, h2⟩ := run_settings ops p
  have hs : settings ⟨p.enabled, p.training, p.cacheOn, p.bias⟩ ops = settingsOf (p.run ops) := h1.symm
  simp only [hs]
  intro he
  have he' : (p.run ops).enabled = true := he
  have hf : (p.run ops).ownScale = some f := h2.2.2.1.trans hown
  have hfw : ∀ args, ((p.run ops).forward args).2 = .quant ((p.run ops).quantised (f (p.run ops).bias)) := fun args => by
    simp [Proxy.forward, Proxy.computeScale, hf, he', Proxy.useScale]
  have hq := quantised_at (p.run ops) (by rw [h2.2.1]; exact hb) (f (p.run ops).bias)
  rw [h2.1, h2.2.1] at hq
  refine ⟨⟨(p.run ops).quantised (f (p.run ops).bias), ?_, rfl, rfl, h2.2.1, by rw [← h2.1]; rfl, rfl, hq⟩, ?_, ?_, ?_⟩
  · rcases ho with rfl | ⟨args, rfl⟩
    · exact hfw none
    · exact hfw args
  · simp [Proxy.step, Proxy.askScale, hf, Proxy.ask, he', hfw, Proxy.quantised, settingsOf]
  · simp [Proxy.step, Proxy.ask, he', hfw, Proxy.quantised]
  · simp [Proxy.step, Proxy.ask, he', hfw, Proxy.quantised, h2.2.1]

/-- A layer with two output channels and an 8-bit bias. -/
private def twoChannels : Proxy ℚ where
  cfg := ⟨true, false, torchRound⟩
  bitWidth := 8
  ownScale := none
  tracked := [0]
  bias := [1, -3 / 10]
  enabled := true
  training := true
  cacheOn := true
  metadataOnly := true
  cached := none

example : ((twoChannels.run [.train false, .forward (some (1 / 2, [1 / 4, 1 / 8])), .askZeroPoint, .train true, .forward (some (1, [1, 1])), .setCache false,
    .setBias [9 / 16, -3 / 10]]).step .quantBias).2 = .quant ⟨[1 / 2, -5 / 16], [1 / 8, 1 / 16], 0, 8, true, true⟩ := by
  decide +kernel

example : recorded ⟨true, true, true, [1, -3 / 10]⟩ none [.train false, .forward (some (1 / 2, [1 / 4, 1 / 8])), .askZeroPoint, .train true,
    .forward (some (1, [1, 1])), .setCache false, .setBias [9 / 16, -3 / 10]] = some ([1 / 8, 1 / 16] : List ℚ) := by
  decide +kernel

/-- A quantiser with a scale of its own: the same for each element, from the largest magnitude. -/
example : (({ twoChannels with ownScale := some fun b => b.map fun _ => (b.map abs).foldl max 0 / 128 }.run [.train false]).step .quantBias).2 =
    .quant ⟨[127 / 128, -38 / 128], [1 / 128, 1 / 128], 0, 8, true, false⟩ := by
  decide +kernel

/-- A bias quantiser that takes its scale from the layer cannot be shared by two layers, not even of the same class: every forward pass on a quantised input and weight raises
(even with the quantiser off). -/
theorem C127_shared_raises (p : Proxy K) (m m' : ℕ) (hne : m' ≠ m) (hown : p.ownScale = none) (htr : p.tracked = [m, m']) (ops : List (Op K)) (a : K) (ws : List K) :
    ((p.run ops).step (.forward (some (a, ws)))).2 = .error := by
  obtain ⟨-, h2⟩ := run_settings ops p
  have ho : (p.run ops).ownScale = none := h2.2.2.1.trans hown
  have ht : (p.run ops).tracked = [m, m'] := h2.2.2.2.trans htr
  simp [Proxy.step, Proxy.forward, Proxy.computeScale, ho, ht, hne]

example : (({ twoChannels with tracked := [0, 1] }.run []).step (.forward (some (1 / 2, [1 / 4, 1 / 8])))).2 = .error :=
  C127_shared_raises { twoChannels with tracked := [0, 1] } 0 1 (by decide) rfl rfl [] _ _

/-- What `quant_bias()` returns is not what the next forward pass uses when the input's scale has changed since, or when that pass was made with caching off: the recorded
scale is kept. -/
theorem C127_recorded_scale_is_kept : ∃ (p : Proxy ℚ) (ops : List (Op ℚ)), p.cached = none ∧
    ((p.run ops).step .quantBias).2 ≠ ((p.run ops).step (.forward (some (1, [1, 1])))).2 ∧ ops.getLast? = some (.forward (some (1, [1, 1]))) :=
  ⟨twoChannels, [.train false, .forward (some (1 / 2, [1 / 4, 1 / 8])), .setCache false, .forward (some (1, [1, 1]))], rfl, by decide +kernel, rfl⟩

end Brevitas.Props
