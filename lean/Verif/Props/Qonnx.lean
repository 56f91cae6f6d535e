import Verif.Model.Qonnx
import Verif.Props.IntQuant
import Verif.Props.BinTern
import Verif.Lemmas.QuantTensor
import Mathlib.Tactic.Linarith
import Mathlib.Tactic.FieldSimp
import Mathlib.Tactic.NormNum

/-!
# C85: a QONNX export computes what the layer computes

`Quantizer.run` is the layer; `exportAct`, `exportWeight`, `exportBias`, `exportTrunc` are what the exported nodes compute. The property is
that the two are equal on every input, values and metadata alike, whenever the export does not raise.
-/

set_option linter.unusedSectionVars false

namespace Brevitas.Qonnx

open Brevitas.Props

variable {K : Type*} [Field K] [LinearOrder K] [IsStrictOrderedRing K] [FloorRing K]

theorem Rounding.shipped (m : Rounding) : Shipped (m.fn : K → ℤ) := by
  cases m
  exacts [.round, .floor, .ceil, .roundToZero, .dpu]

/-- The quantiser of the property: an integer quantiser with all attributes. -/
structure IsInt (p : Quantizer K) (sg nr : Bool) (m : Rounding) : Prop where
  kind : p.kind = .int
  signed : p.signed = some sg
  narrow : p.narrow = some nr
  rounding : p.rounding = some m

theorem run_int {p : Quantizer K} {sg nr : Bool} {m : Rounding} (h : IsInt p sg nr m) (x : K) :
    p.run x = some (intRun sg nr m p.scale p.zeroPoint p.bitWidth x) := by
  obtain ⟨kind, signed, narrow, rounding, gw, s, z, b⟩ := p
  obtain ⟨h1, h2, h3, h4⟩ := h
  dsimp only at h1 h2 h3 h4
  subst h1; subst h2; subst h3; subst h4; rfl

/-- C85 (activations): for every integer quantiser of two or more bits, every shipped rounding mode and every input, the exported node
returns the value, scale, zero point and bit width of the layer. Missing: one-bit integer quantisers (`C85_one_bit`) and ternary
quantisers with other thresholds than one half (`C85_ternary_threshold`), for which it is false. -/
theorem C85_act_partial (p : Quantizer K) (sg nr : Bool) (m : Rounding) (hp : IsInt p sg nr m) (hg : p.groupwise = false)
    (hb : p.bitWidth ≠ 1) (x : K) : (exportAct p x).isSome ∧ exportAct p x = p.run x := by
  obtain ⟨kind, signed, narrow, rounding, gw, s, z, b⟩ := p
  obtain ⟨h1, h2, h3, h4⟩ := hp
  dsimp only at h1 h2 h3 h4 hg hb
  subst h1; subst h2; subst h3; subst h4; subst hg
  have e : exportAct (⟨.int, some sg, some nr, some m, false, s, z, b⟩ : Quantizer K) x =
      Quantizer.run ⟨.int, some sg, some nr, some m, false, s, z, b⟩ x := by
    simp [exportAct, Quantizer.prepare, Quantizer.reportedBitWidth, Quantizer.reportedZeroPoint, hb, Symbolic.execute, quantFn,
      Quantizer.run, intRun]
  rw [e]
  exact ⟨rfl, rfl⟩

example : IsInt (⟨.int, some true, some false, some .floor, false, 1/2, 3, 4⟩ : Quantizer ℚ) true false .floor :=
  ⟨rfl, rfl, rfl, rfl⟩
example : exportAct (⟨.int, some true, some false, some .floor, false, 1/2, 3, 4⟩ : Quantizer ℚ) (-7/10) =
    some ⟨-1, 1/2, 3, 4⟩ := by decide +kernel

/-- C85 (activations): binary quantisers are exported as they are, whatever the other attributes; the clamped ones for a positive
scale. -/
theorem C85_binary (p : Quantizer K) (hk : p.kind = .binary ∨ (p.kind = .clampedBinary ∧ 0 < p.scale)) (hg : p.groupwise = false) (x : K) :
    (exportAct p x).isSome ∧ exportAct p x = p.run x := by
  obtain ⟨kind, signed, narrow, rounding, gw, s, z, b⟩ := p
  dsimp only at hk hg
  subst hg
  rcases hk with rfl | ⟨rfl, hs⟩
  · simp [exportAct, Quantizer.prepare, Quantizer.reportedBitWidth, Quantizer.reportedZeroPoint, Symbolic.execute, bipolarFn,
      Quantizer.run, binaryQuant]
  · simp [exportAct, Quantizer.prepare, Quantizer.reportedBitWidth, Quantizer.reportedZeroPoint, Symbolic.execute, bipolarFn,
      Quantizer.run, C26_clamped_binary s hs, binaryQuant]

/-- Two-bit narrow signed rounding of `y`: `-1`, `0` or `1`. -/
private theorem code_two (n : ℤ) : code true true 2 n = max (min n 1) (-1) := by
  simp [code, Spec.hi, Spec.lo]

private theorem round_small {y : K} (h : |y| ≤ 1 / 2) : torchRound y = 0 := by
  apply torchRound_unique
  · simpa using h
  · intro _; exact ⟨0, rfl⟩

private theorem round_large {y : K} (h : 1 / 2 < y) : 1 ≤ torchRound y := by
  have h1 := torchRound_err y
  rw [abs_le] at h1
  have : (0 : K) < torchRound y := by linarith
  have : 0 < torchRound y := by exact_mod_cast this
  omega

private theorem export_ternary (t s z : K) (b : ℕ) (x : K) :
    exportAct (⟨.ternary t, some true, some true, some .round, false, s, z, b⟩ : Quantizer K) x =
      some ⟨((max (min (torchRound (x / s)) 1) (-1) : ℤ) : K) * s, s, 0, 2⟩ := by
  have e : (⟨true, true, torchRound⟩ : IntQuantCfg K).forward s 0 2 x = ((max (min (torchRound (x / s)) 1) (-1) : ℤ) : K) * s := by
    simp only [IntQuantCfg.forward]
    rw [toInt_eq_code _ _ _ (by norm_num)]
    simp only [add_zero, sub_zero, code_two]
  simp only [exportAct, Quantizer.prepare, Quantizer.reportedBitWidth, Quantizer.reportedZeroPoint, Symbolic.execute, quantFn, Rounding.fn,
    ← e]
  rfl

private theorem ternary_value (t s x : K) (ht : 0 ≤ t) (hs : 0 < s) :
    (|x / s| ≤ t → (ternaryQuant t s x).y = 0) ∧ (t < x / s → (ternaryQuant t s x).y = s) ∧
      (x / s < -t → (ternaryQuant t s x).y = -s) := by
  obtain ⟨h1, h2, h3, -⟩ := C26_ternary t s ht hs x
  refine ⟨fun h => h1.mpr ?_, fun h => h2 ?_, fun h => h3 ?_⟩
  · rw [abs_div, abs_of_pos hs, div_le_iff₀ hs] at h; exact h
  · rwa [lt_div_iff₀ hs] at h
  · rw [div_lt_iff₀ hs] at h; linarith

/-- C85 (activations): a ternary quantiser with threshold one half, declared signed, narrow and rounding to nearest, is exported as a
two-bit narrow `Quant` node that computes the same. -/
theorem C85_ternary (s z : K) (hs : 0 < s) (b : ℕ) (x : K) :
    let p : Quantizer K := ⟨.ternary (1/2), some true, some true, some .round, false, s, z, b⟩
    (exportAct p x).isSome ∧ exportAct p x = p.run x := by
  intro p
  have e := export_ternary (1/2) s z b x
  refine ⟨by rw [e]; rfl, ?_⟩
  rw [e]
  obtain ⟨h1, h2, h3⟩ := ternary_value (1/2) s x (by norm_num) hs
  have hrun : p.run x = some ⟨(ternaryQuant (1/2) s x).y, s, 0, 2⟩ := rfl
  rw [hrun]
  congr 2
  rcases le_or_gt |x / s| (1/2) with h | h
  · rw [h1 h, round_small h]; simp
  · rcases lt_abs.mp h with h' | h'
    · rw [h2 h']
      have := round_large h'
      rw [show max (min (torchRound (x / s)) 1) (-1) = 1 by omega]; simp
    · rw [h3 (by linarith)]
      have h4 := round_large h'
      rw [torchRound_neg] at h4
      rw [show max (min (torchRound (x / s)) 1) (-1) = -1 by omega]; simp

/-- C85: for every other threshold there is an input on which the exported ternary quantiser computes something else than the layer. -/
theorem C85_ternary_threshold (t s z : K) (ht : 0 ≤ t) (ht' : t ≠ 1/2) (hs : 0 < s) (b : ℕ) :
    let p : Quantizer K := ⟨.ternary t, some true, some true, some .round, false, s, z, b⟩
    ∃ x a c, exportAct p x = some a ∧ p.run x = some c ∧ a.y ≠ c.y := by
  intro p
  rcases lt_or_gt_of_ne ht' with h | h
  · refine ⟨1/2 * s, _, _, export_ternary t s z b _, rfl, ?_⟩
    have e : 1/2 * s / s = 1/2 := by field_simp
    obtain ⟨-, h2, -⟩ := ternary_value t s (1/2 * s) ht hs
    rw [h2 (by rw [e]; exact h)]
    dsimp only
    rw [e, round_small (by rw [abs_of_pos] <;> norm_num)]
    simpa using hs.ne
  · refine ⟨min t 1 * s, _, _, export_ternary t s z b _, rfl, ?_⟩
    have e : min t 1 * s / s = min t 1 := by field_simp
    obtain ⟨h1, -, -⟩ := ternary_value t s (min t 1 * s) ht hs
    have hm : (1 : K)/2 < min t 1 := lt_min h (by norm_num)
    have hr := round_large hm
    rw [h1 (by rw [e, abs_of_pos (by linarith)]; exact min_le_left _ _)]
    dsimp only
    rw [e, show max (min (torchRound (min t 1)) 1) (-1) = 1 by omega]
    simpa using hs.ne'

example : (exportAct (⟨.ternary (1/2), some true, some true, some .round, false, 1/10, 0, 2⟩ : Quantizer ℚ) (-7/100)).map QuantOut.y =
    some (-1/10) := by decide +kernel

/-- C85: an integer quantiser of one bit is exported as the bipolar quantiser, which returns the scale for every non-negative input; the
layer returns zero or less there when it is signed, and zero for every negative input, where the export returns minus the scale. -/
theorem C85_one_bit (p : Quantizer K) (sg nr : Bool) (m : Rounding) (hp : IsInt p sg nr m) (hg : p.groupwise = false)
    (hb : p.bitWidth = 1) (hz : p.zeroPoint = 0) (hs : 0 < p.scale) (x : K) :
    ∃ a c, exportAct p x = some a ∧ p.run x = some c ∧ (0 ≤ x → a.y = p.scale) ∧ (x < 0 → a.y = -p.scale) ∧
      (sg = true → c.y ≤ 0) ∧ (sg = false → 0 ≤ c.y) ∧ ((sg = true ∧ 0 ≤ x) ∨ (sg = false ∧ x < 0) → a.y ≠ c.y) := by
  obtain ⟨kind, signed, narrow, rounding, gw, s, z, b⟩ := p
  obtain ⟨h1, h2, h3, h4⟩ := hp
  dsimp only at h1 h2 h3 h4 hg hb hz hs
  subst h1; subst h2; subst h3; subst h4; subst hg; subst hb; subst hz
  have hy : (intRun sg nr m s 0 1 x).y = ((code sg nr 1 (m.fn (x / s)) : ℤ) : K) * s := by
    simp only [intRun, IntQuantCfg.forward]
    rw [toInt_eq_code _ _ _ (by norm_num)]
    simp only [add_zero, sub_zero]
  have hcode := code_isCode sg nr (le_refl 1) (m.fn (x / s))
  have hneg : sg = true → (intRun sg nr m s 0 1 x).y ≤ 0 := by
    rintro rfl
    rw [hy]
    have : code true nr 1 (m.fn (x / s)) ≤ 0 := by
      revert hcode; cases nr <;> simp [Spec.IsCode, Spec.lo, Spec.hi]
    exact mul_nonpos_of_nonpos_of_nonneg (by exact_mod_cast this) hs.le
  have hpos : sg = false → 0 ≤ (intRun sg nr m s 0 1 x).y := by
    rintro rfl
    rw [hy]
    have : 0 ≤ code false nr 1 (m.fn (x / s)) := by
      revert hcode; cases nr <;> simp [Spec.IsCode, Spec.lo, Spec.hi] <;> omega
    exact mul_nonneg (by exact_mod_cast this) hs.le
  have ha : exportAct (⟨.int, some sg, some nr, some m, false, s, 0, 1⟩ : Quantizer K) x = some ⟨binarySign x * s, s, 0, 1⟩ := by
    simp [exportAct, Quantizer.prepare, Quantizer.reportedBitWidth, Quantizer.reportedZeroPoint, Symbolic.execute, bipolarFn]
  have e1 : 0 ≤ x → binarySign x * s = s := by
    intro h; simp only [binarySign, if_pos h]; ring
  have e2 : x < 0 → binarySign x * s = -s := by
    intro h; simp only [binarySign, if_neg (not_le.mpr h)]; ring
  refine ⟨_, _, ha, rfl, e1, e2, hneg, hpos, ?_⟩
  rintro (⟨h, hx⟩ | ⟨h, hx⟩)
  · have := hneg h
    dsimp only
    rw [e1 hx]; intro h'; rw [← h'] at this; linarith
  · have := hpos h
    dsimp only
    rw [e2 hx]; intro h'; rw [← h'] at this; linarith

example : exportAct (⟨.int, some true, some false, some .round, false, 1/4, 0, 1⟩ : Quantizer ℚ) 0 = some ⟨1/4, 1/4, 0, 1⟩ ∧
    Quantizer.run (⟨.int, some true, some false, some .round, false, 1/4, 0, 1⟩ : Quantizer ℚ) 0 = some ⟨0, 1/4, 0, 1⟩ := by
  decide +kernel

/-- C85: what cannot be exported is refused: per-group activation quantisers, one-bit quantisers with a zero point, and quantisers that do
not say whether they are signed or narrow, or how they round. -/
theorem C85_refused (p : Quantizer K) (x : K)
    (h : p.groupwise = true ∨ (p.reportedBitWidth = 1 ∧ p.reportedZeroPoint ≠ 0) ∨
      (p.reportedBitWidth ≠ 1 ∧ (p.signed = none ∨ p.narrow = none ∨ p.rounding = none))) : exportAct p x = none := by
  unfold exportAct Quantizer.prepare
  rcases h with h | h | ⟨h1, h⟩
  · by_cases h' : p.reportedBitWidth = 1 ∧ p.reportedZeroPoint ≠ 0
    · rw [if_pos h']; rfl
    · rw [if_neg h', if_pos h]; rfl
  · rw [if_pos h]; rfl
  · rw [if_neg (by tauto)]
    by_cases hg : p.groupwise = true
    · rw [if_pos hg]; rfl
    · rw [if_neg hg]
      simp only [Option.bind_some, Symbolic.execute, if_neg h1, quantFn]
      rcases h with h | h | h
      · rw [h]; rfl
      · rw [h]; cases p.signed <;> rfl
      · rw [h]; cases p.signed <;> cases p.narrow <;> rfl

/-! ### Weights -/

/-- The quantisers whose exported weight is right: integer ones of at least two bits, binary ones, and ternary ones with a threshold below
one declared signed and narrow, all with a non-zero (for the last two, positive) scale. -/
inductive WeightOk : Quantizer K → Prop
  | int (p) (sg nr m) (h : IsInt p sg nr m) (hb : 2 ≤ p.bitWidth) (hs : p.scale ≠ 0) : WeightOk p
  | binary (p) (h : p.kind = .binary ∨ p.kind = .clampedBinary) (hs : 0 < p.scale) : WeightOk p
  | ternary (p) (t) (h : p.kind = .ternary t) (h0 : 0 ≤ t) (h1 : t < 1) (hs : 0 < p.scale) (hsg : p.signed = some true)
      (hnr : p.narrow = some true) : WeightOk p

/-- The metadata that the handler stores for the weights. -/
private def wKwargs (p : Quantizer K) : Symbolic K :=
  ⟨p.scale, p.reportedZeroPoint, p.reportedBitWidth, p.narrow, p.signed, some .round⟩

private theorem torchRound_int' (n : ℤ) : torchRound (n : K) = n :=
  torchRound_unique (by simp) (by intro h; simp at h)

private theorem execute_run {p : Quantizer K} (h : WeightOk p) (x : K) :
    ∃ q, p.run x = some q ∧ (wKwargs p).execute q.y = some q := by
  cases h with
  | int sg nr m h hb hs =>
    refine ⟨_, run_int h x, ?_⟩
    obtain ⟨kind, signed, narrow, rounding, gw, s, z, b⟩ := p
    obtain ⟨h1, h2, h3, h4⟩ := h
    dsimp only at h1 h2 h3 h4 hb hs
    subst h1; subst h2; subst h3; subst h4
    have e : (⟨sg, nr, torchRound⟩ : IntQuantCfg K).forward s z b ((⟨sg, nr, m.fn⟩ : IntQuantCfg K).forward s z b x) =
        (⟨sg, nr, m.fn⟩ : IntQuantCfg K).forward s z b x := by
      simp only [IntQuantCfg.forward]
      rw [toInt_eq_code _ _ _ (by omega), toInt_eq_code _ _ _ (by omega)]
      dsimp only
      have e1 : (((code sg nr b (m.fn (x / s + z)) : ℤ) : K) - z) * s / s + z = ((code sg nr b (m.fn (x / s + z)) : ℤ) : K) := by
        rw [mul_div_assoc, div_self hs]; ring
      rw [e1, torchRound_int', code_of_isCode (code_isCode sg nr (by omega) _)]
    have hb1 : b ≠ 1 := by omega
    show (if b = 1 then _ else (some ((⟨sg, nr, torchRound⟩ : IntQuantCfg K).forward s z b
      ((⟨sg, nr, m.fn⟩ : IntQuantCfg K).forward s z b x))).map _) = _
    rw [if_neg hb1, e]
    rfl
  | binary h hs =>
    have hrun : p.run x = some (binaryQuant p.scale x) := by
      rcases h with h | h
      · simp only [Quantizer.run, h]
      · simp only [Quantizer.run, h, C26_clamped_binary _ hs]
    refine ⟨_, hrun, ?_⟩
    have hb1 : p.reportedBitWidth = 1 := by rcases h with h | h <;> simp only [Quantizer.reportedBitWidth, h]
    have hz : p.reportedZeroPoint = 0 := by rcases h with h | h <;> simp only [Quantizer.reportedZeroPoint, h]
    simp only [wKwargs, Symbolic.execute, hb1, if_pos, bipolarFn, hz]
    have := (C26_idempotent 0 p.scale (le_refl 0) one_pos hs x).1
    simp only [binaryQuant] at this ⊢
    rw [this]
  | ternary t h h0 h1 hs hsg hnr =>
    have hrun : p.run x = some (ternaryQuant t p.scale x) := by simp only [Quantizer.run, h]
    refine ⟨_, hrun, ?_⟩
    have hb1 : p.reportedBitWidth = 2 := by simp only [Quantizer.reportedBitWidth, h]
    have hz : p.reportedZeroPoint = 0 := by simp only [Quantizer.reportedZeroPoint, h]
    obtain ⟨-, -, -, hy, hsc, hzp, hbw⟩ := C26_ternary t p.scale h0 hs x
    generalize ternaryQuant t p.scale x = q at hy hsc hzp hbw ⊢
    obtain ⟨y, sc, zp, bw⟩ := q
    dsimp only at hy hsc hzp hbw
    subst hsc; subst hzp; subst hbw
    have e : (⟨true, true, torchRound⟩ : IntQuantCfg K).forward p.scale 0 2 y = y := by
      simp only [IntQuantCfg.forward]
      rw [toInt_eq_code _ _ _ (by norm_num)]
      simp only [add_zero, sub_zero, code_two]
      rcases hy with rfl | rfl | rfl
      · rw [neg_div, div_self hs.ne', torchRound_neg, show (1 : K) = ((1 : ℤ) : K) by simp, torchRound_int']; simp
      · rw [zero_div, show (0 : K) = ((0 : ℤ) : K) by simp, torchRound_int']; simp
      · rw [div_self hs.ne', show (1 : K) = ((1 : ℤ) : K) by simp, torchRound_int']; simp
    simp only [wKwargs, Symbolic.execute, hb1, quantFn, hsg, hnr, hz, Rounding.fn]
    rw [if_neg (by norm_num)]
    show (some _).map _ = _
    simp only [Option.map_some]
    rw [e]

private theorem mapM_some_map {α β : Type*} (f : α → Option β) (g : α → β) (xs : List α) (h : ∀ x ∈ xs, f x = some (g x)) :
    xs.mapM f = some (xs.map g) := by
  induction xs with
  | nil => rfl
  | cons x xs ih =>
    rw [List.mapM_cons, h x (by simp), ih (fun y hy => h y (by simp [hy]))]
    rfl

/-- C85 (weights): for every set of layers that share a weight quantiser, the exported weight of each of them has the entries, scale, zero
point and bit width of its quantised weight, entry by entry: the quantisation that the exported node repeats changes nothing, whatever the
rounding mode of the quantiser. Missing: the same cases as for activations. Layers that share one weight tensor have the same address and the
same entries. -/
theorem C85_weight_partial (p : Quantizer K) (hp : WeightOk p) (tracked : List (ℕ × List K)) (ptr : ℕ) (ws : List K)
    (hmem : (ptr, ws) ∈ tracked) (huniq : ∀ t ∈ tracked, t.1 = ptr → t.2 = ws) :
    (exportWeight p tracked ptr).isSome ∧ exportWeight p tracked ptr = ws.mapM p.run := by
  have hex := fun x => execute_run hp x
  choose q hq1 hq2 using hex
  have hne : ¬(p.reportedBitWidth = 1 ∧ p.reportedZeroPoint ≠ 0) := by
    rintro ⟨h1, h2⟩
    cases hp with
    | int sg nr m h hb hs =>
      simp only [Quantizer.reportedBitWidth, h.kind] at h1; omega
    | binary h hs =>
      apply h2; rcases h with h | h <;> simp only [Quantizer.reportedZeroPoint, h]
    | ternary t h h0 h1' hs hsg hnr =>
      apply h2; simp only [Quantizer.reportedZeroPoint, h]
  have hvs : prepareWeights p tracked = some ⟨tracked.map fun t => (t.1, t.2.map fun x => (q x).y), wKwargs p⟩ := by
    unfold prepareWeights
    cases tracked with
    | nil => simp at hmem
    | cons t0 ts =>
      dsimp only
      rw [if_neg hne, mapM_some_map _ (fun t : ℕ × List K => (t.1, t.2.map fun x => (q x).y))]
      · rfl
      · intro t _
        rw [mapM_some_map p.run q t.2 (fun x _ => hq1 x)]
        simp
  have hrun : ws.mapM p.run = some (ws.map q) := mapM_some_map _ _ _ fun x _ => hq1 x
  have e : exportWeight p tracked ptr = some (ws.map q) := by
    unfold exportWeight
    rw [hvs]
    simp only [Option.bind_some, WeightHandler.execute]
    have hf : ∃ e, ((tracked.map fun t => (t.1, t.2.map fun x => (q x).y)).reverse.find? fun e => e.1 == ptr) = some e ∧
        e.2 = ws.map fun x => (q x).y := by
      have hs : ((tracked.map fun t => (t.1, t.2.map fun x => (q x).y)).reverse.find? fun e => e.1 == ptr).isSome := by
        rw [List.find?_isSome]
        refine ⟨(ptr, ws.map fun x => (q x).y), ?_, by simp⟩
        rw [List.mem_reverse, List.mem_map]
        exact ⟨(ptr, ws), hmem, rfl⟩
      obtain ⟨e, he⟩ := Option.isSome_iff_exists.mp hs
      refine ⟨e, he, ?_⟩
      have h1 := List.find?_some he
      have h2 := List.mem_of_find?_eq_some he
      rw [List.mem_reverse, List.mem_map] at h2
      obtain ⟨t, ht, rfl⟩ := h2
      dsimp only at h1 ⊢
      rw [huniq t ht (by simpa using h1)]
    obtain ⟨e, he, hv⟩ := hf
    rw [he]
    dsimp only
    rw [hv, mapM_some_map (wKwargs p).execute (fun y => ((wKwargs p).execute y).getD ⟨0, 0, 0, 0⟩), List.map_map]
    · congr 1
      apply List.map_congr_left
      intro x _
      simp only [Function.comp, hq2, Option.getD_some]
    · intro y hy
      obtain ⟨x, _, rfl⟩ := List.mem_map.mp hy
      simp only [hq2, Option.getD_some]
  rw [e, hrun]
  exact ⟨rfl, rfl⟩

example : WeightOk (⟨.int, some true, some true, some .floor, false, 1/4, 0, 4⟩ : Quantizer ℚ) :=
  .int _ true true .floor ⟨rfl, rfl, rfl, rfl⟩ (by decide) (by norm_num)
example : exportWeight (⟨.int, some true, some true, some .floor, false, 1/4, 0, 4⟩ : Quantizer ℚ)
    [(7, [1, -9/10]), (8, [1/3, 100])] 8 = some [⟨1/4, 1/4, 0, 4⟩, ⟨7/4, 1/4, 0, 4⟩] := by decide +kernel

/-- C85: a weight that is not one of the quantiser's at preparation time cannot be exported. -/
theorem C85_weight_untracked (p : Quantizer K) (tracked : List (ℕ × List K)) (ptr : ℕ) (h : ∀ t ∈ tracked, t.1 ≠ ptr) :
    exportWeight p tracked ptr = none := by
  unfold exportWeight
  cases hp : prepareWeights p tracked with
  | none => rfl
  | some w =>
    simp only [Option.bind_some, WeightHandler.execute]
    have : (w.quantWeightValues.reverse.find? fun e => e.1 == ptr) = none := by
      rw [List.find?_eq_none]
      intro e he
      rw [List.mem_reverse] at he
      unfold prepareWeights at hp
      cases tracked with
      | nil => simp at hp
      | cons t0 ts =>
        dsimp only at hp
        by_cases hc : p.reportedBitWidth = 1 ∧ p.reportedZeroPoint ≠ 0
        · rw [if_pos hc] at hp; simp at hp
        · rw [if_neg hc, Option.map_eq_some_iff] at hp
          obtain ⟨vs, hvs, rfl⟩ := hp
          have key : ∀ (l : List (ℕ × List K)) (vs : List (ℕ × List K)),
              (l.mapM fun (t : ℕ × List K) => (t.2.mapM p.run).map fun q => (t.1, q.map QuantOut.y)) = some vs →
              ∀ e ∈ vs, ∃ t ∈ l, t.1 = e.1 := by
            intro l
            induction l with
            | nil => intro vs h e he; simp at h; subst h; simp at he
            | cons t l ih =>
              intro vs h e he
              rw [List.mapM_cons] at h
              cases ht : t.2.mapM p.run with
              | none => rw [ht] at h; simp at h
              | some q =>
                rw [ht] at h
                cases hl : l.mapM fun (t : ℕ × List K) => (t.2.mapM p.run).map fun q => (t.1, q.map QuantOut.y) with
                | none => rw [hl] at h; simp at h
                | some v =>
                  rw [hl] at h
                  simp at h
                  subst h
                  rcases List.mem_cons.mp he with rfl | he
                  · exact ⟨t, by simp, rfl⟩
                  · obtain ⟨t', h1, h2⟩ := ih v hl e he
                    exact ⟨t', by simp [h1], h2⟩
          obtain ⟨t, ht, hte⟩ := key _ _ hvs e he
          have := h t ht
          simpa [← hte] using this
    rw [this]

/-! ### Biases -/

/-- C85 (biases), partial: when every call of the layer on the example inputs saw the same accumulator scale, the exported bias of each
call is the layer's, for every integer quantiser including one bit. Missing: layers called with several scales, see
`C85_bias_last_scale`. -/
theorem C85_bias_partial (p : Quantizer K) (sg nr : Bool) (m : Rounding) (hp : IsInt p sg nr m) (hg : p.groupwise = false)
    (hz : p.bitWidth = 1 → p.zeroPoint = 0) (calls : List K) (s : K) (hc : s ∈ calls) (hall : ∀ s' ∈ calls, s' = s) (x : K) :
    (exportBias p calls s x).isSome ∧ exportBias p calls s x = biasRun p s x := by
  have hlast : cachedScale calls = some s := by
    unfold cachedScale
    have hne : calls ≠ [] := List.ne_nil_of_mem hc
    rw [List.getLast?_eq_some_getLast hne, hall _ (List.getLast_mem hne)]
  obtain ⟨kind, signed, narrow, rounding, gw, s0, z, b⟩ := p
  obtain ⟨h1, h2, h3, h4⟩ := hp
  dsimp only at h1 h2 h3 h4 hg hz
  subst h1; subst h2; subst h3; subst h4; subst hg
  have e : exportBias (⟨.int, some sg, some nr, some m, false, s0, z, b⟩ : Quantizer K) calls s x =
      some (intRun sg nr m s z b x) := by
    unfold exportBias
    rw [hlast]
    dsimp only
    unfold Quantizer.prepare
    rw [if_neg (by
      rintro ⟨h1, h2⟩
      exact h2 (hz h1))]
    rfl
  rw [e]
  exact ⟨rfl, rfl⟩

example : exportBias (⟨.int, some true, some false, some .round, false, 1, 0, 8⟩ : Quantizer ℚ) [1/4, 1/4] (1/4) (7/10) =
    some ⟨3/4, 1/4, 0, 8⟩ := by decide +kernel

/-- C85: a layer that is called several times is exported with the bias scale of its last call in every place, whatever scale
the accumulator has there: the exported bias is the layer's with that other scale. -/
theorem C85_bias_last_scale (p : Quantizer K) (sg nr : Bool) (m : Rounding) (hp : IsInt p sg nr m) (hg : p.groupwise = false)
    (hz : p.bitWidth = 1 → p.zeroPoint = 0) (calls : List K) (s last : K) (x : K) :
    exportBias p (calls ++ [last]) s x = biasRun p last x := by
  obtain ⟨kind, signed, narrow, rounding, gw, s0, z, b⟩ := p
  obtain ⟨h1, h2, h3, h4⟩ := hp
  dsimp only at h1 h2 h3 h4 hg hz
  subst h1; subst h2; subst h3; subst h4; subst hg
  unfold exportBias cachedScale
  rw [List.getLast?_append]
  simp only [List.getLast?_singleton, Option.some_or]
  unfold Quantizer.prepare
  rw [if_neg (by
    rintro ⟨h1, h2⟩
    exact h2 (hz h1))]
  rfl

/-- C85: with scales 1/2 and then 1/4 the first call's bias of 3/4 is exported as 3/4 although the layer computed 1. -/
theorem C85_bias_changed :
    (exportBias (⟨.int, some true, some false, some .round, false, 1, 0, 8⟩ : Quantizer ℚ) [1/2, 1/4] (1/2) (3/4)).map QuantOut.y =
      some (3/4) ∧
    (biasRun (⟨.int, some true, some false, some .round, false, 1, 0, 8⟩ : Quantizer ℚ) (1/2) (3/4)).map QuantOut.y = some 1 := by
  decide +kernel

/-- C85 (truncation): the exported truncation returns the value, scale, zero point and bit width of the layer, for every rounding mode,
widths and input; without a known rounding mode it is refused. -/
theorem C85_trunc (m : Rounding) (bo : ℕ) (x s z : K) (bi : ℕ) :
    exportTrunc (some m) bo x s z bi = some (truncRun m bo x s z bi) ∧ exportTrunc none bo x s z bi = none := ⟨rfl, rfl⟩

example : exportTrunc (some .floor) 4 (100 : ℚ) 1 0 8 = some ⟨6, 1, 0, 4⟩ := by decide +kernel

end Brevitas.Qonnx
