import Verif.Model.FloatPreset
import Verif.Props.Preset
import Verif.Props.Float

/-!
# C109: the shipped minifloat weight quantisers quantise to the format they are named after

`Spec.floatValue`, `Spec.IsClosest`, `IsGreatest` of Mathlib, `Peers`, `Shares` and `ScaleShape` of C108 and the definitions below are all that the statements use beside the model.
-/

set_option linter.unusedSectionVars false

namespace Brevitas.Props

open Brevitas NdTensor FloatPreset
open Brevitas.ChannelScale (weightStats PerOutput absMax_eq absMax_orderFree)

variable {K : Type*} [Field K] [LinearOrder K] [IsStrictOrderedRing K] [FloorRing K]

/-- The exponent bias of a standard: IEEE-like, one more for FNUZ. -/
def standardBias (std : Standard) (E : ℕ) : ℤ := if std = .fnuz then 2 ^ (E - 1) else 2 ^ (E - 1) - 1

/-- The codes (exponent and mantissa bits) that stand for numbers: all, except that OCP E4M3 has a NaN with all bits set, and OCP E5M2 has infinities and NaN with all exponent bits set. (The NaN of FNUZ
is the code of negative zero.) -/
def IsNumber (std : Standard) (E M e m : ℕ) : Prop :=
  e < 2 ^ E ∧ m < 2 ^ M ∧ (std = .ocp → (E = 4 ∧ M = 3 → ¬ (e = 15 ∧ m = 7)) ∧ (E = 5 ∧ M = 2 → e ≠ 31))

/-- The numbers of a signed format. -/
def FormatValue (std : Standard) (E M : ℕ) (v : K) : Prop :=
  ∃ e m, IsNumber std E M e m ∧ (v = Spec.floatValue M (standardBias std E) e m ∨ v = -Spec.floatValue M (standardBias std E) e m)

/-- What "`std` EeMm weight quantiser with float scales" promises: the format, scales that bring the largest absolute value of the weights that share them to the largest number of the format (at
least `m`), every quantised weight finite, a number of the format times the scale, as near to the weight as any, within half a unit in the last place. -/
structure IsMinifloat (std : Standard) (E M : ℕ) (per : PerOutput) (d C : ℕ) (layers : List (ChannelScale.Layer K)) (m : K) (w : NdTensor K) (q : FloatWeight K) : Prop where
  shape : q.value.shape = w.shape
  scale_shape : ScaleShape per d C w.shape q.scale.shape
  format : q.E = E ∧ q.M = M ∧ q.bias = standardBias std E ∧ q.signed = true
  scale : ∃ top, IsGreatest {v : K | FormatValue std E M v} top ∧ ∀ idx, InBounds w.shape idx →
    ∃ peak, IsGreatest (abs '' Peers per d layers idx) peak ∧ q.scale.data (bcIndex q.scale.shape idx) = max (peak / top) m
  value : ∀ idx, InBounds w.shape idx → ∃ y, q.value.data idx = .fin y ∧
    Spec.IsClosest (fun y => ∃ v, FormatValue std E M v ∧ y = v * q.scale.data (bcIndex q.scale.shape idx)) (w.data idx) y ∧
    |y - w.data idx| ≤ max (|w.data idx| / 2 ^ (M + 1)) (q.scale.data (bcIndex q.scale.shape idx) * 2 ^ (1 - standardBias std E - M) / 2)

/-- The settings of a signed minifloat quantiser with the bias of its standard, rounding to nearest, for which the constructor and the clamp do not raise: consistent widths, and codes for what
overflows if it does not saturate. -/
structure MinifloatSettings (s : FloatPreset.Settings K) (std : Standard) (E M : ℕ) (per : PerOutput) (m : K) : Prop where
  scaled : s.scaled = true
  standard : s.standard = std
  exponent : s.E = E
  mantissa : s.M = M
  nonzero : E ≠ 0 ∧ M ≠ 0
  bits : s.bitWidth = E + M + 1
  bias : s.bias = none
  signed : s.signed = true
  overflow : s.saturating = true ∨ (std = .ocp ∧ (E = 4 ∧ M = 3 ∨ E = 5 ∧ M = 2))
  round : s.round = .round
  per : s.per = per
  min : s.minVal = some m

/-! ### The format -/

/-- What is known of the format that settings describe. -/
structure Describes (c : FloatCfg K) (std : Standard) (E M : ℕ) : Prop where
  ok : FloatOk c
  returns : clampReturns c = true
  exponent : c.E = E
  mantissa : c.M = M
  bias : c.bias = standardBias std E
  signed : c.signed = true
  round : c.floatToInt = torchRound
  values : ∀ v : K, (Spec.Representable c.E c.M c.bias c.signed v ∧ WithinAvailable c v) ↔ FormatValue std E M v
  top : IsGreatest {v : K | FormatValue std E M v} c.maxValue

theorem floatValue_eq_iff_e4m3 (e m : ℕ) (he : e < 16) (hm : m < 8) : Spec.floatValue (K := K) 3 7 e m ≤ 448 ↔ ¬ (e = 15 ∧ m = 7) := by
  constructor
  · rintro h ⟨rfl, rfl⟩
    norm_num [Spec.floatValue] at h
  · intro h
    have e1 : (448 : K) = Spec.floatValue 3 7 15 6 := by norm_num [Spec.floatValue]
    rw [e1]
    exact floatValue_le (by omega) (by omega)

theorem floatValue_eq_iff_e5m2 (e m : ℕ) (he : e < 32) (hm : m < 4) : Spec.floatValue (K := K) 2 15 e m ≤ 57344 ↔ e ≠ 31 := by
  constructor
  · rintro h rfl
    have e1 : Spec.floatValue (K := K) 2 15 31 0 = 65536 := by norm_num [Spec.floatValue]
    have h2 := floatValue_le (K := K) (M := 2) (bias := 15) (e := 31) (e' := 31) (m := 0) (m' := m) (by omega) (Or.inr ⟨rfl, Nat.zero_le _⟩)
    rw [e1] at h2
    have : (65536 : K) ≤ 57344 := h2.trans h
    norm_num at this
  · intro h
    have e1 : (57344 : K) = Spec.floatValue 2 15 30 3 := by norm_num [Spec.floatValue]
    rw [e1]
    exact floatValue_le (by omega) (by omega)

theorem formatValue_of (c : FloatCfg K) (hs : c.signed = true) {std : Standard} {E M : ℕ} (hE : c.E = E) (hM : c.M = M) (hb : c.bias = standardBias std E)
    (h : ∀ e m, e < 2 ^ E → m < 2 ^ M → (WithinAvailable c (Spec.floatValue M (standardBias std E) e m) ↔ IsNumber std E M e m)) (v : K) :
    (Spec.Representable c.E c.M c.bias c.signed v ∧ WithinAvailable c v) ↔ FormatValue std E M v := by
  have hneg : ∀ v, WithinAvailable c (-v) ↔ WithinAvailable c v := fun v => by simp [WithinAvailable]
  rw [hE, hM, hb, hs]
  constructor
  · rintro ⟨⟨e, m, he, hm, hv⟩, ha⟩
    refine ⟨e, m, (h e m he hm).1 ?_, hv.imp id fun hv => hv.2⟩
    rcases hv with rfl | ⟨-, rfl⟩
    · exact ha
    · exact (hneg _).1 ha
  · rintro ⟨e, m, hn, hv⟩
    have := (h e m hn.1 hn.2.1).2 hn
    refine ⟨⟨e, m, hn.1, hn.2.1, hv.imp id fun hv => ⟨rfl, hv⟩⟩, ?_⟩
    rcases hv with rfl | rfl
    · exact this
    · exact (hneg _).2 this

/-- The largest number of a format. -/
theorem isGreatest_format {std : Standard} {E M : ℕ} {e m : ℕ} (hn : IsNumber std E M e m) (hmax : ∀ e' m', IsNumber std E M e' m' → e' < e ∨ (e' = e ∧ m' ≤ m)) :
    IsGreatest {v : K | FormatValue std E M v} (Spec.floatValue M (standardBias std E) e m) := by
  refine ⟨⟨e, m, hn, Or.inl rfl⟩, ?_⟩
  rintro v ⟨e', m', hn', rfl | rfl⟩
  · exact floatValue_le hn'.2.1 (hmax e' m' hn')
  · exact (neg_nonpos.2 (floatValue_nonneg _ _ _ _)).trans (floatValue_nonneg _ _ _ _)

theorem top_of (c : FloatCfg K) {std : Standard} {E M : ℕ} {e m : ℕ} (hn : IsNumber std E M e m) (he : c.maxValue = Spec.floatValue M (standardBias std E) e m)
    (hmax : ∀ e' m', IsNumber std E M e' m' → e' < e ∨ (e' = e ∧ m' ≤ m)) : IsGreatest {v : K | FormatValue std E M v} c.maxValue := by
  rw [he]; exact isGreatest_format hn hmax

theorem solveFloatToInt_round : Preset.solveFloatToInt (K := K) .round = some torchRound := rfl

/-- The settings describe the format they name. -/
theorem cfg_describes {s : FloatPreset.Settings K} {std : Standard} {E M : ℕ} {per : PerOutput} {m eps : K} (h : MinifloatSettings s std E M per m) (he : 0 < eps) :
    ∃ c, s.cfg eps = some c ∧ c.eps = eps ∧ Describes c std E M := by
  obtain ⟨hsc, hstd, rfl, rfl, ⟨hE, hM⟩, hbits, hbias, hsig, hov, hround, -, -⟩ := h
  have hb : s.exponentBias = standardBias std s.E := by
    rw [Settings.exponentBias, hbias, hstd]; cases std <;> simp [standardBias]
  have hvalid : ∀ mx, (⟨s.E, s.M, s.exponentBias, s.signed, s.saturating, s.infValues, s.nanValues, mx, torchRound, eps⟩ : FloatCfg K).valid s.bitWidth = true := by
    intro mx; simp [FloatCfg.valid, hbits, hsig, hE, hM]
  have hcfg : ∀ mx, s.maxAvailable = some mx → s.cfg eps = some ⟨s.E, s.M, s.exponentBias, s.signed, s.saturating, s.infValues, s.nanValues, mx, torchRound, eps⟩ := by
    intro mx hmx
    simp only [Settings.cfg, hround, solveFloatToInt_round, Option.bind_some, hmx, hvalid, if_true]
  have hmf : maxFloat (K := K) s.E s.M (standardBias std s.E) = Spec.floatValue s.M (standardBias std s.E) (2 ^ s.E - 1) (2 ^ s.M - 1) := maxFloat_eq hE _ _
  have hpE : 1 ≤ 2 ^ s.E := Nat.one_le_two_pow
  have hpM : 1 ≤ 2 ^ s.M := Nat.one_le_two_pow
  by_cases h43 : std = .ocp ∧ s.E = 4 ∧ s.M = 3
  · obtain ⟨rfl, h4, h3⟩ := h43
    have h8 : s.bitWidth = 8 := by omega
    have hsb : standardBias .ocp 4 = 7 := rfl
    have hinf : s.infValues = none := by simp [Settings.infValues, hstd, h8, h4, h3]
    have hnan : s.nanValues = some [[true, true, true]] := by simp [Settings.nanValues, hstd, h8, h4, h3]
    have hmax : s.maxAvailable = some (some (448 : K)) := by
      simp only [Settings.maxAvailable, hstd, hinf, hnan, hb, h4, h3, hsb]
      have : getMaxAvailableFloat (K := K) 4 3 7 (some [[true, true, true]]) none s.saturating = some (Spec.floatValue 3 7 15 6) := by
        simp [getMaxAvailableFloat, bitsToNat, natToBits, getMinifloatValue_eq]
      rw [this]; norm_num [Spec.floatValue]
    refine ⟨_, hcfg _ hmax, rfl, ?_⟩
    rw [h4, h3, hinf, hnan, hb, h4, hsig, hsb]
    have hrep : Spec.Representable 4 3 7 false (448 : K) := ⟨15, 6, by norm_num, by norm_num, Or.inl (by norm_num [Spec.floatValue])⟩
    rw [h4, h3, hsb] at hmf
    refine ⟨⟨by norm_num, Shipped.round, he, fun m hm => by obtain rfl := Option.some.inj hm; exact hrep⟩, by simp [clampReturns], rfl, rfl, rfl, rfl, rfl, ?_, ?_⟩
    · apply formatValue_of _ rfl rfl rfl rfl
      intro e m h1 h2
      have := floatValue_eq_iff_e4m3 (K := K) e m h1 h2
      have h0 := abs_of_nonneg (floatValue_nonneg (K := K) 3 7 e m)
      constructor
      · intro h
        refine ⟨h1, h2, fun _ => ⟨fun _ => this.1 ?_, fun h => absurd h.1 (by norm_num)⟩⟩
        rw [← h0]; exact h 448 rfl (by norm_num)
      · rintro h x hx -
        obtain rfl := Option.some.inj hx
        rw [hsb, h0]; exact this.2 ((h.2.2 rfl).1 ⟨rfl, rfl⟩)
    · apply top_of _ (e := 15) (m := 6)
      · exact ⟨by norm_num, by norm_num, fun _ => ⟨by omega, by omega⟩⟩
      · rw [hsb]
        simp only [FloatCfg.maxValue, hmf]
        norm_num [Spec.floatValue]
      · rintro e' m' ⟨h1, h2, h3⟩
        have := (h3 rfl).1 ⟨rfl, rfl⟩
        omega
  by_cases h52 : std = .ocp ∧ s.E = 5 ∧ s.M = 2
  · obtain ⟨rfl, h4, h3⟩ := h52
    have h8 : s.bitWidth = 8 := by omega
    have hsb : standardBias .ocp 5 = 15 := rfl
    have hinf : s.infValues = some [[false, false]] := by simp [Settings.infValues, hstd, h8, h4, h3]
    have hnan : s.nanValues = some [[false, true], [true, true], [true, false]] := by simp [Settings.nanValues, hstd, h8, h4, h3]
    have hmax : s.maxAvailable = some (some (57344 : K)) := by
      simp only [Settings.maxAvailable, hstd, hinf, hnan, hb, h4, h3, hsb]
      have : getMaxAvailableFloat (K := K) 5 2 15 (some [[false, true], [true, true], [true, false]]) (some [[false, false]]) s.saturating = some (Spec.floatValue 2 15 30 3) := by
        simp [getMaxAvailableFloat, bitsToNat, natToBits, getMinifloatValue_eq, List.replicate]
      rw [this]; norm_num [Spec.floatValue]
    refine ⟨_, hcfg _ hmax, rfl, ?_⟩
    rw [h4, h3, hinf, hnan, hb, h4, hsig, hsb]
    have hrep : Spec.Representable 5 2 15 false (57344 : K) := ⟨30, 3, by norm_num, by norm_num, Or.inl (by norm_num [Spec.floatValue])⟩
    rw [h4, h3, hsb] at hmf
    refine ⟨⟨by norm_num, Shipped.round, he, fun m hm => by obtain rfl := Option.some.inj hm; exact hrep⟩, by simp [clampReturns], rfl, rfl, rfl, rfl, rfl, ?_, ?_⟩
    · apply formatValue_of _ rfl rfl rfl rfl
      intro e m h1 h2
      have := floatValue_eq_iff_e5m2 (K := K) e m h1 h2
      have h0 := abs_of_nonneg (floatValue_nonneg (K := K) 2 15 e m)
      constructor
      · intro h
        refine ⟨h1, h2, fun _ => ⟨fun h => absurd h.1 (by norm_num), fun _ => this.1 ?_⟩⟩
        rw [← h0]; exact h 57344 rfl (by norm_num)
      · rintro h x hx -
        obtain rfl := Option.some.inj hx
        rw [hsb, h0]; exact this.2 ((h.2.2 rfl).2 ⟨rfl, rfl⟩)
    · apply top_of _ (e := 30) (m := 3)
      · exact ⟨by norm_num, by norm_num, fun _ => ⟨by omega, by omega⟩⟩
      · rw [hsb]
        simp only [FloatCfg.maxValue, hmf]
        norm_num [Spec.floatValue]
      · rintro e' m' ⟨h1, h2, h3⟩
        have := (h3 rfl).2 ⟨rfl, rfl⟩
        omega
  · have hsat : s.saturating = true := by
      rcases hov with h | ⟨h1, h2 | h2⟩
      · exact h
      · exact absurd ⟨h1, h2⟩ h43
      · exact absurd ⟨h1, h2⟩ h52
    have hnum : ∀ e m, IsNumber std s.E s.M e m ↔ e < 2 ^ s.E ∧ m < 2 ^ s.M := by
      intro e m
      refine ⟨fun h => ⟨h.1, h.2.1⟩, fun h => ⟨h.1, h.2, fun ho => ⟨fun h' => absurd ⟨ho, h'⟩ h43, fun h' => absurd ⟨ho, h'⟩ h52⟩⟩⟩
    have hinf : s.infValues = none := by
      rw [Settings.infValues, hstd]
      cases std <;> simp only [true_and] at h43 h52 ⊢
      split_ifs <;> first | rfl | (exfalso; omega)
    have hnan : s.nanValues = none := by
      rw [Settings.nanValues, hstd]
      cases std <;> simp only [true_and] at h43 h52 ⊢
      split_ifs <;> first | rfl | (exfalso; omega)
    have htop : IsNumber std s.E s.M (2 ^ s.E - 1) (2 ^ s.M - 1) := (hnum _ _).2 ⟨by omega, by omega⟩
    obtain ⟨mx, hmx, hval, hav⟩ : ∃ mx, s.maxAvailable = some mx ∧
        (∀ x, mx = some x → x = Spec.floatMax (K := K) s.E s.M (standardBias std s.E)) ∧ True := by
      rw [Settings.maxAvailable, hstd]
      cases std with
      | ocp => exact ⟨_, by rw [hinf, hnan, hsat, hb, (C25_no_special_codes (K := K) s.E s.M hE _).1]; rfl, fun x hx => (Option.some.inj hx).symm, trivial⟩
      | plain => exact ⟨none, rfl, by simp, trivial⟩
      | fnuz => exact ⟨none, rfl, by simp, trivial⟩
    refine ⟨_, hcfg _ hmx, rfl, ?_⟩
    rw [hinf, hnan, hb, hsig, hsat]
    refine ⟨⟨hE, Shipped.round, he, fun m hm => by rw [hval m hm]; exact floatMax_rep _ _ _ _⟩, rfl, rfl, rfl, rfl, rfl, rfl, ?_, ?_⟩
    · apply formatValue_of _ rfl rfl rfl rfl
      intro e m h1 h2
      rw [hnum]
      simp only [h1, h2, true_and, and_self, iff_true]
      intro x hx _
      rw [hval x hx, abs_of_nonneg (floatValue_nonneg _ _ _ _)]
      exact le_floatMax h1 h2
    · apply top_of _ htop
      · simp only [FloatCfg.maxValue, hmf]
        cases mx with
        | none => rfl
        | some x =>
          rw [hval x rfl]
          simp only [Spec.floatMax, min_self, ite_self]
      · intro e' m' hn
        have := (hnum _ _).1 hn
        omega


theorem isGreatest_pos {std : Standard} {E M : ℕ} (hM : M ≠ 0) {top : K} (h : IsGreatest {v : K | FormatValue std E M v} top) : 0 < top := by
  have h1 : FormatValue (K := K) std E M (Spec.floatValue M (standardBias std E) 0 1) :=
    ⟨0, 1, ⟨by positivity, Nat.one_lt_two_pow hM, fun _ => ⟨fun _ => by omega, fun _ => by omega⟩⟩, Or.inl rfl⟩
  refine lt_of_lt_of_le ?_ (h.2 h1)
  simp only [Spec.floatValue, if_true]; positivity

/-! ### Quantised weights -/

/-- C109: a quantiser set to a signed minifloat format of a standard, rounding to nearest, with float scales from the largest absolute value, quantises the weights of all layers sharing it to that
format as its name says, for all widths, standards, weights (zeros included) and shapes, if the smallest normal number of the data type is less than half the smallest number of the format. -/
theorem C109_minifloat {s : FloatPreset.Settings K} {std : Standard} {E M : ℕ} {per : PerOutput} {m eps : K} (h : MinifloatSettings s std E M per m) (hm : 0 < m) (he : 0 < eps)
    (hsmall : eps < 2 ^ (1 - standardBias std E - M) / 2) {d C : ℕ} {layers : List (ChannelScale.Layer K)} (hl : Shares per d C layers) (l : ChannelScale.Layer K) (hmem : l ∈ layers) :
    ∃ q, weightQuant s eps layers l.weight = some q ∧ IsMinifloat std E M per d C layers m l.weight q := by
  obtain ⟨c, hc, hceps, D⟩ := cfg_describes h he
  obtain ⟨st, hst, hall⟩ := stat_of_peers absMax absMax_orderFree absMax_isSome hl
  obtain ⟨hbc, hsh, hpeers⟩ := hall l hmem
  have hT : 0 < c.maxValue := isGreatest_pos h.nonzero.2 D.top
  have hval : ∀ v, statsScalingFp (some m) v c.maxValue = max (v / c.maxValue) m := by
    intro v; rw [statsScalingFp, clampMinVal, if_neg hm.ne']; rfl
  have hse : SmallEps c := by
    rw [SmallEps, hceps, D.bias, D.mantissa, zpow_sub₀ (by norm_num) _ 1, zpow_one]; exact hsmall
  have hstat : Preset.statistic .max per layers = some st := hst
  have hq : weightQuant s eps layers l.weight = some ⟨⟨l.weight.shape, fun idx => (c.forwardX ((st.map fun v => statsScalingFp (some m) v c.maxValue).data (bcIndex st.shape idx))
      (.fin (l.weight.data (bcIndex l.weight.shape idx)))).getD .nan⟩, st.map fun v => statsScalingFp (some m) v c.maxValue, c.E, c.M, c.bias, c.saturating, c.infValues, c.nanValues, c.signed⟩ := by
    simp only [weightQuant, h.scaled, if_true, hc, Option.bind_some, h.per, hstat, h.min, quantTensor, D.returns, NdTensor.map, bcShape_of_broadcasts hbc, Option.map_some]
  refine ⟨_, hq, rfl, hsh, ⟨D.exponent, D.mantissa, D.bias, D.signed⟩, ⟨c.maxValue, D.top, ?_⟩, ?_⟩
  · intro idx hi
    obtain ⟨xs, hxs, hv⟩ := hpeers idx hi
    exact ⟨_, peak_of hxs hv, hval _⟩
  · intro idx hi
    obtain ⟨xs, hxs, hv⟩ := hpeers idx hi
    have hle := (peak_of hxs hv).2 ⟨_, self_peer hmem hi, rfl⟩
    simp only [bcIndex_inBounds hi, NdTensor.map]
    set a := st.data (bcIndex st.shape idx)
    have hge : a / c.maxValue ≤ statsScalingFp (some m) a c.maxValue := by rw [hval]; exact le_max_left _ _
    have hs : 0 < statsScalingFp (some m) a c.maxValue := by rw [hval]; exact lt_max_of_lt_right hm
    set sc := statsScalingFp (some m) a c.maxValue
    have hx : |l.weight.data idx| ≤ c.maxValue * sc := by
      rw [div_le_iff₀ hT] at hge
      linarith [mul_comm sc c.maxValue]
    have hcodes : c.saturating = true ∨ c.infValues.isSome = true ∨ c.nanValues.isSome = true := by
      have := D.returns; simp only [clampReturns, Bool.or_eq_true] at this; tauto
    rw [C24_in_range c D.ok hse (Or.inl D.round) sc hs _ hx hcodes]
    refine ⟨_, rfl, ?_, ?_⟩
    · have h1 := C23_nearest_partial c D.ok hse (Or.inl D.round) sc hs (l.weight.data idx)
      have h2 : FloatGrid c sc = fun y => ∃ v, FormatValue std E M v ∧ y = v * sc := by
        funext y
        simp only [FloatGrid, ← D.values, eq_iff_iff]
        exact ⟨fun ⟨v, a, b, e⟩ => ⟨v, ⟨a, b⟩, e⟩, fun ⟨v, ⟨a, b⟩, e⟩ => ⟨v, a, b, e⟩⟩
      rwa [h2] at h1
    · have h1 := C23_error_partial c D.ok hse (Or.inl D.round) sc hs (l.weight.data idx) hx (fun _ => D.signed)
      rwa [D.bias, D.mantissa] at h1

/-! ### The shipped classes -/

/-- C109: the largest numbers of the shipped formats. -/
theorem C109_tops : IsGreatest {v : K | FormatValue .ocp 4 3 v} 448 ∧ IsGreatest {v : K | FormatValue .ocp 5 2 v} 57344 ∧
    IsGreatest {v : K | FormatValue .fnuz 4 3 v} 240 ∧ IsGreatest {v : K | FormatValue .fnuz 5 2 v} 57344 := by
  refine ⟨?_, ?_, ?_, ?_⟩
  · have := isGreatest_format (K := K) (std := .ocp) (E := 4) (M := 3) (e := 15) (m := 6)
      ⟨by norm_num, by norm_num, fun _ => ⟨fun _ => by omega, fun h => absurd h.1 (by norm_num)⟩⟩ (by
        rintro e' m' ⟨h1, h2, h3⟩
        have := (h3 rfl).1 ⟨rfl, rfl⟩
        omega)
    rwa [show Spec.floatValue (K := K) 3 (standardBias .ocp 4) 15 6 = 448 by norm_num [Spec.floatValue, show standardBias .ocp 4 = 7 from rfl]] at this
  · have := isGreatest_format (K := K) (std := .ocp) (E := 5) (M := 2) (e := 30) (m := 3)
      ⟨by norm_num, by norm_num, fun _ => ⟨fun h => absurd h.1 (by norm_num), fun _ => by omega⟩⟩ (by
        rintro e' m' ⟨h1, h2, h3⟩
        have := (h3 rfl).2 ⟨rfl, rfl⟩
        omega)
    rwa [show Spec.floatValue (K := K) 2 (standardBias .ocp 5) 30 3 = 57344 by norm_num [Spec.floatValue, show standardBias .ocp 5 = 15 from rfl]] at this
  · have := isGreatest_format (K := K) (std := .fnuz) (E := 4) (M := 3) (e := 15) (m := 7) ⟨by norm_num, by norm_num, fun h => by simp at h⟩ (by
        rintro e' m' ⟨h1, h2, -⟩
        omega)
    rwa [show Spec.floatValue (K := K) 3 (standardBias .fnuz 4) 15 7 = 240 by norm_num [Spec.floatValue, show standardBias .fnuz 4 = 8 from rfl]] at this
  · have := isGreatest_format (K := K) (std := .fnuz) (E := 5) (M := 2) (e := 31) (m := 3) ⟨by norm_num, by norm_num, fun h => by simp at h⟩ (by
        rintro e' m' ⟨h1, h2, -⟩
        omega)
    rwa [show Spec.floatValue (K := K) 2 (standardBias .fnuz 5) 31 3 = 57344 by norm_num [Spec.floatValue, show standardBias .fnuz 5 = 16 from rfl]] at this

/-- The names of the shipped 8-bit formats. -/
def shipped (std : Standard) (E M : ℕ) (s : PerOutput → FloatPreset.Settings K) : Prop :=
  (std = .ocp ∧ E = 4 ∧ M = 3 ∧ s = fp8e4m3OCPWeight) ∨ (std = .ocp ∧ E = 5 ∧ M = 2 ∧ s = fp8e5m2OCPWeight) ∨
  (std = .fnuz ∧ E = 4 ∧ M = 3 ∧ s = fp8e4m3FNUZWeight) ∨ (std = .fnuz ∧ E = 5 ∧ M = 2 ∧ s = fp8e5m2FNUZWeight)

/-- C109: the shipped 8-bit weight quantisers, per tensor and per channel, in every data type whose smallest normal number is below `2 ^ -18` (`float32`, `bfloat16`, `float64`). -/
theorem C109_shipped {std : Standard} {E M : ℕ} {s : PerOutput → FloatPreset.Settings K} (h : shipped std E M s) (per : PerOutput) {eps : K} (he : 0 < eps) (hsmall : eps < 2 ^ (-18 : ℤ))
    {d C : ℕ} {layers : List (ChannelScale.Layer K)} (hl : Shares per d C layers) (l : ChannelScale.Layer K) (hmem : l ∈ layers) :
    ∃ q, weightQuant (s per) eps layers l.weight = some q ∧ IsMinifloat std E M per d C layers (1 / 10 ^ 10) l.weight q := by
  have key : MinifloatSettings (s per) std E M per (1 / 10 ^ 10) ∧ (2 : K) ^ (-18 : ℤ) ≤ 2 ^ (1 - standardBias std E - M) / 2 := by
    rcases h with ⟨rfl, rfl, rfl, rfl⟩ | ⟨rfl, rfl, rfl, rfl⟩ | ⟨rfl, rfl, rfl, rfl⟩ | ⟨rfl, rfl, rfl, rfl⟩
    · exact ⟨⟨rfl, rfl, rfl, rfl, by decide, rfl, rfl, rfl, Or.inl rfl, rfl, rfl, rfl⟩, by rw [show standardBias .ocp 4 = 7 from rfl]; norm_num⟩
    · exact ⟨⟨rfl, rfl, rfl, rfl, by decide, rfl, rfl, rfl, Or.inl rfl, rfl, rfl, rfl⟩, by rw [show standardBias .ocp 5 = 15 from rfl]; norm_num⟩
    · exact ⟨⟨rfl, rfl, rfl, rfl, by decide, rfl, rfl, rfl, Or.inl rfl, rfl, rfl, rfl⟩, by rw [show standardBias .fnuz 4 = 8 from rfl]; norm_num⟩
    · exact ⟨⟨rfl, rfl, rfl, rfl, by decide, rfl, rfl, rfl, Or.inl rfl, rfl, rfl, rfl⟩, by rw [show standardBias .fnuz 5 = 16 from rfl]; norm_num⟩
  exact C109_minifloat key.1 (by positivity) he (hsmall.trans_le key.2) hl l hmem

/-- What a result says of the settings. -/
theorem fields_of {s : FloatPreset.Settings K} {eps : K} {layers : List (ChannelScale.Layer K)} {w : NdTensor K} {q : FloatWeight K} (h : weightQuant s eps layers w = some q) :
    q.E = s.E ∧ q.M = s.M ∧ q.bias = s.exponentBias ∧ q.infValues = s.infValues ∧ q.nanValues = s.nanValues ∧ q.signed = s.signed ∧ q.saturating = s.saturating ∧
      s.bitWidth = s.E + s.M + (if s.signed then 1 else 0) ∧ s.E ≠ 0 ∧ s.M ≠ 0 := by
  rw [weightQuant] at h
  split at h
  · simp only [Option.bind_eq_some_iff, Option.map_eq_some_iff, Settings.cfg] at h
    obtain ⟨c, ⟨f, -, mx, -, hc⟩, st, -, y, -, rfl⟩ := h
    split at hc
    · rename_i hv
      obtain rfl := Option.some.inj hc
      simp only [FloatCfg.valid, Bool.and_eq_true, decide_eq_true_eq, beq_iff_eq, bne_iff_ne] at hv
      refine ⟨rfl, rfl, rfl, rfl, rfl, rfl, rfl, ?_⟩
      cases hs : s.signed <;> simp_all
    · simp at hc
  · simp at h

/-- C109: a weight is taken for an OCP or FNUZ number by the exporters exactly if its quantiser has that standard and one of its 8-bit formats, unless the bias was overridden. -/
theorem C109_recognised {s : FloatPreset.Settings K} (hb : s.bias = none) {eps : K} {layers : List (ChannelScale.Layer K)} {w : NdTensor K} {q : FloatWeight K}
    (h : weightQuant s eps layers w = some q) :
    (q.isOcp = true ↔ s.standard = .ocp ∧ s.signed = true ∧ (s.E = 4 ∧ s.M = 3 ∨ s.E = 5 ∧ s.M = 2)) ∧
    (q.isFnuz = true ↔ s.standard = .fnuz ∧ (s.E = 4 ∧ s.M = 3 ∨ s.E = 5 ∧ s.M = 2)) := by
  obtain ⟨h1, h2, h3, h4, h5, h6, -, h7, -, -⟩ := fields_of h
  simp only [FloatWeight.isOcp, FloatWeight.isFnuz, h1, h2, h3, h4, h5, Settings.infValues, Settings.nanValues, Settings.exponentBias, hb, Bool.or_eq_true, Bool.and_eq_true, beq_iff_eq]
  rcases s with ⟨std, sc, bw, E, M, bias, sg, sat, r, per, mv⟩
  dsimp only at *
  clear h h1 h2 h3 h4 h5 h6
  by_cases hA : E = 4 ∧ M = 3
  · obtain ⟨rfl, rfl⟩ := hA
    cases std <;> cases sg <;> simp [h7]
  by_cases hB : E = 5 ∧ M = 2
  · obtain ⟨rfl, rfl⟩ := hB
    cases std <;> cases sg <;> simp [h7]
  have hA' : ¬ (M = 3 ∧ E = 4) := fun h => hA h.symm
  have hB' : ¬ (M = 2 ∧ E = 5) := fun h => hB h.symm
  simp [hA, hB, hA', hB', and_assoc]

/-- C109: widths that do not add up raise, and so do empty fields. -/
theorem C109_width_mismatch_raises (s : FloatPreset.Settings K) (h : s.bitWidth ≠ s.E + s.M + (if s.signed then 1 else 0) ∨ s.E = 0 ∨ s.M = 0) (eps : K)
    (layers : List (ChannelScale.Layer K)) (w : NdTensor K) : weightQuant s eps layers w = none := by
  by_contra hq
  obtain ⟨q, hq⟩ := Option.ne_none_iff_exists'.1 hq
  obtain ⟨-, -, -, -, -, -, -, h7, h8, h9⟩ := fields_of hq
  tauto

/-! ### Examples -/

/-- The finite quantised values and the scales. -/
def Sample.minifloat (q : Option (FloatWeight ℚ)) : Option (List (XF ℚ) × List ℚ) := q.map fun q => (q.value.elems, q.scale.elems)

example : ∃ q, weightQuant (fp8e4m3OCPWeight .channel) (2 ^ (-126 : ℤ)) [Sample.linear [[448, -3], [1 / 2, 7 / 10]]] (Sample.linear [[448, -3], [1 / 2, 7 / 10]]).weight = some q ∧
    IsMinifloat .ocp 4 3 .channel 0 2 [Sample.linear [[448, -3], [1 / 2, 7 / 10]]] (1 / 10 ^ 10) (Sample.linear [[448, -3], [1 / 2, 7 / 10]]).weight q :=
  C109_shipped (Or.inl ⟨rfl, rfl, rfl, rfl⟩) _ (by norm_num) (by norm_num) (Sample.linear_shares _ _) _ (List.mem_singleton.2 rfl)

example : Sample.minifloat (weightQuant (fp8e4m3OCPWeight .channel) (2 ^ (-126 : ℤ)) [Sample.linear [[448, 19], [450, 896]]] (Sample.linear [[448, 19], [450, 896]]).weight) =
    some ([.fin 448, .fin 20, .fin 448, .fin 896], [1, 2]) := by decide +kernel

example : Sample.minifloat (weightQuant (fp8e4m3FNUZWeight .tensor) (2 ^ (-126 : ℤ)) [Sample.linear [[480, 19], [450, -480]]] (Sample.linear [[480, 19], [450, -480]]).weight) =
    some ([.fin 480, .fin 20, .fin 448, .fin (-480)], [2]) := by decide +kernel

/-- A 4-bit OCP format, whose codes are all numbers. -/
example : ∃ q, weightQuant (base .ocp true 4 2 1 .tensor) (2 ^ (-126 : ℤ)) [Sample.linear [[6, -3], [1, 5 / 2]]] (Sample.linear [[6, -3], [1, 5 / 2]]).weight = some q ∧
    IsMinifloat .ocp 2 1 .tensor 0 2 [Sample.linear [[6, -3], [1, 5 / 2]]] (1 / 10 ^ 10) (Sample.linear [[6, -3], [1, 5 / 2]]).weight q :=
  C109_minifloat (std := .ocp) (E := 2) (M := 1) ⟨rfl, rfl, rfl, rfl, by decide, rfl, rfl, rfl, Or.inl rfl, rfl, rfl, rfl⟩ (by norm_num) (by norm_num) (by rw [show standardBias .ocp 2 = 1 from rfl]; norm_num)
    (Sample.linear_shares _ _) _ (List.mem_singleton.2 rfl)

/-- C109, in half precision (smallest normal number `2 ^ -14`): E5M2 weights that are numbers of the format already, with scale 1, are changed. -/
theorem C109_half_precision_not_kept :
    FormatValue .ocp 5 2 (5 / 2 ^ 16 : ℚ) ∧ Sample.minifloat (weightQuant (fp8e5m2OCPWeight .tensor) (2 ^ (-14 : ℤ)) [Sample.linear [[57344, 5 / 2 ^ 16], [0, 0]]]
      (Sample.linear [[57344, 5 / 2 ^ 16], [0, 0]]).weight) = some ([.fin 57344, .fin (4 / 2 ^ 16), .fin 0, .fin 0], [1]) := by
  refine ⟨⟨1, 1, ⟨by norm_num, by norm_num, fun _ => ⟨by omega, by omega⟩⟩, Or.inl ?_⟩, by decide +kernel⟩
  rw [show standardBias .ocp 5 = 15 from rfl]; norm_num [Spec.floatValue]

/-- C109: the classes without scaling cannot quantise a weight: nothing provides the view of the input. -/
theorem C109_unscaled_raises (eps : K) (layers : List (ChannelScale.Layer K)) (w : NdTensor K) : weightQuant fp8e4m3OCPUnscaled eps layers w = none := rfl

/-- C109: with `exponent_bias` overridden the numbers are not those of OCP, yet the weight is taken for one: exporters write the OCP data type, whose bias is 7. -/
theorem C109_bias_not_recognised : ∃ q, weightQuant { fp8e4m3OCPWeight .tensor with bias := some 4 } (2 ^ (-126 : ℤ)) [Sample.linear [[3584, 3], [1, 0]]] (Sample.linear [[3584, 3], [1, 0]]).weight =
    some q ∧ q.isOcp = true ∧ q.bias = 4 ∧ q.value.elems = [.fin 3584, .fin 3, .fin 1, .fin 0] ∧ q.scale.elems = [1] ∧ ¬ FormatValue .ocp 4 3 (3584 : ℚ) := by
  refine ⟨_, rfl, by decide +kernel, by decide +kernel, by decide +kernel, by decide +kernel, fun h => ?_⟩
  have := C109_tops.1.2 h
  norm_num at this

end Brevitas.Props
