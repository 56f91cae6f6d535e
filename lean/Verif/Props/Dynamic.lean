import Verif.Lemmas.Dynamic
import Verif.Props.Generative

/-!
# C113: dynamic quantisation of inputs in the LLM and diffusion flows
-/

set_option linter.unusedSectionVars false

/-- The scale of an element. -/
def Brevitas.Dynamic.Out.scaleAt {K : Type*} (q : Brevitas.Dynamic.Out K) (idx : List ℕ) : K := q.scale.data (Brevitas.NdTensor.bcIndex q.scale.shape idx)

/-- The zero point of an element. -/
def Brevitas.Dynamic.Out.zeroPointAt {K : Type*} (q : Brevitas.Dynamic.Out K) (idx : List ℕ) : Brevitas.XF K := q.zeroPoint.data (Brevitas.NdTensor.bcIndex q.zeroPoint.shape idx)

namespace Brevitas.Props

open Brevitas NdTensor Generative Brevitas.Dynamic
open Brevitas.Spec (Sharing)
open Brevitas.SubTensor (broadcasts_refl broadcasts_iff)
open Brevitas.Combine (bcIndex_bcIndex)

section Generic

variable {K : Type*} [Field K] [LinearOrder K] [IsStrictOrderedRing K] [FloorRing K]

/-- Among the elements that share the scale of the one at `idx`, one is not negative and one is not 0. -/
def Spans (g : Sharing) (x : NdTensor K) (idx : List ℕ) : Prop := (∃ y ∈ g.mates x idx, 0 ≤ y) ∧ ∃ y ∈ g.mates x idx, y ≠ 0

/-- What "int, dynamic, sym, `b` bits" promises: signed codes on `b` bits, no zero point, a scale for the elements that share one, from the distance between the largest of them and the
smallest or 0; every element within one scale of its quantised value, within half of one unless it is above the last half step of the positive codes. -/
structure IsDynamicSymmetric (g : Sharing) (b : ℕ) (x : NdTensor K) (q : Dynamic.Out K) : Prop where
  shape : q.value.shape = x.shape
  scale_shape : q.scale.shape = g.shape x.shape
  bits : q.bitWidth = b
  signed : q.signed = true
  zero : q.zeroPoint.shape = [] ∧ ∀ idx, q.zeroPoint.data idx = .fin 0
  scale : ∀ idx, InBounds x.shape idx → ∃ lo hi, IsLeast {y | y ∈ g.mates x idx} lo ∧ IsGreatest {y | y ∈ g.mates x idx} hi ∧ q.scaleAt idx = |hi - min lo 0| / 2 ^ (b - 1)
  value : ∀ idx, InBounds x.shape idx → Spans g x idx → ∃ n : ℤ, -2 ^ (b - 1) ≤ n ∧ n ≤ 2 ^ (b - 1) - 1 ∧ q.value.data idx = .fin (n * q.scaleAt idx) ∧
    |n * q.scaleAt idx - x.data idx| ≤ q.scaleAt idx ∧
    (x.data idx ≤ (2 ^ (b - 1) - 1 / 2) * q.scaleAt idx → |n * q.scaleAt idx - x.data idx| ≤ q.scaleAt idx / 2)

/-- What "int, dynamic, asym, `b` bits" promises: unsigned codes on `b` bits, and a zero point that is a code if it is quantised, and otherwise exactly the smallest element in scales; every
element within half a scale of its quantised value. -/
structure IsDynamicAsymmetric (z : Bool) (g : Sharing) (b : ℕ) (x : NdTensor K) (q : Dynamic.Out K) : Prop where
  shape : q.value.shape = x.shape
  scale_shape : q.scale.shape = g.shape x.shape
  zero_shape : q.zeroPoint.shape = g.shape x.shape
  bits : q.bitWidth = b
  signed : q.signed = false
  value : ∀ idx, InBounds x.shape idx → ∃ lo hi, IsLeast {y | y ∈ g.mates x idx} lo ∧ IsGreatest {y | y ∈ g.mates x idx} hi ∧ q.scaleAt idx = |hi - min lo 0| / (2 ^ b - 1) ∧
    (Spans g x idx → ∃ (n : ℤ) (zp : K), 0 ≤ n ∧ n ≤ 2 ^ b - 1 ∧ q.zeroPointAt idx = .fin zp ∧ (z = false → zp = -min lo 0 / q.scaleAt idx) ∧
      (z = true → ∃ k : ℤ, zp = k ∧ 0 ≤ k ∧ k ≤ 2 ^ b - 1) ∧ q.value.data idx = .fin ((n - zp) * q.scaleAt idx) ∧ |(n - zp) * q.scaleAt idx - x.data idx| ≤ q.scaleAt idx / 2)

/-- The zero point from the two statistics. -/
def dynZero (a : Act) (v u : K) : XF K := if a.signed then .fin 0 else scaleShiftX a.cfg a.quantizeZeroPoint |u| (v / intScaling a.signed false a.bitWidth) a.bitWidth

/-- What a dynamic quantiser makes of an input, in terms of the elements that share a scale. -/
theorem run_mates (a : Act) (g : Sharing) (ha : a.rows = rowsOf g) {x : NdTensor K} (hx : g.Applies x.shape) :
    ∃ q, a.run x = some q ∧ q.value.shape = x.shape ∧ q.scale.shape = g.shape x.shape ∧ q.bitWidth = a.bitWidth ∧ q.signed = a.signed ∧
      (if a.signed then q.zeroPoint = ⟨[], fun _ => .fin 0⟩ else q.zeroPoint.shape = g.shape x.shape) ∧
      ∀ idx, InBounds x.shape idx → ∃ v u, absMinMax (g.mates x idx) = some v ∧ negativeMinOrZero (g.mates x idx) = some u ∧
        q.scaleAt idx = v / intScaling a.signed false a.bitWidth ∧ q.zeroPointAt idx = dynZero a v u ∧
        q.value.data idx = forwardX a.cfg (v / intScaling a.signed false a.bitWidth) (dynZero a v u) a.bitWidth (x.data idx) := by
  obtain ⟨st, h1, h2, h3, h4⟩ := statOf_mates absMinMax_isSome g hx
  obtain ⟨zt, k1, k2, k3, k4⟩ := statOf_mates negativeMin_isSome g hx
  set sc : NdTensor K := st.map fun v => v / intScaling a.signed false a.bitWidth with hsc
  have hscs : sc.shape = st.shape := rfl
  have hb1 : bcShape x.shape sc.shape = some x.shape := bcShape_of_broadcasts h3
  rcases Bool.eq_false_or_eq_true a.signed with hs | hs
  · refine ⟨⟨⟨x.shape, fun idx => forwardX a.cfg (sc.data (bcIndex sc.shape idx)) (.fin 0) a.bitWidth (x.data (bcIndex x.shape idx))⟩, sc, ⟨[], fun _ => .fin 0⟩, a.bitWidth, a.signed⟩, ?_, rfl,
      h2, rfl, rfl, by rw [if_pos hs], fun idx hi => ⟨_, _, h4 idx hi, k4 idx hi, rfl, ?_, ?_⟩⟩
    · have hz : a.zeroPoint x sc = some ⟨[], fun _ => .fin 0⟩ := by rw [Act.zeroPoint, if_pos hs]
      simp only [Act.run, ha, h1, Option.bind_some, ← hsc, hz, hb1, bcShape_of_broadcasts (broadcasts_nil _), Option.map_some]
    · rw [dynZero, if_pos hs]; rfl
    · simp only [bcIndex_inBounds hi, dynZero, if_pos hs]; rfl
  · have hb2 : bcShape zt.shape sc.shape = some zt.shape := bcShape_of_broadcasts (by rw [hscs, h2, ← k2]; exact broadcasts_refl _)
    have hz : a.zeroPoint x sc = some ⟨zt.shape, fun idx => scaleShiftX a.cfg a.quantizeZeroPoint |zt.data (bcIndex zt.shape idx)| (sc.data (bcIndex sc.shape idx)) a.bitWidth⟩ := by
      simp only [Act.zeroPoint, hs, Bool.false_eq_true, if_false, ha, k1, Option.bind_some, hb2, Option.map_some]
    have hlen : ∀ idx, InBounds x.shape idx → st.shape.length ≤ idx.length := fun idx hi => by rw [hi.length]; exact ((broadcasts_iff _ _).1 h3).1
    have hzat : ∀ idx, InBounds x.shape idx → scaleShiftX a.cfg a.quantizeZeroPoint |zt.data (bcIndex zt.shape (bcIndex zt.shape idx))| (sc.data (bcIndex sc.shape (bcIndex zt.shape idx))) a.bitWidth =
        dynZero a (st.data (bcIndex st.shape idx)) (zt.data (bcIndex zt.shape idx)) := by
      intro idx hi
      have he : zt.shape = st.shape := k2.trans h2.symm
      rw [hscs, he, bcIndex_bcIndex (broadcasts_refl _) (hlen idx hi), dynZero, if_neg (by simp [hs])]
      rfl
    refine ⟨_, by simp only [Act.run, ha, h1, Option.bind_some, ← hsc, hz, hb1, bcShape_of_broadcasts k3, Option.map_some]; rfl, rfl, h2, rfl, rfl, ?_, fun idx hi => ⟨_, _, h4 idx hi, k4 idx hi, rfl, ?_, ?_⟩⟩
    · rw [if_neg (by simp [hs])]; exact k2
    · exact hzat idx hi
    · simp only [bcIndex_inBounds hi, hzat idx hi]; rfl

theorem self_mate (g : Sharing) {x : NdTensor K} (hx : g.Applies x.shape) {idx : List ℕ} (hi : InBounds x.shape idx) : x.data idx ∈ g.mates x idx := by
  cases g with
  | tensor => exact List.mem_map.2 ⟨idx, (mem_indices _ _).2 hi, rfl⟩
  | row =>
    have hne : x.shape ≠ [] := hx.2
    have hne' : idx ≠ [] := by rintro rfl; have := hi.length; simp at this; exact hne (List.length_eq_zero_iff.1 this.symm)
    refine List.mem_map.2 ⟨idx.getLast hne', List.mem_range.2 ?_, by rw [List.dropLast_append_getLast hne']⟩
    have := List.forall₂_iff_get.1 hi
    have h1 := this.2 (idx.length - 1) (by have := List.length_pos_iff.2 hne'; omega) (by have := List.length_pos_iff.2 hne'; rw [← hi.length]; omega)
    rw [List.getLast_eq_getElem, List.getLastD_eq_getLast?, List.getLast?_eq_getElem?, List.getElem?_eq_getElem (by have := List.length_pos_iff.2 hne; omega)]
    simpa [hi.length] using h1
  | column =>
    obtain ⟨a, n, c, hs⟩ : ∃ a n c, x.shape = [a, n, c] := by
      match hs : x.shape, hx.2 with
      | [a, n, c], _ => exact ⟨a, n, c, rfl⟩
    rw [hs] at hi
    match idx, hi with
    | [i, j, k], hi =>
      obtain ⟨-, hi'⟩ := List.forall₂_cons.1 hi
      exact List.mem_map.2 ⟨j, by rw [hs]; exact List.mem_range.2 (List.forall₂_cons.1 hi').1, rfl⟩

theorem spans_pos {S : List K} {lo hi : K} (hlo : IsLeast {y | y ∈ S} lo) (hhi : IsGreatest {y | y ∈ S} hi) (h1 : ∃ y ∈ S, 0 ≤ y) (h2 : ∃ y ∈ S, y ≠ 0) :
    0 ≤ hi ∧ 0 < hi - min lo 0 ∧ ∀ y ∈ S, |y| ≤ hi - min lo 0 := by
  obtain ⟨y, hy, hy0⟩ := h1
  have hh : 0 ≤ hi := hy0.trans (hhi.2 hy)
  refine ⟨hh, ?_, fun y hy => ?_⟩
  · obtain ⟨y, hy, hne⟩ := h2
    rcases lt_or_gt_of_ne hne with h | h
    · have := min_le_left lo 0
      have := hlo.2 hy
      linarith
    · have := hhi.2 hy
      have := min_le_right lo 0
      linarith
  · have h3 := hhi.2 hy
    have h4 := hlo.2 hy
    have := min_le_left lo 0
    have := min_le_right lo 0
    rw [abs_le]; constructor <;> linarith

/-- C113, symmetric: for every width from 1 bit and every input. -/
theorem C113_symmetric (a : Act) (g : Sharing) (ha : a.rows = rowsOf g) (hs : a.signed = true) (hb : 1 ≤ a.bitWidth) {x : NdTensor K} (hx : g.Applies x.shape) :
    ∃ q, a.run x = some q ∧ IsDynamicSymmetric g a.bitWidth x q := by
  obtain ⟨q, hq, h1, h2, h3, h4, h5, h6⟩ := run_mates a g ha hx
  rw [hs, if_pos rfl] at h5
  have hT : (intScaling true false a.bitWidth : K) = 2 ^ (a.bitWidth - 1) := by rw [intScaling_signed_full hb]; push_cast; ring
  have hTp : (0 : K) < 2 ^ (a.bitWidth - 1) := by positivity
  have hcfg : (a.cfg : IntQuantCfg K) = ⟨true, false, torchRound⟩ := by rw [Act.cfg, hs]
  refine ⟨q, hq, h1, h2, h3, h4.trans hs, ⟨by rw [h5], fun _ => by rw [h5]⟩, fun idx hi => ?_, fun idx hi hsp => ?_⟩
  · obtain ⟨v, u, hv, hu, k1, -, -⟩ := h6 idx hi
    obtain ⟨lo, hi', e1, e2, e3, -⟩ := extremes_of (S := {y | y ∈ g.mates x idx}) (fun _ => Iff.rfl) (fun _ => Iff.rfl) hv hu
    exact ⟨lo, hi', e1, e2, by rw [k1, hs, hT, e3]⟩
  · obtain ⟨v, u, hv, hu, k1, -, k3⟩ := h6 idx hi
    obtain ⟨lo, hi', e1, e2, e3, -⟩ := extremes_of (S := {y | y ∈ g.mates x idx}) (fun _ => Iff.rfl) (fun _ => Iff.rfl) hv hu
    obtain ⟨p1, p2, p3⟩ := spans_pos e1 e2 hsp.1 hsp.2
    have hself := abs_le.1 (p3 _ (self_mate g hx hi))
    rw [abs_of_pos p2] at e3
    rw [hs, hT] at k1 k3
    rw [← k1] at k3
    set s := q.scaleAt idx with hsdef
    have hsv : hi' - min lo 0 = 2 ^ (a.bitWidth - 1) * s := by rw [k1, ← e3, mul_div_cancel₀ _ hTp.ne']
    have hspos : 0 < s := by rw [k1, e3]; exact div_pos p2 hTp
    rw [hsv] at hself
    have hz : dynZero a v u = .fin 0 := by rw [dynZero, hs]; rfl
    rw [hz, hcfg, forwardX_fin _ hspos.ne'] at k3
    have hcode : (⟨true, false, torchRound⟩ : IntQuantCfg K).forward s 0 a.bitWidth (x.data idx) = (code true false a.bitWidth (torchRound (x.data idx / s + 0)) : ℤ) * s := by
      simp only [IntQuantCfg.forward]; rw [toInt_eq_code _ _ _ hb]; simp
    have hc := code_isCode true false hb (torchRound (x.data idx / s + 0))
    have half : x.data idx ≤ (2 ^ (a.bitWidth - 1) - 1 / 2) * s → |(code true false a.bitWidth (torchRound (x.data idx / s + 0)) : ℤ) * s - x.data idx| ≤ s / 2 := by
      intro hle
      rw [← hcode]
      exact full_half hb hspos hself.1 hle
    refine ⟨_, by simpa [_root_.Spec.lo] using hc.1, by simpa [_root_.Spec.hi] using hc.2, by rw [k3, hcode], ?_, half⟩
    by_cases hh : x.data idx ≤ (2 ^ (a.bitWidth - 1) - 1 / 2) * s
    · linarith [half hh]
    · push Not at hh
      have h1 : (1 : ℤ) ≤ 2 ^ (a.bitWidth - 1) := one_le_pow₀ (by norm_num)
      have hc : _root_.Spec.IsCode true false a.bitWidth (2 ^ (a.bitWidth - 1) - 1) := ⟨by simp only [_root_.Spec.lo, if_true, Bool.false_eq_true, if_false]; omega, by simp [_root_.Spec.hi]⟩
      rw [← hcode]
      refine (code_near hb hspos hc).trans ?_
      push_cast
      rw [abs_le]; constructor <;> nlinarith [hself.2]

/-- C113, asymmetric: for every width from 1 bit, with the zero point quantised or not, and every input. -/
theorem C113_asymmetric (a : Act) (g : Sharing) (ha : a.rows = rowsOf g) (hs : a.signed = false) (hb : 1 ≤ a.bitWidth) {x : NdTensor K} (hx : g.Applies x.shape) :
    ∃ q, a.run x = some q ∧ IsDynamicAsymmetric a.quantizeZeroPoint g a.bitWidth x q := by
  obtain ⟨q, hq, h1, h2, h3, h4, h5, h6⟩ := run_mates a g ha hx
  rw [hs, if_neg (by simp)] at h5
  have hT : (intScaling false false a.bitWidth : K) = 2 ^ a.bitWidth - 1 := by rw [intScaling_unsigned _ hb]; simp [_root_.Spec.hi]
  have hTp : (0 : K) < 2 ^ a.bitWidth - 1 := shifted_pos hb
  have hcfg : (a.cfg : IntQuantCfg K) = ⟨false, false, torchRound⟩ := by rw [Act.cfg, hs]
  refine ⟨q, hq, h1, h2, h5, h3, h4.trans hs, fun idx hi => ?_⟩
  obtain ⟨v, u, hv, hu, k1, k2, k3⟩ := h6 idx hi
  obtain ⟨lo, hi', e1, e2, e3, e4⟩ := extremes_of (S := {y | y ∈ g.mates x idx}) (fun _ => Iff.rfl) (fun _ => Iff.rfl) hv hu
  rw [hs, hT] at k1 k3
  refine ⟨lo, hi', e1, e2, by rw [k1, e3], fun hsp => ?_⟩
  obtain ⟨p1, p2, p3⟩ := spans_pos e1 e2 hsp.1 hsp.2
  have hmem := self_mate g hx hi
  rw [abs_of_pos p2] at e3
  have hz : dynZero a v u = scaleShiftX a.cfg a.quantizeZeroPoint |u| (q.scaleAt idx) a.bitWidth := by rw [dynZero, hs, if_neg (by simp), hT, k1]
  rw [← k1] at k3
  set s := q.scaleAt idx with hsdef
  have hspos : 0 < s := by rw [k1, e3]; exact div_pos p2 hTp
  have hge : (hi' - min lo 0) / (2 ^ a.bitWidth - 1) ≤ s := by rw [k1, e3]
  rw [e4] at k2 k3
  rw [hcfg, scaleShiftX_fin _ hspos.ne', e4, abs_of_nonpos (min_le_right _ _)] at hz
  change dynZero a v (min lo 0) = .fin (statsZeroPoint ⟨false, false, torchRound⟩ a.quantizeZeroPoint (min lo 0) s a.bitWidth) at hz
  rw [hz] at k2
  rw [hz, hcfg, forwardX_fin _ hspos.ne'] at k3
  set zp := statsZeroPoint (⟨false, false, torchRound⟩ : IntQuantCfg K) a.quantizeZeroPoint (min lo 0) s a.bitWidth with hzp
  have hfwd : (⟨false, false, torchRound⟩ : IntQuantCfg K).forward s zp a.bitWidth (x.data idx) = ((code false false a.bitWidth (torchRound (x.data idx / s + zp)) : ℤ) - zp) * s := by
    simp only [IntQuantCfg.forward]; rw [toInt_eq_code _ _ _ hb]
  have hc := code_isCode false false hb (torchRound (x.data idx / s + zp))
  refine ⟨_, zp, by simpa [_root_.Spec.lo] using hc.1, by simpa [_root_.Spec.hi] using hc.2, k2, fun hf => ?_, fun ht => ?_, by rw [k3, hfwd], ?_⟩
  · rw [hzp, hf]; simp [statsZeroPoint, scaleShiftZeroPoint, IntQuantCfg.minInt, Brevitas.minInt]
  · refine ⟨code false false a.bitWidth (torchRound (-min lo 0 / s + (⟨false, false, torchRound⟩ : IntQuantCfg K).minInt a.bitWidth)), ?_, ?_⟩
    · rw [hzp, ht]
      simp only [statsZeroPoint, scaleShiftZeroPoint, if_true]
      rw [toInt_eq_code _ _ _ hb]
    · have := code_isCode false false hb (torchRound (-min lo 0 / s + (⟨false, false, torchRound⟩ : IntQuantCfg K).minInt a.bitWidth))
      exact ⟨by simpa [_root_.Spec.lo] using this.1, by simpa [_root_.Spec.hi] using this.2⟩
  · rw [← hfwd]
    cases hqz : a.quantizeZeroPoint
    · rw [hzp, hqz]
      exact offset_near hb hspos hge ((min_le_left _ _).trans (e1.2 hmem)) (e2.2 hmem)
    · rw [hzp, hqz]
      exact shifted_near hb hspos (min_le_right _ _) p1 hge ((min_le_left _ _).trans (e1.2 hmem)) (e2.2 hmem)

/-- C113: what an element becomes depends only on the elements that share its scale: two inputs, of any shapes, that agree on them give it the same value, scale and zero point. In
particular rows are quantised the same alone and in every batch. -/
theorem C113_alone (a : Act) (g : Sharing) (ha : a.rows = rowsOf g) {x x' : NdTensor K} (hx : g.Applies x.shape) (hx' : g.Applies x'.shape) {q q' : Dynamic.Out K} (hq : a.run x = some q)
    (hq' : a.run x' = some q') {idx idx' : List ℕ} (hi : InBounds x.shape idx) (hi' : InBounds x'.shape idx') (hm : g.mates x idx = g.mates x' idx') (he : x.data idx = x'.data idx') :
    q.value.data idx = q'.value.data idx' ∧ q.scaleAt idx = q'.scaleAt idx' ∧ q.zeroPointAt idx = q'.zeroPointAt idx' := by
  obtain ⟨r, hr, -, -, -, -, -, h⟩ := run_mates a g ha hx
  obtain ⟨r', hr', -, -, -, -, -, h'⟩ := run_mates a g ha hx'
  obtain rfl := Option.some.inj (hr.symm.trans hq)
  obtain rfl := Option.some.inj (hr'.symm.trans hq')
  obtain ⟨v, u, a1, a2, a3, a4, a5⟩ := h idx hi
  obtain ⟨v', u', b1, b2, b3, b4, b5⟩ := h' idx' hi'
  rw [hm] at a1 a2
  obtain rfl := Option.some.inj (a1.symm.trans b1)
  obtain rfl := Option.some.inj (a2.symm.trans b2)
  exact ⟨by rw [a5, b5, he], by rw [a3, b3], by rw [a4, b4]⟩

/-! ### The options of the flows -/

/-- Inputs are to be quantised to integers of `b` bits with dynamic scales in floating point from statistics. -/
structure DynamicOptions (a : Args K) (b : ℕ) (granularity type : String) (z : Bool) : Prop where
  bits : a.inputBitWidth = .nat b
  format : a.inputQuantFormat = .str "int"
  precision : a.inputScalePrecision = .str "float_scale"
  dynamic : a.inputScaleType = .str "dynamic"
  method : a.inputParamMethod = .str "stats"
  granularity : a.inputQuantGranularity = .str granularity
  type : a.inputQuantType = .str type
  zero : a.quantizeInputZeroPoint = .bool z
  kwargs : a.inputKwargs = .none

theorem generate_dynamic {a : Args K} {b : ℕ} {granularity type c cs : String} {z : Bool} (h : DynamicOptions a b granularity type z) {w : WeightQuant K} (hw : generateWeight a = some w)
    (hc : inputMap.lookup ("int", "dynamic", "float_scale", "stats", granularity, type) = some c) (hcs : inputMap.lookup ("int", "dynamic", "float_scale", "stats", granularity, "sym") = some cs) :
    generate a = some ⟨some (dynamicLet a .identity (-1) (inputLet a none .none c)), w, some (dynamicLet a .unset 2 (inputLet a none .none c)), some (dynamicLet a .identity 2 (inputLet a none .none cs)),
      some (dynamicLet a (.permuted [0, 2, 1]) 1 (inputLet a none .none cs)), some (dynamicLet a .identity 2 (inputLet a none .none cs)), some (dynamicLet a .identity 2 (inputLet a none .none cs))⟩ := by
  have hf : ∃ f, a.weightQuantFormat.key = some f := by
    rw [generateWeight, Option.bind_eq_some_iff] at hw
    exact ⟨_, hw.choose_spec.1⟩
  obtain ⟨f, hf⟩ := hf
  have hp : parseFormat "int" = (none, "int") := by decide +kernel
  have h1 : inputClass a "int" a.inputQuantType = some c := by simp only [inputClass, h.dynamic, h.precision, h.method, h.granularity, h.type, Arg.key, Option.bind_some, hc]
  have h2 : inputClass a "int" (.str "sym") = some cs := by simp only [inputClass, h.dynamic, h.precision, h.method, h.granularity, Arg.key, Option.bind_some, hcs]
  have hi : a.inputQuantFormat.key = some "int" := by rw [h.format]; rfl
  have hn : a.inputBitWidth.isNone = false := by rw [h.bits]; rfl
  rw [generate, hf, Option.bind_some, hi, Option.bind_some, hw, Option.bind_some, if_neg (by rw [hn]; simp), h.dynamic]
  simp only [hp, h1, h2, Option.bind_some, h.kwargs, Arg.kwargs, Option.map_some]
  rfl

/-- C113: with scales per tensor, every input quantiser has one scale per tensor; inputs of layers are of the type given, and queries, keys, values and attention weights symmetric. -/
theorem C113_options_per_tensor {a : Args K} {b : ℕ} {type : String} {z : Bool} (h : DynamicOptions a b "per_tensor" type z) (ht : type = "sym" ∨ type = "asym") (hw : (generateWeight a).isSome) :
    ∃ r, generate a = some r ∧ r.linearInput.bind build = some ⟨type == "sym", z, b, rowsOf .tensor⟩ ∧ r.input.bind build = some ⟨type == "sym", z, b, rowsOf .tensor⟩ ∧
      ∀ q ∈ [r.qScaled, r.kTransposed, r.v, r.attnOutputWeights], q.bind build = some ⟨true, z, b, rowsOf .tensor⟩ := by
  obtain ⟨w, hw⟩ := Option.isSome_iff_exists.1 hw
  rcases ht with rfl | rfl
  · refine ⟨_, generate_dynamic h hw (c := "Int8DynamicActPerTensorFloat") (cs := "Int8DynamicActPerTensorFloat") (by decide) (by decide), ?_, ?_, ?_⟩ <;>
      simp [dynamicLet, inputLet, build, h.bits, h.zero, h.dynamic, h.granularity, rowsOf]
  · refine ⟨_, generate_dynamic h hw (c := "ShiftedUint8DynamicActPerTensorFloat") (cs := "Int8DynamicActPerTensorFloat") (by decide) (by decide), ?_, ?_, ?_⟩ <;>
      simp [dynamicLet, inputLet, build, h.bits, h.zero, h.dynamic, h.granularity, rowsOf]

/-- C113: with scales per row, inputs of linear layers have a scale per row and are of the type given; queries, values and attention weights have a scale per row and keys, which are
transposed, one per column, and they are symmetric. -/
theorem C113_options_per_row {a : Args K} {b : ℕ} {type : String} {z : Bool} (h : DynamicOptions a b "per_row" type z) (ht : type = "sym" ∨ type = "asym") (hw : (generateWeight a).isSome) :
    ∃ r, generate a = some r ∧ r.linearInput.bind build = some ⟨type == "sym", z, b, rowsOf .row⟩ ∧
      (∀ q ∈ [r.qScaled, r.v, r.attnOutputWeights], q.bind build = some ⟨true, z, b, rowsOf .row⟩) ∧ r.kTransposed.bind build = some ⟨true, z, b, rowsOf .column⟩ := by
  obtain ⟨w, hw⟩ := Option.isSome_iff_exists.1 hw
  rcases ht with rfl | rfl
  · refine ⟨_, generate_dynamic h hw (c := "Int8DynamicActPerRowFloat") (cs := "Int8DynamicActPerRowFloat") (by decide) (by decide), ?_, ?_, ?_⟩ <;>
      simp [dynamicLet, inputLet, build, h.bits, h.zero, h.dynamic, h.granularity, rowsOf]
  · refine ⟨_, generate_dynamic h hw (c := "ShiftedUint8DynamicActPerRowFloat") (cs := "Int8DynamicActPerRowFloat") (by decide) (by decide), ?_, ?_, ?_⟩ <;>
      simp [dynamicLet, inputLet, build, h.bits, h.zero, h.dynamic, h.granularity, rowsOf]

/-- Not so for the inputs of convolutions and attention: with scales per row, their quantiser cannot be built, because how rows are taken is never set. -/
theorem C113_input_per_row_raises {a : Args K} {b : ℕ} {type : String} {z : Bool} (h : DynamicOptions a b "per_row" type z) (ht : type = "sym" ∨ type = "asym") (hw : (generateWeight a).isSome) :
    ∃ r, generate a = some r ∧ r.input.isSome ∧ r.input.bind build = none := by
  obtain ⟨w, hw⟩ := Option.isSome_iff_exists.1 hw
  rcases ht with rfl | rfl
  · refine ⟨_, generate_dynamic h hw (c := "Int8DynamicActPerRowFloat") (cs := "Int8DynamicActPerRowFloat") (by decide) (by decide), rfl, ?_⟩
    simp [dynamicLet, inputLet, build, h.bits, h.zero, h.dynamic, h.granularity]
  · refine ⟨_, generate_dynamic h hw (c := "ShiftedUint8DynamicActPerRowFloat") (cs := "Int8DynamicActPerRowFloat") (by decide) (by decide), rfl, ?_⟩
    simp [dynamicLet, inputLet, build, h.bits, h.zero, h.dynamic, h.granularity]

/-- Elements that share a scale and are all 0 become NaN, in every input, for both types. -/
theorem C113_zeros_are_nan (a : Act) (g : Sharing) (ha : a.rows = rowsOf g) {x : NdTensor K} (hx : g.Applies x.shape) {q : Dynamic.Out K} (hq : a.run x = some q) {idx : List ℕ}
    (hi : InBounds x.shape idx) (h0 : ∀ y ∈ g.mates x idx, y = 0) : q.value.data idx = .nan := by
  obtain ⟨r, hr, -, -, -, -, -, h⟩ := run_mates a g ha hx
  obtain rfl := Option.some.inj (hr.symm.trans hq)
  obtain ⟨v, u, h1, h2, -, -, h3⟩ := h idx hi
  obtain ⟨lo, hi', e1, e2, e3, e4⟩ := extremes_of (S := {y | y ∈ g.mates x idx}) (fun _ => Iff.rfl) (fun _ => Iff.rfl) h1 h2
  have hx0 : x.data idx = 0 := h0 _ (self_mate g hx hi)
  have hv : v = 0 := by rw [e3, h0 _ e1.1, h0 _ e2.1]; simp
  rw [h3, hv, hx0]
  have hn : ∀ z : XF K, xadd .nan z = .nan := fun z => by cases z <;> rfl
  have hc : ∀ lo hi : K, xclamp lo hi (.nan : XF K) = .nan := fun lo hi => by simp [xclamp, XF.gt, XF.neg]
  simp [forwardX, toIntX, xdiv, hn, xround, hc, XF.mul]

/-- What a symmetric dynamic quantiser makes of elements that share a scale and are all further below 0 than apart: its scale comes from how far apart they are, and they all become that
distance below 0, whatever they were. -/
theorem C113_negatives_saturate (a : Act) (g : Sharing) (ha : a.rows = rowsOf g) (hs : a.signed = true) (hb : 1 ≤ a.bitWidth) {x : NdTensor K} (hx : g.Applies x.shape) {q : Dynamic.Out K}
    (hq : a.run x = some q) {idx : List ℕ} (hi : InBounds x.shape idx) {lo hi' : K} (hlo : IsLeast {y | y ∈ g.mates x idx} lo) (hhi : IsGreatest {y | y ∈ g.mates x idx} hi')
    (hne : lo < hi') (hfar : hi' ≤ -(hi' - lo)) : q.value.data idx = .fin (-(hi' - lo)) := by
  obtain ⟨r, hr, -, -, -, -, -, h⟩ := run_mates a g ha hx
  obtain rfl := Option.some.inj (hr.symm.trans hq)
  obtain ⟨v, u, h1, h2, -, -, h3⟩ := h idx hi
  obtain ⟨lo', hi'', e1, e2, e3, -⟩ := extremes_of (S := {y | y ∈ g.mates x idx}) (fun _ => Iff.rfl) (fun _ => Iff.rfl) h1 h2
  obtain rfl := e1.unique hlo
  obtain rfl := e2.unique hhi
  have hT : (intScaling true false a.bitWidth : K) = 2 ^ (a.bitWidth - 1) := by rw [intScaling_signed_full hb]; push_cast; ring
  have hTp : (0 : K) < 2 ^ (a.bitWidth - 1) := by positivity
  have hcfg : (a.cfg : IntQuantCfg K) = ⟨true, false, torchRound⟩ := by rw [Act.cfg, hs]
  have hz : dynZero a v u = .fin 0 := by rw [dynZero, hs]; rfl
  rw [min_eq_left (by linarith), abs_of_pos (by linarith)] at e3
  have hspos : 0 < v / 2 ^ (a.bitWidth - 1) := div_pos (by rw [e3]; linarith) hTp
  rw [hs, hT, hz, hcfg, forwardX_fin _ hspos.ne'] at h3
  have hle : x.data idx / (v / 2 ^ (a.bitWidth - 1)) + 0 ≤ ((-2 ^ (a.bitWidth - 1) : ℤ) : K) := by
    rw [add_zero, div_le_iff₀ hspos]
    push_cast
    rw [neg_mul, mul_div_cancel₀ _ hTp.ne']
    exact (e2.2 (self_mate g hx hi)).trans (by rw [e3]; exact hfar)
  have hround := torchRound_mono hle
  rw [torchRound_faithful.int] at hround
  have hlow : code true false a.bitWidth (torchRound (x.data idx / (v / 2 ^ (a.bitWidth - 1)) + 0)) = -2 ^ (a.bitWidth - 1) := by
    have : (0 : ℤ) < 2 ^ (a.bitWidth - 1) := by positivity
    simp only [code, _root_.Spec.lo, _root_.Spec.hi, if_true, Bool.false_eq_true, if_false]
    omega
  rw [h3]
  simp only [IntQuantCfg.forward]
  rw [toInt_eq_code _ _ _ hb, hlow, ← e3]
  push_cast
  rw [sub_zero, neg_mul, mul_div_cancel₀ _ hTp.ne']

end Generic

/-! ### Concrete cases -/

/-- A dynamic quantiser's output: values, scales, zero points. -/
def Sample.dynamicOut (q : Option (Dynamic.Out ℚ)) : Option (List ℕ × List (XF ℚ) × List ℚ × List (XF ℚ)) := q.map fun q => (q.value.shape, q.value.elems, q.scale.elems, q.zeroPoint.elems)

/-- Options for weights and dynamic inputs. -/
def Sample.dynamicOptions (K : Type*) (b : ℕ) (granularity type : String) (z : Bool) : Args K :=
  { Sample.options K 8 "int" "float_scale" "per_channel" "sym" with
    inputBitWidth := .nat b, inputQuantFormat := .str "int", inputScalePrecision := .str "float_scale", inputScaleType := .str "dynamic", inputParamMethod := .str "stats",
    inputQuantType := .str type, inputQuantGranularity := .str granularity, quantizeInputZeroPoint := .bool z, inputKwargs := .none }

theorem Sample.dynamicOptions_ok (K : Type*) (b : ℕ) (granularity type : String) (z : Bool) : DynamicOptions (Sample.dynamicOptions K b granularity type z) b granularity type z :=
  ⟨rfl, rfl, rfl, rfl, rfl, rfl, rfl, rfl, rfl⟩

/-- Two rows. -/
def Sample.twoRows (r1 r2 : ℚ × ℚ) : NdTensor ℚ := ⟨[2, 2], fun idx => match idx with
  | [0, 0] => r1.1
  | [0, _] => r1.2
  | [_, 0] => r2.1
  | _ => r2.2⟩

example : (Sharing.row).Applies (Sample.twoRows (-5, 3) (1 / 2, 1 / 4)).shape ∧ Spans .row (Sample.twoRows (-5, 3) (1 / 2, 1 / 4)) [1, 0] := by
  refine ⟨⟨by decide, by decide⟩, ⟨1 / 4, by decide +kernel, by norm_num⟩, 1 / 4, by decide +kernel, by norm_num⟩

example : ∃ q, (⟨true, true, 4, rowsOf .row⟩ : Act).run (Sample.twoRows (-5, 3) (1 / 2, 1 / 4)) = some q ∧ IsDynamicSymmetric .row 4 (Sample.twoRows (-5, 3) (1 / 2, 1 / 4)) q :=
  C113_symmetric ⟨true, true, 4, rowsOf .row⟩ .row rfl rfl (by decide) ⟨by decide, by decide⟩

/-- `1 / 2` is above the last half step of the positive codes: it is wrong by a whole scale. -/
example : Sample.dynamicOut ((⟨true, true, 4, rowsOf .row⟩ : Act).run (Sample.twoRows (-5, 3) (1 / 2, 1 / 4))) =
    some ([2, 2], [.fin (-5), .fin 3, .fin (7 / 16), .fin (1 / 4)], [1, 1 / 16], [.fin 0]) := by decide +kernel

example : ∃ q, (⟨false, true, 4, rowsOf .row⟩ : Act).run (Sample.twoRows (-5, 3) (1 / 2, 1 / 4)) = some q ∧ IsDynamicAsymmetric true .row 4 (Sample.twoRows (-5, 3) (1 / 2, 1 / 4)) q :=
  C113_asymmetric ⟨false, true, 4, rowsOf .row⟩ .row rfl rfl (by decide) ⟨by decide, by decide⟩

example : Sample.dynamicOut ((⟨false, true, 4, rowsOf .row⟩ : Act).run (Sample.twoRows (-5, 3) (1 / 2, 1 / 4))) =
    some ([2, 2], [.fin (-24 / 5), .fin (16 / 5), .fin (1 / 2), .fin (4 / 15)], [8 / 15, 1 / 30], [.fin 9, .fin 0]) := by decide +kernel

example : Sample.dynamicOut ((⟨false, false, 4, rowsOf .tensor⟩ : Act).run (Sample.twoRows (-5, 3) (1 / 2, 1 / 4))) =
    some ([2, 2], [.fin (-5), .fin 3, .fin (1 / 3), .fin (1 / 3)], [8 / 15], [.fin (75 / 8)]) := by decide +kernel

/-- The second row of one input is the first of another: the hypotheses of `C113_alone` are met. -/
example : Sharing.row.mates (Sample.twoRows (-5, 3) (1 / 2, 1 / 4)) [1, 0] = Sharing.row.mates (Sample.twoRows (1 / 2, 1 / 4) (100, 7)) [0, 0] ∧
    Sample.dynamicOut ((⟨true, true, 4, rowsOf .row⟩ : Act).run (Sample.twoRows (1 / 2, 1 / 4) (100, 7))) =
      some ([2, 2], [.fin (7 / 16), .fin (1 / 4), .fin (175 / 2), .fin (25 / 2)], [1 / 16, 25 / 2], [.fin 0]) := by decide +kernel

example : ∃ r, generate (Sample.dynamicOptions ℚ 8 "per_tensor" "asym" false) = some r ∧ r.linearInput.bind build = some ⟨false, false, 8, rowsOf .tensor⟩ ∧
    r.input.bind build = some ⟨false, false, 8, rowsOf .tensor⟩ ∧ ∀ q ∈ [r.qScaled, r.kTransposed, r.v, r.attnOutputWeights], q.bind build = some ⟨true, false, 8, rowsOf .tensor⟩ :=
  C113_options_per_tensor (Sample.dynamicOptions_ok ℚ 8 "per_tensor" "asym" false) (Or.inr rfl) (by decide +kernel)

example : ∃ r, generate (Sample.dynamicOptions ℚ 8 "per_row" "asym" true) = some r ∧ r.linearInput.bind build = some ⟨false, true, 8, rowsOf .row⟩ ∧
    (∀ q ∈ [r.qScaled, r.v, r.attnOutputWeights], q.bind build = some ⟨true, true, 8, rowsOf .row⟩) ∧ r.kTransposed.bind build = some ⟨true, true, 8, rowsOf .column⟩ :=
  C113_options_per_row (Sample.dynamicOptions_ok ℚ 8 "per_row" "asym" true) (Or.inr rfl) (by decide +kernel)

example : ∃ r, generate (Sample.dynamicOptions ℚ 8 "per_row" "sym" true) = some r ∧ r.input.isSome ∧ r.input.bind build = none :=
  C113_input_per_row_raises (Sample.dynamicOptions_ok ℚ 8 "per_row" "sym" true) (Or.inl rfl) (by decide +kernel)

/-- A row of negative numbers and one of zeros; a row of equal negative numbers becomes 0. -/
example : Sample.dynamicOut ((⟨true, true, 4, rowsOf .row⟩ : Act).run (Sample.twoRows (-5, -49 / 10) (0, 0))) =
      some ([2, 2], [.fin (-1 / 10), .fin (-1 / 10), .nan, .nan], [1 / 80, 0], [.fin 0]) ∧
    Sample.dynamicOut ((⟨false, true, 4, rowsOf .row⟩ : Act).run (Sample.twoRows (-5, -49 / 10) (-5, -5))) =
      some ([2, 2], [.fin (-1 / 10), .fin (-1 / 10), .fin 0, .fin 0], [1 / 150, 0], [.fin 15, .fin 15]) :=
  ⟨by decide +kernel, by decide +kernel⟩

end Brevitas.Props
