import Verif.Model.ActLayer
import Verif.Props.Combine

/-!
# C104: quantised activation layers
-/

set_option linter.unusedSectionVars false

namespace Brevitas.Props

open Brevitas NdTensor QuantConv WbLayer
open Brevitas.ActLayer (ActImpl ActQuant relu noQuant quantReLU quantFn quantHardTanh quantIdentity)

variable {K : Type*} [Field K] [LinearOrder K] [IsStrictOrderedRing K] [FloorRing K]

/-! ### Specification -/

/-- The float activation, element by element; the clamp of a `Hardtanh` is written with `max` and `min`. -/
def floatAct : Option (ActImpl K) → K → K
  | none, x => x
  | some (.hardtanh minVal maxVal), x => min (max x minVal) maxVal
  | some (.fn f), x => f x

/-- The activation is not a `Hardtanh`. -/
def NoHardtanh (a : Option (ActImpl K)) : Prop := ∀ minVal maxVal, a ≠ some (.hardtanh minVal maxVal)

/-- A quantiser with a fixed scale `S` and zero point `Z`, one of the rounding functions of the library, and scales that are positive and broadcast to the shape. -/
structure StaticQuant (t : TensorQuant K) (S Z : NdTensor K) (shape : List ℕ) : Prop where
  scale : t.scale = fun _ => S
  zeroPoint : t.zeroPoint = fun _ => Z
  bits : 1 ≤ t.bitWidth
  rounds : Shipped t.cfg.floatToInt
  scale_shape : Broadcasts S.shape shape
  zero_shape : Broadcasts Z.shape shape
  scale_pos : ∀ idx, InBounds S.shape idx → 0 < S.data idx

/-- Two results agree: the same values in bounds, and the same metadata if they are quant tensors. -/
def Agree (a b : LayerOut K) : Prop :=
  (unpack a).shape = (unpack b).shape ∧ (∀ idx, InBounds (unpack b).shape idx → (unpack a).data idx = (unpack b).data idx) ∧
    match a, b with
    | .plain _, .plain _ => True
    | .quant q, .quant r => SameMeta q r
    | _, _ => False

/-! ### Unfolding -/

theorem actQuant_on {p : ActQuant K} {t : TensorQuant K} (ht : p.tensorQuant = some t) (he : p.enabled = true) (x : LayerOut K) :
    p.forward x = (t.run p.training (match p.actImpl with | some (.fn f) => (unpack x).map f | _ => unpack x)).map .quant := by
  obtain ⟨a, pa, tq, en, tr⟩ := p
  simp only at ht he
  subst ht he
  rcases a with _ | ⟨lo, hi⟩ | f <;> rfl

theorem actQuant_on_noHardtanh {p : ActQuant K} {t : TensorQuant K} (ht : p.tensorQuant = some t) (he : p.enabled = true) (hn : NoHardtanh p.actImpl) (x : LayerOut K) :
    p.forward x = (t.run p.training ((unpack x).map (floatAct p.actImpl))).map .quant := by
  rw [actQuant_on ht he]
  rcases h : p.actImpl with _ | ⟨lo, hi⟩ | f
  · rfl
  · exact absurd h (hn lo hi)
  · rfl

theorem actQuant_off {p : ActQuant K} (he : p.isEnabled = false) (hh : p.tensorQuant = none ∨ NoHardtanh p.actImpl) (x : LayerOut K) :
    ∃ y, p.forward x = .ok y ∧ unpack y = (unpack x).map (floatAct p.actImpl) ∧
      (isQuant y = true ↔ isQuant x = true ∧ (p.actImpl = none ∨ p.passthroughAct = true)) ∧
      (∀ q r, x = .quant q → y = .quant r → r.scale = q.scale ∧ r.zeroPoint = q.zeroPoint ∧ r.bitWidth = q.bitWidth ∧ r.signed = q.signed) := by
  obtain ⟨a, pa, tq, en, tr⟩ := p
  unfold ActQuant.isEnabled at he
  simp only at he hh
  have key : ∀ (u : ActLayer.Fused K), (⟨a, pa, tq, en, tr⟩ : ActQuant K).fused = some u → u.activate (unpack x) = (unpack x).map (floatAct a) →
      ∃ y, (⟨a, pa, tq, en, tr⟩ : ActQuant K).forward x = .ok y ∧ unpack y = (unpack x).map (floatAct a) ∧
      (isQuant y = true ↔ isQuant x = true ∧ (a = none ∨ pa = true)) ∧
      (∀ q r, x = .quant q → y = .quant r → r.scale = q.scale ∧ r.zeroPoint = q.zeroPoint ∧ r.bitWidth = q.bitWidth ∧ r.signed = q.signed) := by
    intro u hu hact
    unfold ActQuant.forward
    simp only [hu, ActQuant.isEnabled, he, Bool.false_eq_true, if_false, hact]
    cases hp : ActLayer.isPassthroughAct a pa with
    | false =>
      have hpa : ¬(a = none ∨ pa = true) := by
        rintro (h | h)
        · subst h; exact absurd hp (by simp [ActLayer.isPassthroughAct])
        · subst h; cases a <;> exact absurd hp (by simp [ActLayer.isPassthroughAct])
      refine ⟨_, rfl, rfl, ?_, fun _ _ _ h => by cases h⟩
      simp [isQuant, hpa]
    | true =>
      have hpa : a = none ∨ pa = true := by
        cases a with
        | none => exact Or.inl rfl
        | some a => exact Or.inr hp
      cases x with
      | plain v => exact ⟨_, rfl, rfl, by simp [isQuant], fun _ _ h => by cases h⟩
      | quant q => exact ⟨_, rfl, rfl, by simp [isQuant, hpa], fun q' r h1 h2 => by cases h1; cases h2; exact ⟨rfl, rfl, rfl, rfl⟩⟩
  cases tq with
  | none =>
    rcases a with _ | ⟨lo, hi⟩ | f
    · refine ⟨x, rfl, rfl, by simp, ?_⟩
      intro q r h1 h2
      rw [h1] at h2
      cases h2
      exact ⟨rfl, rfl, rfl, rfl⟩
    · exact key _ rfl rfl
    · exact key _ rfl rfl
  | some t =>
    rcases a with _ | ⟨lo, hi⟩ | f
    · exact key _ rfl rfl
    · exact absurd rfl (hh.resolve_left (by simp) lo hi)
    · exact key _ rfl rfl

theorem packOutput_quant (r : Bool) (q : ShapedQT K) : ∃ out, packOutput r (.quant q) = .ok out ∧ unpack out = q.value ∧ (r = true → out = .quant q) ∧ (r = false → out = .plain q.value) := by
  cases r
  · exact ⟨.plain q.value, rfl, rfl, by simp, fun _ => rfl⟩
  · exact ⟨.quant q, rfl, rfl, fun _ => rfl, by simp⟩

/-! ### With the quantiser on -/

/-- C104, codes: an activation layer whose quantiser is on returns the float activation of what reaches it (its input, or its quantised input), quantised: every element is a code of
the declared container, scaled, and the code is that of `to_int` for the float activation. -/
theorem C104_codes (l : ActLayer.Layer K) (t : TensorQuant K) (inp x : LayerOut K) (hx : l.inputQuant.forward inp = .ok x) (ht : l.actQuant.tensorQuant = some t)
    (he : l.actQuant.enabled = true) (hn : NoHardtanh l.actQuant.actImpl) (hb : 1 ≤ t.bitWidth)
    (hs : Broadcasts (t.scale ((unpack x).map (floatAct l.actQuant.actImpl))).shape (unpack x).shape)
    (hz : Broadcasts (t.zeroPoint ((unpack x).map (floatAct l.actQuant.actImpl))).shape (unpack x).shape)
    (hp : ∀ idx, InBounds (t.scale ((unpack x).map (floatAct l.actQuant.actImpl))).shape idx → 0 < (t.scale ((unpack x).map (floatAct l.actQuant.actImpl))).data idx) :
    ∃ (out : LayerOut K) (q : ShapedQT K) (n : List ℕ → ℤ), l.forward inp = .ok out ∧ unpack out = q.value ∧ (l.returnQuantTensor = true → out = .quant q) ∧
      (l.returnQuantTensor = false → out = .plain q.value) ∧ q.value.shape = (unpack x).shape ∧ q.bitWidth = t.bitWidth ∧ q.signed = t.cfg.signed ∧ HoldsCodes q n ∧
      ∀ idx, InBounds (unpack x).shape idx →
        (n idx : K) = t.cfg.toInt (stepOf t ((unpack x).map (floatAct l.actQuant.actImpl)) idx) (zeroOf t ((unpack x).map (floatAct l.actQuant.actImpl)) idx) t.bitWidth
          (floatAct l.actQuant.actImpl ((unpack x).data idx)) := by
  obtain ⟨q, n, hq, h1, h2, h3, h4, h5, h6, h7⟩ := C98_quantiser_codes (t := t) (x := (unpack x).map (floatAct l.actQuant.actImpl)) hb hs hz hp l.actQuant.training
  obtain ⟨out, ho, hv, hr, hr'⟩ := packOutput_quant l.returnQuantTensor q
  refine ⟨out, q, n, ?_, hv, hr, hr', h1, h4, h5, h6, h7⟩
  unfold ActLayer.Layer.forward
  rw [hx]
  simp only [Except.bind, actQuant_on_noHardtanh ht he hn, hq, Except.map]
  exact ho

/-- C104, error: where the float activation is in the range of the quantiser, the layer is within half a scale of it. -/
theorem C104_error_bound (l : ActLayer.Layer K) (t : TensorQuant K) (inp x out : LayerOut K) (hx : l.inputQuant.forward inp = .ok x) (ht : l.actQuant.tensorQuant = some t)
    (he : l.actQuant.enabled = true) (hn : NoHardtanh l.actQuant.actImpl) (hq : ProperQuant t ((unpack x).map (floatAct l.actQuant.actImpl)))
    (hr : InRange t ((unpack x).map (floatAct l.actQuant.actImpl))) (h : l.forward inp = .ok out) :
    (unpack out).shape = (unpack x).shape ∧ ∀ idx, InBounds (unpack x).shape idx →
      |(unpack out).data idx - floatAct l.actQuant.actImpl ((unpack x).data idx)| ≤ stepOf t ((unpack x).map (floatAct l.actQuant.actImpl)) idx / 2 := by
  obtain ⟨q, n, hrun, -⟩ := C98_quantiser_codes (t := t) (x := (unpack x).map (floatAct l.actQuant.actImpl)) hq.bits hq.scale_shape hq.zero_shape hq.scale_pos l.actQuant.training
  obtain ⟨o, ho, hv, -⟩ := packOutput_quant l.returnQuantTensor q
  have e : l.forward inp = .ok o := by
    unfold ActLayer.Layer.forward
    rw [hx]
    simp only [Except.bind, actQuant_on_noHardtanh ht he hn, hrun, Except.map]
    exact ho
  obtain rfl := Except.ok.inj (h.symm.trans e)
  rw [hv]
  exact run_half_step hq hr _ q hrun

theorem static_run {t : TensorQuant K} {S Z : NdTensor K} (tr : Bool) (x : NdTensor K) (h : StaticQuant t S Z x.shape) :
    t.run tr x = .ok ⟨⟨x.shape, fun idx => t.cfg.forward (S.data (bcIndex S.shape idx)) (Z.data (bcIndex Z.shape idx)) t.bitWidth (x.data (bcIndex x.shape idx))⟩, S, Z, t.bitWidth,
      t.cfg.signed, tr⟩ := by
  have := run_eq t tr x (by rw [h.scale]; exact h.scale_shape) (by rw [h.zeroPoint]; exact h.zero_shape)
  rw [this, h.scale, h.zeroPoint]

theorem static_agree {t : TensorQuant K} {S Z : NdTensor K} (tr r : Bool) (x y : NdTensor K) (h : StaticQuant t S Z x.shape) (hy : y.shape = x.shape)
    (hv : ∀ idx, InBounds x.shape idx → t.cfg.forward (S.data (bcIndex S.shape idx)) (Z.data (bcIndex Z.shape idx)) t.bitWidth (y.data idx) =
      t.cfg.forward (S.data (bcIndex S.shape idx)) (Z.data (bcIndex Z.shape idx)) t.bitWidth (x.data idx)) :
    ∃ a b, ((t.run tr y).map LayerOut.quant).bind (packOutput r) = .ok a ∧ ((t.run tr x).map LayerOut.quant).bind (packOutput r) = .ok b ∧ Agree a b := by
  rw [static_run tr x h, static_run tr y (hy ▸ h)]
  have hv' : ∀ idx, InBounds x.shape idx → t.cfg.forward (S.data (bcIndex S.shape idx)) (Z.data (bcIndex Z.shape idx)) t.bitWidth (y.data (bcIndex y.shape idx)) =
      t.cfg.forward (S.data (bcIndex S.shape idx)) (Z.data (bcIndex Z.shape idx)) t.bitWidth (x.data (bcIndex x.shape idx)) := by
    intro idx hi
    rw [bcIndex_inBounds hi, hy, bcIndex_inBounds hi]
    exact hv idx hi
  cases r
  · exact ⟨_, _, rfl, rfl, hy, hv', trivial⟩
  · exact ⟨_, _, rfl, rfl, hy, hv', rfl, rfl, rfl, rfl, rfl⟩

/-- C104, the ReLU of an unsigned quantiser: with an unsigned quantiser of zero point zero, `QuantReLU` computes what `QuantIdentity` with that quantiser computes: negative values are
clamped to zero in both. -/
theorem C104_relu_absorbed (t : TensorQuant K) (S Z : NdTensor K) (inp : LayerOut K) (h : StaticQuant t S Z (unpack inp).shape) (hu : t.cfg.signed = false)
    (hz : ∀ idx, InBounds Z.shape idx → Z.data idx = 0) (training r : Bool) :
    ∃ a b, (quantReLU (some t) true training r).forward inp = .ok a ∧ (quantIdentity (some t) true training r).forward inp = .ok b ∧ Agree a b := by
  refine static_agree training r (unpack inp) ((unpack inp).map fun x => max x 0) h rfl ?_
  intro idx hi
  rw [hz _ (bcIndex_mem h.zero_shape hi)]
  show t.cfg.forward _ 0 t.bitWidth (max ((unpack inp).data idx) 0) = _
  rcases le_total 0 ((unpack inp).data idx) with h0 | h0
  · rw [max_eq_left h0]
  · have hs := h.scale_pos _ (bcIndex_mem h.scale_shape hi)
    have hlo : ((Spec.lo t.cfg.signed t.cfg.narrow t.bitWidth : ℤ) : K) - 0 = 0 := by simp [Spec.lo, hu]
    have e1 := C06_saturates_low t.cfg h.rounds _ 0 hs _ h.bits ((unpack inp).data idx) (by rw [hlo, zero_mul]; exact h0)
    have e2 := C06_saturates_low t.cfg h.rounds _ 0 hs _ h.bits 0 (by rw [hlo, zero_mul])
    rw [max_eq_right h0, e1, e2]

/-- C104, the clamp of a `QuantHardTanh`: the quantiser replaces the clamp to `[min_val, max_val]`. Where everything the quantiser represents lies between the limits, the layer computes
what it would compute if the values were clamped first. (For other scales it does not: `C104_hardtanh_exceeds`.) -/
theorem C104_hardtanh_replaced (t : TensorQuant K) (S Z : NdTensor K) (inp : LayerOut K) (h : StaticQuant t S Z (unpack inp).shape) (minVal maxVal : K)
    (hlim : ∀ idx, InBounds (unpack inp).shape idx →
      minVal ≤ ((Spec.lo t.cfg.signed t.cfg.narrow t.bitWidth : ℤ) - Z.data (bcIndex Z.shape idx)) * S.data (bcIndex S.shape idx) ∧
      ((Spec.hi t.cfg.signed t.cfg.narrow t.bitWidth : ℤ) - Z.data (bcIndex Z.shape idx)) * S.data (bcIndex S.shape idx) ≤ maxVal) (training r : Bool) :
    ∃ a b, (quantHardTanh minVal maxVal (some t) true training r).forward inp = .ok a ∧
      (quantIdentity (some t) true training r).forward (.plain ((unpack inp).map fun x => min (max x minVal) maxVal)) = .ok b ∧ Agree a b := by
  refine static_agree training r ((unpack inp).map fun x => min (max x minVal) maxVal) (unpack inp) h rfl ?_
  intro idx hi
  obtain ⟨h1, h2⟩ := hlim idx hi
  have hs := h.scale_pos _ (bcIndex_mem h.scale_shape hi)
  set s := S.data (bcIndex S.shape idx)
  set z := Z.data (bcIndex Z.shape idx)
  set x := (unpack inp).data idx
  show t.cfg.forward s z t.bitWidth x = t.cfg.forward s z t.bitWidth (min (max x minVal) maxVal)
  have hlh : ((Spec.lo t.cfg.signed t.cfg.narrow t.bitWidth : ℤ) - z) * s ≤ ((Spec.hi t.cfg.signed t.cfg.narrow t.bitWidth : ℤ) - z) * s := by
    apply mul_le_mul_of_nonneg_right _ hs.le
    apply sub_le_sub_right
    exact_mod_cast lo_le_hi t.cfg.signed t.cfg.narrow h.bits
  rcases le_total x minVal with hx | hx
  · have : min (max x minVal) maxVal = minVal := by rw [max_eq_right hx, min_eq_left (h1.trans (hlh.trans h2))]
    rw [this, C06_saturates_low t.cfg h.rounds s z hs _ h.bits x (hx.trans h1), C06_saturates_low t.cfg h.rounds s z hs _ h.bits minVal h1]
  · rcases le_total x maxVal with hx' | hx'
    · rw [max_eq_left hx, min_eq_left hx']
    · have : min (max x minVal) maxVal = maxVal := by rw [max_eq_left hx, min_eq_right hx']
      rw [this, C06_saturates_high t.cfg h.rounds s z hs _ h.bits x (h2.trans hx'), C06_saturates_high t.cfg h.rounds s z hs _ h.bits maxVal h2]

theorem layer_static {l : ActLayer.Layer K} {t : TensorQuant K} {S Z : NdTensor K} {inp x out : LayerOut K} (hx : l.inputQuant.forward inp = .ok x)
    (ht : l.actQuant.tensorQuant = some t) (he : l.actQuant.enabled = true) (hn : NoHardtanh l.actQuant.actImpl) (h : StaticQuant t S Z (unpack x).shape)
    (ho : l.forward inp = .ok out) :
    (unpack out).shape = (unpack x).shape ∧ ∀ idx, InBounds (unpack x).shape idx →
      (unpack out).data idx = t.cfg.forward (S.data (bcIndex S.shape idx)) (Z.data (bcIndex Z.shape idx)) t.bitWidth (floatAct l.actQuant.actImpl ((unpack x).data idx)) := by
  unfold ActLayer.Layer.forward at ho
  rw [hx] at ho
  simp only [Except.bind, actQuant_on_noHardtanh ht he hn] at ho
  rw [static_run l.actQuant.training ((unpack x).map (floatAct l.actQuant.actImpl)) h] at ho
  simp only [Except.map] at ho
  have hv : unpack out = ⟨(unpack x).shape, fun idx => t.cfg.forward (S.data (bcIndex S.shape idx)) (Z.data (bcIndex Z.shape idx)) t.bitWidth
      (((unpack x).map (floatAct l.actQuant.actImpl)).data (bcIndex (unpack x).shape idx))⟩ := by
    cases hr : l.returnQuantTensor with
    | false => rw [hr] at ho; exact congrArg unpack (Except.ok.inj ho).symm
    | true => rw [hr] at ho; exact congrArg unpack (Except.ok.inj ho).symm
  rw [hv]
  refine ⟨rfl, fun idx hi => ?_⟩
  show t.cfg.forward _ _ _ (((unpack x).map (floatAct l.actQuant.actImpl)).data (bcIndex (unpack x).shape idx)) = _
  rw [bcIndex_inBounds hi]
  rfl

/-- C104, sign: if the float activation is never negative (ReLU, sigmoid), neither is the output of the layer, for every static quantiser whose zero points are codes. -/
theorem C104_nonneg (l : ActLayer.Layer K) (t : TensorQuant K) (S Z : NdTensor K) (inp x out : LayerOut K) (hx : l.inputQuant.forward inp = .ok x)
    (ht : l.actQuant.tensorQuant = some t) (he : l.actQuant.enabled = true) (hn : NoHardtanh l.actQuant.actImpl) (h : StaticQuant t S Z (unpack x).shape)
    (hz : ∀ idx, InBounds Z.shape idx → ∃ z : ℤ, Z.data idx = z ∧ _root_.Spec.IsCode t.cfg.signed t.cfg.narrow t.bitWidth z) (hf : ∀ v, 0 ≤ floatAct l.actQuant.actImpl v)
    (ho : l.forward inp = .ok out) (idx : List ℕ) (hi : InBounds (unpack x).shape idx) : 0 ≤ (unpack out).data idx := by
  rw [(layer_static hx ht he hn h ho).2 idx hi]
  obtain ⟨z, hz, hc⟩ := hz _ (bcIndex_mem h.zero_shape hi)
  have hs := h.scale_pos _ (bcIndex_mem h.scale_shape hi)
  rw [hz]
  calc (0 : K) = t.cfg.forward (S.data (bcIndex S.shape idx)) z t.bitWidth 0 := (C07_zero_exact t.cfg h.rounds _ z _ h.bits hc).symm
    _ ≤ _ := C05_monotone t.cfg h.rounds _ _ hs _ _ _ (hf _)

/-- C104, monotone: larger inputs never give smaller outputs, for a monotone activation and a static quantiser. -/
theorem C104_monotone (l : ActLayer.Layer K) (t : TensorQuant K) (S Z : NdTensor K) (inp inp' x x' out out' : LayerOut K) (hx : l.inputQuant.forward inp = .ok x)
    (hx' : l.inputQuant.forward inp' = .ok x') (hshape : (unpack x').shape = (unpack x).shape)
    (ht : l.actQuant.tensorQuant = some t) (he : l.actQuant.enabled = true) (hn : NoHardtanh l.actQuant.actImpl) (h : StaticQuant t S Z (unpack x).shape)
    (hf : Monotone (floatAct l.actQuant.actImpl)) (ho : l.forward inp = .ok out) (ho' : l.forward inp' = .ok out')
    (hle : ∀ idx, InBounds (unpack x).shape idx → (unpack x).data idx ≤ (unpack x').data idx) (idx : List ℕ) (hi : InBounds (unpack x).shape idx) :
    (unpack out).data idx ≤ (unpack out').data idx := by
  rw [(layer_static hx ht he hn h ho).2 idx hi, (layer_static hx' ht he hn (hshape ▸ h) ho').2 idx (hshape ▸ hi)]
  exact C05_monotone t.cfg h.rounds _ _ (h.scale_pos _ (bcIndex_mem h.scale_shape hi)) _ _ _ (hf (hle idx hi))

/-- C104, idempotent: `QuantReLU` and `QuantIdentity` with a static quantiser whose zero points are codes change nothing when applied a second time. -/
theorem C104_idempotent (a : Option (ActImpl K)) (ha : a = none ∨ a = some relu) (t : TensorQuant K) (S Z : NdTensor K) (training r : Bool) (inp mid out : LayerOut K)
    (h : StaticQuant t S Z (unpack inp).shape)
    (hz : ∀ idx, InBounds Z.shape idx → ∃ z : ℤ, Z.data idx = z ∧ _root_.Spec.IsCode t.cfg.signed t.cfg.narrow t.bitWidth z)
    (h1 : (⟨noQuant, ⟨a, true, some t, true, training⟩, r⟩ : ActLayer.Layer K).forward inp = .ok mid)
    (h2 : (⟨noQuant, ⟨a, true, some t, true, training⟩, r⟩ : ActLayer.Layer K).forward mid = .ok out) (idx : List ℕ) (hi : InBounds (unpack inp).shape idx) :
    (unpack out).data idx = (unpack mid).data idx := by
  have hn : NoHardtanh a := by
    rintro lo hi e
    rcases ha with rfl | rfl
    · cases e
    · cases Option.some.inj e
  have e1 := layer_static (l := ⟨noQuant, ⟨a, true, some t, true, training⟩, r⟩) (x := inp) rfl rfl rfl hn h h1
  have hm : (unpack mid).shape = (unpack inp).shape := e1.1
  have e2 := layer_static (l := ⟨noQuant, ⟨a, true, some t, true, training⟩, r⟩) (x := mid) rfl rfl rfl hn (hm ▸ h) h2
  rw [e2.2 idx (hm ▸ hi)]
  have hmid := e1.2 idx hi
  have hs := h.scale_pos _ (bcIndex_mem h.scale_shape hi)
  have hfix : floatAct a ((unpack mid).data idx) = (unpack mid).data idx := by
    rcases ha with rfl | rfl
    · rfl
    · show max _ 0 = _
      apply max_eq_left
      exact C104_nonneg ⟨noQuant, ⟨some relu, true, some t, true, training⟩, r⟩ t S Z inp inp mid rfl rfl rfl hn h hz (fun v => le_max_right v 0) h1 idx hi
  show t.cfg.forward _ _ _ (floatAct a ((unpack mid).data idx)) = _
  rw [hfix, hmid]
  exact C03_idempotent t.cfg h.rounds _ _ hs.ne' _ h.bits _

/-! ### With the quantiser off -/

/-- C104, off: with its quantiser disabled, or without one, a layer other than a `QuantHardTanh` computes the float activation. -/
theorem C104_off (l : ActLayer.Layer K) (inp x out : LayerOut K) (hx : l.inputQuant.forward inp = .ok x) (he : l.actQuant.isEnabled = false)
    (hh : l.actQuant.tensorQuant = none ∨ NoHardtanh l.actQuant.actImpl) (h : l.forward inp = .ok out) :
    (unpack out).shape = (unpack x).shape ∧ ∀ idx, (unpack out).data idx = floatAct l.actQuant.actImpl ((unpack x).data idx) := by
  obtain ⟨y, hy, hv, -⟩ := actQuant_off he hh x
  unfold ActLayer.Layer.forward at h
  rw [hx] at h
  simp only [Except.bind, hy, packOutput] at h
  have : unpack out = unpack y := by
    split_ifs at h
    · exact congrArg unpack (Except.ok.inj h).symm
    · rw [← Except.ok.inj h]; rfl
  rw [this, hv]
  exact ⟨rfl, fun _ => rfl⟩

/-- C104, what is returned: the layer raises for want of a quant tensor exactly if it has to return one, its quantiser is off, and it is not the case that a quant tensor reaches an
activation that hands its metadata on; it returns a quant tensor exactly if it has to. -/
theorem C104_result_kind (l : ActLayer.Layer K) (inp x : LayerOut K) (hx : l.inputQuant.forward inp = .ok x)
    (hh : l.actQuant.tensorQuant = none ∨ NoHardtanh l.actQuant.actImpl) :
    (l.forward inp = .error .notQuantTensor ↔ l.returnQuantTensor = true ∧ l.actQuant.isEnabled = false ∧
      ¬(isQuant x = true ∧ (l.actQuant.actImpl = none ∨ l.actQuant.passthroughAct = true))) ∧
    ∀ out, l.forward inp = .ok out → isQuant out = l.returnQuantTensor := by
  have hpack : ∀ (r : Bool) (y out : LayerOut K), packOutput r y = .ok out → isQuant out = r := by
    intro r y out h
    unfold packOutput at h
    cases r with
    | false => rw [← Except.ok.inj h]; rfl
    | true =>
      simp only [if_true] at h
      split_ifs at h with hq
      rw [← Except.ok.inj h]
      exact hq
  refine ⟨?_, ?_⟩
  · unfold ActLayer.Layer.forward
    rw [hx]
    simp only [Except.bind]
    cases he : l.actQuant.isEnabled with
    | true =>
      unfold ActQuant.isEnabled at he
      simp only [Bool.and_eq_true, Option.isSome_iff_exists] at he
      obtain ⟨⟨t, ht⟩, he⟩ := he
      rw [actQuant_on ht he]
      constructor
      · intro h
        cases hr : t.run l.actQuant.training (match l.actQuant.actImpl with | some (.fn f) => (unpack x).map f | _ => unpack x) with
        | error e =>
          rw [hr] at h
          simp only [Except.map] at h
          exact absurd ((run_error _ _ _ _ hr).symm.trans (Except.error.inj h)) (by simp)
        | ok q =>
          rw [hr] at h
          simp only [Except.map] at h
          obtain ⟨o, ho, -⟩ := packOutput_quant l.returnQuantTensor q
          rw [ho] at h
          cases h
      · rintro ⟨-, h, -⟩; cases h
    | false =>
      obtain ⟨y, hy, -, hk, -⟩ := actQuant_off he hh x
      simp only [hy, packOutput, ← hk, true_and]
      cases l.returnQuantTensor <;> cases isQuant y <;> simp
  · intro out h
    unfold ActLayer.Layer.forward at h
    rw [hx] at h
    simp only [Except.bind] at h
    cases hy : l.actQuant.forward x with
    | error e => rw [hy] at h; cases h
    | ok y => rw [hy] at h; exact hpack _ _ _ h

/-- C104, ReLU of a quant tensor: a `QuantReLU` whose quantiser is off hands the metadata of a quant tensor on. Its result holds codes: the larger of code and zero point. -/
theorem C104_relu_passthrough (t : Option (TensorQuant K)) (training : Bool) (q : ShapedQT K) (n z : List ℕ → ℤ) (h : HoldsCodes q n)
    (hz : ∀ idx, InBounds q.value.shape idx → q.zeroPoint.data (bcIndex q.zeroPoint.shape idx) = z idx ∧ _root_.Spec.IsCode q.signed false q.bitWidth (z idx)) :
    ∃ r : ShapedQT K, (quantReLU t false training true).forward (.quant q) = .ok (.quant r) ∧ r.scale = q.scale ∧ r.zeroPoint = q.zeroPoint ∧ r.bitWidth = q.bitWidth ∧
      r.signed = q.signed ∧ r.value.shape = q.value.shape ∧ HoldsCodes r fun idx => max (n idx) (z idx) := by
  obtain ⟨r, hr, ⟨h1, h2, h3, h4, h5⟩, hs, hv, hc⟩ := C64_relu q n z h hz
  have e : r.value = q.value.map fun x => max x 0 := by
    have : r.value = ⟨r.value.shape, r.value.data⟩ := rfl
    rw [this, hs, funext hv]; rfl
  refine ⟨{ r with training := training }, ?_, h1, h2, h3, h4, hs, ⟨hc.scale_shape, hc.zeroPoint_shape, hc.scale_pos, hc.codes⟩⟩
  obtain ⟨rv, rs, rz, rb, rsg, rt⟩ := r
  simp only at h1 h2 h3 h4 e ⊢
  subst h1 h2 h3 h4 e
  cases t <;> rfl

/-! ### Where the layers do something else -/

/-- An unsigned and a signed 4 bit quantiser. -/
def Sample.u4 : TensorQuant ℚ := ⟨⟨false, false, torchRound⟩, 4, fun _ => scalarTensor (1/2), fun _ => scalarTensor 0⟩

theorem Sample.u4_static (shape : List ℕ) : StaticQuant Sample.u4 (scalarTensor (1/2)) (scalarTensor 0) shape :=
  ⟨rfl, rfl, by decide, .round, broadcasts_nil _, broadcasts_nil _, fun _ _ => by simp [scalarTensor]⟩

theorem Sample.q4_static (shape : List ℕ) : StaticQuant Sample.q4 (scalarTensor (1/2)) (scalarTensor 0) shape :=
  ⟨rfl, rfl, by decide, .round, broadcasts_nil _, broadcasts_nil _, fun _ _ => by simp [scalarTensor]⟩

/-- Four values. -/
def Sample.v4 : NdTensor ℚ := ⟨[4], fun idx => [-7/5, 3/5, 9/10, 20].getD (idx.getD 0 0) 0⟩

/-- C104 fails for a `QuantHardTanh` whose quantiser is disabled (as during calibration, or for a float reference): `_is_act_enabled` has dropped the clamp when the layer was made, so that
the layer is the identity. -/
theorem C104_hardtanh_off_is_identity :
    ((quantHardTanh (-1 : ℚ) 1 (some Sample.q4) false false false).forward (.plain Sample.v4)).toOption.map (fun o => (indices [4]).map (unpack o).data) = some [-7/5, 3/5, 9/10, 20] ∧
    ((indices [4]).map fun idx => floatAct (some (.hardtanh (-1 : ℚ) 1)) (Sample.v4.data idx)) = [-1, 3/5, 9/10, 1] := by decide +kernel

/-- C104 fails for a `QuantHardTanh` whose quantiser represents more than `[min_val, max_val]`: values above `max_val` are returned. -/
theorem C104_hardtanh_exceeds :
    ((quantHardTanh (-1 : ℚ) 1 (some Sample.q4) true false false).forward (.plain Sample.v4)).toOption.map (fun o => (indices [4]).map (unpack o).data) = some [-3/2, 1/2, 1, 7/2] := by
  decide +kernel

/-- C104 fails for a `QuantHardTanh` without quantiser on a quant tensor: its limits need not be multiples of the scale, and what it returns claims to be a quant tensor of the scale of its
input, of which it is not a multiple. -/
theorem C104_hardtanh_passthrough_off_grid : ∃ q r : ShapedQT ℚ, HoldsCodes q (fun _ => 5) ∧ (quantHardTanh (-1 : ℚ) 1 none true false true).forward (.quant q) = .ok (.quant r) ∧
    r.scale = q.scale ∧ r.zeroPoint = q.zeroPoint ∧ r.isValid (1/1000) = some false := by
  refine ⟨int8Tensor ⟨[1], fun _ => 3/2⟩ (scalarTensor (3/10)), int8Tensor ⟨[1], fun _ => 1⟩ (scalarTensor (3/10)),
    ⟨broadcasts_nil _, broadcasts_nil _, fun _ _ => by simp [int8Tensor, scalarTensor], fun _ _ => ⟨by simp [int8Tensor, scalarTensor]; norm_num, show Spec.lo true false 8 ≤ 5 ∧ 5 ≤ Spec.hi true false 8 by decide⟩⟩, ?_, rfl, rfl, by decide +kernel⟩
  have : torchClamp (3/2 : ℚ) (-1) 1 = 1 := by decide +kernel
  show Except.ok (LayerOut.quant (int8Tensor ⟨[1], fun _ => torchClamp (3/2 : ℚ) (-1) 1⟩ (scalarTensor (3/10)))) = _
  rw [this]

/-! ### Examples -/

example : ((quantReLU (some Sample.u4) true false true).forward (.plain Sample.v4)).toOption.map (fun o => ((indices [4]).map (unpack o).data, isQuant o)) = some ([0, 1/2, 1, 15/2], true) ∧
    ((quantIdentity (some Sample.u4) true false true).forward (.plain Sample.v4)).toOption.map (fun o => ((indices [4]).map (unpack o).data, isQuant o)) = some ([0, 1/2, 1, 15/2], true) := by
  decide +kernel

/-- A signed quantiser does not absorb the ReLU. -/
example : ((quantReLU (some Sample.q4) true false false).forward (.plain Sample.v4)).toOption.map (fun o => (indices [4]).map (unpack o).data) = some [0, 1/2, 1, 7/2] ∧
    ((quantIdentity (some Sample.q4) true false false).forward (.plain Sample.v4)).toOption.map (fun o => (indices [4]).map (unpack o).data) = some [-3/2, 1/2, 1, 7/2] := by
  decide +kernel

/-- The hypotheses of `C104_relu_absorbed`, `C104_nonneg`, `C104_monotone` and `C104_idempotent`. -/
example (r : Bool) : ∃ a b, (quantReLU (some Sample.u4) true false r).forward (.plain Sample.v4) = .ok a ∧ (quantIdentity (some Sample.u4) true false r).forward (.plain Sample.v4) = .ok b ∧
    Agree a b :=
  C104_relu_absorbed Sample.u4 _ _ _ (Sample.u4_static _) rfl (fun _ _ => rfl) _ _

example : (∀ v : ℚ, 0 ≤ floatAct (some relu) v) ∧ Monotone (floatAct (some (relu : ActImpl ℚ))) :=
  ⟨fun v => le_max_right v 0, fun _ _ h => max_le_max h le_rfl⟩

/-- The hypotheses of `C104_hardtanh_replaced`: a quantiser of `[-4, 7/2]` for a clamp to `[-4, 4]`. -/
example (r : Bool) : ∃ a b, (quantHardTanh (-4) 4 (some Sample.q4) true false r).forward (.plain Sample.v4) = .ok a ∧
    (quantIdentity (some Sample.q4) true false r).forward (.plain (Sample.v4.map fun x => min (max x (-4)) 4)) = .ok b ∧ Agree a b :=
  C104_hardtanh_replaced Sample.q4 _ _ (.plain Sample.v4) (Sample.q4_static _) (-4) 4 (fun _ _ => by simp [Sample.q4, scalarTensor, Spec.lo, Spec.hi]; norm_num) false r

/-- The hypotheses of `C104_error_bound`. -/
example : ProperQuant Sample.q4 (Sample.a.map (floatAct (some relu))) ∧ InRange Sample.q4 (Sample.a.map (floatAct (some relu))) := by
  refine ⟨Sample.q4_proper _, ?_⟩
  intro idx hi
  have h0 : 0 ≤ floatAct (some relu) (Sample.a.data idx) := le_max_right _ 0
  have h1 : floatAct (some relu) (Sample.a.data idx) ≤ 6/5 := by
    refine max_le ?_ (by norm_num)
    show ([3/5, 6/5, -3] : List ℚ).getD (idx.getD 1 0) 0 ≤ 6/5
    rcases idx.getD 1 0 with _ | _ | _ | n <;> simp <;> norm_num
  show ((Spec.lo true false 4 : ℤ) - (0 : ℚ)) * (1/2) ≤ floatAct (some relu) (Sample.a.data idx) ∧ floatAct (some relu) (Sample.a.data idx) ≤ ((Spec.hi true false 4 : ℤ) - (0 : ℚ)) * (1/2)
  constructor
  · refine le_trans ?_ h0
    norm_num [Spec.lo]
  · refine le_trans h1 ?_
    norm_num [Spec.hi]

/-- A quant tensor handed on by a `QuantReLU` whose quantiser is off. -/
example : ((quantReLU (some Sample.u4) false false true).forward (.quant (int8Tensor ⟨[4], fun idx => [-3/2, 1/2, 0, 5].getD (idx.getD 0 0) 0⟩ (scalarTensor (1/2))))).toOption.map
    (fun o => ((indices [4]).map (unpack o).data, isQuant o)) = some ([0, 1/2, 0, 5], true) := by decide +kernel

/-- `QuantSigmoid` (here: a function of the same kind) with a quantiser that is off has no quant tensor to return. -/
example : (quantFn (fun x : ℚ => max 0 (min 1 (x / 4 + 1 / 2))) (some Sample.u4) false false true).forward (.plain Sample.v4) = .error .notQuantTensor := rfl

end Brevitas.Props
