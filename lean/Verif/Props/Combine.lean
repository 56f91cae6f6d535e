import Verif.Lemmas.Combine
import Verif.Props.WbLayer

/-!
# C103: sums, concatenations and embeddings of quantised tensors
-/

set_option linter.unusedSectionVars false

namespace Brevitas.Props

open Brevitas NdTensor QuantConv WbLayer Combine SubTensor

variable {K : Type*} [Field K] [LinearOrder K] [IsStrictOrderedRing K] [FloorRing K]

/-! ### The sum of two quant tensors -/

/-- C103, sum: the sum of two quant tensors with the same scales (per-tensor or per-channel) and values that broadcast against each other has the sums of the codes as codes, at the same scales,
with the zero points added, if the operands have the same sign (or the signed one is wider) and two or more bits. -/
theorem C103_sum_codes (q r : ShapedQT K) (n m : List ℕ → ℤ) (v : List ℕ) (hq : HoldsCodes q n) (hr : HoldsCodes r m) (hs : r.scale = q.scale)
    (hz : r.zeroPoint.shape = q.zeroPoint.shape) (hv : bcShape q.value.shape r.value.shape = some v) (hb₁ : 2 ≤ q.bitWidth) (hb₂ : 2 ≤ r.bitWidth)
    (hsign : q.signed = r.signed ∨ (q.signed = true ∧ r.bitWidth < q.bitWidth) ∨ (r.signed = true ∧ q.bitWidth < r.bitWidth)) :
    ∃ o, add (.quant q) (.quant r) = some (.quant o) ∧ o.value.shape = v ∧
      (∀ idx, o.value.data idx = q.value.data (bcIndex q.value.shape idx) + r.value.data (bcIndex r.value.shape idx)) ∧
      o.scale.shape = q.scale.shape ∧ (∀ idx, InBounds q.scale.shape idx → o.scale.data idx = q.scale.data idx) ∧
      o.bitWidth = max q.bitWidth r.bitWidth + 1 ∧ o.signed = (q.signed || r.signed) ∧
      HoldsCodes o fun idx => n (bcIndex q.value.shape idx) + m (bcIndex r.value.shape idx) := by
  have bq := broadcasts_left hv
  have br := broadcasts_right hv
  refine ⟨_, congrArg (Option.map LayerOut.quant) (addQT_eq hs hz hv), rfl, fun _ => rfl, rfl, ?_, C29_declared_bit_width _ _ _ _ hb₁ hb₂, rfl,
    broadcasts_trans hq.scale_shape bq, broadcasts_trans hq.zeroPoint_shape bq, ?_, ?_⟩
  · intro idx hi
    simp only [bcIndex_inBounds hi]
    ring
  · intro idx hi
    simp only at hi ⊢
    have hlen : q.value.shape.length ≤ idx.length := by rw [InBounds.length hi]; exact bq.1
    have h1 := hq.scale_pos _ (bcIndex_mem bq hi)
    rw [bcIndex_bcIndex hq.scale_shape hlen] at h1
    rw [bcIndex_bcIndex (broadcasts_refl _) (hq.scale_shape.1.trans hlen)]
    linarith
  · intro idx hi
    simp only at hi ⊢
    have hlen : q.value.shape.length ≤ idx.length := by rw [InBounds.length hi]; exact bq.1
    have hlen' : r.value.shape.length ≤ idx.length := by rw [InBounds.length hi]; exact br.1
    obtain ⟨a1, a2⟩ := hq.codes _ (bcIndex_mem bq hi)
    obtain ⟨b1, b2⟩ := hr.codes _ (bcIndex_mem br hi)
    rw [bcIndex_bcIndex hq.scale_shape hlen, bcIndex_bcIndex hq.zeroPoint_shape hlen] at a1
    rw [bcIndex_bcIndex hr.scale_shape hlen', bcIndex_bcIndex hr.zeroPoint_shape hlen', hs, hz] at b1
    rw [bcIndex_bcIndex (broadcasts_refl q.scale.shape) (hq.scale_shape.1.trans hlen),
      bcIndex_bcIndex (broadcasts_refl q.zeroPoint.shape) (hq.zeroPoint_shape.1.trans hlen)]
    refine ⟨?_, (C29_enough_bits_iff _ _ _ _ hb₁ hb₂).2 hsign _ _ a2 b2⟩
    rw [a1, b1]
    push_cast
    ring

/-- C103, sum: adding a tensor of the same shape to a quant tensor keeps the codes and moves the zero points. -/
theorem C103_add_tensor (q : ShapedQT K) (n : List ℕ → ℤ) (t : NdTensor K) (hq : HoldsCodes q n) (ht : t.shape = q.value.shape) :
    ∃ o, add (.quant q) (.plain t) = some (.quant o) ∧ o.value.shape = q.value.shape ∧
      (∀ idx, InBounds q.value.shape idx → o.value.data idx = q.value.data idx + t.data idx) ∧
      o.scale = q.scale ∧ o.bitWidth = q.bitWidth ∧ o.signed = q.signed ∧ HoldsCodes o n := by
  have e1 : bcShape q.value.shape t.shape = some q.value.shape := by rw [ht]; exact bcShape_self _
  have e2 : bcShape t.shape q.scale.shape = some q.value.shape := by rw [ht]; exact bcShape_of_broadcasts hq.scale_shape
  have e3 : bcShape q.zeroPoint.shape q.value.shape = some q.value.shape := by rw [bcShape_comm]; exact bcShape_of_broadcasts hq.zeroPoint_shape
  refine ⟨{ q with
      value := ⟨q.value.shape, fun idx => q.value.data (bcIndex q.value.shape idx) + t.data (bcIndex t.shape idx)⟩
      zeroPoint := ⟨q.value.shape, fun idx => q.zeroPoint.data (bcIndex q.zeroPoint.shape idx) -
        t.data (bcIndex t.shape (bcIndex q.value.shape idx)) / q.scale.data (bcIndex q.scale.shape (bcIndex q.value.shape idx))⟩ }, ?_, rfl, ?_, rfl, rfl, rfl,
    hq.scale_shape, broadcasts_refl _, hq.scale_pos, ?_⟩
  · simp only [add, addTensor, bcOp, e1, e2, e3, Option.map_some, Option.bind_some]
  · intro idx hi
    simp only [ht, bcIndex_inBounds hi]
  · intro idx hi
    simp only at hi ⊢
    obtain ⟨a1, a2⟩ := hq.codes idx hi
    refine ⟨?_, a2⟩
    have := (hq.scale_pos idx hi).ne'
    simp only [ht, bcIndex_inBounds hi]
    rw [a1]
    field_simp
    ring

/-! ### `QuantEltwiseAdd` -/

/-- An output quantiser that hands on what it is given: none, or one that is off and passes quant tensors through (as that of the layer does). -/
def HandsOn (p : ActProxy K) : Prop := p.tensorQuant = none ∨ (p.enabled = false ∧ p.passthrough = true)

theorem handsOn_forward {p : ActProxy K} (h : HandsOn p) (q : ShapedQT K) : ∃ tr, p.forward (.quant q) = .ok (.quant { q with training := tr }) := by
  unfold ActProxy.forward
  cases ht : p.tensorQuant with
  | none => exact ⟨q.training, rfl⟩
  | some t =>
    rcases h with h | ⟨h1, h2⟩
    · rw [ht] at h; exact absurd h (by simp)
    · simp only [h1, Bool.false_eq_true, if_false, h2]
      exact ⟨p.training, rfl⟩

/-- C103, `QuantEltwiseAdd`: with an input quantiser whose scale and zero point do not depend on the input (two or more bits, positive scales), the layer adds the codes of its inputs: the result holds
the sums of the codes that the quantiser gives its inputs, at the scale of the quantiser, with one more bit. It is returned as a quant tensor or as its value. -/
theorem C103_eltwise_codes (l : IOLayer K) (t : TensorQuant K) (x y : LayerOut K) (v : List ℕ) (ht : l.inputQuant.tensorQuant = some t) (he : l.inputQuant.enabled = true)
    (ho : HandsOn l.outputQuant) (px : ProperQuant t (unpack x)) (py : ProperQuant t (unpack y)) (hb : 2 ≤ t.bitWidth) (hs : t.scale (unpack y) = t.scale (unpack x))
    (hz : t.zeroPoint (unpack y) = t.zeroPoint (unpack x)) (hv : bcShape (unpack x).shape (unpack y).shape = some v) :
    ∃ (o : ShapedQT K) (n m : List ℕ → ℤ), eltwiseAdd l x y = .ok (if l.returnQuantTensor then .quant o else .plain o.value) ∧ o.value.shape = v ∧
      o.scale.shape = (t.scale (unpack x)).shape ∧ (∀ idx, InBounds o.scale.shape idx → o.scale.data idx = (t.scale (unpack x)).data idx) ∧
      o.bitWidth = t.bitWidth + 1 ∧ o.signed = t.cfg.signed ∧
      (∀ idx, InBounds (unpack x).shape idx → (n idx : K) = t.cfg.toInt (stepOf t (unpack x) idx) (zeroOf t (unpack x) idx) t.bitWidth ((unpack x).data idx)) ∧
      (∀ idx, InBounds (unpack y).shape idx → (m idx : K) = t.cfg.toInt (stepOf t (unpack y) idx) (zeroOf t (unpack y) idx) t.bitWidth ((unpack y).data idx)) ∧
      HoldsCodes o fun idx => n (bcIndex (unpack x).shape idx) + m (bcIndex (unpack y).shape idx) := by
  obtain ⟨q, n, h1, h2, h3, h4, h5, h6, h7, h8⟩ := C98_quantiser_codes px.bits px.scale_shape px.zero_shape px.scale_pos l.inputQuant.training
  obtain ⟨r, m, g1, g2, g3, g4, g5, g6, g7, g8⟩ := C98_quantiser_codes py.bits py.scale_shape py.zero_shape py.scale_pos l.inputQuant.training
  obtain ⟨o, a1, a2, -, a4, a5, a6, a7, a8⟩ := C103_sum_codes q r n m v h7 g7 (by rw [g3, h3, hs]) (by rw [g4, h4, hz]) (by rw [h2, g2]; exact hv) (by rw [h5]; exact hb)
    (by rw [g5]; exact hb) (Or.inl (by rw [h6, g6]))
  obtain ⟨tr, b1⟩ := handsOn_forward ho o
  refine ⟨{ o with training := tr }, n, m, ?_, a2, by rw [← h3]; exact a4, ?_, by rw [← h5]; simpa [h5, g5] using a6, by simpa [h6, g6] using a7, h8, g8,
    ⟨a8.scale_shape, a8.zeroPoint_shape, a8.scale_pos, ?_⟩⟩
  · have fx : l.inputQuant.forward x = .ok (.quant q) := by simp only [ActProxy.forward, ht, he, if_true, h1, Except.map]
    have fy : l.inputQuant.forward y = .ok (.quant r) := by simp only [ActProxy.forward, ht, he, if_true, g1, Except.map]
    simp only [eltwiseAdd, fx, fy, Except.bind, a1, torchOp, b1, packOutput, isQuant, if_true]
    cases l.returnQuantTensor <;> rfl
  · intro idx hi
    rw [← h3]
    exact a5 idx (by rw [← a4]; exact hi)
  · rw [← h2, ← g2]; exact a8.codes

theorem add_value (a b s : LayerOut K) (h : add a b = some s) : bcOp (fun x y => x + y) (unpack a) (unpack b) = some (unpack s) := by
  cases a with
  | plain t =>
    cases b with
    | plain u =>
      simp only [add, Option.map_eq_some_iff] at h
      obtain ⟨w, hw, rfl⟩ := h
      exact hw
    | quant r =>
      simp only [add, Option.map_eq_some_iff] at h
      obtain ⟨w, hw, rfl⟩ := h
      exact hw
  | quant q =>
    cases b with
    | plain u =>
      simp only [add, addTensor, Option.map_eq_some_iff, Option.bind_eq_some_iff] at h
      obtain ⟨w, ⟨v, hv, d, _, z, _, rfl⟩, rfl⟩ := h
      exact hv
    | quant r =>
      simp only [add, addQT, Option.map_eq_some_iff, Option.bind_eq_some_iff] at h
      obtain ⟨w, ⟨_, _, v, hv, d, _, z, _, rfl⟩, rfl⟩ := h
      exact hv

/-- What `QuantEltwiseAdd` does, step by step. -/
theorem eltwiseAdd_ok (l : IOLayer K) (x y out : LayerOut K) (h : eltwiseAdd l x y = .ok out) :
    ∃ a b s u, l.inputQuant.forward x = .ok a ∧ l.inputQuant.forward y = .ok b ∧ add a b = some s ∧ l.outputQuant.forward s = .ok u ∧ packOutput l.returnQuantTensor u = .ok out := by
  unfold eltwiseAdd at h
  cases hx : l.inputQuant.forward x with
  | error e => rw [hx] at h; exact absurd h (by simp [Except.bind])
  | ok a =>
    cases hy : l.inputQuant.forward y with
    | error e => rw [hx, hy] at h; exact absurd h (by simp [Except.bind])
    | ok b =>
      simp only [hx, hy, Except.bind] at h
      cases hs : add a b with
      | none => simp only [hs, torchOp] at h; exact absurd h (by simp)
      | some s =>
        simp only [hs, torchOp] at h
        cases hu : l.outputQuant.forward s with
        | error e => simp only [hu] at h; exact absurd h (by simp)
        | ok u => simp only [hu] at h; exact ⟨a, b, s, u, rfl, rfl, hs, hu, h⟩

/-- C103, `QuantEltwiseAdd`: a layer that returns, returns a quant tensor exactly if `return_quant_tensor` is set. -/
theorem C103_result_kind (l : IOLayer K) (x y out : LayerOut K) (h : eltwiseAdd l x y = .ok out) : isQuant out = l.returnQuantTensor := by
  obtain ⟨a, b, s, u, -, -, -, -, hp⟩ := eltwiseAdd_ok l x y out h
  simp only [packOutput] at hp
  split_ifs at hp with h1 h2
  · rw [← Except.ok.inj hp, h1, h2]
  · rw [← Except.ok.inj hp]; simpa [isQuant] using h1

theorem off_value {p : ActProxy K} (hp : p.isEnabled = false) (v x : LayerOut K) (h : p.forward v = .ok x) : unpack x = unpack v := by
  unfold ActProxy.isEnabled at hp
  unfold ActProxy.forward at h
  cases ht : p.tensorQuant with
  | none => rw [ht] at h; rw [Except.ok.inj h]
  | some t =>
    rw [ht] at hp
    rw [ht] at h
    simp only [Option.isSome_some, Bool.true_and] at hp
    simp only [hp, Bool.false_eq_true, if_false] at h
    cases hpp : p.passthrough <;> cases v <;> rw [hpp] at h <;> rw [← Except.ok.inj h] <;> rfl

theorem pack_value (b : Bool) (u out : LayerOut K) (h : packOutput b u = .ok out) : unpack out = unpack u := by
  simp only [packOutput] at h
  split_ifs at h with h1 h2
  · rw [Except.ok.inj h]
  · rw [← Except.ok.inj h]; rfl

/-- C103, `QuantEltwiseAdd`: whenever a layer with an input quantiser and no output quantiser returns, its result is the sum of the inputs up to half a scale for each of the two, for inputs in the
range of the quantiser. This holds for static and dynamic scales, in training and in evaluation. -/
theorem C103_error_bound (l : IOLayer K) (t : TensorQuant K) (x y out : LayerOut K) (ht : l.inputQuant.tensorQuant = some t) (he : l.inputQuant.enabled = true)
    (ho : l.outputQuant.isEnabled = false) (px : ProperQuant t (unpack x)) (py : ProperQuant t (unpack y)) (rx : InRange t (unpack x)) (ry : InRange t (unpack y))
    (h : eltwiseAdd l x y = .ok out) :
    bcShape (unpack x).shape (unpack y).shape = some (unpack out).shape ∧ ∀ idx, InBounds (unpack out).shape idx →
      |(unpack out).data idx - ((unpack x).data (bcIndex (unpack x).shape idx) + (unpack y).data (bcIndex (unpack y).shape idx))| ≤
        stepOf t (unpack x) (bcIndex (unpack x).shape idx) / 2 + stepOf t (unpack y) (bcIndex (unpack y).shape idx) / 2 := by
  obtain ⟨a, b, s, u, ha, hb, hs, hu, hp⟩ := eltwiseAdd_ok l x y out h
  obtain ⟨q, hq, rfl⟩ := unpack_of_quantised ht he x a ha
  obtain ⟨r, hr, rfl⟩ := unpack_of_quantised ht he y b hb
  have hv := add_value _ _ _ hs
  rw [← off_value ho _ _ hu, ← pack_value _ _ _ hp] at hv
  obtain ⟨q1, q2⟩ := run_half_step px rx _ q hq
  obtain ⟨r1, r2⟩ := run_half_step py ry _ r hr
  simp only [bcOp, Option.map_eq_some_iff] at hv
  obtain ⟨v, hv1, hv2⟩ := hv
  have e1 : (unpack (LayerOut.quant q)).shape = (unpack x).shape := q1
  have e2 : (unpack (LayerOut.quant r)).shape = (unpack y).shape := r1
  rw [e1, e2] at hv1
  have hsh : (unpack out).shape = v := by rw [← hv2]
  refine ⟨by rw [hsh]; exact hv1, ?_⟩
  intro idx hi
  rw [hsh] at hi
  rw [← hv2]
  simp only [e1, e2]
  have d1 := q2 _ (bcIndex_mem (broadcasts_left hv1) hi)
  have d2 := r2 _ (bcIndex_mem (broadcasts_right hv1) hi)
  simp only [halfSteps] at d1 d2
  change |q.value.data _ + r.value.data _ - _| ≤ _
  rw [abs_le] at d1 d2 ⊢
  constructor <;> linarith [d1.1, d1.2, d2.1, d2.2]

/-- C103, `QuantEltwiseAdd`: with its quantisers off and plain inputs, the layer is the sum of torch. -/
theorem C103_float_sum (l : IOLayer K) (x y : NdTensor K) (hi : l.inputQuant.isEnabled = false) (ho : l.outputQuant.isEnabled = false) (hr : l.returnQuantTensor = false) :
    eltwiseAdd l (.plain x) (.plain y) = match bcOp (fun a b => a + b) x y with
      | some z => .ok (.plain z)
      | none => .error .other := by
  have act : ∀ (p : ActProxy K) (v : NdTensor K), p.isEnabled = false → p.forward (.plain v) = .ok (.plain v) := by
    intro p v hp
    unfold ActProxy.isEnabled at hp
    unfold ActProxy.forward
    cases ht : p.tensorQuant with
    | none => rfl
    | some t =>
      rw [ht] at hp
      simp only [Option.isSome_some, Bool.true_and] at hp
      simp only [hp, Bool.false_eq_true, if_false]
      cases p.passthrough <;> rfl
  simp only [eltwiseAdd, act _ _ hi, Except.bind, add]
  cases hz : bcOp (fun a b => a + b) x y with
  | none => rfl
  | some z => simp only [Option.map_some, torchOp, act _ _ ho, packOutput, hr, Bool.false_eq_true, if_false, unpack]

/-- C103, `QuantEltwiseAdd`: an output quantiser is applied to the sum of the quantised inputs; the quant tensor, or its value, is returned. -/
theorem C103_output_quantiser (l : IOLayer K) (t : TensorQuant K) (x y : LayerOut K) (ht : l.outputQuant.tensorQuant = some t) (he : l.outputQuant.enabled = true) :
    eltwiseAdd l x y = (eltwiseAdd { l with outputQuant := ⟨none, true, false, false⟩, returnQuantTensor := false } x y).bind fun s =>
      (t.run l.outputQuant.training (unpack s)).map fun q => if l.returnQuantTensor then .quant q else .plain q.value := by
  unfold eltwiseAdd
  cases hx : l.inputQuant.forward x with
  | error e => rfl
  | ok a =>
    cases hy : l.inputQuant.forward y with
    | error e => rfl
    | ok b =>
      simp only [Except.bind]
      cases hs : add a b with
      | none => rfl
      | some s =>
        simp only [torchOp, ActProxy.forward, ht, he, if_true, packOutput, Bool.false_eq_true, if_false]
        have : unpack (LayerOut.plain (unpack s)) = unpack s := rfl
        rw [this]
        cases hr : t.run l.outputQuant.training (unpack s) with
        | error e => rfl
        | ok q =>
          simp only [Except.map]
          cases l.returnQuantTensor <;> rfl

theorem addBitWidth_comm (s₁ s₂ : Bool) (b₁ b₂ : ℕ) : addBitWidth s₁ s₂ b₁ b₂ = addBitWidth s₂ s₁ b₂ b₁ := by
  unfold addBitWidth
  simp only [add_comm]

theorem addQT_comm {q r : ShapedQT K} (h : r.scale = q.scale) : addQT q r = addQT r q := by
  unfold addQT
  rw [checkScales_self h, checkScales_self h.symm, Option.bind_some, Option.bind_some, bcOp_comm (fun a b => add_comm a b) q.value r.value, h,
    bcOp_comm (fun a b => add_comm a b) q.zeroPoint r.zeroPoint, addBitWidth_comm, Bool.or_comm, Bool.or_comm q.training]

/-- C103, `QuantEltwiseAdd`: with an input quantiser whose scale does not depend on the input, the order of the operands does not matter. -/
theorem C103_order (l : IOLayer K) (t : TensorQuant K) (x y : LayerOut K) (ht : l.inputQuant.tensorQuant = some t) (he : l.inputQuant.enabled = true)
    (hs : t.scale (unpack y) = t.scale (unpack x)) : eltwiseAdd l x y = eltwiseAdd l y x := by
  unfold eltwiseAdd
  cases hx : l.inputQuant.forward x with
  | error e =>
    cases hy : l.inputQuant.forward y with
    | error e' => simp only [Except.bind]; rw [actProxy_error _ _ _ hx, actProxy_error _ _ _ hy]
    | ok b => rfl
  | ok a =>
    cases hy : l.inputQuant.forward y with
    | error e => rfl
    | ok b =>
      simp only [Except.bind]
      obtain ⟨q, hq, rfl⟩ := unpack_of_quantised ht he x a hx
      obtain ⟨r, hr, rfl⟩ := unpack_of_quantised ht he y b hy
      have sc : ∀ {z : NdTensor K} {p : ShapedQT K}, t.run l.inputQuant.training z = .ok p → p.scale = t.scale z := by
        intro z p h
        unfold TensorQuant.run at h
        cases hr : torchOp (intQuantTensor t.cfg t.bitWidth (t.scale z) (t.zeroPoint z) z) with
        | error e => rw [hr] at h; exact absurd h (by simp [Except.map])
        | ok w => rw [hr] at h; rw [← Except.ok.inj h]
      have : add (.quant q) (.quant r) = add (.quant r) (.quant q) := by simp only [add, addQT_comm (show r.scale = q.scale by rw [sc hq, sc hr, hs])]
      rw [this]

/-! ### Concatenation -/

/-- A quant tensor and its codes. -/
structure Coded (K : Type*) where
  tensor : ShapedQT K
  code : List ℕ → ℤ

/-- The codes as a tensor of integers. -/
def Coded.codes (c : Coded K) : NdTensor ℤ := ⟨c.tensor.value.shape, c.code⟩

theorem average_same (s : NdTensor K) (k : ℕ) : ∃ a, average s (List.replicate k s) = some a ∧ a.shape = s.shape ∧ ∀ idx, InBounds s.shape idx → a.data idx = s.data idx := by
  have step : ∀ (k : ℕ) (c : K) (acc : NdTensor K), acc.shape = s.shape → (∀ idx, InBounds s.shape idx → acc.data idx = c * s.data idx) →
      ∃ a, (List.replicate k s).foldlM (fun a b => bcOp (fun x y => x + y) a b) acc = some a ∧ a.shape = s.shape ∧
        ∀ idx, InBounds s.shape idx → a.data idx = (c + (k : K)) * s.data idx := by
    intro k
    induction k with
    | zero => intro c acc h1 h2; exact ⟨acc, rfl, h1, fun idx hi => by rw [h2 idx hi]; simp⟩
    | succ k ih =>
      intro c acc h1 h2
      rw [List.replicate_succ, List.foldlM_cons]
      have : bcOp (fun x y => x + y) acc s = some ⟨s.shape, fun idx => acc.data (bcIndex s.shape idx) + s.data (bcIndex s.shape idx)⟩ := by
        rw [bcOp, h1, bcShape_self, Option.map_some]
      rw [this]
      obtain ⟨a, i1, i2, i3⟩ := ih (c + 1) ⟨s.shape, fun idx => acc.data (bcIndex s.shape idx) + s.data (bcIndex s.shape idx)⟩ rfl (by
        intro idx hi
        simp only [bcIndex_inBounds hi]
        rw [h2 idx hi]
        ring)
      refine ⟨a, i1, i2, fun idx hi => ?_⟩
      rw [i3 idx hi]
      push_cast
      ring
  obtain ⟨a, h1, h2, h3⟩ := step k 1 s rfl (fun idx _ => by ring)
  refine ⟨a.map fun x => x / ((k + 1 : ℕ) : K), ?_, h2, ?_⟩
  · rw [average, h1, Option.map_some, List.length_replicate]
  · intro idx hi
    have : ((k + 1 : ℕ) : K) ≠ 0 := by exact_mod_cast Nat.succ_ne_zero k
    simp only [NdTensor.map]
    rw [h3 idx hi]
    push_cast at this ⊢
    field_simp
    ring

theorem inBounds_at {s idx : List ℕ} {k N : ℕ} (hk : k < s.length) (hi : InBounds (s.set k N) idx) : idx.getD k 0 < N := by
  have hl := InBounds.length hi
  rw [List.length_set] at hl
  have := ((SubTensor.inBounds_iff _ _).1 hi).2 k (by omega) (by rw [List.length_set]; exact hk)
  rwa [List.getElem_set_self, ← List.getD_eq_getElem _ 0] at this

theorem pick_codes (S Z : K) (signed : Bool) (bits k : ℕ) (s : List ℕ) (hk : k < s.length) (cs : List (Coded K)) (hsh : ∀ c ∈ cs, c.tensor.value.shape.set k 0 = s)
    (hc : ∀ c ∈ cs, ∀ idx, InBounds c.tensor.value.shape idx → c.tensor.value.data idx = ((c.code idx : K) - Z) * S ∧ _root_.Spec.IsCode signed false bits (c.code idx))
    (N : ℕ) (idx : List ℕ) (hi : InBounds (s.set k N) idx) (j : ℕ) (hj : j < ((cs.map fun c => c.tensor.value).map (size k)).sum) :
    pick k (cs.map fun c => c.tensor.value) idx j = ((pick k (cs.map Coded.codes) idx j : ℤ) - Z) * S ∧
      _root_.Spec.IsCode signed false bits (pick k (cs.map Coded.codes) idx j) ∧ ∃ c ∈ cs, ∃ i, InBounds c.tensor.value.shape i := by
  induction cs generalizing j with
  | nil => simp at hj
  | cons c cs ih =>
    simp only [List.map_cons, List.sum_cons] at hj
    simp only [List.map_cons, pick]
    have hsz : size k c.codes = size k c.tensor.value := rfl
    rw [hsz]
    by_cases h : j < c.tensor.value.size k
    · rw [if_pos h, if_pos h]
      have hsc := hsh c (by simp)
      have hb : InBounds c.tensor.value.shape (idx.set k j) := by
        have := InBounds.set hi h
        rwa [← hsc, List.set_set, size, List.getD_eq_getElem _ _ (by rw [← hsc, List.length_set] at hk; exact hk), List.set_getElem_self] at this
      have := hc c (by simp) _ hb
      exact ⟨this.1, this.2, c, by simp, _, hb⟩
    · rw [if_neg h, if_neg h]
      obtain ⟨h1, h2, e, he, h3⟩ := ih (fun d hd => hsh d (by simp [hd])) (fun d hd => hc d (by simp [hd])) (j - size k c.tensor.value) (by omega)
      exact ⟨h1, h2, e, by simp [he], h3⟩

/-- C103, concatenation: concatenating two or more quant tensors that share a scale and a zero point for the whole tensor, the bit width and the sign is concatenating their codes, with that scale,
zero point, bit width and sign, in training and in evaluation. -/
theorem C103_cat (first : Coded K) (rest : List (Coded K)) (dim : ℤ) (c : NdTensor ℤ) (hne : rest ≠ []) (hcodes : ∀ d ∈ first :: rest, HoldsCodes d.tensor d.code)
    (hsame : ∀ d ∈ rest, d.tensor.scale = first.tensor.scale ∧ d.tensor.zeroPoint = first.tensor.zeroPoint ∧ d.tensor.bitWidth = first.tensor.bitWidth ∧
      d.tensor.signed = first.tensor.signed)
    (hpt : PerTensor first.tensor) (hc : NdTensor.cat dim ((first :: rest).map Coded.codes) = some c) :
    ∃ o, catTensors ((first :: rest).map Coded.tensor) dim = some o ∧ NdTensor.cat dim ((first :: rest).map fun d => d.tensor.value) = some o.value ∧ o.value.shape = c.shape ∧
      o.scale.shape = [] ∧ o.scale.data [] = first.tensor.scale.data [] ∧ o.zeroPoint.shape = [] ∧ o.zeroPoint.data [] = first.tensor.zeroPoint.data [] ∧
      o.bitWidth = first.tensor.bitWidth ∧ o.signed = first.tensor.signed ∧ HoldsCodes o c.data := by
  obtain ⟨k, s, -, hd, hall, hu⟩ := cat_eq_some.1 hc
  have hk := dimOf_lt hd
  have hsh : ∀ d ∈ first :: rest, d.tensor.value.shape.set k 0 = s := fun d hd => hall d.codes (List.mem_map_of_mem hd)
  have hval : NdTensor.cat dim ((first :: rest).map fun d => d.tensor.value) = some (NdTensor.mk' k s ((first :: rest).map fun d => d.tensor.value)) :=
    cat_eq_some.2 ⟨k, s, by simp, hd, by
      intro t ht
      obtain ⟨d, hd, rfl⟩ := List.mem_map.1 ht
      exact hsh d hd, rfl⟩
  have hsizes : (((first :: rest).map fun d => d.tensor.value).map (size k)).sum = (((first :: rest).map Coded.codes).map (size k)).sum := by
    simp only [List.map_map]; rfl
  -- the metadata
  have hmeta : ∃ sc z tr, catTensors ((first :: rest).map Coded.tensor) dim =
      some ⟨NdTensor.mk' k s ((first :: rest).map fun d => d.tensor.value), sc, z, first.tensor.bitWidth, first.tensor.signed, tr⟩ ∧
      sc.shape = [] ∧ sc.data [] = first.tensor.scale.data [] ∧ z.shape = [] ∧ z.data [] = first.tensor.zeroPoint.data [] := by
    cases rest with
    | nil => exact absurd rfl hne
    | cons d ds =>
      have hchecks : ((d :: ds).map Coded.tensor).mapM (fun q => (checkScales first.tensor q).bind fun _ => (checkZeroPoints first.tensor q).bind fun _ =>
          checkWidthAndSign first.tensor q) = some (List.replicate (d :: ds).length ()) := by
        have : ∀ (es : List (Coded K)), (∀ e ∈ es, e ∈ d :: ds) → (es.map Coded.tensor).mapM (fun q => (checkScales first.tensor q).bind fun _ =>
            (checkZeroPoints first.tensor q).bind fun _ => checkWidthAndSign first.tensor q) = some (List.replicate es.length ()) := by
          intro es hes
          induction es with
          | nil => rfl
          | cons e es ih =>
            obtain ⟨e1, e2, e3, e4⟩ := hsame e (hes e (by simp))
            have w : checkWidthAndSign first.tensor e.tensor = some () := by
              have cl : ∀ x : K, allclose x x = true := fun x => by simp only [allclose, sub_self, abs_zero, decide_eq_true_eq]; positivity
              simp [checkWidthAndSign, e3, e4, cl]
            rw [List.map_cons, List.mapM_cons, checkScales_self e1, Option.bind_some, checkZeroPoints_self e2, Option.bind_some, w, ih (fun e' h => hes e' (by simp [h]))]
            rfl
        exact this _ fun e h => h
      have hvals : ((first :: d :: ds).map Coded.tensor).map ShapedQT.value = (first :: d :: ds).map fun d => d.tensor.value := by rw [List.map_map]; rfl
      have hsc : ((d :: ds).map Coded.tensor).map ShapedQT.scale = List.replicate (d :: ds).length first.tensor.scale := by
        rw [List.eq_replicate_iff]
        refine ⟨by simp, ?_⟩
        intro b hb
        simp only [List.map_map, List.mem_map] at hb
        obtain ⟨e, he, rfl⟩ := hb
        exact (hsame e he).1
      have hzp : ((d :: ds).map Coded.tensor).map ShapedQT.zeroPoint = List.replicate (d :: ds).length first.tensor.zeroPoint := by
        rw [List.eq_replicate_iff]
        refine ⟨by simp, ?_⟩
        intro b hb
        simp only [List.map_map, List.mem_map] at hb
        obtain ⟨e, he, rfl⟩ := hb
        exact (hsame e he).2.1
      have hun : catTensors ((first :: d :: ds).map Coded.tensor) dim =
          (((d :: ds).map Coded.tensor).mapM fun q => (checkScales first.tensor q).bind fun _ => (checkZeroPoints first.tensor q).bind fun _ => checkWidthAndSign first.tensor q).bind fun _ =>
          (NdTensor.cat dim (((first :: d :: ds).map Coded.tensor).map ShapedQT.value)).bind fun value =>
          if ((first :: d :: ds).map Coded.tensor).any ShapedQT.training then
            (average first.tensor.scale (((d :: ds).map Coded.tensor).map ShapedQT.scale)).bind fun scale =>
            (average first.tensor.zeroPoint (((d :: ds).map Coded.tensor).map ShapedQT.zeroPoint)).map fun zeroPoint =>
              ⟨value, scale, zeroPoint, first.tensor.bitWidth, first.tensor.signed, true⟩
          else some ⟨value, first.tensor.scale, first.tensor.zeroPoint, first.tensor.bitWidth, first.tensor.signed, false⟩ := rfl
      rw [hun, hchecks, Option.bind_some, hvals, hval, Option.bind_some, hsc, hzp]
      obtain ⟨a, a1, a2, a3⟩ := average_same first.tensor.scale (d :: ds).length
      obtain ⟨b, b1, b2, b3⟩ := average_same first.tensor.zeroPoint (d :: ds).length
      by_cases ht : ((first :: d :: ds).map Coded.tensor).any ShapedQT.training = true
      · rw [if_pos ht, a1, Option.bind_some, b1, Option.map_some]
        exact ⟨a, b, true, rfl, a2.trans hpt.1, a3 [] (by rw [hpt.1]; exact List.Forall₂.nil), b2.trans hpt.2, b3 [] (by rw [hpt.2]; exact List.Forall₂.nil)⟩
      · rw [if_neg ht]
        exact ⟨first.tensor.scale, first.tensor.zeroPoint, false, rfl, hpt.1, rfl, hpt.2, rfl⟩
  obtain ⟨sc, z, tr, m1, m2, m3, m4, m5⟩ := hmeta
  -- the values
  have hvals : ∀ d ∈ first :: rest, ∀ idx, InBounds d.tensor.value.shape idx →
      d.tensor.value.data idx = ((d.code idx : K) - first.tensor.zeroPoint.data []) * first.tensor.scale.data [] ∧
      _root_.Spec.IsCode first.tensor.signed false first.tensor.bitWidth (d.code idx) := by
    intro d hd idx hi
    have h := (hcodes d hd).codes idx hi
    have e : d.tensor.scale = first.tensor.scale ∧ d.tensor.zeroPoint = first.tensor.zeroPoint ∧ d.tensor.bitWidth = first.tensor.bitWidth ∧ d.tensor.signed = first.tensor.signed := by
      rcases List.mem_cons.1 hd with rfl | h
      · exact ⟨rfl, rfl, rfl, rfl⟩
      · exact hsame d h
    rw [e.1, e.2.1, e.2.2.1, e.2.2.2, hpt.1, hpt.2, bcIndex_nil] at h
    exact h
  subst hu
  refine ⟨_, m1, hval, ?_, m2, m3, m4, m5, rfl, rfl, ?_, ?_, ?_, ?_⟩
  · simp only [NdTensor.mk', hsizes]
  · simp only [m2]; exact broadcasts_nil _
  · simp only [m4]; exact broadcasts_nil _
  · intro idx hi
    simp only [m2, bcIndex_nil, m3]
    obtain ⟨-, -, d, hd, i, hi'⟩ := pick_codes _ _ _ _ k s hk (first :: rest) hsh hvals _ idx hi _ (inBounds_at hk hi)
    have := (hcodes d hd).scale_pos i hi'
    have e : d.tensor.scale = first.tensor.scale := by
      rcases List.mem_cons.1 hd with rfl | h
      · rfl
      · exact (hsame d h).1
    rwa [e, hpt.1, bcIndex_nil] at this
  · intro idx hi
    simp only [m2, m4, bcIndex_nil, m3, m5]
    simp only [NdTensor.mk'] at hi ⊢
    rw [if_pos hi, hsizes.symm, if_pos hi]
    have := pick_codes _ _ _ _ k s hk (first :: rest) hsh hvals _ idx hi _ (inBounds_at hk hi)
    exact ⟨this.1, this.2.1⟩

/-! ### Embeddings -/

/-- Every index is a row. -/
def RowsExist (input : NdTensor ℕ) (rows : ℕ) : Prop := ∀ idx, InBounds input.shape idx → input.data idx < rows

/-- The element of the table that an element of the result is read from. -/
def tableIndex (input : NdTensor ℕ) (idx : List ℕ) : List ℕ := [input.data (idx.take input.shape.length), idx.getD input.shape.length 0]

theorem embed_eq (input : NdTensor ℕ) (w : NdTensor K) (rows dim : ℕ) (hw : w.shape = [rows, dim]) (h : RowsExist input rows) :
    embed input w = some ⟨input.shape ++ [dim], fun idx => w.data (tableIndex input idx)⟩ := by
  unfold embed
  rw [hw]
  simp only
  rw [if_pos]
  · rfl
  · rw [List.all_eq_true]
    intro idx hi
    rw [mem_indices] at hi
    simpa using h idx hi

theorem tableIndex_inBounds {input : NdTensor ℕ} {rows dim : ℕ} (h : RowsExist input rows) {idx : List ℕ} (hi : InBounds (input.shape ++ [dim]) idx) :
    InBounds [rows, dim] (tableIndex input idx) := by
  obtain ⟨hl, hc⟩ := (SubTensor.inBounds_iff _ _).1 hi
  simp only [List.length_append, List.length_singleton] at hl
  have h1 : InBounds input.shape (idx.take input.shape.length) := by
    rw [SubTensor.inBounds_iff]
    refine ⟨by simp; omega, ?_⟩
    intro d h1 h2
    have := hc d (by omega) (by simp; omega)
    rw [List.getElem_append_left h2] at this
    simpa using this
  have h2 := hc input.shape.length (by omega) (by simp)
  rw [List.getElem_append_right (by omega)] at h2
  simp only [Nat.sub_self, List.getElem_cons_zero] at h2
  refine List.Forall₂.cons (h _ h1) (List.Forall₂.cons ?_ List.Forall₂.nil)
  rwa [List.getD_eq_getElem _ _ (by omega)]

/-- C103, embedding: with a weight quantiser that has one scale and one zero point, the layer reads rows of the codes of the quantised table: the result holds, at the scale, zero point, bit width and sign
of the quantised table, the codes of the rows. It is returned as a quant tensor or as its value. -/
theorem C103_embedding_codes (l : Embedding K) (t : TensorQuant K) (input : NdTensor ℕ) (rows dim : ℕ) (hw : l.weight.shape = [rows, dim]) (ht : l.weightQuant.tensorQuant = some t)
    (hb : 1 ≤ t.bitWidth) (hs : (t.scale l.weight).shape = []) (hz : (t.zeroPoint l.weight).shape = []) (hp : 0 < (t.scale l.weight).data []) (h : RowsExist input rows) :
    ∃ (q o : ShapedQT K) (n : List ℕ → ℤ), l.weightQuant.forward l.weight = .ok (.quant q) ∧ HoldsCodes q n ∧
      (∀ idx, InBounds [rows, dim] idx → (n idx : K) = t.cfg.toInt (stepOf t l.weight idx) (zeroOf t l.weight idx) t.bitWidth (l.weight.data idx)) ∧
      l.forward input = .ok (if l.returnQuantTensor then .quant o else .plain o.value) ∧ SameMeta q o ∧ o.value.shape = input.shape ++ [dim] ∧
      (∀ idx, o.value.data idx = q.value.data (tableIndex input idx)) ∧ HoldsCodes o fun idx => n (tableIndex input idx) := by
  obtain ⟨q, n, h1, h2, h3, h4, h5, h6, h7, h8⟩ := C98_quantiser_codes hb (by rw [hs]; exact broadcasts_nil _) (by rw [hz]; exact broadcasts_nil _)
    (by rw [hs]; intro idx hi; cases hi; exact hp) l.weightQuant.training
  rw [hw] at h2 h8
  have fw : l.weightQuant.forward l.weight = .ok (.quant q) := by simp only [WeightProxy.forward, ht, h1, Except.map]
  refine ⟨q, { q with value := ⟨input.shape ++ [dim], fun idx => q.value.data (tableIndex input idx)⟩ }, n, fw, h7, h8, ?_, ⟨rfl, rfl, rfl, rfl, rfl⟩, rfl, fun _ => rfl, ?_⟩
  · simp only [Embedding.forward, fw, Except.bind, embedding, embed_eq input q.value rows dim h2 h, Option.bind_some, h3, h4, hs, hz, List.prod_nil, lt_irrefl, or_self, if_false,
      torchOp, packOutput, isQuant, if_true]
    cases l.returnQuantTensor <;> rfl
  · refine ⟨by rw [h3, hs]; exact broadcasts_nil _, by rw [h4, hz]; exact broadcasts_nil _, ?_, ?_⟩
    · intro idx _
      simp only [h3, hs, bcIndex_nil]
      exact hp
    · intro idx hi
      simp only at hi ⊢
      have := h7.codes (tableIndex input idx) (by rw [h2]; exact tableIndex_inBounds h hi)
      simp only [h3, h4, hs, hz, bcIndex_nil] at this ⊢
      exact this

/-- C103, embedding: with a weight quantiser whose only scale and zero point do not depend on the tensor, reading the quantised table is quantising what the float layer reads. -/
theorem C103_embedding_commutes (l : Embedding K) (t : TensorQuant K) (input : NdTensor ℕ) (rows dim : ℕ) (y : NdTensor K) (hw : l.weight.shape = [rows, dim])
    (ht : l.weightQuant.tensorQuant = some t) (hb : 1 ≤ t.bitWidth) (hs : (t.scale l.weight).shape = []) (hz : (t.zeroPoint l.weight).shape = []) (hp : 0 < (t.scale l.weight).data [])
    (hst : t.scale y = t.scale l.weight) (hzt : t.zeroPoint y = t.zeroPoint l.weight) (h : RowsExist input rows) (hy : embed input l.weight = some y) :
    ∃ out q, l.forward input = .ok out ∧ t.run l.weightQuant.training y = .ok q ∧ (unpack out).shape = q.value.shape ∧
      ∀ idx, InBounds q.value.shape idx → (unpack out).data idx = q.value.data idx := by
  obtain ⟨q, o, n, h1, h2, h3, h4, h5, h6, h7, h8⟩ := C103_embedding_codes l t input rows dim hw ht hb hs hz hp h
  rw [embed_eq input l.weight rows dim hw h] at hy
  obtain rfl := Option.some.inj hy
  obtain ⟨r, m, g1, g2, g3, g4, g5, g6, g7, g8⟩ := C98_quantiser_codes (t := t) (x := ⟨input.shape ++ [dim], fun idx => l.weight.data (tableIndex input idx)⟩) hb
    (by rw [hst, hs]; exact broadcasts_nil _) (by rw [hzt, hz]; exact broadcasts_nil _) (by rw [hst, hs]; intro idx hi; cases hi; exact hp) l.weightQuant.training
  refine ⟨_, r, h4, g1, ?_, ?_⟩
  · rw [g2]; cases l.returnQuantTensor <;> exact h6
  · intro idx hi
    have e : unpack (if l.returnQuantTensor = true then LayerOut.quant o else .plain o.value) = o.value := by cases l.returnQuantTensor <;> rfl
    rw [e]
    rw [g2] at hi
    have a := (h8.codes idx (by rw [h6]; exact hi)).1
    have b := (g7.codes idx (by rw [g2]; exact hi)).1
    have tq : q.scale = t.scale l.weight ∧ q.zeroPoint = t.zeroPoint l.weight := by
      obtain ⟨q', -, e1, -, e3, e4, -⟩ := C98_quantiser_codes (t := t) (x := l.weight) hb (by rw [hs]; exact broadcasts_nil _) (by rw [hz]; exact broadcasts_nil _)
        (by rw [hs]; intro idx hi; cases hi; exact hp) l.weightQuant.training
      simp only [WeightProxy.forward, ht, e1, Except.map] at h1
      have := LayerOut.quant.inj (Except.ok.inj h1)
      exact ⟨by rw [← this]; exact e3, by rw [← this]; exact e4⟩
    have en : (n (tableIndex input idx) : K) = m idx := by
      rw [h3 _ (tableIndex_inBounds h hi), g8 idx hi]
      simp only [stepOf, zeroOf, hst, hzt, hs, hz, bcIndex_nil]
    rw [a, b, g3, g4, hst, hzt, h5.1, h5.2.1, tq.1, tq.2, hs, hz, bcIndex_nil, en]

/-- C103, embedding: without a weight quantiser the layer is the embedding of torch. -/
theorem C103_embedding_float (l : Embedding K) (input : NdTensor ℕ) (ht : l.weightQuant.tensorQuant = none) :
    l.forward input = match embed input l.weight with
      | some y => if l.returnQuantTensor then .error .notQuantTensor else .ok (.plain y)
      | none => .error .other := by
  simp only [Embedding.forward, WeightProxy.forward, ht, Except.bind, embedding]
  cases embed input l.weight with
  | none => rfl
  | some y => simp only [Option.map_some, torchOp, packOutput, isQuant]; cases l.returnQuantTensor <;> rfl

/-- C103, embedding, negation: a weight quantiser with more than one scale makes the layer raise for every input, even if it is to return a plain tensor. -/
theorem C103_embedding_many_scales_raise (l : Embedding K) (t : TensorQuant K) (input : NdTensor ℕ) (ht : l.weightQuant.tensorQuant = some t) (hs : 1 < (t.scale l.weight).shape.prod) :
    l.forward input = .error .other := by
  unfold Embedding.forward
  cases hq : l.weightQuant.forward l.weight with
  | error e =>
    simp only [WeightProxy.forward, ht] at hq
    cases hr : t.run l.weightQuant.training l.weight with
    | error e' => rw [hr] at hq; rw [← Except.error.inj hq, run_error _ _ _ _ hr]; rfl
    | ok q => rw [hr] at hq; exact absurd hq (by simp [Except.map])
  | ok w =>
    obtain ⟨q, hr, rfl⟩ := weight_of_quantised ht _ _ hq
    have : q.scale = t.scale l.weight := by
      unfold TensorQuant.run at hr
      cases hi : torchOp (intQuantTensor t.cfg t.bitWidth (t.scale l.weight) (t.zeroPoint l.weight) l.weight) with
      | error e => rw [hi] at hr; exact absurd hr (by simp [Except.map])
      | ok y => rw [hi] at hr; rw [← Except.ok.inj hr]
    simp only [Except.bind, embedding]
    cases embed input q.value with
    | none => rfl
    | some y => rw [Option.bind_some, if_pos (Or.inl (by rw [this]; exact hs))]; rfl

/-! ### Where the layers raise -/

/-- C103, negation: `QuantCat` raises for every list of tensors. -/
theorem C103_quant_cat_raises (l : IOLayer K) (tensors : List (LayerOut K)) (dim : ℤ) : ∃ e, quantCat l tensors dim = .error e := by
  unfold quantCat
  cases tensors.mapM l.inputQuant.forward with
  | error e => exact ⟨e, rfl⟩
  | ok ts => exact ⟨_, rfl⟩

/-- C103, negation: a layer with tied input and output quantisers cannot be constructed. -/
theorem C103_tied_raises (i o : ActProxy K) (r : Bool) : IOLayer.init i o true r = .error .attributeError := by
  unfold IOLayer.init
  cases h : i.isEnabled <;> simp [h, Except.bind, actQuantEnabled, Except.map]

/-- C103: without tying, the layer is constructed with the quantisers given. -/
theorem C103_untied (i o : ActProxy K) (r : Bool) : IOLayer.init i o false r = .ok ⟨i, o, r⟩ := rfl

/-- C103, negation: asking a `QuantEltwiseAdd` or `QuantCat` whether it needs an export handler raises exactly if its input quantiser is off. -/
theorem C103_export_handler_raises (l : IOLayer K) : l.requiresExportHandler = .error .attributeError ↔ l.inputQuant.isEnabled = false := by
  unfold IOLayer.requiresExportHandler
  cases l.inputQuant.isEnabled <;> simp [actQuantEnabled]

/-- C103, negation: in evaluation, with an input quantiser with one scale that depends on the input, the layer raises if the scales of its two inputs differ by more than the tolerance of
`torch.allclose`. -/
theorem C103_different_scales_raise (l : IOLayer K) (t : TensorQuant K) (x y : LayerOut K) (ht : l.inputQuant.tensorQuant = some t) (he : l.inputQuant.enabled = true)
    (htr : l.inputQuant.training = false) (hx : (t.scale (unpack x)).shape = []) (hy : (t.scale (unpack y)).shape = [])
    (hd : 1 / 10 ^ 8 + 1 / 10 ^ 5 * |(t.scale (unpack y)).data []| < |(t.scale (unpack x)).data [] - (t.scale (unpack y)).data []|) :
    eltwiseAdd l x y = .error .other := by
  unfold eltwiseAdd
  cases h1 : l.inputQuant.forward x with
  | error e => rw [actProxy_error _ _ _ h1]; rfl
  | ok a =>
    cases h2 : l.inputQuant.forward y with
    | error e => rw [actProxy_error _ _ _ h2]; rfl
    | ok b =>
      obtain ⟨q, hq, rfl⟩ := unpack_of_quantised ht he x a h1
      obtain ⟨r, hr, rfl⟩ := unpack_of_quantised ht he y b h2
      have sc : ∀ {z : NdTensor K} {p : ShapedQT K}, t.run l.inputQuant.training z = .ok p → p.scale = t.scale z ∧ p.training = l.inputQuant.training := by
        intro z p h
        unfold TensorQuant.run at h
        cases hr : torchOp (intQuantTensor t.cfg t.bitWidth (t.scale z) (t.zeroPoint z) z) with
        | error e => rw [hr] at h; exact absurd h (by simp [Except.map])
        | ok w => rw [hr] at h; rw [← Except.ok.inj h]; exact ⟨rfl, rfl⟩
      have : checkScales q r = none := by
        unfold checkScales
        rw [(sc hq).2, htr, (sc hq).1, (sc hr).1]
        simp only [Bool.false_eq_true, if_false, allcloseTensor, bcOp, hx, hy, bcShape_self, Option.map_some, Option.bind_some, indices, List.all_cons, List.all_nil, Bool.and_true,
          bcIndex_nil, allclose]
        rw [if_neg (by simpa using hd)]

      simp only [Except.bind, add, addQT, this, Option.bind_none, Option.map_none, torchOp]

/-! ### Concrete layers -/

/-- A signed quantiser of four bits with scale 1/2. -/
def Sample.q4 : TensorQuant ℚ := ⟨⟨true, false, torchRound⟩, 4, fun _ => scalarTensor (1/2), fun _ => scalarTensor 0⟩

/-- A quantiser with a scale taken of the first element. -/
def Sample.dynamic : TensorQuant ℚ := ⟨⟨true, false, torchRound⟩, 4, fun x => scalarTensor (x.data [0] / 4), fun _ => scalarTensor 0⟩

/-- No quantiser. -/
def Sample.off : ActProxy ℚ := ⟨none, true, true, false⟩

/-- `QuantEltwiseAdd` with an input quantiser only. -/
def Sample.adder (t : TensorQuant ℚ) (training : Bool) : IOLayer ℚ := ⟨⟨some t, true, true, training⟩, Sample.off, true⟩

/-- The tensor `[[0.6, 1.2, -3]]`. -/
def Sample.a : NdTensor ℚ := ⟨[1, 3], fun idx => [3/5, 6/5, -3].getD (idx.getD 1 0) 0⟩

/-- The tensor `[[0.9], [-1.3]]`. -/
def Sample.b : NdTensor ℚ := ⟨[2, 1], fun idx => [9/10, -13/10].getD (idx.getD 0 0) 0⟩

/-- Shape, values, bit width and validity of a result. -/
def Sample.show (o : Except LayerError (LayerOut ℚ)) : Option (List ℕ × List ℚ × ℕ × Option Bool) :=
  match o with
  | .ok (.quant q) => some (q.value.shape, (indices q.value.shape).map q.value.data, q.bitWidth, q.isValid (1/5))
  | .ok (.plain t) => some (t.shape, (indices t.shape).map t.data, 0, none)
  | .error _ => none

theorem Sample.q4_proper (x : NdTensor ℚ) : ProperQuant Sample.q4 x :=
  ⟨by decide, Or.inl rfl, broadcasts_nil _, broadcasts_nil _, fun _ _ => by simp [Sample.q4, scalarTensor]⟩

example : Sample.show (eltwiseAdd (Sample.adder Sample.q4 false) (.plain Sample.a) (.plain Sample.b)) =
    some ([2, 3], [3/2, 2, -2, -1, -1/2, -9/2], 5, some true) := by decide +kernel

/-- The hypotheses of `C103_eltwise_codes` are met by two tensors that broadcast against each other. -/
example : ∃ (o : ShapedQT ℚ) (n m : List ℕ → ℤ), eltwiseAdd (Sample.adder Sample.q4 false) (.plain Sample.a) (.plain Sample.b) = .ok (.quant o) ∧ o.value.shape = [2, 3] ∧
    HoldsCodes o fun idx => n (bcIndex [1, 3] idx) + m (bcIndex [2, 1] idx) := by
  obtain ⟨o, n, m, h1, h2, -, -, -, -, -, -, h3⟩ := C103_eltwise_codes (Sample.adder Sample.q4 false) Sample.q4 (.plain Sample.a) (.plain Sample.b) [2, 3] rfl rfl (Or.inl rfl)
    (Sample.q4_proper _) (Sample.q4_proper _) (by decide) rfl rfl (by decide)
  exact ⟨o, n, m, h1, h2, h3⟩

/-- The hypotheses of `C103_error_bound` are met. -/
example : InRange Sample.q4 Sample.a ∧ InRange Sample.q4 Sample.b := by
  constructor <;>
  · intro idx hi
    rw [← mem_indices] at hi
    revert idx
    decide +kernel

/-- The order does not matter in this case. -/
example : eltwiseAdd (Sample.adder Sample.q4 false) (.plain Sample.a) (.plain Sample.b) = eltwiseAdd (Sample.adder Sample.q4 false) (.plain Sample.b) (.plain Sample.a) :=
  C103_order _ Sample.q4 _ _ rfl rfl rfl

/-- A layer with an output quantiser. -/
example : Sample.show (eltwiseAdd ⟨⟨some Sample.q4, true, true, false⟩, ⟨some ⟨⟨false, false, torchRound⟩, 2, fun _ => scalarTensor 1, fun _ => scalarTensor 0⟩, true, true, false⟩, true⟩
    (.plain Sample.a) (.plain Sample.b)) = some ([2, 3], [2, 2, 0, 0, 0, 0], 2, some true) := by decide +kernel

/-- A tensor with first element 4 and one with first element 1. -/
def Sample.c : NdTensor ℚ := ⟨[2], fun idx => [4, 0].getD (idx.getD 0 0) 0⟩
def Sample.d : NdTensor ℚ := ⟨[2], fun idx => [1, 1].getD (idx.getD 0 0) 0⟩

/-- The hypotheses of `C103_different_scales_raise` are met. -/
example : eltwiseAdd (Sample.adder Sample.dynamic false) (.plain Sample.c) (.plain Sample.d) = .error .other :=
  C103_different_scales_raise _ Sample.dynamic _ _ rfl rfl rfl rfl rfl (by norm_num [Sample.dynamic, scalarTensor, unpack, Sample.c, Sample.d, abs_of_pos])

/-- C103, negation: in training, with scales that depend on the input, the layer returns a quant tensor that is not valid: its values are not multiples of the scale it declares. -/
theorem C103_training_sum_not_valid :
    Sample.show (eltwiseAdd (Sample.adder Sample.dynamic true) (.plain Sample.c) (.plain Sample.d)) = some ([2], [5, 1], 5, some false) := by decide +kernel

/-- A signed quant tensor of four bits with codes 2, 3. -/
def Sample.qt (scale : NdTensor ℚ) : ShapedQT ℚ :=
  ⟨⟨[1, 2], fun idx => (idx.getD 1 0 + 2) * scale.data (bcIndex scale.shape idx)⟩, scale, scalarTensor 0, 4, true, false⟩

theorem Sample.qt_codes (scale : NdTensor ℚ) (hs : Broadcasts scale.shape [1, 2]) (hp : ∀ idx, InBounds [1, 2] idx → 0 < scale.data (bcIndex scale.shape idx)) :
    HoldsCodes (Sample.qt scale) fun idx => (idx.getD 1 0 + 2 : ℕ) := by
  refine ⟨hs, broadcasts_nil _, hp, ?_⟩
  intro idx hi
  refine ⟨by simp [Sample.qt, scalarTensor], ?_⟩
  have hi' : idx ∈ indices [1, 2] := (mem_indices _ _).2 hi
  have e : indices [1, 2] = [[0, 0], [0, 1]] := by decide
  rw [e] at hi'
  simp only [List.mem_cons, List.not_mem_nil, or_false] at hi'
  rcases hi' with rfl | rfl <;> exact ⟨show (-8 : ℤ) ≤ _ by decide, show _ ≤ (7 : ℤ) by decide⟩

/-- C103, negation: without an input quantiser, a quant tensor plus a tensor is a quant tensor, but the tensor plus the quant tensor is not: a layer that is to return quant tensors raises for one order
only. -/
theorem C103_mixed_order_matters :
    let l : IOLayer ℚ := ⟨Sample.off, Sample.off, true⟩
    Sample.show (eltwiseAdd l (.quant (Sample.qt (scalarTensor (1/2)))) (.plain Sample.a)) = none ∧
    (Sample.show (eltwiseAdd l (.quant (Sample.qt (scalarTensor (1/2)))) (.plain Sample.d)) = some ([1, 2], [2, 5/2], 4, some true)) ∧
    eltwiseAdd l (.plain Sample.d) (.quant (Sample.qt (scalarTensor (1/2)))) = .error .notQuantTensor := by
  refine ⟨by decide +kernel, by decide +kernel, rfl⟩

/-- The hypotheses of `C103_add_tensor` and `C103_sum_codes` are met. -/
example : ∃ o, add (.quant (Sample.qt (scalarTensor (1/2)))) (.quant (Sample.qt (scalarTensor (1/2)))) = some (.quant o) ∧ o.value.shape = [1, 2] ∧ o.bitWidth = 5 := by
  have h := Sample.qt_codes (scalarTensor (1/2)) (broadcasts_nil _) (fun _ _ => by norm_num [scalarTensor])
  obtain ⟨o, h1, h2, -, -, -, h3, -, -⟩ := C103_sum_codes _ _ _ _ [1, 2] h h rfl rfl (by decide) (by decide) (by decide) (Or.inl rfl)
  exact ⟨o, h1, h2, h3⟩

/-- Two quant tensors concatenated along dimension 1. -/
example : Sample.show ((torchOp (catTensors [Sample.qt (scalarTensor (1/2)), Sample.qt (scalarTensor (1/2))] (-1))).map .quant) = some ([1, 4], [1, 3/2, 1, 3/2], 4, some true) := by
  decide +kernel

/-- The same tensor with its codes. -/
def Sample.coded : Coded ℚ := ⟨Sample.qt (scalarTensor (1/2)), fun idx => (idx.getD 1 0 + 2 : ℕ)⟩

/-- The hypotheses of `C103_cat` are met. -/
example : ∃ o, catTensors [Sample.coded.tensor, Sample.coded.tensor] (-1) = some o ∧ o.value.shape = [1, 4] := by
  have h : HoldsCodes Sample.coded.tensor Sample.coded.code := Sample.qt_codes (scalarTensor (1/2)) (broadcasts_nil _) (fun _ _ => by norm_num [scalarTensor])
  have hc : NdTensor.cat (-1) ([Sample.coded, Sample.coded].map Coded.codes) = some (NdTensor.mk' 1 [1, 0] [Sample.coded.codes, Sample.coded.codes]) :=
    cat_eq_some.2 ⟨1, [1, 0], by simp, rfl, by intro t ht; simp only [List.map_cons, List.map_nil, List.mem_cons, List.not_mem_nil, or_false, or_self] at ht; rw [ht]; rfl, rfl⟩
  obtain ⟨o, h1, -, h2, -⟩ := C103_cat Sample.coded [Sample.coded] (-1) _ (by simp) (by intro d hd; simp only [List.mem_cons, List.not_mem_nil, or_false, or_self] at hd; rw [hd]; exact h)
    (by intro d hd; simp only [List.mem_cons, List.not_mem_nil, or_false] at hd; rw [hd]; exact ⟨rfl, rfl, rfl, rfl⟩) ⟨rfl, rfl⟩ hc
  exact ⟨o, h1, h2⟩

/-- A scale for each of two columns. -/
def Sample.columns : NdTensor ℚ := ⟨[1, 2], fun idx => if idx.getD 1 0 = 0 then 1/2 else 1/4⟩

/-- C103, negation: concatenating two quant tensors with the same per-channel scales along the channels is accepted, but the result keeps the scales of the first: they do not fit its values, and reading
its integers raises. -/
theorem C103_cat_channels_broken :
    HoldsCodes (Sample.qt Sample.columns) (fun idx => (idx.getD 1 0 + 2 : ℕ)) ∧
    (catTensors [Sample.qt Sample.columns, Sample.qt Sample.columns] 1).map (fun o => (o.value.shape, o.scale.shape, o.isValid (1/5), (o.int (1/5)).isNone)) =
      some ([1, 4], [1, 2], none, true) := by
  refine ⟨Sample.qt_codes _ (broadcasts_refl _) (fun _ _ => by simp only [Sample.columns]; split_ifs <;> norm_num), by decide +kernel⟩

/-- A table of three rows. -/
def Sample.table : NdTensor ℚ := ⟨[3, 2], fun idx => idx.getD 0 0 - (3/5) * idx.getD 1 0⟩

/-- Rows 2, 0, 2, 1. -/
def Sample.ids : NdTensor ℕ := ⟨[2, 2], fun idx => [2, 0, 2, 1].getD (2 * idx.getD 0 0 + idx.getD 1 0) 0⟩

example : Sample.show ((⟨Sample.table, ⟨some Sample.q4, false⟩, true⟩ : Embedding ℚ).forward Sample.ids) = some ([2, 2, 2], [2, 3/2, 0, -1/2, 2, 3/2, 1, 1/2], 4, some true) := by
  decide +kernel

theorem Sample.rows : RowsExist Sample.ids 3 := by
  intro idx hi
  rw [← mem_indices] at hi
  revert idx
  decide +kernel

/-- The hypotheses of `C103_embedding_codes` and `C103_embedding_commutes` are met. -/
example : ∃ out q, (⟨Sample.table, ⟨some Sample.q4, false⟩, true⟩ : Embedding ℚ).forward Sample.ids = .ok out ∧ Sample.q4.run false ⟨[2, 2, 2], fun idx => Sample.table.data (tableIndex Sample.ids idx)⟩ = .ok q ∧
    (unpack out).shape = q.value.shape := by
  obtain ⟨out, q, h1, h2, h3, -⟩ := C103_embedding_commutes ⟨Sample.table, ⟨some Sample.q4, false⟩, true⟩ Sample.q4 Sample.ids 3 2
    ⟨[2, 2, 2], fun idx => Sample.table.data (tableIndex Sample.ids idx)⟩ rfl rfl (by decide) rfl rfl
    (by norm_num [Sample.q4, scalarTensor]) rfl rfl Sample.rows (embed_eq Sample.ids Sample.table 3 2 rfl Sample.rows)
  exact ⟨out, q, h1, h2, h3⟩

/-- An index that is not a row raises, in the float layer and in the quantised one. -/
example : embed ⟨[1], fun _ => 3⟩ Sample.table = none ∧ (⟨Sample.table, ⟨some Sample.q4, false⟩, false⟩ : Embedding ℚ).forward ⟨[1], fun _ => 3⟩ = .error .other := ⟨rfl, rfl⟩

/-- Two scales: the hypotheses of `C103_embedding_many_scales_raise` are met by a quantiser with a scale for each row. -/
example : (⟨Sample.table, ⟨some ⟨⟨true, false, torchRound⟩, 4, fun _ => ⟨[3, 1], fun idx => idx.getD 0 0 + 1⟩, fun _ => scalarTensor 0⟩, false⟩, false⟩ : Embedding ℚ).forward Sample.ids = .error .other :=
  C103_embedding_many_scales_raise _ _ _ rfl (by decide)

end Brevitas.Props
