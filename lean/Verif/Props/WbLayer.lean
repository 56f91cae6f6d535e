import Verif.Lemmas.WbLayer

/-!
# C98: the forward pass of a quantised layer
-/

set_option linter.unusedSectionVars false

namespace Brevitas.Props

open Brevitas NdTensor QuantConv WbLayer

variable {K : Type*} [Field K] [LinearOrder K] [IsStrictOrderedRing K] [FloorRing K]

/-! ### What the layer returns -/

/-- The layer hands a quant tensor to its function: its input quantiser is on, or it is given a quant tensor and has no input quantiser (or one that is off and passes quant tensors
through). -/
def DeliversQuant (p : ActProxy K) (inp : LayerOut K) : Prop :=
  p.isEnabled = true ∨ (isQuant inp = true ∧ (p.tensorQuant = none ∨ p.passthrough = true))

theorem deliversQuant_iff (p : ActProxy K) (inp x : LayerOut K) (h : p.forward inp = .ok x) : isQuant x = true ↔ DeliversQuant p inp := by
  unfold ActProxy.forward at h
  unfold DeliversQuant ActProxy.isEnabled
  cases ht : p.tensorQuant with
  | none =>
    rw [ht] at h
    rw [← Except.ok.inj h]
    simp
  | some t =>
    rw [ht] at h
    cases he : p.enabled with
    | true =>
      simp only [he, if_true] at h
      cases hr : t.run p.training (unpack inp) with
      | error e => rw [hr] at h; exact absurd h (by simp [Except.map])
      | ok q => rw [hr] at h; rw [← Except.ok.inj h]; simp [isQuant]
    | false =>
      simp only [he, Bool.false_eq_true, if_false] at h
      cases hp : p.passthrough <;> cases inp <;> rw [hp] at h <;> rw [← Except.ok.inj h] <;> simp [isQuant]

theorem weight_isQuant (p : WeightProxy K) (v : NdTensor K) (w : LayerOut K) (h : p.forward v = .ok w) : isQuant w = p.tensorQuant.isSome := by
  unfold WeightProxy.forward at h
  cases ht : p.tensorQuant with
  | none => rw [ht] at h; rw [← Except.ok.inj h]; rfl
  | some t =>
    rw [ht] at h
    cases hr : t.run p.training v with
    | error e => simp only [hr] at h; exact absurd h (by simp [Except.map])
    | ok q => simp only [hr] at h; rw [← Except.ok.inj h]; rfl

theorem torchOp_error {α : Type*} (o : Option α) (e : LayerError) (h : torchOp o = .error e) : e = .other := by
  cases o with
  | none => exact (Except.error.inj h).symm
  | some a => exact absurd h (by simp [torchOp])

theorem run_error (t : TensorQuant K) (tr : Bool) (x : NdTensor K) (e : LayerError) (h : t.run tr x = .error e) : e = .other := by
  unfold TensorQuant.run at h
  cases hr : torchOp (intQuantTensor t.cfg t.bitWidth (t.scale x) (t.zeroPoint x) x) with
  | error e' => rw [hr] at h; rw [← Except.error.inj h]; exact torchOp_error _ _ hr
  | ok q => rw [hr] at h; exact absurd h (by simp [Except.map])

theorem externalRun_error (c : IntQuantCfg K) (bw : ℕ) (tr : Bool) (x s : NdTensor K) (e : LayerError) (h : externalRun c bw tr x s = .error e) : e = .other := by
  unfold externalRun at h
  cases hr : torchOp (intQuantTensor c bw s ⟨[], fun _ => 0⟩ x) with
  | error e' => rw [hr] at h; rw [← Except.error.inj h]; exact torchOp_error _ _ hr
  | ok q => rw [hr] at h; exact absurd h (by simp [Except.map])

theorem actProxy_error (p : ActProxy K) (x : LayerOut K) (e : LayerError) (h : p.forward x = .error e) : e = .other := by
  unfold ActProxy.forward at h
  cases ht : p.tensorQuant with
  | none => rw [ht] at h; exact absurd h (by simp)
  | some t =>
    rw [ht] at h
    cases he : p.enabled with
    | true =>
      simp only [he, if_true] at h
      cases hr : t.run p.training (unpack x) with
      | error e' => rw [hr] at h; rw [← Except.error.inj h]; exact run_error _ _ _ _ hr
      | ok q => rw [hr] at h; exact absurd h (by simp [Except.map])
    | false =>
      simp only [he, Bool.false_eq_true, if_false] at h
      cases hp : p.passthrough <;> cases x <;> rw [hp] at h <;> exact absurd h (by simp)

theorem bias_error (p : BiasProxy K) (fn : LayerFn) (b : NdTensor K) (x w : LayerOut K) (e : LayerError) (h : p.forward fn b x w = .error e) :
    e = .other ∨ e = .inputScaleRequired := by
  unfold BiasProxy.forward at h
  have mapErr : ∀ {α β : Type _} (r : Except LayerError α) (f : α → β), r.map f = .error e → r = .error e := by
    intro α β r f h; cases r with
    | error e' => rw [← Except.error.inj h]
    | ok a => exact absurd h (by simp [Except.map])
  have ext : ∀ cfg bw s, (externalRun cfg bw p.training b s).map BiasTensor.int = .error e → e = .other := fun cfg bw s h => externalRun_error _ _ _ _ _ _ (mapErr _ _ h)
  cases hq : p.quant with
  | own t => rw [hq] at h; exact Or.inl (run_error _ _ _ _ (mapErr _ _ h))
  | none =>
    rw [hq] at h
    cases x <;> cases w <;> first | exact Or.inl (torchOp_error _ _ (mapErr _ _ h)) | exact absurd h (by simp)
  | external cfg bw =>
    rw [hq] at h
    cases x <;> cases w <;> simp only at h
    case quant.quant x w =>
      cases hs : torchOp (proxyBiasScale fn x.value.shape.length x.scale w.scale) with
      | error e' => rw [hs] at h; rw [← Except.error.inj h]; exact Or.inl (torchOp_error _ _ hs)
      | ok s => rw [hs] at h; exact Or.inl (ext _ _ _ h)
    all_goals
      cases hc : p.cachedScale with
      | some s => rw [hc] at h; exact Or.inl (ext _ _ _ h)
      | none => rw [hc] at h; exact Or.inr (Except.error.inj h).symm

theorem inner_error (fn : LayerFn) (x w : LayerOut K) (b : BiasTensor K) (e : LayerError) (h : innerForward fn x w b = .error e) : e = .other := by
  cases x <;> cases w <;> exact torchOp_error _ _ h

/-- C98: the layer reports that it is not configured correctly exactly if it is to return a quant tensor, it has no output quantiser that is on, and not both its input and its weight are
quantised (given that quantising input and weight does not raise). -/
theorem C98_not_configured (l : Layer K) (inp x w : LayerOut K) (hx : l.inputQuant.forward inp = .ok x) (hw : l.weightQuant.forward l.weight = .ok w) :
    l.forward inp = .error .notConfigured ↔
      l.returnQuantTensor = true ∧ l.outputQuant.isEnabled = false ∧ ¬(DeliversQuant l.inputQuant inp ∧ l.weightQuant.tensorQuant.isSome = true) := by
  rw [← deliversQuant_iff _ _ _ hx, ← weight_isQuant _ _ _ hw]
  unfold Layer.forward
  simp only [hx, hw, Except.bind]
  constructor
  · intro h
    split_ifs at h with hc
    · obtain ⟨h1, h2⟩ := hc
      refine ⟨h2, ?_, ?_⟩
      · cases ho : l.outputQuant.isEnabled with
        | false => rfl
        | true => rw [ho] at h1; simp at h1
      · rintro ⟨h3, h4⟩; rw [h3, h4] at h1; simp at h1
    · exfalso
      cases hb : l.quantBias x w with
      | error e =>
        simp only [hb] at h
        obtain rfl := Except.error.inj h
        unfold Layer.quantBias at hb
        split at hb
        · exact absurd hb (by simp)
        · rcases bias_error _ _ _ _ _ _ hb with h | h <;> exact absurd h (by simp)
      | ok b =>
        simp only [hb] at h
        cases hi : innerForward l.fn x w b with
        | error e => simp only [hi] at h; obtain rfl := Except.error.inj h; exact absurd (inner_error _ _ _ _ _ hi) (by simp)
        | ok y =>
          simp only [hi] at h
          cases ho : l.outputQuant.forward y with
          | error e => simp only [ho] at h; obtain rfl := Except.error.inj h; exact absurd (actProxy_error _ _ _ ho) (by simp)
          | ok y' =>
            simp only [ho, packOutput] at h
            split_ifs at h
            exact absurd (Except.error.inj h) (by simp)
  · rintro ⟨h1, h2, h3⟩
    rw [if_pos]
    refine ⟨?_, h1⟩
    rw [h2, Bool.or_false]
    simpa using h3

/-- C98: a layer that returns, returns a quant tensor exactly if `return_quant_tensor` is set. -/
theorem C98_result_kind (l : Layer K) (inp out : LayerOut K) (h : l.forward inp = .ok out) : isQuant out = l.returnQuantTensor := by
  unfold Layer.forward at h
  cases hx : l.inputQuant.forward inp with
  | error e => rw [hx] at h; exact absurd h (by simp [Except.bind])
  | ok x =>
    cases hw : l.weightQuant.forward l.weight with
    | error e => rw [hx, hw] at h; exact absurd h (by simp [Except.bind])
    | ok w =>
      simp only [hx, hw, Except.bind] at h
      split_ifs at h
      cases hb : l.quantBias x w with
      | error e => simp only [hb] at h; exact absurd h (by simp)
      | ok b =>
        simp only [hb] at h
        cases hi : innerForward l.fn x w b with
        | error e => simp only [hi] at h; exact absurd h (by simp)
        | ok y =>
          simp only [hi] at h
          cases ho : l.outputQuant.forward y with
          | error e => simp only [ho] at h; exact absurd h (by simp)
          | ok y' =>
            simp only [ho, packOutput] at h
            split_ifs at h with h1 h2
            · rw [← Except.ok.inj h, h1, h2]
            · rw [← Except.ok.inj h]; simpa [isQuant] using h1

/-- C98: without quantisers (or with all of them off), the layer is the float layer, on plain tensors and on the values of quant tensors. -/
theorem C98_float_layer (l : Layer K) (inp : LayerOut K) (hin : l.inputQuant.isEnabled = false) (hw : l.weightQuant.tensorQuant = none) (hb : l.biasQuant.quant = .none)
    (ho : l.outputQuant.isEnabled = false) (hr : l.returnQuantTensor = false) :
    l.forward inp = match l.fn.apply (unpack inp) l.weight (l.bias.map NdTensor.data) with
      | some y => .ok (.plain y)
      | none => .error .other := by
  have act : ∀ (p : ActProxy K) (v : LayerOut K), p.isEnabled = false → ∃ x, p.forward v = .ok x ∧ unpack x = unpack v := by
    intro p v hp
    unfold ActProxy.isEnabled at hp
    unfold ActProxy.forward
    cases ht : p.tensorQuant with
    | none => exact ⟨v, rfl, rfl⟩
    | some t =>
      rw [ht] at hp
      simp only [Option.isSome_some, Bool.true_and] at hp
      simp only [hp, Bool.false_eq_true, if_false]
      cases p.passthrough <;> cases v <;> exact ⟨_, rfl, rfl⟩
  obtain ⟨x, hx, hxv⟩ := act l.inputQuant inp hin
  have hwf : l.weightQuant.forward l.weight = .ok (.plain l.weight) := by rw [WeightProxy.forward, hw]
  have hbf : ∃ b, l.quantBias x (.plain l.weight) = .ok b ∧ b.value = l.bias := by
    unfold Layer.quantBias
    cases hbb : l.bias with
    | none => exact ⟨_, rfl, rfl⟩
    | some b => exact ⟨.float b, by simp only [BiasProxy.forward, hb], rfl⟩
  obtain ⟨b, hb1, hb2⟩ := hbf
  have hinner : innerForward l.fn x (.plain l.weight) b = torchOp ((l.fn.apply (unpack inp) l.weight (l.bias.map NdTensor.data)).map .plain) := by
    rw [← hxv, ← hb2]; cases x <;> rfl
  unfold Layer.forward
  simp only [hx, hwf, Except.bind, hr, Bool.false_eq_true, and_false, if_false, hb1, hinner]
  cases hy : l.fn.apply (unpack inp) l.weight (l.bias.map NdTensor.data) with
  | none => rfl
  | some y =>
    obtain ⟨y', hy', hv⟩ := act l.outputQuant (.plain y) ho
    simp only [Option.map_some, torchOp, hy', packOutput, Bool.false_eq_true, if_false, hv]
    rfl

/-! ### Quantisers -/

/-- The scale of a quantiser for an element. -/
def stepOf (t : TensorQuant K) (x : NdTensor K) (idx : List ℕ) : K := (t.scale x).data (bcIndex (t.scale x).shape idx)

/-- The zero point of a quantiser for an element. -/
def zeroOf (t : TensorQuant K) (x : NdTensor K) (idx : List ℕ) : K := (t.zeroPoint x).data (bcIndex (t.zeroPoint x).shape idx)

/-- A quantiser that rounds to nearest, with positive scales and with scales and zero points that broadcast to the tensor. -/
structure ProperQuant (t : TensorQuant K) (x : NdTensor K) : Prop where
  bits : 1 ≤ t.bitWidth
  rounds : t.cfg.floatToInt = torchRound ∨ t.cfg.floatToInt = dpuRound
  scale_shape : Broadcasts (t.scale x).shape x.shape
  zero_shape : Broadcasts (t.zeroPoint x).shape x.shape
  scale_pos : ∀ idx, InBounds (t.scale x).shape idx → 0 < (t.scale x).data idx

/-- No element is out of the range of the quantiser. -/
def InRange (t : TensorQuant K) (x : NdTensor K) : Prop :=
  ∀ idx, InBounds x.shape idx → ((Spec.lo t.cfg.signed t.cfg.narrow t.bitWidth : ℤ) - zeroOf t x idx) * stepOf t x idx ≤ x.data idx ∧
    x.data idx ≤ ((Spec.hi t.cfg.signed t.cfg.narrow t.bitWidth : ℤ) - zeroOf t x idx) * stepOf t x idx

theorem stepOf_pos {t : TensorQuant K} {x : NdTensor K} (h : ProperQuant t x) (idx : List ℕ) (hi : InBounds x.shape idx) : 0 < stepOf t x idx :=
  h.scale_pos _ (bcIndex_mem h.scale_shape hi)

/-- Half of the scales of a quantiser, element by element. -/
def halfSteps (t : TensorQuant K) (x : NdTensor K) : NdTensor K := ⟨x.shape, fun idx => stepOf t x idx / 2⟩

theorem run_half_step {t : TensorQuant K} {x : NdTensor K} (h : ProperQuant t x) (hr : InRange t x) (tr : Bool) (q : ShapedQT K) (hq : t.run tr x = .ok q) :
    q.value.shape = x.shape ∧ ∀ idx, InBounds x.shape idx → |q.value.data idx - x.data idx| ≤ (halfSteps t x).data idx := by
  rw [run_eq t tr x h.scale_shape h.zero_shape] at hq
  obtain rfl := Except.ok.inj hq
  refine ⟨rfl, ?_⟩
  intro idx hi
  have h1 := hr idx hi
  simp only [bcIndex_inBounds hi]
  exact C04_half_step t.cfg h.rounds _ _ (stepOf_pos h idx hi) _ h.bits _ h1.1 h1.2

/-- C98, codes: a quantiser with positive scales that broadcast yields a quant tensor of codes, those that `to_int` returns. -/
theorem C98_quantiser_codes {t : TensorQuant K} {x : NdTensor K} (hb : 1 ≤ t.bitWidth) (hs : Broadcasts (t.scale x).shape x.shape)
    (hz : Broadcasts (t.zeroPoint x).shape x.shape) (hp : ∀ idx, InBounds (t.scale x).shape idx → 0 < (t.scale x).data idx) (tr : Bool) :
    ∃ q n, t.run tr x = .ok q ∧ q.value.shape = x.shape ∧ q.scale = t.scale x ∧ q.zeroPoint = t.zeroPoint x ∧ q.bitWidth = t.bitWidth ∧ q.signed = t.cfg.signed ∧ HoldsCodes q n ∧
      ∀ idx, InBounds x.shape idx → (n idx : K) = t.cfg.toInt (stepOf t x idx) (zeroOf t x idx) t.bitWidth (x.data idx) := by
  refine ⟨_, fun idx => code t.cfg.signed t.cfg.narrow t.bitWidth (t.cfg.floatToInt (x.data idx / stepOf t x idx + zeroOf t x idx)), run_eq t tr x hs hz, rfl, rfl, rfl, rfl, rfl,
    ⟨hs, hz, fun idx hi => hp _ (bcIndex_mem hs hi), ?_⟩, fun idx _ => (toInt_eq_code _ _ _ hb _).symm⟩
  intro idx hi
  simp only at hi
  refine ⟨?_, ?_⟩
  · simp only [IntQuantCfg.forward, bcIndex_inBounds hi, toInt_eq_code _ _ _ hb]
    rfl
  · have h1 := code_isCode t.cfg.signed t.cfg.narrow hb (t.cfg.floatToInt (x.data idx / stepOf t x idx + zeroOf t x idx))
    refine ⟨le_trans ?_ h1.1, le_trans h1.2 ?_⟩
    · cases t.cfg.signed <;> cases t.cfg.narrow <;> simp [Spec.lo]
    · cases t.cfg.signed <;> cases t.cfg.narrow <;> simp [Spec.hi]

/-! ### The result is that of the float layer up to the quantisation steps -/

theorem unpack_of_quantised {p : ActProxy K} {t : TensorQuant K} (ht : p.tensorQuant = some t) (he : p.enabled = true) (inp x : LayerOut K) (h : p.forward inp = .ok x) :
    ∃ q, t.run p.training (unpack inp) = .ok q ∧ x = .quant q := by
  unfold ActProxy.forward at h
  simp only [ht, he, if_true] at h
  cases hr : t.run p.training (unpack inp) with
  | error e => rw [hr] at h; exact absurd h (by simp [Except.map])
  | ok q => rw [hr] at h; exact ⟨q, rfl, (Except.ok.inj h).symm⟩

theorem weight_of_quantised {p : WeightProxy K} {t : TensorQuant K} (ht : p.tensorQuant = some t) (v : NdTensor K) (w : LayerOut K) (h : p.forward v = .ok w) :
    ∃ q, t.run p.training v = .ok q ∧ w = .quant q := by
  unfold WeightProxy.forward at h
  simp only [ht] at h
  cases hr : t.run p.training v with
  | error e => rw [hr] at h; exact absurd h (by simp [Except.map])
  | ok q => rw [hr] at h; exact ⟨q, rfl, (Except.ok.inj h).symm⟩

/-- C98, error bound: whenever a layer with an input and a weight quantiser, and with a float bias or none, returns, its result is that of the float layer up to
`L(|x|, Δw) + L(Δx, |w|) + L(Δx, Δw)`, where `L` is the layer without bias and `Δ` half of the scales. This holds for static and dynamic scales of any shape, with or without zero
points, for values within the range of the quantisers. -/
theorem C98_error_bound (l : Layer K) (tx tw : TensorQuant K) (inp out : LayerOut K) (y : NdTensor K) (hin : l.inputQuant.tensorQuant = some tx) (hie : l.inputQuant.enabled = true)
    (hw : l.weightQuant.tensorQuant = some tw) (hb : l.biasQuant.quant = .none) (ho : l.outputQuant.isEnabled = false)
    (px : ProperQuant tx (unpack inp)) (pw : ProperQuant tw l.weight) (rx : InRange tx (unpack inp)) (rw' : InRange tw l.weight)
    (hy : l.fn.apply (unpack inp) l.weight (l.bias.map NdTensor.data) = some y) (h : l.forward inp = .ok out) :
    ∃ A B C, l.fn.apply (absNd (unpack inp)) (halfSteps tw l.weight) none = some A ∧ l.fn.apply (halfSteps tx (unpack inp)) (absNd l.weight) none = some B ∧
      l.fn.apply (halfSteps tx (unpack inp)) (halfSteps tw l.weight) none = some C ∧ A.shape = y.shape ∧ B.shape = y.shape ∧ C.shape = y.shape ∧ (unpack out).shape = y.shape ∧
      ∀ idx, InBounds y.shape idx → |(unpack out).data idx - y.data idx| ≤ A.data idx + B.data idx + C.data idx := by
  obtain ⟨x, w, b, y', hx, hwf, hbf, hyf, hv⟩ := forward_steps l inp out ho h
  obtain ⟨qx, hqx, rfl⟩ := unpack_of_quantised hin hie inp x hx
  obtain ⟨qw, hqw, rfl⟩ := weight_of_quantised hw _ w hwf
  have hbv : b.value = l.bias := by
    unfold Layer.quantBias at hbf
    cases hbb : l.bias with
    | none => rw [hbb] at hbf; rw [← Except.ok.inj hbf]; rfl
    | some v =>
      rw [hbb] at hbf
      simp only [BiasProxy.forward, hb] at hbf
      cases hs : torchOp (proxyBiasScale l.fn qx.value.shape.length qx.scale qw.scale) with
      | error e => rw [hs] at hbf; exact absurd hbf (by simp [Except.map])
      | ok s => rw [hs] at hbf; rw [← Except.ok.inj hbf]; rfl
  have ha := innerForward_value _ _ _ _ _ hyf
  obtain ⟨sx, ex⟩ := run_half_step px rx _ qx hqx
  obtain ⟨sw, ew⟩ := run_half_step pw rw' _ qw hqw
  obtain ⟨A, B, C, h1, h2, h3, h4, h5, h6, h7, h8⟩ := apply_perturbed l.fn (unpack inp) l.weight qx.value qw.value (halfSteps tx (unpack inp)) (halfSteps tw l.weight) _ _ y (unpack y')
    sx sw rfl rfl ex ew hy ha (fun _ => 0) (fun c => Or.inl (by rw [hbv]; simp))
  rw [hv]
  exact ⟨A, B, C, h1, h2, h3, h4, h5, h6, h7, fun idx hidx => by simpa using h8 idx hidx⟩

/-! ### The result is computed on integers -/

/-- A quantiser without zero point and with one scale. -/
structure SymmetricOne (t : TensorQuant K) (x : NdTensor K) : Prop where
  bits : 1 ≤ t.bitWidth
  one : ∃ k, k ≤ x.shape.length ∧ (t.scale x).shape = List.replicate k 1
  scale_pos : ∀ idx, InBounds (t.scale x).shape idx → 0 < (t.scale x).data idx
  zero_shape : Broadcasts (t.zeroPoint x).shape x.shape
  zero : ∀ idx, InBounds (t.zeroPoint x).shape idx → (t.zeroPoint x).data idx = 0

/-- A weight quantiser without zero point, with one scale or one for every output channel (not for transposed convolutions with groups). -/
structure SymmetricWeight (fn : LayerFn) (t : TensorQuant K) (w : NdTensor K) : Prop where
  bits : 1 ≤ t.bitWidth
  scales : (∃ k, k ≤ w.shape.length ∧ (t.scale w).shape = List.replicate k 1) ∨
    (fn.weightDim < w.shape.length ∧ (t.scale w).shape = (List.replicate w.shape.length 1).set fn.weightDim (w.shape.getD fn.weightDim 0) ∧
      ∀ s p q d g, fn = .convTranspose s p q d g → g = 1)
  scale_pos : ∀ idx, InBounds (t.scale w).shape idx → 0 < (t.scale w).data idx
  zero_shape : Broadcasts (t.zeroPoint w).shape w.shape
  zero : ∀ idx, InBounds (t.zeroPoint w).shape idx → (t.zeroPoint w).data idx = 0

/-- The layer of the integer codes. -/
structure OnIntegers (l : Layer K) (tx tw : TensorQuant K) (x : NdTensor K) (ints : NdTensor ℤ) : Prop where
  /-- the codes are those that the quantisers give to the elements of input and weight -/
  codes : ∃ n m : NdTensor ℤ, n.shape = x.shape ∧ m.shape = l.weight.shape ∧ l.fn.apply n m none = some ints ∧
    (∀ idx, InBounds x.shape idx → (n.data idx : K) = tx.cfg.toInt (stepOf tx x idx) 0 tx.bitWidth (x.data idx)) ∧
    ∀ idx, InBounds l.weight.shape idx → (m.data idx : K) = tw.cfg.toInt (stepOf tw l.weight idx) 0 tw.bitWidth (l.weight.data idx)

/-- The scale of an output channel: the scale of the input times that of the weights of the channel. -/
def accScale (tx tw : TensorQuant K) (x w : NdTensor K) (c : ℕ) : K :=
  (tw.scale w).data (fromPosition (tw.scale w).shape (if (tw.scale w).shape.prod = 1 then 0 else c)) * (tx.scale x).data (List.replicate (tx.scale x).shape.length 0)

theorem zeroOf_zero (t : TensorQuant K) (x : NdTensor K) (hs : Broadcasts (t.zeroPoint x).shape x.shape) (hz : ∀ idx, InBounds (t.zeroPoint x).shape idx → (t.zeroPoint x).data idx = 0)
    (idx : List ℕ) (hi : InBounds x.shape idx) : zeroOf t x idx = 0 := hz _ (bcIndex_mem hs hi)

/-- The quantised operands of the layer. -/
theorem operands (fn : LayerFn) (tx tw : TensorQuant K) (trx trw : Bool) (x w : NdTensor K) (y : NdTensor K) (b : Option (List ℕ → K)) (sx : SymmetricOne tx x) (sw : SymmetricWeight fn tw w)
    (hy : fn.apply x w b = some y) :
    ∃ qx qw n m ints, tx.run trx x = .ok qx ∧ tw.run trw w = .ok qw ∧ qx.value.shape = x.shape ∧ qw.value.shape = w.shape ∧ qx.scale = tx.scale x ∧ qw.scale = tw.scale w ∧
      IntLayerArgs fn qx qw n m ∧
      intLayer fn qx qw n m = some ints ∧ ints.shape = y.shape ∧
      (∀ idx, InBounds x.shape idx → (n idx : K) = tx.cfg.toInt (stepOf tx x idx) 0 tx.bitWidth (x.data idx)) ∧
      ∀ idx, InBounds w.shape idx → (m idx : K) = tw.cfg.toInt (stepOf tw w idx) 0 tw.bitWidth (w.data idx) := by
  obtain ⟨k, hk, hks⟩ := sx.one
  obtain ⟨qx, n, h1, h2, h3, h4, h5, h6, h7, h8⟩ := C98_quantiser_codes sx.bits (by rw [hks]; exact broadcasts_ones _ _ hk) sx.zero_shape sx.scale_pos trx
  have hwb : Broadcasts (tw.scale w).shape w.shape := by
    rcases sw.scales with ⟨j, hj, hjs⟩ | ⟨hd, hs, -⟩
    · rw [hjs]; exact broadcasts_ones _ _ hj
    · rw [hs]; exact ChannelScale.broadcasts_channel _ _
  obtain ⟨qw, m, g1, g2, g3, g4, g5, g6, g7, g8⟩ := C98_quantiser_codes sw.bits hwb sw.zero_shape sw.scale_pos trw
  obtain ⟨ints, hints, hshape⟩ := apply_shape fn x w b y hy (⟨qx.value.shape, n⟩ : NdTensor ℤ) ⟨qw.value.shape, m⟩ none h2 g2
  refine ⟨qx, qw, n, m, ints, h1, g1, h2, g2, h3, g3, ⟨h7, g7, ?_, ?_, ⟨k, by rw [h3, hks]⟩, ?_⟩, hints, hshape, ?_, ?_⟩
  · intro idx hi; rw [h4] at hi ⊢; exact sx.zero idx hi
  · intro idx hi; rw [g4] at hi ⊢; exact sw.zero idx hi
  · rcases sw.scales with ⟨j, hj, hjs⟩ | ⟨hd, hs, hg⟩
    · exact Or.inl ⟨j, by rw [g3, hjs]⟩
    · exact Or.inr ⟨⟨by rw [g2]; exact hd, by rw [g3, g2]; exact hs⟩, hg⟩
  · intro idx hi
    rw [h8 idx hi, zeroOf_zero tx x sx.zero_shape sx.zero idx hi]
  · intro idx hi
    rw [g8 idx hi, zeroOf_zero tw w sw.zero_shape sw.zero idx hi]

/-- The last steps of a forward pass without output quantiser on quantised operands. -/
theorem forward_of_quantised (l : Layer K) (inp : LayerOut K) (qx qw : ShapedQT K) (b : BiasTensor K) (q : ShapedQT K) (hx : l.inputQuant.forward inp = .ok (.quant qx))
    (hw : l.weightQuant.forward l.weight = .ok (.quant qw)) (hb : l.quantBias (.quant qx) (.quant qw) = .ok b) (hq : quantLayer l.fn qx qw b = some (.quant q))
    (ho : l.outputQuant.tensorQuant = none) :
    l.forward inp = .ok (if l.returnQuantTensor then .quant q else .plain q.value) := by
  have hof : ∀ v, l.outputQuant.forward v = .ok v := by intro v; unfold ActProxy.forward; simp only [ho]
  unfold Layer.forward
  simp only [hx, hw, Except.bind, isQuant, Bool.and_self, Bool.true_or, not_true_eq_false, false_and, if_false, hb, innerForward, hq, torchOp, hof, packOutput]
  cases l.returnQuantTensor <;> rfl

/-- C98, integers: a layer with symmetric input and weight quantisers, one input scale and one weight scale or one for every output channel, no bias or a float bias, and no output
quantiser, computes the layer of the integer codes, times the product of the scales, plus the bias. It does not raise if the float layer does not, except that a bias demands an input
with a batch dimension (`C98_unbatched_float_bias_raises`). -/
theorem C98_integers (l : Layer K) (tx tw : TensorQuant K) (inp : LayerOut K) (y : NdTensor K) (hin : l.inputQuant.tensorQuant = some tx) (hie : l.inputQuant.enabled = true)
    (hw : l.weightQuant.tensorQuant = some tw) (hb : l.biasQuant.quant = .none) (ho : l.outputQuant.tensorQuant = none) (sx : SymmetricOne tx (unpack inp))
    (sw : SymmetricWeight l.fn tw l.weight) (hy : l.fn.apply (unpack inp) l.weight (l.bias.map NdTensor.data) = some y)
    (hbs : ∀ b, l.bias = some b → b.shape = [y.shape.getD (l.fn.channelDim (unpack inp).shape.length) 0] ∧ 1 < (unpack inp).shape.length) :
    ∃ out ints, l.forward inp = .ok out ∧ isQuant out = l.returnQuantTensor ∧ OnIntegers l tx tw (unpack inp) ints ∧ (unpack out).shape = y.shape ∧ ints.shape = y.shape ∧
      ∀ idx, InBounds y.shape idx → (unpack out).data idx =
        (ints.data idx : K) * accScale tx tw (unpack inp) l.weight (idx.getD (l.fn.channelDim (unpack inp).shape.length) 0) +
          (l.bias.map fun b => b.data [idx.getD (l.fn.channelDim (unpack inp).shape.length) 0]).getD 0 := by
  obtain ⟨qx, qw, n, m, ints, h1, h2, h3, h4, h5, h6, h7, h8, h9, h10, h11⟩ := operands l.fn tx tw l.inputQuant.training l.weightQuant.training (unpack inp) l.weight y _ sx sw hy
  have hxf : l.inputQuant.forward inp = .ok (.quant qx) := by simp only [ActProxy.forward, hin, hie, if_true, h1]; rfl
  have hwf : l.weightQuant.forward l.weight = .ok (.quant qw) := by simp only [WeightProxy.forward, hw, h2]; rfl
  obtain ⟨S, acc, hS, hacc, hSs, hd, -⟩ := layer_core h7 h8
  obtain ⟨B, hB, -⟩ := proxyBiasScale_eq l.fn qx.value.shape.length qx qw h7.x_scale hd
  have hbias : ∃ b, l.quantBias (.quant qx) (.quant qw) = .ok b ∧ b.value = l.bias ∧ BiasOk l.fn qx qw (ints.shape.getD (l.fn.channelDim qx.value.shape.length) 0) b := by
    unfold Layer.quantBias
    cases hbb : l.bias with
    | none => exact ⟨.none, rfl, rfl, .none⟩
    | some b =>
      refine ⟨.float b, ?_, rfl, .float b ?_ ?_⟩
      · simp only [BiasProxy.forward, hb, hB, torchOp]; rfl
      · rw [h9, h3]; exact (hbs b hbb).1
      · rw [h3]; exact (hbs b hbb).2
  obtain ⟨b, hb1, hb2, hb3⟩ := hbias
  obtain ⟨q, hq1, hq2, hq3⟩ := quantLayer_value h7 h8 b hb3
  have hf := forward_of_quantised l inp qx qw b q hxf hwf hb1 hq1 ho
  refine ⟨_, ints, hf, C98_result_kind l inp _ hf, ⟨⟨⟨qx.value.shape, n⟩, ⟨qw.value.shape, m⟩, h3, h4, h8, h10, h11⟩⟩, ?_, h9, ?_⟩
  · rw [← h9, ← hq2]; cases l.returnQuantTensor <;> rfl
  · intro idx hidx
    have e := hq3 idx (by rw [h9]; exact hidx)
    rw [h3, hb2] at e
    have hu : unpack (if l.returnQuantTensor then LayerOut.quant q else .plain q.value) = q.value := by cases l.returnQuantTensor <;> rfl
    rw [hu, e, accScale, channelScale, oneScale, h5, h6]

/-- C98, integers, quantised bias: the same with a bias quantiser that takes its scale from the layer. The codes of the bias are those of `to_int` for the scale of the accumulator, and
they are added to the integers. -/
theorem C98_integers_quantised_bias (l : Layer K) (tx tw : TensorQuant K) (cb : IntQuantCfg K) (bb : ℕ) (inp : LayerOut K) (y b : NdTensor K) (hin : l.inputQuant.tensorQuant = some tx)
    (hie : l.inputQuant.enabled = true) (hw : l.weightQuant.tensorQuant = some tw) (hbias : l.bias = some b) (hb : l.biasQuant.quant = .external cb bb) (hbb : 1 ≤ bb)
    (ho : l.outputQuant.tensorQuant = none) (sx : SymmetricOne tx (unpack inp)) (sw : SymmetricWeight l.fn tw l.weight)
    (hy : l.fn.apply (unpack inp) l.weight (l.bias.map NdTensor.data) = some y) (hbs : b.shape = [y.shape.getD (l.fn.channelDim (unpack inp).shape.length) 0])
    (hr : 1 < (unpack inp).shape.length ∨ l.fn = .linear) :
    ∃ out ints, ∃ bi : ℕ → ℤ, l.forward inp = .ok out ∧ isQuant out = l.returnQuantTensor ∧ OnIntegers l tx tw (unpack inp) ints ∧ (unpack out).shape = y.shape ∧ ints.shape = y.shape ∧
      (∀ c < y.shape.getD (l.fn.channelDim (unpack inp).shape.length) 0, (bi c : K) = cb.toInt (accScale tx tw (unpack inp) l.weight c) 0 bb (b.data [c])) ∧
      ∀ idx, InBounds y.shape idx → (unpack out).data idx =
        ((ints.data idx + bi (idx.getD (l.fn.channelDim (unpack inp).shape.length) 0) : ℤ) : K) *
          accScale tx tw (unpack inp) l.weight (idx.getD (l.fn.channelDim (unpack inp).shape.length) 0) := by
  obtain ⟨qx, qw, n, m, ints, h1, h2, h3, h4, h5, h6, h7, h8, h9, h10, h11⟩ := operands l.fn tx tw l.inputQuant.training l.weightQuant.training (unpack inp) l.weight y _ sx sw hy
  have hxf : l.inputQuant.forward inp = .ok (.quant qx) := by simp only [ActProxy.forward, hin, hie, if_true, h1]; rfl
  have hwf : l.weightQuant.forward l.weight = .ok (.quant qw) := by simp only [WeightProxy.forward, hw, h2]; rfl
  obtain ⟨S, acc, hS, hacc, hSs, hd, hlen, hP, -⟩ := layer_core h7 h8
  obtain ⟨B, hB, hBs, hBd⟩ := proxyBiasScale_eq l.fn qx.value.shape.length qx qw h7.x_scale hd
  rw [h3, h9] at hP
  have hbr : Broadcasts B.shape b.shape := by
    rw [hBs, hbs]
    refine ⟨by simp, ?_⟩
    simp only [List.length_cons, List.length_nil, Nat.sub_self, List.drop_zero]
    exact List.Forall₂.cons hP List.Forall₂.nil
  let qb : ShapedQT K := ⟨⟨b.shape, fun idx => cb.forward (B.data (bcIndex B.shape idx)) 0 bb (b.data (bcIndex b.shape idx))⟩, B, ⟨[], fun _ => 0⟩, bb, cb.signed, l.biasQuant.training⟩
  have hqb : l.quantBias (.quant qx) (.quant qw) = .ok (.int qb) := by
    simp only [Layer.quantBias, hbias, BiasProxy.forward, hb, hB, torchOp, Except.bind, externalRun, intQuantTensor_eq cb bb B ⟨[], fun _ => 0⟩ b hbr (broadcasts_nil _)]
    rfl
  obtain ⟨q, hq1, hq2, hq3⟩ := quantLayer_value h7 h8 (.int qb) (.int qb (by rw [h9, h3]; exact hbs) (by rw [h3]; exact hr) hB)
  have hf := forward_of_quantised l inp qx qw (.int qb) q hxf hwf hqb hq1 ho
  refine ⟨_, ints, fun c => code cb.signed cb.narrow bb (cb.floatToInt (b.data [c] / accScale tx tw (unpack inp) l.weight c + 0)), hf, C98_result_kind l inp _ hf,
    ⟨⟨⟨qx.value.shape, n⟩, ⟨qw.value.shape, m⟩, h3, h4, h8, h10, h11⟩⟩, ?_, h9, ?_, ?_⟩
  · rw [← h9, ← hq2]; cases l.returnQuantTensor <;> rfl
  · intro c _
    rw [toInt_eq_code _ _ _ hbb]
  · intro idx hidx
    have e := hq3 idx (by rw [h9]; exact hidx)
    have hu : unpack (if l.returnQuantTensor then LayerOut.quant q else .plain q.value) = q.value := by cases l.returnQuantTensor <;> rfl
    rw [hu, e]
    simp only [h3, BiasTensor.value, Option.map_some, Option.getD_some, qb]
    set c := idx.getD (l.fn.channelDim (unpack inp).shape.length) 0 with hc
    have hclt : c < y.shape.getD (l.fn.channelDim (unpack inp).shape.length) 0 := by
      have hl : (l.fn.channelDim (unpack inp).shape.length) < y.shape.length := by rw [← h9, hlen]; rw [h3] at hd ⊢; exact hd
      rw [hc, List.getD_eq_getElem _ _ (by rw [show idx.length = y.shape.length from hidx.length_eq]; exact hl), List.getD_eq_getElem _ _ hl]
      exact (List.forall₂_iff_get.1 hidx).2 _ _ _
    have hin1 : InBounds b.shape [c] := by rw [hbs]; exact List.Forall₂.cons hclt List.Forall₂.nil
    have hidxB : bcIndex B.shape [c] = [if qw.scale.shape.prod = 1 then 0 else c] := by rw [hBs]; simp [bcIndex]
    rw [bcIndex_inBounds hin1, hidxB, hBd c (by rcases hP with h | h; exact Or.inl h; right; rw [h]; exact hclt)]
    have hacc' : channelScale qw c * oneScale qx = accScale tx tw (unpack inp) l.weight c := by rw [accScale, channelScale, oneScale, h5, h6]
    rw [hacc', IntQuantCfg.forward, toInt_eq_code _ _ _ hbb]
    push_cast
    ring

/-- C98, error bound with a quantised bias: with a bias quantiser that takes its scale from the layer the bound grows by half of the scale of the accumulator. -/
theorem C98_error_bound_quantised_bias (l : Layer K) (tx tw : TensorQuant K) (cb : IntQuantCfg K) (bb : ℕ) (inp : LayerOut K) (y b : NdTensor K)
    (hin : l.inputQuant.tensorQuant = some tx) (hie : l.inputQuant.enabled = true) (hw : l.weightQuant.tensorQuant = some tw) (hbias : l.bias = some b)
    (hb : l.biasQuant.quant = .external cb bb) (hbb : 1 ≤ bb) (hbr : cb.floatToInt = torchRound ∨ cb.floatToInt = dpuRound) (ho : l.outputQuant.tensorQuant = none)
    (sx : SymmetricOne tx (unpack inp)) (sw : SymmetricWeight l.fn tw l.weight) (px : ProperQuant tx (unpack inp)) (pw : ProperQuant tw l.weight) (rx : InRange tx (unpack inp))
    (rw' : InRange tw l.weight) (hy : l.fn.apply (unpack inp) l.weight (l.bias.map NdTensor.data) = some y)
    (hbs : b.shape = [y.shape.getD (l.fn.channelDim (unpack inp).shape.length) 0]) (hr : 1 < (unpack inp).shape.length ∨ l.fn = .linear)
    (rb : ∀ c < y.shape.getD (l.fn.channelDim (unpack inp).shape.length) 0, ((Spec.lo cb.signed cb.narrow bb : ℤ) : K) * accScale tx tw (unpack inp) l.weight c ≤ b.data [c] ∧
      b.data [c] ≤ ((Spec.hi cb.signed cb.narrow bb : ℤ) : K) * accScale tx tw (unpack inp) l.weight c) :
    ∃ out A B C, l.forward inp = .ok out ∧ l.fn.apply (absNd (unpack inp)) (halfSteps tw l.weight) none = some A ∧
      l.fn.apply (halfSteps tx (unpack inp)) (absNd l.weight) none = some B ∧ l.fn.apply (halfSteps tx (unpack inp)) (halfSteps tw l.weight) none = some C ∧
      (unpack out).shape = y.shape ∧ ∀ idx, InBounds y.shape idx → |(unpack out).data idx - y.data idx| ≤ A.data idx + B.data idx + C.data idx +
        accScale tx tw (unpack inp) l.weight (idx.getD (l.fn.channelDim (unpack inp).shape.length) 0) / 2 := by
  obtain ⟨qx, qw, n, m, ints, h1, h2, h3, h4, h5, h6, h7, h8, h9, h10, h11⟩ := operands l.fn tx tw l.inputQuant.training l.weightQuant.training (unpack inp) l.weight y _ sx sw hy
  obtain ⟨out, ints', bi, g1, g2, ⟨⟨n', m', g3, g4, g5, g6, g7⟩⟩, g8, g9, g10, g11⟩ :=
    C98_integers_quantised_bias l tx tw cb bb inp y b hin hie hw hbias hb hbb ho sx sw hy hbs hr
  have hpos : ∀ idx, InBounds y.shape idx → 0 < accScale tx tw (unpack inp) l.weight (idx.getD (l.fn.channelDim (unpack inp).shape.length) 0) := by
    intro idx hidx
    have := scales_pos h7 h8 (by intro i hi; rw [h5] at hi ⊢; exact sx.scale_pos i hi) (by intro i hi; rw [h6] at hi ⊢; exact sw.scale_pos i hi) idx (by rw [h9]; exact hidx)
    rw [h3] at this
    rwa [accScale, ← h5, ← h6]
  -- the layer with float bias gives the same up to the bias
  obtain ⟨y1, hy1, hy1s⟩ := apply_shape l.fn _ _ _ y hy qx.value qw.value (some fun i => (bi (i.getD 0 0) : K) * accScale tx tw (unpack inp) l.weight (i.getD 0 0)) h3 h4
  obtain ⟨e1, d1⟩ := run_half_step px rx _ qx h1
  obtain ⟨e2, d2⟩ := run_half_step pw rw' _ qw h2
  obtain ⟨A, B, C, k1, k2, k3, k4, k5, k6, k7, k8⟩ := apply_perturbed l.fn (unpack inp) l.weight qx.value qw.value (halfSteps tx (unpack inp)) (halfSteps tw l.weight) _ _ y y1
    e1 e2 rfl rfl d1 d2 hy hy1 (fun c => accScale tx tw (unpack inp) l.weight c / 2) (by
      intro c
      by_cases hc : ∃ idx, InBounds y.shape idx ∧ idx.getD (l.fn.channelDim (unpack inp).shape.length) 0 = c
      · left
        obtain ⟨idx, hidx, rfl⟩ := hc
        have hp := hpos idx hidx
        set c := idx.getD (l.fn.channelDim (unpack inp).shape.length) 0 with hc
        obtain ⟨S, acc, hS, hacc, hSs, hd, hlen, -⟩ := layer_core h7 h8
        have hclt : c < y.shape.getD (l.fn.channelDim (unpack inp).shape.length) 0 := by
          have hl : (l.fn.channelDim (unpack inp).shape.length) < y.shape.length := by rw [← h9, hlen]; rw [h3] at hd ⊢; exact hd
          rw [hc, List.getD_eq_getElem _ _ (by rw [show idx.length = y.shape.length from hidx.length_eq]; exact hl), List.getD_eq_getElem _ _ hl]
          exact (List.forall₂_iff_get.1 hidx).2 _ _ _
        have hh := C04_half_step cb hbr (accScale tx tw (unpack inp) l.weight c) 0 hp bb hbb (b.data [c]) (by simpa using (rb c hclt).1) (by simpa using (rb c hclt).2)
        simp only [IntQuantCfg.forward, sub_zero] at hh
        rw [← g10 c hclt] at hh
        simpa [hbias] using hh
      · exact Or.inr fun idx hidx he => hc ⟨idx, hidx, he⟩)
  refine ⟨out, A, B, C, g1, k1, k2, k3, g8, ?_⟩
  intro idx hidx
  have hsame : (unpack out).data idx = y1.data idx := by
    obtain ⟨S, acc, hS, hacc, hSs, hd, hlen, hP, hbr', hat, hsc, hcc⟩ := layer_core h7 h8
    rw [g11 idx hidx]
    have t1 := (apply_terms l.fn _ _ _ _ hy1 idx (by rw [hy1s]; exact hidx)).2
    obtain ⟨y2, hy2, hy2s, hy2d, -⟩ := hcc .none
    have t2 := (apply_terms l.fn _ _ _ _ hy2 idx (by rw [hy2s, h9]; exact hidx)).2
    have t3 := hy2d idx (by rw [h9]; exact hidx)
    have t4 : ints.data idx = ints'.data idx := by
      have ti := (apply_terms l.fn _ _ _ _ h8 idx (by rw [h9]; exact hidx))
      have ti' := (apply_terms l.fn _ _ _ _ g5 idx (by rw [g9]; exact hidx)).2
      rw [ti.2, ti']
      simp only [g3, g4, h3, h4]
      congr 2
      apply List.map_congr_left
      intro a ha
      obtain ⟨ha1, ha2⟩ := ti.1 a (by simpa only [h3, h4] using ha)
      simp only [h3, h4] at ha1 ha2
      have c1 : (m a.1 : K) = m'.data a.1 := by rw [h11 _ ha1, g7 _ ha1]
      have c2 : (n a.2 : K) = n'.data a.2 := by rw [h10 _ ha2, g6 _ ha2]
      rw [Int.cast_inj.1 c1, Int.cast_inj.1 c2]
    simp only [BiasTensor.value, Option.map_none, Option.getD_none, add_zero] at t2 t3
    rw [t3, hat idx (by rw [h9]; exact hidx)] at t2
    simp only [Option.map_some, Option.getD_some, List.getD_cons_zero] at t1
    rw [t1, ← t2, h3, ← t4, accScale, channelScale, oneScale, h5, h6]
    push_cast
    ring
  rw [hsame]
  exact k8 idx hidx

/-! ### The output quantiser -/

/-- The layer without its output quantiser. -/
def withoutOutput (l : Layer K) : Layer K := { l with outputQuant := ⟨none, true, false, false⟩, returnQuantTensor := false }

/-- C98, output quantiser: a layer with an output quantiser applies it to the result of the layer without, and returns the quant tensor or its value. -/
theorem C98_output_quantiser (l : Layer K) (t : TensorQuant K) (inp : LayerOut K) (ht : l.outputQuant.tensorQuant = some t) (he : l.outputQuant.enabled = true) :
    l.forward inp = ((withoutOutput l).forward inp).bind fun y => (t.run l.outputQuant.training (unpack y)).map fun q => if l.returnQuantTensor then .quant q else .plain q.value := by
  have hen : l.outputQuant.isEnabled = true := by simp [ActProxy.isEnabled, ht, he]
  unfold Layer.forward withoutOutput
  simp only
  cases hx : l.inputQuant.forward inp with
  | error e => rfl
  | ok x =>
    cases hw : l.weightQuant.forward l.weight with
    | error e => rfl
    | ok w =>
      simp only [Except.bind, hen, Bool.or_true, not_true_eq_false, false_and, if_false, Bool.false_eq_true, and_false]
      have hqb : Layer.quantBias { l with outputQuant := ⟨none, true, false, false⟩, returnQuantTensor := false } x w = l.quantBias x w := rfl
      rw [hqb]
      cases hb : l.quantBias x w with
      | error e => rfl
      | ok b =>
        simp only
        cases hi : innerForward l.fn x w b with
        | error e => rfl
        | ok y =>
          simp only [ActProxy.forward, ht, he, if_true, packOutput, Bool.false_eq_true, if_false]
          have : unpack (LayerOut.plain (unpack y)) = unpack y := rfl
          rw [this]
          cases hr : t.run l.outputQuant.training (unpack y) with
          | error e => rfl
          | ok q =>
            simp only [Except.map]
            cases l.returnQuantTensor <;> rfl

/-- C98, output quantiser: the quant tensor returned holds codes, with the scale and zero point of the output quantiser for the result of the layer without it; within its range it is that
result up to half of the scale. -/
theorem C98_output_codes (l : Layer K) (t : TensorQuant K) (inp y : LayerOut K) (ht : l.outputQuant.tensorQuant = some t) (he : l.outputQuant.enabled = true)
    (hy : (withoutOutput l).forward inp = .ok y) (p : ProperQuant t (unpack y)) (hr : l.returnQuantTensor = true) :
    ∃ q n, l.forward inp = .ok (.quant q) ∧ HoldsCodes q n ∧ q.scale = t.scale (unpack y) ∧ q.zeroPoint = t.zeroPoint (unpack y) ∧ q.bitWidth = t.bitWidth ∧ q.signed = t.cfg.signed ∧
      q.value.shape = (unpack y).shape ∧
      (InRange t (unpack y) → ∀ idx, InBounds (unpack y).shape idx → |q.value.data idx - (unpack y).data idx| ≤ stepOf t (unpack y) idx / 2) := by
  obtain ⟨q, n, h1, h2, h3, h4, h5, h6, h7, -⟩ := C98_quantiser_codes p.bits p.scale_shape p.zero_shape p.scale_pos l.outputQuant.training
  refine ⟨q, n, ?_, h7, h3, h4, h5, h6, h2, fun hin => (run_half_step p hin _ q h1).2⟩
  rw [C98_output_quantiser l t inp ht he, hy]
  simp only [Except.bind, h1, Except.map, hr, if_true]

/-! ### Where the layer raises -/

/-- C98, negation: with an input quantiser that has a zero point (and no output quantiser), a layer that is to return a quant tensor passes the check of its configuration and then raises an
assertion error, whenever its function returns. -/
theorem C98_zero_point_assertion (l : Layer K) (inp : LayerOut K) (qx qw : ShapedQT K) (b : BiasTensor K) (y : LayerOut K) (hx : l.inputQuant.forward inp = .ok (.quant qx))
    (hw : l.weightQuant.forward l.weight = .ok (.quant qw)) (hz : ∃ idx, InBounds qx.zeroPoint.shape idx ∧ qx.zeroPoint.data idx ≠ 0) (hb : l.quantBias (.quant qx) (.quant qw) = .ok b)
    (hy : innerForward l.fn (.quant qx) (.quant qw) b = .ok y) (ho : l.outputQuant.tensorQuant = none) (hr : l.returnQuantTensor = true) :
    l.forward inp = .error .notQuantTensor := by
  have hany : anyNonzero qx.zeroPoint = true := by
    obtain ⟨idx, h1, h2⟩ := hz
    unfold anyNonzero
    rw [List.any_eq_true]
    exact ⟨idx, (mem_indices _ _).2 h1, by simpa using h2⟩
  have hpl : isQuant y = false := by
    simp only [innerForward, quantLayer, hany, Bool.true_or, if_true] at hy
    cases ha : l.fn.apply qx.value qw.value (b.value.map NdTensor.data) with
    | none => rw [ha] at hy; exact absurd hy (by simp [torchOp])
    | some t =>
      rw [ha, Option.bind_some] at hy
      cases h1 : l.fn.maxAccBitWidth qx.bitWidth qw.bitWidth qw.value.shape with
      | none => rw [h1] at hy; exact absurd hy (by simp [torchOp])
      | some acc =>
        cases h2 : outputScale l.fn qx.value.shape.length qx.scale qw.scale with
        | none => rw [h1, h2] at hy; exact absurd hy (by simp [torchOp])
        | some s =>
          cases h3 : biasMeta qx.value.shape.length b s acc with
          | none => rw [h1, h2] at hy; simp only [Option.bind_some, h3] at hy; exact absurd hy (by simp [torchOp])
          | some zb =>
            rw [h1, h2] at hy
            simp only [Option.bind_some, h3, Option.map_some, torchOp] at hy
            rw [← Except.ok.inj hy]; rfl
  have hof : ∀ v, l.outputQuant.forward v = .ok v := by intro v; unfold ActProxy.forward; simp only [ho]
  unfold Layer.forward
  simp only [hx, hw, Except.bind, hb, hy, hof, packOutput, hr, if_true, hpl, Bool.false_eq_true, if_false]
  simp [isQuant]

/-- C98, negation: a linear layer with quantised input and weight and a float bias raises on an input without batch dimension, although the float layer does not. -/
theorem C98_unbatched_float_bias_raises (l : Layer K) (tx tw : TensorQuant K) (inp : LayerOut K) (b y : NdTensor K) (hin : l.inputQuant.tensorQuant = some tx)
    (hie : l.inputQuant.enabled = true) (hw : l.weightQuant.tensorQuant = some tw) (hbias : l.bias = some b) (hb : l.biasQuant.quant = .none)
    (sx : SymmetricOne tx (unpack inp)) (sw : SymmetricWeight l.fn tw l.weight) (hy : l.fn.apply (unpack inp) l.weight (l.bias.map NdTensor.data) = some y)
    (hrank : (unpack inp).shape.length = 1) : l.forward inp = .error .other := by
  obtain ⟨qx, qw, n, m, ints, h1, h2, h3, h4, h5, h6, h7, h8, h9, h10, h11⟩ := operands l.fn tx tw l.inputQuant.training l.weightQuant.training (unpack inp) l.weight y _ sx sw hy
  have hxf : l.inputQuant.forward inp = .ok (.quant qx) := by simp only [ActProxy.forward, hin, hie, if_true, h1]; rfl
  have hwf : l.weightQuant.forward l.weight = .ok (.quant qw) := by simp only [WeightProxy.forward, hw, h2]; rfl
  obtain ⟨S, acc, hS, hacc, hSs, hd, -⟩ := layer_core h7 h8
  obtain ⟨B, hB, -⟩ := proxyBiasScale_eq l.fn qx.value.shape.length qx qw h7.x_scale hd
  have hqb : l.quantBias (.quant qx) (.quant qw) = .ok (.float b) := by simp only [Layer.quantBias, hbias, BiasProxy.forward, hb, hB, torchOp]; rfl
  have hno : quantLayer l.fn qx qw (.float b) = none := by
    unfold quantLayer
    cases l.fn.apply qx.value qw.value (BiasTensor.value (.float b) |>.map NdTensor.data) with
    | none => rfl
    | some t =>
      rw [Option.bind_some, hacc, Option.bind_some, hS, Option.bind_some]
      simp only [biasMeta, biasZeroPoint, h3, hrank, le_refl, if_true]
      rfl
  unfold Layer.forward
  simp only [hxf, hwf, Except.bind, isQuant, Bool.and_self, Bool.true_or, not_true_eq_false, false_and, if_false, hqb, innerForward, hno, torchOp]

/-- C98: a bias quantiser that takes its scale from the layer demands a quantised input, or a scale cached in an earlier forward pass. -/
theorem C98_input_scale_required (l : Layer K) (inp : LayerOut K) (b : NdTensor K) (cb : IntQuantCfg K) (bb : ℕ) (x w : LayerOut K) (hx : l.inputQuant.forward inp = .ok x)
    (hw : l.weightQuant.forward l.weight = .ok w) (hbias : l.bias = some b) (hb : l.biasQuant.quant = .external cb bb)
    (hnot : ¬(DeliversQuant l.inputQuant inp ∧ l.weightQuant.tensorQuant.isSome = true)) (hcfg : l.returnQuantTensor = false ∨ l.outputQuant.isEnabled = true) :
    l.forward inp = .error .inputScaleRequired ↔ l.biasQuant.cachedScale = none := by
  rw [← deliversQuant_iff _ _ _ hx, ← weight_isQuant _ _ _ hw] at hnot
  have hcond : ¬(¬((isQuant x && isQuant w) || l.outputQuant.isEnabled) = true ∧ l.returnQuantTensor = true) := by
    rintro ⟨h1, h2⟩
    rcases hcfg with h | h
    · rw [h2] at h; exact absurd h (by simp)
    · rw [h, Bool.or_true] at h1; exact h1 rfl
  unfold Layer.forward
  simp only [hx, hw, Except.bind]
  rw [if_neg hcond]
  have hqb : l.quantBias x w = match l.biasQuant.cachedScale with
      | some s => (externalRun cb bb l.biasQuant.training b s).map .int
      | none => .error .inputScaleRequired := by
    simp only [Layer.quantBias, hbias, BiasProxy.forward, hb]
    cases x <;> cases w <;> first | rfl | exact absurd ⟨rfl, rfl⟩ hnot
  rw [hqb]
  constructor
  · intro h
    cases hc : l.biasQuant.cachedScale with
    | none => rfl
    | some s =>
      exfalso
      rw [hc] at h
      simp only at h
      cases he : externalRun cb bb l.biasQuant.training b s with
      | error e =>
        simp only [he, Except.map] at h
        obtain rfl := Except.error.inj h
        exact absurd (externalRun_error _ _ _ _ _ _ he) (by simp)
      | ok q =>
        simp only [he, Except.map] at h
        cases hi : innerForward l.fn x w (.int q) with
        | error e => simp only [hi] at h; obtain rfl := Except.error.inj h; exact absurd (inner_error _ _ _ _ _ hi) (by simp)
        | ok y =>
          simp only [hi] at h
          cases ho : l.outputQuant.forward y with
          | error e => simp only [ho] at h; obtain rfl := Except.error.inj h; exact absurd (actProxy_error _ _ _ ho) (by simp)
          | ok y' =>
            simp only [ho, packOutput] at h
            split_ifs at h
            exact absurd (Except.error.inj h) (by simp)
  · intro hc
    rw [hc]

/-! ### Non-vacuity -/

private def actQ (s z : ℚ) : TensorQuant ℚ := ⟨⟨true, false, torchRound⟩, 4, fun _ => ⟨[], fun _ => s⟩, fun _ => ⟨[], fun _ => z⟩⟩
private def weightQ : TensorQuant ℚ := ⟨⟨true, true, torchRound⟩, 3, fun _ => ⟨[2, 1, 1], fun idx => if idx = [0, 0, 0] then 1 / 4 else 1 / 8⟩, fun _ => ⟨[], fun _ => 0⟩⟩
private def exW : NdTensor ℚ := ⟨[2, 2, 2], fun idx => if idx.getD 0 0 = 1 then 1 / 3 - idx.getD 2 0 / 5 else 3 / 5 - idx.getD 1 0⟩
private def exX : NdTensor ℚ := ⟨[1, 2, 3], fun idx => 7 / 5 - idx.getD 2 0 * (2 / 3) + idx.getD 1 0⟩
private def exB : NdTensor ℚ := ⟨[2], fun idx => if idx = [0] then 1 / 3 else -1 / 7⟩
private def off : ActProxy ℚ := ⟨none, true, false, false⟩
private def exLayer (b : BiasQuant ℚ) (out : ActProxy ℚ) (ret : Bool) : Layer ℚ :=
  ⟨.conv [1] [1] [1] 1, exW, some exB, ⟨some (actQ (1 / 2) 0), true, false, false⟩, ⟨some weightQ, false⟩, ⟨b, none, false⟩, out, ret⟩

private theorem exSx (s : ℚ) (hs : 0 < s) (x : NdTensor ℚ) : SymmetricOne (actQ s 0) x :=
  ⟨show 1 ≤ 4 by decide, ⟨0, Nat.zero_le _, rfl⟩, fun _ _ => hs, broadcasts_nil _, fun _ _ => rfl⟩

private theorem exSw : SymmetricWeight (.conv [1] [1] [1] 1) weightQ exW := by
  refine ⟨by decide, Or.inr ⟨by decide, by decide, fun _ _ _ _ _ h => by cases h⟩, ?_, broadcasts_nil _, fun _ _ => rfl⟩
  intro idx _; simp only [weightQ]; split <;> norm_num

private theorem exPx (s z : ℚ) (hs : 0 < s) (x : NdTensor ℚ) : ProperQuant (actQ s z) x :=
  ⟨show 1 ≤ 4 by decide, Or.inl rfl, broadcasts_nil _, broadcasts_nil _, fun _ _ => hs⟩

private theorem exPw : ProperQuant weightQ exW := by
  refine ⟨by decide, Or.inl rfl, ⟨by decide, by decide⟩, broadcasts_nil _, exSw.scale_pos⟩

private theorem exRx : InRange (actQ (1 / 2) 0) exX := by
  intro idx hi
  have := (mem_indices _ _).2 hi
  clear hi
  revert idx
  unfold stepOf zeroOf
  decide +kernel

private theorem exRw : InRange weightQ exW := by
  intro idx hi
  have := (mem_indices _ _).2 hi
  clear hi
  revert idx
  unfold stepOf zeroOf
  decide +kernel

private def exY : NdTensor ℚ := ((LayerFn.conv [1] [1] [1] 1).apply exX exW (some exB.data)).getD ⟨[], fun _ => 0⟩

/-- the hypotheses of `C98_integers` and `C98_error_bound` -/
example : ∃ out ints, (exLayer .none off true).forward (.plain exX) = .ok out ∧ isQuant out = true ∧ OnIntegers (exLayer .none off true) (actQ (1 / 2) 0) weightQ exX ints ∧
    (unpack out).shape = [1, 2, 4] ∧ ∃ A B C, (LayerFn.conv [1] [1] [1] 1).apply (absNd exX) (halfSteps weightQ exW) none = some A ∧
      (LayerFn.conv [1] [1] [1] 1).apply (halfSteps (actQ (1 / 2) 0) exX) (absNd exW) none = some B ∧
      (LayerFn.conv [1] [1] [1] 1).apply (halfSteps (actQ (1 / 2) 0) exX) (halfSteps weightQ exW) none = some C ∧
      ∀ idx, InBounds exY.shape idx → |(unpack out).data idx - exY.data idx| ≤ A.data idx + B.data idx + C.data idx := by
  obtain ⟨out, ints, h1, h2, h3, h4, -⟩ := C98_integers (exLayer .none off true) (actQ (1 / 2) 0) weightQ (.plain exX) exY rfl rfl rfl rfl rfl (exSx _ (by norm_num) _) exSw rfl
    (by intro b hb; obtain rfl := Option.some.inj hb; exact ⟨by decide +kernel, by decide⟩)
  obtain ⟨A, B, C, k1, k2, k3, -, -, -, -, k4⟩ := C98_error_bound (exLayer .none off true) (actQ (1 / 2) 0) weightQ (.plain exX) out exY rfl rfl rfl rfl rfl (exPx _ _ (by norm_num) _) exPw
    exRx exRw rfl h1
  exact ⟨out, ints, h1, h2, h3, h4.trans (by decide +kernel), A, B, C, k1, k2, k3, k4⟩

/-- the float layer and the quantised one -/
example : exY.data [0, 0, 1] = -1 / 25 ∧ ((exLayer .none off false).forward (.plain exX)).toOption.map (fun o => (unpack o).data [0, 0, 1]) = some (-2 / 3) := by decide +kernel

private def biasCfg : IntQuantCfg ℚ := ⟨true, false, torchRound⟩

/-- the hypotheses of `C98_error_bound_quantised_bias` -/
example : ∃ out, (exLayer (.external biasCfg 8) off false).forward (.plain exX) = .ok out ∧ (unpack out).shape = exY.shape := by
  obtain ⟨out, A, B, C, h1, -, -, -, h2, -⟩ := C98_error_bound_quantised_bias (exLayer (.external biasCfg 8) off false) (actQ (1 / 2) 0) weightQ biasCfg 8 (.plain exX) exY exB
    rfl rfl rfl rfl rfl (by decide) (Or.inl rfl) rfl (exSx _ (by norm_num) _) exSw (exPx _ _ (by norm_num) _) exPw exRx exRw rfl (by decide +kernel) (Or.inl (by decide))
    (by decide +kernel)
  exact ⟨out, h1, h2⟩

/-- the hypotheses of `C98_output_codes` -/
example : ∃ q n, (exLayer .none ⟨some (actQ 1 2), true, false, false⟩ true).forward (.plain exX) = .ok (.quant q) ∧ HoldsCodes q n ∧ q.bitWidth = 4 := by
  obtain ⟨y, hy⟩ : ∃ y, (withoutOutput (exLayer .none ⟨some (actQ 1 2), true, false, false⟩ true)).forward (.plain exX) = .ok y := ⟨.plain ⟨_, _⟩, rfl⟩
  obtain ⟨q, n, h1, h2, -, -, h3, -⟩ := C98_output_codes (exLayer .none ⟨some (actQ 1 2), true, false, false⟩ true) (actQ 1 2) (.plain exX) y rfl rfl hy (exPx _ _ (by norm_num) _) rfl
  exact ⟨q, n, h1, h2, h3⟩

/-- the hypotheses of `C98_zero_point_assertion` -/
example : ({ exLayer .none off true with inputQuant := ⟨some (actQ (1 / 2) 3), true, false, false⟩ } : Layer ℚ).forward (.plain exX) = .error .notQuantTensor :=
  C98_zero_point_assertion _ _ _ _ (.float exB) _ rfl rfl ⟨[], List.Forall₂.nil, by decide +kernel⟩ rfl rfl rfl rfl

private def linLayer (b : BiasQuant ℚ) (inQ : ActProxy ℚ) (cached : Option (NdTensor ℚ)) : Layer ℚ :=
  ⟨.linear, ⟨[2, 3], fun idx => idx.getD 0 0 - idx.getD 1 0 / 2⟩, some exB, inQ, ⟨some (actQ (1 / 4) 0), false⟩, ⟨b, cached, false⟩, off, false⟩

/-- the hypotheses of `C98_unbatched_float_bias_raises` -/
example : (linLayer .none ⟨some (actQ (1 / 2) 0), true, false, false⟩ none).forward (.plain ⟨[3], fun _ => 1⟩) = .error .other :=
  C98_unbatched_float_bias_raises _ (actQ (1 / 2) 0) (actQ (1 / 4) 0) _ exB _ rfl rfl rfl rfl rfl (exSx _ (by norm_num) _)
    ⟨by decide, Or.inl ⟨0, Nat.zero_le _, rfl⟩, fun _ _ => by show (0 : ℚ) < 1 / 4; norm_num, broadcasts_nil _, fun _ _ => rfl⟩ rfl rfl

/-- the hypotheses of `C98_input_scale_required`: without and with a cached scale -/
example : (linLayer (.external biasCfg 8) off none).forward (.plain ⟨[1, 3], fun _ => 1⟩) = .error .inputScaleRequired ∧
    (linLayer (.external biasCfg 8) off (some ⟨[1], fun _ => 1 / 8⟩)).forward (.plain ⟨[1, 3], fun _ => 1⟩) ≠ .error .inputScaleRequired := by
  have h : ¬(DeliversQuant off (.plain (⟨[1, 3], fun _ => 1⟩ : NdTensor ℚ)) ∧ True) := by rintro ⟨h | ⟨h, -⟩, -⟩ <;> exact absurd h (by decide)
  refine ⟨(C98_input_scale_required (linLayer (.external biasCfg 8) off none) _ exB biasCfg 8 _ _ rfl rfl rfl rfl (fun hh => h ⟨hh.1, trivial⟩) (Or.inl rfl)).2 rfl, ?_⟩
  intro he
  exact absurd ((C98_input_scale_required (linLayer (.external biasCfg 8) off (some ⟨[1], fun _ => 1 / 8⟩)) _ exB biasCfg 8 _ _ rfl rfl rfl rfl (fun hh => h ⟨hh.1, trivial⟩)
    (Or.inl rfl)).1 he) (by simp [linLayer])

/-- the hypotheses of `C98_not_configured`: no input quantiser, quantised weight, plain input -/
example : ({ linLayer .none off none with returnQuantTensor := true } : Layer ℚ).forward (.plain ⟨[1, 3], fun _ => 1⟩) = .error .notConfigured :=
  (C98_not_configured _ _ _ _ rfl rfl).2 ⟨rfl, rfl, by rintro ⟨h | ⟨h, -⟩, -⟩ <;> exact absurd h (by decide)⟩

/-- the hypotheses of `C98_float_layer` -/
example : ({ linLayer .none off none with weightQuant := ⟨none, false⟩ } : Layer ℚ).forward (.plain ⟨[1, 3], fun _ => 1⟩) =
    .ok (.plain ⟨[1, 2], fun idx => ((List.range 3).map fun i => ((idx.getLastD 0 : ℕ) - (i : ℕ) / 2 : ℚ) * 1).sum + (exB.data [idx.getLastD 0])⟩) :=
  C98_float_layer _ _ rfl rfl rfl rfl rfl

end Brevitas.Props
