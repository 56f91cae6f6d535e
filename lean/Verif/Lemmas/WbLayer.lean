import Verif.Model.WbLayer
import Verif.Lemmas.LayerTerms
import Verif.Props.IntQuant
import Verif.Props.QuantConv

/-!
# Lemmas for the forward pass of a quantised layer
-/

set_option linter.unusedSectionVars false

namespace Brevitas

namespace WbLayer

open NdTensor QuantConv Props

variable {K : Type*} [Field K] [LinearOrder K] [IsStrictOrderedRing K] [FloorRing K]

theorem intQuantTensor_eq (c : IntQuantCfg K) (bw : ℕ) (s z x : NdTensor K) (hs : Broadcasts s.shape x.shape) (hz : Broadcasts z.shape x.shape) :
    intQuantTensor c bw s z x = some ⟨x.shape, fun idx => c.forward (s.data (bcIndex s.shape idx)) (z.data (bcIndex z.shape idx)) bw (x.data (bcIndex x.shape idx))⟩ := by
  rw [intQuantTensor, bcShape_of_broadcasts hs, Option.bind_some, bcShape_of_broadcasts hz, Option.map_some]

/-- A quantiser with scales and zero points that broadcast: what it returns. -/
theorem run_eq (t : TensorQuant K) (tr : Bool) (x : NdTensor K) (hs : Broadcasts (t.scale x).shape x.shape) (hz : Broadcasts (t.zeroPoint x).shape x.shape) :
    t.run tr x = .ok ⟨⟨x.shape, fun idx => t.cfg.forward ((t.scale x).data (bcIndex (t.scale x).shape idx)) ((t.zeroPoint x).data (bcIndex (t.zeroPoint x).shape idx)) t.bitWidth
      (x.data (bcIndex x.shape idx))⟩, t.scale x, t.zeroPoint x, t.bitWidth, t.cfg.signed, tr⟩ := by
  rw [TensorQuant.run, intQuantTensor_eq _ _ _ _ _ hs hz]; rfl

theorem abs_sum_sub_le {α : Type*} (l : List α) (f g h : α → K) (H : ∀ a ∈ l, |f a - g a| ≤ h a) : |(l.map f).sum - (l.map g).sum| ≤ (l.map h).sum := by
  induction l with
  | nil => simp
  | cons a l ih =>
    simp only [List.map_cons, List.sum_cons]
    have h1 := H a (by simp)
    have h2 := ih fun b hb => H b (by simp [hb])
    calc |f a + (l.map f).sum - (g a + (l.map g).sum)| = |(f a - g a) + ((l.map f).sum - (l.map g).sum)| := by ring_nf
      _ ≤ |f a - g a| + |(l.map f).sum - (l.map g).sum| := abs_add_le _ _
      _ ≤ _ := add_le_add h1 h2

/-- Elementwise absolute value. -/
def absNd (x : NdTensor K) : NdTensor K := ⟨x.shape, fun idx => |x.data idx|⟩

/-- How far the result of a layer moves when its operands are moved. -/
theorem apply_perturbed (fn : LayerFn) (x w x' w' ex ew : NdTensor K) (b b' : Option (List ℕ → K)) (y y' : NdTensor K) (hx : x'.shape = x.shape) (hw : w'.shape = w.shape)
    (hex : ex.shape = x.shape) (hew : ew.shape = w.shape) (hdx : ∀ idx, InBounds x.shape idx → |x'.data idx - x.data idx| ≤ ex.data idx)
    (hdw : ∀ idx, InBounds w.shape idx → |w'.data idx - w.data idx| ≤ ew.data idx) (hy : fn.apply x w b = some y) (hy' : fn.apply x' w' b' = some y')
    (β : ℕ → K) (hβ : ∀ c, |(b'.map fun f => f [c]).getD 0 - (b.map fun f => f [c]).getD 0| ≤ β c ∨ ∀ idx, InBounds y.shape idx → idx.getD (fn.channelDim x.shape.length) 0 ≠ c) :
    ∃ A B C, fn.apply (absNd x) ew none = some A ∧ fn.apply ex (absNd w) none = some B ∧ fn.apply ex ew none = some C ∧ A.shape = y.shape ∧ B.shape = y.shape ∧ C.shape = y.shape ∧
      y'.shape = y.shape ∧
      ∀ idx, InBounds y.shape idx → |y'.data idx - y.data idx| ≤ A.data idx + B.data idx + C.data idx + β (idx.getD (fn.channelDim x.shape.length) 0) := by
  have h1 := apply_terms fn x w b y hy
  have h2 := fun x' w' b' => apply_shape (S := K) fn x w b y hy x' w' b'
  obtain ⟨A, hA, hAs⟩ := h2 (absNd x) ew none rfl hew
  obtain ⟨B, hB, hBs⟩ := h2 ex (absNd w) none hex rfl
  obtain ⟨C, hC, hCs⟩ := h2 ex ew none hex hew
  obtain ⟨y'', hy'', hys⟩ := h2 x' w' b' hx hw
  obtain rfl := Option.some.inj (hy'.symm.trans hy'')
  refine ⟨A, B, C, hA, hB, hC, hAs, hBs, hCs, hys, ?_⟩
  intro idx hidx
  obtain ⟨hin, e⟩ := h1 idx hidx
  have eA := ((apply_terms fn _ _ _ _ hA) idx (hAs ▸ hidx)).2
  have eB := ((apply_terms fn _ _ _ _ hB) idx (hBs ▸ hidx)).2
  have eC := ((apply_terms fn _ _ _ _ hC) idx (hCs ▸ hidx)).2
  have e' := ((apply_terms fn _ _ _ _ hy') idx (hys ▸ hidx)).2
  simp only [absNd, hex, hew, hx, hw, Option.map_none, Option.getD_none, add_zero] at eA eB eC e'
  rw [e, e', eA, eB, eC]
  have hβ' := (hβ (idx.getD (fn.channelDim x.shape.length) 0)).resolve_right fun h => h idx hidx rfl
  have hs := abs_sum_sub_le (fn.terms x.shape w.shape idx) (fun a => w'.data a.1 * x'.data a.2) (fun a => w.data a.1 * x.data a.2)
    (fun a => ew.data a.1 * |x.data a.2| + |w.data a.1| * ex.data a.2 + ew.data a.1 * ex.data a.2) (by
      intro a ha
      obtain ⟨ha1, ha2⟩ := hin a ha
      have d1 := hdw _ ha1
      have d2 := hdx _ ha2
      have n1 : 0 ≤ ew.data a.1 := (abs_nonneg _).trans d1
      have n2 : 0 ≤ ex.data a.2 := (abs_nonneg _).trans d2
      have : w'.data a.1 * x'.data a.2 - w.data a.1 * x.data a.2 =
        (w'.data a.1 - w.data a.1) * x.data a.2 + w.data a.1 * (x'.data a.2 - x.data a.2) + (w'.data a.1 - w.data a.1) * (x'.data a.2 - x.data a.2) := by ring
      rw [this]
      refine (abs_add_le _ _).trans (add_le_add ((abs_add_le _ _).trans (add_le_add ?_ ?_)) ?_)
      · rw [abs_mul]; exact mul_le_mul_of_nonneg_right d1 (abs_nonneg _)
      · rw [abs_mul]; exact mul_le_mul_of_nonneg_left d2 (abs_nonneg _)
      · rw [abs_mul]; exact mul_le_mul d1 d2 (abs_nonneg _) n1)
  rw [List.sum_map_add, List.sum_map_add] at hs
  set P := ((fn.terms x.shape w.shape idx).map fun a => w'.data a.1 * x'.data a.2).sum
  set Q := ((fn.terms x.shape w.shape idx).map fun a => w.data a.1 * x.data a.2).sum
  have := abs_add_le (P - Q) ((b'.map fun f => f [idx.getD (fn.channelDim x.shape.length) 0]).getD 0 - (b.map fun f => f [idx.getD (fn.channelDim x.shape.length) 0]).getD 0)
  calc |_| = |(P - Q) + ((b'.map fun f => f [idx.getD (fn.channelDim x.shape.length) 0]).getD 0 - (b.map fun f => f [idx.getD (fn.channelDim x.shape.length) 0]).getD 0)| := by
        ring_nf
    _ ≤ _ := this
    _ ≤ _ := add_le_add hs hβ'

/-- The steps of a forward pass without output quantiser. -/
theorem forward_steps (l : Layer K) (inp out : LayerOut K) (ho : l.outputQuant.isEnabled = false) (h : l.forward inp = .ok out) :
    ∃ x w b y, l.inputQuant.forward inp = .ok x ∧ l.weightQuant.forward l.weight = .ok w ∧
      l.quantBias x w = .ok b ∧ innerForward l.fn x w b = .ok y ∧ unpack out = unpack y := by
  unfold Layer.forward at h
  cases hx : l.inputQuant.forward inp with
  | error e => rw [hx] at h; exact absurd h (by simp [Except.bind])
  | ok x =>
    cases hw : l.weightQuant.forward l.weight with
    | error e => rw [hx, hw] at h; exact absurd h (by simp [Except.bind])
    | ok w =>
      simp only [hx, hw, Except.bind] at h
      split_ifs at h with hc
      cases hb : l.quantBias x w with
      | error e => rw [hb] at h; exact absurd h (by simp)
      | ok b =>
        simp only [hb] at h
        cases hy : innerForward l.fn x w b with
        | error e => simp only [hy] at h; exact absurd h (by simp)
        | ok y =>
          simp only [hy] at h
          refine ⟨x, w, b, y, rfl, rfl, hb, hy, ?_⟩
          have hq : ∃ y', l.outputQuant.forward y = .ok y' ∧ unpack y' = unpack y := by
            unfold ActProxy.forward
            unfold ActProxy.isEnabled at ho
            cases ht : l.outputQuant.tensorQuant with
            | none => exact ⟨y, rfl, rfl⟩
            | some t =>
              rw [ht] at ho
              simp only [Option.isSome_some, Bool.true_and] at ho
              simp only [ho, Bool.false_eq_true, if_false]
              cases l.outputQuant.passthrough <;> cases y <;> exact ⟨_, rfl, rfl⟩
          obtain ⟨y', hy', he⟩ := hq
          simp only [hy', packOutput] at h
          rw [← he]
          split_ifs at h
          · exact congrArg unpack (Except.ok.inj h).symm
          · rw [← Except.ok.inj h]; rfl

/-- The value computed by the function. -/
theorem innerForward_value (fn : LayerFn) (x w : LayerOut K) (b : BiasTensor K) (y : LayerOut K) (h : innerForward fn x w b = .ok y) :
    fn.apply (unpack x) (unpack w) (b.value.map NdTensor.data) = some (unpack y) := by
  have plain : torchOp ((fn.apply (unpack x) (unpack w) (b.value.map NdTensor.data)).map LayerOut.plain) = .ok y →
      fn.apply (unpack x) (unpack w) (b.value.map NdTensor.data) = some (unpack y) := by
    intro h
    cases ha : fn.apply (unpack x) (unpack w) (b.value.map NdTensor.data) with
    | none => rw [ha] at h; exact absurd h (by simp [torchOp])
    | some t => rw [ha] at h; rw [← Except.ok.inj h]; rfl
  cases x with
  | plain x => cases w <;> exact plain h
  | quant x =>
    cases w with
    | plain w => exact plain h
    | quant w =>
      simp only [innerForward, quantLayer] at h
      simp only [unpack] at h ⊢
      cases ha : fn.apply x.value w.value (b.value.map NdTensor.data) with
      | none => rw [ha] at h; exact absurd h (by simp [torchOp])
      | some t =>
        rw [ha] at h
        simp only [Option.bind_some] at h
        cases h1 : fn.maxAccBitWidth x.bitWidth w.bitWidth w.value.shape with
        | none => rw [h1] at h; exact absurd h (by simp [torchOp])
        | some acc =>
          cases h2 : outputScale fn x.value.shape.length x.scale w.scale with
          | none => rw [h1, h2] at h; exact absurd h (by simp [torchOp])
          | some s =>
            cases h3 : biasMeta x.value.shape.length b s acc with
            | none => rw [h1, h2] at h; simp only [Option.bind_some, h3] at h; exact absurd h (by simp [torchOp])
            | some zb =>
              rw [h1, h2] at h
              simp only [Option.bind_some, h3, Option.map_some, torchOp] at h
              split_ifs at h <;> rw [← Except.ok.inj h]

theorem bcSizes_compat {a b : List ℕ} (h : List.Forall₂ (fun m n => m = 1 ∨ n = 1 ∨ m = n) a b) : ∃ s, bcSizes a b = some s := by
  induction h with
  | nil => exact ⟨[], rfl⟩
  | @cons m n a b h _ ih =>
    obtain ⟨s, hs⟩ := ih
    have : ∃ k, bcSize m n = some k := by
      unfold bcSize
      split_ifs with h1 h2 h3
      · exact ⟨_, rfl⟩
      · exact ⟨_, rfl⟩
      · exact ⟨_, rfl⟩
      · omega
    obtain ⟨k, hk⟩ := this
    exact ⟨k :: s, by simp [bcSizes, hk, hs]⟩

theorem bcShape_channels (r d e P Q : ℕ) (hPQ : d = e → P = 1 ∨ Q = 1 ∨ P = Q) : ∃ s, bcShape ((List.replicate r 1).set d P) ((List.replicate r 1).set e Q) = some s := by
  have hp : ∀ d P, padShape r ((List.replicate r 1).set d P) = (List.replicate r 1).set d P := by intro d P; simp [padShape]
  unfold bcShape
  rw [List.length_set, List.length_set, List.length_replicate, max_self, hp, hp]
  apply bcSizes_compat
  rw [List.forall₂_iff_get]
  refine ⟨by simp, ?_⟩
  intro i h1 h2
  simp only [List.get_eq_getElem, List.getElem_set, List.getElem_replicate]
  split_ifs with h3 h4 <;> first | exact hPQ (h3.trans h4.symm) | simp

theorem biasZeroPoint_some (r d P O : ℕ) (hr : 1 < r) (S b : NdTensor K) (hS : S.shape = (List.replicate r 1).set d P) (hP : P = 1 ∨ P = O) (hb : b.shape = [O]) :
    ∃ z, biasZeroPoint r b S = some z := by
  have hv : (channelView r 1 b).shape = (List.replicate r 1).set 1 O := by simp [channelView, hb]
  obtain ⟨s, hs⟩ := bcShape_channels r 1 d O P (fun _ => by omega)
  rw [biasZeroPoint, if_neg (by omega), bcOp, hv, hS, hs]
  exact ⟨⟨_, _⟩, rfl⟩

theorem allclose_some (r d P : ℕ) (hd : d < r) (B S : NdTensor K) (hB : B.shape = [P]) (hS : S.shape = (List.replicate r 1).set d P) :
    ∃ c, allcloseTensor B S = some c := by
  obtain ⟨s, hs⟩ := bcShape_channels r (r - 1) d P P (fun _ => Or.inr (Or.inr rfl))
  have : bcShape [P] ((List.replicate r 1).set d P) = some s := by
    rw [← hs]
    unfold bcShape
    have e : padShape (max [P].length ((List.replicate r 1).set d P).length) [P] =
        padShape (max ((List.replicate r 1).set (r - 1) P).length ((List.replicate r 1).set d P).length) ((List.replicate r 1).set (r - 1) P) := by
      simp only [padShape, List.length_cons, List.length_nil, List.length_set, List.length_replicate, max_self]
      rw [max_eq_right (by omega : 0 + 1 ≤ r), Nat.sub_self]
      obtain ⟨k, rfl⟩ : ∃ k, r = k + 1 := ⟨r - 1, by omega⟩
      apply List.ext_getElem
      · simp
      · intro i h1 h2
        simp only [List.replicate_zero, List.nil_append, List.getElem_set, List.getElem_replicate, List.getElem_append, List.length_replicate] at h1 ⊢
        simp only [List.length_append, List.length_replicate, List.length_cons, List.length_nil] at h1
        split_ifs <;> first | rfl | omega | simp
    have e2 : max [P].length ((List.replicate r 1).set d P).length = max ((List.replicate r 1).set (r - 1) P).length ((List.replicate r 1).set d P).length := by simp; omega
    rw [e, e2]
  rw [allcloseTensor, bcOp, hB, hS, this]
  exact ⟨_, rfl⟩

/-- The biases with which a layer of quantised operands does not raise: none, a float bias for inputs with a batch dimension, and a bias with the scale of the accumulator. -/
inductive BiasOk (fn : LayerFn) (x w : ShapedQT K) (O : ℕ) : BiasTensor K → Prop
  | none : BiasOk fn x w O .none
  | float (b : NdTensor K) (hb : b.shape = [O]) (hr : 1 < x.value.shape.length) : BiasOk fn x w O (.float b)
  | int (q : ShapedQT K) (hb : q.value.shape = [O]) (hr : 1 < x.value.shape.length ∨ fn = .linear) (hs : proxyBiasScale fn x.value.shape.length x.scale w.scale = some q.scale) :
      BiasOk fn x w O (.int q)

/-- The value of a layer of quantised operands. -/
theorem quantLayer_value {fn : LayerFn} {x w : ShapedQT K} {n m : List ℕ → ℤ} {ints : NdTensor ℤ} (h : IntLayerArgs fn x w n m) (hi : intLayer fn x w n m = some ints)
    (bias : BiasTensor K) (hb : BiasOk fn x w (ints.shape.getD (fn.channelDim x.value.shape.length) 0) bias) :
    ∃ q, quantLayer fn x w bias = some (.quant q) ∧ q.value.shape = ints.shape ∧
      ∀ idx, InBounds ints.shape idx → q.value.data idx = (ints.data idx : K) * (channelScale w (idx.getD (fn.channelDim x.value.shape.length) 0) * oneScale x) +
        (bias.value.map fun b => b.data [idx.getD (fn.channelDim x.value.shape.length) 0]).getD 0 := by
  obtain ⟨S, acc, hS, hacc, hSs, hd, hlen, hP, hbr, hat, hsc, hc⟩ := layer_core h hi
  obtain ⟨y, hy, hys, hyd, hq⟩ := hc bias
  have hm : ∃ zb, biasMeta x.value.shape.length bias S acc = some zb := by
    cases hb with
    | none => exact ⟨_, rfl⟩
    | float b hb hr =>
      obtain ⟨z, hz⟩ := biasZeroPoint_some _ _ _ _ hr S b hSs hP hb
      exact ⟨(z, acc), by rw [biasMeta, hz]; rfl⟩
    | int q hb hr hs =>
      obtain ⟨B, hB, hBs, -⟩ := proxyBiasScale_eq fn x.value.shape.length x w h.x_scale hd
      obtain rfl : B = q.scale := Option.some.inj (hB.symm.trans hs)
      obtain ⟨c, hcl⟩ := allclose_some _ _ _ hd q.scale S hBs hSs
      simp only [biasMeta, hcl, Option.bind_some]
      rcases hr with hr | rfl
      · obtain ⟨z, hz⟩ := biasZeroPoint_some _ _ _ _ hr S q.value hSs hP hb
        rw [hz]
        cases c <;> exact ⟨_, rfl⟩
      · obtain ⟨S', hS', hSs', hSd'⟩ := outputScale_eq LayerFn.linear x.value.shape.length x w h.x_scale h.x_codes.scale_shape.1 hd
        obtain rfl := Option.some.inj (hS.symm.trans hS')
        obtain ⟨B, hB', hBs', hBd⟩ := proxyBiasScale_eq LayerFn.linear x.value.shape.length x w h.x_scale hd
        obtain rfl : B = q.scale := Option.some.inj (hB'.symm.trans hs)
        have hclose : allcloseTensor q.scale S = some true :=
          allclose_of_eq x.value.shape.length w.scale.shape.prod (LayerFn.linear.channelDim x.value.shape.length) hd (Or.inr rfl) q.scale S hBs hSs
            (fun c => channelScale w c * oneScale x) hBd hSd'
        obtain rfl : c = true := Option.some.inj (hcl.symm.trans hclose)
        exact ⟨_, rfl⟩
  obtain ⟨⟨z, b⟩, hm⟩ := hm
  refine ⟨_, hq z b hm, hys, ?_⟩
  intro idx hidx
  simp only [hyd idx hidx, hat idx hidx]

end WbLayer

end Brevitas
