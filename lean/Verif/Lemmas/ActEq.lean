import Verif.Model.ActEq
import Verif.Lemmas.ShapedTensor
import Verif.Lemmas.EqualizeRange

/-!
# Lemmas on layerwise activation equalisation
-/

set_option linter.unusedSectionVars false

namespace Brevitas.ActEq

open Net Equalize NdTensor

variable {K : Type*} [Field K] [LinearOrder K] [IsStrictOrderedRing K] [FloorRing K]

theorem zipWith_one_sum (m : ℕ) (idx : List ℕ) :
    (List.zipWith (fun d i => if d = 1 then 0 else i) (List.replicate m 1) idx).sum = 0 := by
  induction m generalizing idx with
  | zero => simp
  | succ m ih =>
    cases idx with
    | nil => simp
    | cons a idx => rw [List.replicate_succ, List.zipWith_cons_cons, List.sum_cons, if_pos rfl, ih]

/-- Only one coordinate is read. -/
theorem zipWith_set_sum (m j C : ℕ) (idx : List ℕ) (hl : idx.length = m) (hj : j < m) :
    (List.zipWith (fun d i => if d = 1 then 0 else i) ((List.replicate m 1).set j C) idx).sum
      = if C = 1 then 0 else idx.getD j 0 := by
  induction m generalizing idx j with
  | zero => omega
  | succ m ih =>
    cases idx with
    | nil => simp at hl
    | cons a idx =>
      cases j with
      | zero =>
        rw [List.replicate_succ, List.set_cons_zero, List.zipWith_cons_cons, List.sum_cons, zipWith_one_sum]
        simp
      | succ j =>
        rw [List.replicate_succ, List.set_cons_succ, List.zipWith_cons_cons, List.sum_cons, if_pos rfl,
          ih j idx (by simpa using hl) (by omega)]
        simp

theorem forall₂_set (m j C : ℕ) (s : List ℕ) (hl : s.length = m) (hj : j < m) (hC : s.getD j 0 = C) :
    List.Forall₂ (fun a b => a = 1 ∨ a = b) ((List.replicate m 1).set j C) s := by
  have hone : ∀ (m : ℕ) (s : List ℕ), s.length = m → List.Forall₂ (fun a b => a = 1 ∨ a = b) (List.replicate m 1) s := by
    intro m
    induction m with
    | zero =>
      intro s hs
      rw [List.length_eq_zero_iff.mp hs]
      exact .nil
    | succ m ih =>
      intro s hs
      cases s with
      | nil => simp at hs
      | cons a s => exact .cons (Or.inl rfl) (ih s (by simpa using hs))
  induction m generalizing s j with
  | zero => omega
  | succ m ih =>
    cases s with
    | nil => simp at hl
    | cons a s =>
      cases j with
      | zero =>
        rw [List.replicate_succ, List.set_cons_zero]
        exact .cons (Or.inr (by simpa using hC.symm)) (hone m s (by simpa using hl))
      | succ j =>
        rw [List.replicate_succ, List.set_cons_succ]
        exact .cons (Or.inl rfl) (ih j s (by simpa using hl) (by omega) (by simpa using hC))

theorem createMul_shape (scale : ℕ → K) (shape : List ℕ) (k : ℕ) :
    (createMul scale shape k).runtimeShape = (List.replicate (shape.length + 1) 1).set (k + 1) (shape.getD k 0) := by
  rw [createMul, List.replicate_succ, List.set_cons_succ]

theorem getD_drop (l : List ℕ) (a b : ℕ) : (l.drop a).getD b 0 = l.getD (a + b) 0 := by
  simp [List.getD_eq_getElem?_getD]

/-- The inserted module multiplies every value by the weight of its coordinate along the equalised dimension. -/
theorem mul_forward (scale : ℕ → K) (shape : List ℕ) (k : ℕ) (hk : k < shape.length) (x : NdTensor K)
    (hr : shape.length + 1 ≤ x.shape.length)
    (hC : x.shape.getD (x.shape.length - (shape.length + 1) + (k + 1)) 0 = shape.getD k 0) :
    ∃ y, (createMul scale shape k).forward x = some y ∧ y.shape = x.shape ∧
      ∀ idx, InBounds x.shape idx →
        y.data idx = x.data idx * scale (idx.getD (x.shape.length - (shape.length + 1) + (k + 1)) 0) := by
  have hb : Broadcasts (createMul scale shape k).runtimeShape x.shape := by
    rw [createMul_shape]
    refine ⟨by simpa using hr, ?_⟩
    rw [List.length_set, List.length_replicate]
    refine forall₂_set _ _ _ _ ?_ (by omega) ?_
    · rw [List.length_drop]; omega
    · rw [getD_drop]; exact hC
  refine ⟨⟨x.shape, fun idx => x.data (bcIndex x.shape idx) *
      scale (bcIndex (createMul scale shape k).runtimeShape idx).sum⟩, ?_, rfl, ?_⟩
  · unfold ScaleModule.forward bcOp
    rw [bcShape_of_broadcasts (s := (createMul scale shape k).runtimeShape) hb]
    rfl
  intro idx hi
  show x.data (bcIndex x.shape idx) * scale (bcIndex (createMul scale shape k).runtimeShape idx).sum = _
  rw [bcIndex_inBounds hi]
  congr 1
  have hlen : idx.length = x.shape.length := hi.length_eq
  rw [bcIndex, createMul_shape, List.length_set, List.length_replicate,
    zipWith_set_sum _ _ _ _ (by rw [List.length_drop]; omega) (by omega), getD_drop, hlen]
  congr 1
  by_cases h1 : shape.getD k 0 = 1
  · rw [if_pos h1]
    have hlt : x.shape.length - (shape.length + 1) + (k + 1) < idx.length := by omega
    have := List.Forall₂.get hi hlt (by omega : x.shape.length - (shape.length + 1) + (k + 1) < x.shape.length)
    simp only [List.get_eq_getElem] at this
    rw [← List.getD_eq_getElem x.shape 0, hC, h1] at this
    rw [List.getD_eq_getElem _ _ hlt]
    omega
  · rw [if_neg h1]

theorem inBounds_insertIdx (s pos : List ℕ) (dim c : ℕ) (hd : dim < s.length) (hc : c < s.getD dim 0)
    (hp : InBounds (s.eraseIdx dim) pos) : InBounds s (pos.insertIdx dim c) := by
  induction dim generalizing s pos with
  | zero =>
    cases s with
    | nil => simp at hd
    | cons a s => exact .cons (by simpa using hc) (by simpa [InBounds] using hp)
  | succ dim ih =>
    cases s with
    | nil => simp at hd
    | cons a s =>
      rw [List.eraseIdx_cons_succ] at hp
      cases hp with
      | cons h1 h2 =>
        rw [List.insertIdx_succ_cons]
        exact .cons h1 (ih s _ (by simpa using hd) (by simpa using hc) h2)

theorem getD_insertIdx (pos : List ℕ) (dim c : ℕ) (h : dim ≤ pos.length) : (pos.insertIdx dim c).getD dim 0 = c := by
  rw [List.getD_eq_getElem _ _ (by rw [List.length_insertIdx_of_le_length h]; omega), List.getElem_insertIdx_self]

/-- Scaling the inputs of a layer by the reciprocals of the factors and its weights by the factors changes nothing. -/
theorem eval_scaleIn (L : Layer K) (hk : inputAxisIsOutput L.kind ≠ none) (hn : L.kind ≠ .norm) (f : ℕ → K) (hf : ∀ c, f c ≠ 0)
    (x y : Signal K) (h : ∀ c < inputChannels L, ∀ p, y c p = x c p * (f c)⁻¹) (o p : ℕ) :
    (scaleIn f ⟨0, sinkChannels L, 0⟩ L).eval y o p = L.eval x o p := by
  obtain ⟨kind, outCh, inCh, taps, w, b, tap, nrm⟩ := L
  have hs : ∀ c, c < inputChannels (⟨kind, outCh, inCh, taps, w, b, tap, nrm⟩ : Layer K) → ∀ q t,
      f c * Layer.sample (⟨kind, outCh, inCh, taps, w, b, tap, nrm⟩ : Layer K) (y c) q t
        = Layer.sample (⟨kind, outCh, inCh, taps, w, b, tap, nrm⟩ : Layer K) (x c) q t := by
    intro c hc q t
    unfold Layer.sample
    simp only
    cases tap q t with
    | none => simp
    | some r =>
      simp only
      rw [h c hc r]
      field_simp [hf c]
  cases kind with
  | norm => exact absurd rfl hn
  | grouped n => simp [inputAxisIsOutput] at hk
  | dense =>
    simp only [Layer.eval, scaleIn, Layer.biasAt]
    by_cases ho : o < outCh
    · refine (if_pos ho).trans (Eq.trans ?_ (if_pos ho).symm)
      congr 1
      refine Finset.sum_congr rfl fun i hi => Finset.sum_congr rfl fun t _ => ?_
      have hi' : i < inCh := Finset.mem_range.mp hi
      simp only [inputAxisIsOutput, partialScaling, Layer.reads, sinkChannels]
      have := hs i (by simpa [inputChannels] using hi') p t
      simp only [Layer.sample] at this ⊢
      simp [hi', mul_assoc, this]
    · exact (if_neg ho).trans (if_neg ho).symm
  | depthwise =>
    simp only [Layer.eval, scaleIn, Layer.biasAt]
    by_cases ho : o < outCh
    · refine (if_pos ho).trans (Eq.trans ?_ (if_pos ho).symm)
      congr 1
      refine Finset.sum_congr rfl fun i hi => Finset.sum_congr rfl fun t _ => ?_
      simp only [inputAxisIsOutput, partialScaling, Layer.reads, sinkChannels]
      have := hs o (by simpa [inputChannels] using ho) p t
      simp only [Layer.sample] at this ⊢
      simp [ho, mul_assoc, this]
    · exact (if_neg ho).trans (if_neg ho).symm

end Brevitas.ActEq
