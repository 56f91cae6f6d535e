import Verif.Model.Fp8Export
import Verif.Lemmas.FloatTie
import Verif.Lemmas.QuantConv
import Verif.Lemmas.Shape
import Verif.Props.FloatPreset
import Verif.Props.Export

/-!
# Casts to 8-bit floats, and reading scales along an axis
-/

set_option linter.unusedSectionVars false

namespace Brevitas

open NdTensor FloatPreset Fp8Export Props
open _root_.Spec (Float8)
open Brevitas.QuantConv (bcIndex_mem)

variable {K : Type*} [Field K] [LinearOrder K] [IsStrictOrderedRing K] [FloorRing K]

theorem isNumber_zero (t : Float8) : t.IsNumber 0 0 := by cases t <;> simp [Float8.IsNumber, Float8.E, Float8.M]

theorem floatValue_zero_zero (M : ℕ) (bias : ℤ) : _root_.Spec.floatValue (K := K) M bias 0 0 = 0 := by rw [floatValue_zero]; simp

/-- Between two numbers of the same sign with even mantissas lies another number. -/
theorem between_even {t : Float8} {e m e' m' : ℕ} (h : t.IsNumber e m) (h' : t.IsNumber e' m') (hm : Even m) (hm' : Even m')
    (hlt : _root_.Spec.floatValue (K := K) t.M t.bias e m < _root_.Spec.floatValue t.M t.bias e' m') :
    ∃ a, t.IsNumber e a ∧ _root_.Spec.floatValue (K := K) t.M t.bias e m < _root_.Spec.floatValue t.M t.bias e a ∧
      _root_.Spec.floatValue (K := K) t.M t.bias e a < _root_.Spec.floatValue t.M t.bias e' m' := by
  have hc := (floatValue_lt_iff h.2.1 h'.2.1).1 hlt
  obtain ⟨i, rfl⟩ := hm
  obtain ⟨j, rfl⟩ := hm'
  have hb : i + i + 1 < 2 ^ t.M := by
    have h1 := h.2.1
    cases t <;> simp only [Float8.M] at h1 ⊢ <;> omega
  have hn : t.IsNumber e (i + i + 1) := by
    refine ⟨h.1, hb, ?_⟩
    obtain ⟨h1, h2, h3⟩ := h
    obtain ⟨h1', h2', h3'⟩ := h'
    cases t <;> simp only [Float8.M, Float8.E] at h1 h2 h3 h1' h2' h3' ⊢
    · omega
    · exact h3
  exact ⟨_, hn, (floatValue_lt_iff h.2.1 hb).2 (by omega), (floatValue_lt_iff hb h'.2.1).2 (by omega)⟩

theorem value_of {t : Float8} {e m : ℕ} (h : t.IsNumber e m) : t.Value (_root_.Spec.floatValue (K := K) t.M t.bias e m) ∧ t.Value (-_root_.Spec.floatValue (K := K) t.M t.bias e m) :=
  ⟨⟨e, m, h, abs_of_nonneg (floatValue_nonneg _ _ _ _)⟩, ⟨e, m, h, by rw [abs_neg]; exact abs_of_nonneg (floatValue_nonneg _ _ _ _)⟩⟩

/-- A cast is unique. -/
theorem isCast_unique {t : Float8} {x v v' : K} (h : t.IsCast x v) (h' : t.IsCast x v') : v = v' := by
  wlog hlt : v < v' generalizing v v'
  · rcases lt_trichotomy v v' with h1 | h1 | h1
    · exact this h h' h1
    · exact h1
    · exact (this h' h h1).symm
  exfalso
  obtain ⟨e, m, hn, hv, hall⟩ := h
  obtain ⟨e', m', hn', hv', hall'⟩ := h'
  have htie : |x - v| = |x - v'| := le_antisymm (hall v' ⟨e', m', hn', hv'⟩).1 (hall' v ⟨e, m, hn, hv⟩).1
  have hm : Even m := (hall v' ⟨e', m', hn', hv'⟩).2 htie.symm hlt.ne'
  have hm' : Even m' := (hall' v ⟨e, m, hn, hv⟩).2 htie hlt.ne
  have hmid : ∀ w, t.Value w → v < w → w < v' → False := by
    intro w hw h1 h2
    have h3 := (hall w hw).1
    have h4 := (hall' w hw).1
    rcases le_total x w with h5 | h5
    · have a : |x - w| < |x - v'| := by rw [abs_of_nonpos (by linarith), abs_of_nonpos (by linarith)]; linarith
      exact absurd h4 (not_le.2 a)
    · have a : |x - w| < |x - v| := by rw [abs_of_nonneg (by linarith), abs_of_nonneg (by linarith)]; linarith
      exact absurd h3 (not_le.2 a)
  rcases lt_or_ge v 0 with h0 | h0
  · rcases lt_or_ge 0 v' with h1 | h1
    · exact hmid 0 ⟨0, 0, isNumber_zero t, by rw [floatValue_zero_zero, abs_zero]⟩ h0 h1
    · rw [abs_of_neg h0] at hv
      rw [abs_of_nonpos h1] at hv'
      obtain ⟨a, h2, h3, h4⟩ := between_even hn' hn hm' hm (K := K) (by rw [← hv, ← hv']; linarith)
      exact hmid _ (value_of h2).2 (by linarith) (by linarith)
  · rw [abs_of_nonneg h0] at hv
    rw [abs_of_pos (h0.trans_lt hlt)] at hv'
    obtain ⟨a, h2, h3, h4⟩ := between_even hn hn' hm hm' (K := K) (by rw [← hv, ← hv']; exact hlt)
    exact hmid _ (value_of h2).1 (by linarith) (by linarith)

/-- Numbers of the type are not changed. -/
theorem isCast_self {t : Float8} {x v : K} (hx : t.Value x) (h : t.IsCast x v) : v = x := by
  obtain ⟨e, m, -, -, hall⟩ := h
  have := (hall x hx).1
  rw [sub_self, abs_zero] at this
  have := abs_eq_zero.1 (le_antisymm this (abs_nonneg _))
  linarith

/-- What exceeds the largest number becomes it. -/
theorem isCast_top {t : Float8} {x v top : K} (ht : IsGreatest {v : K | t.Value v} top) (hx : top ≤ x) (h : t.IsCast x v) : v = top := by
  obtain ⟨e, m, hn, hv, hall⟩ := h
  have h1 := (hall top ht.1).1
  have h2 : v ≤ top := ht.2 ⟨e, m, hn, hv⟩
  rw [abs_of_nonneg (by linarith), abs_of_nonneg (by linarith)] at h1
  linarith

/-- The standard that a type belongs to. -/
def stdOf : Float8 → Standard
  | .e4m3fn => .ocp
  | .e5m2 => .ocp
  | .e4m3fnuz => .fnuz
  | .e5m2fnuz => .fnuz

theorem isNumber_iff (t : Float8) (e m : ℕ) : Props.IsNumber (stdOf t) t.E t.M e m ↔ t.IsNumber e m := by
  cases t <;> simp [Props.IsNumber, Float8.IsNumber, stdOf, Float8.E, Float8.M]

theorem standardBias_eq (t : Float8) : standardBias (stdOf t) t.E = t.bias := by cases t <;> rfl

theorem formatValue_iff (t : Float8) (v : K) : FormatValue (stdOf t) t.E t.M v ↔ t.Value v := by
  unfold FormatValue Float8.Value
  simp only [isNumber_iff, standardBias_eq]
  refine exists_congr fun e => exists_congr fun m => and_congr_right fun _ => ?_
  rw [abs_eq (floatValue_nonneg _ _ _ _)]

/-- The quantiser casts. -/
theorem forwardSat_isCast {c : FloatCfg K} {t : Float8} (D : Describes c (stdOf t) t.E t.M) (he : SmallEps c) (scale : K) (hs : 0 < scale) (x : K) :
    ∃ v, t.IsCast (x / scale) v ∧ c.forwardSat scale x = v * scale := by
  have hg : ∀ y, FloatGrid c scale y ↔ ∃ v, t.Value v ∧ y = v * scale := by
    intro y
    simp only [FloatGrid, ← formatValue_iff, ← D.values]
    exact ⟨fun ⟨v, a, b, e⟩ => ⟨v, ⟨a, b⟩, e⟩, fun ⟨v, ⟨a, b⟩, e⟩ => ⟨v, a, b, e⟩⟩
  have hnear := C23_nearest_partial c D.ok he (Or.inl D.round) scale hs x
  obtain ⟨v, ⟨e, m, hn, hv⟩, hy⟩ := (hg _).1 hnear.1
  have hx : ∀ w, |x - w * scale| = |x / scale - w| * scale := by
    intro w
    rw [← abs_of_pos hs, ← abs_mul, abs_of_pos hs]
    congr 1; field_simp
  refine ⟨v, ⟨e, m, hn, hv, fun v' hv' => ⟨?_, fun htie hne => ?_⟩⟩, hy⟩
  · have := hnear.2 _ ((hg _).2 ⟨v', hv', rfl⟩)
    rw [hy, hx, hx] at this
    exact le_of_mul_le_mul_right this hs
  · obtain ⟨e', m', he', hm', habs, hev⟩ := C23_ties_to_even c D.ok he D.round scale hs x (v' * scale) ((hg _).2 ⟨v', hv', rfl⟩)
      (by rw [hy]; exact fun h => hne (mul_right_cancel₀ hs.ne' h)) (by rw [hy, hx, hx, htie])
    rw [hy, abs_mul, abs_of_pos hs, hv, D.mantissa, D.bias, standardBias_eq] at habs
    have heq := mul_right_cancel₀ hs.ne' habs
    rw [D.mantissa] at hm'
    have h1 : ¬ (e < e' ∨ (e = e' ∧ m < m')) := fun h => absurd heq ((floatValue_lt_iff hn.2.1 hm').2 h).ne
    have h2 : ¬ (e' < e ∨ (e' = e ∧ m' < m)) := fun h => absurd heq ((floatValue_lt_iff hm' hn.2.1).2 h).ne'
    have : m = m' := by omega
    rw [this]; exact hev

/-! ### Scales -/

theorem ones_unique {s a b : List ℕ} (h1 : ∀ d ∈ s, d = 1) (ha : InBounds s a) (hb : InBounds s b) : a = b := by
  induction s generalizing a b with
  | nil => cases ha; cases hb; rfl
  | cons d s ih =>
    cases ha with
    | cons x xs =>
      cases hb with
      | cons y ys =>
        have : d = 1 := h1 d (by simp)
        rw [ih (fun d hd => h1 d (by simp [hd])) xs ys]
        congr 1; omega

theorem quantAxis_of_ones : ∀ shape : List ℕ, (∀ d ∈ shape, d = 1) → quantAxis shape = none
  | [], _ => rfl
  | d :: ds, h => by
    have hd : d = 1 := h d (by simp)
    subst hd
    simp [quantAxis, quantAxis_of_ones ds (fun x hx => h x (by simp [hx]))]

theorem ones_of_quantAxis : ∀ {shape : List ℕ}, quantAxis shape = none → ∀ d ∈ shape, d = 1
  | [], _ => by simp
  | d :: ds, h => by
    by_cases hd : d = 1
    · subst hd
      simp only [quantAxis, ne_eq, not_true_eq_false, if_false, Option.map_eq_none_iff] at h
      have := ones_of_quantAxis h
      simpa using this
    · simp [quantAxis, hd] at h

theorem flatten_ravel {t : NdTensor K} {i : List ℕ} (h : InBounds t.shape i) : flatten t (Spec.ravel t.shape i) = t.data i := by
  rw [flatten, unravel_ravel ((inBounds_iff_inRange _ _).1 h)]

/-- The exported axis reads what broadcasting reads. -/
theorem axisRead_flatten {t : NdTensor K} {shape idx : List ℕ} (hb : Broadcasts t.shape shape) (h1 : (t.shape.filter (· ≠ 1)).length ≤ 1)
    (hr : t.shape.length = shape.length ∨ ∀ d ∈ t.shape, d = 1) (hi : InBounds shape idx) :
    axisRead (quantAxis t.shape) (flatten t) idx = t.data (bcIndex t.shape idx) := by
  have hmem := bcIndex_mem hb hi
  rcases hr with hr | hr
  · have hl : t.shape.length = idx.length := by rw [hr]; exact hi.length_eq.symm
    rw [C49_axis (flatten t) t.shape idx hl h1, broadcastIdx, ← bcIndex_same hl, flatten_ravel hmem]
  · rw [quantAxis_of_ones _ hr, axisRead, flatten]
    congr 1
    refine ones_unique hr ((inBounds_iff_inRange _ _).2 (unravel_inRange ?_)) hmem
    have : t.shape.prod = 1 := List.prod_eq_one hr
    omega

theorem filter_replicate_set (n d C : ℕ) : (((List.replicate n 1).set d C).filter (· ≠ 1)).length ≤ 1 := by
  induction n generalizing d with
  | zero => simp
  | succ n ih =>
    cases d with
    | zero =>
      rw [List.replicate_succ, List.set_cons_zero, List.filter_cons]
      split_ifs
      · simp
      · simp
    | succ d =>
      rw [List.replicate_succ, List.set_cons_succ, List.filter_cons]
      simpa using ih d

end Brevitas
