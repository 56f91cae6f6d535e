import Verif.Model.NormCorr
import Verif.Spec.Average
import Mathlib.Tactic.Ring
import Mathlib.Tactic.NormNum
import Mathlib.Tactic.FieldSimp
import Mathlib.Tactic.Linarith
import Mathlib.Algebra.BigOperators.Group.List.Basic

/-!
# C91: norm correction re-estimates the statistics of batch norms
-/

namespace Brevitas.NormCorr

private theorem fold_avg (bs : List (ℝ × ℝ)) (B : BatchNorm) (ht : B.training = true) (hm : B.momentum = none) (hn : bs ≠ [] ∨ 0 < B.tracked) :
    let R := bs.foldl (fun B b => forward B b.1 b.2) B
    R.mean * ((B.tracked + bs.length : ℕ) : ℝ) = B.mean * B.tracked + (bs.map Prod.fst).sum ∧
      R.var * ((B.tracked + bs.length : ℕ) : ℝ) = B.var * B.tracked + (bs.map Prod.snd).sum ∧ R.old = B.old ∧ R.training = true ∧
      R.momentum = none ∧ R.tracked = B.tracked + bs.length := by
  induction bs generalizing B with
  | nil => simp [ht, hm]
  | cons b bs ih =>
    have hf : forward B b.1 b.2 = { B with
        mean := (1 - 1 / ((B.tracked + 1 : ℕ) : ℝ)) * B.mean + 1 / ((B.tracked + 1 : ℕ) : ℝ) * b.1
        var := (1 - 1 / ((B.tracked + 1 : ℕ) : ℝ)) * B.var + 1 / ((B.tracked + 1 : ℕ) : ℝ) * b.2
        tracked := B.tracked + 1 } := by
      unfold forward
      rw [if_pos ht, hm]
    have := ih (forward B b.1 b.2) (by rw [hf]; exact ht) (by rw [hf]; exact hm) (Or.inr (by rw [hf]; simp))
    dsimp only at this ⊢
    rw [List.foldl_cons]
    obtain ⟨h1, h2, h3, h4, h5, h6⟩ := this
    have hpos : ((B.tracked + 1 : ℕ) : ℝ) ≠ 0 := by positivity
    have e1 : (forward B b.1 b.2).mean * (forward B b.1 b.2).tracked = B.mean * B.tracked + b.1 := by
      rw [hf]
      dsimp only
      field_simp
      push_cast
      ring
    have e2 : (forward B b.1 b.2).var * (forward B b.1 b.2).tracked = B.var * B.tracked + b.2 := by
      rw [hf]
      dsimp only
      field_simp
      push_cast
      ring
    have e3 : (forward B b.1 b.2).tracked = B.tracked + 1 := by rw [hf]
    have e4 : (forward B b.1 b.2).old = B.old := by rw [hf]
    have e5 : (forward B b.1 b.2).tracked + bs.length = B.tracked + (b :: bs).length := by rw [e3, List.length_cons]; omega
    rw [e1, e5] at h1
    rw [e2, e5] at h2
    rw [e4] at h3
    rw [e5] at h6
    refine ⟨?_, ?_, h3, h4, h5, h6⟩
    · rw [h1, List.map_cons, List.sum_cons]; ring
    · rw [h2, List.map_cons, List.sum_cons]; ring

private theorem run_eq (B : BatchNorm) (batches : List (ℝ × ℝ)) (h : batches ≠ []) :
    ∃ R : BatchNorm, R.mean = Spec.mean (batches.map Prod.fst) ∧ R.var = Spec.mean (batches.map Prod.snd) ∧ R.old = some (B.mean, B.var) ∧
      R.training = true ∧ R.momentum = none ∧ run B batches = exit R := by
  obtain ⟨h1, h2, h3, h4, h5, -⟩ := fold_avg batches (enter B) rfl rfl (Or.inl h)
  have hl : (batches.length : ℝ) ≠ 0 := by
    have := List.length_pos_of_ne_nil h
    positivity
  refine ⟨_, ?_, ?_, h3, h4, h5, rfl⟩
  · unfold Spec.mean
    rw [eq_div_iff (by simpa using hl), List.length_map]
    simpa [enter] using h1
  · unfold Spec.mean
    rw [eq_div_iff (by simpa using hl), List.length_map]
    simpa [enter] using h2

/-- C91, partial: after the context the mean of a batch norm is the average of the means of the batches it saw. Missing: its variance, which is
not the average of the variances (`C91_variance`), and its other settings (`C91_momentum_and_mode_lost`). -/
theorem C91_mean_partial (B : BatchNorm) (batches : List (ℝ × ℝ)) (h : batches ≠ []) (h0 : 0 < B.var) (h1 : ∀ b ∈ batches, 0 < b.2) :
    ∃ R, run B batches = some R ∧ R.mean = Spec.mean (batches.map Prod.fst) := by
  obtain ⟨R, e1, e2, e3, e4, e5, e6⟩ := run_eq B batches h
  have hv : 0 < R.var := by
    rw [e2]
    unfold Spec.mean
    apply div_pos
    · apply List.sum_pos
      · intro x hx
        obtain ⟨b, hb, rfl⟩ := List.mem_map.mp hx
        exact h1 b hb
      · simpa using h
    · have := List.length_pos_of_ne_nil h
      simpa using this
  rw [e6]
  unfold exit
  rw [e3]
  refine ⟨_, rfl, ?_⟩
  have ha : Real.sqrt (B.var / R.var) ≠ 0 := (Real.sqrt_pos.mpr (div_pos h0 hv)).ne'
  rw [← e1]
  dsimp only
  field_simp
  ring

/-- C91, what becomes of the variance: the geometric mean of the old variance and the average variance of the batches. -/
theorem C91_variance (B : BatchNorm) (batches : List (ℝ × ℝ)) (h : batches ≠ []) (h0 : 0 < B.var) (h1 : ∀ b ∈ batches, 0 < b.2) :
    ∃ R, run B batches = some R ∧ R.var = Real.sqrt (B.var * Spec.mean (batches.map Prod.snd)) ∧
      (R.var = Spec.mean (batches.map Prod.snd) ↔ B.var = Spec.mean (batches.map Prod.snd)) := by
  obtain ⟨R, e1, e2, e3, e4, e5, e6⟩ := run_eq B batches h
  have hv : 0 < R.var := by
    rw [e2]
    unfold Spec.mean
    apply div_pos
    · apply List.sum_pos
      · intro x hx
        obtain ⟨b, hb, rfl⟩ := List.mem_map.mp hx
        exact h1 b hb
      · simpa using h
    · have := List.length_pos_of_ne_nil h
      simpa using this
  have key : B.var / Real.sqrt (B.var / R.var) = Real.sqrt (B.var * R.var) := by
    rw [div_eq_iff (Real.sqrt_pos.mpr (div_pos h0 hv)).ne', ← Real.sqrt_mul (by positivity)]
    have : B.var * R.var * (B.var / R.var) = B.var ^ 2 := by field_simp
    rw [this, Real.sqrt_sq h0.le]
  rw [e6]
  unfold exit
  rw [e3, ← e2]
  refine ⟨_, rfl, key, ?_⟩
  dsimp only
  rw [key]
  constructor
  · intro hh
    have h2 : B.var * R.var = R.var ^ 2 := by
      have := Real.sq_sqrt (show 0 ≤ B.var * R.var by positivity)
      rw [hh] at this
      exact this.symm
    exact mul_right_cancel₀ hv.ne' (show B.var * R.var = R.var * R.var by rw [h2]; ring)
  · intro hh
    rw [hh, Real.sqrt_mul_self hv.le]

/-- The momentum is lost and the batch norm is left in training mode, whatever they were. -/
theorem C91_momentum_and_mode_lost (B : BatchNorm) (batches : List (ℝ × ℝ)) (h : batches ≠ []) :
    ∃ R, run B batches = some R ∧ R.momentum = none ∧ R.training = true := by
  obtain ⟨R, e1, e2, e3, e4, e5, e6⟩ := run_eq B batches h
  rw [e6]
  unfold exit
  rw [e3]
  exact ⟨_, rfl, e5, e4⟩

/-- Entering and leaving without a batch destroys the statistics. -/
theorem C91_no_batch_destroys (B : BatchNorm) : ∃ R, run B [] = some R ∧ R.mean = 0 ∧ R.var = Real.sqrt B.var := by
  refine ⟨_, rfl, ?_, ?_⟩
  · simp [enter]
  · simp [enter]

/-! ### A concrete case -/

example : ∃ R, run ⟨1, 4, 10, some (1 / 10), false, none⟩ [(2, 9), (4, 9)] = some R ∧ R.mean = 3 := by
  obtain ⟨R, h1, h2⟩ := C91_mean_partial ⟨1, 4, 10, some (1 / 10), false, none⟩ [(2, 9), (4, 9)] (by simp) (by norm_num) (by simp)
  exact ⟨R, h1, by rw [h2]; norm_num [Spec.mean]⟩

example : ∃ R, run ⟨1, 4, 10, some (1 / 10), false, none⟩ [(2, 9), (4, 9)] = some R ∧ R.var = 6 := by
  obtain ⟨R, h1, h2, -⟩ := C91_variance ⟨1, 4, 10, some (1 / 10), false, none⟩ [(2, 9), (4, 9)] (by simp) (by norm_num) (by simp)
  refine ⟨R, h1, ?_⟩
  rw [h2, show (4 : ℝ) * Spec.mean (([(2, 9), (4, 9)] : List (ℝ × ℝ)).map Prod.snd) = 6 ^ 2 by norm_num [Spec.mean]]
  exact Real.sqrt_sq (by norm_num)

end Brevitas.NormCorr
