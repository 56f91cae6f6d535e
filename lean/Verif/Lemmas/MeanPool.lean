import Verif.Model.MeanPool
import Mathlib.Algebra.BigOperators.Intervals
import Mathlib.Tactic.FieldSimp
import Mathlib.Tactic.Linarith

/-! # Lemmas on global pooling -/

namespace Brevitas.MeanPool

open Brevitas Brevitas.Spec

set_option linter.unusedSectionVars false

variable {K : Type*} [Field K]

theorem adaptiveWindow_global (n : ℕ) : adaptiveWindow n 1 0 = (List.range n).map fun j : ℕ => (j : ℤ) := by
  unfold adaptiveWindow interval
  simp

theorem list_sum_range (n : ℕ) (f : ℕ → K) : ((List.range n).map f).sum = ∑ j ∈ Finset.range n, f j := rfl

theorem global_value (h w : ℕ) (x : List ℤ → K) :
    adaptiveAvgPool [h, w] [1, 1] x [0, 0] = (∑ i ∈ Finset.range h, ∑ j ∈ Finset.range w, x [(i : ℤ), (j : ℤ)]) / ((h : K) * (w : K)) := by
  unfold adaptiveAvgPool gridMean
  simp only [List.zip_cons_cons, List.zip_nil_right, List.zipWith_cons_cons, List.zipWith_nil_right, adaptiveWindow_global, gridSum,
    gridCount, List.map_cons, List.map_nil, List.length_map, List.length_range, List.prod_cons, List.prod_nil, mul_one, List.map_map]
  rw [list_sum_range, Nat.cast_mul]
  congr 1

theorem pool_flatten (t : NdTensor K) (b c h w : ℕ) (hs : t.shape = [b, c, h, w]) (z : NdTensor K) (hz : (globalPool t).bind flattenBatch = some z) :
    z.shape = [b, c] ∧ ∀ i j, i < b → j < c →
      z.data [i, j] = (∑ y ∈ Finset.range h, ∑ x ∈ Finset.range w, t.data [i, j, y, x]) / ((h : K) * (w : K)) := by
  unfold globalPool at hz
  rw [hs] at hz
  dsimp only at hz
  by_cases hp : 0 < c ∧ 0 < h ∧ 0 < w
  · rw [if_pos hp, Option.bind_some] at hz
    unfold flattenBatch at hz
    dsimp only at hz
    by_cases hb : b = 0
    · rw [if_pos hb] at hz; exact nomatch hz
    · rw [if_neg hb] at hz
      have hprod : [b, c, 1, 1].prod / b = c := by
        simp only [List.prod_cons, List.prod_nil, mul_one]
        exact Nat.mul_div_cancel_left c (Nat.pos_of_ne_zero hb)
      rw [hprod] at hz
      unfold NdTensor.reshape at hz
      rw [if_pos (by simp), Option.some.injEq] at hz
      subst hz
      refine ⟨rfl, fun i j hi hj => ?_⟩
      have h1 : NdTensor.fromPosition [b, c, 1, 1] (ravel [b, c] [i, j]) = [i, j, 0, 0] := by
        have e1 : (i * c + j) / c = i := by
          rw [Nat.mul_comm, Nat.mul_add_div hp.1, Nat.div_eq_of_lt hj, Nat.add_zero]
        have e2 : (i * c + j) % c = j := by
          rw [Nat.mul_comm, Nat.mul_add_mod, Nat.mod_eq_of_lt hj]
        simp [NdTensor.fromPosition, ravel, e1, e2, Nat.mod_one]
      dsimp only
      rw [h1]
      simp only [List.drop_succ_cons, List.drop_zero, global_value]
      simp
  · rw [if_neg hp] at hz; exact nomatch hz

end Brevitas.MeanPool
