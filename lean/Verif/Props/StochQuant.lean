import Verif.Model.StochQuant
import Verif.Spec.StochQuant
import Verif.Lemmas.Ops
import Mathlib.Tactic.NormNum
import Mathlib.Tactic.Linarith
import Mathlib.Tactic.FieldSimp
import Mathlib.Tactic.LinearCombination

/-!
# C143: integer quantisation with stochastic rounding is unbiased
-/

set_option linter.unusedSectionVars false

namespace Brevitas.Props

open Brevitas Brevitas.StochQuant

open Spec Spec.Draws

variable {K : Type*} [Field K] [LinearOrder K] [IsStrictOrderedRing K] [FloorRing K]

/-! ## Helpers -/

private theorem prob_eq (y : K) : stochasticProb y = Int.fract y := by
  unfold stochasticProb
  rw [abs_of_nonneg (by linarith [Int.floor_le y])]
  rfl

private theorem one_eq (signed narrow : Bool) {b : ℕ} (hb : 1 ≤ b) (det training : Bool) (hm : det = false ∨ training = true) (s z : K) (d : Bool) (x : K) :
    quantOne signed narrow b det training s z d x = (((max (min (⌊x / s + z⌋ + if d then 1 else 0) (hi signed narrow b)) (lo signed narrow b) : ℤ) : K) - z) * s := by
  have hmode : (det && !training) = false := by rcases hm with rfl | rfl <;> simp
  unfold quantOne IntQuantCfg.forward IntQuantCfg.toInt IntQuantCfg.minInt IntQuantCfg.maxInt
  simp only [maxInt_eq signed narrow hb, minInt_eq signed narrow hb, tensorClamp_int, stochasticRoundForward, hmode, Bool.false_eq_true, if_false, stochasticRound]
  cases d <;> simp

private theorem low (signed narrow : Bool) {b : ℕ} (hb : 1 ≤ b) (det training : Bool) (hm : det = false ∨ training = true) {s z x : K} (hs : s ≠ 0) (hx : InRange signed narrow b s z x) :
    quantOne signed narrow b det training s z false x - x = s * (0 - Int.fract (x / s + z)) := by
  rw [one_eq signed narrow hb det training hm]
  have h1 : lo signed narrow b ≤ ⌊x / s + z⌋ := Int.le_floor.mpr hx.1
  have h2 : ⌊x / s + z⌋ ≤ hi signed narrow b := by
    have := (Int.floor_le (x / s + z)).trans hx.2
    exact_mod_cast this
  simp only [Bool.false_eq_true, if_false, add_zero, min_eq_left h2, max_eq_left h1]
  have := Int.floor_add_fract (x / s + z)
  have hxs : x = s * (x / s) := by field_simp
  linear_combination s * this - hxs

private theorem high (signed narrow : Bool) {b : ℕ} (hb : 1 ≤ b) (det training : Bool) (hm : det = false ∨ training = true) {s z x : K} (hs : s ≠ 0) (hx : InRange signed narrow b s z x)
    (hf : Int.fract (x / s + z) ≠ 0) : quantOne signed narrow b det training s z true x - x = s * (1 - Int.fract (x / s + z)) := by
  rw [one_eq signed narrow hb det training hm]
  have h1 : lo signed narrow b ≤ ⌊x / s + z⌋ := Int.le_floor.mpr hx.1
  have hpos : 0 < Int.fract (x / s + z) := lt_of_le_of_ne (Int.fract_nonneg _) (Ne.symm hf)
  have hfl := Int.floor_add_fract (x / s + z)
  have h2 : ⌊x / s + z⌋ + 1 ≤ hi signed narrow b := by
    have h3 : ((⌊x / s + z⌋ : ℤ) : K) < (hi signed narrow b : ℤ) := by linarith [hx.2]
    have h4 : ⌊x / s + z⌋ < hi signed narrow b := by exact_mod_cast h3
    omega
  simp only [if_true, min_eq_left h2]
  rw [max_eq_left (by omega)]
  push_cast
  have hxs : x = s * (x / s) := by field_simp
  linear_combination s * hfl - hxs

private theorem mean_one (signed narrow : Bool) {b : ℕ} (hb : 1 ≤ b) (det training : Bool) (hm : det = false ∨ training = true) {s z x : K} (hs : s ≠ 0) (hx : InRange signed narrow b s z x) :
    Int.fract (x / s + z) * (quantOne signed narrow b det training s z true x - x) + (1 - Int.fract (x / s + z)) * (quantOne signed narrow b det training s z false x - x) = 0 := by
  rw [low signed narrow hb det training hm hs hx]
  by_cases hf : Int.fract (x / s + z) = 0
  · rw [hf]; ring
  · rw [high signed narrow hb det training hm hs hx hf]; ring

private theorem square_one (signed narrow : Bool) {b : ℕ} (hb : 1 ≤ b) (det training : Bool) (hm : det = false ∨ training = true) {s z x : K} (hs : s ≠ 0) (hx : InRange signed narrow b s z x) :
    Int.fract (x / s + z) * (quantOne signed narrow b det training s z true x - x) ^ 2 + (1 - Int.fract (x / s + z)) * (quantOne signed narrow b det training s z false x - x) ^ 2 =
      s ^ 2 * (Int.fract (x / s + z) * (1 - Int.fract (x / s + z))) := by
  rw [low signed narrow hb det training hm hs hx]
  by_cases hf : Int.fract (x / s + z) = 0
  · rw [hf]; ring
  · rw [high signed narrow hb det training hm hs hx hf]; ring

private theorem expect_mean (signed narrow : Bool) {b : ℕ} (hb : 1 ≤ b) (det training : Bool) (hm : det = false ∨ training = true) {s z : K} (hs : s ≠ 0) :
    ∀ (xs ws : List K) (a : K), ws.length = xs.length → (∀ x ∈ xs, InRange signed narrow b s z x) →
      expect (probs s z xs) (fun d => a + dot ws (quant signed narrow b det training s z d xs)) = a + dot ws xs := by
  intro xs
  induction xs with
  | nil =>
    intro ws a hl _
    have : ws = [] := List.length_eq_zero_iff.mp hl
    subst this
    rfl
  | cons x xs ih =>
    intro ws a hl hx
    cases ws with
    | nil => simp at hl
    | cons w ws =>
      have hl' : ws.length = xs.length := by simpa using hl
      have hx' : ∀ x ∈ xs, InRange signed narrow b s z x := fun y hy => hx y (List.mem_cons_of_mem _ hy)
      have h1 := mean_one signed narrow hb det training hm hs (hx x List.mem_cons_self)
      have e1 := ih ws (a + w * quantOne signed narrow b det training s z true x) hl' hx'
      have e2 := ih ws (a + w * quantOne signed narrow b det training s z false x) hl' hx'
      simp only [add_assoc] at e1 e2
      show stochasticProb (x / s + z) * expect (probs s z xs) (fun d => a + (w * quantOne signed narrow b det training s z true x + dot ws (quant signed narrow b det training s z d xs)))
        + (1 - stochasticProb (x / s + z)) * expect (probs s z xs) (fun d => a + (w * quantOne signed narrow b det training s z false x + dot ws (quant signed narrow b det training s z d xs)))
        = a + (w * x + dot ws xs)
      rw [e1, e2, prob_eq]
      linear_combination w * h1

private theorem expect_square (signed narrow : Bool) {b : ℕ} (hb : 1 ≤ b) (det training : Bool) (hm : det = false ∨ training = true) {s z : K} (hs : s ≠ 0) :
    ∀ (xs ws : List K) (a : K), ws.length = xs.length → (∀ x ∈ xs, InRange signed narrow b s z x) →
      expect (probs s z xs) (fun d => (a + dot ws (quant signed narrow b det training s z d xs)) ^ 2) = (a + dot ws xs) ^ 2 + variance s z ws xs := by
  intro xs
  induction xs with
  | nil =>
    intro ws a hl _
    have : ws = [] := List.length_eq_zero_iff.mp hl
    subst this
    simp [expect, probs, dot, variance]
  | cons x xs ih =>
    intro ws a hl hx
    cases ws with
    | nil => simp at hl
    | cons w ws =>
      have hl' : ws.length = xs.length := by simpa using hl
      have hx' : ∀ x ∈ xs, InRange signed narrow b s z x := fun y hy => hx y (List.mem_cons_of_mem _ hy)
      have h1 := mean_one signed narrow hb det training hm hs (hx x List.mem_cons_self)
      have h2 := square_one signed narrow hb det training hm hs (hx x List.mem_cons_self)
      have e1 := ih ws (a + w * quantOne signed narrow b det training s z true x) hl' hx'
      have e2 := ih ws (a + w * quantOne signed narrow b det training s z false x) hl' hx'
      simp only [add_assoc] at e1 e2
      show stochasticProb (x / s + z) * expect (probs s z xs) (fun d => (a + (w * quantOne signed narrow b det training s z true x + dot ws (quant signed narrow b det training s z d xs))) ^ 2)
        + (1 - stochasticProb (x / s + z)) * expect (probs s z xs) (fun d => (a + (w * quantOne signed narrow b det training s z false x + dot ws (quant signed narrow b det training s z d xs))) ^ 2)
        = (a + (w * x + dot ws xs)) ^ 2 + (w ^ 2 * (s ^ 2 * (Int.fract (x / s + z) * (1 - Int.fract (x / s + z)))) + variance s z ws xs)
      rw [e1, e2, prob_eq]
      linear_combination (2 * w * (a + (w * x + dot ws xs))) * h1 + w ^ 2 * h2

private theorem variance_le (s z : K) : ∀ (ws xs : List K), variance s z ws xs ≤ s ^ 2 / 4 * (ws.map fun w => w ^ 2).sum := by
  intro ws
  induction ws with
  | nil => intro xs; simp [variance]
  | cons w ws ih =>
    intro xs
    have hw : 0 ≤ w ^ 2 * s ^ 2 := by positivity
    cases xs with
    | nil =>
      have : 0 ≤ ((w :: ws).map fun w => w ^ 2).sum := List.sum_nonneg (by
        intro y hy
        obtain ⟨v, -, rfl⟩ := List.mem_map.mp hy
        positivity)
      simp only [variance]
      positivity
    | cons x xs =>
      have h := ih xs
      simp only [variance, List.map_cons, List.sum_cons]
      have hf : Int.fract (x / s + z) * (1 - Int.fract (x / s + z)) ≤ 1 / 4 := by nlinarith [sq_nonneg (Int.fract (x / s + z) - 1 / 2)]
      have := mul_le_mul_of_nonneg_left hf hw
      linarith

/-! ## C143 -/

/-- C143: in training (or always, if inference is not deterministic), any weighted sum of elements within the range has its exact value in expectation. -/
theorem C143_unbiased (signed narrow : Bool) (b : ℕ) (hb : 1 ≤ b) (det training : Bool) (hm : det = false ∨ training = true) (s z : K) (hs : s ≠ 0) (ws xs : List K)
    (hl : ws.length = xs.length) (hx : ∀ x ∈ xs, InRange signed narrow b s z x) :
    expect (probs s z xs) (fun d => dot ws (quant signed narrow b det training s z d xs)) = dot ws xs := by
  have h := expect_mean signed narrow hb det training hm hs xs ws 0 hl hx
  simpa only [zero_add] using h

/-- C143: the squared error of such a sum is, in expectation, the sum of those of its terms, and at most a quarter of the squared scale times the sum of squared weights. -/
theorem C143_variance (signed narrow : Bool) (b : ℕ) (hb : 1 ≤ b) (det training : Bool) (hm : det = false ∨ training = true) (s z : K) (hs : s ≠ 0) (ws xs : List K)
    (hl : ws.length = xs.length) (hx : ∀ x ∈ xs, InRange signed narrow b s z x) :
    expect (probs s z xs) (fun d => (dot ws (quant signed narrow b det training s z d xs) - dot ws xs) ^ 2) = variance s z ws xs ∧
    variance s z ws xs ≤ s ^ 2 / 4 * (ws.map fun w => w ^ 2).sum := by
  refine ⟨?_, variance_le s z ws xs⟩
  have h := expect_square signed narrow hb det training hm hs xs ws (-dot ws xs) hl hx
  simp only [neg_add_cancel] at h
  have he : (fun d => (dot ws (quant signed narrow b det training s z d xs) - dot ws xs) ^ 2) = fun d => (-dot ws xs + dot ws (quant signed narrow b det training s z d xs)) ^ 2 := by
    funext d
    ring
  rw [he, h]
  ring

/-- Two elements at scale 1/2, 4 bits: both are in the range, and the sums are as claimed. -/
example : (∀ x ∈ [(3 / 8 : ℚ), -1], InRange true false 4 (1 / 2) 0 x) ∧
    expect (probs (1 / 2 : ℚ) 0 [3 / 8, -1]) (fun d => dot [2, 3] (quant true false 4 true true (1 / 2) 0 d [3 / 8, -1])) = 2 * (3 / 8) + 3 * (-1) ∧
    variance (1 / 2 : ℚ) 0 [2, 3] [3 / 8, -1] = 3 / 16 := by
  refine ⟨?_, by decide +kernel, by decide +kernel⟩
  intro x hx
  simp only [List.mem_cons, List.not_mem_nil, or_false] at hx
  rcases hx with rfl | rfl <;> norm_num [InRange, lo, hi]

/-- C143: elements beyond the range are clipped to its ends, whatever the draw. -/
theorem C143_clipped (signed narrow : Bool) (b : ℕ) (hb : 1 ≤ b) (det training : Bool) (hm : det = false ∨ training = true) (s z x : K) (draw : Bool) :
    ((hi signed narrow b : K) ≤ x / s + z → quant signed narrow b det training s z [draw] [x] = [((hi signed narrow b : K) - z) * s]) ∧
    (x / s + z < (lo signed narrow b : K) → quant signed narrow b det training s z [draw] [x] = [((lo signed narrow b : K) - z) * s]) := by
  have hlh := lo_le_hi signed narrow hb
  simp only [quant, List.cons.injEq, and_true]
  rw [one_eq signed narrow hb det training hm]
  have hd : (0 : ℤ) ≤ (if draw then 1 else 0) ∧ (if draw then (1 : ℤ) else 0) ≤ 1 := by cases draw <;> simp
  constructor
  · intro h
    have h1 : hi signed narrow b ≤ ⌊x / s + z⌋ := Int.le_floor.mpr h
    rw [min_eq_right (by omega), max_eq_left hlh]
  · intro h
    have h1 : ⌊x / s + z⌋ < lo signed narrow b := Int.floor_lt.mpr h
    rw [min_eq_left (by omega), max_eq_right (by omega)]

/-- 100 at scale 1/2 and 4 bits. -/
example : quant true false 4 true true (1 / 2 : ℚ) 0 [true] [100] = [7 / 2] := by decide +kernel

end Brevitas.Props
