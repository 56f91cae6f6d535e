import Verif.Lemmas.Gpxq
import Verif.Model.Scaling
import Mathlib.LinearAlgebra.Matrix.NonsingularInverse
import Mathlib.Tactic.NormNum
import Mathlib.Tactic.FinCases

/-!
# C39 - C41: post-training weight rounding (GPTQ, GPFQ)
-/

set_option linter.unusedSectionVars false

namespace Brevitas.Props

open Brevitas

/-! ## C39: the Hessian -/

/-- C39: after any sequence of non-empty calibration batches the accumulated matrix is `2/N` times
the sum of `x xᵀ` over all the rows seen, where `N` is the sum of the batch sizes. -/
theorem C39_hessian (batches : List (ℕ × List (ℕ → ℝ))) (hb : ∀ b ∈ batches, 0 < b.1) :
    ∃ st, hessRun batches = some st ∧ st.nsamples = (batches.map Prod.fst).sum ∧
      ∀ i j, st.H i j = 2 / ((batches.map Prod.fst).sum : ℕ) *
        ((batches.flatMap Prod.snd).map (fun x => x i * x j)).sum := by
  obtain ⟨st, h1, h2, h3⟩ := hessRun_aux batches hb hessInit
  refine ⟨st, h1, by simpa [hessInit] using h2, fun i j => ?_⟩
  have h4 : st.nsamples = (batches.map Prod.fst).sum := by simpa [hessInit] using h2
  have h5 := h3 i j
  rw [h4] at h5
  simp only [hessInit, zero_mul, zero_add] at h5
  rcases batches with _ | ⟨b, l⟩
  · have : some hessInit = some st := h1
    simp only [Option.some.injEq] at this
    subst this
    simp [hessInit]
  · have hpos : (0 : ℝ) < (((b :: l).map Prod.fst).sum : ℕ) := by
      have := hb b List.mem_cons_self
      have h6 : 0 < ((b :: l).map Prod.fst).sum := by simp; omega
      exact_mod_cast h6
    rw [div_mul_eq_mul_div, eq_div_iff hpos.ne', h5]

example : ∃ st, hessRun [(1, [fun c => if c = 0 then 1 else 3]), (2, [fun _ => 2, fun _ => 1])] =
    some st ∧ st.nsamples = 3 ∧ st.H 0 1 = 2 / 3 * 8 := by
  obtain ⟨st, h1, h2, h3⟩ := C39_hessian
    [(1, [fun c => if c = 0 then 1 else 3]), (2, [fun _ => 2, fun _ => 1])] (by simp)
  refine ⟨st, h1, by simpa using h2, ?_⟩
  rw [h3]; simp; norm_num

/-- C39: neither the order of the samples nor the way they are grouped into batches matters. -/
theorem C39_batching_irrelevant (bs bs' : List (ℕ × List (ℕ → ℝ)))
    (hb : ∀ b ∈ bs, 0 < b.1) (hb' : ∀ b ∈ bs', 0 < b.1)
    (hN : (bs.map Prod.fst).sum = (bs'.map Prod.fst).sum)
    (hrows : (bs.flatMap Prod.snd).Perm (bs'.flatMap Prod.snd)) :
    ∃ st st', hessRun bs = some st ∧ hessRun bs' = some st' ∧ st.nsamples = st'.nsamples ∧
      st.H = st'.H := by
  obtain ⟨st, h1, h2, h3⟩ := C39_hessian bs hb
  obtain ⟨st', h1', h2', h3'⟩ := C39_hessian bs' hb'
  refine ⟨st, st', h1, h1', by rw [h2, h2', hN], ?_⟩
  funext i j
  rw [h3, h3', hN, (hrows.map _).sum_eq]

example : ∃ st st', hessRun [(2, [fun _ => 2, fun _ => 1])] = some st ∧
    hessRun [(1, [fun _ => 1]), (1, [fun _ => 2])] = some st' ∧ st.H = st'.H := by
  obtain ⟨st, st', h1, h2, -, h3⟩ := C39_batching_irrelevant [(2, [fun _ => 2, fun _ => 1])]
    [(1, [fun _ => 1]), (1, [fun _ => 2])] (by simp) (by simp) (by simp)
    (by simpa using List.Perm.swap _ _ _)
  exact ⟨st, st', h1, h2, h3⟩

/-- C39: an input feature has a zero on the diagonal only if it was zero in every sample. -/
theorem C39_dead_feature (batches : List (ℕ × List (ℕ → ℝ))) (hb : ∀ b ∈ batches, 0 < b.1)
    (st : HessState) (hst : hessRun batches = some st) (c : ℕ) :
    st.H c c = 0 ↔ ∀ x ∈ batches.flatMap Prod.snd, x c = 0 := by
  obtain ⟨st', h1, -, h3⟩ := C39_hessian batches hb
  rw [hst] at h1
  obtain rfl : st = st' := by simpa using h1
  rw [h3]
  constructor
  · intro h x hx
    rcases batches with _ | ⟨b, l⟩
    · simp at hx
    have hpos : (0 : ℝ) < (((b :: l).map Prod.fst).sum : ℕ) := by
      have := hb b List.mem_cons_self
      have h6 : 0 < ((b :: l).map Prod.fst).sum := by simp; omega
      exact_mod_cast h6
    have hs : (((b :: l).flatMap Prod.snd).map (fun x => x c * x c)).sum = 0 := by
      rcases mul_eq_zero.mp h with h | h
      · exact absurd h (div_pos two_pos hpos).ne'
      · exact h
    have hle := List.single_le_sum (l := ((b :: l).flatMap Prod.snd).map (fun x => x c * x c))
      (by intro y hy; obtain ⟨z, -, rfl⟩ := List.mem_map.mp hy; exact mul_self_nonneg _)
      (x c * x c) (List.mem_map_of_mem hx)
    rw [hs] at hle
    exact mul_self_eq_zero.mp (le_antisymm hle (mul_self_nonneg _))
  · intro h
    have : (batches.flatMap Prod.snd).map (fun x => x c * x c) =
        (batches.flatMap Prod.snd).map (fun _ => (0 : ℝ)) :=
      List.map_congr_left fun x hx => by rw [h x hx, mul_zero]
    rw [this]
    simp

/-- C39: the rows of a linear layer are the last dimension of its input for inputs of two or three
dimensions (`b` samples, or `b` sequences of `t` tokens). -/
theorem C39_rows_partial (b t c : ℕ) (hc : 0 < c) :
    linearRowWidth [b, c] = some c ∧ linearRowWidth [b, t, c] = some c := by
  constructor
  · simp [linearRowWidth]
  · have : (b * (t * c)) % c = 0 := by rw [← mul_assoc]; exact Nat.mul_mod_left _ _
    simp [linearRowWidth, hc.ne', this]

/-- C39, what the code does not do: for inputs of four dimensions the rows have the wrong width
(the sum of the last two dimensions instead of the last one), so the statistics are not those of
the layer inputs. -/
theorem C39_rows_four_dims_wrong (b t s c : ℕ) (hs : 0 < s) :
    linearRowWidth [b, t, s, c] ≠ some c := by
  simp only [linearRowWidth]
  simp
  intros
  omega

example : linearRowWidth [1, 2, 2, 2] = some 4 := by decide

/-! ## C40: GPTQ -/

section Gptq

variable {K : Type*} [Field K] [LinearOrder K] [IsStrictOrderedRing K] {ρ : Type*}

/-- The block size is positive. -/
theorem gptqBlocksize_pos {n k : ℕ} (hn : 0 < n) (hk : 0 < k) : 0 < gptqBlocksize n k :=
  Nat.div_pos (by omega) hk

/-- C40: whatever the quantizer (its scales may depend on the whole current weight matrix), every
column ends up holding the value the quantizer produced for that column at some point, the columns
outside the layer are untouched, and the total change of the weights is the sum of the compensation
terms: `W - Q = E h` with `h` upper triangular. -/
theorem C40_every_column_quantized (n : ℕ) (h : ℕ → ℕ → K) (perm : ℕ → ℕ)
    (quant : (ρ → ℕ → K) → ℕ → ρ → K) (bs : ℕ) (hbs : 0 < bs) (W : ρ → ℕ → K)
    (hinj : ∀ i, i < n → ∀ j, j < n → perm i = perm j → i = j) (hh : ∀ i, i < n → h i i ≠ 0) :
    ∃ (S : ℕ → ρ → ℕ → K) (e : ρ → ℕ → K),
      (∀ p, p < n → ∀ r, gptqLoop n h perm quant bs W r (perm p) = quant (S p) (perm p) r) ∧
      (∀ p, p < n → ∀ r, W r (perm p) - gptqLoop n h perm quant bs W r (perm p) =
        ∑ i ∈ Finset.range (p + 1), e r i * h i p) ∧
      (∀ c, (∀ p, p < n → perm p ≠ c) → ∀ r, gptqLoop n h perm quant bs W r c = W r c) := by
  obtain ⟨S, e, inv⟩ := gptq_loop_inv (quant := quant) (W0 := W) hbs hinj hh
  refine ⟨S, e, inv.done, fun p hp r => ?_, inv.out⟩
  rw [inv.done p hp r, Finset.sum_range_succ, inv.errs p hp r, div_mul_cancel₀ _ (hh p hp),
    inv.seen p hp r]
  ring

/-- C40: with a quantizer that rounds each weight on its own (fixed scales), the layer update is
error-compensated rounding in the order given by the permutation: each column is rounded exactly
once, after the compensation of all earlier columns, and then keeps its rounded value. -/
theorem C40_columns (n : ℕ) (h : ℕ → ℕ → K) (perm : ℕ → ℕ) (rnd : ρ → ℕ → K → K) (bs : ℕ)
    (hbs : 0 < bs) (W : ρ → ℕ → K)
    (hinj : ∀ i, i < n → ∀ j, j < n → perm i = perm j → i = j) (hh : ∀ i, i < n → h i i ≠ 0)
    (r : ρ) :
    ∃ err, Spec.Compensated n h (fun p => rnd r (perm p)) (fun p => W r (perm p))
      (fun p => gptqLoop n h perm (fun W c r => rnd r c (W r c)) bs W r (perm p)) err := by
  obtain ⟨S, e, inv⟩ := gptq_loop_inv (quant := fun W c r => rnd r c (W r c)) (W0 := W) hbs hinj hh
  refine ⟨e r, fun p hp => ?_⟩
  have h1 := inv.seen p hp r
  have h2 := inv.errs p hp r
  have h3 := inv.done p hp r
  refine ⟨?_, ?_⟩
  · beta_reduce; rw [h3, h1]
  · beta_reduce; rw [h2, h3, h1]

/-- Error-compensated rounding is deterministic. -/
theorem compensated_unique {n : ℕ} {h : ℕ → ℕ → K} {rnd : ℕ → K → K} {w out out' err err' : ℕ → K}
    (H : Spec.Compensated n h rnd w out err) (H' : Spec.Compensated n h rnd w out' err') :
    ∀ p, p < n → out p = out' p ∧ err p = err' p := by
  intro p
  induction p using Nat.strong_induction_on with
  | _ p ih =>
    intro hp
    have hs : ∑ i ∈ Finset.range p, err i * h i p = ∑ i ∈ Finset.range p, err' i * h i p := by
      refine Finset.sum_congr rfl fun i hi => ?_
      have hi' := Finset.mem_range.mp hi
      rw [(ih i hi' (by omega)).2]
    have h1 := H p hp
    have h2 := H' p hp
    have ho : out p = out' p := by rw [h1.1, h2.1, hs]
    exact ⟨ho, by rw [h1.2, h2.2, hs, ho]⟩

/-- C40: with fixed scales the result does not depend on the number of blocks. -/
theorem C40_block_size_partial (n : ℕ) (h : ℕ → ℕ → K) (perm : ℕ → ℕ) (rnd : ρ → ℕ → K → K)
    (bs bs' : ℕ) (hbs : 0 < bs) (hbs' : 0 < bs') (W : ρ → ℕ → K)
    (hinj : ∀ i, i < n → ∀ j, j < n → perm i = perm j → i = j) (hh : ∀ i, i < n → h i i ≠ 0) :
    gptqLoop n h perm (fun W c r => rnd r c (W r c)) bs W =
      gptqLoop n h perm (fun W c r => rnd r c (W r c)) bs' W := by
  funext r c
  by_cases hc : ∃ p, p < n ∧ perm p = c
  · obtain ⟨p, hp, rfl⟩ := hc
    obtain ⟨e, H⟩ := C40_columns n h perm rnd bs hbs W hinj hh r
    obtain ⟨e', H'⟩ := C40_columns n h perm rnd bs' hbs' W hinj hh r
    exact (compensated_unique H H' p hp).1
  · have hc' : ∀ p, p < n → perm p ≠ c := fun p hp he => hc ⟨p, hp, he⟩
    obtain ⟨_, _, _, _, h1⟩ := C40_every_column_quantized n h perm
      (fun W c r => rnd r c (W r c)) bs hbs W hinj hh
    obtain ⟨_, _, _, _, h2⟩ := C40_every_column_quantized n h perm
      (fun W c r => rnd r c (W r c)) bs' hbs' W hinj hh
    rw [h1 c hc' r, h2 c hc' r]

/-- C40: if rounding twice is rounding once, the updated weights are fixed points of the quantizer:
the quantized layer uses exactly the stored values. -/
theorem C40_fixed_point (n : ℕ) (h : ℕ → ℕ → K) (perm : ℕ → ℕ) (rnd : ρ → ℕ → K → K) (bs : ℕ)
    (hbs : 0 < bs) (W : ρ → ℕ → K)
    (hinj : ∀ i, i < n → ∀ j, j < n → perm i = perm j → i = j) (hh : ∀ i, i < n → h i i ≠ 0)
    (hidem : ∀ r c x, rnd r c (rnd r c x) = rnd r c x) (r : ρ) (p : ℕ) (hp : p < n) :
    rnd r (perm p) (gptqLoop n h perm (fun W c r => rnd r c (W r c)) bs W r (perm p)) =
      gptqLoop n h perm (fun W c r => rnd r c (W r c)) bs W r (perm p) := by
  obtain ⟨S, e, h1, -, -⟩ := C40_every_column_quantized n h perm
    (fun W c r => rnd r c (W r c)) bs hbs W hinj hh
  rw [h1 p hp r]
  exact hidem _ _ _

/-- The witness used below: weights, factor, quantizer with the scale taken from the largest
magnitude of the current weights (three bits, narrow range). -/
def dynQuant (W : Unit → ℕ → ℚ) (c : ℕ) (r : Unit) : ℚ :=
  ((absMaxWeightQuant ⟨true, true, torchRound⟩ 3 none
    [W r 0, W r 1, W r 2]).map fun o => o.1.getD c 0).getD 0

/-- See `dynQuant`. -/
def dynH : ℕ → ℕ → ℚ := fun i j => if i = j then 1 else if i < j then 1 / 2 else 0

/-- See `dynQuant`. -/
def dynW : Unit → ℕ → ℚ := fun _ c => [3, 1 / 2, 7 / 2].getD c 0

/-- C40, what the code does not do: if the scale of the quantizer is computed from the weights at
each call, as in the default weight quantizers, the result depends on the number of blocks. -/
theorem C40_block_size_matters_for_dynamic_scale :
    gptqLoop 3 dynH id dynQuant 2 dynW () 1 ≠ gptqLoop 3 dynH id dynQuant 3 dynW () 1 := by
  decide +kernel

/-- C40, what the code does not do: with such a quantizer the updated weights are not fixed points
of the quantizer, because later updates change the scale; the quantized layer does not use the
values that the algorithm chose. -/
theorem C40_dynamic_scale_not_fixed_point :
    dynQuant (gptqLoop 3 dynH id dynQuant 3 dynW) 0 () ≠
      gptqLoop 3 dynH id dynQuant 3 dynW () 0 := by
  decide +kernel

example : gptqLoop 3 dynH id (fun W c r => (torchRound (W r c) : ℚ)) 2 dynW () 2 = 3 := by
  decide +kernel
example : gptqLoop 3 dynH id (fun W c r => (torchRound (W r c) : ℚ)) 1 dynW () 1 = 0 := by
  decide +kernel

open Matrix in
/-- C40: with the factor that the code computes (`hᵀ h` is the inverse of the damped Hessian `Hd`,
`h` upper triangular), the squared output error of each row in the metric of the damped Hessian is
the sum of the squares of the scaled rounding errors, and the compensation is optimal: once the
first `m` columns have been rounded, no other choice of the remaining columns has a smaller error
than the sum of the squared scaled errors of those `m`. -/
theorem C40_compensation_optimal (n : ℕ) (h : ℕ → ℕ → K) (Hd : Matrix (Fin n) (Fin n) K)
    (hup : ∀ i j, j < i → h i j = 0) (hh : ∀ i, i < n → h i i ≠ 0)
    (hinvH : (Matrix.of fun i j : Fin n => h i j)ᵀ * (Matrix.of fun i j : Fin n => h i j) * Hd = 1)
    (rnd : ℕ → K → K) (w out err : ℕ → K) (H : Spec.Compensated n h rnd w out err) :
    ((fun i : Fin n => w i - out i) ⬝ᵥ (Hd *ᵥ fun i : Fin n => w i - out i) =
      ∑ i ∈ Finset.range n, err i ^ 2) ∧
    ∀ m, m ≤ n → ∀ v : Fin n → K, (∀ i : Fin n, (i : ℕ) < m → v i = out i) →
      ∑ i ∈ Finset.range m, err i ^ 2 ≤
        (fun i : Fin n => w i - v i) ⬝ᵥ (Hd *ᵥ fun i : Fin n => w i - v i) := by
  set U : Matrix (Fin n) (Fin n) K := Matrix.of fun i j : Fin n => h i j with hU
  have h1 : U * Hd * Uᵀ = 1 := by
    rw [Matrix.mul_assoc] at hinvH
    exact mul_eq_one_comm.mp hinvH
  have h2 : Hd * Uᵀ * U = 1 := by
    rw [Matrix.mul_assoc]; exact mul_eq_one_comm.mp hinvH
  -- the quadratic form in the coordinates of `U`
  have quad : ∀ e : Fin n → K, (e ᵥ* U) ⬝ᵥ (Hd *ᵥ (e ᵥ* U)) = ∑ i, e i ^ 2 := by
    intro e
    rw [← Matrix.dotProduct_mulVec, Matrix.mulVec_mulVec, ← Matrix.mulVec_transpose,
      Matrix.mulVec_mulVec, h1, Matrix.one_mulVec]
    simp [dotProduct, sq]
  -- the change of the weights
  have hd : (fun i : Fin n => w i - out i) = (fun i : Fin n => err i) ᵥ* U := by
    funext p
    have hp := H p p.2
    have hdiag := hh p p.2
    have e1 : w p - out p = ∑ i ∈ Finset.range (p + 1), err i * h i p := by
      rw [Finset.sum_range_succ, hp.2, div_mul_cancel₀ _ hdiag]; ring
    have e2 : ∑ i ∈ Finset.range n, err i * h i p =
        ∑ i ∈ Finset.range (p + 1), err i * h i p := by
      symm
      refine Finset.sum_subset ?_ ?_
      · intro x hx
        have := Finset.mem_range.mp hx
        have := p.2
        exact Finset.mem_range.mpr (by omega)
      · intro x _ hx2
        have : (p : ℕ) < x := by
          have := mt Finset.mem_range.mpr hx2
          omega
        rw [hup x p this, mul_zero]
    rw [e1, ← e2, Finset.sum_range]
    simp [Matrix.vecMul, dotProduct, hU]
  have hfirst : (fun i : Fin n => w i - out i) ⬝ᵥ (Hd *ᵥ fun i : Fin n => w i - out i) =
      ∑ i ∈ Finset.range n, err i ^ 2 := by
    rw [hd, quad, Finset.sum_range]
  refine ⟨hfirst, fun m hm v hv => ?_⟩
  -- any completion has its own coordinates, which agree on the first `m` columns
  set e' : Fin n → K := (fun i : Fin n => w i - v i) ᵥ* (Hd * Uᵀ) with he'
  have hv' : (fun i : Fin n => w i - v i) = e' ᵥ* U := by
    rw [he', Matrix.vecMul_vecMul, h2, Matrix.vecMul_one]
  have hexp : ∀ p : Fin n, w p - v p = ∑ i : Fin n, e' i * h i p := by
    intro p
    have := congrFun hv' p
    simpa [Matrix.vecMul, dotProduct, hU] using this
  have hexp0 : ∀ p : Fin n, w p - out p = ∑ i : Fin n, err i * h i p := by
    intro p
    have := congrFun hd p
    simpa [Matrix.vecMul, dotProduct, hU] using this
  have hagree : ∀ k, ∀ p : Fin n, (p : ℕ) = k → (p : ℕ) < m → e' p = err p := by
    intro k
    induction k using Nat.strong_induction_on with
    | _ k ih =>
      intro p hpk hpm
      have ha := hexp p
      have hb := hexp0 p
      rw [hv p hpm, hb] at ha
      have hz : ∑ i : Fin n, (err i - e' i) * h i p = 0 := by
        have : ∑ i : Fin n, (err i - e' i) * h i p =
            (∑ i : Fin n, err i * h i p) - ∑ i : Fin n, e' i * h i p := by
          rw [← Finset.sum_sub_distrib]
          exact Finset.sum_congr rfl fun i _ => by ring
        rw [this, ha, sub_self]
      rw [Finset.sum_eq_single p] at hz
      · rcases mul_eq_zero.mp hz with h3 | h3
        · exact (sub_eq_zero.mp h3).symm
        · exact absurd h3 (hh p p.2)
      · intro i _ hip
        rcases lt_or_gt_of_ne (fun hc => hip (Fin.ext hc) : (i : ℕ) ≠ p) with hlt | hgt
        · rw [ih i (by omega) i rfl (by omega), sub_self, zero_mul]
        · rw [hup i p hgt, mul_zero]
      · intro hc; exact absurd (Finset.mem_univ _) hc
  rw [hv', quad]
  have hsub : ∑ i ∈ Finset.range m, err i ^ 2 ≤ ∑ i ∈ Finset.range n,
      (if hi : i < n then e' ⟨i, hi⟩ ^ 2 else 0) := by
    have : ∑ i ∈ Finset.range m, err i ^ 2 = ∑ i ∈ Finset.range m,
        (if hi : i < n then e' ⟨i, hi⟩ ^ 2 else 0) := by
      refine Finset.sum_congr rfl fun i hi => ?_
      have him := Finset.mem_range.mp hi
      have hin : i < n := by omega
      rw [dif_pos hin, hagree i ⟨i, hin⟩ rfl him]
    rw [this]
    refine Finset.sum_le_sum_of_subset_of_nonneg (Finset.range_mono hm) fun i _ _ => ?_
    split
    · exact sq_nonneg _
    · exact le_rfl
  refine hsub.trans (le_of_eq ?_)
  rw [Finset.sum_range]
  simp

open Matrix in
/-- The hypotheses of `C40_compensation_optimal` on a concrete factor and its damped Hessian. -/
example : (Matrix.of fun i j : Fin 2 => dynH i j)ᵀ * (Matrix.of fun i j : Fin 2 => dynH i j) *
    !![5 / 4, -1 / 2; -1 / 2, 1] = 1 := by
  ext i j
  fin_cases i <;> fin_cases j <;> simp [Matrix.mul_apply, Fin.sum_univ_two, dynH] <;> norm_num

end Gptq

/-- C40: zeroing the weights of a feature whose Hessian diagonal is zero, which the update always
does first, changes no output on the calibration samples. -/
theorem C40_dead_columns {ρ : Type*} (n : ℕ) (batches : List (ℕ × List (ℕ → ℝ)))
    (hb : ∀ b ∈ batches, 0 < b.1) (st : HessState) (hst : hessRun batches = some st)
    (W : ρ → ℕ → ℝ) (r : ρ) (x : ℕ → ℝ) (hx : x ∈ batches.flatMap Prod.snd) :
    ∑ c ∈ Finset.range n, zeroDead n st.H W r c * x c = ∑ c ∈ Finset.range n, W r c * x c := by
  refine Finset.sum_congr rfl fun c _ => ?_
  unfold zeroDead
  split_ifs with h
  · rw [(C39_dead_feature batches hb st hst c).mp h.2 x hx, mul_zero, mul_zero]
  · rfl

/-- C40: if the factorisation fails, the layer computes the same outputs as before on the
calibration samples. -/
theorem C40_abort {ρ : Type*} (n : ℕ) (batches : List (ℕ × List (ℕ → ℝ)))
    (hb : ∀ b ∈ batches, 0 < b.1) (st : HessState) (hst : hessRun batches = some st)
    (percdamp : ℝ) (numBlocks : ℕ) (perm : ℕ → ℕ)
    (chol : (ℕ → ℕ → ℝ) → Option (ℕ → ℕ → ℝ)) (quant : (ρ → ℕ → ℝ) → ℕ → ρ → ℝ)
    (hfail : ∀ H, chol H = none) (W : ρ → ℕ → ℝ) (r : ρ) (x : ℕ → ℝ)
    (hx : x ∈ batches.flatMap Prod.snd) :
    ∑ c ∈ Finset.range n, gptqUpdate n percdamp numBlocks perm chol quant st.H W r c * x c =
      ∑ c ∈ Finset.range n, W r c * x c := by
  unfold gptqUpdate
  rw [hfail]
  exact C40_dead_columns n batches hb st hst W r x hx

/-- C40, end to end for one layer: with fixed scales, a successful factorisation and any number of
blocks, the updated weights are the error-compensated rounding of the weights in which the dead
columns have been zeroed. -/
theorem C40_update {K : Type*} [Field K] [LinearOrder K] [IsStrictOrderedRing K] {ρ : Type*}
    (n : ℕ) (hn : 0 < n) (percdamp : K) (numBlocks : ℕ) (hk : 0 < numBlocks) (perm : ℕ → ℕ)
    (chol : (ℕ → ℕ → K) → Option (ℕ → ℕ → K)) (rnd : ρ → ℕ → K → K) (H h : ℕ → ℕ → K)
    (hinj : ∀ i, i < n → ∀ j, j < n → perm i = perm j → i = j)
    (hchol : chol (dampHessian n percdamp perm (fixDiag n H)) = some h)
    (hh : ∀ i, i < n → h i i ≠ 0) (W : ρ → ℕ → K) (r : ρ) :
    ∃ err, Spec.Compensated n h (fun p => rnd r (perm p))
      (fun p => if perm p < n ∧ H (perm p) (perm p) = 0 then 0 else W r (perm p))
      (fun p => gptqUpdate n percdamp numBlocks perm chol (fun W c r => rnd r c (W r c)) H W r
        (perm p)) err := by
  obtain ⟨e, he⟩ := C40_columns n h perm rnd (gptqBlocksize n numBlocks)
    (gptqBlocksize_pos hn hk) (zeroDead n H W) hinj hh r
  refine ⟨e, ?_⟩
  have : gptqUpdate n percdamp numBlocks perm chol (fun W c r => rnd r c (W r c)) H W =
      gptqLoop n h perm (fun W c r => rnd r c (W r c)) (gptqBlocksize n numBlocks)
        (zeroDead n H W) := by
    unfold gptqUpdate; rw [hchol]
  rw [this]
  exact he

/-- C40: the damped Hessian has the diagonal of the reordered Hessian (with ones for the dead
columns) plus a common amount, and its off-diagonal entries are those of the Hessian. -/
theorem C40_damping {K : Type*} [Field K] [LinearOrder K] [IsStrictOrderedRing K] (n : ℕ)
    (percdamp : K) (perm : ℕ → ℕ) (hperm : ∀ i, i < n → perm i < n)
    (hinj : ∀ i, i < n → ∀ j, j < n → perm i = perm j → i = j) (H : ℕ → ℕ → K) :
    ∃ d, (0 ≤ percdamp → (∀ c, c < n → 0 ≤ H c c) → 0 ≤ d) ∧
      ∀ i, i < n → ∀ j, j < n → dampHessian n percdamp perm (fixDiag n H) i j =
        if i = j then (if H (perm i) (perm i) = 0 then 1 else H (perm i) (perm i)) + d
        else H (perm i) (perm j) := by
  refine ⟨percdamp * ((∑ c ∈ Finset.range n, fixDiag n H (perm c) (perm c)) / (n : K)), ?_, ?_⟩
  · intro hp hH
    refine mul_nonneg hp (div_nonneg (Finset.sum_nonneg fun c hc => ?_) (Nat.cast_nonneg _))
    unfold fixDiag
    split_ifs
    · exact zero_le_one
    · exact hH _ (hperm c (Finset.mem_range.mp hc))
  · intro i hi j hj
    unfold dampHessian
    by_cases hij : i = j
    · subst hij
      simp only [if_true]
      congr 1
      unfold fixDiag
      by_cases h0 : H (perm i) (perm i) = 0
      · rw [if_pos ⟨rfl, hperm i hi, h0⟩, if_pos h0]
      · rw [if_neg (fun hc => h0 hc.2.2), if_neg h0]
    · simp only [if_neg hij]
      unfold fixDiag
      rw [if_neg]
      rintro ⟨he, -⟩
      exact hij (hinj i hi j hj he)

/-- The first dimension of size other than one of a contiguous tensor spans all its elements. -/
theorem contiguous_head (shape : List ℕ) (e : ℕ × ℕ) (l : List (ℕ × ℕ))
    (h : (contiguous shape).filter (fun d => d.1 != 1) = e :: l) : e.1 * e.2 = shape.prod := by
  induction shape with
  | nil => simp [contiguous] at h
  | cons a s ih =>
    by_cases ha : a = 1
    · subst ha
      simp only [contiguous, List.filter_cons] at h
      simp only [List.prod_cons, one_mul]
      exact ih (by simpa using h)
    · simp only [contiguous, List.filter_cons] at h
      have : e = (a, s.prod) := by
        simp [ha] at h; exact h.1.symm
      rw [this, List.prod_cons]

/-- The strides of a contiguous tensor can always be merged. -/
theorem mergeable_contiguous (shape : List ℕ) : mergeable (contiguous shape) = true := by
  induction shape with
  | nil => rfl
  | cons a s ih =>
    unfold mergeable at ih ⊢
    by_cases ha : a = 1
    · subst ha; simpa [contiguous] using ih
    · have : (contiguous (a :: s)).filter (fun d => d.1 != 1) =
          (a, s.prod) :: (contiguous s).filter (fun d => d.1 != 1) := by
        simp [contiguous, ha]
      rw [this]
      cases hf : (contiguous s).filter (fun d => d.1 != 1) with
      | nil => rfl
      | cons e l =>
        rw [hf] at ih
        rw [chainMerge, ih, contiguous_head s e l hf]
        simp

/-- C40, C41: for a linear layer or a convolution the flattened weight aliases the weight of the
layer, so that the updates are stored. -/
theorem C40_updates_are_stored {α : Type*} (shape : List ℕ) (W W' : α) :
    layerWeightAfter false shape W W' = W' := by
  have hd : ∀ s : List ℕ, (contiguous s).drop 1 = contiguous (s.drop 1) := by
    intro s; cases s <;> rfl
  have : flattenedAliases false shape = true := by
    simp only [flattenedAliases, Bool.false_eq_true, if_false]
    rw [hd]
    exact mergeable_contiguous _
  rw [layerWeightAfter, if_pos this]

/-- C40, C41, what the code does not do: for a transposed convolution with more than one input
channel, more than one output channel and more than one kernel element, flattening copies the
weight, so the layer keeps its old weights and the whole update is lost. -/
theorem C40_transposed_convolution_update_lost {α : Type*} (ic oc k : ℕ) (ks : List ℕ)
    (hic : 1 < ic) (hoc : 1 < oc) (hk : 1 < (k :: ks).prod) (W W' : α) :
    layerWeightAfter true (ic :: oc :: k :: ks) W W' = W := by
  have : flattenedAliases true (ic :: oc :: k :: ks) = false := by
    simp only [flattenedAliases, if_true, contiguous, transpose01, List.drop_one, List.tail_cons]
    have h4 : ¬ (ic = 1) := by omega
    have hc : (k, ks.prod) :: contiguous ks = contiguous (k :: ks) := rfl
    unfold mergeable
    rw [hc]
    rw [List.filter_cons]
    simp only [bne_iff_ne, ne_eq, h4, not_false_eq_true, if_true]
    cases hl : (contiguous (k :: ks)).filter (fun d => d.1 != 1) with
    | nil =>
      exfalso
      have hone : ∀ s : List ℕ, (contiguous s).filter (fun d => d.1 != 1) = [] → s.prod = 1 := by
        intro s
        induction s with
        | nil => simp
        | cons a s ih =>
          intro h
          by_cases ha : a = 1
          · subst ha
            rw [List.prod_cons, one_mul]
            exact ih (by simpa [contiguous] using h)
          · simp [contiguous, ha] at h
      rw [hone _ hl] at hk
      omega
    | cons e l =>
      have he := contiguous_head _ e l hl
      have h5 : ¬ (oc * (k :: ks).prod = e.1 * e.2) := by
        rw [he]
        intro h
        have : (k :: ks).prod * 2 ≤ oc * (k :: ks).prod := by
          rw [mul_comm]; exact Nat.mul_le_mul_right _ hoc
        omega
      rw [List.prod_cons] at h5
      simp [chainMerge, h5]
  rw [layerWeightAfter, this]
  rfl

example : layerWeightAfter true [4, 8, 3, 3] 0 1 = 0 := by decide
example : layerWeightAfter true [4, 8, 1, 1] 0 1 = 1 := by decide

/-! ## C41: GPFQ -/

section Gpfq

variable {K : Type*} [Field K] [LinearOrder K] [IsStrictOrderedRing K] {ρ σ : Type*} [Fintype σ]

/-- C41: at any point of the pass over the columns, the running residual of each row is the
difference, on every sample, between the float output and the quantized output of the columns
processed so far. -/
theorem C41_residual (xf xq : ℕ → σ → K) (quant : (ρ → ℕ → K) → ℕ → ρ → K) (W : ρ → ℕ → K)
    (l : List ℕ) (hnd : l.Nodup) (r : ρ) (s : σ) :
    (gpfqUpdate xf xq quant l W).U r s =
      (l.map fun c => W r c * xf c s).sum -
        (l.map fun c => (gpfqUpdate xf xq quant l W).Q r c * xq c s).sum := by
  unfold gpfqUpdate
  rw [(gpfqLoop_inv xf xq _ quant W l hnd).2 r s]
  generalize (gpfqLoop xf xq _ quant l W).Q = Q
  clear hnd
  induction l with
  | nil => simp
  | cons a l ih => simp only [List.map_cons, List.sum_cons, ih]; ring

/-- C41: with fixed scales, at the end of the pass the residual is exactly the difference between
the output of the float layer on its float inputs and the output of the quantized layer, with the
weights stored by the algorithm, on its quantized inputs. -/
theorem C41_layer_output (n : ℕ) (xf xq : ℕ → σ → K) (rnd : ρ → ℕ → K → K) (W : ρ → ℕ → K)
    (order : List ℕ) (hperm : order.Perm (List.range n)) (r : ρ) (s : σ) :
    (gpfqUpdate xf xq (fun W c r => rnd r c (W r c)) order W).U r s =
      Spec.rowOutput n (W r) xf s - Spec.rowOutput n
        (fun c => rnd r c ((gpfqUpdate xf xq (fun W c r => rnd r c (W r c)) order W).W r c)) xq s := by
  have hnd : order.Nodup := hperm.nodup_iff.mpr List.nodup_range
  rw [C41_residual xf xq _ W order hnd r s]
  have hQ : ∀ c ∈ order, (gpfqUpdate xf xq (fun W c r => rnd r c (W r c)) order W).Q r c =
      rnd r c ((gpfqUpdate xf xq (fun W c r => rnd r c (W r c)) order W).W r c) := by
    intro c hc
    obtain ⟨l, m, rfl⟩ := List.append_of_mem hc
    have hcm : c ∉ m := by
      have := (List.nodup_append.mp hnd).2.1
      exact (List.nodup_cons.mp this).1
    have h1 := gpfqLoop_prefix xf xq (fun c => ∑ s, xq c s * xq c s)
      (fun W c r => rnd r c (W r c)) W (l ++ [c]) m r c hcm
    unfold gpfqUpdate
    rw [List.append_assoc] at h1
    simp only [List.singleton_append] at h1
    rw [h1.1, h1.2, gpfqLoop_concat]
    simp [gpfqStep]
  rw [List.map_congr_left (f := fun c =>
      (gpfqUpdate xf xq (fun W c r => rnd r c (W r c)) order W).Q r c * xq c s)
    (g := fun c => rnd r c
      ((gpfqUpdate xf xq (fun W c r => rnd r c (W r c)) order W).W r c) * xq c s)
    (fun c hc => by rw [hQ c hc])]
  have hsum : ∀ f : ℕ → K, (order.map f).sum = ∑ c ∈ Finset.range n, f c := by
    intro f
    rw [(hperm.map f).sum_eq, ← List.sum_toFinset f List.nodup_range, List.toFinset_range]
  rw [hsum, hsum]
  rfl

/-- C41: the value stored for a column is the least-squares optimum: given the columns processed
before it, no other value of the weight of this column gives a smaller squared distance to the
float output. -/
theorem C41_target_optimal (xf xq : ℕ → σ → K) (quant : (ρ → ℕ → K) → ℕ → ρ → K) (W : ρ → ℕ → K)
    (l : List ℕ) (c : ℕ) (hnd : (l ++ [c]).Nodup) (r : ρ) (z : K) :
    ∑ s, (((l ++ [c]).map fun j => W r j * xf j s).sum -
        (l.map fun j => (gpfqUpdate xf xq quant (l ++ [c]) W).Q r j * xq j s).sum -
        (gpfqUpdate xf xq quant (l ++ [c]) W).W r c * xq c s) ^ 2 ≤
    ∑ s, (((l ++ [c]).map fun j => W r j * xf j s).sum -
        (l.map fun j => (gpfqUpdate xf xq quant (l ++ [c]) W).Q r j * xq j s).sum -
        z * xq c s) ^ 2 := by
  have hnd' := List.nodup_append.mp hnd
  have hc : c ∉ l := fun h => hnd'.2.2 c h c (by simp) rfl
  have hQ : ∀ s, (l.map fun j => (gpfqUpdate xf xq quant (l ++ [c]) W).Q r j * xq j s) =
      (l.map fun j => (gpfqUpdate xf xq quant l W).Q r j * xq j s) := by
    intro s
    refine List.map_congr_left fun a ha => ?_
    have hne : a ∉ [c] := fun h => hc (by simp at h; exact h ▸ ha)
    unfold gpfqUpdate
    rw [(gpfqLoop_prefix xf xq _ quant W l [c] r a hne).2]
  have hU : ∀ s, ((l ++ [c]).map fun j => W r j * xf j s).sum -
      (l.map fun j => (gpfqUpdate xf xq quant (l ++ [c]) W).Q r j * xq j s).sum =
      (gpfqUpdate xf xq quant l W).U r s + (gpfqUpdate xf xq quant l W).W r c * xf c s := by
    intro s
    rw [hQ, C41_residual xf xq quant W l hnd'.1 r s]
    have : (gpfqUpdate xf xq quant l W).W r c = W r c :=
      (gpfqLoop_inv xf xq _ quant W l hnd'.1).1 r c hc
    rw [this, List.map_append, List.sum_append]
    simp
    ring
  have hW : (gpfqUpdate xf xq quant (l ++ [c]) W).W r c =
      gpfqArg (fun s => (gpfqUpdate xf xq quant l W).U r s +
        (gpfqUpdate xf xq quant l W).W r c * xf c s) (xq c) (∑ s, xq c s * xq c s) := by
    unfold gpfqUpdate
    rw [gpfqLoop_concat]
    simp [gpfqStep]
  simp only [hU, hW]
  exact gpfqArg_optimal _ _ z

/-- C41: error bound.  If the layer sees the same inputs in float and quantized form and rounding a
value moves it by at most `d` (no clipping), the squared output error of every row after the pass
is at most `d²` times the sum of the squared norms of the columns processed. -/
theorem C41_error_bound (x : ℕ → σ → K) (rnd : ρ → ℕ → K → K) (W : ρ → ℕ → K) (d : K)
    (hd : ∀ r c v, |v - rnd r c v| ≤ d) (l : List ℕ) (hnd : l.Nodup) (r : ρ) :
    ∑ s, ((gpfqUpdate x x (fun W c r => rnd r c (W r c)) l W).U r s) ^ 2 ≤
      d ^ 2 * (l.map fun c => Spec.inner (x c) (x c)).sum := by
  induction l using List.reverseRecOn with
  | nil => simp [gpfqUpdate, gpfqLoop]
  | append_singleton l c ih =>
    have hnd' := List.nodup_append.mp hnd
    have hc : c ∉ l := fun h => hnd'.2.2 c h c (by simp) rfl
    have ih' := ih hnd'.1
    set st := gpfqUpdate x x (fun W c r => rnd r c (W r c)) l W with hst
    set u : σ → K := fun s => st.U r s + st.W r c * x c s with hu
    set a := gpfqArg u (x c) (∑ s, x c s * x c s) with ha
    have hU : ∀ s, (gpfqUpdate x x (fun W c r => rnd r c (W r c)) (l ++ [c]) W).U r s =
        u s - rnd r c a * x c s := by
      intro s
      unfold gpfqUpdate
      rw [gpfqLoop_concat]
      have : gpfqLoop x x (fun c => ∑ s, x c s * x c s) (fun W c r => rnd r c (W r c)) l W = st := rfl
      rw [this]
      simp [gpfqStep, hu, ha]
    simp only [hU]
    rw [gpfqArg_pythagoras u (x c) (rnd r c a)]
    have h1 := gpfqArg_optimal u (x c) (st.W r c)
    have h2 : ∑ s, (u s - st.W r c * x c s) ^ 2 = ∑ s, (st.U r s) ^ 2 :=
      Finset.sum_congr rfl fun s _ => by simp [hu]
    have h3 : (a - rnd r c a) ^ 2 ≤ d ^ 2 := by
      rw [← sq_abs (a - rnd r c a)]
      have := hd r c a
      exact pow_le_pow_left₀ (abs_nonneg _) this 2
    have hn : 0 ≤ ∑ s, x c s * x c s := Finset.sum_nonneg fun s _ => mul_self_nonneg _
    rw [List.map_append, List.sum_append, mul_add]
    refine add_le_add ((h1.trans h2.le).trans ih') ?_
    simp only [List.map_cons, List.map_nil, List.sum_cons, List.sum_nil, add_zero, Spec.inner]
    exact mul_le_mul_of_nonneg_right h3 hn

/-- Rounding to the nearest integer satisfies the hypothesis of `C41_error_bound`. -/
example : (gpfqUpdate (σ := Fin 2) (fun c s => if c = 0 then 1 else if s = 0 then 2 else (-1 : ℚ))
    (fun c s => if c = 0 then 1 else if s = 0 then 2 else (-1 : ℚ))
    (fun W c (_ : Unit) => (torchRound (W () c) : ℚ)) [0, 1] (fun _ _ => 3 / 4)).W () 1 = 7 / 10 := by
  decide +kernel

/-- C41: the memory-efficient variant without damping.  If `S` is a symmetric square root of the
accumulated `H` and `F` solves `S F = G`, it stores exactly the same weights and quantized columns
as the variant that keeps all the inputs. -/
theorem C41_v2_equivalent (m : ℕ) (n : K) (hn : 0 < n) (xf xq : ℕ → σ → K) (S F : ℕ → ℕ → K)
    (hsym : ∀ i, i < m → ∀ j, j < m → S i j = S j i)
    (hS : ∀ i, i < m → ∀ j, j < m → ∑ k : Fin m, S i k * S k j = gpfqV2H n xq i j)
    (hF : ∀ i, i < m → ∀ j, j < m → ∑ k : Fin m, S i k * F k j = gpfqV2G n xf xq i j)
    (quant : (ρ → ℕ → K) → ℕ → ρ → K) (W : ρ → ℕ → K) (l : List ℕ) (hl : ∀ c ∈ l, c < m) :
    (gpfqV2Update m (gpfqV2H n xq) S F quant l W).W = (gpfqUpdate xf xq quant l W).W ∧
    (gpfqV2Update m (gpfqV2H n xq) S F quant l W).Q = (gpfqUpdate xf xq quant l W).Q := by
  have h2n : 0 < 2 / n := div_pos two_pos hn
  suffices h : (gpfqV2Update m (gpfqV2H n xq) S F quant l W).W = (gpfqUpdate xf xq quant l W).W ∧
      (gpfqV2Update m (gpfqV2H n xq) S F quant l W).Q = (gpfqUpdate xf xq quant l W).Q ∧
      ∀ c, c < m → ∀ r,
        ∑ k : Fin m, (gpfqV2Update m (gpfqV2H n xq) S F quant l W).U r k * S k c =
          2 / n * ∑ s, (gpfqUpdate xf xq quant l W).U r s * xq c s from ⟨h.1, h.2.1⟩
  induction l using List.reverseRecOn with
  | nil => simp [gpfqV2Update, gpfqUpdate, gpfqLoop]
  | append_singleton l c ih =>
    obtain ⟨ih1, ih2, ih3⟩ := ih (fun a ha => hl a (by simp [ha]))
    have hcm : c < m := hl c (by simp)
    have e1 : gpfqV2Update m (gpfqV2H n xq) S F quant (l ++ [c]) W =
        gpfqStep (fun c (k : Fin m) => F k c) (fun c k => S k c) (fun c => gpfqV2H n xq c c) quant
          (gpfqV2Update m (gpfqV2H n xq) S F quant l W) c := gpfqLoop_concat _ _ _ _ _ _ _
    have e2 : gpfqUpdate xf xq quant (l ++ [c]) W =
        gpfqStep xf xq (fun c => ∑ s, xq c s * xq c s) quant (gpfqUpdate xf xq quant l W) c :=
      gpfqLoop_concat _ _ _ _ _ _ _
    rw [e1, e2]
    generalize gpfqV2Update m (gpfqV2H n xq) S F quant l W = A at ih1 ih2 ih3 ⊢
    generalize gpfqUpdate xf xq quant l W = B at ih1 ih2 ih3 ⊢
    -- inner products after adding the float column
    have hadd : ∀ c', c' < m → ∀ r,
        ∑ k : Fin m, (A.U r k + A.W r c * F k c) * S k c' =
          2 / n * ∑ s, (B.U r s + B.W r c * xf c s) * xq c' s := by
      intro c' hc' r
      have h1 : ∑ k : Fin m, (A.U r k + A.W r c * F k c) * S k c' =
          ∑ k : Fin m, A.U r k * S k c' + A.W r c * ∑ k : Fin m, S c' k * F k c := by
        rw [Finset.mul_sum, ← Finset.sum_add_distrib]
        refine Finset.sum_congr rfl fun k _ => ?_
        rw [hsym c' hc' k k.2]; ring
      rw [h1, ih3 c' hc' r, hF c' hc' c hcm, ih1, gpfqV2G, ← Finset.mul_sum]
      rw [← mul_assoc, mul_comm (B.W r c) (2 / n), mul_assoc, ← mul_add]
      congr 1
      rw [Finset.mul_sum, ← Finset.sum_add_distrib]
      exact Finset.sum_congr rfl fun s _ => by ring
    have hnorm : gpfqV2H n xq c c = 2 / n * ∑ s, xq c s * xq c s := by
      rw [gpfqV2H, ← Finset.mul_sum]
    have harg : ∀ r, gpfqArg (fun k : Fin m => A.U r k + A.W r c * F k c) (fun k => S k c)
        (gpfqV2H n xq c c) =
        gpfqArg (fun s => B.U r s + B.W r c * xf c s) (xq c) (∑ s, xq c s * xq c s) := by
      intro r
      unfold gpfqArg
      rw [hnorm, hadd c hcm r]
      by_cases h0 : 0 < ∑ s, xq c s * xq c s
      · rw [if_pos (mul_pos h2n h0), if_pos h0, mul_div_mul_left _ _ h2n.ne']
      · rw [if_neg h0, if_neg]
        exact fun hc => h0 (pos_of_mul_pos_right hc h2n.le)
    have hW : (gpfqStep (fun c (k : Fin m) => F k c) (fun c k => S k c)
        (fun c => gpfqV2H n xq c c) quant A c).W =
        (gpfqStep xf xq (fun c => ∑ s, xq c s * xq c s) quant B c).W := by
      funext r j
      simp only [gpfqStep]
      rw [harg r, ih1]
    have hq : quant (gpfqStep (fun c (k : Fin m) => F k c) (fun c k => S k c)
        (fun c => gpfqV2H n xq c c) quant A c).W c =
        quant (gpfqStep xf xq (fun c => ∑ s, xq c s * xq c s) quant B c).W c := by rw [hW]
    refine ⟨hW, ?_, ?_⟩
    · funext r j
      simp only [gpfqStep] at hq ⊢
      rw [hq, ih2]
    · intro c' hc' r
      simp only [gpfqStep] at hq ⊢
      rw [hq]
      generalize quant _ c r = q
      have h1 : ∑ k : Fin m, (A.U r k + A.W r c * F k c - q * S k c) * S k c' =
          ∑ k : Fin m, (A.U r k + A.W r c * F k c) * S k c' - q * ∑ k : Fin m, S c' k * S k c := by
        rw [Finset.mul_sum, ← Finset.sum_sub_distrib]
        refine Finset.sum_congr rfl fun k _ => ?_
        rw [hsym c' hc' k k.2]; ring
      rw [h1, hadd c' hc' r, hS c' hc' c hcm, gpfqV2H, ← Finset.mul_sum]
      rw [← mul_assoc, mul_comm q (2 / n), mul_assoc, ← mul_sub]
      congr 1
      rw [Finset.mul_sum, ← Finset.sum_sub_distrib]
      exact Finset.sum_congr rfl fun s _ => by ring

/-- The hypotheses of `C41_v2_equivalent` on a layer with one column and two samples. -/
example : ∑ k : Fin 1, (fun _ _ => (2 : ℚ)) 0 k * (fun _ _ => (2 : ℚ)) k 0 =
    gpfqV2H (σ := Fin 2) 1 (fun _ _ => (1 : ℚ)) 0 0 := by
  decide +kernel

/-- C41, what the code does not do: the memory-efficient variant damps the matrix, so its targets
are not the least-squares optima.  With a single column and the same float and quantized input, the
stored weight is the float weight divided by one plus the damping factor (0.01 by default), instead
of the float weight itself. -/
theorem C41_v2_damping_shrinks (n : K) (hn : 0 < n) (percdamp : K) (hp : 0 ≤ percdamp)
    (x : ℕ → σ → K) (hx : 0 < ∑ s, x 0 s * x 0 s) (S F : ℕ → ℕ → K)
    (hF : S 0 0 * F 0 0 = gpfqV2G n x x 0 0)
    (quant : (ρ → ℕ → K) → ℕ → ρ → K) (W : ρ → ℕ → K) (r : ρ) :
    (gpfqV2Update 1 (gpfqV2Damped 1 percdamp (gpfqV2H n x)) S F quant [0] W).W r 0 =
      W r 0 / (1 + percdamp) ∧
    (gpfqUpdate x x quant [0] W).W r 0 = W r 0 := by
  have h2n : 0 < 2 / n := div_pos two_pos hn
  constructor
  · have hG : gpfqV2G n x x 0 0 = 2 / n * ∑ s, x 0 s * x 0 s := by
      rw [gpfqV2G, ← Finset.mul_sum]
    have hH : gpfqV2H n x 0 0 = 2 / n * ∑ s, x 0 s * x 0 s := by
      rw [gpfqV2H, ← Finset.mul_sum]
    have hN : gpfqV2Damped 1 percdamp (gpfqV2H n x) 0 0 =
        (2 / n * ∑ s, x 0 s * x 0 s) * (1 + percdamp) := by
      simp [gpfqV2Damped, hH]; ring
    have hpos : 0 < (2 / n * ∑ s, x 0 s * x 0 s) := mul_pos h2n hx
    have hpd : 0 < 1 + percdamp := by linarith
    simp only [gpfqV2Update, gpfqLoop, List.foldl_cons, List.foldl_nil, gpfqStep, if_true]
    unfold gpfqArg
    rw [hN, if_pos (mul_pos hpos hpd)]
    simp only [Finset.univ_unique, Fin.default_eq_zero, Finset.sum_singleton, Fin.val_zero, zero_add]
    have : W r 0 * F 0 0 * S 0 0 = W r 0 * (2 / n * ∑ s, x 0 s * x 0 s) := by
      rw [← hG, ← hF]; ring
    rw [this, mul_comm (2 / n * ∑ s, x 0 s * x 0 s) (1 + percdamp), mul_div_mul_right _ _ hpos.ne']
  · simp only [gpfqUpdate, gpfqLoop, List.foldl_cons, List.foldl_nil, gpfqStep, if_true]
    unfold gpfqArg
    rw [if_pos hx]
    have : ∑ s, (0 + W r 0 * x 0 s) * x 0 s = W r 0 * ∑ s, x 0 s * x 0 s := by
      rw [Finset.mul_sum]
      exact Finset.sum_congr rfl fun s _ => by ring
    rw [this, mul_div_cancel_right₀ _ hx.ne']

end Gpfq

end Brevitas.Props
