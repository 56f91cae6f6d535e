import Verif.Model.WeightNorm
import Verif.Spec.Int
import Verif.Lemmas.Ops

/-!
# C144: quantisers with normalised weights
-/

namespace Brevitas.Props

open Brevitas Brevitas.WeightNorm

open Spec

/-- The norm of the weights of a channel: sum of magnitudes, or root of the sum of squares. -/
noncomputable def _root_.Brevitas.Spec.channelNorm : Norm → List ℝ → ℝ
  | .l1, ws => (ws.map fun w => |w|).sum
  | .l2, ws => √((ws.map fun w => w * w).sum)

open Brevitas.Spec (channelNorm)

/-! ## Helpers -/

private theorem norm_eq (n : Norm) (ws : List ℝ) : n.forward ws = channelNorm n ws := by
  cases n with
  | l1 => rfl
  | l2 => simp only [Norm.forward, channelNorm, sq]

private theorem norm_scale (n : Norm) (c : ℝ) (hc : 0 < c) (ws : List ℝ) : channelNorm n (ws.map fun w => c * w) = c * channelNorm n ws := by
  cases n with
  | l1 =>
    simp only [channelNorm, List.map_map, Function.comp_def, abs_mul, abs_of_pos hc, List.sum_map_mul_left]
  | l2 =>
    simp only [channelNorm, List.map_map, Function.comp_def]
    have : (fun w : ℝ => c * w * (c * w)) = fun w => (c * c) * (w * w) := by funext w; ring
    rw [this, List.sum_map_mul_left, Real.sqrt_mul (mul_self_nonneg c), Real.sqrt_mul_self hc.le]

private theorem quant_eq {n : Norm} {bw : ℕ} {s g : ℝ} {ws : List ℝ} (hs : s ≠ 0) (hg : g ≠ 0) (hn : channelNorm n ws ≠ 0) :
    quant n bw s g ws = some (ws.map fun w => tensorClamp ((torchRound (|g| * w / channelNorm n ws / s) : ℤ) : ℝ) (minInt true true bw) (maxInt true true bw) * s) := by
  have ha : |g| ≠ 0 := abs_ne_zero.mpr hg
  unfold quant weightNormPreScaling
  simp only [norm_eq, ha, if_false, div_one]
  rw [if_neg (div_ne_zero (mul_ne_zero hs hn) ha)]
  refine congrArg some (List.map_congr_left fun w _ => ?_)
  unfold IntQuantCfg.decoupledForward IntQuantCfg.decoupledToInt IntQuantCfg.minInt IntQuantCfg.maxInt
  simp only [add_zero, sub_zero]
  have : w / (s * channelNorm n ws / |g|) = |g| * w / channelNorm n ws / s := by field_simp
  rw [this]

/-! ## C144 -/

/-- C144: only the direction of the weights of a channel matters. -/
theorem C144_direction (n : Norm) (bw : ℕ) (s g c : ℝ) (hc : 0 < c) (hs : s ≠ 0) (hg : g ≠ 0) (ws : List ℝ) (hn : channelNorm n ws ≠ 0) :
    quant n bw s g (ws.map fun w => c * w) = quant n bw s g ws := by
  rw [quant_eq hs hg hn, quant_eq hs hg (by rw [norm_scale n c hc]; exact mul_ne_zero hc.ne' hn)]
  rw [List.map_map]
  refine congrArg some (List.map_congr_left fun w _ => ?_)
  simp only [Function.comp_def]
  have : |g| * (c * w) / channelNorm n (ws.map fun w => c * w) = |g| * w / channelNorm n ws := by
    rw [norm_scale n c hc]
    field_simp
  rw [this]

/-- C144: every quantised weight is an integer of the narrow range times the scale, within half a scale of the weight that is normalised to the learned norm, if this is
within the range, and the end of the range if it is beyond. -/
theorem C144_close (n : Norm) (bw : ℕ) (hb : 1 ≤ bw) (s g : ℝ) (hs : 0 < s) (hg : g ≠ 0) (ws : List ℝ) (hn : channelNorm n ws ≠ 0) :
    ∃ ys, quant n bw s g ws = some ys ∧ List.Forall₂ (fun w y => OnGrid true true bw s 0 y ∧
      (|(|g| * w / channelNorm n ws)| ≤ s * (2 ^ (bw - 1) - 1) → |y - |g| * w / channelNorm n ws| ≤ s / 2) ∧
      (s * (2 ^ (bw - 1) - 1) < |g| * w / channelNorm n ws → y = s * (2 ^ (bw - 1) - 1)) ∧
      (|g| * w / channelNorm n ws < -(s * (2 ^ (bw - 1) - 1)) → y = -(s * (2 ^ (bw - 1) - 1)))) ws ys := by
  refine ⟨_, quant_eq hs.ne' hg hn, ?_⟩
  rw [List.forall₂_map_right_iff, List.forall₂_same]
  intro w _
  generalize |g| * w / channelNorm n ws = t
  have hlo : lo true true bw = -(2 ^ (bw - 1) - 1) := by simp [lo]
  have hhi : hi true true bw = 2 ^ (bw - 1) - 1 := by simp [hi]
  rw [maxInt_eq true true hb, minInt_eq true true hb, tensorClamp_int, hlo, hhi]
  have hM : (0 : ℤ) ≤ 2 ^ (bw - 1) - 1 := by
    have : (1 : ℤ) ≤ 2 ^ (bw - 1) := one_le_pow₀ (by norm_num)
    omega
  have hMr : ((2 ^ (bw - 1) - 1 : ℤ) : ℝ) = 2 ^ (bw - 1) - 1 := by push_cast; rfl
  rw [← hMr]
  generalize hMdef : (2 ^ (bw - 1) - 1 : ℤ) = M at *
  have hr := abs_le.mp (torchRound_err (t / s))
  have hts : t = t / s * s := by field_simp
  refine ⟨⟨_, ⟨?_, ?_⟩, by rw [sub_zero]⟩, ?_, ?_, ?_⟩
  · rw [hlo]; exact le_max_right _ _
  · rw [hhi]; exact max_le (min_le_right _ _) (by omega)
  · intro ht
    have ht' := abs_le.mp ht
    have h1 : t / s ≤ M := by rw [div_le_iff₀ hs]; linarith [ht'.2]
    have h2 : -(M : ℝ) ≤ t / s := by rw [le_div_iff₀ hs]; linarith [ht'.1]
    have h3 : torchRound (t / s) ≤ M := by
      have : ((torchRound (t / s) : ℤ) : ℝ) < (M + 1 : ℤ) := by push_cast; linarith
      have : torchRound (t / s) < M + 1 := by exact_mod_cast this
      omega
    have h4 : -M ≤ torchRound (t / s) := by
      have : ((-M - 1 : ℤ) : ℝ) < (torchRound (t / s) : ℤ) := by push_cast; linarith
      have : -M - 1 < torchRound (t / s) := by exact_mod_cast this
      omega
    rw [min_eq_left h3, max_eq_left h4]
    have he : ((torchRound (t / s) : ℤ) : ℝ) * s - t = (((torchRound (t / s) : ℤ) : ℝ) - t / s) * s := by rw [sub_mul, ← hts]
    rw [he, abs_mul, abs_of_pos hs]
    have := mul_le_mul_of_nonneg_right (torchRound_err (t / s)) hs.le
    linarith
  · intro ht
    have h1 : (M : ℝ) < t / s := by rw [lt_div_iff₀ hs]; linarith
    have h2 : M ≤ torchRound (t / s) := by
      have : ((M - 1 : ℤ) : ℝ) < (torchRound (t / s) : ℤ) := by push_cast; linarith
      have : M - 1 < torchRound (t / s) := by exact_mod_cast this
      omega
    rw [min_eq_right h2, max_eq_left (by omega)]
    ring
  · intro ht
    have h1 : t / s < -(M : ℝ) := by rw [div_lt_iff₀ hs]; linarith
    have h2 : torchRound (t / s) ≤ -M := by
      have : ((torchRound (t / s) : ℤ) : ℝ) < ((-M + 1 : ℤ) : ℝ) := by push_cast; linarith
      have : torchRound (t / s) < -M + 1 := by exact_mod_cast this
      omega
    rw [min_eq_left (by omega), max_eq_right h2]
    push_cast
    ring

/-- A channel with two weights: 3 and 4 have the norm 5. -/
example : channelNorm .l2 [3, 4] = 5 := by
  have : (3 * 3 + 4 * 4 : ℝ) = 5 * 5 := by norm_num
  simp only [channelNorm, List.map_cons, List.map_nil, List.sum_cons, List.sum_nil, add_zero, this]
  exact Real.sqrt_mul_self (by norm_num)

/-- C144: at initialisation the learned norm is that of the weights. Then they are quantised as they are. -/
theorem C144_init (n : Norm) (bw : ℕ) (s : ℝ) (hs : s ≠ 0) (ws : List ℝ) (hn : 0 < channelNorm n ws) :
    quant n bw s (channelNorm n ws) ws = some (ws.map fun w => IntQuantCfg.forward ⟨true, true, torchRound⟩ s 0 bw w) := by
  rw [quant_eq hs hn.ne' hn.ne']
  refine congrArg some (List.map_congr_left fun w _ => ?_)
  have : |channelNorm n ws| * w / channelNorm n ws = w := by rw [abs_of_pos hn]; field_simp
  rw [this]
  unfold IntQuantCfg.forward IntQuantCfg.toInt IntQuantCfg.minInt IntQuantCfg.maxInt
  simp only [add_zero, sub_zero]

/-- C144, what is not guaranteed: a channel of zeros is not quantised to zeros. All its weights become NaN. -/
theorem C144_zero_channel (n : Norm) (bw : ℕ) (s g : ℝ) (ws : List ℝ) (hw : ∀ w ∈ ws, w = 0) : quant n bw s g ws = none := by
  have h0 : channelNorm n ws = 0 := by
    cases n with
    | l1 => exact List.sum_eq_zero (by intro x hx; obtain ⟨w, hm, rfl⟩ := List.mem_map.mp hx; rw [hw w hm, abs_zero])
    | l2 =>
      have : (ws.map fun w => w * w).sum = 0 := List.sum_eq_zero (by intro x hx; obtain ⟨w, hm, rfl⟩ := List.mem_map.mp hx; rw [hw w hm, mul_zero])
      simp only [channelNorm, this, Real.sqrt_zero]
  unfold quant weightNormPreScaling
  simp only [norm_eq, h0, mul_zero, zero_div]
  by_cases hg : |g| = 0
  · simp only [hg, if_true]
  · simp only [hg, if_false, zero_div, if_true]

end Brevitas.Props
