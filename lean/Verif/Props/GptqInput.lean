import Verif.Lemmas.GptqInput
import Verif.Model.GpfqInput

/-!
# C119, C120: the inputs that GPTQ and GPFQ look at
-/

namespace Brevitas.Props

open Brevitas NdTensor QuantConv GptqInput

/-- C119, linear layers: for two- or three-dimensional calibration inputs and any two weights `w`, `w'`, the squared change of the outputs over all the calibration data is
`N / 2` times the sum over output features of `d H dᵀ`, with `H` the matrix GPTQ accumulated, `d` the change of the weights of the feature and `N` the number of samples. -/
theorem C119_linear (bias : Option (List ℕ → ℝ)) (w w' : NdTensor ℝ) (hw : w'.shape = w.shape) (hcols : 0 < (w.shape.drop 1).prod) (batches : List (NdTensor ℝ))
    (hpos : ∀ x ∈ batches, 0 < x.shape.getD 0 0) (hrank : ∀ x ∈ batches, x.shape.length = 2 ∨ x.shape.length = 3) (changes : List ℝ)
    (hc : batches.mapM (outputChange (fun x w => linearNd x w bias) w w') = some changes) :
    ∃ H, gptqRun .linear w.shape batches = some [H] ∧
      changes.sum = ((batches.map fun x => x.shape.getD 0 0).sum : ℕ) / 2 *
        ((List.range (w.shape.getD 0 0)).map fun o => quadForm (w.shape.drop 1).prod H.H fun i => weightRow w' o i - weightRow w o i).sum := by
  obtain ⟨Hs, h1, h2, h3⟩ := run_of_batches (fn := .linear) (Nat.mod_one _) batches hpos (fun x hx => linear_batch bias w w' hw hcols x (hrank x hx)) changes hc
  obtain ⟨H, rfl⟩ := List.length_eq_one_iff.1 h2
  refine ⟨H, h1, ?_⟩
  rw [h3]
  congr 2
  apply List.map_congr_left
  intro o ho
  rw [List.mem_range] at ho
  simp only [groupsOf, Nat.div_one, Nat.div_eq_of_lt ho]
  rfl

/-- C119, convolutions: any number of dimensions, stride, padding, dilation and groups. Output channel `o` belongs to group `o / (channels / groups)`, whose matrix is the
one that counts. -/
theorem C119_convolution (stride padding dilation : List ℕ) (groups : ℕ) (bias : Option (List ℕ → ℝ)) (w w' : NdTensor ℝ) (hw : w'.shape = w.shape)
    (hdiv : w.shape.getD 0 0 % groups = 0) (batches : List (NdTensor ℝ)) (hpos : ∀ x ∈ batches, 0 < x.shape.getD 0 0) (changes : List ℝ)
    (hc : batches.mapM (outputChange (fun x w => convPadNd stride padding dilation groups x w bias) w w') = some changes) :
    ∃ Hs, gptqRun (.conv stride padding dilation groups) w.shape batches = some Hs ∧ Hs.length = groups ∧
      changes.sum = ((batches.map fun x => x.shape.getD 0 0).sum : ℕ) / 2 *
        ((List.range (w.shape.getD 0 0)).map fun o => quadForm (w.shape.drop 1).prod (Hs.getD (o / (w.shape.getD 0 0 / groups)) hessInit).H
          fun i => weightRow w' o i - weightRow w o i).sum :=
  run_of_batches (fn := .conv stride padding dilation groups) hdiv batches hpos (fun x _ => conv_batch stride padding dilation groups bias w w' hw x) changes hc

/-- C119, transposed convolutions without groups and without output padding. -/
theorem C119_transposed_convolution (stride padding outputPadding dilation : List ℕ) (hq : ∀ q ∈ outputPadding, q = 0) (bias : Option (List ℕ → ℝ)) (w w' : NdTensor ℝ)
    (hw : w'.shape = w.shape) (batches : List (NdTensor ℝ)) (hpos : ∀ x ∈ batches, 0 < x.shape.getD 0 0) (changes : List ℝ)
    (hc : batches.mapM (outputChange (fun x w => convTransposeNd stride padding outputPadding dilation 1 x w bias) w w') = some changes) :
    ∃ H, gptqRun (.convTranspose stride padding outputPadding dilation 1) w.shape batches = some [H] ∧
      changes.sum = ((batches.map fun x => x.shape.getD 0 0).sum : ℕ) / 2 *
        ((List.range (w.shape.getD 1 0)).map fun o => quadForm (w.shape.getD 0 0 * (w.shape.drop 2).prod) H.H fun i => weightColumn w' o i - weightColumn w o i).sum := by
  obtain ⟨Hs, h1, h2, h3⟩ := run_of_batches (fn := .convTranspose stride padding outputPadding dilation 1) (Nat.mod_one _) batches hpos
    (fun x _ => transpose_batch stride padding outputPadding dilation hq bias w w' hw x) changes hc
  obtain ⟨H, rfl⟩ := List.length_eq_one_iff.1 h2
  refine ⟨H, h1, ?_⟩
  rw [h3]
  congr 2
  apply List.map_congr_left
  intro o ho
  rw [List.mem_range] at ho
  simp only [groupsOf, Nat.div_one, Nat.div_eq_of_lt ho]
  rfl

/-- Examples: three samples with two channels of three numbers; the second channel has its own weights. -/
noncomputable def threeSamples : NdTensor ℝ := ⟨[3, 2, 3], fun idx => idx.getD 0 0 + 2 * idx.getD 1 0 - idx.getD 2 0⟩

noncomputable def depthwise (a : ℝ) : NdTensor ℝ := ⟨[2, 1, 2], fun idx => a * idx.getD 0 0 + idx.getD 2 0⟩

example : ∃ changes, [threeSamples].mapM (outputChange (fun x w => convPadNd [1] [1] [1] 2 x w none) (depthwise 1) (depthwise 2)) = some changes := ⟨_, rfl⟩

example (changes : List ℝ) (hc : [threeSamples].mapM (outputChange (fun x w => convPadNd [1] [1] [1] 2 x w none) (depthwise 1) (depthwise 2)) = some changes) :=
  C119_convolution [1] [1] [1] 2 none (depthwise 1) (depthwise 2) rfl rfl [threeSamples] (by simp [threeSamples]) changes hc

example : ∃ changes, [threeSamples].mapM (outputChange (fun x w => linearNd x w none) ⟨[2, 3], fun _ => 0⟩ ⟨[2, 3], fun _ => 1⟩) = some changes := ⟨_, rfl⟩

example (changes : List ℝ) (hc : [threeSamples].mapM (outputChange (fun x w => linearNd x w none) ⟨[2, 3], fun _ => 0⟩ ⟨[2, 3], fun _ => 1⟩) = some changes) :=
  C119_linear none ⟨[2, 3], fun _ => 0⟩ ⟨[2, 3], fun _ => 1⟩ rfl (by decide) [threeSamples] (by simp [threeSamples]) (by simp [threeSamples]) changes hc

example : ∃ changes, [threeSamples].mapM (outputChange (fun x w => convTransposeNd [2] [1] [0] [1] 1 x w none) ⟨[2, 2, 3], fun _ => 0⟩ ⟨[2, 2, 3], fun _ => 1⟩) = some changes :=
  ⟨_, rfl⟩

example (changes : List ℝ)
    (hc : [threeSamples].mapM (outputChange (fun x w => convTransposeNd [2] [1] [0] [1] 1 x w none) ⟨[2, 2, 3], fun _ => 0⟩ ⟨[2, 2, 3], fun _ => 1⟩) = some changes) :=
  C119_transposed_convolution [2] [1] [0] [1] (by simp) none ⟨[2, 2, 3], fun _ => 0⟩ ⟨[2, 2, 3], fun _ => 1⟩ rfl [threeSamples] (by simp [threeSamples]) changes hc

/-- C119 is false of the code for transposed convolutions with groups: `update_batch` raises on every input, unless a group has one input channel and the kernel one tap. -/
theorem C119_grouped_transpose_raises (stride padding outputPadding dilation : List ℕ) (groups cg bt og : ℕ) (ks sp : List ℕ) (hg : 2 ≤ groups) (hcols : 2 ≤ cg * ks.prod)
    (x : NdTensor ℝ) (hx : x.shape = bt :: cg * groups :: sp) (rest : List (NdTensor ℝ)) :
    gptqRun (.convTranspose stride padding outputPadding dilation groups) (cg * groups :: og :: ks) (x :: rest) = none := by
  have key : gptqRows (.convTranspose stride padding outputPadding dilation groups) (cg * groups :: og :: ks) x = none := by
    unfold gptqRows processed
    simp only
    rw [chunk_eq groups cg bt (by omega) sp x hx]
    obtain ⟨k, rfl⟩ : ∃ k, groups = k + 1 := ⟨groups - 1, by omega⟩
    rw [List.range_succ_eq_map, List.map_cons, List.mapM_cons]
    simp only [List.drop_succ_cons, List.drop_zero]
    unfold unfoldTransposeNd
    simp only
    by_cases hc : padding.length = sp.length ∧ ks.length = sp.length ∧ stride.length = sp.length ∧ dilation.length = sp.length ∧ (∀ s ∈ stride, 0 < s)
    swap
    · rw [if_neg hc]
      rfl
    · rw [if_pos hc]
      simp only [Option.map_some, Option.bind_eq_bind, Option.bind_some]
      cases hm : List.mapM (m := Option) _ _ with
      | none => rfl
      | some ms =>
        simp only [Option.bind_some, pure]
        rw [if_neg]
        simp only [List.map_cons, List.head?_cons, Option.getD_some, transposeFlatten, List.getD_cons_zero, List.getD_cons_succ, columnsOf, List.drop_succ_cons, List.drop_zero]
        rintro ⟨-, -, -, h | h⟩
        · have h1 : cg * (k + 1) * ks.prod = cg * ks.prod * (k + 1) := by ring
          rw [h1] at h
          have h2 : cg * ks.prod * 2 ≤ cg * ks.prod * (k + 1) := Nat.mul_le_mul_left _ hg
          omega
        · omega
  unfold gptqRun
  rw [List.mapM_cons, key]
  rfl

example : gptqRun (.convTranspose [2] [1] [0] [1] 2) [2, 1, 3] [threeSamples] = none :=
  C119_grouped_transpose_raises [2] [1] [0] [1] 2 1 3 1 [3] [3] (by decide) (by decide) threeSamples rfl []

/-- C119 is false of the code for transposed convolutions with output padding: the outputs in the padding change although the matrix says that nothing changes. -/
theorem C119_output_padding_missed : ∃ (w w' x : NdTensor ℝ) (c : ℝ) (H : HessState), outputChange (fun x w => convTransposeNd [2] [1] [1] [1] 1 x w none) w w' x = some c ∧ c ≠ 0 ∧
    gptqRun (.convTranspose [2] [1] [1] [1] 1) w.shape [x] = some [H] ∧ ((List.range 1).map fun o => quadForm 3 H.H fun i => weightColumn w' o i - weightColumn w o i).sum = 0 := by
  obtain ⟨r, hr, hr2⟩ : ∃ r : ℕ → ℝ, gptqRows (.convTranspose [2] [1] [1] [1] 1) [1, 1, 3] ⟨[1, 1, 1], fun _ => 1⟩ = some (1, [[r]]) ∧ r 2 = 0 := by
    refine ⟨_, rfl, ?_⟩
    simp [transposeFlatten, transposedSizes, transposedSource, transposedPos, fromPosition]
  obtain ⟨H, h1, -, h2⟩ := C39_hessian [(1, [r])] (by simp)
  refine ⟨⟨[1, 1, 3], fun _ => 0⟩, ⟨[1, 1, 3], fun idx => if idx.getD 2 0 = 2 then 1 else 0⟩, ⟨[1, 1, 1], fun _ => 1⟩, _, H, rfl, ?_, ?_, ?_⟩
  · simp [distSq, indices, transposedSizes, transposedSource, transposedPos, List.range_succ]
  · unfold gptqRun
    rw [List.mapM_cons, hr]
    simp [groupsOf, List.range_succ, h1]
  · simp [quadForm, weightColumn, fromPosition, List.range_succ, h2, hr2]

end Brevitas.Props
