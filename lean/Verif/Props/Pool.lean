import Verif.Lemmas.Pool

/-!
# C51: average pooling rewrites

Sums, counts and averages over windows are those of `Verif.Spec.Pool`.
-/

set_option linter.unusedSectionVars false

namespace Brevitas.Props

open Brevitas Spec

variable {K : Type*} [Field K] [LinearOrder K] [IsStrictOrderedRing K] [FloorRing K]

/-- C51: whenever the rewrite replaces an adaptive average pool, for any number of dimensions and any sizes, the new pool has the same
output size and the same value at every output index of every input; with and without unit stride for global pooling. -/
theorem C51_adaptive_to_avg (sizes outs : List ℕ) (hl : sizes.length = outs.length) (hp : ∀ n ∈ sizes, 0 < n) (ho : ∀ o ∈ outs, 0 < o)
    (unitStride : Bool) (axes : List PoolAxis) (h : adaptiveToAvg sizes outs unitStride = some axes) :
    axes.map (fun a => a.outSize false) = outs ∧
    ∀ (x : List ℤ → K) (idx : List ℕ), List.Forall₂ (· < ·) idx outs →
      avgPool .default axes x idx = adaptiveAvgPool sizes outs x idx := by
  obtain ⟨hd, hax⟩ := adaptiveToAvg_eq h hl
  have hex : ∃ f : ℕ → ℕ → ℕ, axes = axesOf f sizes outs ∧ ∀ n o, o ∈ outs → f n o = n / o ∨ (o = 1 ∧ 0 < f n o) := by
    rcases hax with h | ⟨h1, h⟩
    · exact ⟨_, h, fun n o _ => Or.inl rfl⟩
    · exact ⟨_, h, fun n o hm => Or.inr ⟨h1 o hm, by norm_num⟩⟩
  obtain ⟨f, rfl, hf⟩ := hex
  constructor
  · have hz : List.Forall₂ (· < ·) (outs.map fun _ => 0) outs := by
      clear h hax hf hd hl hp
      induction outs with
      | nil => exact .nil
      | cons o os ih => exact .cons (ho o (by simp)) (ih fun o h => ho o (by simp [h]))
    exact (windows_eq f sizes outs _ hp ho hd hf hz).2
  · intro x idx hi
    have hw := (windows_eq f sizes outs idx hp ho hd hf hi).1
    simp only [avgPool, PoolOpts.default, if_true, adaptiveAvgPool, gridMean, hw]
    congr 1
    apply gridSum_congr
    intro pos hpos
    rw [padRead, axesOf_size f sizes outs hl, if_pos (adaptive_inside sizes outs idx ho hd hi pos hpos)]

/-- C51: the rewrite happens exactly when every input size is a multiple of the output size. -/
theorem C51_rewritten_iff (sizes outs : List ℕ) (hl : sizes.length = outs.length) (u : Bool) :
    (adaptiveToAvg sizes outs u).isSome ↔ List.Forall₂ (fun n o => n % o = 0) sizes outs := by
  constructor
  · intro h
    obtain ⟨axes, ha⟩ := Option.isSome_iff_exists.mp h
    exact (adaptiveToAvg_eq ha hl).1
  · intro h
    have : (List.zipWith (fun n o => n % o) sizes outs).all (· == 0) := by
      clear hl
      induction h with
      | nil => rfl
      | cons h0 _ ih => simp only [List.zipWith_cons_cons, List.all_cons, Bool.and_eq_true, beq_iff_eq]; exact ⟨h0, ih⟩
    unfold adaptiveToAvg
    rw [if_pos this]; rfl

private theorem observe_aux {M : Type*} [DecidableEq M] : ∀ (calls sizes result : List (M × List ℕ)),
    calls.foldlM (fun sizes call =>
      match sizes.lookup call.1 with
      | some s => if s ≠ call.2 then none else some sizes
      | none => some (call :: sizes)) sizes = some result →
    (∀ m s, sizes.lookup m = some s → result.lookup m = some s) ∧ (∀ c ∈ calls, result.lookup c.1 = some c.2) ∧
    (∀ e ∈ result, e ∈ sizes ∨ e ∈ calls)
  | [], sizes, result, h => by
    simp at h; subst h
    simp
  | c :: cs, sizes, result, h => by
    rw [List.foldlM_cons] at h
    cases hl : sizes.lookup c.1 with
    | some s =>
      rw [hl] at h
      by_cases hs : s ≠ c.2
      · simp [hs] at h
      · simp only [if_neg hs] at h
        obtain ⟨h1, h2, h3⟩ := observe_aux cs sizes result h
        push Not at hs
        subst hs
        refine ⟨h1, ?_, fun e he => (h3 e he).imp_right (List.mem_cons_of_mem _)⟩
        intro c' hc'
        rcases List.mem_cons.mp hc' with rfl | hc'
        · exact h1 _ _ hl
        · exact h2 c' hc'
    | none =>
      rw [hl] at h
      obtain ⟨h1, h2, h3⟩ := observe_aux cs (c :: sizes) result h
      refine ⟨?_, ?_, ?_⟩
      · intro m s hm
        apply h1
        obtain ⟨c1, c2⟩ := c
        have he : (m == c1) = false := by
          rw [beq_eq_false_iff_ne]
          rintro rfl
          simp only at hl
          rw [hl] at hm; simp at hm
        simp only [List.lookup, he, hm]
      · intro c' hc'
        rcases List.mem_cons.mp hc' with rfl | hc'
        · apply h1
          obtain ⟨c1, c2⟩ := c'
          simp [List.lookup]
        · exact h2 c' hc'
      · intro e he
        rcases h3 e he with h | h
        · rcases List.mem_cons.mp h with rfl | h
          · exact Or.inr (by simp)
          · exact Or.inl h
        · exact Or.inr (List.mem_cons_of_mem _ h)

/-- C51: over a whole run of a model, with pools called any number of times in any order: if the run is accepted, the replacement of every
pool returns what the pool returned in every one of its calls. -/
theorem C51_every_call {M : Type*} [DecidableEq M] (calls recorded : List (M × List ℕ)) (h : observeSizes calls = some recorded)
    (outs : M → List ℕ) (hl : ∀ c ∈ calls, c.2.length = (outs c.1).length) (hp : ∀ c ∈ calls, ∀ n ∈ c.2, 0 < n)
    (ho : ∀ m, ∀ o ∈ outs m, 0 < o) (unitStride : Bool) :
    ∀ c ∈ calls, ∀ size axes, recorded.lookup c.1 = some size → adaptiveToAvg size (outs c.1) unitStride = some axes →
    ∀ (x : List ℤ → K) (idx : List ℕ), List.Forall₂ (· < ·) idx (outs c.1) →
      avgPool .default axes x idx = adaptiveAvgPool c.2 (outs c.1) x idx := by
  intro c hc size axes hr ha x idx hi
  have := (observe_aux calls [] recorded h).2.1 c hc
  rw [this] at hr
  obtain rfl := Option.some.inj hr
  exact (C51_adaptive_to_avg c.2 (outs c.1) (hl c hc) (hp c hc) (ho _) unitStride axes ha).2 x idx hi

/-- C51: a pool called with two different sizes stops the rewrite with an error. -/
theorem C51_two_sizes_refused {M : Type*} [DecidableEq M] (calls : List (M × List ℕ)) (m : M) (s t : List ℕ) (hs : (m, s) ∈ calls)
    (ht : (m, t) ∈ calls) (hne : s ≠ t) : observeSizes calls = none := by
  cases h : observeSizes calls with
  | none => rfl
  | some r =>
    have h' := (observe_aux calls [] r h).2.1
    have h1 := h' _ hs
    have h2 := h' _ ht
    simp only at h1 h2
    rw [h1] at h2
    exact absurd (Option.some.inj h2) hne

example : adaptiveToAvg [6, 8] [3, 2] true = some [⟨6, 2, 2, 0⟩, ⟨8, 4, 4, 0⟩] ∧ adaptiveToAvg [7, 7] [1, 1] true =
    some [⟨7, 7, 1, 0⟩, ⟨7, 7, 1, 0⟩] ∧ adaptiveToAvg [7] [3] true = none := by decide
example : avgPool .default [⟨6, 2, 2, 0⟩] (fun p => (p.getD 0 0 : ℚ) * (p.getD 0 0)) [1] = 13/2 := by decide +kernel
example : observeSizes [(0, [6]), (1, [4]), (0, [6])] = some [(1, [4]), (0, [6])] := by decide

/-! ## Pooling as a depthwise convolution -/

private theorem windows_of_range (axes : List PoolAxis) (hk : ∀ a ∈ axes, a.kernel ≤ a.size + 2 * a.padding) (hs : ∀ a ∈ axes, 0 < a.stride)
    (idx : List ℕ) (hi : List.Forall₂ (fun (a : PoolAxis) o => o < a.outSize false) axes idx) :
    List.Forall₂ (fun (a : PoolAxis) (o : ℕ) =>
      a.window o = interval ((o : ℤ) * a.stride - a.padding) ((o : ℤ) * a.stride - a.padding + a.kernel)) axes idx := by
  induction hi with
  | nil => exact .nil
  | cons h0 _ ih =>
    exact .cons (PoolAxis.window_eq _ _ (hk _ (by simp)) (hs _ (by simp)) h0)
      (ih (fun a h => hk a (by simp [h])) (fun a h => hs a (by simp [h])))

/-- C51: the depthwise convolution put in place of an average pool with default options has the same output sizes and, with its float
weights, the same value at every output index of every input: any number of dimensions, kernel, stride and padding. -/
theorem C51_avg_to_conv (axes : List PoolAxis) (hk : ∀ a ∈ axes, a.kernel ≤ a.size + 2 * a.padding) (hs : ∀ a ∈ axes, 0 < a.stride)
    (x : List ℤ → K) :
    (avgPoolToConv (K := K) axes).2.map PoolAxis.convOutSize = axes.map (fun a => a.outSize false) ∧
    ∀ idx : List ℕ, List.Forall₂ (fun (a : PoolAxis) o => o < a.outSize false) axes idx →
      depthwiseConv (avgPoolToConv axes).1 (avgPoolToConv (K := K) axes).2 x idx = avgPool .default axes x idx := by
  constructor
  · rfl
  · intro idx hi
    have hw := windows_of_range axes hk hs idx hi
    simp only [avgPool, PoolOpts.default, if_true, depthwiseConv, avgPoolToConv]
    rw [gridSum_mul_left, ← gridSum_shift axes idx hw, gridCount_window axes idx hw]
    ring

/-- C51: and the weight of that convolution survives its (narrow range, absolute-maximum) quantiser unchanged, whatever the number of
weights, the rounding and the bit width from 2 on. -/
theorem C51_conv_weight_exact (w : K) (hw : 0 < w) (b : ℕ) (hb : 2 ≤ b) (f : K → ℤ) (hf : Shipped f) (n : ℕ) (hn : 0 < n)
    (scalingMinVal : Option K) (hmin : ∀ m, scalingMinVal = some m → m ≤ w / intScaling true true b) :
    ∃ s, absMaxWeightQuant ⟨true, true, f⟩ b scalingMinVal (List.replicate n w) = some (List.replicate n w, s, 0, b) := by
  have hhi : intScaling (K := K) true true b = ((2 ^ (b - 1) - 1 : ℤ) : K) := by
    simp only [intScaling, if_true, minInt_eq _ _ (by omega : 1 ≤ b), Spec.lo]
    push_cast; ring
  have hpos : (0 : ℤ) < 2 ^ (b - 1) - 1 := by
    have : (2 : ℤ) ^ 1 ≤ 2 ^ (b - 1) := pow_le_pow_right₀ (by norm_num) (by omega)
    omega
  have hposK : (0 : K) < ((2 ^ (b - 1) - 1 : ℤ) : K) := by exact_mod_cast hpos
  have hcl : clampMinVal scalingMinVal (w / intScaling true true b) = w / intScaling true true b := by
    unfold clampMinVal
    cases scalingMinVal with
    | none => rfl
    | some m =>
      by_cases h0 : m = 0
      · simp [h0]
      · simp only [h0, if_false, clampMin]
        exact max_eq_left (hmin m rfl)
  have hmax : absMax (List.replicate n w) = some w := by
    have hne : (List.replicate n w).map (fun x => |x|) ≠ [] := by simp; omega
    obtain ⟨M, hM, hm, -⟩ := torchMax_spec hne
    rw [absMax, hM]
    simp only [List.map_replicate, List.mem_replicate, abs_of_pos hw] at hm
    rw [hm.2]
  refine ⟨w / intScaling true true b, ?_⟩
  unfold absMaxWeightQuant rescalingIntQuant
  simp only [hmax, Option.map_some, Option.bind_eq_bind, Option.bind_some, statsScalingFp, hcl, Option.pure_def, Bool.false_eq_true,
    if_false, Option.some.injEq, Prod.mk.injEq, and_true, List.map_replicate]
  congr 1
  have hq : w / (w / intScaling true true b) + 0 = ((2 ^ (b - 1) - 1 : ℤ) : K) := by
    rw [hhi, add_zero]; field_simp
  simp only [IntQuantCfg.forward]
  rw [toInt_eq_code _ _ _ (by omega : 1 ≤ b)]
  simp only [hq, hf.faithful.int]
  rw [code_of_isCode]
  · rw [hhi, sub_zero]; field_simp
  · simp [Spec.IsCode, Spec.lo, Spec.hi]; omega

example : depthwiseConv (avgPoolToConv [⟨3, 2, 1, 1⟩]).1 [⟨3, 2, 1, 1⟩] (fun p => (p.getD 0 0 : ℚ) + 1) [3] = 3/2 ∧
    avgPool .default [⟨3, 2, 1, 1⟩] (fun p => (p.getD 0 0 : ℚ) + 1) [3] = 3/2 ∧ (3 : ℕ) < PoolAxis.outSize ⟨3, 2, 1, 1⟩ false := by
  decide +kernel

/-- C51 fails for pools with `count_include_pad=False`: the pool averages the elements inside the image, the convolution counts the
padding. -/
theorem C51_count_include_pad_ignored :
    avgPool ⟨false, false, none⟩ [⟨3, 2, 1, 1⟩] (fun _ => (1 : ℚ)) [0] = 1 ∧
    depthwiseConv (avgPoolToConv [⟨3, 2, 1, 1⟩]).1 (avgPoolToConv (K := ℚ) [⟨3, 2, 1, 1⟩]).2 (fun _ => (1 : ℚ)) [0] = 1/2 := by decide +kernel

/-- C51 fails for pools with `ceil_mode=True`: the output sizes differ. -/
theorem C51_ceil_mode_ignored :
    [(⟨3, 2, 2, 0⟩ : PoolAxis)].map (fun a => a.outSize true) = [2] ∧
    (avgPoolToConv (K := ℚ) [⟨3, 2, 2, 0⟩]).2.map PoolAxis.convOutSize = [1] := by decide

/-- C51 fails for pools with a divisor override. -/
theorem C51_divisor_override_ignored :
    avgPool ⟨false, true, some 1⟩ [⟨2, 2, 2, 0⟩] (fun _ => (1 : ℚ)) [0] = 2 ∧
    depthwiseConv (avgPoolToConv [⟨2, 2, 2, 0⟩]).1 (avgPoolToConv (K := ℚ) [⟨2, 2, 2, 0⟩]).2 (fun _ => (1 : ℚ)) [0] = 1 := by decide +kernel

/-! ## Truncated pooling -/

/-- C51 (truncated average pooling): the value handed to the truncation is the exact sum over the window, so with integer codes `c` and
scale `s` it is an integer multiple of `s`. -/
theorem C51_trunc_avg_pool (axes : List PoolAxis) (hk : ∀ a ∈ axes, 0 < a.kernel ∧ a.kernel ≤ a.size) (hs : ∀ a ∈ axes, 0 < a.stride)
    (x : List ℤ → K) (idx : List ℕ) (hi : List.Forall₂ (fun (a : PoolAxis) o => o < a.outSize false) axes idx) :
    truncAvgRescaled axes x idx =
      gridSum (List.zipWith PoolAxis.window axes idx) (padRead (axes.map PoolAxis.size) x) := by
  have hw := windows_of_range axes (fun a h => (hk a h).2.trans (by omega)) hs idx hi
  have hne : (((axes.map PoolAxis.kernel).prod : ℕ) : K) ≠ 0 := by
    have : (axes.map PoolAxis.kernel).prod ≠ 0 := by
      rw [ne_eq, List.prod_eq_zero_iff]
      simp only [List.mem_map, not_exists, not_and]
      intro a ha h
      exact absurd h (hk a ha).1.ne'
    exact_mod_cast this
  simp only [truncAvgRescaled, avgPool, PoolOpts.default, if_true, gridCount_window axes idx hw]
  field_simp

/-- C51 (truncated adaptive pooling), partial: when every input size is a multiple of the output size, the value handed to the truncation
is the exact sum over the adaptive window. Missing: sizes that do not divide, where windows of different sizes are rescaled by the same
factor (`C51_trunc_adaptive_uneven`). -/
theorem C51_trunc_adaptive_partial (sizes outs : List ℕ) (hp : ∀ n ∈ sizes, 0 < n) (ho : ∀ o ∈ outs, 0 < o)
    (hd : List.Forall₂ (fun n o => n % o = 0) sizes outs) (x : List ℤ → K) (idx : List ℕ) (hi : idx.length = outs.length) :
    truncAdaptiveRescaled sizes outs x idx =
      gridSum (List.zipWith (fun (no : ℕ × ℕ) o => adaptiveWindow no.1 no.2 o) (List.zip sizes outs) idx) x := by
  have hne : (((computeKernelSizeStride sizes outs).1.prod : ℕ) : K) ≠ 0 := by
    have : (computeKernelSizeStride sizes outs).1.prod ≠ 0 := by
      rw [ne_eq, List.prod_eq_zero_iff]
      simp only [computeKernelSizeStride, List.mem_map, not_exists, not_and]
      clear hi
      induction hd with
      | nil => simp
      | @cons n o ns os h0 _ ih =>
        rintro ⟨a, b⟩ hm he
        rw [List.zip_cons_cons, List.mem_cons] at hm
        rcases hm with h | h
        · simp only [Prod.mk.injEq] at h
          obtain ⟨rfl, rfl⟩ := h
          obtain ⟨hk, hn⟩ := kernel_of_dvd (ho b (by simp)) h0
          have := hp a (by simp)
          simp only [mul_comm (b - 1), hk] at he
          rw [he, zero_mul] at hn; omega
        · exact ih (fun n h => hp n (by simp [h])) (fun o h => ho o (by simp [h])) (a, b) h he
    exact_mod_cast this
  simp only [truncAdaptiveRescaled, adaptiveAvgPool, gridMean, gridCount_adaptive sizes outs idx ho hd hi]
  field_simp

example : truncAdaptiveRescaled [6] [3] (fun p => (p.getD 0 0 : ℚ)) [1] = 5 := by decide +kernel

/-- C51 fails for truncated adaptive pooling from 5 to 3 positions: the first window has two elements but is rescaled by three, so the code
sum 1 of the codes `1, 0` becomes one and a half. -/
theorem C51_trunc_adaptive_uneven :
    truncAdaptiveRescaled [5] [3] (fun p => if p = [0] then (1 : ℚ) else 0) [0] = 3/2 ∧
    gridSum [adaptiveWindow 5 3 0] (fun p => if p = [0] then (1 : ℚ) else 0) = 1 := by decide +kernel

end Brevitas.Props
