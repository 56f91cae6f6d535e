import Verif.Model.AffineScale
import Verif.Lemmas.ChannelScale
import Verif.Props.Scaling
import Verif.Props.Runtime

/-!
# C130: scales from statistics with a learned factor
-/

namespace Brevitas.Props

open Brevitas Brevitas.AffineScale
open Brevitas.NdTensor

/-! ## One scale -/

/-- C130: the scale is the statistic over the threshold, times the magnitude of the learned factor, and at least the minimum. -/
theorem C130_affine_scale (m : ℝ) (hm : 0 < m) (w stats threshold : ℝ) (hs : 0 ≤ stats) (ht : 0 < threshold) :
    scaling .fp (some m) (some w) stats threshold = some (max (|w| * (stats / threshold)) m) := by
  have h0 : 0 ≤ stats / threshold := div_nonneg hs ht.le
  have : |stats / threshold * w + 0| = |w| * (stats / threshold) := by rw [add_zero, abs_mul, abs_of_nonneg h0, mul_comm]
  simp only [scaling, Restrict.init, Restrict.combine, rescale, Option.map_some, restrictClamp, Restrict.forward, WithBot.unbotD_coe, clampMinVal, this]
  rw [if_neg hm.ne']
  unfold clampMin
  by_cases h : |w| * (stats / threshold) < m
  · first
      | rw [if_pos h, max_eq_right h.le]
      | simp [h, max_eq_right h.le]
  · first
      | rw [if_neg h, max_eq_left (not_lt.mp h)]
      | simp [h, max_eq_left (not_lt.mp h)]

/-- C130: a quantiser that has just been made has the scale that it would have without the factor. -/
theorem C130_initial_scale (m : Option ℝ) (stats threshold : ℝ) (hs : 0 ≤ stats) (ht : 0 < threshold) :
    ∃ w, construct true false = .ok w ∧ scaling .fp m w stats threshold = some (statsScalingFp m stats threshold) ∧
      scaling .fp m w stats threshold = some (statsScaling .fp m stats threshold) := by
  have h0 : 0 ≤ stats / threshold := div_nonneg hs ht.le
  refine ⟨some 1, rfl, ?_, ?_⟩ <;>
  simp only [scaling, Restrict.init, Restrict.combine, rescale, Option.map_some, restrictClamp, Restrict.forward, WithBot.unbotD_coe, mul_one, add_zero, abs_of_nonneg h0,
    statsScalingFp, statsScaling]

/-- C130: without the factor the scale is the one of the statistic, and a shift then is refused. -/
theorem C130_without_factor (r : Restrict) (m : Option ℝ) (stats threshold : ℝ) :
    construct false false = .ok none ∧ scaling r m none stats threshold = some (statsScaling r m stats threshold) ∧ construct false true = .error .runtimeError :=
  ⟨rfl, rfl, rfl⟩

/-- Disagreement: a shift cannot be had with the factor either. -/
theorem C130_shift_always_raises (affineRescaling : Bool) : ∀ w, construct affineRescaling true ≠ .ok w := by
  intro w
  cases affineRescaling <;> nofun

/-- Disagreement: where scales are restricted to powers of two or learned in the logarithm, the magnitude is taken of the logarithm: the scale is never below one, whatever
the factor. -/
theorem C130_log_scale_at_least_one (f : ℝ → ℤ) (hf : ∀ x, 0 ≤ x → 0 ≤ f x) (w stats threshold : ℝ) (hs : 0 < stats) (ht : 0 < threshold) :
    (∃ s, scaling .logFp none (some w) stats threshold = some s ∧ 1 ≤ s) ∧ ∃ s, scaling (.powerOfTwo f) none (some w) stats threshold = some s ∧ 1 ≤ s := by
  constructor
  · refine ⟨(2 : ℝ) ^ |(Real.logb 2 stats - Real.logb 2 threshold) * w + 0|, ?_, ?_⟩
    · simp only [scaling, Restrict.init, log2, hs.ne', ht.ne', if_false, Restrict.combine, rescale, Option.map_some, restrictClamp, Restrict.forward, clampMinVal, pow2]
    · exact Real.one_le_rpow (by norm_num) (abs_nonneg _)
  · refine ⟨(2 : ℝ) ^ ((f |(Real.logb 2 stats - Real.logb 2 threshold) * w + 0| : ℤ) : ℝ), ?_, ?_⟩
    · simp only [scaling, Restrict.init, log2, hs.ne', ht.ne', if_false, Restrict.combine, rescale, Option.map_some, restrictClamp, Restrict.forward, clampMinVal, WithBot.map_coe,
        pow2]
    · exact Real.one_le_rpow (by norm_num) (by exact_mod_cast hf _ (abs_nonneg _))

/-- Disagreement: so a quantiser that has just been made has the inverse of the scale of the statistic, if that is below one. -/
theorem C130_log_scale_inverted (stats threshold : ℝ) (hs : 0 < stats) (ht : stats < threshold) :
    scaling .logFp none (some 1) stats threshold = some (threshold / stats) ∧ statsScaling .logFp none stats threshold = stats / threshold := by
  have ht0 : 0 < threshold := hs.trans ht
  have hlog : Real.logb 2 stats - Real.logb 2 threshold = Real.logb 2 (stats / threshold) := (Real.logb_div hs.ne' ht0.ne').symm
  have hneg : Real.logb 2 (stats / threshold) ≤ 0 := Real.logb_nonpos (by norm_num) (div_nonneg hs.le ht0.le) ((div_le_one ht0).mpr ht.le)
  constructor
  · have hinv : -Real.logb 2 (stats / threshold) = Real.logb 2 (threshold / stats) := by rw [← Real.logb_inv, inv_div]
    simp only [scaling, Restrict.init, log2, hs.ne', ht0.ne', if_false, Restrict.combine, rescale, Option.map_some, restrictClamp, Restrict.forward, clampMinVal, pow2, mul_one, add_zero,
      hlog, abs_of_nonpos hneg, hinv]
    rw [Real.rpow_logb (by norm_num) (by norm_num) (div_pos ht0 hs)]
  · simp only [statsScaling, Restrict.init, log2, hs.ne', ht0.ne', if_false, Restrict.combine, restrictClamp, Restrict.forward, clampMinVal, pow2, hlog]
    rw [Real.rpow_logb (by norm_num) (by norm_num) (div_pos hs ht0)]

/-! ## Batch-quant activations -/

/-- Tensors that the quantisers take: batch, channels and one or two further dimensions, none empty. -/
def Proper (twoD : Bool) (t : NdTensor ℝ) : Prop := t.shape.length = (if twoD then 4 else 3) ∧ 0 ∉ t.shape

/-- The mean over the channels of the largest magnitude in the channel (over batch and positions). -/
noncomputable def meanOfChannelPeaks (t : NdTensor ℝ) : ℝ := Spec.mean ((t.channels 1).map maxAbs)

private theorem meanOfChannelPeaks_nonneg (t : NdTensor ℝ) : 0 ≤ meanOfChannelPeaks t := by
  unfold meanOfChannelPeaks Spec.mean
  refine div_nonneg (List.sum_nonneg fun x hx => ?_) (Nat.cast_nonneg _)
  obtain ⟨l, -, rfl⟩ := List.mem_map.mp hx
  unfold maxAbs
  generalize l.map (fun x => |x|) = m
  have key : ∀ (m : List ℝ) (b : ℝ), b ≤ m.foldl max b := by
    intro m
    induction m with
    | nil => intro b; exact le_refl b
    | cons a m ih => intro b; exact (le_max_left b a).trans (ih (max b a))
  exact key m 0

private theorem batchStat_eq (twoD : Bool) (t : NdTensor ℝ) (ht : Proper twoD t) : batchStat twoD t = some (meanOfChannelPeaks t) := by
  obtain ⟨hlen, h0⟩ := ht
  have hdims : some (batchDims twoD) = ChannelScale.permuteDims t.shape.length 1 := by
    rw [hlen]; cases twoD <;> rfl
  have hd : 1 < t.shape.length := by rw [hlen]; cases twoD <;> simp
  have hmem : t.shape.getD 1 0 ∈ t.shape := by
    rw [List.getD_eq_getElem _ _ hd]; exact List.getElem_mem hd
  have hn : t.shape.getD 1 0 ≠ 0 := fun h => h0 (h ▸ hmem)
  obtain ⟨v, hv, ⟨p, hp⟩, hrow⟩ := ChannelScale.view_rows t 1 hd hn
  have hshape := ChannelScale.view_shape t 1 hd hn v hv
  have hpos : 0 < t.shape.prod := Nat.pos_of_ne_zero fun h => h0 (List.prod_eq_zero_iff.mp h)
  have hdvd : t.shape.getD 1 0 ∣ t.shape.prod := List.dvd_prod hmem
  have hfan : 0 < t.fanIn 1 := Nat.div_pos (Nat.le_of_dvd hpos hdvd) (Nat.pos_of_ne_zero hn)
  have hne : ∀ r ∈ (List.range (v.shape.getD 0 0)).map (ChannelScale.row v), r ≠ [] := by
    intro r hr
    obtain ⟨i, -, rfl⟩ := List.mem_map.mp hr
    unfold ChannelScale.row
    rw [hshape]
    intro h
    have := congrArg List.length h
    simp at this
    omega
  have hmap : ((List.range (v.shape.getD 0 0)).map (ChannelScale.row v)).map maxAbs = (t.channels 1).map maxAbs := by
    rw [hshape]
    unfold NdTensor.channels
    rw [List.map_map, List.map_map]
    refine List.map_congr_left fun c hc => ?_
    exact ChannelScale.maxAbs_perm (hrow c (List.mem_range.mp hc))
  unfold batchStat absMaxAve
  rw [hdims, hv]
  simp only [Option.bind_eq_bind, Option.bind_some, ChannelScale.mapM_absMax hne, hmap]
  cases hc : (t.channels 1).map maxAbs with
  | nil =>
    have := congrArg List.length hc
    simp [NdTensor.channels] at this
    exact absurd this (by simpa using hn)
  | cons a l =>
    unfold torchMean meanOfChannelPeaks Spec.mean
    rw [hc]

/-- The threshold: the magnitude of the most negative code, or the largest code. -/
def codeThreshold (signed : Bool) : ℝ := if signed then 128 else 255

private theorem codeThreshold_eq (signed : Bool) : intScaling signed false 8 = codeThreshold signed := by
  cases signed <;> norm_num [intScaling, codeThreshold, minInt, maxInt]

/-- The tensors seen in training mode in a history that starts in the given mode. -/
def seenInTraining : Bool → List Op → List (NdTensor ℝ)
  | _, [] => []
  | _, .train b :: os => seenInTraining b os
  | b, .setWeight _ :: os => seenInTraining b os
  | b, .forward x :: os => if b then x :: seenInTraining b os else seenInTraining b os

/-- The factor after a history. -/
def factorAfter : ℝ → List Op → ℝ
  | w, [] => w
  | _, .setWeight w :: os => factorAfter w os
  | w, .train _ :: os => factorAfter w os
  | w, .forward _ :: os => factorAfter w os

/-- The mode after a history. -/
def modeAfter : Bool → List Op → Bool
  | b, [] => b
  | _, .train b :: os => modeAfter b os
  | b, .setWeight _ :: os => modeAfter b os
  | b, .forward _ :: os => modeAfter b os

/-- All tensors given to the quantiser are proper. -/
def AllProper (twoD : Bool) (h : List Op) : Prop := ∀ x, Op.forward x ∈ h → Proper twoD x

private theorem forward_eq (a : Act) (x : NdTensor ℝ) (s : RunStats × ℝ) (hs : a.stats x = some s) (h0 : 0 ≤ s.2) :
    a.forward x = some ({ a with run := s.1 }, ⟨⟨x.shape, fun i => a.cfg.forward (max (|a.weight| * (s.2 / codeThreshold a.signed)) (1 / 10 ^ 10)) 0 8 (x.data i)⟩,
      max (|a.weight| * (s.2 / codeThreshold a.signed)) (1 / 10 ^ 10), 0, 8⟩) := by
  unfold Act.forward
  rw [hs, codeThreshold_eq]
  simp only [Option.bind_eq_bind, Option.bind_some]
  rw [C130_affine_scale _ (by norm_num) _ _ _ h0 (by cases a.signed <;> norm_num [codeThreshold])]
  rfl

private theorem run_snoc (st : RunStats) (h : List (Bool × ℝ)) (e : Bool × ℝ) : runStatsRun none st (h ++ [e]) = (runStatsStep none (runStatsRun none st h) e.1 e.2).1 := by
  unfold runStatsRun
  rw [List.foldl_append]
  rfl

private theorem after_spec (h : List Op) : ∀ (a : Act) (es : List (Bool × ℝ)), AllProper a.twoD h → (∀ e ∈ es, 0 ≤ e.2) → a.run = runStatsRun none .init es →
    (∀ e ∈ es, e.1 = true) →
    (a.after h).twoD = a.twoD ∧ (a.after h).signed = a.signed ∧ (a.after h).weight = factorAfter a.weight h ∧ (a.after h).training = modeAfter a.training h ∧
      (a.after h).run = runStatsRun none .init (es ++ (seenInTraining a.training h).map fun x => (true, meanOfChannelPeaks x)) := by
  induction h with
  | nil => intro a es _ _ hr _; exact ⟨rfl, rfl, rfl, rfl, by simpa [Act.after, seenInTraining] using hr⟩
  | cons o os ih =>
    intro a es hp hes hr ht
    have hp' : AllProper a.twoD os := fun x hx => hp x (List.mem_cons_of_mem _ hx)
    cases o with
    | train b => exact ih { a with training := b } es hp' hes hr ht
    | setWeight w => exact ih { a with weight := w } es hp' hes hr ht
    | forward x =>
      have hx := hp x List.mem_cons_self
      cases htr : a.training with
      | true =>
        have hst : a.stats x = some (runStatsStep none a.run true (meanOfChannelPeaks x)) := by
          unfold Act.stats; rw [if_pos htr, batchStat_eq _ _ hx]; rfl
        have hf := forward_eq a x _ hst (by simpa [runStatsStep] using meanOfChannelPeaks_nonneg x)
        have hstep : a.step (.forward x) = { a with run := (runStatsStep none a.run true (meanOfChannelPeaks x)).1 } := by
          show ((a.forward x).map Prod.fst).getD a = _
          rw [hf]; rfl
        have := ih { a with run := (runStatsStep none a.run true (meanOfChannelPeaks x)).1 } (es ++ [(true, meanOfChannelPeaks x)]) hp' (by
            intro e he
            rcases List.mem_append.mp he with he | he
            · exact hes e he
            · rw [List.mem_singleton.mp he]; exact meanOfChannelPeaks_nonneg x) (by rw [run_snoc, ← hr]) (by
            intro e he
            rcases List.mem_append.mp he with he | he
            · exact ht e he
            · rw [List.mem_singleton.mp he])
        simp only [Act.after, hstep]
        simpa [seenInTraining, htr, factorAfter, modeAfter] using this
      | false =>
        have hstep : a.step (.forward x) = a := by
          show ((a.forward x).map Prod.fst).getD a = _
          unfold Act.forward Act.stats
          rw [if_neg (by simp [htr])]
          simp only [Option.bind_eq_bind, Option.bind_some]
          cases scaling .fp (some (1 / 10 ^ 10)) (some a.weight) (runStatsStep none a.run false 0).2 (intScaling a.signed false 8) with
          | none => rfl
          | some s => rfl
        have := ih a es hp' hes hr ht
        simp only [Act.after, hstep]
        simpa [seenInTraining, htr, factorAfter, modeAfter] using this

/-- C130: in training mode the scale is the mean of the peaks of the channels of the batch, times the magnitude of the learned factor, over the threshold (at least 1e-10); the
values are rounded to it. -/
theorem C130_training_forward (twoD signed : Bool) (h : List Op) (hp : AllProper twoD h) (htr : modeAfter true h = true) (x : NdTensor ℝ) (hx : Proper twoD x) :
    ∃ a' r, ((Act.new twoD signed).after h).forward x = some (a', r) ∧
      r.scale = max (|factorAfter 1 h| * (meanOfChannelPeaks x / codeThreshold signed)) (1 / 10 ^ 10) ∧ r.value.shape = x.shape ∧ r.zeroPoint = 0 ∧ r.bitWidth = 8 ∧
      ∀ i, r.value.data i = (⟨signed, false, torchRound⟩ : IntQuantCfg ℝ).forward r.scale 0 8 (x.data i) := by
  obtain ⟨h1, h2, h3, h4, -⟩ := after_spec h (Act.new twoD signed) [] hp (by simp) rfl (by simp)
  have hst : ((Act.new twoD signed).after h).stats x = some (runStatsStep none ((Act.new twoD signed).after h).run true (meanOfChannelPeaks x)) := by
    unfold Act.stats
    rw [if_pos (h4.trans htr), batchStat_eq _ _ (by rw [h1]; exact hx)]
    rfl
  have hf := forward_eq _ x _ hst (by simpa [runStatsStep] using meanOfChannelPeaks_nonneg x)
  have hs : (runStatsStep none ((Act.new twoD signed).after h).run true (meanOfChannelPeaks x)).2 = meanOfChannelPeaks x := by simp [runStatsStep]
  rw [hs, h3, h2] at hf
  refine ⟨_, _, hf, rfl, rfl, rfl, rfl, fun i => ?_⟩
  simp only [Act.cfg, h2]
  rfl

/-- C130: in eval mode it is the true average of these means over all batches seen in training mode, times the magnitude of the factor as it is now, whatever the input. -/
theorem C130_eval_forward (twoD signed : Bool) (h : List Op) (hp : AllProper twoD h) (hev : modeAfter true h = false) (hne : seenInTraining true h ≠ []) (x : NdTensor ℝ) :
    ∃ r, ((Act.new twoD signed).after h).forward x = some ((Act.new twoD signed).after h, r) ∧
      r.scale = max (|factorAfter 1 h| * (Spec.mean ((seenInTraining true h).map meanOfChannelPeaks) / codeThreshold signed)) (1 / 10 ^ 10) ∧ r.value.shape = x.shape ∧
      r.zeroPoint = 0 ∧ r.bitWidth = 8 ∧ ∀ i, r.value.data i = (⟨signed, false, torchRound⟩ : IntQuantCfg ℝ).forward r.scale 0 8 (x.data i) := by
  obtain ⟨h1, h2, h3, h4, h5⟩ := after_spec h (Act.new twoD signed) [] hp (by simp) rfl (by simp)
  have hev' : ((Act.new twoD signed).after h).training = false := h4.trans hev
  have htrs : trainingStats ((seenInTraining true h).map fun x => (true, meanOfChannelPeaks x)) = (seenInTraining true h).map meanOfChannelPeaks := by
    unfold trainingStats
    rw [List.filter_eq_self.mpr (by simp), List.map_map]
    rfl
  have hrun : (runStatsStep none ((Act.new twoD signed).after h).run false 0).2 = Spec.mean ((seenInTraining true h).map meanOfChannelPeaks) := by
    rw [h5, List.nil_append]
    have := (C60_running_average_partial none ((seenInTraining true h).map fun x => (true, meanOfChannelPeaks x)) (by rw [htrs]; simpa using hne)).2
    rw [htrs] at this
    exact this
  have hst : ((Act.new twoD signed).after h).stats x = some (((Act.new twoD signed).after h).run, Spec.mean ((seenInTraining true h).map meanOfChannelPeaks)) := by
    unfold Act.stats
    rw [if_neg (by rw [hev']; simp), ← hrun]
    rfl
  have h0 : 0 ≤ Spec.mean ((seenInTraining true h).map meanOfChannelPeaks) := by
    unfold Spec.mean
    refine div_nonneg (List.sum_nonneg fun y hy => ?_) (Nat.cast_nonneg _)
    obtain ⟨t, -, rfl⟩ := List.mem_map.mp hy
    exact meanOfChannelPeaks_nonneg t
  have hf := forward_eq _ x _ hst h0
  refine ⟨_, hf, ?_, rfl, rfl, rfl, fun i => ?_⟩
  · show max _ _ = _
    rw [h3, h2]
    rfl
  · show ((Act.new twoD signed).after h).cfg.forward _ 0 8 _ = _
    unfold Act.cfg
    rw [h2]
    rfl

/-- C130: the quantisers are made with the factor, which starts at 1, and in training mode. -/
theorem C130_construct (twoD signed : Bool) :
    construct (affineRescalingOf true) false = .ok (some (Act.new twoD signed).weight) ∧ construct (affineRescalingOf false) false = .ok none ∧
      (Act.new twoD signed).training = true := ⟨rfl, rfl, rfl⟩

/-- C130: a tensor with another number of dimensions raises in training mode. -/
theorem C130_wrong_rank (a : Act) (htr : a.training = true) (x : NdTensor ℝ) (hx : x.shape.length ≠ if a.twoD then 4 else 3) : a.forward x = none := by
  have hl : (batchDims a.twoD).length ≠ x.shape.length := by
    intro h; apply hx; rw [← h]; cases a.twoD <;> rfl
  have : batchStat a.twoD x = none := by
    unfold batchStat ChannelScale.overOutputChannelView
    have hp : ¬ (batchDims a.twoD).Perm (List.range x.shape.length) := fun h => hl (by simpa using h.length_eq)
    simp [NdTensor.permute, hp]
  unfold Act.forward Act.stats
  rw [if_pos htr, this]
  rfl

/-- C130: a saved factor is loaded; without one the factor stays and is reported as missing unless missing keys are ignored. -/
theorem C130_load (w v : ℝ) (ignore : Bool) : loadFactor w (some v) ignore = (v, false) ∧ loadFactor w none ignore = (w, !ignore) := ⟨rfl, rfl⟩

/-! ## Examples -/

/-- A batch of two with two channels and a single position. -/
private def exampleBatch : NdTensor ℝ := ⟨[2, 2, 1], fun i => if i.getD 1 0 = 0 then 1 else if i.getD 0 0 = 0 then 2 else -3⟩

private theorem exampleBatch_peaks : meanOfChannelPeaks exampleBatch = 2 := by
  have : (exampleBatch.channels 1) = [[1, 1], [2, -3]] := by
    simp [NdTensor.channels, NdTensor.channelElems, exampleBatch, NdTensor.indices, List.range_succ]
  unfold meanOfChannelPeaks Spec.mean
  rw [this]
  norm_num [maxAbs]

example : AllProper false [.forward exampleBatch, .setWeight (-2), .train false] ∧ modeAfter true [.forward exampleBatch, .setWeight (-2), .train false] = false ∧
    seenInTraining true [.forward exampleBatch, .setWeight (-2), .train false] = [exampleBatch] := by
  refine ⟨?_, rfl, rfl⟩
  intro x hx
  simp only [List.mem_cons, Op.forward.injEq, reduceCtorEq, List.not_mem_nil, or_false] at hx
  subst hx
  exact ⟨rfl, by simp [exampleBatch]⟩

example : ∃ r, ((Act.new false true).after [.forward exampleBatch, .setWeight (-2), .train false]).forward exampleBatch =
    some ((Act.new false true).after [.forward exampleBatch, .setWeight (-2), .train false], r) ∧ r.scale = 1 / 32 := by
  obtain ⟨r, hr, hs, -⟩ := C130_eval_forward false true [.forward exampleBatch, .setWeight (-2), .train false] (by
    intro x hx
    simp only [List.mem_cons, Op.forward.injEq, reduceCtorEq, List.not_mem_nil, or_false] at hx
    subst hx
    exact ⟨rfl, by simp [exampleBatch]⟩) rfl (by simp [seenInTraining]) exampleBatch
  refine ⟨r, hr, ?_⟩
  rw [hs]
  simp only [seenInTraining, if_true, List.map_cons, List.map_nil, exampleBatch_peaks, factorAfter, codeThreshold, Spec.mean]
  norm_num

example : scaling .logFp none (some 1) 1 4 = some 4 := by
  have := (C130_log_scale_inverted 1 4 (by norm_num) (by norm_num)).1
  simpa using this

end Brevitas.Props
