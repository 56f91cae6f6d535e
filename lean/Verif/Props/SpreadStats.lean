import Verif.Model.SpreadStats
import Verif.Lemmas.ChannelScale
import Verif.Props.ChannelScale
import Verif.Props.IntQuant
import Mathlib.Algebra.Order.Chebyshev
import Mathlib.Tactic.Positivity

/-!
# C117: what statistics that do not cover the whole tensor clip
-/

set_option linter.unusedSectionVars false

namespace Brevitas.Props

open Brevitas Brevitas.ChannelScale Brevitas.NdTensor

/-- At least `v` for every selected element, hence at least `v` times their number in the sum. -/
theorem sum_ge_count {α : Type*} (f : α → ℝ) (p : α → Bool) (v : ℝ) (l : List α) (h0 : ∀ a ∈ l, 0 ≤ f a) (hp : ∀ a ∈ l, p a = true → v ≤ f a) :
    ((l.filter p).length : ℝ) * v ≤ (l.map f).sum := by
  induction l with
  | nil => simp
  | cons a l ih =>
    have h1 := ih (fun b hb => h0 b (List.mem_cons_of_mem _ hb)) fun b hb => hp b (List.mem_cons_of_mem _ hb)
    rw [List.map_cons, List.sum_cons, List.filter_cons]
    by_cases ha : p a = true
    · rw [if_pos ha, List.length_cons]
      have := hp a (by simp) ha
      push_cast
      linarith
    · rw [if_neg ha]
      have := h0 a (by simp)
      linarith

theorem sum_affine_sq (l : List ℝ) (m c s : ℝ) :
    (l.map fun y => (c * (y - m) + s) ^ 2).sum =
      c ^ 2 * (l.map fun y => (y - m) ^ 2).sum + 2 * c * s * (l.sum - l.length * m) + l.length * s ^ 2 := by
  induction l with
  | nil => simp
  | cons a l ih =>
    simp only [List.map_cons, List.sum_cons, ih, List.length_cons]
    push_cast
    ring

theorem meanSigmaStd_eq (sigma eps : ℝ) (xs : List ℝ) (hn : 2 ≤ xs.length) :
    meanSigmaStd sigma eps xs = some ((xs.map fun x => |x|).sum / xs.length + sigma *
      Real.sqrt (((xs.map fun x => |x|).map fun y => (y - (xs.map fun x => |x|).sum / xs.length) ^ 2).sum / ((xs.length : ℝ) - 1) + eps)) := by
  have hm : torchMean (xs.map fun x => |x|) = some ((xs.map fun x => |x|).sum / xs.length) := by
    cases xs with
    | nil => simp at hn
    | cons a t => simp [torchMean]
  simp only [meanSigmaStd, meanSigmaStdImpl, torchVar, hm, List.length_map, if_neg (show ¬ xs.length < 2 by omega), Option.bind_eq_bind, Option.bind_some,
    Option.map_some]
  rfl

/-- C117, `StatsOp.MEAN_SIGMA_STD`: for two elements or more there is a threshold, and at most one element in `1 + sigma²` reaches it, whatever the
distribution of the data. -/
theorem C117_sigma_share (sigma eps : ℝ) (hs : 0 ≤ sigma) (he : 0 < eps) (xs : List ℝ) (hn : 2 ≤ xs.length) :
    ∃ T, meanSigmaStd sigma eps xs = some T ∧ 0 ≤ T ∧ (0 < sigma → 0 < T) ∧
      ((xs.filter fun x => decide (T ≤ |x|)).length : ℝ) * (1 + sigma ^ 2) ≤ xs.length := by
  refine ⟨_, meanSigmaStd_eq sigma eps xs hn, ?_⟩
  set ys := xs.map fun x => |x| with hys
  set m := ys.sum / xs.length with hm
  set V := (ys.map fun y => (y - m) ^ 2).sum with hV
  set s := Real.sqrt (V / ((xs.length : ℝ) - 1) + eps) with hsdef
  have hlen : (2 : ℝ) ≤ xs.length := by exact_mod_cast hn
  have hV0 : 0 ≤ V := List.sum_nonneg (by
    intro a ha
    obtain ⟨y, -, rfl⟩ := List.mem_map.1 ha
    positivity)
  have hq : 0 ≤ V / ((xs.length : ℝ) - 1) := div_nonneg hV0 (by linarith)
  have hspos : 0 < s := Real.sqrt_pos.2 (by linarith)
  have hssq : s ^ 2 = V / ((xs.length : ℝ) - 1) + eps := Real.sq_sqrt (by linarith)
  have hVle : V ≤ xs.length * s ^ 2 := by
    have h1 : V = V / ((xs.length : ℝ) - 1) * ((xs.length : ℝ) - 1) := by field_simp [show (xs.length : ℝ) - 1 ≠ 0 by linarith]
    have h2 : V ≤ s ^ 2 * ((xs.length : ℝ) - 1) := by
      rw [hssq]
      nlinarith
    nlinarith [sq_nonneg s]
  have hm0 : 0 ≤ m := div_nonneg (List.sum_nonneg (by
    intro a ha
    obtain ⟨y, -, rfl⟩ := List.mem_map.1 ha
    positivity)) (by linarith)
  refine ⟨by positivity, fun h => by have := mul_pos h hspos; linarith, ?_⟩
  have hcount : ((xs.filter fun x => decide (m + sigma * s ≤ |x|)).length : ℝ) * (s * (1 + sigma ^ 2)) ^ 2 ≤
      (xs.map fun x => (sigma * (|x| - m) + s) ^ 2).sum := by
    apply sum_ge_count _ _ _ _ (fun _ _ => by positivity)
    intro a _ ha
    have ha' : m + sigma * s ≤ |a| := by simpa using ha
    have h1 : s * (1 + sigma ^ 2) ≤ sigma * (|a| - m) + s := by nlinarith
    exact pow_le_pow_left₀ (by positivity) h1 2
  have hsum : (xs.map fun x => (sigma * (|x| - m) + s) ^ 2).sum = sigma ^ 2 * V + xs.length * s ^ 2 := by
    have h := sum_affine_sq ys m sigma s
    have hl : (ys.length : ℝ) = xs.length := by simp [hys]
    have h0 : ys.sum - ys.length * m = 0 := by
      rw [hl, hm]
      field_simp
      ring
    rw [h0, hl] at h
    rw [hys, List.map_map] at h
    have h' : (xs.map fun x => (sigma * (|x| - m) + s) ^ 2) = xs.map ((fun y => (sigma * (y - m) + s) ^ 2) ∘ fun x => |x|) := rfl
    rw [h', h]
    ring
  rw [hsum] at hcount
  have hfin : ((xs.filter fun x => decide (m + sigma * s ≤ |x|)).length : ℝ) * (1 + sigma ^ 2) * (s ^ 2 * (1 + sigma ^ 2)) ≤
      xs.length * (s ^ 2 * (1 + sigma ^ 2)) := by
    nlinarith [sq_nonneg sigma, mul_le_mul_of_nonneg_left hVle (sq_nonneg sigma)]
  exact le_of_mul_le_mul_right hfin (by positivity)

/-- Half-step reconstruction below the threshold: a signed narrow integer quantiser whose scale comes from a threshold `T > 0`. -/
theorem half_step_below (c : IntQuantCfg ℝ) (hsg : c.signed = true) (hna : c.narrow = true) (hr : c.floatToInt = torchRound) (b : ℕ) (hb : 2 ≤ b)
    (mn : Option ℝ) (T : ℝ) (hT : 0 < T) (x : ℝ) (hx : |x| ≤ T) :
    |c.forward (statsScalingFp mn T (intScaling c.signed c.narrow b)) 0 b x - x| ≤ statsScalingFp mn T (intScaling c.signed c.narrow b) / 2 := by
  have hp : (0 : ℝ) < ((2 ^ (b - 1) - 1 : ℤ) : ℝ) := by
    have : (2 : ℤ) ^ 1 ≤ 2 ^ (b - 1) := pow_le_pow_right₀ (by norm_num) (by omega)
    exact_mod_cast (by omega : (0 : ℤ) < 2 ^ (b - 1) - 1)
  have hsge : T / ((2 ^ (b - 1) - 1 : ℤ) : ℝ) ≤ statsScalingFp mn T (intScaling c.signed c.narrow b) := by
    rw [hsg, hna, intScaling_signed_narrow (by omega)]; exact le_clampMinVal _ _
  have hspos : 0 < statsScalingFp mn T (intScaling c.signed c.narrow b) := (div_pos hT hp).trans_le hsge
  set s := statsScalingFp mn T (intScaling c.signed c.narrow b) with hsdef
  rw [div_le_iff₀ hp] at hsge
  have habs := abs_le.1 (hx.trans hsge)
  have hlo : (Spec.lo c.signed c.narrow b : ℝ) = -((2 ^ (b - 1) - 1 : ℤ) : ℝ) := by
    rw [hsg, hna]; simp [Spec.lo]
  have hhi : (Spec.hi c.signed c.narrow b : ℝ) = ((2 ^ (b - 1) - 1 : ℤ) : ℝ) := by
    rw [hsg, hna]; simp [Spec.hi]
  apply C04_half_step c (Or.inl hr) s 0 hspos b (by omega) x
  · rw [hlo, sub_zero]; linarith [habs.1, mul_comm s ((2 ^ (b - 1) - 1 : ℤ) : ℝ)]
  · rw [hhi, sub_zero]; linarith [habs.2, mul_comm s ((2 ^ (b - 1) - 1 : ℤ) : ℝ)]

/-- C117, `StatsOp.MEAN_SIGMA_STD`: with a signed narrow integer quantiser scaled by the statistic, at most one value in `1 + sigma²` is changed by more than
half a step. -/
theorem C117_sigma_quantised (c : IntQuantCfg ℝ) (hsg : c.signed = true) (hna : c.narrow = true) (hr : c.floatToInt = torchRound) (b : ℕ) (hb : 2 ≤ b)
    (mn : Option ℝ) (sigma eps : ℝ) (hs : 0 < sigma) (he : 0 < eps) (xs : List ℝ) (hn : 2 ≤ xs.length) :
    ∃ T, meanSigmaStd sigma eps xs = some T ∧
      ∀ s, s = statsScalingFp mn T (intScaling c.signed c.narrow b) →
        ((xs.filter fun x => decide (s / 2 < |c.forward s 0 b x - x|)).length : ℝ) * (1 + sigma ^ 2) ≤ xs.length := by
  obtain ⟨T, hT, -, hpos, hcount⟩ := C117_sigma_share sigma eps hs.le he xs hn
  refine ⟨T, hT, ?_⟩
  rintro s rfl
  refine le_trans (mul_le_mul_of_nonneg_right ?_ (by positivity)) hcount
  have : (xs.filter fun x => decide (statsScalingFp mn T (intScaling c.signed c.narrow b) / 2 <
      |c.forward (statsScalingFp mn T (intScaling c.signed c.narrow b)) 0 b x - x|)).length ≤ (xs.filter fun x => decide (T ≤ |x|)).length := by
    apply List.Sublist.length_le
    apply List.monotone_filter_right
    intro x hx
    rw [decide_eq_true_eq] at hx ⊢
    by_contra hlt
    push Not at hlt
    exact absurd (half_step_below c hsg hna hr b hb mn T (hpos hs) x hlt.le) (not_le.2 hx)
  exact_mod_cast this

theorem inBounds_getD_lt {s idx : List ℕ} (h : InBounds s idx) {d : ℕ} (hd : d < s.length) : idx.getD d 0 < s.getD d 0 := by
  induction h generalizing d with
  | nil => simp at hd
  | cons hab _ ih =>
    cases d with
    | zero => simpa using hab
    | succ d => simpa using ih (by simpa using hd)

theorem meanSigmaStd_orderFree (sigma eps : ℝ) : OrderFree (meanSigmaStd sigma eps) := by
  intro l l' h
  by_cases hn : 2 ≤ l.length
  · rw [meanSigmaStd_eq _ _ _ hn, meanSigmaStd_eq _ _ _ (h.length_eq ▸ hn), (h.map _).sum_eq, h.length_eq, (((h.map _).map _).sum_eq)]
  · have h0 : ∀ l : List ℝ, ¬ 2 ≤ l.length → meanSigmaStd sigma eps l = none := by
      intro l hl
      simp only [meanSigmaStd, meanSigmaStdImpl, torchVar, List.length_map, if_pos (show l.length < 2 by omega), Option.bind_eq_bind]
      cases torchMean (l.map fun x => |x|) <;> rfl
    rw [h0 _ hn, h0 _ (h.length_eq ▸ hn)]

/-- C117, `StatsOp.MEAN_SIGMA_STD` with a scale per output channel, for any number of layers sharing the quantiser: in every channel at most one weight in
`1 + sigma²` reaches the threshold of its channel.  Every channel must have two weights (`C117_single_weight_nan`). -/
theorem C117_sigma_per_channel (sigma eps : ℝ) (hs : 0 ≤ sigma) (he : 0 < eps) (d C : ℕ) (layers : List (Layer ℝ)) (hl : SameChannels d C layers)
    (hn : ∀ ch, ch < C → 2 ≤ (layers.flatMap fun m => m.weight.channelElems d ch).length) :
    ∃ st, weightStats (meanSigmaStd sigma eps) .channel layers = some st ∧ ∀ m ∈ layers, Broadcasts st.shape m.weight.shape ∧
      ∀ idx, InBounds m.weight.shape idx →
        (((layers.flatMap fun m' => m'.weight.channelElems d (idx.getD d 0)).filter fun x =>
          decide (st.data (bcIndex st.shape idx) ≤ |x|)).length : ℝ) * (1 + sigma ^ 2) ≤
          (layers.flatMap fun m' => m'.weight.channelElems d (idx.getD d 0)).length := by
  obtain ⟨st, hw, hall⟩ := C95_per_channel (meanSigmaStd sigma eps) (meanSigmaStd_orderFree sigma eps) d C layers hl (by
    intro ch hch
    obtain ⟨T, hT, -⟩ := C117_sigma_share sigma eps hs he _ (hn ch hch)
    rw [hT]; rfl)
  refine ⟨st, hw, fun m hm => ⟨(hall m hm).1, fun idx hidx => ?_⟩⟩
  have hst := (hall m hm).2 idx hidx
  have hch : idx.getD d 0 < C := by
    obtain ⟨h1, h2, h3, h4⟩ := hl.channels m hm
    rw [← h4]
    exact inBounds_getD_lt hidx h3
  obtain ⟨T, hT, -, -, hcount⟩ := C117_sigma_share sigma eps hs he _ (hn _ hch)
  rw [hT] at hst
  rw [Option.some.inj hst]
  exact hcount

/-- Disagreement: a channel with a single weight (a depthwise 1×1 convolution) has no variance, so its scale is NaN. -/
theorem C117_single_weight_nan (sigma eps x : ℝ) : meanSigmaStd sigma eps [x] = none := by
  simp [meanSigmaStd, meanSigmaStdImpl, torchVar, torchMean]

/-- Disagreement: `StatsOp.MEAN_LEARN_SIGMA_STD` raises for every tensor, its parameter being stored under another name than it is read. -/
theorem C117_learned_sigma_raises (sigma eps : ℝ) (xs : List ℝ) : meanLearnedSigmaStd (meanLearnedSigmaStdParams sigma) eps xs = none := rfl

/-- C117, `StatsOp.AVE`: at most one element in `c` exceeds `c` times the average. -/
theorem C117_average_share (xs : List ℝ) (hn : xs ≠ []) (c : ℝ) (hc : 0 < c) :
    ∃ T, absAve xs = some T ∧ 0 ≤ T ∧ ((xs.filter fun x => decide (c * T < |x|)).length : ℝ) * c ≤ xs.length := by
  have hlen : (0 : ℝ) < xs.length := by exact_mod_cast List.length_pos_of_ne_nil hn
  refine ⟨(xs.map fun x => |x|).sum / xs.length, ?_, ?_, ?_⟩
  · cases xs with
    | nil => exact absurd rfl hn
    | cons a t => simp [absAve, torchMean]
  · exact div_nonneg (List.sum_nonneg (by
      intro a ha
      obtain ⟨y, -, rfl⟩ := List.mem_map.1 ha
      positivity)) hlen.le
  · have h := sum_ge_count (fun x : ℝ => |x|) (fun x => decide (c * ((xs.map fun x => |x|).sum / xs.length) < |x|))
      (c * ((xs.map fun x => |x|).sum / xs.length)) xs (fun _ _ => abs_nonneg _) (fun a _ ha => (by simpa using ha : _ < _).le)
    set S := (xs.map fun x => |x|).sum with hS
    by_cases h0 : S = 0
    · have hz : ∀ x ∈ xs, |x| = 0 := by
        intro x hx
        have hle : |x| ≤ S := List.single_le_sum (by
          intro a ha
          obtain ⟨y, -, rfl⟩ := List.mem_map.1 ha
          positivity) _ (List.mem_map_of_mem hx)
        exact le_antisymm (h0 ▸ hle) (abs_nonneg _)
      rw [show (xs.filter fun x => decide (c * (S / xs.length) < |x|)) = [] from ?_]
      · simpa using hlen.le
      · rw [List.filter_eq_nil_iff]
        intro x hx
        rw [h0, hz x hx]
        simp
    · have hSpos : 0 < S := lt_of_le_of_ne (List.sum_nonneg (by
        intro a ha
        obtain ⟨y, -, rfl⟩ := List.mem_map.1 ha
        positivity)) (Ne.symm h0)
      set k := ((xs.filter fun x => decide (c * (S / xs.length) < |x|)).length : ℝ) with hk
      have h' : k * c * S ≤ xs.length * S := by
        have h2 := mul_le_mul_of_nonneg_right h hlen.le
        have h3 : k * (c * (S / xs.length)) * xs.length = k * c * S := by field_simp
        rw [h3] at h2
        linarith [mul_comm S (xs.length : ℝ)]
      exact le_of_mul_le_mul_right h' hSpos

theorem mapM_absMax (xss : List (List ℝ)) (h : ∀ r ∈ xss, r ≠ []) : xss.mapM absMax = some (xss.map maxAbs) := by
  induction xss with
  | nil => rfl
  | cons r t ih =>
    rw [List.mapM_cons, absMax_eq (h r (by simp)), ih fun r hr => h r (List.mem_cons_of_mem _ hr)]
    rfl

theorem exists_le_mean {l : List ℝ} (hn : l ≠ []) : ∃ a ∈ l, a ≤ l.sum / l.length := by
  have hlen : (0 : ℝ) < l.length := by exact_mod_cast List.length_pos_of_ne_nil hn
  by_contra hall
  push Not at hall
  have h : ∀ (t : List ℝ) (v : ℝ), (∀ a ∈ t, v < a) → t ≠ [] → t.length * v < t.sum := by
    intro t v
    induction t with
    | nil => intro _ h; exact absurd rfl h
    | cons a t ih =>
      intro hv _
      rw [List.sum_cons, List.length_cons]
      have ha := hv a (by simp)
      by_cases ht : t = []
      · subst ht; simpa using ha
      · have := ih (fun b hb => hv b (List.mem_cons_of_mem _ hb)) ht
        push_cast
        linarith
  have := h l _ hall hn
  rw [mul_div_cancel₀ _ hlen.ne'] at this
  exact lt_irrefl _ this

theorem sum_sq_le (l : List ℝ) : l.sum ^ 2 ≤ l.length * (l.map fun m => m ^ 2).sum := by
  induction l with
  | nil => simp
  | cons a l ih =>
    rw [List.sum_cons, List.map_cons, List.sum_cons, List.length_cons]
    push_cast
    have hlen : (0 : ℝ) ≤ l.length := by positivity
    have hq : 0 ≤ (l.map fun m => m ^ 2).sum := List.sum_nonneg (by
      intro a ha
      obtain ⟨y, -, rfl⟩ := List.mem_map.1 ha
      positivity)
    set n := (l.length : ℝ)
    set S := l.sum
    set Q := (l.map fun m => m ^ 2).sum
    have h2 : 2 * a * S ≤ n * a ^ 2 + Q := by
      by_cases hn : n = 0
      · have : S ^ 2 ≤ 0 := by rw [hn] at ih; simpa using ih
        have hS : S = 0 := by nlinarith [sq_nonneg S]
        rw [hS, hn]; simpa using hq
      · have hnp : 0 < n := lt_of_le_of_ne hlen (Ne.symm hn)
        have h3 : n * (2 * a * S) ≤ n * (n * a ^ 2 + Q) := by nlinarith [sq_nonneg (n * a - S)]
        exact le_of_mul_le_mul_left h3 hnp
    nlinarith

/-- C117, `StatsOp.MAX_AVE` and the root mean square of the channel maxima: they lie between the smallest and the largest channel maximum, the second is
never below the first, and some channel is not clipped at all. -/
theorem C117_channel_maxima (xss : List (List ℝ)) (hn : xss ≠ []) (hr : ∀ r ∈ xss, r ≠ []) :
    ∃ A L, absMaxAve xss = some A ∧ absMaxL2 xss = some L ∧ A ≤ L ∧ (∃ r ∈ xss, ∀ x ∈ r, |x| ≤ A) ∧ ∃ r ∈ xss, ∃ x ∈ r, L ≤ |x| := by
  have hms := mapM_absMax xss hr
  set ms := xss.map maxAbs with hmsd
  have hne : ms ≠ [] := by simpa [hmsd] using hn
  have hlen : (0 : ℝ) < ms.length := by exact_mod_cast List.length_pos_of_ne_nil hne
  have hlen0 : ms.length ≠ 0 := by simpa using hne
  have hnn : ∀ a ∈ ms, 0 ≤ a := by
    intro a ha
    obtain ⟨r, hrm, rfl⟩ := List.mem_map.1 ha
    obtain ⟨x, hx, hxe⟩ := maxAbs_spec.2 (hr r hrm)
    rw [← hxe]; positivity
  refine ⟨ms.sum / ms.length, Real.sqrt (ms.map fun m => m ^ 2).sum / Real.sqrt ms.length, ?_, ?_, ?_, ?_, ?_⟩
  · simp only [absMaxAve, hms, Option.bind_eq_bind, Option.bind_some]
    cases h : ms with
    | nil => exact absurd h hne
    | cons a t => rfl
  · simp only [absMaxL2, hms, Option.bind_eq_bind, Option.bind_some, if_neg hlen0]
    rfl
  · rw [← Real.sqrt_div' _ hlen.le]
    apply Real.le_sqrt_of_sq_le
    rw [div_pow, div_le_div_iff₀ (by positivity) hlen]
    have := sum_sq_le ms
    nlinarith
  · obtain ⟨a, ha, hle⟩ := exists_le_mean hne
    obtain ⟨r, hrm, rfl⟩ := List.mem_map.1 ha
    exact ⟨r, hrm, fun x hx => (maxAbs_spec.1 x hx).trans hle⟩
  · by_contra hall
    push Not at hall
    have hlt : ∀ a ∈ ms, a ^ 2 < (ms.map fun m => m ^ 2).sum / ms.length := by
      intro a ha
      obtain ⟨r, hrm, rfl⟩ := List.mem_map.1 ha
      obtain ⟨x, hx, hxe⟩ := maxAbs_spec.2 (hr r hrm)
      have h1 := hall r hrm x hx
      rw [hxe, ← Real.sqrt_div' _ hlen.le] at h1
      exact (Real.lt_sqrt (hnn _ ha)).1 h1
    obtain ⟨q, hq, hle⟩ := exists_le_mean (l := ms.map fun m => -m ^ 2) (by simpa using hne)
    obtain ⟨a, ha, rfl⟩ := List.mem_map.1 hq
    have hsum : (ms.map fun m => -m ^ 2).sum = -(ms.map fun m => m ^ 2).sum := by
      clear * -
      induction ms with
      | nil => simp
      | cons a t ih => simp only [List.map_cons, List.sum_cons, ih]; ring
    rw [hsum, List.length_map, neg_div] at hle
    have := hlt a ha
    linarith

/-! Instances: the hypotheses are met, and the bounds are reached. -/

example : ∃ T, meanSigmaStd 3 (1 / 100000000) [1, -2, 5 / 2, 0] = some T ∧
    (([1, -2, 5 / 2, 0].filter fun x : ℝ => decide (T ≤ |x|)).length : ℝ) * (1 + 3 ^ 2) ≤ 4 := by
  obtain ⟨T, h1, -, -, h2⟩ := C117_sigma_share 3 (1 / 100000000) (by norm_num) (by norm_num) [1, -2, 5 / 2, 0] (by simp)
  exact ⟨T, h1, by simpa using h2⟩

example : absMaxL2 [[3, -1], [4, 2], [0, 0]] = some (5 / Real.sqrt 3) := by
  have h : [[(3 : ℝ), -1], [4, 2], [0, 0]].mapM absMax = some [3, 4, 0] := by
    simp [absMax, torchMax]
    norm_num
  simp only [absMaxL2, h, Option.bind_eq_bind, Option.bind_some]
  have h5 : Real.sqrt 25 = 5 := by rw [show (25 : ℝ) = 5 ^ 2 by norm_num, Real.sqrt_sq (by norm_num)]
  norm_num [h5]

end Brevitas.Props
