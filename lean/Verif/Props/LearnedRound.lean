import Verif.Model.LearnedRound
import Verif.Props.Search
import Verif.Lemmas.Ops
import Mathlib.Tactic.Linarith
import Mathlib.Tactic.NormNum

/-!
# C128: learning the rounding of the weights
-/

namespace Brevitas.Props

open Brevitas Brevitas.LearnedRound

/-! ## The loss -/

private theorem dist_mem {h : ℝ} (h0 : 0 ≤ h) (h1 : h ≤ 1) : 0 ≤ |h - 1 / 2| * 2 ∧ |h - 1 / 2| * 2 ≤ 1 := by
  have : |h - 1 / 2| ≤ 1 / 2 := by rw [abs_le]; constructor <;> linarith
  exact ⟨by positivity, by linarith⟩

private theorem term_mem {b h : ℝ} (hb : 0 ≤ b) (h0 : 0 ≤ h) (h1 : h ≤ 1) : 0 ≤ 1 - (|h - 1 / 2| * 2) ^ b ∧ 1 - (|h - 1 / 2| * 2) ^ b ≤ 1 := by
  obtain ⟨d0, d1⟩ := dist_mem h0 h1
  exact ⟨by linarith [Real.rpow_le_one d0 d1 hb], by linarith [Real.rpow_nonneg d0 b]⟩

/-- C128: the rounding loss is between 0 and its weight times the number of parameters. -/
theorem C128_regulariser_bounds (weight b : ℝ) (hw : 0 ≤ weight) (hb : 0 ≤ b) (hs : List ℝ) (hm : ∀ h ∈ hs, 0 ≤ h ∧ h ≤ 1) :
    0 ≤ regulariser weight b hs ∧ regulariser weight b hs ≤ weight * hs.length := by
  have key : 0 ≤ (hs.map fun h => 1 - (|h - 1 / 2| * 2) ^ b).sum ∧ (hs.map fun h => 1 - (|h - 1 / 2| * 2) ^ b).sum ≤ (hs.length : ℝ) := by
    induction hs with
    | nil => simp
    | cons h t ih =>
      obtain ⟨i1, i2⟩ := ih fun x hx => hm x (List.mem_cons_of_mem _ hx)
      obtain ⟨t1, t2⟩ := term_mem hb (hm h List.mem_cons_self).1 (hm h List.mem_cons_self).2
      simp only [List.map_cons, List.sum_cons, List.length_cons]
      push_cast
      exact ⟨by linarith, by linarith⟩
  exact ⟨mul_nonneg hw key.1, mul_le_mul_of_nonneg_left key.2 hw⟩

/-- C128: the rounding loss vanishes exactly when every weight's rounding is decided, down or up. -/
theorem C128_regulariser_zero (weight b : ℝ) (hw : 0 < weight) (hb : 0 < b) (hs : List ℝ) (hm : ∀ h ∈ hs, 0 ≤ h ∧ h ≤ 1) :
    regulariser weight b hs = 0 ↔ ∀ h ∈ hs, h = 0 ∨ h = 1 := by
  have hterm : ∀ h : ℝ, 0 ≤ h → h ≤ 1 → (1 - (|h - 1 / 2| * 2) ^ b = 0 ↔ h = 0 ∨ h = 1) := by
    intro h h0 h1
    obtain ⟨d0, d1⟩ := dist_mem h0 h1
    constructor
    · intro e
      rcases d1.lt_or_eq with hlt | heq
      · have := Real.rpow_lt_one d0 hlt hb
        linarith
      · rcases abs_cases (h - 1 / 2) with ⟨e', _⟩ | ⟨e', _⟩ <;> rw [e'] at heq
        · right; linarith
        · left; linarith
    · rintro (rfl | rfl)
      · have : |(0 : ℝ) - 1 / 2| * 2 = 1 := by norm_num
        rw [this, Real.one_rpow]; norm_num
      · have : |(1 : ℝ) - 1 / 2| * 2 = 1 := by rw [abs_of_nonneg] <;> norm_num
        rw [this, Real.one_rpow]; norm_num
  unfold regulariser
  rw [mul_eq_zero, or_iff_right hw.ne']
  induction hs with
  | nil => simp
  | cons h t ih =>
    have ih' := ih fun x hx => hm x (List.mem_cons_of_mem _ hx)
    have hh := hm h List.mem_cons_self
    obtain ⟨t1, -⟩ := term_mem hb.le hh.1 hh.2
    have hn : 0 ≤ (t.map fun h => 1 - (|h - 1 / 2| * 2) ^ b).sum :=
      List.sum_nonneg fun x hx => by
        obtain ⟨y, hy, rfl⟩ := List.mem_map.mp hx
        have := hm y (List.mem_cons_of_mem _ hy)
        exact (term_mem hb.le this.1 this.2).1
    simp only [List.map_cons, List.sum_cons, List.forall_mem_cons]
    constructor
    · intro e; exact ⟨(hterm h hh.1 hh.2).mp (by linarith), ih'.mp (by linarith)⟩
    · rintro ⟨e1, e2⟩; rw [(hterm h hh.1 hh.2).mpr e1, ih'.mpr e2, add_zero]

example : regulariser (1 / 100) 20 [0, 1, 1] = 0 :=
  (C128_regulariser_zero (1 / 100) 20 (by norm_num) (by norm_num) [0, 1, 1] (by simp)).mpr (by simp)

example : regulariser (1 / 100) 2 [1 / 2, 1] = 1 / 100 := by norm_num [regulariser]

/-- C128: the exponent of the rounding loss is that of the start until the decay begins, never grows, stays between the end and the start value and has reached the end value at
the last iteration. -/
theorem C128_exponent (l : Loss) (hn : 0 < l.maxCount) (hw : 0 ≤ l.warmup ∧ l.warmup < 1) (hd : 0 ≤ l.decayStart ∧ l.decayStart < 1) (hB : l.endB ≤ l.startB) :
    (∀ t, t < (l.warmup + (1 - l.warmup) * l.decayStart) * l.maxCount → l.exponent t = l.startB) ∧
      (∀ t, (l.maxCount : ℝ) ≤ t → l.exponent t = l.endB) ∧ (∀ t, l.endB ≤ l.exponent t ∧ l.exponent t ≤ l.startB) ∧ Antitone l.exponent := by
  have hN : (0 : ℝ) < l.maxCount := by exact_mod_cast hn
  set r := l.warmup + (1 - l.warmup) * l.decayStart with hr
  have hr1 : r < 1 := by
    have : (1 - l.warmup) * l.decayStart < 1 - l.warmup := by nlinarith [hw.2, hd.2]
    rw [hr]; linarith
  have hden : 0 < (l.maxCount : ℝ) - r * l.maxCount := by nlinarith
  have before : ∀ t, t < r * l.maxCount → l.exponent t = l.startB := fun t ht => by
    unfold Loss.exponent tempDecay
    rw [← hr]
    simp only [if_pos ht]
  have after : ∀ t, ¬ t < r * l.maxCount → l.exponent t = l.endB + (l.startB - l.endB) * max 0 (1 - (t - r * l.maxCount) / (l.maxCount - r * l.maxCount)) := fun t ht => by
    unfold Loss.exponent tempDecay
    rw [← hr]
    simp only [if_neg ht]
  have bounds : ∀ t, l.endB ≤ l.exponent t ∧ l.exponent t ≤ l.startB := by
    intro t
    by_cases ht : t < r * l.maxCount
    · rw [before t ht]; exact ⟨hB, le_rfl⟩
    · rw [after t ht]
      have h1 : 0 ≤ (t - r * l.maxCount) / (l.maxCount - r * l.maxCount) := div_nonneg (by linarith [not_lt.mp ht]) hden.le
      have h2 : max 0 (1 - (t - r * l.maxCount) / (l.maxCount - r * l.maxCount)) ≤ 1 := max_le (by norm_num) (by linarith)
      have h3 : 0 ≤ max 0 (1 - (t - r * l.maxCount) / (l.maxCount - r * l.maxCount)) := le_max_left _ _
      constructor <;> nlinarith
  refine ⟨before, fun t ht => ?_, bounds, fun t t' htt => ?_⟩
  · have hnt : ¬ t < r * l.maxCount := by
      have : r * l.maxCount ≤ l.maxCount := by nlinarith
      linarith
    rw [after t hnt]
    have : 1 ≤ (t - r * l.maxCount) / (l.maxCount - r * l.maxCount) := by
      rw [le_div_iff₀ hden]; linarith
    rw [max_eq_left (by linarith), mul_zero, add_zero]
  · by_cases ht : t < r * l.maxCount
    · rw [before t ht]; exact (bounds t').2
    · have ht' : ¬ t' < r * l.maxCount := by linarith [not_lt.mp ht]
      rw [after t ht, after t' ht']
      have h1 : (t - r * l.maxCount) / (l.maxCount - r * l.maxCount) ≤ (t' - r * l.maxCount) / (l.maxCount - r * l.maxCount) :=
        div_le_div_of_nonneg_right (by linarith) hden.le
      have h2 : max 0 (1 - (t' - r * l.maxCount) / (l.maxCount - r * l.maxCount)) ≤ max 0 (1 - (t - r * l.maxCount) / (l.maxCount - r * l.maxCount)) :=
        max_le_max le_rfl (by linarith)
      have h3 := mul_le_mul_of_nonneg_left h2 (sub_nonneg.mpr hB)
      linarith

/-- C128: what a call of the loss returns: the reconstruction error, plus the rounding loss once the warm-up is over. -/
theorem C128_loss (l : Loss) (hs : List ℝ) (pred tgt : List (List ℝ)) :
    (l.call hs pred tgt).1 = { l with iter := l.iter + 1 } ∧
      (l.call hs pred tgt).2 = (recLoss pred tgt + (l.call hs pred tgt).2.2.2.1, recLoss pred tgt, (l.call hs pred tgt).2.2.2.1, l.exponent (l.iter + 1)) ∧
      ((l.iter + 1 : ℝ) < l.maxCount * l.warmup → (l.call hs pred tgt).2.2.2.1 = 0) ∧
      (l.maxCount * l.warmup ≤ (l.iter + 1 : ℝ) → (l.call hs pred tgt).2.2.2.1 = regulariser l.weight (l.exponent (l.iter + 1)) hs) := by
  have e : ∀ t : ℝ, Loss.exponent { l with iter := l.iter + 1 } t = l.exponent t := fun _ => rfl
  refine ⟨rfl, ?_, fun h => ?_, fun h => ?_⟩
  · simp only [Loss.call, e]; push_cast; rfl
  · simp only [Loss.call]; push_cast; rw [if_pos h]
  · simp only [Loss.call, e]; push_cast; rw [if_neg (not_lt.mpr h)]

example : (defaultLoss 1000).exponent 100 = 20 ∧ (defaultLoss 1000).exponent 600 = 11 ∧ (defaultLoss 1000).exponent 1000 = 2 := by
  refine ⟨?_, ?_, ?_⟩ <;> norm_num [defaultLoss, Loss.exponent, tempDecay]

example : ((defaultLoss 1000).call [1 / 2] [[1, 2], [3, 4]] [[1, 0], [3, 3]]).2.2.1 = 5 / 2 := by
  norm_num [Loss.call, recLoss]

example : (∀ t, (defaultLoss 1000).endB ≤ (defaultLoss 1000).exponent t ∧ (defaultLoss 1000).exponent t ≤ 20) :=
  (C128_exponent (defaultLoss 1000) (by norm_num [defaultLoss]) ⟨by norm_num [defaultLoss], by norm_num [defaultLoss]⟩
    ⟨by norm_num [defaultLoss], by norm_num [defaultLoss]⟩ (by norm_num [defaultLoss])).2.2.1

/-! ## From training to inference -/

private theorem hardSigmoid_half (v : ℝ) :
    (0 < v → 1 / 2 ≤ learnedRoundHardSigmoid zeta gamma v) ∧ (¬ 0 < v → learnedRoundHardSigmoid zeta gamma v ≤ 1 / 2) := by
  have hp : 0 < 1 + Real.exp (-v) := by positivity
  constructor
  · intro hv
    have he : Real.exp (-v) ≤ 1 := Real.exp_le_one_iff.mpr (by linarith)
    have h1 : 1 / 2 ≤ 1 / (1 + Real.exp (-v)) := one_div_le_one_div_of_le hp (by linarith)
    unfold learnedRoundHardSigmoid
    simp only [zeta, gamma]
    refine le_min (le_max_of_le_left ?_) (by norm_num)
    linarith
  · intro hv
    have he : 1 ≤ Real.exp (-v) := Real.one_le_exp (by linarith)
    have h1 : 1 / (1 + Real.exp (-v)) ≤ 1 / 2 := one_div_le_one_div_of_le (by norm_num) (by linarith)
    unfold learnedRoundHardSigmoid
    simp only [zeta, gamma]
    refine min_le_of_left_le (max_le ?_ (by norm_num))
    linarith

/-- The distance between soft and hard rounding of one parameter. -/
private theorem gap_le (v b : ℝ) (hb : 1 ≤ b) :
    |learnedRoundHardSigmoid zeta gamma v - (if 0 < v then 1 else 0)| ≤ (1 - (|learnedRoundHardSigmoid zeta gamma v - 1 / 2| * 2) ^ b) / 2 := by
  obtain ⟨h0, h1⟩ := hardSigmoid_mem zeta gamma v
  obtain ⟨c1, c2⟩ := hardSigmoid_half v
  set h := learnedRoundHardSigmoid zeta gamma v
  obtain ⟨d0, d1⟩ := dist_mem h0 h1
  have hpow : (|h - 1 / 2| * 2) ^ b ≤ |h - 1 / 2| * 2 := by
    calc (|h - 1 / 2| * 2) ^ b ≤ (|h - 1 / 2| * 2) ^ (1 : ℝ) := Real.rpow_le_rpow_of_exponent_ge_of_imp d0 d1 hb (fun _ e => by linarith)
      _ = _ := Real.rpow_one _
  by_cases hv : 0 < v
  · have := c1 hv
    rw [if_pos hv, abs_of_nonpos (by linarith)]
    rw [abs_of_nonneg (by linarith)] at hpow ⊢
    linarith
  · have := c2 hv
    rw [if_neg hv, sub_zero, abs_of_nonneg h0]
    rw [abs_of_nonpos (by linarith)] at hpow ⊢
    linarith

private theorem clamp_lipschitz (x y lo hi : ℝ) : |tensorClamp x lo hi - tensorClamp y lo hi| ≤ |x - y| := by
  rw [tensorClamp_eq, tensorClamp_eq]
  calc |max (min x hi) lo - max (min y hi) lo| ≤ max |min x hi - min y hi| |lo - lo| := abs_max_sub_max_le_max _ _ _ _
    _ ≤ |x - y| := by
      refine max_le ?_ (by simp)
      calc |min x hi - min y hi| ≤ max |x - y| |hi - hi| := abs_min_sub_min_le_max _ _ _ _
        _ ≤ |x - y| := max_le le_rfl (by simp)

private theorem quantElem_gap (l : Layer) (e : Elem) (v b : ℝ) (hb : 1 ≤ b) :
    |quantElem { l with training := true } e v - quantElem { l with training := false } e v| ≤
      |e.scale| * ((1 - (|learnedRoundHardSigmoid zeta gamma v - 1 / 2| * 2) ^ b) / 2) := by
  have hg := gap_le v b hb
  unfold quantElem
  simp only
  rw [← sub_mul, sub_sub_sub_cancel_right, abs_mul, mul_comm]
  refine mul_le_mul_of_nonneg_left (le_trans (clamp_lipschitz _ _ _ _) (le_trans (le_of_eq ?_) hg)) (abs_nonneg _)
  simp [learnedRound, learnedRoundP]

/-- C128: the rounding loss bounds what happens to the weights when the layer goes from training (soft rounding) to inference (hard rounding): in total at most the largest scale
times the loss, divided by twice its weight. In particular nothing changes once the loss is 0. -/
theorem C128_gap (l : Layer) (vs : List ℝ) (S weight b : ℝ) (hw : 0 < weight) (hb : 1 ≤ b) (hS : ∀ e ∈ l.elems, |e.scale| ≤ S)
    (hlen : vs.length = l.elems.length) :
    (List.zipWith (fun e v => |quantElem { l with training := true } e v - quantElem { l with training := false } e v|) l.elems vs).sum ≤
      S * regulariser weight b (vs.map (learnedRoundHardSigmoid zeta gamma)) / (2 * weight) := by
  have key : ∀ (es : List Elem) (vs : List ℝ), (∀ e ∈ es, |e.scale| ≤ S) → vs.length = es.length →
      (List.zipWith (fun e v => |quantElem { l with training := true } e v - quantElem { l with training := false } e v|) es vs).sum ≤
        S * ((vs.map (learnedRoundHardSigmoid zeta gamma)).map fun h => 1 - (|h - 1 / 2| * 2) ^ b).sum / 2 := by
    intro es
    induction es with
    | nil => intro vs _ hl; simp [List.length_eq_zero_iff.mp hl]
    | cons e es ih =>
      intro vs hs hl
      cases vs with
      | nil => simp at hl
      | cons v vs =>
        have ih' := ih vs (fun x hx => hs x (List.mem_cons_of_mem _ hx)) (by simpa using hl)
        have h1 := quantElem_gap l e v b hb
        obtain ⟨h0, h2⟩ := hardSigmoid_mem zeta gamma v
        obtain ⟨t1, -⟩ := term_mem (b := b) (by linarith) h0 h2
        have h3 := mul_le_mul_of_nonneg_right (hs e List.mem_cons_self) (by linarith : 0 ≤ (1 - (|learnedRoundHardSigmoid zeta gamma v - 1 / 2| * 2) ^ b) / 2)
        simp only [List.zipWith_cons_cons, List.sum_cons, List.map_cons]
        linarith
  refine le_trans (key l.elems vs hS hlen) (le_of_eq ?_)
  unfold regulariser
  generalize (((vs.map (learnedRoundHardSigmoid zeta gamma)).map fun h => 1 - (|h - 1 / 2| * 2) ^ b).sum) = r
  field_simp

/-- The layer of the examples: weights 13/5 and -4/5 with scale 1/2 and 4 bits. -/
private noncomputable def exampleLayer : Layer := ⟨[⟨13 / 5, 1 / 2, 0⟩, ⟨-4 / 5, 1 / 2, 0⟩], true, false, 4, none, false⟩

example : (List.zipWith (fun e v => |quantElem { exampleLayer with training := true } e v - quantElem { exampleLayer with training := false } e v|)
    exampleLayer.elems [3, -1]).sum ≤ 1 / 2 * regulariser (1 / 100) 2 ([3, -1].map (learnedRoundHardSigmoid zeta gamma)) / (2 * (1 / 100)) :=
  C128_gap exampleLayer [3, -1] (1 / 2) (1 / 100) 2 (by norm_num) (by norm_num)
    (fun e he => by
      simp only [exampleLayer, List.mem_cons, List.not_mem_nil, or_false] at he
      rcases he with rfl | rfl <;> norm_num [abs_of_pos]) rfl

/-! ## The procedure -/

private theorem trainSteps_spec (opts : List (List ℝ → List ℝ)) : ∀ l : Layer,
    (trainSteps opts l).elems = l.elems ∧ (trainSteps opts l).signed = l.signed ∧ (trainSteps opts l).narrow = l.narrow ∧
      (trainSteps opts l).bitWidth = l.bitWidth ∧ (trainSteps opts l).value = l.value.map fun vs => opts.foldl (fun v o => o v) vs := by
  induction opts with
  | nil => exact fun l => ⟨rfl, rfl, rfl, rfl, by simp [trainSteps]⟩
  | cons o os ih =>
    intro l
    obtain ⟨h1, h2, h3, h4, h5⟩ := ih (trainStep o l)
    refine ⟨h1, h2, h3, h4, ?_⟩
    rw [trainSteps, h5]
    simp [trainStep, Option.map_map, Function.comp_def]

private theorem insert_spec (l : Layer) : (insert l).elems = l.elems ∧ (insert l).signed = l.signed ∧ (insert l).narrow = l.narrow ∧
    (insert l).bitWidth = l.bitWidth ∧ (insert l).value = some (l.value.getD (l.elems.map fun e => learnedRoundInit zeta gamma (e.w / e.scale))) := by
  unfold LearnedRound.insert
  split
  · rename_i vs h; simp [h]
  · rename_i h; simp [h]

private theorem foldl_length (opts : List (List ℝ → List ℝ)) (hopts : ∀ o ∈ opts, ∀ v, (o v).length = v.length) :
    ∀ vs : List ℝ, (opts.foldl (fun v o => o v) vs).length = vs.length := by
  induction opts with
  | nil => exact fun _ => rfl
  | cons o os ih =>
    intro vs
    rw [List.foldl_cons, ih fun o' ho => hopts o' (List.mem_cons_of_mem _ ho)]
    exact hopts o List.mem_cons_self vs

/-- C128: whatever the optimiser does in however many iterations, learning the rounding of a layer leaves its weights and the format of its quantiser alone, and afterwards, in
inference mode, the quantised weight is for each element the integer below or the one above the weight in units of its scale, clipped to the container. A weight within the
container thus moves by at most its scale. -/
theorem C128_weights (l : Layer) (hbw : 1 ≤ l.bitWidth) (hv : ∀ vs, l.value = some vs → vs.length = l.elems.length) (opts : List (List ℝ → List ℝ))
    (hopts : ∀ o ∈ opts, ∀ v, (o v).length = v.length) :
    (learnLayer opts l).elems = l.elems ∧ (learnLayer opts l).signed = l.signed ∧ (learnLayer opts l).narrow = l.narrow ∧ (learnLayer opts l).bitWidth = l.bitWidth ∧
      (learnLayer opts l).training = false ∧
      ∃ qs, (learnLayer opts l).quantWeight = some qs ∧ qs.length = l.elems.length ∧
        ∀ (i : ℕ) (e : Elem) (q : ℝ), l.elems[i]? = some e → qs[i]? = some q →
          (∃ n : ℤ, (n = ⌊e.w / e.scale⌋ ∨ n = ⌊e.w / e.scale⌋ + 1) ∧
            q = ((max (min (n + e.zeroPoint) (Spec.hi l.signed l.narrow l.bitWidth)) (Spec.lo l.signed l.narrow l.bitWidth) : ℤ) - e.zeroPoint : ℝ) * e.scale) ∧
          (e.scale ≠ 0 → (Spec.lo l.signed l.narrow l.bitWidth : ℝ) ≤ e.w / e.scale + e.zeroPoint →
            e.w / e.scale + e.zeroPoint ≤ Spec.hi l.signed l.narrow l.bitWidth → |q - e.w| ≤ |e.scale|) := by
  obtain ⟨i1, i2, i3, i4, i5⟩ := insert_spec l
  obtain ⟨t1, t2, t3, t4, t5⟩ := trainSteps_spec opts (LearnedRound.insert l)
  set vs := l.value.getD (l.elems.map fun e => learnedRoundInit zeta gamma (e.w / e.scale)) with hvs
  have hlen : vs.length = l.elems.length := by
    rw [hvs]
    cases h : l.value with
    | none => simp
    | some vs => exact hv vs h
  have hval : (learnLayer opts l).value = some (opts.foldl (fun v o => o v) vs) := by
    change (trainSteps opts (LearnedRound.insert l)).value = _
    rw [t5, i5]; rfl
  refine ⟨t1.trans i1, t2.trans i2, t3.trans i3, t4.trans i4, rfl, List.zipWith (quantElem (learnLayer opts l)) l.elems (opts.foldl (fun v o => o v) vs), ?_, ?_, ?_⟩
  · unfold Layer.quantWeight
    rw [hval, show (learnLayer opts l).elems = l.elems from t1.trans i1]; rfl
  · rw [List.length_zipWith, foldl_length opts hopts, hlen, min_self]
  · intro i e q he hq
    rw [List.getElem?_zipWith, he] at hq
    cases hvi : (opts.foldl (fun v o => o v) vs)[i]? with
    | none => rw [hvi] at hq; simp at hq
    | some v =>
      rw [hvi] at hq
      have hq' : q = quantElem (learnLayer opts l) e v := (Option.some.inj hq).symm
      have hfl : ⌊e.w / e.scale + (e.zeroPoint : ℝ)⌋ = ⌊e.w / e.scale⌋ + e.zeroPoint := Int.floor_add_intCast _ _
      set n : ℤ := ⌊e.w / e.scale⌋ + (if 0 < v then 1 else 0) with hn
      have hround : learnedRound (learnedRoundHardSigmoid zeta gamma) false v (e.w / e.scale + e.zeroPoint) = ((n + e.zeroPoint : ℤ) : ℝ) := by
        rw [(C38_learned_eval _ _ _).1, hfl, hn]
        split_ifs <;> push_cast <;> ring
      have hval' : q = ((max (min (n + e.zeroPoint) (Spec.hi l.signed l.narrow l.bitWidth)) (Spec.lo l.signed l.narrow l.bitWidth) : ℤ) - e.zeroPoint : ℝ) * e.scale := by
        rw [hq']
        unfold quantElem
        rw [show (learnLayer opts l).training = false from rfl, show (learnLayer opts l).signed = l.signed from t2.trans i2,
          show (learnLayer opts l).narrow = l.narrow from t3.trans i3, show (learnLayer opts l).bitWidth = l.bitWidth from t4.trans i4]
        simp only [hround, minInt_eq _ _ hbw, maxInt_eq _ _ hbw, tensorClamp_int]
      refine ⟨⟨n, ?_, hval'⟩, fun hs hlo hhi => ?_⟩
      · rw [hn]; split_ifs <;> simp
      · have f1 := Int.floor_le (e.w / e.scale)
        have f2 := Int.lt_floor_add_one (e.w / e.scale)
        have hn1 : (n : ℝ) ≤ ⌊e.w / e.scale⌋ + 1 := by rw [hn]; split_ifs <;> push_cast <;> linarith
        have hn0 : (⌊e.w / e.scale⌋ : ℝ) ≤ n := by rw [hn]; split_ifs <;> push_cast <;> linarith
        have key : |((max (min (n + e.zeroPoint) (Spec.hi l.signed l.narrow l.bitWidth)) (Spec.lo l.signed l.narrow l.bitWidth) : ℤ) - e.zeroPoint : ℝ) - e.w / e.scale| ≤ 1 := by
          have hc := clamp_lipschitz ((n + e.zeroPoint : ℤ) : ℝ) (e.w / e.scale + e.zeroPoint) (Spec.lo l.signed l.narrow l.bitWidth) (Spec.hi l.signed l.narrow l.bitWidth)
          rw [tensorClamp_int, tensorClamp_of_mem hlo hhi] at hc
          have hb : |((n + e.zeroPoint : ℤ) : ℝ) - (e.w / e.scale + e.zeroPoint)| ≤ 1 := by
            push_cast
            rw [abs_le]; constructor <;> linarith
          have := le_trans hc hb
          rwa [← sub_sub, sub_right_comm] at this
        have hw : e.w = e.w / e.scale * e.scale := by field_simp
        rw [hval']
        nth_rw 1 [hw]
        rw [← sub_mul, abs_mul]
        calc _ ≤ 1 * |e.scale| := mul_le_mul_of_nonneg_right key (abs_nonneg _)
          _ = _ := one_mul _

/-- C128: before any iteration a layer that had no learned rounding is rounded to nearest: a weight within the container moves by at most half its scale. -/
theorem C128_start_is_nearest (l : Layer) (hbw : 1 ≤ l.bitWidth) (hnew : l.value = none) (i : ℕ) (e : Elem) (he : l.elems[i]? = some e) (hs : e.scale ≠ 0)
    (hlo : (Spec.lo l.signed l.narrow l.bitWidth : ℝ) ≤ e.w / e.scale + e.zeroPoint) (hhi : e.w / e.scale + e.zeroPoint ≤ Spec.hi l.signed l.narrow l.bitWidth) :
    ∃ qs q, (learnLayer [] l).quantWeight = some qs ∧ qs[i]? = some q ∧ |q - e.w| ≤ |e.scale| / 2 := by
  have hval : (learnLayer [] l).value = some (l.elems.map fun e => learnedRoundInit zeta gamma (e.w / e.scale)) := by
    simp [learnLayer, trainSteps, LearnedRound.insert, hnew]
  have hel : (learnLayer [] l).elems = l.elems := (insert_spec l).1
  refine ⟨List.zipWith (quantElem (learnLayer [] l)) l.elems (l.elems.map fun e => learnedRoundInit zeta gamma (e.w / e.scale)),
    quantElem (learnLayer [] l) e (learnedRoundInit zeta gamma (e.w / e.scale)), ?_, ?_, ?_⟩
  · unfold Layer.quantWeight
    rw [hval, hel]; rfl
  · rw [List.getElem?_zipWith, List.getElem?_map, he]; rfl
  · set v := learnedRoundInit zeta gamma (e.w / e.scale) with hv
    have h38 := (C38_learned_init zeta gamma (e.w / e.scale) (by norm_num [zeta]) (by norm_num [gamma])).2 (by norm_num [zeta, gamma])
    rw [← hv, (C38_learned_eval _ _ _).1] at h38
    have hr : learnedRound (learnedRoundHardSigmoid zeta gamma) false v (e.w / e.scale + e.zeroPoint) =
        (⌊e.w / e.scale⌋ : ℝ) + (if 0 < v then 1 else 0) + e.zeroPoint := by
      rw [(C38_learned_eval _ _ _).1, Int.floor_add_intCast]
      push_cast; ring
    have hq : quantElem (learnLayer [] l) e v = (tensorClamp ((⌊e.w / e.scale⌋ : ℝ) + (if 0 < v then 1 else 0) + e.zeroPoint)
        (Spec.lo l.signed l.narrow l.bitWidth) (Spec.hi l.signed l.narrow l.bitWidth) - e.zeroPoint) * e.scale := by
      unfold quantElem
      obtain ⟨-, i2, i3, i4, -⟩ := insert_spec l
      rw [show (learnLayer [] l).training = false from rfl, show (learnLayer [] l).signed = l.signed from i2,
        show (learnLayer [] l).narrow = l.narrow from i3, show (learnLayer [] l).bitWidth = l.bitWidth from i4]
      simp only [hr, minInt_eq _ _ hbw, maxInt_eq _ _ hbw]
    have hc := clamp_lipschitz ((⌊e.w / e.scale⌋ : ℝ) + (if 0 < v then 1 else 0) + e.zeroPoint) (e.w / e.scale + e.zeroPoint)
      (Spec.lo l.signed l.narrow l.bitWidth) (Spec.hi l.signed l.narrow l.bitWidth)
    rw [tensorClamp_of_mem hlo hhi, add_sub_add_right_eq_sub] at hc
    have key := le_trans hc h38
    rw [← sub_sub, sub_right_comm] at key
    have hw : e.w = e.w / e.scale * e.scale := by field_simp
    rw [hq]
    nth_rw 2 [hw]
    rw [← sub_mul, abs_mul]
    calc _ ≤ 1 / 2 * |e.scale| := mul_le_mul_of_nonneg_right key (abs_nonneg _)
      _ = _ := by ring

example : ∃ qs q, (learnLayer [] exampleLayer).quantWeight = some qs ∧ qs[1]? = some q ∧ |q - (-4 / 5)| ≤ |(1 / 2 : ℝ)| / 2 :=
  C128_start_is_nearest exampleLayer (by norm_num [exampleLayer]) rfl 1 ⟨-4 / 5, 1 / 2, 0⟩ rfl (by norm_num)
    (by norm_num [exampleLayer, Spec.lo]) (by norm_num [exampleLayer, Spec.hi])

/-- An optimiser that turns every rounding up. -/
example : (learnLayer [fun v => v.map fun _ => 1] exampleLayer).quantWeight = some [3, -1 / 2] := by
  have f1 : ⌊(26 / 5 : ℝ)⌋ = 5 := by rw [Int.floor_eq_iff]; norm_num
  have f2 : ⌊(-8 / 5 : ℝ)⌋ = -2 := by rw [Int.floor_eq_iff]; norm_num
  norm_num [learnLayer, trainSteps, trainStep, LearnedRound.insert, exampleLayer, Layer.quantWeight, List.replicate, quantElem, learnedRound, learnedRoundP, tensorClamp, minInt, maxInt, f1, f2]

mutual

private theorem Tree.learn_spec (opts : ℕ → List (List ℝ → List ℝ)) : ∀ (t : Tree) (k : ℕ),
    (t.learn opts k).1.layers = t.layers.mapIdx (fun i l => learnLayer (opts (k + i)) l) ∧ (t.learn opts k).2 = k + t.layers.length
  | .layer l, k => by simp [Tree.learn, Tree.layers]
  | .node cs, k => by
    obtain ⟨h1, h2⟩ := learnAll_spec opts cs k
    exact ⟨by simpa [Tree.learn, Tree.layers] using h1, by simpa [Tree.learn, Tree.layers] using h2⟩

private theorem learnAll_spec (opts : ℕ → List (List ℝ → List ℝ)) : ∀ (cs : List Tree) (k : ℕ),
    splitLayers (learnAll opts k cs).1 = (splitLayers cs).mapIdx (fun i l => learnLayer (opts (k + i)) l) ∧ (learnAll opts k cs).2 = k + (splitLayers cs).length
  | [], k => by simp [learnAll, splitLayers]
  | c :: cs, k => by
    obtain ⟨h1, h2⟩ := Tree.learn_spec opts c k
    obtain ⟨h3, h4⟩ := learnAll_spec opts cs (c.learn opts k).2
    refine ⟨?_, ?_⟩
    · have e : ∀ i, c.layers.length + (k + i) = k + (i + c.layers.length) := fun i => by omega
      rw [learnAll, splitLayers, splitLayers, h1, h3, List.mapIdx_append, h2]
      congr 1
      refine congrArg (fun f => List.mapIdx f (splitLayers cs)) ?_
      funext i l
      rw [Nat.add_assoc, Nat.add_comm c.layers.length i]
    · rw [learnAll, splitLayers, h4, h2, List.length_append, Nat.add_assoc]

end

/-- C128: every layer of the model is worked on exactly once, in the order in which the modules are listed. -/
theorem C128_every_layer_once (opts : ℕ → List (List ℝ → List ℝ)) (model : List Tree) (i : ℕ) :
    (splitLayers (learnAll opts 0 model).1)[i]? = (splitLayers model)[i]?.map (learnLayer (opts i)) := by
  rw [(learnAll_spec opts model 0).1, List.getElem?_mapIdx, Nat.zero_add]

example : splitLayers [.node [.layer exampleLayer], .layer exampleLayer] = [exampleLayer, exampleLayer] := by
  simp [splitLayers, Tree.layers]

end Brevitas.Props
