import Verif.Lemmas.A2Q

/-!
# C20, C21: accumulator-aware weight quantisation cannot overflow
-/

set_option linter.unusedSectionVars false

namespace Brevitas.Props

open Brevitas

variable {K : Type*} [Field K] [LinearOrder K] [IsStrictOrderedRing K] [FloorRing K]

/-- The products that the accumulator adds up, for weight codes `qs` and input codes `xs`. -/
def products (qs xs : List ℤ) : List ℤ := List.zipWith (· * ·) qs xs

/-- The accumulator never leaves the signed `P`-bit range: every partial sum, of any subset of the products in any order,
fits. -/
def NeverOverflows (P : ℕ) (ps : List ℤ) : Prop :=
  ∀ order : List ℤ, order.Perm ps → ∀ k : ℕ, Spec.IsCode true false P (order.take k).sum

/-- A sum of absolute value at most `2^(P-1) - 1` fits. -/
theorem isCode_of_bounds {P : ℕ} (hP : 1 ≤ P) {n : ℤ} (h1 : (n : K) ≤ 2 ^ ((P : ℤ) - 1) - 1)
    (h2 : -((2 : K) ^ ((P : ℤ) - 1) - 1) ≤ n) : Spec.IsCode true false P n := by
  rw [zpow_pred_eq hP] at h1 h2
  have h1' : n ≤ 2 ^ (P - 1) - 1 := by exact_mod_cast h1
  have h2' : -(2 ^ (P - 1) - 1) ≤ n := by exact_mod_cast h2
  unfold Spec.IsCode
  simp only [Spec.lo, Spec.hi, if_true, Bool.false_eq_true, if_false]
  constructor <;> linarith

/-- Bounds of the input codes. -/
theorem input_bounds {inputIsSigned : Bool} {N : ℕ} {xs : List ℤ}
    (hx : ∀ x ∈ xs, Spec.IsCode inputIsSigned false N x) :
    ∀ x ∈ xs, -(if inputIsSigned then 2 ^ (N - 1) else 0) ≤ x ∧
      x ≤ (if inputIsSigned then 2 ^ (N - 1) - 1 else 2 ^ N - 1 : ℤ) := by
  intro x hxm
  have := hx x hxm
  unfold Spec.IsCode at this
  cases inputIsSigned <;> simp_all [Spec.lo, Spec.hi]

/-- C20: the weights returned by the accumulator-aware quantiser are `code * scale` for `b`-bit narrow codes whose dot
product with any vector of `N`-bit input codes of the declared sign never overflows a signed `P`-bit accumulator, for
every learned norm, every scale, every order of accumulation. -/
theorem C20_no_overflow (b P N : ℕ) (hb : 1 ≤ b) (hP : 1 ≤ P) (hN : 1 ≤ N) (inputIsSigned : Bool) (m : Option K)
    (s g : K) (hs : 0 < s) (ws ys : List K) (sc : K)
    (h : a2qQuant b P N inputIsSigned m s g ws = some (ys, sc)) :
    sc = s ∧ ∃ qs : List ℤ, ys = qs.map (fun q : ℤ => (q : K) * sc) ∧ (∀ q ∈ qs, Spec.IsCode true true b q) ∧
      ∀ xs : List ℤ, (∀ x ∈ xs, Spec.IsCode inputIsSigned false N x) → NeverOverflows P (products qs xs) := by
  simp only [a2qQuant, Option.bind_eq_bind, Option.bind_eq_some_iff, div_one] at h
  obtain ⟨p, hp, h⟩ := h
  split_ifs at h with hp0
  obtain ⟨rfl, rfl⟩ := Prod.mk.inj (Option.some.inj h)
  refine ⟨rfl, ?_⟩
  have hacc : (0 : K) ≤ 2 ^ ((P : ℤ) - 1) - 1 := by
    have : (1 : K) ≤ 2 ^ ((P : ℤ) - 1) := by
      rw [zpow_pred_eq hP]; exact_mod_cast one_le_pow₀ (by norm_num : (1 : ℤ) ≤ 2)
    linarith
  have hT : (0 : K) ≤ a2qMaxNorm P N inputIsSigned := by
    simp only [a2qMaxNorm, upperBoundL1Norm]; positivity
  have hd : 0 ≤ l1Norm ws := by
    rw [l1Norm_eq]; exact add_nonneg (pos_nonneg _) (neg_nonneg' _)
  obtain ⟨hp1, hp2⟩ := a2qPreScaling_spec hs hT hd hp
  have hpp : 0 < p := lt_of_le_of_ne hp1 (Ne.symm hp0)
  set ysc := ws.map fun w => w / p with hysc
  refine ⟨ysc.map fun y => code true true b (roundToZero y), ?_, ?_, ?_⟩
  · simp only [hysc, List.map_map]
    apply List.map_congr_left
    intro w _
    simp only [IntQuantCfg.decoupledForward, IntQuantCfg.decoupledToInt, Function.comp, a2qCfg, IntQuantCfg.minInt,
      IntQuantCfg.maxInt, minInt_eq _ _ hb, maxInt_eq _ _ hb, tensorClamp_int, add_zero, sub_zero, code]
  · intro q hq
    obtain ⟨y, -, rfl⟩ := List.mem_map.mp hq
    exact code_isCode true true hb _
  · intro xs hx order horder k
    obtain ⟨s1, s2⟩ := sum_code_le b hb true ysc
    rw [hysc, pos_div _ _ hpp] at s1
    rw [hysc, neg_div' _ _ hpp] at s2
    set qs := ysc.map fun y => code true true b (roundToZero y) with hqs
    set A : ℤ := (qs.map fun q => max q 0).sum with hA
    set B : ℤ := (qs.map fun q => max (-q) 0).sum with hB
    have hA0 : 0 ≤ A := List.sum_nonneg (by
      intro a ha; obtain ⟨b, -, rfl⟩ := List.mem_map.mp ha; exact le_max_right _ _)
    have hB0 : 0 ≤ B := List.sum_nonneg (by
      intro a ha; obtain ⟨b, -, rfl⟩ := List.mem_map.mp ha; exact le_max_right _ _)
    have hAB : ((A + B : ℤ) : K) ≤ a2qMaxNorm P N inputIsSigned := by
      have e : pos ws / p + neg ws / p ≤ a2qMaxNorm P N inputIsSigned := by
        rw [← add_div, ← l1Norm_eq, div_le_iff₀ hpp]; exact hp2
      push_cast; linarith
    -- largest input magnitude
    set M : ℤ := if inputIsSigned then 2 ^ (N - 1) else 2 ^ N with hM
    have hM0 : 0 ≤ M := by simp only [hM]; split_ifs <;> positivity
    have hMT : (M : K) * a2qMaxNorm P N inputIsSigned = 2 ^ ((P : ℤ) - 1) - 1 := by
      have e1 : (M : K) = 2 ^ ((N : ℤ) - (if inputIsSigned then 1 else 0)) := by
        cases inputIsSigned
        · simp [hM]
        · simp [hM, zpow_pred_eq hN]
      simp only [a2qMaxNorm, upperBoundL1Norm]
      rw [e1, mul_comm, mul_assoc, ← zpow_add₀ (by norm_num : (2 : K) ≠ 0)]
      cases inputIsSigned <;> simp
    have hb' := input_bounds hx
    have hx' : ∀ x ∈ xs, -M ≤ x ∧ x ≤ M := by
      intro x hxm
      have := hb' x hxm
      cases inputIsSigned
      · simp only [Bool.false_eq_true, if_false] at this hM
        omega
      · simp only [if_true] at this hM
        omega
    have hl : (order.take k).Subperm (List.zipWith (· * ·) qs xs) :=
      ((List.take_sublist k order).subperm).trans horder.subperm
    obtain ⟨t1, t2⟩ := partial_sum_bounds hM0 hM0 qs xs hx' hl
    have t3 : ((M * (A + B) : ℤ) : K) ≤ 2 ^ ((P : ℤ) - 1) - 1 := by
      rw [← hMT]; push_cast
      have := mul_le_mul_of_nonneg_left hAB (by exact_mod_cast hM0 : (0 : K) ≤ M)
      push_cast at this; exact this
    have t1' : (((order.take k).sum : ℤ) : K) ≤ ((M * (A + B) : ℤ) : K) := by
      exact_mod_cast (by rw [mul_add]; exact t1)
    have t2' : (-((M * (A + B) : ℤ)) : K) ≤ (((order.take k).sum : ℤ) : K) := by
      have : -(M * (A + B)) ≤ (order.take k).sum := by rw [mul_add]; exact t2
      exact_mod_cast this
    exact isCode_of_bounds (K := K) hP (t1'.trans t3) (by linarith)

/-- C21: the same for the zero-centred variant, whose norm budget is about twice as large: signed and unsigned inputs. -/
theorem C21_no_overflow (b P N : ℕ) (hb : 1 ≤ b) (hP : 1 ≤ P) (hN : 1 ≤ N) (inputIsSigned : Bool) (m : Option K)
    (s g : K) (hs : 0 < s) (ws ys : List K) (hne : ws ≠ []) (sc : K)
    (h : a2qPlusQuant b P N m s g ws = some (ys, sc)) :
    sc = s ∧ ∃ qs : List ℤ, ys = qs.map (fun q : ℤ => (q : K) * sc) ∧ (∀ q ∈ qs, Spec.IsCode true true b q) ∧
      ∀ xs : List ℤ, (∀ x ∈ xs, Spec.IsCode inputIsSigned false N x) → NeverOverflows P (products qs xs) := by
  simp only [a2qPlusQuant, Option.bind_eq_bind, Option.bind_eq_some_iff, div_one] at h
  obtain ⟨p, hp, h⟩ := h
  split_ifs at h with hp0
  obtain ⟨rfl, rfl⟩ := Prod.mk.inj (Option.some.inj h)
  refine ⟨rfl, ?_⟩
  have hN2 : (1 : K) ≤ 2 ^ (N : ℤ) - 1 := by
    have : (2 : ℤ) ^ 1 ≤ 2 ^ N := pow_le_pow_right₀ (by norm_num) hN
    have : (2 : K) ≤ 2 ^ N := by exact_mod_cast (by simpa using this : (2 : ℤ) ≤ 2 ^ N)
    rw [zpow_natCast]; linarith
  have hP2 : (2 : K) ^ (P : ℤ) = 2 * 2 ^ ((P : ℤ) - 1) := by
    rw [← zpow_one_add₀ (by norm_num : (2 : K) ≠ 0)]; congr 1; ring
  have hacc : (0 : K) ≤ 2 ^ ((P : ℤ) - 1) - 1 := by
    have : (1 : K) ≤ 2 ^ ((P : ℤ) - 1) := by
      rw [zpow_pred_eq hP]; exact_mod_cast one_le_pow₀ (by norm_num : (1 : ℤ) ≤ 2)
    linarith
  have hT : (0 : K) ≤ a2qPlusMaxNorm P N := by
    simp only [a2qPlusMaxNorm]
    apply div_nonneg <;> linarith
  set cs := ws.map fun w => w + zeroCenter ws with hcs
  have hsum : pos cs = neg cs := by
    have := zeroCenter_sum ws hne
    rw [← hcs, sum_eq_pos_sub_neg] at this
    linarith
  have hd : 0 ≤ l1Norm cs := by
    rw [l1Norm_eq]; exact add_nonneg (pos_nonneg _) (neg_nonneg' _)
  obtain ⟨hp1, hp2⟩ := a2qPreScaling_spec hs hT hd hp
  have hpp : 0 < p := lt_of_le_of_ne hp1 (Ne.symm hp0)
  set ysc := cs.map fun w => w / p with hysc
  refine ⟨ysc.map fun y => code true true b (roundToZero y), ?_, ?_, ?_⟩
  · simp only [hysc, hcs, List.map_map]
    apply List.map_congr_left
    intro w _
    have e : w / p + zeroCenter ws / p = (w + zeroCenter ws) / p := by rw [add_div]
    simp only [IntQuantCfg.decoupledForward, IntQuantCfg.decoupledToInt, Function.comp, a2qCfg, IntQuantCfg.minInt,
      IntQuantCfg.maxInt, minInt_eq _ _ hb, maxInt_eq _ _ hb, tensorClamp_int, sub_zero, code, e]
  · intro q hq
    obtain ⟨y, -, rfl⟩ := List.mem_map.mp hq
    exact code_isCode true true hb _
  · intro xs hx order horder k
    obtain ⟨s1, s2⟩ := sum_code_le b hb true ysc
    rw [hysc, pos_div _ _ hpp] at s1
    rw [hysc, neg_div' _ _ hpp] at s2
    set qs := ysc.map fun y => code true true b (roundToZero y) with hqs
    set A : ℤ := (qs.map fun q => max q 0).sum with hA
    set B : ℤ := (qs.map fun q => max (-q) 0).sum with hB
    have hhalf : pos cs / p ≤ a2qPlusMaxNorm P N / 2 := by
      rw [l1Norm_eq, ← hsum] at hp2
      rw [div_le_iff₀ hpp]; linarith
    have hA1 : (A : K) ≤ a2qPlusMaxNorm P N / 2 := s1.trans hhalf
    have hB1 : (B : K) ≤ a2qPlusMaxNorm P N / 2 := by rw [hsum] at hhalf; exact s2.trans hhalf
    set L : ℤ := if inputIsSigned then 2 ^ (N - 1) else 0 with hL
    set H : ℤ := if inputIsSigned then 2 ^ (N - 1) - 1 else 2 ^ N - 1 with hH
    have one_le : (1 : ℤ) ≤ 2 ^ (N - 1) := one_le_pow₀ (by norm_num)
    have one_le' : (1 : ℤ) ≤ 2 ^ N := one_le_pow₀ (by norm_num)
    have hL0 : 0 ≤ L := by simp only [hL]; split_ifs <;> omega
    have hH0 : 0 ≤ H := by simp only [hH]; split_ifs <;> omega
    have hLH : L + H = 2 ^ N - 1 := by
      have e : (2 : ℤ) ^ N = 2 * 2 ^ (N - 1) := by rw [← pow_succ']; congr 1; omega
      simp only [hL, hH]; split_ifs <;> omega
    have hLHK : ((L : K) + H) * (a2qPlusMaxNorm P N / 2) = 2 ^ ((P : ℤ) - 1) - 1 := by
      have e : (L : K) + H = 2 ^ (N : ℤ) - 1 := by
        rw [zpow_natCast]; exact_mod_cast hLH
      rw [e, a2qPlusMaxNorm, hP2]
      have : (2 : K) ^ (N : ℤ) - 1 ≠ 0 := by linarith
      field_simp
    have hl : (order.take k).Subperm (List.zipWith (· * ·) qs xs) :=
      ((List.take_sublist k order).subperm).trans horder.subperm
    obtain ⟨t1, t2⟩ := partial_sum_bounds hL0 hH0 qs xs (input_bounds hx) hl
    have hLK : (0 : K) ≤ L := by exact_mod_cast hL0
    have hHK : (0 : K) ≤ H := by exact_mod_cast hH0
    have t1' : (((order.take k).sum : ℤ) : K) ≤ (H : K) * A + L * B := by exact_mod_cast t1
    have t2' : -((L : K) * A + H * B) ≤ (((order.take k).sum : ℤ) : K) := by exact_mod_cast t2
    have u1 := mul_le_mul_of_nonneg_left hA1 hHK
    have u2 := mul_le_mul_of_nonneg_left hB1 hLK
    have u3 := mul_le_mul_of_nonneg_left hA1 hLK
    have u4 := mul_le_mul_of_nonneg_left hB1 hHK
    apply isCode_of_bounds (K := K) hP <;> nlinarith

/-- Non-vacuity: a channel that is really constrained (budget 7/4 < requested norm) and quantises to non-zero codes. -/
example : a2qQuant (K := ℚ) 4 4 2 false none (1/2) 10 [3, -1, 4, -8/10] = some ([0, 0, 0, 0], 1/2) ∧
    a2qQuant (K := ℚ) 4 6 2 false none (1/2) 10 [3, -1, 4, -8/10] = some ([1, 0, 3/2, 0], 1/2) ∧
    a2qPlusQuant (K := ℚ) 4 6 2 none (1/2) 100 [3, -1, 4, -8/10] = some ([3/2, -5/2, 3, -2], 1/2) := by
  decide +kernel

/-- The budget is not wasteful: with the accumulator one bit narrower the same weights overflow on some input, here an
8-bit-unsigned input with codes from a P = 12 channel. -/
example : ¬ Spec.IsCode true false 11 (products [7, 0] [255, 255]).sum ∧
    Spec.IsCode true false 12 (products [7, 0] [255, 255]).sum ∧
    a2qQuant (K := ℚ) 8 12 8 false none 1 100 [1, 0] = some ([7, 0], 1) := by
  refine ⟨by unfold Spec.IsCode; decide, by unfold Spec.IsCode; decide, by decide +kernel⟩

/-- The all-zero channel: without a minimum value (which `AccumulatorAwarePerChannelPreNorm` does not forward) the
pre-scale is zero and the quantiser divides 0 by 0, for every other parameter. -/
theorem C20_zero_channel_divides_by_zero (b P N n : ℕ) (inputIsSigned : Bool) (s g : K) :
    a2qQuant b P N inputIsSigned none s g (List.replicate n 0) = none := by
  have h0 : l1Norm (List.replicate n (0 : K)) = 0 := by simp [l1Norm]
  simp only [a2qQuant, h0, a2qPreScaling, clampMinVal, zero_div]
  split_ifs <;> simp

/-- With a positive minimum value an all-zero channel is quantised to zeros. -/
theorem C20_zero_channel_with_min (b P N n : ℕ) (hb : 1 ≤ b) (hP : 2 ≤ P) (inputIsSigned : Bool) (s g v : K)
    (hs : 0 < s) (hg : g ≠ 0) (hv : 0 < v) :
    a2qQuant b P N inputIsSigned (some v) s g (List.replicate n 0) = some (List.replicate n 0, s) := by
  have h0 : l1Norm (List.replicate n (0 : K)) = 0 := by simp [l1Norm]
  have hT : (0 : K) < a2qMaxNorm P N inputIsSigned := by
    have : (2 : ℤ) ^ 1 ≤ 2 ^ (P - 1) := pow_le_pow_right₀ (by norm_num) (by omega)
    have : (2 : K) ≤ ((2 ^ (P - 1) : ℤ) : K) := by exact_mod_cast (by simpa using this : (2 : ℤ) ≤ 2 ^ (P - 1))
    simp only [a2qMaxNorm, upperBoundL1Norm]
    rw [zpow_pred_eq (by omega)]
    apply mul_pos
    · linarith
    · positivity
  have hg' : min (|g| / s) (a2qMaxNorm P N inputIsSigned) ≠ 0 :=
    (lt_min (div_pos (abs_pos.mpr hg) hs) hT).ne'
  have hc : Spec.IsCode true true b 0 := by
    have : (1 : ℤ) ≤ 2 ^ (b - 1) := one_le_pow₀ (by norm_num)
    unfold Spec.IsCode; simp [Spec.lo, Spec.hi]; omega
  have hr : roundToZero (0 : K) = 0 := by simp [roundToZero, torchFloor]
  have key : ∀ p : K, a2qCfg.decoupledForward p 0 s 0 b (0 : K) = 0 := by
    intro p
    simp only [IntQuantCfg.decoupledForward, IntQuantCfg.decoupledToInt, a2qCfg, IntQuantCfg.minInt, IntQuantCfg.maxInt,
      minInt_eq _ _ hb, maxInt_eq _ _ hb, zero_div, add_zero, sub_zero, hr, tensorClamp_int]
    have := code_of_isCode hc
    unfold code at this
    rw [this]; simp
  simp only [a2qQuant, h0, a2qPreScaling, clampMinVal, zero_div, if_neg hs.ne', if_neg hg', if_neg hv.ne', clampMin,
    max_eq_right hv.le, Option.bind_eq_bind, Option.bind_some, div_one, List.map_replicate, key]

end Brevitas.Props
