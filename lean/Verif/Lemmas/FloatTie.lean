import Verif.Lemmas.FloatSpec

/-!
# Ties of minifloat rounding, and the order of codes
-/

set_option linter.unusedSectionVars false

namespace Brevitas

variable {K : Type*} [Field K] [LinearOrder K] [IsStrictOrderedRing K] [FloorRing K]

/-- When two numbers of the grid are nearest, the quantiser takes an even multiple of its internal scale. -/
theorem q0_tie (M : ℕ) (mn : ℤ) (x g : K) (hg : OnG M mn g) (hne : g ≠ q0 torchRound M mn x) (htie : |x - g| = |x - q0 torchRound M mn x|) :
    Even (torchRound (x / 2 ^ exp0 M mn x)) := by
  set t := exp0 M mn x with ht
  have hp : (0 : K) < 2 ^ t := two_zpow_pos t
  have hq : q0 torchRound M mn x = (torchRound (x / 2 ^ t) : ℤ) * 2 ^ t := by rw [q0, qAt, ← ht, mul_comm]
  have hnear := q0_closest (f := torchRound (K := K)) (fun y => torchRound_err y) M mn x
  have hmul : ∃ j : ℤ, g = j * 2 ^ t := by
    obtain ⟨n, k, hn, hk, rfl⟩ := hg
    rcases le_or_gt t k with hle | hlt
    · exact ⟨n * 2 ^ (k - t).toNat, by rw [two_zpow_sub_int hle]; push_cast; ring⟩
    · have h1 := exp0_le_abs (hk.trans_lt hlt)
      rw [← ht] at h1
      have hn' : |(n : K)| ≤ ((2 ^ (M + 1) : ℤ) : K) := by exact_mod_cast hn
      have h2 : |(n : K) * 2 ^ k| ≤ 2 ^ (t + M) := by
        rw [abs_mul, abs_of_pos (two_zpow_pos (K := K) k)]
        refine (mul_le_mul_of_nonneg_right hn' (two_zpow_pos k).le).trans ?_
        rw [← two_zpow_nat, ← two_zpow_add]
        apply two_zpow_le; push_cast; omega
      have e : (2 : K) ^ (t + M) = ((2 ^ M : ℤ) : K) * 2 ^ t := by rw [two_zpow_add, two_zpow_nat]; ring
      have hM : |(2 : ℤ) ^ M| ≤ 2 ^ (M + 1) := by rw [abs_of_nonneg (by positivity), pow_succ]; have : (0 : ℤ) < 2 ^ M := by positivity
                                                  linarith
      obtain ⟨g1, g2⟩ := abs_le.mp h2
      rcases le_or_gt 0 x with hx | hx
      · rw [abs_of_nonneg hx] at h1
        have h3 := hnear (2 ^ (t + M)) ⟨2 ^ M, t, hM, exp0_ge _ _ _, e⟩
        rw [← htie, abs_of_nonneg (by linarith), abs_of_nonneg (by linarith)] at h3
        exact ⟨2 ^ M, by rw [← e]; linarith⟩
      · rw [abs_of_neg hx] at h1
        have h3 := hnear (-2 ^ (t + M)) ⟨-2 ^ M, t, by rwa [abs_neg], exp0_ge _ _ _, by rw [e]; push_cast; ring⟩
        rw [← htie, abs_of_nonpos (by linarith), abs_of_nonpos (by linarith)] at h3
        exact ⟨-2 ^ M, by rw [Int.cast_neg, neg_mul, ← e]; linarith⟩
  obtain ⟨j, rfl⟩ := hmul
  rw [hq] at htie hne
  set n := torchRound (x / 2 ^ t) with hn
  have hj : j ≠ n := fun h => hne (by rw [h])
  have e : ∀ a : K, |x - a * 2 ^ t| = |x / 2 ^ t - a| * 2 ^ t := by
    intro a
    rw [← abs_of_pos hp, ← abs_mul, abs_of_pos hp]
    congr 1; field_simp
  rw [e, e] at htie
  have h1 : |x / 2 ^ t - j| = |x / 2 ^ t - n| := mul_right_cancel₀ hp.ne' htie
  have h2 : |(n : K) - x / 2 ^ t| ≤ 1 / 2 := torchRound_err _
  refine torchRound_tie (le_antisymm h2 ?_)
  have h3 : (1 : K) ≤ |(n : K) - j| := by
    have : 1 ≤ |n - j| := Int.one_le_abs (sub_ne_zero.2 hj.symm)
    exact_mod_cast this
  have h4 : |(n : K) - j| ≤ |(n : K) - x / 2 ^ t| + |x / 2 ^ t - j| := abs_sub_le _ _ _
  rw [h1, abs_sub_comm (x / 2 ^ t)] at h4
  linarith

/-- An even multiple of the internal scale has an even mantissa. -/
theorem even_mantissa {M : ℕ} {bias t n : ℤ} {e m : ℕ} (hM : M ≠ 0) (ht : 1 - bias - M ≤ t) (hn : |n| ≤ 2 ^ (M + 1)) (he : Even n) (hm : m < 2 ^ M)
    (h : Spec.floatValue (K := K) M bias e m = |(n : K)| * 2 ^ t) : Even m := by
  have hev : Even (|n|) := by rcases abs_choice n with h | h <;> rw [h]; exacts [he, he.neg]
  have h2M : Even (2 ^ M : ℕ) := (Nat.even_pow.2 ⟨even_two, hM⟩)
  have key : ∀ (k : ℕ) (s : ℤ), (k : K) * 2 ^ s = |(n : K)| * 2 ^ t → s ≤ t → Even k := by
    intro k s hk hst
    rw [two_zpow_sub_int hst, ← mul_assoc] at hk
    have h1 := mul_right_cancel₀ (two_zpow_pos (K := K) s).ne' hk
    have h2 : (k : ℤ) = |n| * 2 ^ (t - s).toNat := by
      have : ((k : ℤ) : K) = ((|n| * 2 ^ (t - s).toNat : ℤ) : K) := by push_cast; push_cast at h1; exact h1
      exact_mod_cast this
    have h3 : Even (k : ℤ) := by rw [h2]; exact hev.mul_right _
    exact_mod_cast h3
  by_cases h0 : e = 0
  · subst h0
    rw [floatValue_zero] at h
    exact key m _ h ht
  · rw [floatValue_pos h0] at h
    rcases le_or_gt ((e : ℤ) - bias - M) t with hle | hlt
    · have := key (2 ^ M + m) _ (by push_cast; exact h) hle
      rw [Nat.even_add] at this
      exact this.1 h2M
    · have h1 : |(n : K)| ≤ 2 ^ (M + 1) := by exact_mod_cast hn
      have h2 : (2 : K) ^ (t + 1) ≤ 2 ^ ((e : ℤ) - bias - M) := two_zpow_le (by omega)
      have h3 : (2 : K) ^ (t + 1) = 2 * 2 ^ t := by rw [two_zpow_add]; ring
      have h4 : (2 ^ M + m : K) * (2 * 2 ^ t) ≤ 2 ^ (M + 1) * 2 ^ t := by
        refine le_trans (mul_le_mul_of_nonneg_left (h3 ▸ h2) (by positivity)) ?_
        rw [h]; exact mul_le_mul_of_nonneg_right h1 (two_zpow_pos t).le
      have h5 : (2 ^ M + m : K) * 2 ≤ 2 ^ (M + 1) := by
        have := two_zpow_pos (K := K) t
        rw [← mul_assoc] at h4
        exact le_of_mul_le_mul_right h4 this
      have h6 : (m : K) ≤ 0 := by rw [pow_succ] at h5; linarith
      have : m = 0 := by exact_mod_cast le_antisymm h6 (Nat.cast_nonneg m)
      rw [this]; exact Even.zero

/-- Codes are strictly ordered. -/
theorem floatValue_lt {M : ℕ} {bias : ℤ} {e e' m m' : ℕ} (hm : m < 2 ^ M) (h : e < e' ∨ (e = e' ∧ m < m')) : Spec.floatValue (K := K) M bias e m < Spec.floatValue M bias e' m' := by
  have same : ∀ e m m' : ℕ, m < m' → Spec.floatValue (K := K) M bias e m < Spec.floatValue M bias e m' := by
    intro e m m' hlt
    have hK : (m : K) < m' := by exact_mod_cast hlt
    by_cases he : e = 0
    · subst he
      rw [floatValue_zero, floatValue_zero]
      exact mul_lt_mul_of_pos_right hK (two_zpow_pos _)
    · rw [floatValue_pos he, floatValue_pos he]
      exact mul_lt_mul_of_pos_right (by linarith) (two_zpow_pos _)
  rcases h with h | ⟨rfl, h⟩
  · by_cases he : e = 0
    · subst he
      refine lt_of_lt_of_le ?_ (floatValue_le (m := 0) (by positivity) (show 1 < e' ∨ (1 = e' ∧ 0 ≤ m') by omega))
      rw [floatValue_zero, floatValue_pos one_ne_zero]
      have hK : (m : K) < 2 ^ M := by exact_mod_cast hm
      push_cast
      exact mul_lt_mul_of_pos_right (by linarith) (two_zpow_pos _)
    · refine lt_of_lt_of_le (floatValue_lt_of_exp hm) ?_
      have : (2 : K) ^ ((e : ℤ) + 1 - bias) = Spec.floatValue M bias (e + 1) 0 := by
        simp only [Spec.floatValue, Nat.succ_ne_zero, if_false]; push_cast; simp
      rw [this]
      exact floatValue_le (by positivity) (by omega)
  · exact same e m m' h

theorem floatValue_lt_iff {M : ℕ} {bias : ℤ} {e e' m m' : ℕ} (hm : m < 2 ^ M) (hm' : m' < 2 ^ M) :
    Spec.floatValue (K := K) M bias e m < Spec.floatValue M bias e' m' ↔ e < e' ∨ (e = e' ∧ m < m') := by
  refine ⟨fun h => ?_, floatValue_lt hm⟩
  by_contra hc
  exact absurd (floatValue_le (K := K) (bias := bias) hm' (show e' < e ∨ (e' = e ∧ m' ≤ m) by omega)) (not_le.2 h)

end Brevitas
