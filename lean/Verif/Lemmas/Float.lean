import Verif.Model.Float
import Verif.Spec.Minifloat
import Verif.Lemmas.Ops
import Mathlib.Algebra.Order.Field.Power
import Mathlib.Tactic.Zify

set_option linter.unusedSectionVars false

namespace Brevitas

variable {K : Type*} [Field K] [LinearOrder K] [IsStrictOrderedRing K] [FloorRing K]

/-! ### Powers of two -/

theorem two_zpow_pos (k : ℤ) : (0 : K) < 2 ^ k := zpow_pos (by norm_num) k

theorem two_zpow_le {a b : ℤ} (h : a ≤ b) : (2 : K) ^ a ≤ 2 ^ b := zpow_le_zpow_right₀ (by norm_num) h

theorem two_zpow_lt {a b : ℤ} (h : a < b) : (2 : K) ^ a < 2 ^ b := zpow_lt_zpow_right₀ (by norm_num) h

theorem le_of_two_zpow_le {a b : ℤ} (h : (2 : K) ^ a ≤ 2 ^ b) : a ≤ b := by
  by_contra hc; push Not at hc; exact absurd (two_zpow_lt (K := K) hc) (not_lt.mpr h)

theorem lt_of_two_zpow_lt {a b : ℤ} (h : (2 : K) ^ a < 2 ^ b) : a < b := by
  by_contra hc; push Not at hc; exact absurd (two_zpow_le (K := K) hc) (not_le.mpr h)

theorem two_zpow_add (a b : ℤ) : (2 : K) ^ (a + b) = 2 ^ a * 2 ^ b := zpow_add₀ (by norm_num) a b

/-- A power of two with natural exponent difference is an integer multiple. -/
theorem two_zpow_sub_int {a b : ℤ} (h : a ≤ b) : (2 : K) ^ b = ((2 ^ (b - a).toNat : ℤ) : K) * 2 ^ a := by
  have : b = ((b - a).toNat : ℤ) + a := by omega
  conv_lhs => rw [this, two_zpow_add, zpow_natCast]
  push_cast; rfl

theorem two_zpow_nat (n : ℕ) : (2 : K) ^ (n : ℤ) = ((2 ^ n : ℤ) : K) := by
  rw [zpow_natCast]; push_cast; rfl

theorem log_bounds {x : K} (hx : 0 < x) : (2 : K) ^ Int.log 2 x ≤ x ∧ x < 2 ^ (Int.log 2 x + 1) := by
  have h1 := Int.zpow_log_le_self (R := K) (b := 2) (by norm_num) hx
  have h2 := Int.lt_zpow_succ_log_self (R := K) (b := 2) (by norm_num) x
  exact ⟨by exact_mod_cast h1, by exact_mod_cast h2⟩

theorem log_unique {x : K} {L : ℤ} (h1 : (2 : K) ^ L ≤ x) (h2 : x < 2 ^ (L + 1)) : Int.log 2 x = L := by
  have hx : 0 < x := (two_zpow_pos L).trans_le h1
  obtain ⟨a, b⟩ := log_bounds hx
  have := lt_of_two_zpow_lt (a.trans_lt h2)
  have := lt_of_two_zpow_lt (h1.trans_lt b)
  omega

/-! ### Rounding lemmas -/

theorem Faithful.abs_le' {r : K → ℤ} (h : Faithful r) {y : K} {N : ℤ} (hy : |y| ≤ N) : |r y| ≤ N := by
  obtain ⟨h1, h2⟩ := abs_le.mp hy
  have a : -N ≤ ⌊y⌋ := Int.le_floor.mpr (by push_cast; exact h1)
  have b : ⌈y⌉ ≤ N := Int.ceil_le.mpr h2
  exact abs_le.mpr ⟨a.trans (h y).1, (h y).2.trans b⟩

theorem Faithful.le_of_le {r : K → ℤ} (h : Faithful r) {y : K} {N : ℤ} (hy : (N : K) ≤ y) : N ≤ r y :=
  (Int.le_floor.mpr hy).trans (h y).1

theorem Faithful.ge_of_ge {r : K → ℤ} (h : Faithful r) {y : K} {N : ℤ} (hy : y ≤ N) : r y ≤ N :=
  (h y).2.trans (Int.ceil_le.mpr hy)

/-- A rounding function with error at most one half. -/
def HalfErr (r : K → ℤ) : Prop := ∀ y, |(r y : K) - y| ≤ 1 / 2

theorem HalfErr.eq_of_near {r : K → ℤ} (h : HalfErr r) {y : K} {N : ℤ} (hN : |(N : K) - y| < 1 / 2) : r y = N := by
  by_contra hne
  have h1 : (1 : K) ≤ |(r y : K) - N| := by
    have : (1 : ℤ) ≤ |r y - N| := Int.one_le_abs (sub_ne_zero.mpr hne)
    exact_mod_cast this
  have h2 : |(r y : K) - N| ≤ |(r y : K) - y| + |y - N| := abs_sub_le _ _ _
  have h3 := h y
  rw [abs_sub_comm y] at h2
  linarith

/-! ### The quantiser at a given exponent -/

/-- Rounding to a multiple of `2 ^ t`. -/
def qAt (f : K → ℤ) (t : ℤ) (x : K) : K := 2 ^ t * (f (x / 2 ^ t) : ℤ)

/-- The exponent without epsilon. -/
def exp0 (M : ℕ) (mn : ℤ) (x : K) : ℤ := if x = 0 then mn else max (Int.log 2 |x| - M) mn

/-- Numbers with at most `M + 1` significant bits and least exponent at least `mn` (upper bound on the exponent left out;
`2 ^ (M + 1)` is included for convenience). -/
def OnG (M : ℕ) (mn : ℤ) (v : K) : Prop := ∃ n k : ℤ, |n| ≤ 2 ^ (M + 1) ∧ mn ≤ k ∧ v = n * 2 ^ k

theorem exp0_ge (M : ℕ) (mn : ℤ) (x : K) : mn ≤ exp0 M mn x := by
  unfold exp0; split_ifs <;> simp

theorem abs_lt_exp0 (M : ℕ) (mn : ℤ) (x : K) : |x| < 2 ^ (exp0 M mn x + M + 1) := by
  by_cases hx : x = 0
  · subst hx; rw [abs_zero]; exact two_zpow_pos _
  · have h := (log_bounds (abs_pos.mpr hx)).2
    refine h.trans_le (two_zpow_le ?_)
    simp only [exp0, if_neg hx]
    omega

theorem exp0_le_abs {M : ℕ} {mn : ℤ} {x : K} (h : mn < exp0 M mn x) : (2 : K) ^ (exp0 M mn x + M) ≤ |x| := by
  by_cases hx : x = 0
  · simp [exp0, hx] at h
  · simp only [exp0, if_neg hx] at h ⊢
    refine (two_zpow_le ?_).trans (log_bounds (abs_pos.mpr hx)).1
    omega

theorem exp0_neg (M : ℕ) (mn : ℤ) (x : K) : exp0 M mn (-x) = exp0 M mn x := by
  simp [exp0, abs_neg]

theorem exp0_mono {M : ℕ} {mn : ℤ} {x y : K} (h : |x| ≤ |y|) : exp0 M mn x ≤ exp0 M mn y := by
  by_contra hc
  push Not at hc
  have h1 := exp0_le_abs ((exp0_ge M mn y).trans_lt hc)
  have h2 := abs_lt_exp0 M mn y
  have h3 := lt_of_two_zpow_lt ((h1.trans h).trans_lt h2)
  omega

theorem abs_scaled_le {t : ℤ} {M : ℕ} {x : K} (h : |x| ≤ 2 ^ (t + M + 1)) : |x / 2 ^ t| ≤ ((2 ^ (M + 1) : ℤ) : K) := by
  rw [abs_div, abs_of_pos (two_zpow_pos (K := K) t), div_le_iff₀ (two_zpow_pos t)]
  refine h.trans (le_of_eq ?_)
  rw [← two_zpow_nat, ← two_zpow_add]; congr 1; push_cast; ring

theorem le_abs_scaled {t : ℤ} {M : ℕ} {x : K} (h : 2 ^ (t + M) ≤ |x|) : ((2 ^ M : ℤ) : K) ≤ |x / 2 ^ t| := by
  rw [abs_div, abs_of_pos (two_zpow_pos (K := K) t), le_div_iff₀ (two_zpow_pos t)]
  refine le_trans (le_of_eq ?_) h
  rw [← two_zpow_nat, ← two_zpow_add]; congr 1; ring

theorem qAt_onG {f : K → ℤ} (hf : Faithful f) {M : ℕ} {mn t : ℤ} (ht : mn ≤ t) {x : K}
    (h : |x| ≤ 2 ^ (t + M + 1)) : OnG M mn (qAt f t x) :=
  ⟨f (x / 2 ^ t), t, hf.abs_le' (abs_scaled_le h), ht, by rw [qAt, mul_comm]⟩

theorem qAt_nonneg {f : K → ℤ} (hf : Faithful f) (t : ℤ) {x : K} (h : 0 ≤ x) : 0 ≤ qAt f t x := by
  have : 0 ≤ f (x / 2 ^ t) := hf.le_of_le (by simpa using div_nonneg h (two_zpow_pos t).le)
  exact mul_nonneg (two_zpow_pos t).le (by exact_mod_cast this)

theorem qAt_nonpos {f : K → ℤ} (hf : Faithful f) (t : ℤ) {x : K} (h : x ≤ 0) : qAt f t x ≤ 0 := by
  have : f (x / 2 ^ t) ≤ 0 := hf.ge_of_ge (by simpa using div_nonpos_of_nonpos_of_nonneg h (two_zpow_pos t).le)
  exact mul_nonpos_of_nonneg_of_nonpos (two_zpow_pos t).le (by exact_mod_cast this)

theorem qAt_mono {f : K → ℤ} (hm : Monotone f) (t : ℤ) {x y : K} (h : x ≤ y) : qAt f t x ≤ qAt f t y := by
  apply mul_le_mul_of_nonneg_left _ (two_zpow_pos t).le
  have := hm (div_le_div_of_nonneg_right h (two_zpow_pos (K := K) t).le)
  exact_mod_cast this

theorem qAt_abs_le {f : K → ℤ} (hf : Faithful f) {M : ℕ} {t : ℤ} {x : K} (h : |x| ≤ 2 ^ (t + M + 1)) :
    |qAt f t x| ≤ 2 ^ (t + M + 1) := by
  have h1 := hf.abs_le' (abs_scaled_le h)
  have h2 : |((f (x / 2 ^ t) : ℤ) : K)| ≤ ((2 ^ (M + 1) : ℤ) : K) := by exact_mod_cast h1
  rw [qAt, abs_mul, abs_of_pos (two_zpow_pos (K := K) t)]
  refine (mul_le_mul_of_nonneg_left h2 (two_zpow_pos t).le).trans (le_of_eq ?_)
  rw [← two_zpow_nat, ← two_zpow_add]; congr 1; push_cast; ring

theorem qAt_ge {f : K → ℤ} (hf : Faithful f) {M : ℕ} {t : ℤ} {x : K} (hx : 0 ≤ x) (h : 2 ^ (t + M) ≤ x) :
    2 ^ (t + M) ≤ qAt f t x := by
  have h1 := le_abs_scaled (t := t) (M := M) (x := x) (by rwa [abs_of_nonneg hx])
  rw [abs_of_nonneg (div_nonneg hx (two_zpow_pos t).le)] at h1
  have h2 : ((2 ^ M : ℤ) : K) ≤ (f (x / 2 ^ t) : ℤ) := by exact_mod_cast hf.le_of_le h1
  rw [qAt]
  refine le_trans (le_of_eq ?_) (mul_le_mul_of_nonneg_left h2 (two_zpow_pos t).le)
  rw [← two_zpow_nat, ← two_zpow_add]

theorem qAt_le {f : K → ℤ} (hf : Faithful f) {M : ℕ} {t : ℤ} {x : K} (h : x ≤ -2 ^ (t + M)) :
    qAt f t x ≤ -2 ^ (t + M) := by
  have h1 : x / 2 ^ t ≤ ((-(2 ^ M) : ℤ) : K) := by
    rw [div_le_iff₀ (two_zpow_pos t)]
    refine h.trans (le_of_eq ?_)
    rw [two_zpow_add, two_zpow_nat]; push_cast; ring
  have h2 : ((f (x / 2 ^ t) : ℤ) : K) ≤ ((-(2 ^ M) : ℤ) : K) := by exact_mod_cast hf.ge_of_ge h1
  rw [qAt]
  refine (mul_le_mul_of_nonneg_left h2 (two_zpow_pos t).le).trans (le_of_eq ?_)
  rw [two_zpow_add, two_zpow_nat]; push_cast; ring

/-- The quantiser without epsilon. -/
def q0 (f : K → ℤ) (M : ℕ) (mn : ℤ) (x : K) : K := qAt f (exp0 M mn x) x

theorem q0_onG {f : K → ℤ} (hf : Faithful f) (M : ℕ) (mn : ℤ) (x : K) : OnG M mn (q0 f M mn x) :=
  qAt_onG hf (exp0_ge M mn x) (abs_lt_exp0 M mn x).le

theorem q0_mono {f : K → ℤ} (hf : Faithful f) (hm : Monotone f) (M : ℕ) (mn : ℤ) : Monotone (q0 f M mn) := by
  intro x y hxy
  unfold q0
  rcases le_or_gt 0 x with hx | hx
  · have hy : 0 ≤ y := hx.trans hxy
    have he := exp0_mono (M := M) (mn := mn) (x := x) (y := y) (by rwa [abs_of_nonneg hx, abs_of_nonneg hy])
    rcases he.lt_or_eq with hlt | heq
    · have h1 := qAt_abs_le hf (abs_lt_exp0 M mn x).le
      have h2 := exp0_le_abs (x := y) ((exp0_ge M mn x).trans_lt hlt)
      rw [abs_of_nonneg hy] at h2
      have h3 := qAt_ge hf hy h2
      refine (le_abs_self _).trans (h1.trans (le_trans (two_zpow_le ?_) h3))
      omega
    · rw [heq]; exact qAt_mono hm _ hxy
  · rcases le_or_gt 0 y with hy | hy
    · exact (qAt_nonpos hf _ hx.le).trans (qAt_nonneg hf _ hy)
    · have he := exp0_mono (M := M) (mn := mn) (x := y) (y := x) (by rw [abs_of_neg hx, abs_of_neg hy]; linarith)
      rcases he.lt_or_eq with hlt | heq
      · have h1 := qAt_abs_le hf (abs_lt_exp0 M mn y).le
        have h2 := exp0_le_abs (x := x) ((exp0_ge M mn y).trans_lt hlt)
        rw [abs_of_neg hx] at h2
        have h3 := qAt_le hf (by linarith : x ≤ -2 ^ (exp0 M mn x + M))
        have h4 : (2 : K) ^ (exp0 M mn y + M + 1) ≤ 2 ^ (exp0 M mn x + M) := two_zpow_le (by omega)
        have h5 := neg_abs_le (qAt f (exp0 M mn y) y)
        linarith
      · rw [heq]; exact qAt_mono hm _ hxy

/-- A number of the grid is an integer multiple of its own internal scale. -/
theorem onG_multiple {M : ℕ} {mn : ℤ} {v : K} (h : OnG M mn v) : ∃ j : ℤ, v = j * 2 ^ exp0 M mn v := by
  obtain ⟨n, k, hn, hk, rfl⟩ := h
  set v : K := n * 2 ^ k with hv
  set t := exp0 M mn v with ht
  rcases le_or_gt t k with hle | hlt
  · refine ⟨n * 2 ^ (k - t).toNat, ?_⟩
    rw [hv, two_zpow_sub_int hle]; push_cast; ring
  · have h1 := exp0_le_abs (hk.trans_lt hlt)
    have hn' : |(n : K)| ≤ ((2 ^ (M + 1) : ℤ) : K) := by exact_mod_cast hn
    have h2 : |v| ≤ 2 ^ (k + M + 1) := by
      rw [hv, abs_mul, abs_of_pos (two_zpow_pos (K := K) k)]
      refine (mul_le_mul_of_nonneg_right hn' (two_zpow_pos k).le).trans (le_of_eq ?_)
      rw [← two_zpow_nat, ← two_zpow_add]; congr 1; push_cast; ring
    have h3 := le_of_two_zpow_le (h1.trans h2)
    rw [← ht] at h3
    have htk : t = k + 1 := by omega
    rw [← ht, htk] at h1
    have h4 : |v| = 2 ^ (k + 1 + M) := le_antisymm (by convert h2 using 2; ring) h1
    rcases abs_eq (two_zpow_pos (K := K) _).le |>.mp h4 with h5 | h5
    · refine ⟨2 ^ M, ?_⟩
      rw [h5, htk, ← two_zpow_nat, ← two_zpow_add]; congr 1; ring
    · refine ⟨-2 ^ M, ?_⟩
      rw [h5, htk, Int.cast_neg, ← two_zpow_nat, neg_mul, ← two_zpow_add]; congr 2; ring

theorem qAt_fix {f : K → ℤ} (hf : Faithful f) {t j : ℤ} {v : K} (h : v = j * 2 ^ t) : qAt f t v = v := by
  have : v / 2 ^ t = (j : K) := by rw [h]; field_simp
  rw [qAt, this, hf.int, h, mul_comm]

theorem q0_fix {f : K → ℤ} (hf : Faithful f) {M : ℕ} {mn : ℤ} {v : K} (h : OnG M mn v) : q0 f M mn v = v := by
  obtain ⟨j, hj⟩ := onG_multiple h
  exact qAt_fix hf hj

/-- Nearest element of the grid. -/
theorem q0_closest {f : K → ℤ} (hh : HalfErr f) (M : ℕ) (mn : ℤ) (x g : K) (hg : OnG M mn g) :
    |x - q0 f M mn x| ≤ |x - g| := by
  set t := exp0 M mn x with ht
  -- multiples of the internal scale
  have key : ∀ j : ℤ, |x - q0 f M mn x| ≤ |x - j * 2 ^ t| := by
    intro j
    have h1 := isNearestInt_of_err (hh (x / 2 ^ t)) j
    have e : ∀ a : K, |x - a * 2 ^ t| = |x / 2 ^ t - a| * 2 ^ t := by
      intro a
      have h2 : (2 : K) ^ t ≠ 0 := (two_zpow_pos t).ne'
      rw [← abs_of_pos (two_zpow_pos (K := K) t), ← abs_mul, abs_of_pos (two_zpow_pos (K := K) t)]
      congr 1; field_simp
    have h3 : q0 f M mn x = (f (x / 2 ^ t) : ℤ) * 2 ^ t := by rw [q0, qAt, ← ht, mul_comm]
    rw [h3, e, e]
    exact mul_le_mul_of_nonneg_right h1 (two_zpow_pos t).le
  obtain ⟨n, k, hn, hk, rfl⟩ := hg
  rcases le_or_gt t k with hle | hlt
  · have := key (n * 2 ^ (k - t).toNat)
    rw [two_zpow_sub_int hle]
    push_cast at this ⊢
    rwa [mul_assoc] at this
  · have h1 := exp0_le_abs (hk.trans_lt hlt)
    rw [← ht] at h1
    have hn' : |(n : K)| ≤ ((2 ^ (M + 1) : ℤ) : K) := by exact_mod_cast hn
    have h2 : |(n : K) * 2 ^ k| ≤ 2 ^ (t + M) := by
      rw [abs_mul, abs_of_pos (two_zpow_pos (K := K) k)]
      refine (mul_le_mul_of_nonneg_right hn' (two_zpow_pos k).le).trans ?_
      rw [← two_zpow_nat, ← two_zpow_add]
      apply two_zpow_le; push_cast; omega
    have e : (2 : K) ^ (t + M) = ((2 ^ M : ℤ) : K) * 2 ^ t := by rw [two_zpow_add, two_zpow_nat]; ring
    obtain ⟨g1, g2⟩ := abs_le.mp h2
    rcases le_or_gt 0 x with hx | hx
    · rw [abs_of_nonneg hx] at h1
      refine (key (2 ^ M)).trans ?_
      rw [← e, abs_of_nonneg (by linarith), abs_of_nonneg (by linarith)]
      linarith
    · rw [abs_of_neg hx] at h1
      refine (key (-2 ^ M)).trans ?_
      rw [Int.cast_neg, neg_mul, ← e, abs_of_nonpos (by linarith), abs_of_nonpos (by linarith)]
      linarith

/-! ### The epsilon is irrelevant -/

theorem internalExponent_ge (M : ℕ) (mn : ℤ) (eps x : K) : mn ≤ internalExponent M mn eps x := le_max_right _ _

theorem abs_le_internalExponent (M : ℕ) (mn : ℤ) {eps : K} (he : 0 < eps) (x : K) :
    |x| ≤ 2 ^ (internalExponent M mn eps x + M + 1) := by
  have hp : 0 < |x| + eps := by have := abs_nonneg x; linarith
  have h := (log_bounds hp).2
  have : |x| ≤ 2 ^ (Int.log 2 (|x| + eps) + 1) := by linarith
  refine this.trans (two_zpow_le ?_)
  simp only [internalExponent]; omega

/-- If the exponent with epsilon differs from the one without, `x` is within epsilon below the next power of two. -/
theorem internalExponent_cases (M : ℕ) (mn : ℤ) {eps : K} (he : 0 < eps) (hsmall : eps < 2 ^ (mn - 1)) (x : K) :
    internalExponent M mn eps x = exp0 M mn x ∨
    (mn ≤ exp0 M mn x ∧ internalExponent M mn eps x = exp0 M mn x + 1 ∧
      (2 : K) ^ (exp0 M mn x + 1 + M) - eps ≤ |x| ∧ |x| < 2 ^ (exp0 M mn x + 1 + M)) := by
  have hp : 0 < |x| + eps := by have := abs_nonneg x; linarith
  obtain ⟨l1, l2⟩ := log_bounds hp
  set L := Int.log 2 (|x| + eps) with hL
  have hie : internalExponent M mn eps x = max (L - M) mn := rfl
  by_cases hx : x = 0
  · left
    have h0 : exp0 M mn x = mn := by simp [exp0, hx]
    rw [hie, h0]
    rw [hx, abs_zero, zero_add] at l1
    have := lt_of_two_zpow_lt (l1.trans_lt hsmall)
    omega
  · obtain ⟨m1, m2⟩ := log_bounds (abs_pos.mpr hx)
    set L0 := Int.log 2 |x| with hL0
    have h0 : exp0 M mn x = max (L0 - M) mn := by simp [exp0, hx, hL0]
    have hle : L0 ≤ L := by
      have := lt_of_two_zpow_lt (m1.trans_lt (by linarith : |x| < 2 ^ (L + 1))); omega
    by_cases heq : max (L - M) mn = max (L0 - M) mn
    · left; rw [hie, h0, heq]
    · right
      have hLmn : mn + 1 ≤ L - M := by omega
      have hlt : L0 < L := by omega
      have hx1 : |x| < 2 ^ L := m2.trans_le (two_zpow_le (by omega))
      have hx2 : (2 : K) ^ L - eps ≤ |x| := by linarith
      have hpow : (2 : K) ^ (mn - 1) ≤ 2 ^ (L - 1) := two_zpow_le (by omega)
      have h2L : (2 : K) ^ L = 2 * 2 ^ (L - 1) := by
        have : L = 1 + (L - 1) := by ring
        conv_lhs => rw [this, two_zpow_add]
        norm_num
      have hge : L - 1 ≤ L0 := by
        have := lt_of_two_zpow_lt ((by linarith : (2 : K) ^ (L - 1) ≤ |x|).trans_lt m2)
        omega
      have hE : max (L0 - M) mn = L - 1 - M := by omega
      rw [hie, h0, hE]
      have e1 : L - 1 - (M : ℤ) + 1 + M = L := by ring
      rw [e1]
      exact ⟨by omega, by omega, hx2, hx1⟩

theorem eps_irrelevant {f : K → ℤ} (hh : HalfErr f) (M : ℕ) (mn : ℤ) {eps : K} (he : 0 < eps)
    (hsmall : eps < 2 ^ (mn - 1)) (x : K) : qAt f (internalExponent M mn eps x) x = q0 f M mn x := by
  rcases internalExponent_cases M mn he hsmall x with h | ⟨h1, h2, h3, h4⟩
  · rw [h, q0]
  · rw [h2, q0]
    set t := exp0 M mn x with ht
    -- both round to the power of two
    have hpow : (2 : K) ^ (t + 1 + M) = ((2 ^ M : ℤ) : K) * 2 ^ (t + 1) := by rw [two_zpow_add, two_zpow_nat]; ring
    have hpow' : (2 : K) ^ (t + 1 + M) = ((2 ^ (M + 1) : ℤ) : K) * 2 ^ t := by
      rw [← two_zpow_nat, ← two_zpow_add]; congr 1; push_cast; ring
    have e1 : eps < 2 ^ (t + 1) * (1 / 2) := by
      have : (2 : K) ^ (mn - 1) ≤ 2 ^ t := two_zpow_le (by omega)
      have e : (2 : K) ^ (t + 1) = 2 ^ t * 2 := by rw [two_zpow_add]; norm_num
      rw [e]; linarith
    have e2 : eps < 2 ^ t * (1 / 2) := by
      have : (2 : K) ^ (mn - 1) ≤ 2 ^ (t - 1) := two_zpow_le (by omega)
      have e : (2 : K) ^ t = 2 ^ (t - 1) * 2 := by
        rw [← zpow_add_one₀ (by norm_num : (2 : K) ≠ 0)]; congr 1; ring
      rw [e]; linarith
    have near : ∀ (s : ℤ) (N : ℤ), (2 : K) ^ (t + 1 + M) = (N : K) * 2 ^ s → eps < 2 ^ s * (1 / 2) →
        qAt f s x = if 0 ≤ x then 2 ^ (t + 1 + M) else -2 ^ (t + 1 + M) := by
      intro s N hN hs
      have sp := two_zpow_pos (K := K) s
      rcases le_or_gt 0 x with hx | hx
      · rw [if_pos hx, hN]
        rw [abs_of_nonneg hx, hN] at h3 h4
        have : f (x / 2 ^ s) = N := by
          apply hh.eq_of_near
          rw [abs_of_nonneg (by rw [sub_nonneg, div_le_iff₀ sp]; exact h4.le)]
          have : (N : K) - x / 2 ^ s = (N * 2 ^ s - x) / 2 ^ s := by field_simp
          rw [this, div_lt_iff₀ sp]; linarith
        rw [qAt, this, mul_comm]
      · rw [if_neg (not_le.mpr hx), hN]
        rw [abs_of_neg hx, hN] at h3 h4
        have : f (x / 2 ^ s) = -N := by
          apply hh.eq_of_near
          have e : ((-N : ℤ) : K) - x / 2 ^ s = -((N * 2 ^ s + x) / 2 ^ s) := by
            push_cast; field_simp; ring
          rw [e, abs_neg, abs_of_nonneg (div_nonneg (by linarith) sp.le), div_lt_iff₀ sp]; linarith
        rw [qAt, this, Int.cast_neg]; ring
    rw [near (t + 1) (2 ^ M) hpow e1, near t (2 ^ (M + 1)) hpow' e2]

/-- On grid values the epsilon changes nothing, for any faithful rounding. -/
theorem eps_fix {f : K → ℤ} (hf : Faithful f) (M : ℕ) (mn : ℤ) {eps : K} (he : 0 < eps) (hsmall : eps < 2 ^ (mn - 1))
    {v : K} (hv : OnG M mn v) : qAt f (internalExponent M mn eps v) v = v := by
  rcases internalExponent_cases M mn he hsmall v with h | ⟨h1, h2, h3, h4⟩
  · rw [h]; exact q0_fix hf hv
  · exfalso
    obtain ⟨j, hj⟩ := onG_multiple hv
    set t := exp0 M mn v with ht
    have hpow' : (2 : K) ^ (t + 1 + M) = ((2 ^ (M + 1) : ℤ) : K) * 2 ^ t := by
      rw [← two_zpow_nat, ← two_zpow_add]; congr 1; push_cast; ring
    have tp := two_zpow_pos (K := K) t
    have hav : |v| = (|j| : ℤ) * 2 ^ t := by rw [hj, abs_mul, abs_of_pos tp, Int.cast_abs]
    have h5 : (|j| : ℤ) < 2 ^ (M + 1) := by
      rw [hav, hpow'] at h4
      exact_mod_cast lt_of_mul_lt_mul_right h4 tp.le
    have h6 : ((|j| : ℤ) : K) + 1 ≤ ((2 ^ (M + 1) : ℤ) : K) := by exact_mod_cast h5
    have h7 : (2 : K) ^ (mn - 1) < 2 ^ t := two_zpow_lt (by omega)
    rw [hav, hpow'] at h3
    have := mul_le_mul_of_nonneg_right h6 tp.le
    rw [add_mul, one_mul] at this
    linarith

end Brevitas
