import Verif.Lemmas.Float

set_option linter.unusedSectionVars false

namespace Brevitas

variable {K : Type*} [Field K] [LinearOrder K] [IsStrictOrderedRing K] [FloorRing K]

/-! ### Codes and the significand grid -/

theorem floatValue_zero (M : ℕ) (bias : ℤ) (m : ℕ) :
    Spec.floatValue (K := K) M bias 0 m = (m : K) * 2 ^ (1 - bias - M) := by
  simp only [Spec.floatValue, if_true]
  rw [zpow_sub₀ (by norm_num : (2 : K) ≠ 0) (1 - bias), zpow_natCast]
  field_simp

theorem floatValue_pos {M : ℕ} {bias : ℤ} {e : ℕ} (he : e ≠ 0) (m : ℕ) :
    Spec.floatValue (K := K) M bias e m = (2 ^ M + m : K) * 2 ^ ((e : ℤ) - bias - M) := by
  simp only [Spec.floatValue, if_neg he]
  rw [zpow_sub₀ (by norm_num : (2 : K) ≠ 0) ((e : ℤ) - bias), zpow_natCast]
  field_simp

theorem floatValue_nonneg (M : ℕ) (bias : ℤ) (e m : ℕ) : (0 : K) ≤ Spec.floatValue M bias e m := by
  unfold Spec.floatValue
  split_ifs <;> positivity

/-- The values are ordered like the codes. -/
theorem floatValue_le {M : ℕ} {bias : ℤ} {e e' m m' : ℕ} (hm : m < 2 ^ M)
    (h : e < e' ∨ (e = e' ∧ m ≤ m')) : Spec.floatValue (K := K) M bias e m ≤ Spec.floatValue M bias e' m' := by
  have hmK : (m : K) + 1 ≤ 2 ^ M := by exact_mod_cast hm
  have hm' : (0 : K) ≤ m' := Nat.cast_nonneg _
  rcases h with h | ⟨rfl, h⟩
  · have he' : e' ≠ 0 := by omega
    rw [floatValue_pos he']
    have p : (0 : K) ≤ 2 ^ ((e' : ℤ) - bias - M) := (two_zpow_pos _).le
    by_cases he : e = 0
    · subst he
      rw [floatValue_zero]
      have p' : (0 : K) ≤ 2 ^ (1 - bias - (M : ℤ)) := (two_zpow_pos _).le
      have h1 : (2 : K) ^ (1 - bias - (M : ℤ)) ≤ 2 ^ ((e' : ℤ) - bias - M) := two_zpow_le (by omega)
      calc (m : K) * 2 ^ (1 - bias - (M : ℤ)) ≤ 2 ^ M * 2 ^ (1 - bias - (M : ℤ)) :=
            mul_le_mul_of_nonneg_right (by linarith) p'
        _ ≤ 2 ^ M * 2 ^ ((e' : ℤ) - bias - M) := mul_le_mul_of_nonneg_left h1 (by positivity)
        _ ≤ _ := mul_le_mul_of_nonneg_right (by linarith) p
    · rw [floatValue_pos he]
      have p' : (0 : K) ≤ 2 ^ ((e : ℤ) - bias - M) := (two_zpow_pos _).le
      have h1 : (2 : K) * 2 ^ ((e : ℤ) - bias - M) ≤ 2 ^ ((e' : ℤ) - bias - M) := by
        have : (2 : K) * 2 ^ ((e : ℤ) - bias - M) = 2 ^ ((e : ℤ) - bias - M + 1) := by
          rw [zpow_add_one₀ (by norm_num : (2 : K) ≠ 0), mul_comm]
        rw [this]; exact two_zpow_le (by omega)
      calc (2 ^ M + m : K) * 2 ^ ((e : ℤ) - bias - M) ≤ (2 ^ M * 2) * 2 ^ ((e : ℤ) - bias - M) :=
            mul_le_mul_of_nonneg_right (by linarith) p'
        _ = 2 ^ M * (2 * 2 ^ ((e : ℤ) - bias - M)) := by ring
        _ ≤ 2 ^ M * 2 ^ ((e' : ℤ) - bias - M) := mul_le_mul_of_nonneg_left h1 (by positivity)
        _ ≤ _ := mul_le_mul_of_nonneg_right (by linarith) p
  · have hK : (m : K) ≤ m' := by exact_mod_cast h
    by_cases he : e = 0
    · subst he
      rw [floatValue_zero, floatValue_zero]
      exact mul_le_mul_of_nonneg_right hK (two_zpow_pos _).le
    · rw [floatValue_pos he, floatValue_pos he]
      exact mul_le_mul_of_nonneg_right (by linarith) (two_zpow_pos _).le

theorem floatValue_lt_of_exp {M : ℕ} {bias : ℤ} {e m : ℕ} (hm : m < 2 ^ M) :
    Spec.floatValue (K := K) M bias e m < 2 ^ ((e : ℤ) + 1 - bias) := by
  have hmK : (m : K) + 1 ≤ 2 ^ M := by exact_mod_cast hm
  by_cases he : e = 0
  · subst he
    rw [floatValue_zero]
    have e1 : (2 : K) ^ (((0 : ℕ) : ℤ) + 1 - bias) = 2 ^ M * 2 ^ (1 - bias - (M : ℤ)) := by
      rw [← zpow_natCast, ← two_zpow_add]; congr 1; push_cast; ring
    rw [e1]
    exact mul_lt_mul_of_pos_right (by linarith) (two_zpow_pos _)
  · rw [floatValue_pos he]
    have e1 : (2 : K) ^ ((e : ℤ) + 1 - bias) = (2 ^ M * 2) * 2 ^ ((e : ℤ) - bias - M) := by
      rw [← zpow_natCast, ← zpow_add_one₀ (by norm_num : (2 : K) ≠ 0), ← two_zpow_add]; congr 1; push_cast; ring
    rw [e1]
    exact mul_lt_mul_of_pos_right (by linarith) (two_zpow_pos _)

theorem le_floatMax {E M : ℕ} {bias : ℤ} {e m : ℕ} (he : e < 2 ^ E) (hm : m < 2 ^ M) :
    Spec.floatValue (K := K) M bias e m ≤ Spec.floatMax E M bias := by
  apply floatValue_le hm
  omega

theorem floatMax_rep (E M : ℕ) (bias : ℤ) (signed : Bool) :
    Spec.Representable E M bias signed (Spec.floatMax (K := K) E M bias) :=
  ⟨2 ^ E - 1, 2 ^ M - 1, by have := Nat.two_pow_pos E; omega, by have := Nat.two_pow_pos M; omega, Or.inl rfl⟩

theorem floatMax_nonneg (E M : ℕ) (bias : ℤ) : (0 : K) ≤ Spec.floatMax E M bias := floatValue_nonneg _ _ _ _

theorem Rep.abs_le_max {E M : ℕ} {bias : ℤ} {signed : Bool} {v : K} (h : Spec.Representable E M bias signed v) :
    |v| ≤ Spec.floatMax E M bias := by
  obtain ⟨e, m, he, hm, h⟩ := h
  have : |v| = Spec.floatValue M bias e m := by
    rcases h with rfl | ⟨-, rfl⟩
    · exact abs_of_nonneg (floatValue_nonneg _ _ _ _)
    · rw [abs_neg]; exact abs_of_nonneg (floatValue_nonneg _ _ _ _)
  rw [this]; exact le_floatMax he hm

theorem Rep.neg {E M : ℕ} {bias : ℤ} {signed : Bool} {v : K} (h : Spec.Representable E M bias signed v) (hs : signed = true) :
    Spec.Representable E M bias signed (-v) := by
  obtain ⟨e, m, he, hm, h⟩ := h
  refine ⟨e, m, he, hm, ?_⟩
  rcases h with rfl | ⟨h, rfl⟩
  · exact Or.inr ⟨hs, rfl⟩
  · left; simp

theorem Rep.zero (E M : ℕ) (bias : ℤ) (signed : Bool) : Spec.Representable E M bias signed (0 : K) :=
  ⟨0, 0, Nat.two_pow_pos E, Nat.two_pow_pos M, Or.inl (by simp [floatValue_zero])⟩

theorem OnG.neg {M : ℕ} {mn : ℤ} {v : K} (h : OnG M mn v) : OnG M mn (-v) := by
  obtain ⟨n, k, h1, h2, rfl⟩ := h
  exact ⟨-n, k, by rwa [abs_neg], h2, by push_cast; ring⟩

theorem Rep.onG {E M : ℕ} {bias : ℤ} {signed : Bool} {v : K} (h : Spec.Representable E M bias signed v) :
    OnG M (1 - bias - M) v := by
  obtain ⟨e, m, he, hm, h⟩ := h
  have key : OnG M (1 - bias - M) (Spec.floatValue (K := K) M bias e m) := by
    have hm' : (m : ℤ) < 2 ^ M := by exact_mod_cast hm
    have hp : (2 : ℤ) ^ (M + 1) = 2 * 2 ^ M := by rw [pow_succ']
    by_cases h0 : e = 0
    · subst h0
      refine ⟨m, 1 - bias - M, ?_, le_refl _, by rw [floatValue_zero]; push_cast; rfl⟩
      rw [abs_of_nonneg (by positivity)]; omega
    · refine ⟨2 ^ M + m, (e : ℤ) - bias - M, ?_, by omega, by rw [floatValue_pos h0]; push_cast; rfl⟩
      rw [abs_of_nonneg (by positivity)]; omega
  rcases h with rfl | ⟨-, rfl⟩
  · exact key
  · exact key.neg

theorem onG_rep {E M : ℕ} {bias : ℤ} {signed : Bool} {v : K} (hg : OnG M (1 - bias - M) v)
    (hmax : |v| ≤ Spec.floatMax E M bias) (hs : v < 0 → signed = true) : Spec.Representable E M bias signed v := by
  have habs : ∃ e m : ℕ, e < 2 ^ E ∧ m < 2 ^ M ∧ |v| = Spec.floatValue M bias e m := by
    obtain ⟨j, hj⟩ := onG_multiple hg
    set mn : ℤ := 1 - bias - M with hmn
    set t := exp0 M mn v with ht
    have tp := two_zpow_pos (K := K) t
    have hav : |v| = (|j| : ℤ) * 2 ^ t := by rw [hj, abs_mul, abs_of_pos tp, Int.cast_abs]
    have h1 := abs_lt_exp0 M mn v
    rw [← ht, hav, show t + (M : ℤ) + 1 = ((M + 1 : ℕ) : ℤ) + t by push_cast; ring, two_zpow_add, two_zpow_nat] at h1
    have hj1 : |j| < 2 ^ (M + 1) := by exact_mod_cast lt_of_mul_lt_mul_right h1 tp.le
    have htm : mn ≤ t := exp0_ge M mn v
    rcases lt_or_ge |j| (2 ^ M) with hlt | hge
    · -- subnormal
      have hteq : t = mn := by
        by_contra hne
        have hgt : mn < t := lt_of_le_of_ne htm (Ne.symm hne)
        have h2 := exp0_le_abs hgt
        rw [← ht, hav, add_comm, two_zpow_add, two_zpow_nat] at h2
        have : (2 : ℤ) ^ M ≤ |j| := by exact_mod_cast le_of_mul_le_mul_right h2 tp
        omega
      refine ⟨0, |j|.toNat, Nat.two_pow_pos E, by zify; rw [Int.toNat_of_nonneg (abs_nonneg j)]; exact_mod_cast hlt, ?_⟩
      rw [floatValue_zero, hav, hteq]
      congr 1
      have : ((|j|.toNat : ℕ) : ℤ) = |j| := Int.toNat_of_nonneg (abs_nonneg j)
      have h3 : (((|j|.toNat : ℕ) : ℤ) : K) = ((|j| : ℤ) : K) := by rw [this]
      rw [← h3]; push_cast; rfl
    · -- normal
      set e := (t - mn + 1).toNat with hedef
      have he : (e : ℤ) = t - mn + 1 := Int.toNat_of_nonneg (by omega)
      have he0 : e ≠ 0 := by omega
      have hm : ((|j| - 2 ^ M).toNat : ℤ) = |j| - 2 ^ M := Int.toNat_of_nonneg (by omega)
      refine ⟨e, (|j| - 2 ^ M).toNat, ?_, ?_, ?_⟩
      · have h2 : (2 : K) ^ (t + M) ≤ |v| := by
          rw [hav, add_comm, two_zpow_add, two_zpow_nat]
          exact mul_le_mul_of_nonneg_right (by exact_mod_cast hge) tp.le
        have h3 : Spec.floatMax (K := K) E M bias < 2 ^ (((2 ^ E - 1 : ℕ) : ℤ) + 1 - bias) :=
          floatValue_lt_of_exp (by have := Nat.two_pow_pos M; omega)
        have h4 := lt_of_two_zpow_lt ((h2.trans hmax).trans_lt h3)
        have h5 := Nat.two_pow_pos E
        zify [h5] at h4 ⊢
        omega
      · zify; rw [hm]
        have : (2 : ℤ) ^ (M + 1) = 2 * 2 ^ M := by rw [pow_succ']
        omega
      · rw [floatValue_pos he0, hav]
        have h3 : (((|j| - 2 ^ M).toNat : ℕ) : K) = ((|j| : ℤ) : K) - 2 ^ M := by
          have : ((((|j| - 2 ^ M).toNat : ℕ) : ℤ) : K) = ((|j| - 2 ^ M : ℤ) : K) := by rw [hm]
          push_cast at this ⊢; exact this
        rw [h3, he]
        congr 2
        · ring
        · rw [hmn]; ring
  obtain ⟨e, m, he, hm, h⟩ := habs
  refine ⟨e, m, he, hm, ?_⟩
  rcases le_or_gt 0 v with h0 | h0
  · left; rw [← h, abs_of_nonneg h0]
  · right; exact ⟨hs h0, by rw [← h, abs_of_neg h0]; ring⟩

/-! ### The maximum -/

theorem maxMantissa_eq (M : ℕ) :
    ((List.range (M + 1)).map fun i : ℕ => (2 : K) ^ (-(i : ℤ))).sum = 1 + ((2 ^ M - 1 : ℕ) : K) / 2 ^ M := by
  have h : ((List.range (M + 1)).map fun i : ℕ => (2 : K) ^ (-(i : ℤ))).sum = 2 - (2 ^ M)⁻¹ := by
    induction M with
    | zero => simp; norm_num
    | succ M ih =>
      rw [List.range_succ, List.map_append, List.sum_append, ih]
      simp only [List.map_cons, List.map_nil, List.sum_cons, List.sum_nil, add_zero, zpow_neg, zpow_natCast]
      rw [pow_succ]
      have : (2 : K) ^ M ≠ 0 := by positivity
      field_simp
      ring
  rw [h]
  have : ((2 ^ M - 1 : ℕ) : K) = 2 ^ M - 1 := by
    have := Nat.one_le_two_pow (n := M)
    push_cast [this]; rfl
  rw [this]
  have : (2 : K) ^ M ≠ 0 := by positivity
  field_simp
  ring

theorem maxFloat_eq {E : ℕ} (hE : E ≠ 0) (M : ℕ) (bias : ℤ) : maxFloat E M bias = Spec.floatMax (K := K) E M bias := by
  have h1 : 2 ^ E - 1 ≠ 0 := by
    have : 2 ^ 1 ≤ 2 ^ E := Nat.pow_le_pow_right (by norm_num) (by omega)
    omega
  simp only [maxFloat, Spec.floatMax, Spec.floatValue, if_neg h1, maxMantissa_eq]
  rw [mul_comm]
  congr 2
  have := Nat.one_le_two_pow (n := E)
  push_cast [this]; ring

/-! ### Bit strings -/

theorem bitsToNat_append (l : List Bool) (b : Bool) : bitsToNat (l ++ [b]) = 2 * bitsToNat l + (if b then 1 else 0) := by
  simp [bitsToNat, List.foldl_append]

theorem bitsToNat_lt (l : List Bool) : bitsToNat l < 2 ^ l.length := by
  induction l using List.reverseRecOn with
  | nil => simp [bitsToNat]
  | append_singleton l b ih =>
    rw [bitsToNat_append, List.length_append, List.length_singleton, pow_succ]
    split_ifs <;> omega

theorem bitsToNat_replicate_true (n : ℕ) : bitsToNat (List.replicate n true) = 2 ^ n - 1 := by
  induction n with
  | zero => simp [bitsToNat]
  | succ n ih =>
    rw [List.replicate_succ', bitsToNat_append, ih, pow_succ]
    have := Nat.one_le_two_pow (n := n)
    simp only [if_true]
    omega

theorem bitsToNat_replicate_false (n : ℕ) : bitsToNat (List.replicate n false) = 0 := by
  induction n with
  | zero => simp [bitsToNat]
  | succ n ih => rw [List.replicate_succ', bitsToNat_append, ih]; simp

theorem natToBits_length (w n : ℕ) : (natToBits w n).length = w := by
  induction w generalizing n with
  | zero => rfl
  | succ w ih => simp [natToBits, ih]

theorem bitsToNat_natToBits {w n : ℕ} (h : n < 2 ^ w) : bitsToNat (natToBits w n) = n := by
  induction w generalizing n with
  | zero => simp at h; simp [natToBits, bitsToNat, h]
  | succ w ih =>
    rw [natToBits, bitsToNat_append, ih (by rw [pow_succ] at h; omega)]
    rcases Nat.mod_two_eq_zero_or_one n with h0 | h0 <;> simp [h0] <;> omega

theorem mantissa_eq (l : List Bool) (normal : Bool) :
    mantissaBitsToFloat (K := K) l normal = (if normal then 1 else 0) + (bitsToNat l : K) / 2 ^ l.length := by
  unfold mantissaBitsToFloat
  induction l using List.reverseRecOn with
  | nil => simp [bitsToNat]
  | append_singleton l b ih =>
    rw [List.zipIdx_append, List.foldl_append, ih, bitsToNat_append]
    simp only [List.zipIdx_cons, List.zipIdx_nil, List.foldl_cons, List.foldl_nil, List.length_append,
      List.length_singleton, zero_add]
    have e : (2 : K) ^ (-((l.length : ℤ) + 1)) = (2 ^ (l.length + 1))⁻¹ := by
      rw [zpow_neg]; congr 1
      rw [← zpow_natCast]; push_cast; rfl
    rw [e, pow_succ]
    have : (2 : K) ^ l.length ≠ 0 := by positivity
    cases b <;> cases normal <;> push_cast <;> field_simp <;> simp <;> ring

theorem getMinifloatValue_eq (ex ma : List Bool) (bias : ℤ) :
    getMinifloatValue (K := K) ex ma bias = Spec.floatValue ma.length bias (bitsToNat ex) (bitsToNat ma) := by
  unfold getMinifloatValue Spec.floatValue
  by_cases h : bitsToNat ex = 0
  · have e : (0 : ℤ) - (bias - 1) = 1 - bias := by ring
    simp [h, e, mantissa_eq]
  · simp [h, mantissa_eq]

end Brevitas
