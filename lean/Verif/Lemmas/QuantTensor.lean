import Verif.Lemmas.Ops
import Verif.Model.QuantTensor
import Verif.Spec.QuantTensor

set_option linter.unusedSectionVars false

namespace Brevitas

variable {K : Type*} [Field K] [LinearOrder K] [IsStrictOrderedRing K] [FloorRing K]

theorem preRound_denote (q : IntQT K) (hs : q.scale ≠ 0) (ns : List ℤ) (h : q.value = Spec.denote q.scale q.zeroPoint ns) :
    q.preRound = ns.map fun n : ℤ => (n : K) := by
  rw [IntQT.preRound, h, Spec.denote, List.map_map]
  apply List.map_congr_left
  intro n _
  simp only [Function.comp]
  rw [mul_div_cancel_right₀ _ hs, sub_add_cancel]

theorem rounded_denote (q : IntQT K) (hs : q.scale ≠ 0) (ns : List ℤ) (h : q.value = Spec.denote q.scale q.zeroPoint ns) :
    q.rounded = ns := by
  rw [IntQT.rounded, preRound_denote q hs ns h, List.map_map]
  conv_rhs => rw [← List.map_id ns]
  apply List.map_congr_left
  intro n _
  simp [torchRound_faithful.int]

theorem isCode_true_iff {b : ℕ} (hb : 1 ≤ b) (n : ℤ) :
    Spec.IsCode true false b n ↔ ((n : K) ≤ 2 ^ ((b : ℤ) - 1) - 1 ∧ -(2 : K) ^ ((b : ℤ) - 1) ≤ n) := by
  have h : (2 : K) ^ ((b : ℤ) - 1) = ((2 ^ (b - 1) : ℤ) : K) := zpow_pred_eq hb
  rw [h]
  simp only [Spec.IsCode, Spec.lo, Spec.hi, if_true, Bool.false_eq_true, if_false]
  constructor
  · rintro ⟨h1, h2⟩; exact ⟨by exact_mod_cast h2, by exact_mod_cast h1⟩
  · rintro ⟨h1, h2⟩; exact ⟨by exact_mod_cast h2, by exact_mod_cast h1⟩

theorem isCode_false_iff {b : ℕ} (n : ℤ) :
    Spec.IsCode false false b n ↔ ((n : K) ≤ 2 ^ (b : ℤ) - 1 ∧ (0 : K) ≤ n) := by
  have h : (2 : K) ^ (b : ℤ) = ((2 ^ b : ℤ) : K) := by rw [zpow_natCast]; push_cast; rfl
  rw [h]
  simp only [Spec.IsCode, Spec.lo, Spec.hi, Bool.false_eq_true, if_false]
  constructor
  · rintro ⟨h1, h2⟩; exact ⟨by exact_mod_cast h2, by exact_mod_cast h1⟩
  · rintro ⟨h1, h2⟩; exact ⟨by exact_mod_cast h2, by exact_mod_cast h1⟩

/-- `is_valid` for two bits and more: rounding error below the tolerance and rounded value in the container. -/
theorem isValid_iff_rounded (q : IntQT K) (hb : 2 ≤ q.bitWidth) (atol : K) :
    q.isValid atol = some true ↔ q.value ≠ [] ∧
      ∀ y ∈ q.preRound, |y - (torchRound y : ℤ)| < atol ∧ Spec.IsCode q.signed false q.bitWidth (torchRound y) := by
  unfold IntQT.isValid
  by_cases h0 : q.value = []
  · simp [h0]
  · rw [if_neg h0]
    simp only [if_pos hb]
    cases hs : q.signed with
    | true =>
      simp only [if_true, Option.some.injEq, Bool.and_eq_true, List.all_eq_true, decide_eq_true_eq, IntQT.rounded, List.mem_map,
        forall_exists_index, and_imp, forall_apply_eq_imp_iff₂, ge_iff_le]
      constructor
      · rintro ⟨⟨h1, h2⟩, h3⟩
        exact ⟨h0, fun y hy => ⟨h1 y hy, (isCode_true_iff (K := K) (by omega) _).mpr ⟨h2 y hy, h3 y hy⟩⟩⟩
      · rintro ⟨-, h⟩
        exact ⟨⟨fun y hy => (h y hy).1, fun y hy => ((isCode_true_iff (K := K) (by omega) _).mp (h y hy).2).1⟩,
          fun y hy => ((isCode_true_iff (K := K) (by omega) _).mp (h y hy).2).2⟩
    | false =>
      simp only [Bool.false_eq_true, if_false, Option.some.injEq, Bool.and_eq_true, List.all_eq_true, decide_eq_true_eq,
        IntQT.rounded, List.mem_map, forall_exists_index, and_imp, forall_apply_eq_imp_iff₂, ge_iff_le]
      constructor
      · rintro ⟨⟨h1, h2⟩, h3⟩
        exact ⟨h0, fun y hy => ⟨h1 y hy, (isCode_false_iff (K := K) _).mpr ⟨h2 y hy, h3 y hy⟩⟩⟩
      · rintro ⟨-, h⟩
        exact ⟨⟨fun y hy => (h y hy).1, fun y hy => ((isCode_false_iff (K := K) _).mp (h y hy).2).1⟩,
          fun y hy => ((isCode_false_iff (K := K) _).mp (h y hy).2).2⟩

theorem torchRound_of_near {y : K} {n : ℤ} (h : |y - n| < 1 / 2) : torchRound y = n := by
  apply torchRound_unique
  · rw [abs_sub_comm]; exact h.le
  · intro h'; rw [abs_sub_comm] at h'; linarith

theorem isValid_denote (q : IntQT K) (hb : 2 ≤ q.bitWidth) (hs : q.scale ≠ 0) {atol : K} (ha : 0 < atol) (ns : List ℤ)
    (hne : ns ≠ []) (h : q.value = Spec.denote q.scale q.zeroPoint ns) (hc : Spec.AllCodes q.signed q.bitWidth ns) :
    q.isValid atol = some true := by
  rw [isValid_iff_rounded q hb]
  refine ⟨by rw [h]; simpa [Spec.denote] using hne, ?_⟩
  rw [preRound_denote q hs ns h]
  intro y hy
  obtain ⟨n, hn, rfl⟩ := List.mem_map.mp hy
  rw [torchRound_faithful.int]
  exact ⟨by simpa using ha, hc n hn⟩

theorem int_denote (q : IntQT K) (hb : 2 ≤ q.bitWidth) (hs : q.scale ≠ 0) {atol : K} (ha : 0 < atol) (ns : List ℤ)
    (hne : ns ≠ []) (h : q.value = Spec.denote q.scale q.zeroPoint ns) (hc : Spec.AllCodes q.signed q.bitWidth ns) :
    q.int atol = some ns := by
  rw [IntQT.int, isValid_denote q hb hs ha ns hne h hc]
  simp only [rounded_denote q hs ns h]

theorem allclose_self (a : K) : allclose a a = true := by
  simp only [allclose, sub_self, abs_zero, decide_eq_true_eq]
  positivity

theorem zipWith_denote_add (s z₁ z₂ : K) (ns ms : List ℤ) :
    List.zipWith (· + ·) (Spec.denote s z₁ ns) (Spec.denote s z₂ ms) = Spec.denote s (z₁ + z₂) (List.zipWith (· + ·) ns ms) := by
  induction ns generalizing ms with
  | nil => simp [Spec.denote]
  | cons n ns ih =>
    cases ms with
    | nil => simp [Spec.denote]
    | cons m ms =>
      have := ih ms
      simp only [Spec.denote, List.map_cons, List.zipWith_cons_cons] at this ⊢
      rw [this]; congr 1; push_cast; ring

theorem zipWith_denote_mul (s₁ s₂ : K) (ns ms : List ℤ) :
    List.zipWith (· * ·) (Spec.denote s₁ 0 ns) (Spec.denote s₂ 0 ms) = Spec.denote (s₁ * s₂) 0 (List.zipWith (· * ·) ns ms) := by
  induction ns generalizing ms with
  | nil => simp [Spec.denote]
  | cons n ns ih =>
    cases ms with
    | nil => simp [Spec.denote]
    | cons m ms =>
      have := ih ms
      simp only [Spec.denote, List.map_cons, List.zipWith_cons_cons] at this ⊢
      rw [this]; congr 1; push_cast; ring

theorem mem_zipWith_of {α β γ : Type*} {f : α → β → γ} {l : List α} {l' : List β} {c : γ} (h : c ∈ List.zipWith f l l') :
    ∃ a ∈ l, ∃ b ∈ l', c = f a b := by
  induction l generalizing l' with
  | nil => simp at h
  | cons x l ih =>
    cases l' with
    | nil => simp at h
    | cons y l' =>
      rw [List.zipWith_cons_cons, List.mem_cons] at h
      rcases h with rfl | h
      · exact ⟨x, by simp, y, by simp, rfl⟩
      · obtain ⟨a, ha, b, hb, e⟩ := ih h
        exact ⟨a, by simp [ha], b, by simp [hb], e⟩

/-! ### The bit width of a sum -/

/-- Number of codes minus one. -/
theorem range_eq (signed : Bool) {b : ℕ} (hb : 1 ≤ b) :
    (maxInt signed false b : ℚ) - minInt signed false b = ((2 ^ b - 1 : ℤ) : ℚ) := by
  rw [maxInt_eq _ _ hb, minInt_eq _ _ hb]
  have h2 : (2 : ℤ) ^ b = 2 * 2 ^ (b - 1) := by rw [← pow_succ']; congr 1; omega
  rw [← Int.cast_sub]
  congr 1
  cases signed <;> simp [Spec.lo, Spec.hi] <;> omega

theorem clog_of_bounds {n : ℤ} {k : ℕ} (h1 : (2 : ℤ) ^ k < n) (h2 : n ≤ 2 ^ (k + 1)) : (Int.clog 2 (n : ℚ)).toNat = k + 1 := by
  have hpos : (0 : ℤ) < n := lt_trans (by positivity) h1
  obtain ⟨m, rfl⟩ : ∃ m : ℕ, n = m := ⟨n.toNat, by omega⟩
  have : ((m : ℤ) : ℚ) = ((m : ℕ) : ℚ) := by push_cast; rfl
  rw [this, Int.clog_natCast]
  simp only [Int.toNat_natCast]
  have h1' : 2 ^ k < m := by exact_mod_cast h1
  have h2' : m ≤ 2 ^ (k + 1) := by exact_mod_cast h2
  apply le_antisymm
  · exact Nat.clog_le_of_le_pow h2'
  · exact (Nat.lt_clog_iff_pow_lt (by norm_num)).mpr h1'

theorem addBitWidth_eq (s₁ s₂ : Bool) {b₁ b₂ : ℕ} (h₁ : 2 ≤ b₁) (h₂ : 2 ≤ b₂) : addBitWidth s₁ s₂ b₁ b₂ = max b₁ b₂ + 1 := by
  have e : (maxInt s₁ false b₁ + maxInt s₂ false b₂ : ℚ) - (minInt s₁ false b₁ + minInt s₂ false b₂) =
      ((2 ^ b₁ - 1 + (2 ^ b₂ - 1) : ℤ) : ℚ) := by
    have a := range_eq s₁ (b := b₁) (by omega)
    have b := range_eq s₂ (b := b₂) (by omega)
    push_cast at a b ⊢; linarith
  simp only [addBitWidth]
  rw [e]
  have g₁ : (4 : ℤ) ≤ 2 ^ b₁ := by
    calc (4 : ℤ) = 2 ^ 2 := by norm_num
      _ ≤ 2 ^ b₁ := pow_le_pow_right₀ (by norm_num) h₁
  have g₂ : (4 : ℤ) ≤ 2 ^ b₂ := by
    calc (4 : ℤ) = 2 ^ 2 := by norm_num
      _ ≤ 2 ^ b₂ := pow_le_pow_right₀ (by norm_num) h₂
  rcases le_total b₁ b₂ with h | h
  · rw [max_eq_right h]
    have : (2 : ℤ) ^ b₁ ≤ 2 ^ b₂ := pow_le_pow_right₀ (by norm_num) h
    exact clog_of_bounds (by omega) (by rw [pow_succ]; omega)
  · rw [max_eq_left h]
    have : (2 : ℤ) ^ b₂ ≤ 2 ^ b₁ := pow_le_pow_right₀ (by norm_num) h
    exact clog_of_bounds (by omega) (by rw [pow_succ]; omega)

end Brevitas
