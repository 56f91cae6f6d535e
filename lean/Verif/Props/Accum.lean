import Mathlib.Algebra.Order.BigOperators.Group.Finset
import Mathlib.Algebra.BigOperators.Ring.Finset
import Mathlib.Data.Nat.Prime.Basic
import Mathlib.Data.Int.ModEq
import Verif.Model.Accum
import Verif.Props.QuantTensor

/-!
# C33: declared accumulator bit widths
-/

set_option linter.unusedSectionVars false

namespace Brevitas

/-! ## helper facts -/

theorem ceilLog2_natCast (n : ℕ) : ceilLog2 (n : ℚ) = Nat.clog 2 n := by
  rw [ceilLog2, Int.clog_natCast]; simp

/-- the product whose logarithm is the declared width -/
theorem maxUint_cast (b : ℕ) : (maxInt false false b : ℚ) = ((2 ^ b - 1 : ℕ) : ℚ) := by
  have : 1 ≤ 2 ^ b := Nat.one_le_two_pow
  simp [maxInt, Nat.cast_sub this]

theorem maxAccBitWidthLinear_eq (bi bw n o : ℕ) : maxAccBitWidthLinear bi bw [o, n] = some (Nat.clog 2 ((2 ^ bi - 1) * (2 ^ bw - 1) * n)) := by
  simp only [maxAccBitWidthLinear, maxUint_cast, List.getElem?_cons_succ, List.getElem?_cons_zero, Option.map_some]
  rw [← ceilLog2_natCast]
  push_cast
  rfl

theorem maxAccBitWidthConv_eq (bi bw c o : ℕ) (k : List ℕ) :
    maxAccBitWidthConv bi bw (o :: c :: k) = some (Nat.clog 2 ((2 ^ bi - 1) * (2 ^ bw - 1) * (c * k.prod))) := by
  simp only [maxAccBitWidthConv, maxUint_cast, List.getElem?_cons_succ, List.getElem?_cons_zero, Option.map_some, List.drop_succ_cons,
    List.drop_zero]
  rw [← ceilLog2_natCast]
  congr 2
  push_cast
  ring

theorem le_two_pow_clog (P : ℕ) : P ≤ 2 ^ Nat.clog 2 P := Nat.le_pow_clog (by norm_num) P

theorem two_pow_pred_lt (P : ℕ) (h : 2 ≤ P) : 2 ^ (Nat.clog 2 P - 1) < P := Nat.pow_pred_clog_lt_self (by norm_num) h

end Brevitas

namespace Brevitas.Props

open Brevitas Finset

section bounds

variable {ι : Type*}

theorem sum_bounds (s : Finset ι) (f : ι → ℤ) (L U : ℤ) (n : ℕ) (hn : s.card ≤ n) (hL : L ≤ 0) (hU : 0 ≤ U)
    (h : ∀ i ∈ s, L ≤ f i ∧ f i ≤ U) : n * L ≤ ∑ i ∈ s, f i ∧ ∑ i ∈ s, f i ≤ n * U := by
  have h1 : s.card • L ≤ ∑ i ∈ s, f i := Finset.card_nsmul_le_sum s f L fun i hi => (h i hi).1
  have h2 : ∑ i ∈ s, f i ≤ s.card • U := Finset.sum_le_card_nsmul s f U fun i hi => (h i hi).2
  rw [nsmul_eq_mul] at h1 h2
  have hc : (s.card : ℤ) ≤ n := by exact_mod_cast hn
  constructor <;> nlinarith

theorem mul_bounds_uu {A B x w : ℤ} (hx : 0 ≤ x ∧ x ≤ A) (hw : 0 ≤ w ∧ w ≤ B) : 0 ≤ x * w ∧ x * w ≤ A * B :=
  ⟨mul_nonneg hx.1 hw.1, mul_le_mul hx.2 hw.2 hw.1 (hx.1.trans hx.2)⟩

theorem mul_bounds_us {A B C x w : ℤ} (hx : 0 ≤ x ∧ x ≤ A) (hw : -B ≤ w ∧ w ≤ C) (hB : 0 ≤ B) (hC : 0 ≤ C) :
    -(A * B) ≤ x * w ∧ x * w ≤ A * C := by
  have hA : 0 ≤ A := hx.1.trans hx.2
  constructor
  · nlinarith [mul_nonneg hx.1 (by linarith [hw.1] : 0 ≤ w + B), mul_nonneg (by linarith [hx.2] : 0 ≤ A - x) hB]
  · nlinarith [mul_nonneg hx.1 (by linarith [hw.2] : 0 ≤ C - w), mul_nonneg (by linarith [hx.2] : 0 ≤ A - x) hC]

theorem mul_bounds_ss {A B x w : ℤ} (hx : -A ≤ x ∧ x ≤ A) (hw : -B ≤ w ∧ w ≤ B) : -(A * B) ≤ x * w ∧ x * w ≤ A * B := by
  have h := mul_le_mul (abs_le.mpr hx) (abs_le.mpr hw) (abs_nonneg w) (by linarith [hx.1, hx.2] : 0 ≤ A)
  rw [← abs_mul] at h
  exact abs_le.mp h

end bounds

/-- The integer range of a dot product of at most `n` products is covered by the container `(signed, o)`: for every index set, every input
codes and every weight codes. -/
def HoldsEveryDot (sx nx : Bool) (bi : ℕ) (sw nw : Bool) (bw n : ℕ) (so : Bool) (o : ℕ) : Prop :=
  ∀ (s : Finset ℕ) (x w : ℕ → ℤ), s.card ≤ n → (∀ i ∈ s, Spec.IsCode sx nx bi (x i)) → (∀ i ∈ s, Spec.IsCode sw nw bw (w i)) →
    Spec.IsCode so false o (∑ i ∈ s, x i * w i)

private theorem p2 {b : ℕ} (h : 1 ≤ b) : (2 : ℤ) ^ b = 2 * 2 ^ (b - 1) := by rw [← pow_succ']; congr 1; omega

private theorem cast_prod (bi bw n : ℕ) : (((2 ^ bi - 1) * (2 ^ bw - 1) * n : ℕ) : ℤ) = (2 ^ bi - 1) * (2 ^ bw - 1) * n := by
  have h1 : 1 ≤ 2 ^ bi := Nat.one_le_two_pow
  have h2 : 1 ≤ 2 ^ bw := Nat.one_le_two_pow
  push_cast [Nat.cast_sub h1, Nat.cast_sub h2]; ring

private theorem clog_ge (bi bw n : ℕ) : ((2 : ℤ) ^ bi - 1) * (2 ^ bw - 1) * n ≤ 2 ^ Nat.clog 2 ((2 ^ bi - 1) * (2 ^ bw - 1) * n) := by
  rw [← cast_prod]; exact_mod_cast le_two_pow_clog _

/-- C33, unsigned input and unsigned weights: the declared width holds every dot product exactly when it is not the case that both are one
bit wide and the reduction size is a power of two. -/
theorem C33_unsigned_iff (bi bw n out : ℕ) (hbi : 1 ≤ bi) (hbw : 1 ≤ bw) (hn : 1 ≤ n) (o : ℕ)
    (ho : maxAccBitWidthLinear bi bw [out, n] = some o) :
    HoldsEveryDot false false bi false false bw n false o ↔ ¬ (bi = 1 ∧ bw = 1 ∧ ∃ k, n = 2 ^ k) := by
  rw [maxAccBitWidthLinear_eq] at ho
  obtain rfl := Option.some.inj ho
  set P := (2 ^ bi - 1) * (2 ^ bw - 1) * n with hP
  have hPz : (P : ℤ) = (2 ^ bi - 1) * (2 ^ bw - 1) * n := cast_prod bi bw n
  have hle : (P : ℤ) ≤ 2 ^ Nat.clog 2 P := by exact_mod_cast le_two_pow_clog P
  constructor
  · rintro h ⟨rfl, rfl, k, rfl⟩
    have e : P = 2 ^ k := by simp [hP]
    have := (h (range (2 ^ k)) (fun _ => 1) (fun _ => 1) (by simp) (by intro i _; unfold Spec.IsCode; decide)
      (by intro i _; unfold Spec.IsCode; decide)).2
    rw [e, Nat.clog_pow 2 k (by norm_num)] at this
    simp [Spec.hi] at this
  · intro h s x w hs hx hw
    have hb := sum_bounds s (fun i => x i * w i) 0 ((2 ^ bi - 1) * (2 ^ bw - 1)) n hs le_rfl
      (mul_nonneg (by have : (1 : ℤ) ≤ 2 ^ bi := one_le_pow₀ (by norm_num)
                      linarith) (by have : (1 : ℤ) ≤ 2 ^ bw := one_le_pow₀ (by norm_num)
                                    linarith))
      (fun i hi => by
        have h1 := hx i hi
        have h2 := hw i hi
        simp only [Spec.IsCode, Spec.lo, Spec.hi, Bool.false_eq_true, if_false] at h1 h2
        exact mul_bounds_uu h1 h2)
    simp only [Spec.IsCode, Spec.lo, Spec.hi, Bool.false_eq_true, if_false]
    refine ⟨by linarith [hb.1], ?_⟩
    rcases lt_or_eq_of_le hle with hlt | heq
    · have : ∑ i ∈ s, x i * w i ≤ P := by rw [hPz]; linarith [hb.2]
      omega
    · exfalso
      apply h
      have heq' : P = 2 ^ Nat.clog 2 P := by exact_mod_cast heq
      -- every factor divides a power of two
      have d1 : (2 ^ bi - 1) ∣ 2 ^ Nat.clog 2 P := ⟨(2 ^ bw - 1) * n, by rw [← mul_assoc, ← hP]; exact heq'.symm⟩
      have d2 : (2 ^ bw - 1) ∣ 2 ^ Nat.clog 2 P := ⟨(2 ^ bi - 1) * n, by rw [← heq', hP]; ring⟩
      have d3 : n ∣ 2 ^ Nat.clog 2 P := ⟨(2 ^ bi - 1) * (2 ^ bw - 1), by rw [← heq', hP]; ring⟩
      have key : ∀ b, 1 ≤ b → (2 ^ b - 1) ∣ 2 ^ Nat.clog 2 P → b = 1 := by
        intro b hb d
        obtain ⟨j, -, hj⟩ := (Nat.dvd_prime_pow Nat.prime_two).mp d
        by_contra hne
        have h4 : 2 ^ 2 ≤ 2 ^ b := Nat.pow_le_pow_right (by norm_num) (by omega)
        have he : 2 ^ b = 2 * 2 ^ (b - 1) := by rw [← pow_succ']; congr 1; omega
        cases j with
        | zero => simp at hj; omega
        | succ j => rw [pow_succ] at hj; omega
      obtain ⟨k, -, hk⟩ := (Nat.dvd_prime_pow Nat.prime_two).mp d3
      exact ⟨key bi hbi d1, key bw hbw d2, k, hk⟩

/-- C33, signed input and signed weights (two or more bits each): the declared width always holds every dot product. -/
theorem C33_signed (bi bw n out : ℕ) (hbi : 2 ≤ bi) (hbw : 2 ≤ bw) (hn : 1 ≤ n) (o : ℕ)
    (ho : maxAccBitWidthLinear bi bw [out, n] = some o) (nx nw : Bool) : HoldsEveryDot true nx bi true nw bw n true o := by
  rw [maxAccBitWidthLinear_eq] at ho
  obtain rfl := Option.some.inj ho
  have hge := clog_ge bi bw n
  set o := Nat.clog 2 ((2 ^ bi - 1) * (2 ^ bw - 1) * n)
  have e1 := p2 (b := bi) (by omega)
  have e2 := p2 (b := bw) (by omega)
  have g1 : (2 : ℤ) ≤ 2 ^ (bi - 1) := by
    calc (2 : ℤ) = 2 ^ 1 := by norm_num
      _ ≤ 2 ^ (bi - 1) := pow_le_pow_right₀ (by norm_num) (by omega)
  have g2 : (2 : ℤ) ≤ 2 ^ (bw - 1) := by
    calc (2 : ℤ) = 2 ^ 1 := by norm_num
      _ ≤ 2 ^ (bw - 1) := pow_le_pow_right₀ (by norm_num) (by omega)
  have hnz : (1 : ℤ) ≤ n := by exact_mod_cast hn
  have hkey : n * (2 ^ (bi - 1) * 2 ^ (bw - 1)) * 2 + 1 ≤ (2 : ℤ) ^ o := by
    refine le_trans ?_ hge
    rw [e1, e2]
    have : (2 : ℤ) ^ (bi - 1) * 2 ^ (bw - 1) * 2 + 1 ≤ (2 * 2 ^ (bi - 1) - 1) * (2 * 2 ^ (bw - 1) - 1) := by
      nlinarith [mul_nonneg (by linarith : (0 : ℤ) ≤ 2 ^ (bi - 1) - 2) (by linarith : (0 : ℤ) ≤ 2 ^ (bw - 1) - 2)]
    nlinarith
  have ho1 : 1 ≤ o := by
    by_contra h
    have : o = 0 := by omega
    rw [this] at hkey
    have : (0 : ℤ) < n * (2 ^ (bi - 1) * 2 ^ (bw - 1)) := by positivity
    norm_num at hkey; linarith
  have e3 := p2 ho1
  intro s x w hs hx hw
  have hb := sum_bounds s (fun i => x i * w i) (-(2 ^ (bi - 1) * 2 ^ (bw - 1))) (2 ^ (bi - 1) * 2 ^ (bw - 1)) n hs
      (by have : (0 : ℤ) ≤ 2 ^ (bi - 1) * 2 ^ (bw - 1) := by positivity
          linarith) (by positivity)
      (fun i hi => by
        have h1 := hx i hi
        have h2 := hw i hi
        apply mul_bounds_ss
        · cases nx <;> simp only [Spec.IsCode, Spec.lo, Spec.hi, Bool.false_eq_true, if_false, if_true] at h1 <;>
            constructor <;> linarith [h1.1, h1.2]
        · cases nw <;> simp only [Spec.IsCode, Spec.lo, Spec.hi, Bool.false_eq_true, if_false, if_true] at h2 <;>
            constructor <;> linarith [h2.1, h2.2])
  simp only [Spec.IsCode, Spec.lo, Spec.hi, Bool.false_eq_true, if_false, if_true]
  constructor
  · nlinarith [hb.1]
  · have h2 : 2 * (n * (2 ^ (bi - 1) * 2 ^ (bw - 1))) < 2 * (2 : ℤ) ^ (o - 1) := by linarith
    have h3 : (n : ℤ) * (2 ^ (bi - 1) * 2 ^ (bw - 1)) < 2 ^ (o - 1) := by linarith
    linarith [hb.2]

/-- C33, unsigned input and narrow-range signed weights (the default weight quantiser, two or more bits): the declared width always holds
every dot product. -/
theorem C33_unsigned_narrow_signed (bi bw n out : ℕ) (hbi : 1 ≤ bi) (hbw : 2 ≤ bw) (hn : 1 ≤ n) (o : ℕ)
    (ho : maxAccBitWidthLinear bi bw [out, n] = some o) : HoldsEveryDot false false bi true true bw n true o := by
  rw [maxAccBitWidthLinear_eq] at ho
  obtain rfl := Option.some.inj ho
  have hge := clog_ge bi bw n
  set o := Nat.clog 2 ((2 ^ bi - 1) * (2 ^ bw - 1) * n)
  have e2 := p2 (b := bw) (by omega)
  have g1 : (2 : ℤ) ≤ 2 ^ bi := by
    calc (2 : ℤ) = 2 ^ 1 := by norm_num
      _ ≤ 2 ^ bi := pow_le_pow_right₀ (by norm_num) (by omega)
  have g2 : (2 : ℤ) ≤ 2 ^ (bw - 1) := by
    calc (2 : ℤ) = 2 ^ 1 := by norm_num
      _ ≤ 2 ^ (bw - 1) := pow_le_pow_right₀ (by norm_num) (by omega)
  have hnz : (1 : ℤ) ≤ n := by exact_mod_cast hn
  have hA : (1 : ℤ) ≤ (2 ^ bi - 1) * n := by nlinarith
  have hkey : n * ((2 ^ bi - 1) * (2 ^ (bw - 1) - 1)) * 2 + 1 ≤ (2 : ℤ) ^ o := by
    refine le_trans ?_ hge
    rw [e2]; nlinarith
  have ho1 : 1 ≤ o := by
    by_contra h
    have h0 : o = 0 := by omega
    rw [h0] at hkey
    have : (0 : ℤ) < n * ((2 ^ bi - 1) * (2 ^ (bw - 1) - 1)) :=
      mul_pos (by linarith) (mul_pos (by linarith) (by linarith))
    norm_num at hkey; linarith
  have e3 := p2 ho1
  intro s x w hs hx hw
  have hC : (0 : ℤ) ≤ (2 ^ bi - 1) * (2 ^ (bw - 1) - 1) := mul_nonneg (by linarith) (by linarith)
  have hb := sum_bounds s (fun i => x i * w i) (-((2 ^ bi - 1) * (2 ^ (bw - 1) - 1))) ((2 ^ bi - 1) * (2 ^ (bw - 1) - 1)) n hs
      (by linarith) hC
      (fun i hi => by
        have h1 := hx i hi
        have h2 := hw i hi
        simp only [Spec.IsCode, Spec.lo, Spec.hi, Bool.false_eq_true, if_false, if_true] at h1 h2
        exact mul_bounds_us h1 ⟨by linarith [h2.1], h2.2⟩ (by linarith) (by linarith))
  simp only [Spec.IsCode, Spec.lo, Spec.hi, Bool.false_eq_true, if_false, if_true]
  have h3 : (n : ℤ) * ((2 ^ bi - 1) * (2 ^ (bw - 1) - 1)) < 2 ^ (o - 1) := by linarith
  constructor
  · nlinarith [hb.1]
  · linarith [hb.2]

/-- C33, unsigned input and full-range signed weights: exactly when the declared width is enough. Missing for the full property: it is
not always (`C33_full_range_weights_overflow`). -/
theorem C33_unsigned_signed_partial (bi bw n out : ℕ) (hbi : 1 ≤ bi) (hbw : 2 ≤ bw) (hn : 1 ≤ n) (o : ℕ)
    (ho : maxAccBitWidthLinear bi bw [out, n] = some o) :
    HoldsEveryDot false false bi true false bw n true o ↔ n * (2 ^ bi - 1) * 2 ^ bw ≤ (2 : ℤ) ^ o := by
  rw [maxAccBitWidthLinear_eq] at ho
  obtain rfl := Option.some.inj ho
  have hge := clog_ge bi bw n
  set o := Nat.clog 2 ((2 ^ bi - 1) * (2 ^ bw - 1) * n)
  have e2 := p2 (b := bw) (by omega)
  have g1 : (2 : ℤ) ≤ 2 ^ bi := by
    calc (2 : ℤ) = 2 ^ 1 := by norm_num
      _ ≤ 2 ^ bi := pow_le_pow_right₀ (by norm_num) (by omega)
  have g2 : (2 : ℤ) ≤ 2 ^ (bw - 1) := by
    calc (2 : ℤ) = 2 ^ 1 := by norm_num
      _ ≤ 2 ^ (bw - 1) := pow_le_pow_right₀ (by norm_num) (by omega)
  have hnz : (1 : ℤ) ≤ n := by exact_mod_cast hn
  have hA : (1 : ℤ) ≤ (2 ^ bi - 1) * n := by nlinarith
  have hkey : n * ((2 ^ bi - 1) * (2 ^ (bw - 1) - 1)) * 2 + 1 ≤ (2 : ℤ) ^ o := by
    refine le_trans ?_ hge
    rw [e2]; nlinarith
  have ho1 : 1 ≤ o := by
    by_contra h
    have h0 : o = 0 := by omega
    rw [h0] at hkey
    have : (0 : ℤ) < n * ((2 ^ bi - 1) * (2 ^ (bw - 1) - 1)) :=
      mul_pos (by linarith) (mul_pos (by linarith) (by linarith))
    norm_num at hkey; linarith
  have e3 := p2 ho1
  constructor
  · intro h
    have := (h (range n) (fun _ => 2 ^ bi - 1) (fun _ => -2 ^ (bw - 1)) (by simp)
      (by intro i _; simp only [Spec.IsCode, Spec.lo, Spec.hi, Bool.false_eq_true, if_false]; constructor <;> linarith)
      (by intro i _; simp only [Spec.IsCode, Spec.lo, Spec.hi, Bool.false_eq_true, if_false, if_true]; constructor <;> linarith)).1
    simp only [Spec.lo, Bool.false_eq_true, if_false, if_true, sum_const, card_range, nsmul_eq_mul] at this
    rw [e2, e3]; nlinarith
  · intro h s x w hs hx hw
    have hb := sum_bounds s (fun i => x i * w i) (-((2 ^ bi - 1) * 2 ^ (bw - 1))) ((2 ^ bi - 1) * (2 ^ (bw - 1) - 1)) n hs
      (by nlinarith) (mul_nonneg (by linarith) (by linarith))
      (fun i hi => by
        have h1 := hx i hi
        have h2 := hw i hi
        simp only [Spec.IsCode, Spec.lo, Spec.hi, Bool.false_eq_true, if_false, if_true] at h1 h2
        exact mul_bounds_us h1 h2 (by linarith) (by linarith))
    simp only [Spec.IsCode, Spec.lo, Spec.hi, Bool.false_eq_true, if_false, if_true]
    have h3 : (n : ℤ) * ((2 ^ bi - 1) * (2 ^ (bw - 1) - 1)) < 2 ^ (o - 1) := by linarith
    rw [e2, e3] at h
    constructor
    · nlinarith [hb.1]
    · linarith [hb.2]

/-- C33 fails for full-range signed weights: 8-bit unsigned input, 4-bit signed weights, 17 products: 16 bits are declared, the sum
`17 * 255 * (-8) = -34680` needs 17. -/
theorem C33_full_range_weights_overflow :
    maxAccBitWidthLinear 8 4 [1, 17] = some 16 ∧ ¬ HoldsEveryDot false false 8 true false 4 17 true 16 := by
  have h : maxAccBitWidthLinear 8 4 [1, 17] = some 16 := by decide +kernel
  refine ⟨h, ?_⟩
  rw [C33_unsigned_signed_partial 8 4 17 1 (by norm_num) (by norm_num) (by norm_num) 16 h]
  norm_num

/-- C33: the order of the operands does not matter (unsigned weights with signed input is the mirror image). -/
theorem C33_comm (sx nx : Bool) (bi : ℕ) (sw nw : Bool) (bw n : ℕ) (so : Bool) (o : ℕ) :
    HoldsEveryDot sx nx bi sw nw bw n so o ↔ HoldsEveryDot sw nw bw sx nx bi n so o := by
  constructor <;> intro h s x w hs hx hw <;> have := h s w x hs hw hx <;> simpa only [mul_comm] using this

/-- C33: a convolution declares the width of a linear layer whose input size is the number of taps (input channels of the group times the
kernel volume), so the statements above apply to it. -/
theorem C33_conv_is_linear (bi bw c o : ℕ) (kernel : List ℕ) :
    maxAccBitWidthConv bi bw (o :: c :: kernel) = maxAccBitWidthLinear bi bw [o, c * kernel.prod] := by
  rw [maxAccBitWidthConv_eq, maxAccBitWidthLinear_eq]

/-- Number of taps of a transposed convolution that reach one output position, in one dimension: at most `ceil(kernel / stride)`. -/
theorem convTranspose_taps (kernel stride len t : ℕ) (hs : 1 ≤ stride) :
    ((range kernel).filter (fun k => k ≤ t ∧ stride ∣ t - k ∧ (t - k) / stride < len)).card ≤ (kernel + stride - 1) / stride := by
  -- taps are congruent modulo the stride, so their quotients by the stride are distinct
  have hmaps : Set.MapsTo (fun k => k / stride) ((range kernel).filter (fun k => k ≤ t ∧ stride ∣ t - k ∧ (t - k) / stride < len) : Set ℕ)
      (range ((kernel + stride - 1) / stride) : Set ℕ) := by
    intro k hk
    simp only [Finset.coe_filter, Finset.mem_range, Set.mem_ofPred_eq] at hk
    simp only [Finset.coe_range, Set.mem_Iio]
    rw [Nat.div_lt_iff_lt_mul (by omega)]
    have h1 : stride * ((kernel + stride - 1) / stride) + (kernel + stride - 1) % stride = kernel + stride - 1 := Nat.div_add_mod _ _
    have h2 : (kernel + stride - 1) % stride < stride := Nat.mod_lt _ (by omega)
    rw [mul_comm]
    omega
  have hinj : Set.InjOn (fun k => k / stride) ((range kernel).filter (fun k => k ≤ t ∧ stride ∣ t - k ∧ (t - k) / stride < len) : Set ℕ) := by
    intro a ha b hb hab
    simp only [Finset.coe_filter, Finset.mem_range, Set.mem_ofPred_eq] at ha hb
    simp only at hab
    have hmod : a % stride = b % stride := by
      have h1 : a ≡ t [MOD stride] := (Nat.modEq_iff_dvd' ha.2.1).mpr ha.2.2.1
      have h2 : b ≡ t [MOD stride] := (Nat.modEq_iff_dvd' hb.2.1).mpr hb.2.2.1
      exact h1.trans h2.symm
    rw [← Nat.div_add_mod a stride, ← Nat.div_add_mod b stride, hab, hmod]
  have := Finset.card_le_card_of_injOn (fun k => k / stride) hmaps hinj
  simpa using this

/-- C33, one-dimensional transposed convolutions, unsigned operands (not both one bit): the declared width holds the output when the number
of input channels does not exceed the number of output channels per group. Missing: more input than output channels, where it fails
(`C33_conv_transpose_overflows`): the declaration uses the wrong channel dimension. -/
theorem C33_conv_transpose_partial (bi bw inC outC kernel stride len : ℕ) (hbi : 2 ≤ bi) (hbw : 1 ≤ bw) (hin : inC ≤ outC) (hout : 1 ≤ outC)
    (hs : 1 ≤ stride) (o : ℕ) (ho : maxAccBitWidthConvTranspose bi bw [inC, outC, kernel] [stride] = some o) (weight x : ℕ → ℕ → ℤ)
    (hw : ∀ c k, Spec.IsCode false false bw (weight c k)) (hx : ∀ c p, Spec.IsCode false false bi (x c p)) (t : ℕ) :
    Spec.IsCode false false o (convTranspose1dAcc inC kernel stride len weight x t) := by
  have hcount := convTranspose_taps kernel stride len t hs
  set T := max ((kernel + stride - 1) / stride) 1 with hT
  have ho' : maxAccBitWidthLinear bi bw [1, T * outC] = some o := by
    rw [← ho, maxAccBitWidthLinear_eq]
    simp only [maxAccBitWidthConvTranspose, maxUint_cast, List.getElem?_cons_succ, List.getElem?_cons_zero, Option.map_some,
      List.drop_succ_cons, List.drop_zero, List.zipWith_cons_cons, List.zipWith_nil_right, List.sum_cons, List.sum_nil, add_zero]
    rw [← ceilLog2_natCast, ← hT]
    congr 2
    push_cast; ring
  have hTpos : 1 ≤ T := le_max_right _ _
  have hall := (C33_unsigned_iff bi bw (T * outC) 1 (by omega) hbw (Nat.mul_pos hTpos hout) o ho').mpr (by rintro ⟨h, -⟩; omega)
  set F := (range kernel).filter (fun k => k ≤ t ∧ stride ∣ t - k ∧ (t - k) / stride < len)
  -- flatten the double sum over pairs, encoded as `c * kernel + k`
  rw [convTranspose1dAcc]
  by_cases hk : kernel = 0
  · subst hk
    have := hall ∅ (fun _ => 0) (fun _ => 0) (by simp) (by simp) (by simp)
    simpa using this
  · have hkpos : 0 < kernel := Nat.pos_of_ne_zero hk
    let enc : ℕ × ℕ → ℕ := fun p => p.1 * kernel + p.2
    have hinj : Set.InjOn enc ((range inC ×ˢ F : Finset (ℕ × ℕ)) : Set (ℕ × ℕ)) := by
      rintro ⟨c, k⟩ h1 ⟨c', k'⟩ h2 h
      simp only [Finset.coe_product, Set.mem_prod, Finset.mem_coe] at h1 h2
      have hk1 : k < kernel := Finset.mem_range.mp (Finset.mem_filter.mp h1.2).1
      have hk2 : k' < kernel := Finset.mem_range.mp (Finset.mem_filter.mp h2.2).1
      simp only [enc] at h
      have hd : (c * kernel + k) / kernel = (c' * kernel + k') / kernel := by rw [h]
      rw [Nat.mul_comm c, Nat.mul_comm c', Nat.mul_add_div hkpos, Nat.mul_add_div hkpos, Nat.div_eq_of_lt hk1, Nat.div_eq_of_lt hk2] at hd
      simp only [add_zero] at hd
      subst hd
      simp only [Prod.mk.injEq, true_and]; omega
    have hsum : ∑ c ∈ range inC, ∑ k ∈ F, x c ((t - k) / stride) * weight c k =
        ∑ j ∈ (range inC ×ˢ F).image enc, x (j / kernel) ((t - j % kernel) / stride) * weight (j / kernel) (j % kernel) := by
      rw [Finset.sum_image hinj, Finset.sum_product]
      apply Finset.sum_congr rfl
      intro c _
      apply Finset.sum_congr rfl
      intro k hk'
      have hk1 : k < kernel := Finset.mem_range.mp (Finset.mem_filter.mp hk').1
      simp only [enc]
      rw [Nat.mul_comm c, Nat.mul_add_div hkpos, Nat.div_eq_of_lt hk1, Nat.mul_add_mod, Nat.mod_eq_of_lt hk1, add_zero]
    rw [hsum]
    refine hall _ (fun j => x (j / kernel) ((t - j % kernel) / stride)) (fun j => weight (j / kernel) (j % kernel)) ?_
      (fun i _ => hx _ _) (fun i _ => hw _ _)
    rw [Finset.card_image_of_injOn hinj, Finset.card_product, Finset.card_range, mul_comm]
    exact Nat.mul_le_mul (hcount.trans (le_max_left _ _)) hin

/-- C33 fails for transposed convolutions: 8 input channels, one output channel, one tap, 2-bit unsigned operands: 4 bits are declared, the
output can be 72. -/
theorem C33_conv_transpose_overflows :
    maxAccBitWidthConvTranspose 2 2 [8, 1, 1] [1] = some 4 ∧ Spec.IsCode false false 2 3 ∧
    convTranspose1dAcc 8 1 1 1 (fun _ _ => 3) (fun _ _ => 3) 0 = 72 ∧ ¬ Spec.IsCode false false 4 72 := by
  unfold Spec.IsCode; decide +kernel

/-- C33 fails for two-dimensional kernels of transposed convolutions too, because the taps of the dimensions are added rather than
multiplied: a 3x3 kernel with stride 1 counts 6 taps instead of 9. -/
theorem C33_conv_transpose_2d_sums_taps :
    maxAccBitWidthConvTranspose 4 4 [1, 1, 3, 3] [1, 1] = some 11 ∧
    Spec.IsCode false false 4 15 ∧ (9 : ℤ) * (15 * 15) = 2025 ∧ Spec.IsCode false false 11 2025 ∧
    maxAccBitWidthConvTranspose 4 4 [1, 1, 5, 5] [1, 1] = some 12 ∧ (25 : ℤ) * (15 * 15) = 5625 ∧ ¬ Spec.IsCode false false 12 5625 := by
  unfold Spec.IsCode; decide +kernel

/-- C33, average pooling, unsigned input of two or more bits: the sum over the window fits the declared width. -/
theorem C33_avg_pool_partial (b n : ℕ) (hb : 2 ≤ b) (hn : 1 ≤ n) (s : Finset ℕ) (x : ℕ → ℤ) (hs : s.card ≤ n)
    (hx : ∀ i ∈ s, Spec.IsCode false false b (x i)) : Spec.IsCode false false (maxAccBitWidthAvgPool b n) (∑ i ∈ s, x i) := by
  have ho : maxAccBitWidthLinear b 1 [1, n] = some (maxAccBitWidthAvgPool b n) := by
    rw [maxAccBitWidthLinear_eq]
    simp only [maxAccBitWidthAvgPool, maxUint_cast]
    rw [← ceilLog2_natCast]
    congr 2
    push_cast; ring
  have := (C33_unsigned_iff b 1 n 1 (by omega) le_rfl hn _ ho).mpr (by rintro ⟨h, -⟩; omega) s x (fun _ => 1) hs hx
    (by intro i _; unfold Spec.IsCode; decide)
  simpa using this

/-- C33 fails for average pooling of signed inputs: 2-bit codes, five of them: 4 bits are declared and -10 does not fit. -/
theorem C33_avg_pool_signed_overflows :
    maxAccBitWidthAvgPool 2 5 = 4 ∧ Spec.IsCode true false 2 (-2) ∧ ¬ Spec.IsCode true false 4 (5 * -2) := by
  unfold Spec.IsCode; decide +kernel

/-- C33 fails for the Hadamard classifier on every unsigned input width and size (except a single one-bit input): the first row of the
Hadamard matrix is all ones and the output is negated, so the largest codes produce an accumulator that the declared signed width cannot
hold. -/
theorem C33_hadamard_always_overflows (b n : ℕ) (h : 2 ≤ (2 ^ b - 1) * n) :
    Spec.IsCode false false b (2 ^ b - 1) ∧
    ¬ Spec.IsCode true false (hadamardMaxOutputBitWidth b n) (-∑ _i ∈ range n, (2 ^ b - 1)) := by
  have g1 : (1 : ℤ) ≤ 2 ^ b := one_le_pow₀ (by norm_num)
  have ho : hadamardMaxOutputBitWidth b n = Nat.clog 2 ((2 ^ b - 1) * n) := by
    simp only [hadamardMaxOutputBitWidth, maxUint_cast]
    rw [← ceilLog2_natCast]; push_cast; rfl
  have hlt := two_pow_pred_lt _ h
  have hltz : (2 : ℤ) ^ (Nat.clog 2 ((2 ^ b - 1) * n) - 1) < ((2 : ℤ) ^ b - 1) * n := by
    have h1 : 1 ≤ 2 ^ b := Nat.one_le_two_pow
    have e : (((2 ^ b - 1) * n : ℕ) : ℤ) = ((2 : ℤ) ^ b - 1) * n := by push_cast [Nat.cast_sub h1]; ring
    rw [← e]; exact_mod_cast hlt
  constructor
  · simp only [Spec.IsCode, Spec.lo, Spec.hi, Bool.false_eq_true, if_false]; constructor <;> linarith
  · rintro ⟨h1, -⟩
    rw [ho] at h1
    simp only [Spec.lo, Bool.false_eq_true, if_false, if_true, sum_const, card_range, nsmul_eq_mul] at h1
    linarith

example : maxAccBitWidthLinear 8 8 [10, 784] = some 26 ∧ maxAccBitWidthConv 4 4 [64, 32, 3, 3] = some 16 ∧
    hadamardMaxOutputBitWidth 8 4 = 10 ∧ maxAccBitWidthConvTranspose 8 8 [4, 4, 5] [2] = some 20 := by decide +kernel

end Brevitas.Props
