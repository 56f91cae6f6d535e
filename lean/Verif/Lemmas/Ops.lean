import Verif.Model.IntQuant
import Verif.Spec.Int
import Mathlib.Tactic.Linarith
import Mathlib.Tactic.Ring
import Mathlib.Tactic.FieldSimp
import Mathlib.Tactic.NormNum
import Mathlib.Tactic.Positivity
import Mathlib.Tactic.SplitIfs
import Mathlib.Tactic.Push

set_option linter.unusedSectionVars false

namespace Brevitas

variable {K : Type*} [Field K] [LinearOrder K] [IsStrictOrderedRing K] [FloorRing K]

/-! ### Rounding -/

/-- A float-to-int function that always picks the floor or the ceiling. -/
def Faithful (r : K → ℤ) : Prop := ∀ x, ⌊x⌋ ≤ r x ∧ r x ≤ ⌈x⌉

theorem Faithful.int {r : K → ℤ} (h : Faithful r) (n : ℤ) : r n = n := by
  have := h n; simp only [Int.floor_intCast, Int.ceil_intCast] at this; omega

theorem Faithful.err_lt {r : K → ℤ} (h : Faithful r) (x : K) : |(r x : K) - x| < 1 := by
  have h1 : ((⌊x⌋ : ℤ) : K) ≤ r x := by exact_mod_cast (h x).1
  have h2 : ((r x : ℤ) : K) ≤ ⌈x⌉ := by exact_mod_cast (h x).2
  have h3 := Int.lt_floor_add_one x
  have h4 := Int.ceil_lt_add_one x
  rw [abs_lt]; constructor <;> linarith

/-- Faithful functions that are monotone on each unit interval are monotone. -/
theorem Faithful.mono {r : K → ℤ} (h : Faithful r)
    (hu : ∀ x y, x ≤ y → ⌊x⌋ = ⌊y⌋ → r x ≤ r y) : Monotone r := by
  intro x y hxy
  rcases (Int.floor_mono hxy).lt_or_eq with hlt | heq
  · have h1 := (h x).2
    have h2 := (h y).1
    have h3 := Int.ceil_le_floor_add_one x
    omega
  · exact hu x y hxy heq

theorem torchRound_faithful : Faithful (torchRound (K := K)) := by
  intro x
  have h1 := Int.floor_le x
  have h2 := Int.floor_le_ceil x
  have key : x - ⌊x⌋ ≠ 0 → ⌊x⌋ + 1 ≤ ⌈x⌉ := by
    intro hne
    have : (⌊x⌋ : K) < x := by
      rcases h1.lt_or_eq with h | h
      · exact h
      · exact absurd (by linarith) hne
    exact Int.add_one_le_iff.mpr (Int.lt_ceil.mpr this)
  simp only [torchRound]
  split_ifs with a b c
  · exact ⟨le_refl _, h2⟩
  · exact ⟨by omega, key (by intro h; rw [h] at b; norm_num at b)⟩
  · exact ⟨le_refl _, h2⟩
  · exact ⟨by omega, key (by intro h; rw [h] at a; norm_num at a)⟩

theorem torchFloor_faithful : Faithful (torchFloor (K := K)) := fun x => ⟨le_refl _, Int.floor_le_ceil x⟩

theorem torchCeil_faithful : Faithful (torchCeil (K := K)) := fun x => ⟨Int.floor_le_ceil x, le_refl _⟩

theorem torchRound_mono : Monotone (torchRound (K := K)) := by
  apply torchRound_faithful.mono
  intro x y hxy hf
  simp only [torchRound, hf]
  split_ifs <;> first | omega | (exfalso; linarith)

theorem torchFloor_mono : Monotone (torchFloor (K := K)) := Int.floor_mono

theorem torchCeil_mono : Monotone (torchCeil (K := K)) := Int.ceil_mono

theorem roundToZero_of_nonneg {x : K} (h : 0 ≤ x) : roundToZero x = ⌊x⌋ := by
  simp only [roundToZero, torchSign, torchFloor, abs_of_nonneg h]
  split_ifs with h1 h2
  · linarith
  · simp
  · have : x = 0 := by linarith
    simp [this]

theorem roundToZero_of_neg {x : K} (h : x < 0) : roundToZero x = ⌈x⌉ := by
  simp only [roundToZero, torchSign, torchFloor, abs_of_neg h, if_pos h, Int.floor_neg]
  ring

theorem roundToZero_faithful : Faithful (roundToZero (K := K)) := by
  intro x
  rcases lt_or_ge x 0 with h | h
  · rw [roundToZero_of_neg h]; exact ⟨Int.floor_le_ceil x, le_refl _⟩
  · rw [roundToZero_of_nonneg h]; exact ⟨le_refl _, Int.floor_le_ceil x⟩

theorem floor_eq_sign {x y : K} (hf : ⌊x⌋ = ⌊y⌋) : x < 0 ↔ y < 0 := by
  rw [← Int.floor_lt_zero (a := x), ← Int.floor_lt_zero (a := y), hf]

theorem roundToZero_mono : Monotone (roundToZero (K := K)) := by
  apply roundToZero_faithful.mono
  intro x y hxy hf
  rcases lt_or_ge x 0 with h | h
  · rw [roundToZero_of_neg h, roundToZero_of_neg ((floor_eq_sign hf).1 h)]
    exact Int.ceil_mono hxy
  · rw [roundToZero_of_nonneg h, roundToZero_of_nonneg (by linarith)]
    exact Int.floor_mono hxy

theorem dpuRound_def (x : K) :
    dpuRound x = if x < 0 ∧ x - (⌊x⌋ : K) = 1 / 2 then ⌈x⌉ else torchRound x := rfl

theorem dpuRound_faithful : Faithful (dpuRound (K := K)) := by
  intro x
  rw [dpuRound_def]
  split_ifs with h
  · exact torchCeil_faithful x
  · exact torchRound_faithful x

theorem dpuRound_mono : Monotone (dpuRound (K := K)) := by
  apply dpuRound_faithful.mono
  intro x y hxy hf
  have hs := floor_eq_sign hf
  rw [dpuRound_def, dpuRound_def]
  split_ifs with h1 h2 h2
  · exact Int.ceil_mono hxy
  · -- x is a negative tie, y is not a negative tie
    have hy : y < 0 := hs.1 h1.1
    have hne : y - ⌊y⌋ ≠ 1 / 2 := fun h => h2 ⟨hy, h⟩
    have hlt : 1 / 2 < y - ⌊y⌋ := by
      have hx := h1.2
      rw [hf] at hx
      rcases lt_trichotomy (y - ⌊y⌋) (1 / 2) with h | h | h
      · linarith
      · exact absurd h hne
      · exact h
    have : torchRound y = ⌊y⌋ + 1 := by
      simp only [torchRound]; rw [if_neg (by linarith), if_pos hlt]
    rw [this, ← hf]
    exact Int.ceil_le_floor_add_one x
  · -- y is a negative tie
    have hty : torchRound x ≤ ⌈x⌉ := (torchRound_faithful x).2
    exact hty.trans (Int.ceil_mono hxy)
  · exact torchRound_mono hxy

/-- A rounding function to a nearest integer: error at most one half. -/
theorem torchRound_err (x : K) : |(torchRound x : K) - x| ≤ 1 / 2 := by
  have h1 := Int.floor_le x
  have h2 := Int.lt_floor_add_one x
  simp only [torchRound]
  split_ifs <;> rw [abs_le] <;> push_cast <;> constructor <;> linarith

theorem dpuRound_err (x : K) : |(dpuRound x : K) - x| ≤ 1 / 2 := by
  rw [dpuRound_def]
  split_ifs with h
  · have h1 := Int.ceil_le_floor_add_one x
    have h2 := Int.le_ceil x
    have h3 : ((⌈x⌉ : ℤ) : K) ≤ ⌊x⌋ + 1 := by exact_mod_cast h1
    have h4 := h.2
    rw [abs_le]; constructor <;> linarith
  · exact torchRound_err x

theorem isNearestInt_of_err {x : K} {n : ℤ} (h : |(n : K) - x| ≤ 1 / 2) : Spec.IsNearestInt x n := by
  intro m
  rcases eq_or_ne m n with rfl | hne
  · exact le_refl _
  · have h1 : (1 : K) ≤ |(n : K) - m| := by
      have : (1 : ℤ) ≤ |n - m| := Int.one_le_abs (sub_ne_zero.mpr hne.symm)
      exact_mod_cast this
    have h2 : |(n : K) - m| ≤ |(n : K) - x| + |x - m| := abs_sub_le _ _ _
    have h3 : |x - (n : K)| = |(n : K) - x| := abs_sub_comm _ _
    linarith

/-- The tie rule of `torch.round`. -/
theorem torchRound_tie {x : K} (h : |(torchRound x : K) - x| = 1 / 2) : Even (torchRound x) := by
  have h1 := Int.floor_le x
  have h2 := Int.lt_floor_add_one x
  revert h
  simp only [torchRound]
  split_ifs with a b c <;> intro h
  · exfalso
    rw [abs_of_nonpos (by linarith)] at h; linarith
  · exfalso
    push_cast at h
    rw [abs_of_nonneg (by linarith)] at h; linarith
  · exact Int.even_iff.mpr c
  · exact Int.even_iff.mpr (by omega)

/-- Uniqueness of nearest-even rounding. -/
theorem torchRound_unique {x : K} {n : ℤ} (h : |(n : K) - x| ≤ 1 / 2)
    (ht : |(n : K) - x| = 1 / 2 → Even n) : torchRound x = n := by
  by_contra hne
  have h1 := torchRound_err x
  have h3 : (1 : K) ≤ |(n : K) - torchRound x| := by
    have : (1 : ℤ) ≤ |n - torchRound x| := Int.one_le_abs (sub_ne_zero.mpr (Ne.symm hne))
    exact_mod_cast this
  have h4 : |(n : K) - torchRound x| ≤ |(n : K) - x| + |x - torchRound x| := abs_sub_le _ _ _
  have h5 : |x - (torchRound x : K)| = |(torchRound x : K) - x| := abs_sub_comm _ _
  have e1 : |(n : K) - x| = 1 / 2 := by linarith
  have e2 : |(torchRound x : K) - x| = 1 / 2 := by linarith
  have e3 : |(n : K) - torchRound x| = 1 := by linarith
  have e4 : |n - torchRound x| = 1 := by exact_mod_cast e3
  have p1 := Int.even_iff.mp (ht e1)
  have p2 := Int.even_iff.mp (torchRound_tie e2)
  rcases abs_eq (by norm_num : (0 : ℤ) ≤ 1) |>.mp e4 with h | h <;> omega

theorem torchRound_neg (x : K) : torchRound (-x) = -torchRound x := by
  apply torchRound_unique
  · have h := torchRound_err x
    have : |((-torchRound x : ℤ) : K) - -x| = |(torchRound x : K) - x| := by
      push_cast
      rw [← abs_neg]; congr 1; ring
    rw [this]; exact h
  · intro h
    have : |((-torchRound x : ℤ) : K) - -x| = |(torchRound x : K) - x| := by
      push_cast
      rw [← abs_neg]; congr 1; ring
    rw [this] at h
    exact (torchRound_tie h).neg

theorem torchRound_add_even (x : K) {k : ℤ} (hk : Even k) : torchRound (x + k) = torchRound x + k := by
  apply torchRound_unique
  · have h := torchRound_err x
    have : |((torchRound x + k : ℤ) : K) - (x + k)| = |(torchRound x : K) - x| := by
      push_cast; congr 1; ring
    rw [this]; exact h
  · intro h
    have : |((torchRound x + k : ℤ) : K) - (x + k)| = |(torchRound x : K) - x| := by
      push_cast; congr 1; ring
    rw [this] at h
    exact (torchRound_tie h).add hk

theorem roundToZero_neg (x : K) : roundToZero (-x) = -roundToZero x := by
  simp only [roundToZero, torchSign, abs_neg]
  split_ifs <;> first | (exfalso; linarith) | ring1

theorem Shipped.faithful {r : K → ℤ} (h : Shipped r) : Faithful r := by
  cases h
  exacts [torchRound_faithful, torchFloor_faithful, torchCeil_faithful, roundToZero_faithful, dpuRound_faithful]

theorem Shipped.monotone {r : K → ℤ} (h : Shipped r) : Monotone r := by
  cases h
  exacts [torchRound_mono, torchFloor_mono, torchCeil_mono, roundToZero_mono, dpuRound_mono]

/-! ### Clamping -/

theorem tensorClamp_eq (x lo hi : K) : tensorClamp x lo hi = max (min x hi) lo := by
  simp only [tensorClamp]
  rcases le_total x hi with h | h
  · rw [if_neg (not_lt.mpr h), min_eq_left h]
    split_ifs with h2
    · rw [max_eq_right h2.le]
    · rw [max_eq_left (not_lt.mp h2)]
  · rw [min_eq_right h]
    by_cases h1 : x > hi
    · rw [if_pos h1]
      split_ifs with h2
      · rw [max_eq_right h2.le]
      · rw [max_eq_left (not_lt.mp h2)]
    · have : x = hi := le_antisymm (not_lt.mp h1) h
      subst this
      rw [if_neg h1]
      split_ifs with h2
      · rw [max_eq_right h2.le]
      · rw [max_eq_left (not_lt.mp h2)]

theorem tensorClamp_mono {x y : K} (lo hi : K) (h : x ≤ y) : tensorClamp x lo hi ≤ tensorClamp y lo hi := by
  rw [tensorClamp_eq, tensorClamp_eq]
  exact max_le_max (min_le_min h le_rfl) le_rfl

theorem tensorClamp_of_mem {x lo hi : K} (h1 : lo ≤ x) (h2 : x ≤ hi) : tensorClamp x lo hi = x := by
  rw [tensorClamp_eq, min_eq_left h2, max_eq_left h1]

/-- Integer clamp corresponding to `tensorClamp` on integer arguments. -/
theorem tensorClamp_int (n lo hi : ℤ) : tensorClamp (n : K) lo hi = ((max (min n hi) lo : ℤ) : K) := by
  rw [tensorClamp_eq]; push_cast; rfl

/-! ### Integer ranges -/

theorem zpow_pred_eq {b : ℕ} (hb : 1 ≤ b) : (2 : K) ^ ((b : ℤ) - 1) = ((2 ^ (b - 1) : ℤ) : K) := by
  have : ((b : ℤ) - 1) = ((b - 1 : ℕ) : ℤ) := by omega
  rw [this, zpow_natCast]; push_cast; rfl

theorem maxInt_eq (signed narrow : Bool) {b : ℕ} (hb : 1 ≤ b) :
    maxInt signed narrow b = ((Spec.hi signed narrow b : ℤ) : K) := by
  cases signed <;> cases narrow <;>
    simp [maxInt, Spec.hi, zpow_pred_eq hb, zpow_natCast]

theorem minInt_eq (signed narrow : Bool) {b : ℕ} (hb : 1 ≤ b) :
    minInt signed narrow b = ((Spec.lo signed narrow b : ℤ) : K) := by
  cases signed <;> cases narrow <;>
    simp [minInt, Spec.lo, zpow_pred_eq hb]
  ring

theorem lo_le_hi (signed narrow : Bool) {b : ℕ} (hb : 1 ≤ b) : Spec.lo signed narrow b ≤ Spec.hi signed narrow b := by
  have h1 : (1 : ℤ) ≤ 2 ^ (b - 1) := one_le_pow₀ (by norm_num)
  have h2 : (2 : ℤ) ^ b = 2 * 2 ^ (b - 1) := by
    rw [← pow_succ']; congr 1; omega
  cases signed <;> cases narrow <;> simp [Spec.lo, Spec.hi] <;> omega

/-! ### The quantiser as an integer function -/

/-- The code chosen by the quantiser, as an integer. -/
def code (signed narrow : Bool) (b : ℕ) (n : ℤ) : ℤ :=
  max (min n (Spec.hi signed narrow b)) (Spec.lo signed narrow b)

theorem code_isCode (signed narrow : Bool) {b : ℕ} (hb : 1 ≤ b) (n : ℤ) :
    Spec.IsCode signed narrow b (code signed narrow b n) := by
  have := lo_le_hi signed narrow hb
  unfold Spec.IsCode code; omega

theorem code_of_isCode {signed narrow : Bool} {b : ℕ} {n : ℤ} (h : Spec.IsCode signed narrow b n) :
    code signed narrow b n = n := by
  unfold Spec.IsCode at h; unfold code; omega

theorem code_mono (signed narrow : Bool) (b : ℕ) : Monotone (code signed narrow b) := by
  intro m n h; unfold code; omega

theorem toInt_eq_code (c : IntQuantCfg K) (s z : K) {b : ℕ} (hb : 1 ≤ b) (x : K) :
    c.toInt s z b x = (code c.signed c.narrow b (c.floatToInt (x / s + z)) : ℤ) := by
  simp only [IntQuantCfg.toInt, IntQuantCfg.minInt, IntQuantCfg.maxInt, minInt_eq _ _ hb, maxInt_eq _ _ hb,
    tensorClamp_int, code]

/-- Clamping is the projection on the integer interval: it never increases the distance to a code. -/
theorem abs_code_sub_le (signed narrow : Bool) {b : ℕ} (hb : 1 ≤ b) (y : K) (n m : ℤ)
    (hn : Spec.IsNearestInt y n) (hm : Spec.IsCode signed narrow b m) :
    |y - code signed narrow b n| ≤ |y - m| := by
  have hlh := lo_le_hi signed narrow hb
  have hnm := hn m
  unfold code
  obtain ⟨h1, h2⟩ := hm
  rcases lt_or_ge (Spec.hi signed narrow b) n with h | h
  · -- saturates high
    rw [min_eq_right h.le, max_eq_left hlh]
    have hn1 := hn (Spec.hi signed narrow b)
    have a : ((Spec.hi signed narrow b : ℤ) : K) + 1 ≤ n := by exact_mod_cast h
    have hy : ((Spec.hi signed narrow b : ℤ) : K) ≤ y := by
      by_contra hc
      push Not at hc
      rw [abs_of_neg (by linarith), abs_of_neg (by linarith)] at hn1
      linarith
    have c : (m : K) ≤ (Spec.hi signed narrow b : ℤ) := by exact_mod_cast h2
    rw [abs_of_nonneg (by linarith), abs_of_nonneg (by linarith)]
    linarith
  · rw [min_eq_left h]
    rcases lt_or_ge n (Spec.lo signed narrow b) with h' | h'
    · rw [max_eq_right h'.le]
      have hn1 := hn (Spec.lo signed narrow b)
      have a : (n : K) + 1 ≤ (Spec.lo signed narrow b : ℤ) := by exact_mod_cast h'
      have hy : y ≤ ((Spec.lo signed narrow b : ℤ) : K) := by
        by_contra hc
        push Not at hc
        rw [abs_of_pos (by linarith), abs_of_pos (by linarith)] at hn1
        linarith
      have c : ((Spec.lo signed narrow b : ℤ) : K) ≤ m := by exact_mod_cast h1
      rw [abs_of_nonpos (by linarith), abs_of_nonpos (by linarith)]
      linarith
    · rw [max_eq_left h']; exact hnm

end Brevitas
