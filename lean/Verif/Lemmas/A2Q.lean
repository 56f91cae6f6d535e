import Verif.Model.A2Q
import Verif.Lemmas.Scaling
import Mathlib.Data.List.Perm.Basic
import Mathlib.Algebra.Order.BigOperators.Group.List

set_option linter.unusedSectionVars false

namespace Brevitas

variable {K : Type*} [Field K] [LinearOrder K] [IsStrictOrderedRing K] [FloorRing K]

/-- Sum of the positive parts. -/
def pos (l : List K) : K := (l.map fun a => max a 0).sum
/-- Sum of the negative parts. -/
def neg (l : List K) : K := (l.map fun a => max (-a) 0).sum

theorem pos_nonneg (l : List K) : 0 ≤ pos l := by
  apply List.sum_nonneg; intro a ha
  obtain ⟨b, -, rfl⟩ := List.mem_map.mp ha
  exact le_max_right _ _

theorem neg_nonneg' (l : List K) : 0 ≤ neg l := by
  apply List.sum_nonneg; intro a ha
  obtain ⟨b, -, rfl⟩ := List.mem_map.mp ha
  exact le_max_right _ _

theorem l1Norm_eq (l : List K) : l1Norm l = pos l + neg l := by
  induction l with
  | nil => simp [l1Norm, pos, neg]
  | cons a t ih =>
    simp only [l1Norm, pos, neg, List.map_cons, List.sum_cons] at ih ⊢
    rw [ih]
    rcases le_total 0 a with h | h
    · rw [abs_of_nonneg h, max_eq_left h, max_eq_right (by linarith)]; ring
    · rw [abs_of_nonpos h, max_eq_right h, max_eq_left (by linarith)]; ring

theorem sum_eq_pos_sub_neg (l : List K) : l.sum = pos l - neg l := by
  induction l with
  | nil => simp [pos, neg]
  | cons a t ih =>
    simp only [pos, neg, List.map_cons, List.sum_cons] at ih ⊢
    rw [ih]
    rcases le_total 0 a with h | h
    · rw [max_eq_left h, max_eq_right (by linarith)]; ring
    · rw [max_eq_right h, max_eq_left (by linarith)]; ring

/-- A sub-multiset of a list sums to at most the sum of the positive parts. -/
theorem subperm_sum_le {l ps : List ℤ} (h : l.Subperm ps) : l.sum ≤ (ps.map fun p => max p 0).sum := by
  obtain ⟨l', hp, hs⟩ := h
  rw [← hp.sum_eq]
  clear hp
  induction hs with
  | slnil => simp
  | cons a _ ih => simp only [List.map_cons, List.sum_cons]; have := le_max_right a 0; omega
  | cons_cons a _ ih => simp only [List.map_cons, List.sum_cons]; have := le_max_left a 0; omega

theorem le_subperm_sum {l ps : List ℤ} (h : l.Subperm ps) : -(ps.map fun p => max (-p) 0).sum ≤ l.sum := by
  obtain ⟨l', hp, hs⟩ := h
  rw [← hp.sum_eq]
  clear hp
  induction hs with
  | slnil => simp
  | cons a _ ih => simp only [List.map_cons, List.sum_cons]; have := le_max_right (-a) 0; omega
  | cons_cons a _ ih => simp only [List.map_cons, List.sum_cons]; have := le_max_left (-a) 0; omega

/-- Worst case of the positive products. -/
theorem zip_pos_le {L H : ℤ} (hL : 0 ≤ L) (hH : 0 ≤ H) :
    ∀ (qs xs : List ℤ), (∀ x ∈ xs, -L ≤ x ∧ x ≤ H) →
    (((List.zipWith (· * ·) qs xs).map fun p => max p 0).sum : ℤ) ≤
      H * (qs.map fun q => max q 0).sum + L * (qs.map fun q => max (-q) 0).sum := by
  intro qs
  induction qs with
  | nil => intro xs _; simp
  | cons q t ih =>
    intro xs hx
    have nn1 : 0 ≤ (t.map fun q => max q 0).sum := List.sum_nonneg (by
      intro a ha; obtain ⟨b, -, rfl⟩ := List.mem_map.mp ha; exact le_max_right _ _)
    have nn2 : 0 ≤ (t.map fun q => max (-q) 0).sum := List.sum_nonneg (by
      intro a ha; obtain ⟨b, -, rfl⟩ := List.mem_map.mp ha; exact le_max_right _ _)
    have m1 := le_max_right q 0
    have m2 := le_max_right (-q) 0
    cases xs with
    | nil =>
      simp only [List.zipWith_nil_right, List.map_nil, List.sum_nil, List.map_cons, List.sum_cons]
      have := mul_nonneg hH (add_nonneg m1 nn1)
      have := mul_nonneg hL (add_nonneg m2 nn2)
      linarith
    | cons x xs =>
      simp only [List.zipWith_cons_cons, List.map_cons, List.sum_cons]
      have ht := ih xs fun y hy => hx y (List.mem_cons_of_mem _ hy)
      obtain ⟨h1, h2⟩ := hx x (by simp)
      have key : max (q * x) 0 ≤ H * max q 0 + L * max (-q) 0 := by
        rcases le_total 0 q with h | h
        · rw [max_eq_left h, max_eq_right (by linarith : -q ≤ 0)]
          apply max_le
          · nlinarith
          · nlinarith
        · rw [max_eq_right h, max_eq_left (by linarith : 0 ≤ -q)]
          apply max_le
          · nlinarith
          · nlinarith
      linarith

theorem zip_neg_le {L H : ℤ} (hL : 0 ≤ L) (hH : 0 ≤ H) (qs xs : List ℤ) (hx : ∀ x ∈ xs, -L ≤ x ∧ x ≤ H) :
    (((List.zipWith (· * ·) qs xs).map fun p => max (-p) 0).sum : ℤ) ≤
      L * (qs.map fun q => max q 0).sum + H * (qs.map fun q => max (-q) 0).sum := by
  have h := zip_pos_le hH hL qs (xs.map fun x => -x) (by
    intro x hx'
    obtain ⟨y, hy, rfl⟩ := List.mem_map.mp hx'
    have := hx y hy; omega)
  have e : (List.zipWith (· * ·) qs (xs.map fun x => -x)).map (fun p => max p 0) =
      (List.zipWith (· * ·) qs xs).map fun p => max (-p) 0 := by
    rw [List.zipWith_map_right, List.map_zipWith, List.map_zipWith]
    congr 1
    funext a b
    rw [mul_neg]
  rw [e] at h
  exact h

/-- All partial sums of a dot product with inputs in `[-L, H]`, in terms of the positive and negative weight mass. -/
theorem partial_sum_bounds {L H : ℤ} (hL : 0 ≤ L) (hH : 0 ≤ H) (qs xs : List ℤ) (hx : ∀ x ∈ xs, -L ≤ x ∧ x ≤ H)
    {l : List ℤ} (hl : l.Subperm (List.zipWith (· * ·) qs xs)) :
    l.sum ≤ H * (qs.map fun q => max q 0).sum + L * (qs.map fun q => max (-q) 0).sum ∧
    -(L * (qs.map fun q => max q 0).sum + H * (qs.map fun q => max (-q) 0).sum) ≤ l.sum := by
  have h1 := subperm_sum_le hl
  have h2 := le_subperm_sum hl
  have h3 := zip_pos_le hL hH qs xs hx
  have h4 := zip_neg_le hL hH qs xs hx
  constructor <;> linarith

/-- Rounding to zero and clamping to a signed container only ever shrinks towards zero. -/
theorem code_roundToZero_shrinks (b : ℕ) (hb : 1 ≤ b) (narrow : Bool) (y : K) :
    max ((code true narrow b (roundToZero y) : ℤ) : K) 0 ≤ max y 0 ∧
    max (-((code true narrow b (roundToZero y) : ℤ) : K)) 0 ≤ max (-y) 0 := by
  have hp : (1 : ℤ) ≤ 2 ^ (b - 1) := one_le_pow₀ (by norm_num)
  have hlo : Spec.lo true narrow b ≤ 0 := by cases narrow <;> simp [Spec.lo] <;> omega
  have hhi : 0 ≤ Spec.hi true narrow b := by cases narrow <;> simp [Spec.hi] <;> omega
  rcases le_or_gt 0 y with h | h
  · have h1 : 0 ≤ roundToZero y := by rw [roundToZero_of_nonneg h]; exact Int.floor_nonneg.mpr h
    have h2 : ((roundToZero y : ℤ) : K) ≤ y := by rw [roundToZero_of_nonneg h]; exact Int.floor_le y
    have h3 : 0 ≤ code true narrow b (roundToZero y) ∧ code true narrow b (roundToZero y) ≤ roundToZero y := by
      unfold code; omega
    have h4 : (0 : K) ≤ (code true narrow b (roundToZero y) : ℤ) := by exact_mod_cast h3.1
    have h5 : ((code true narrow b (roundToZero y) : ℤ) : K) ≤ (roundToZero y : ℤ) := by exact_mod_cast h3.2
    refine ⟨max_le_max (h5.trans h2) le_rfl, ?_⟩
    rw [max_eq_right (by linarith)]; exact le_max_right _ _
  · have h1 : roundToZero y ≤ 0 := by rw [roundToZero_of_neg h]; exact Int.ceil_nonpos.mpr h.le
    have h2 : y ≤ ((roundToZero y : ℤ) : K) := by rw [roundToZero_of_neg h]; exact Int.le_ceil y
    have h3 : code true narrow b (roundToZero y) ≤ 0 ∧ roundToZero y ≤ code true narrow b (roundToZero y) := by
      unfold code; omega
    have h4 : ((code true narrow b (roundToZero y) : ℤ) : K) ≤ 0 := by exact_mod_cast h3.1
    have h5 : ((roundToZero y : ℤ) : K) ≤ (code true narrow b (roundToZero y) : ℤ) := by exact_mod_cast h3.2
    constructor
    · rw [max_eq_right h4]; exact le_max_right _ _
    · exact max_le_max (by linarith) le_rfl

theorem sum_code_le (b : ℕ) (hb : 1 ≤ b) (narrow : Bool) (ys : List K) :
    ((((ys.map fun y => code true narrow b (roundToZero y)).map fun q => max q 0).sum : ℤ) : K) ≤ pos ys ∧
    ((((ys.map fun y => code true narrow b (roundToZero y)).map fun q => max (-q) 0).sum : ℤ) : K) ≤ neg ys := by
  induction ys with
  | nil => simp [pos, neg]
  | cons y t ih =>
    have hy := code_roundToZero_shrinks b hb narrow y
    simp only [pos, neg, List.map_cons, List.sum_cons, List.map_map, Int.cast_add, Int.cast_max, Int.cast_neg,
      Int.cast_zero] at ih ⊢
    constructor
    · linarith [ih.1, hy.1]
    · linarith [ih.2, hy.2]

theorem pos_div (l : List K) (p : K) (hp : 0 < p) : pos (l.map fun w => w / p) = pos l / p := by
  induction l with
  | nil => simp [pos]
  | cons a t ih =>
    simp only [pos, List.map_cons, List.sum_cons] at ih ⊢
    rw [ih, add_div]
    congr 1
    have := max_div_div_right hp.le a 0
    rw [zero_div] at this
    exact this

theorem neg_div' (l : List K) (p : K) (hp : 0 < p) : neg (l.map fun w => w / p) = neg l / p := by
  induction l with
  | nil => simp [neg]
  | cons a t ih =>
    simp only [neg, List.map_cons, List.sum_cons] at ih ⊢
    rw [ih, add_div]
    congr 1
    rw [← neg_div]
    have := max_div_div_right hp.le (-a) 0
    rw [zero_div] at this
    exact this

/-- The centred weights sum to zero. -/
theorem zeroCenter_sum (ws : List K) (h : ws ≠ []) : (ws.map fun w => w + zeroCenter ws).sum = 0 := by
  have key : ∀ (l : List K) (z : K), (l.map fun w => w + z).sum = l.sum + l.length * z := by
    intro l z
    induction l with
    | nil => simp
    | cons a t ih => simp only [List.map_cons, List.sum_cons, ih, List.length_cons]; push_cast; ring
  rw [key, zeroCenter]
  have : (ws.length : K) ≠ 0 := by
    have := List.length_pos_iff.mpr h
    positivity
  field_simp
  ring

/-- The pre-scale is positive and at least `dw / T`. -/
theorem a2qPreScaling_spec {m : Option K} {T dw s g p : K} (hs : 0 < s) (hT : 0 ≤ T) (hd : 0 ≤ dw)
    (h : a2qPreScaling m T dw s g = some p) : 0 ≤ p ∧ dw ≤ T * p := by
  simp only [a2qPreScaling, if_neg hs.ne'] at h
  split_ifs at h with hg
  have hp := (Option.some.inj h).symm
  have g0 : 0 ≤ min (|g| / s) T := le_min (by positivity) hT
  have g1 : 0 < min (|g| / s) T := lt_of_le_of_ne g0 (Ne.symm hg)
  have hle : dw / min (|g| / s) T ≤ p := by rw [hp]; exact le_clampMinVal _ _
  have h0 : 0 ≤ dw / min (|g| / s) T := by positivity
  have hp0 : 0 ≤ p := h0.trans hle
  refine ⟨hp0, ?_⟩
  have := (div_le_iff₀ g1).mp hle
  have h3 : p * min (|g| / s) T ≤ p * T := mul_le_mul_of_nonneg_left (min_le_right _ _) hp0
  linarith

end Brevitas
