import Verif.Model.Pool
import Verif.Lemmas.Ops
import Verif.Lemmas.Scaling
import Mathlib.Tactic.Ring

/-! # Lemmas about pooling -/

set_option linter.unusedSectionVars false

namespace Brevitas

open Spec

variable {K : Type*} [Field K] [LinearOrder K] [IsStrictOrderedRing K] [FloorRing K]

theorem gridSum_congr : ∀ (ls : List (List ℤ)) (f g : List ℤ → K),
    (∀ pos, List.Forall₂ (fun i l => i ∈ l) pos ls → f pos = g pos) → gridSum ls f = gridSum ls g
  | [], f, g, h => h [] .nil
  | l :: ls, f, g, h => by
    simp only [gridSum]
    congr 1
    apply List.map_congr_left
    intro i hi
    exact gridSum_congr ls _ _ fun pos hp => h _ (.cons hi hp)

theorem gridSum_mul_left (c : K) : ∀ (ls : List (List ℤ)) (f : List ℤ → K),
    gridSum ls (fun pos => c * f pos) = c * gridSum ls f
  | [], f => rfl
  | l :: ls, f => by
    simp only [gridSum, gridSum_mul_left c ls]
    rw [← List.sum_map_mul_left]

theorem mem_interval {a b i : ℤ} : i ∈ interval a b ↔ a ≤ i ∧ i < b := by
  unfold interval
  simp only [List.mem_map, List.mem_range]
  constructor
  · rintro ⟨j, hj, rfl⟩; omega
  · rintro ⟨h1, h2⟩
    exact ⟨(i - a).toNat, by omega, by omega⟩

theorem length_interval (a b : ℤ) : (interval a b).length = (b - a).toNat := by simp [interval]

theorem interval_shift (a : ℤ) (k : ℕ) : interval a (a + k) = (interval 0 k).map (a + ·) := by
  simp [interval, List.map_map, Function.comp_def]

theorem PoolAxis.window_eq (a : PoolAxis) (o : ℕ) (hk : a.kernel ≤ a.size + 2 * a.padding) (hs : 0 < a.stride) (ho : o < a.outSize false) :
    a.window o = interval ((o : ℤ) * a.stride - a.padding) ((o : ℤ) * a.stride - a.padding + a.kernel) := by
  have h1 : o * a.stride + a.kernel ≤ a.size + 2 * a.padding := by
    simp only [PoolAxis.outSize, Bool.false_eq_true, if_false] at ho
    have h2 : o ≤ (a.size + 2 * a.padding - a.kernel) / a.stride := by omega
    have h3 := (Nat.le_div_iff_mul_le hs).mp h2
    omega
  have h2 : (o : ℤ) * a.stride + a.kernel ≤ a.size + 2 * a.padding := by exact_mod_cast h1
  unfold PoolAxis.window
  dsimp only
  rw [min_eq_left (by linarith)]

theorem adaptiveWindow_eq {q out : ℕ} (ho : 0 < out) (o : ℕ) :
    adaptiveWindow (q * out) out o = interval ((o : ℤ) * q) ((o : ℤ) * q + q) := by
  unfold adaptiveWindow
  have h1 : o * (q * out) / out = o * q := by rw [← mul_assoc, Nat.mul_div_cancel _ ho]
  have h2 : ((o + 1) * (q * out) + out - 1) / out = (o + 1) * q := by
    rw [← mul_assoc, Nat.add_sub_assoc ho, mul_comm ((o + 1) * q), Nat.mul_add_div ho, Nat.div_eq_of_lt (by omega), add_zero]
  rw [h1, h2]
  push_cast
  congr 1
  ring

/-- The axes that the rewrite builds, with the stride as a function of sizes. -/
def axesOf (f : ℕ → ℕ → ℕ) (sizes outs : List ℕ) : List PoolAxis :=
  List.zipWith (fun n o => ⟨n, n - n / o * (o - 1), f n o, 0⟩) sizes outs

theorem adaptiveToAvg_eq {sizes outs : List ℕ} {u : Bool} {axes : List PoolAxis} (h : adaptiveToAvg sizes outs u = some axes)
    (hl : sizes.length = outs.length) :
    (List.Forall₂ (fun n o => n % o = 0) sizes outs) ∧
    (axes = axesOf (fun n o => n / o) sizes outs ∨ ((∀ o ∈ outs, o = 1) ∧ axes = axesOf (fun _ _ => 1) sizes outs)) := by
  unfold adaptiveToAvg at h
  by_cases hc : (List.zipWith (fun n o => n % o) sizes outs).all (· == 0)
  · rw [if_pos hc] at h
    dsimp only at h
    have e := (Option.some.inj h).symm
    refine ⟨?_, ?_⟩
    · clear h e
      induction sizes generalizing outs with
      | nil =>
        cases outs with
        | nil => exact .nil
        | cons => simp at hl
      | cons n ns ih =>
        cases outs with
        | nil => simp at hl
        | cons o os =>
          simp only [List.zipWith_cons_cons, List.all_cons, Bool.and_eq_true, beq_iff_eq] at hc
          exact .cons hc.1 (ih (by simpa using hl) hc.2)
    · by_cases hu : (u && outs.all (· == 1)) = true
      · rw [if_pos hu] at e
        right
        refine ⟨by
          rw [Bool.and_eq_true] at hu
          simpa using hu.2, ?_⟩
        rw [e]
        clear h e hc hu hl
        induction sizes generalizing outs with
        | nil => simp [axesOf]
        | cons n ns ih =>
          cases outs with
          | nil => simp [axesOf]
          | cons o os =>
            have := ih (outs := os)
            simp only [axesOf, List.zip_cons_cons, List.zipWith_cons_cons, List.length_cons, List.replicate_succ] at this ⊢
            rw [this]
      · rw [if_neg hu] at e
        left
        rw [e]
        clear h e hc hu hl
        induction sizes generalizing outs with
        | nil => simp [axesOf]
        | cons n ns ih =>
          cases outs with
          | nil => simp [axesOf]
          | cons o os =>
            have := ih (outs := os)
            simp only [axesOf, List.zip_cons_cons, List.zipWith_cons_cons] at this ⊢
            rw [this]
  · rw [if_neg hc] at h
    simp at h

theorem kernel_of_dvd {n o : ℕ} (ho : 0 < o) (h : n % o = 0) : n - n / o * (o - 1) = n / o ∧ n = n / o * o := by
  obtain ⟨q, rfl⟩ := Nat.dvd_of_mod_eq_zero h
  rw [Nat.mul_div_cancel_left _ ho]
  refine ⟨?_, mul_comm _ _⟩
  obtain ⟨o', rfl⟩ : ∃ o', o = o' + 1 := ⟨o - 1, by omega⟩
  rw [Nat.add_sub_cancel, Nat.succ_mul, mul_comm q]; omega

/-- The windows of the average pool and of the adaptive pool are the same. -/
theorem windows_eq (f : ℕ → ℕ → ℕ) : ∀ (sizes outs idx : List ℕ), (∀ n ∈ sizes, 0 < n) → (∀ o ∈ outs, 0 < o) →
    List.Forall₂ (fun n o => n % o = 0) sizes outs → (∀ n o, o ∈ outs → f n o = n / o ∨ (o = 1 ∧ 0 < f n o)) →
    List.Forall₂ (· < ·) idx outs →
    List.zipWith PoolAxis.window (axesOf f sizes outs) idx =
      List.zipWith (fun (no : ℕ × ℕ) o => adaptiveWindow no.1 no.2 o) (List.zip sizes outs) idx ∧
    (axesOf f sizes outs).map (fun a => a.outSize false) = outs
  | [], [], [], _, _, _, _, _ => by simp [axesOf]
  | n :: ns, o :: os, i :: is, hp, ho, hd, hf, hi => by
    obtain ⟨hd0, hd⟩ := List.forall₂_cons.mp hd
    obtain ⟨hi0, hi⟩ := List.forall₂_cons.mp hi
    have ho0 : 0 < o := ho o (by simp)
    have hn0 : 0 < n := hp n (by simp)
    obtain ⟨hk, hn⟩ := kernel_of_dvd ho0 hd0
    have ih := windows_eq f ns os is (fun n h => hp n (by simp [h])) (fun o h => ho o (by simp [h])) hd
      (fun n o h => hf n o (by simp [h])) hi
    have hq : 0 < n / o := Nat.pos_of_ne_zero fun h => by rw [h, zero_mul] at hn; omega
    obtain ⟨q, hqq⟩ : ∃ q, q = n / o := ⟨_, rfl⟩
    rw [← hqq] at hk hn hq
    have hff := hf n o (by simp)
    rw [← hqq] at hff
    obtain ⟨s, hs⟩ : ∃ s, s = f n o := ⟨_, rfl⟩
    rw [← hs] at hff
    have hspos : 0 < s := by rcases hff with h | h <;> omega
    have hsize : PoolAxis.outSize ⟨n, q, s, 0⟩ false = o := by
      simp only [PoolAxis.outSize, Bool.false_eq_true, if_false]
      rcases hff with h | ⟨h, -⟩
      · subst h
        have : n + 2 * 0 - s = s * (o - 1) := by
          obtain ⟨o', rfl⟩ : ∃ o', o = o' + 1 := ⟨o - 1, by omega⟩
          rw [hn, Nat.add_sub_cancel, Nat.mul_succ]; omega
        rw [this, Nat.mul_div_cancel_left _ hspos]; omega
      · subst h
        have : n + 2 * 0 - q = 0 := by omega
        rw [this]; simp
    have hwin : PoolAxis.window ⟨n, q, s, 0⟩ i = adaptiveWindow n o i := by
      have hle : q ≤ n := by rw [hn]; exact Nat.le_mul_of_pos_right _ ho0
      rw [PoolAxis.window_eq _ i (by simp; omega) hspos (by rw [hsize]; exact hi0)]
      conv_rhs => rw [hn]
      rw [adaptiveWindow_eq ho0]
      rcases hff with h | ⟨h, -⟩
      · subst h; simp
      · subst h
        have : i = 0 := by omega
        subst this; simp
    constructor
    · have := ih.1
      simp only [axesOf, List.zipWith_cons_cons, List.zip_cons_cons] at this ⊢
      rw [this, ← hqq, hk, ← hs, hwin]
    · have := ih.2
      simp only [axesOf, List.zipWith_cons_cons, List.map_cons] at this ⊢
      rw [this, ← hqq, hk, ← hs, hsize]
  | [], _ :: _, _, _, _, h, _, _ => by cases h
  | _ :: _, [], _, _, _, h, _, _ => by cases h
  | _ :: _, _ :: _, [], _, _, _, _, h => by cases h
  | [], [], _ :: _, _, _, _, _, h => by cases h

/-- Adaptive windows stay inside the input. -/
theorem adaptive_inside : ∀ (sizes outs idx : List ℕ), (∀ o ∈ outs, 0 < o) → List.Forall₂ (fun n o => n % o = 0) sizes outs →
    List.Forall₂ (· < ·) idx outs → ∀ pos,
    List.Forall₂ (fun i l => i ∈ l) pos
      (List.zipWith (fun (no : ℕ × ℕ) o => adaptiveWindow no.1 no.2 o) (List.zip sizes outs) idx) →
    List.Forall₂ (fun (n : ℕ) (i : ℤ) => 0 ≤ i ∧ i < n) sizes pos
  | [], [], [], _, _, _, pos, h => by
    simp at h; subst h; exact .nil
  | n :: ns, o :: os, i :: is, ho, hd, hi, pos, h => by
    obtain ⟨hd0, hd⟩ := List.forall₂_cons.mp hd
    obtain ⟨hi0, hi⟩ := List.forall₂_cons.mp hi
    have ho0 : 0 < o := ho o (by simp)
    obtain ⟨-, hn⟩ := kernel_of_dvd ho0 hd0
    simp only [List.zip_cons_cons, List.zipWith_cons_cons] at h
    cases h with
    | @cons j _ js _ hj hjs =>
      refine .cons ?_ (adaptive_inside ns os is (fun o h => ho o (by simp [h])) hd hi _ hjs)
      obtain ⟨q, hqq⟩ : ∃ q, q = n / o := ⟨_, rfl⟩
      rw [← hqq] at hn
      rw [hn, adaptiveWindow_eq ho0, mem_interval] at hj
      have : (i + 1) * q ≤ q * o := by rw [mul_comm q]; exact Nat.mul_le_mul_right _ hi0
      have h' : ((i : ℤ) + 1) * q ≤ q * o := by exact_mod_cast this
      have h0 : (0 : ℤ) ≤ i * q := by positivity
      constructor
      · exact h0.trans hj.1
      · rw [hn]; push_cast; nlinarith [hj.2]
  | [], _ :: _, _, _, h, _, _, _ => by cases h
  | _ :: _, [], _, _, h, _, _, _ => by cases h
  | _ :: _, _ :: _, [], _, _, h, _, _ => by cases h
  | [], [], _ :: _, _, _, h, _, _ => by cases h

theorem axesOf_size (f : ℕ → ℕ → ℕ) : ∀ sizes outs : List ℕ, sizes.length = outs.length →
    (axesOf f sizes outs).map PoolAxis.size = sizes
  | [], [], _ => rfl
  | n :: ns, o :: os, h => by
    have := axesOf_size f ns os (by simpa using h)
    simp only [axesOf, List.zipWith_cons_cons, List.map_cons] at this ⊢
    rw [this]
  | [], _ :: _, h => by simp at h
  | _ :: _, [], h => by simp at h

/-! ### Pooling as a convolution -/

theorem gridSum_shift : ∀ (axes : List PoolAxis) (idx : List ℕ),
    List.Forall₂ (fun (a : PoolAxis) (o : ℕ) => a.window o = interval ((o : ℤ) * a.stride - a.padding) ((o : ℤ) * a.stride - a.padding + a.kernel)) axes idx →
    ∀ f : List ℤ → K, gridSum (List.zipWith PoolAxis.window axes idx) f = gridSum (axes.map fun a => interval 0 a.kernel) fun off =>
      f (List.zipWith (fun (ao : PoolAxis × ℕ) (j : ℤ) => (ao.2 : ℤ) * ao.1.stride - ao.1.padding + j) (List.zip axes idx) off)
  | [], [], _, f => rfl
  | a :: as, o :: os, h, f => by
    obtain ⟨h0, h⟩ := List.forall₂_cons.mp h
    simp only [List.zipWith_cons_cons, gridSum, List.map_cons, List.zip_cons_cons]
    rw [h0, interval_shift, List.map_map]
    congr 1
    apply List.map_congr_left
    intro j _
    simp only [Function.comp]
    exact gridSum_shift as os h _
  | [], _ :: _, h, _ => by cases h
  | _ :: _, [], h, _ => by cases h

theorem gridCount_window : ∀ (axes : List PoolAxis) (idx : List ℕ),
    List.Forall₂ (fun (a : PoolAxis) (o : ℕ) => a.window o = interval ((o : ℤ) * a.stride - a.padding) ((o : ℤ) * a.stride - a.padding + a.kernel)) axes idx →
    gridCount (List.zipWith PoolAxis.window axes idx) = (axes.map PoolAxis.kernel).prod
  | [], [], _ => rfl
  | a :: as, o :: os, h => by
    obtain ⟨h0, h⟩ := List.forall₂_cons.mp h
    have ih := gridCount_window as os h
    simp only [gridCount, List.zipWith_cons_cons, List.map_cons, List.prod_cons] at ih ⊢
    rw [ih, h0, length_interval]
    congr 1
    omega
  | [], _ :: _, h => by cases h
  | _ :: _, [], h => by cases h

/-! ### Adaptive pooling and the kernel of the truncated version -/

theorem gridCount_adaptive : ∀ (sizes outs idx : List ℕ), (∀ o ∈ outs, 0 < o) → List.Forall₂ (fun n o => n % o = 0) sizes outs →
    idx.length = outs.length →
    gridCount (List.zipWith (fun (no : ℕ × ℕ) o => adaptiveWindow no.1 no.2 o) (List.zip sizes outs) idx) =
      (computeKernelSizeStride sizes outs).1.prod
  | [], [], [], _, _, _ => rfl
  | n :: ns, o :: os, i :: is, ho, hd, hl => by
    obtain ⟨hd0, hd⟩ := List.forall₂_cons.mp hd
    have ho0 : 0 < o := ho o (by simp)
    have ih := gridCount_adaptive ns os is (fun o h => ho o (by simp [h])) hd (by simpa using hl)
    obtain ⟨hk, hn⟩ := kernel_of_dvd ho0 hd0
    simp only [gridCount, computeKernelSizeStride, List.zip_cons_cons, List.zipWith_cons_cons, List.map_cons, List.prod_cons] at ih ⊢
    rw [ih, mul_comm (o - 1), hk]
    congr 1
    conv_lhs => rw [hn]
    rw [adaptiveWindow_eq ho0, length_interval]
    omega
  | [], _ :: _, _, _, h, _ => by cases h
  | _ :: _, [], _, _, h, _ => by cases h
  | _ :: _, _ :: _, [], _, _, h => by simp at h
  | [], [], _ :: _, _, _, h => by simp at h

end Brevitas
