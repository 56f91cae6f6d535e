import Verif.Model.Scaling
import Verif.Lemmas.Ops
import Mathlib.Data.List.Forall2

set_option linter.unusedSectionVars false

namespace Brevitas

section Generic
variable {K : Type*} [Field K] [LinearOrder K] [IsStrictOrderedRing K] [FloorRing K]

theorem foldl_max_spec (t : List K) (a : K) :
    t.foldl max a ∈ a :: t ∧ ∀ x ∈ a :: t, x ≤ t.foldl max a := by
  induction t generalizing a with
  | nil => simp
  | cons b t ih =>
    obtain ⟨h1, h2⟩ := ih (max a b)
    simp only [List.foldl_cons]
    constructor
    · rcases List.mem_cons.mp h1 with h | h
      · rw [h]
        rcases max_choice a b with h' | h' <;> rw [h'] <;> simp
      · exact List.mem_cons_of_mem _ (List.mem_cons_of_mem _ h)
    · intro x hx
      have hab := h2 (max a b) (List.mem_cons_self ..)
      rcases List.mem_cons.mp hx with rfl | hx
      · exact (le_max_left _ _).trans hab
      · rcases List.mem_cons.mp hx with rfl | hx
        · exact (le_max_right _ _).trans hab
        · exact h2 x (List.mem_cons_of_mem _ hx)

theorem foldl_min_spec (t : List K) (a : K) :
    t.foldl min a ∈ a :: t ∧ ∀ x ∈ a :: t, t.foldl min a ≤ x := by
  induction t generalizing a with
  | nil => simp
  | cons b t ih =>
    obtain ⟨h1, h2⟩ := ih (min a b)
    simp only [List.foldl_cons]
    constructor
    · rcases List.mem_cons.mp h1 with h | h
      · rw [h]
        rcases min_choice a b with h' | h' <;> rw [h'] <;> simp
      · exact List.mem_cons_of_mem _ (List.mem_cons_of_mem _ h)
    · intro x hx
      have hab := h2 (min a b) (List.mem_cons_self ..)
      rcases List.mem_cons.mp hx with rfl | hx
      · exact hab.trans (min_le_left _ _)
      · rcases List.mem_cons.mp hx with rfl | hx
        · exact hab.trans (min_le_right _ _)
        · exact h2 x (List.mem_cons_of_mem _ hx)

theorem torchMax_spec {l : List K} (h : l ≠ []) : ∃ m, torchMax l = some m ∧ m ∈ l ∧ ∀ x ∈ l, x ≤ m := by
  cases l with
  | nil => exact absurd rfl h
  | cons a t => exact ⟨_, rfl, (foldl_max_spec t a).1, (foldl_max_spec t a).2⟩

theorem torchMin_spec {l : List K} (h : l ≠ []) : ∃ m, torchMin l = some m ∧ m ∈ l ∧ ∀ x ∈ l, m ≤ x := by
  cases l with
  | nil => exact absurd rfl h
  | cons a t => exact ⟨_, rfl, (foldl_min_spec t a).1, (foldl_min_spec t a).2⟩

theorem absMax_spec {l : List K} (h : l ≠ []) : ∃ m, absMax l = some m ∧ (∃ x ∈ l, m = |x|) ∧ ∀ x ∈ l, |x| ≤ m := by
  obtain ⟨m, h1, h2, h3⟩ := torchMax_spec (l := l.map fun x => |x|) (by simpa using h)
  refine ⟨m, h1, ?_, fun x hx => h3 _ (List.mem_map_of_mem hx)⟩
  obtain ⟨x, hx, rfl⟩ := List.mem_map.mp h2
  exact ⟨x, hx, rfl⟩

theorem le_clampMinVal (m : Option K) (x : K) : x ≤ clampMinVal m x := by
  unfold clampMinVal
  split
  · exact le_refl _
  · split_ifs
    · exact le_refl _
    · exact le_max_left _ _

theorem clampMinVal_ge {m : K} (hm : m ≠ 0) (x : K) : m ≤ clampMinVal (some m) x := by
  simp only [clampMinVal, if_neg hm]; exact le_max_right _ _

theorem intScaling_signed_narrow {b : ℕ} (hb : 1 ≤ b) :
    intScaling true true b = ((2 ^ (b - 1) - 1 : ℤ) : K) := by
  simp only [intScaling, if_true, minInt_eq true true hb, Spec.lo]
  push_cast; ring

theorem intScaling_signed_full {b : ℕ} (hb : 1 ≤ b) :
    intScaling true false b = ((2 ^ (b - 1) : ℤ) : K) := by
  simp [intScaling, minInt_eq true false hb, Spec.lo]

theorem intScaling_unsigned (n : Bool) {b : ℕ} (hb : 1 ≤ b) :
    intScaling false n b = ((Spec.hi false n b : ℤ) : K) := by
  simp [intScaling, maxInt_eq false n hb]

theorem forall₂_map_of_mem {R : K → K → Prop} {f : K → K} {l : List K} (h : ∀ x ∈ l, R x (f x)) :
    List.Forall₂ R l (l.map f) := by
  induction l with
  | nil => exact List.Forall₂.nil
  | cons a t ih =>
    exact List.Forall₂.cons (h a (List.mem_cons_self ..)) (ih fun x hx => h x (List.mem_cons_of_mem _ hx))

/-- If the rounded position lies within half a unit of the code interval, the quantiser moves the value by at most half a
scale. -/
theorem forward_half_step_of_near (c : IntQuantCfg K) (hr : c.floatToInt = torchRound) {s z : K} (hs : 0 < s)
    {b : ℕ} (hb : 1 ≤ b) {x : K}
    (h1 : (Spec.lo c.signed c.narrow b : K) - 1 / 2 ≤ x / s + z)
    (h2 : x / s + z ≤ (Spec.hi c.signed c.narrow b : K) + 1 / 2) :
    |c.forward s z b x - x| ≤ s / 2 := by
  set y := x / s + z with hy
  have herr := torchRound_err y
  have hlh : ((Spec.lo c.signed c.narrow b : ℤ) : K) ≤ (Spec.hi c.signed c.narrow b : ℤ) := by
    exact_mod_cast lo_le_hi c.signed c.narrow hb
  have key : |((code c.signed c.narrow b (torchRound y) : ℤ) : K) - y| ≤ 1 / 2 := by
    unfold code
    rcases lt_or_ge (Spec.hi c.signed c.narrow b) (torchRound y) with h | h
    · rw [min_eq_right h.le, max_eq_left (lo_le_hi _ _ hb)]
      have h' : ((Spec.hi c.signed c.narrow b : ℤ) : K) + 1 ≤ torchRound y := by exact_mod_cast h
      rw [abs_le] at herr ⊢
      constructor <;> linarith [herr.1, herr.2]
    · rw [min_eq_left h]
      rcases lt_or_ge (torchRound y) (Spec.lo c.signed c.narrow b) with h' | h'
      · rw [max_eq_right h'.le]
        have h'' : ((torchRound y : ℤ) : K) + 1 ≤ (Spec.lo c.signed c.narrow b : ℤ) := by exact_mod_cast h'
        rw [abs_le] at herr ⊢
        constructor <;> linarith [herr.1, herr.2]
      · rw [max_eq_left h']; exact herr
  simp only [IntQuantCfg.forward]
  rw [toInt_eq_code c s z hb, hr]
  have e : (((code c.signed c.narrow b (torchRound y) : ℤ) : K) - z) * s - x =
      (((code c.signed c.narrow b (torchRound y) : ℤ) : K) - y) * s := by
    rw [hy]; field_simp; ring
  rw [e, abs_mul, abs_of_pos hs]
  calc _ ≤ 1 / 2 * s := mul_le_mul_of_nonneg_right key hs.le
    _ = s / 2 := by ring

end Generic

/-! ### Restrictions -/

theorem pow2_nonneg (x : Raw) : 0 ≤ pow2 x := by
  induction x using WithBot.recBotCoe with
  | bot => exact le_refl _
  | coe v => exact (Real.rpow_pos_of_pos (by norm_num) v).le

/-- In the log domain, combining and exponentiating is dividing. -/
theorem logFp_eq {stats thr : ℝ} (hs : 0 ≤ stats) (ht : 0 < thr) :
    Restrict.logFp.forward (Restrict.logFp.combine (Restrict.logFp.init stats) (Restrict.logFp.init thr)) =
      stats / thr := by
  simp only [Restrict.init, log2, if_neg ht.ne']
  rcases hs.eq_or_lt with h | h
  · simp [← h, Restrict.combine, Restrict.forward, pow2]
  · rw [if_neg h.ne']
    simp only [Restrict.combine, Restrict.forward, pow2]
    rw [← Real.logb_div h.ne' ht.ne', Real.rpow_logb (by norm_num) (by norm_num) (div_pos h ht)]

/-- The power-of-two restriction of a positive statistic. -/
theorem powerOfTwo_eq (f : ℝ → ℤ) {stats thr : ℝ} (hs : 0 < stats) (ht : 0 < thr) :
    (Restrict.powerOfTwo f).forward
      ((Restrict.powerOfTwo f).combine ((Restrict.powerOfTwo f).init stats) ((Restrict.powerOfTwo f).init thr)) =
      (2 : ℝ) ^ (f (Real.logb 2 (stats / thr))) := by
  simp only [Restrict.init, log2, if_neg ht.ne', if_neg hs.ne', Restrict.combine, Restrict.forward]
  rw [← Real.logb_div hs.ne' ht.ne']
  simp only [WithBot.map_coe, pow2, Real.rpow_intCast]

theorem powerOfTwo_zero (f : ℝ → ℤ) {thr : ℝ} :
    (Restrict.powerOfTwo f).forward
      ((Restrict.powerOfTwo f).combine ((Restrict.powerOfTwo f).init 0) ((Restrict.powerOfTwo f).init thr)) = 0 := by
  simp [Restrict.init, log2, Restrict.combine, Restrict.forward, pow2]

end Brevitas
