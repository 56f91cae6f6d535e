import Verif.Model.Runtime
import Verif.Spec.Average
import Verif.Lemmas.Scaling

namespace Brevitas

theorem average_singleton (mo : Option ℝ) (a : ℝ) : Spec.average mo [a] = a := by
  cases mo <;> simp [Spec.average, Spec.mean, Spec.ema]

/-- `momentumUpdate` extends the average by one observation. -/
theorem momentumUpdate_average (mo : Option ℝ) (l : List ℝ) (hl : l ≠ []) (s : ℝ) :
    momentumUpdate (Spec.average mo l) s mo l.length (l.length + 1) = Spec.average mo (l ++ [s]) := by
  cases mo with
  | none =>
    simp only [momentumUpdate, Spec.average, Spec.mean, List.sum_append, List.sum_singleton, List.length_append,
      List.length_singleton]
    have : (l.length : ℝ) ≠ 0 := by
      simpa using hl
    have : ((l.length : ℝ) + 1) ≠ 0 := by positivity
    push_cast
    field_simp
  | some m =>
    cases l with
    | nil => exact absurd rfl hl
    | cons a t => simp [momentumUpdate, Spec.average, Spec.ema, List.foldl_append]

/-- Averages of non-negative numbers are non-negative. -/
theorem average_nonneg (mo : Option ℝ) (hmo : ∀ m, mo = some m → 0 ≤ m ∧ m ≤ 1) (l : List ℝ) (hl : ∀ x ∈ l, 0 ≤ x) :
    0 ≤ Spec.average mo l := by
  cases mo with
  | none =>
    simp only [Spec.average, Spec.mean]
    exact div_nonneg (List.sum_nonneg hl) (by positivity)
  | some m =>
    obtain ⟨h0, h1⟩ := hmo m rfl
    cases l with
    | nil => simp [Spec.average, Spec.ema]
    | cons a t =>
      simp only [Spec.average, Spec.ema]
      have ha := hl a (List.mem_cons_self ..)
      have ht : ∀ x ∈ t, 0 ≤ x := fun x hx => hl x (List.mem_cons_of_mem _ hx)
      clear hl
      induction t generalizing a with
      | nil => simpa
      | cons b t ih =>
        simp only [List.foldl_cons]
        apply ih
        · have hb := ht b (List.mem_cons_self ..)
          have : 0 ≤ 1 - m := by linarith
          positivity
        · exact fun x hx => ht x (List.mem_cons_of_mem _ hx)

/-- Averages lie between bounds of the observations. -/
theorem average_mem_Icc (mo : Option ℝ) (hmo : ∀ m, mo = some m → 0 ≤ m ∧ m ≤ 1) (l : List ℝ) (hne : l ≠ []) (lo hi : ℝ)
    (hl : ∀ x ∈ l, lo ≤ x ∧ x ≤ hi) : lo ≤ Spec.average mo l ∧ Spec.average mo l ≤ hi := by
  cases mo with
  | none =>
    simp only [Spec.average, Spec.mean]
    have hn : (0 : ℝ) < l.length := by
      have := List.length_pos_iff.mpr hne; exact_mod_cast this
    have h1 : (l.length : ℝ) * lo ≤ l.sum := by
      clear hne hn
      induction l with
      | nil => simp
      | cons a t ih =>
        have := ih fun x hx => hl x (List.mem_cons_of_mem _ hx)
        have := (hl a (List.mem_cons_self ..)).1
        simp only [List.length_cons, List.sum_cons]; push_cast; linarith
    have h2 : l.sum ≤ (l.length : ℝ) * hi := by
      clear hne hn h1
      induction l with
      | nil => simp
      | cons a t ih =>
        have := ih fun x hx => hl x (List.mem_cons_of_mem _ hx)
        have := (hl a (List.mem_cons_self ..)).2
        simp only [List.length_cons, List.sum_cons]; push_cast; linarith
    constructor
    · rw [le_div_iff₀ hn]; linarith
    · rw [div_le_iff₀ hn]; linarith
  | some m =>
    obtain ⟨h0, h1⟩ := hmo m rfl
    cases l with
    | nil => exact absurd rfl hne
    | cons a t =>
      simp only [Spec.average, Spec.ema]
      have ha := hl a (List.mem_cons_self ..)
      have ht : ∀ x ∈ t, lo ≤ x ∧ x ≤ hi := fun x hx => hl x (List.mem_cons_of_mem _ hx)
      clear hl hne
      induction t generalizing a with
      | nil => simpa
      | cons b t ih =>
        simp only [List.foldl_cons]
        apply ih
        · have hb := ht b (List.mem_cons_self ..)
          constructor
          · nlinarith [hb.1, ha.1]
          · nlinarith [hb.2, ha.2]
        · exact fun x hx => ht x (List.mem_cons_of_mem _ hx)

theorem rawMul_one (x : Raw) : rawMul ((1 : ℝ) : Raw) x = x := by
  induction x using WithBot.recBotCoe with
  | bot => rfl
  | coe v => simp [rawMul]

end Brevitas
