import Verif.Model.AwqSearch
import Mathlib.Tactic.Linarith
import Mathlib.Tactic.NormNum
import Mathlib.Tactic.IntervalCases

/-!
# C81: the search for AWQ scales
-/

namespace Brevitas.AwqSearch

open Finset

/-! ## Specification -/

/-- The weight with its columns multiplied by the scales. -/
def scaledBy (w : Weight) (s : ℕ → ℝ) : Weight := fun o i => w o i * s i

/-- What a layer becomes for a candidate: scaled, quantised and scaled back. -/
noncomputable def candidateWeight (quant : Weight → Weight) (s : ℕ → ℝ) (w : Weight) : Weight := fun o i => quant (scaledBy w s) o i / s i

/-- The scales for ratio `r / 20`. -/
noncomputable def candidateScales (n : ℕ) (h : 0 < n) (xMax wMax : ℕ → ℝ) (r : ℕ) : ℕ → ℝ := normalise n h (rawScale xMax wMax ((r : ℝ) / 20))

/-! ## Lemmas -/

/-- A layer that is what was saved, in other memory. -/
def safe (w : Weight) : Cell := ⟨w, w, false⟩

theorem step_safe (quant : Weight → Weight) (loss : List Weight → ℝ) (s : ℕ → ℝ) (ws : List Weight) (b : Option (ℝ × (ℕ → ℝ))) :
    step quant loss s ⟨ws.map safe, b⟩ = ⟨ws.map safe, match b with
      | none => some (loss (ws.map (candidateWeight quant s)), s)
      | some (b, s') => if loss (ws.map (candidateWeight quant s)) < b then some (loss (ws.map (candidateWeight quant s)), s) else some (b, s')⟩ := by
  unfold step
  have e1 : ((ws.map safe).map (Cell.quantise quant s)).map Cell.cur = ws.map (candidateWeight quant s) := by
    rw [List.map_map, List.map_map]
    rfl
  have e2 : ((ws.map safe).map (Cell.quantise quant s)).map Cell.load = ws.map safe := by
    rw [List.map_map, List.map_map]
    rfl
  simp only [e1, e2]
  cases b with
  | none => rfl
  | some b => rfl

theorem step_aliased (quant : Weight → Weight) (loss : List Weight → ℝ) (s : ℕ → ℝ) (ws : List Weight) (b : Option (ℝ × (ℕ → ℝ))) :
    (step quant loss s ⟨ws.map (save true), b⟩).cells = (ws.map (scaledBy · s)).map safe := by
  unfold step
  simp only [List.map_map]
  rfl

theorem step_cells (quant : Weight → Weight) (loss : List Weight → ℝ) (s : ℕ → ℝ) (ws : List Weight) (st : State) (h : st.cells = ws.map safe) :
    (step quant loss s st).cells = ws.map safe := by
  obtain ⟨cells, b⟩ := st
  dsimp only at h
  rw [h, step_safe]

/-- The best of the first candidates. -/
def BestOf (l : ℕ → ℝ) (s : ℕ → ℕ → ℝ) (m : ℕ) (b : Option (ℝ × (ℕ → ℝ))) : Prop :=
  (m = 0 ∧ b = none) ∨ ∃ r < m, b = some (l r, s r) ∧ (∀ r' < m, l r ≤ l r') ∧ ∀ r' < r, l r < l r'

theorem fold_safe (quant : Weight → Weight) (loss : List Weight → ℝ) (s : ℕ → ℕ → ℝ) (ws : List Weight) (m : ℕ) :
    ∃ b, (List.range m).foldl (fun st (r : ℕ) => step quant loss (s r) st) ⟨ws.map safe, none⟩ = ⟨ws.map safe, b⟩ ∧
      BestOf (fun r => loss (ws.map (candidateWeight quant (s r)))) s m b := by
  induction m with
  | zero => exact ⟨none, rfl, Or.inl ⟨rfl, rfl⟩⟩
  | succ m ih =>
    obtain ⟨b, e, hb⟩ := ih
    rw [List.range_succ, List.foldl_append, e, List.foldl_cons, List.foldl_nil, step_safe]
    refine ⟨_, rfl, Or.inr ?_⟩
    rcases hb with ⟨rfl, rfl⟩ | ⟨r, hr, rfl, h1, h2⟩
    · exact ⟨0, by omega, rfl, fun r' hr' => by rw [show r' = 0 by omega], fun r' hr' => absurd hr' (by omega)⟩
    · simp only
      by_cases hlt : loss (ws.map (candidateWeight quant (s m))) < loss (ws.map (candidateWeight quant (s r)))
      · rw [if_pos hlt]
        refine ⟨m, by omega, rfl, ?_, ?_⟩
        · intro r' hr'
          rcases Nat.lt_succ_iff_lt_or_eq.mp hr' with h | rfl
          · exact hlt.le.trans (h1 r' h)
          · exact le_rfl
        · exact fun r' hr' => lt_of_lt_of_le hlt (h1 r' hr')
      · rw [if_neg hlt]
        refine ⟨r, by omega, rfl, ?_, h2⟩
        intro r' hr'
        rcases Nat.lt_succ_iff_lt_or_eq.mp hr' with h | rfl
        · exact h1 r' h
        · exact not_lt.mp hlt

theorem fold_cells (quant : Weight → Weight) (loss : List Weight → ℝ) (s : ℕ → ℕ → ℝ) (ws : List Weight) (rs : List ℕ) (st : State)
    (h : st.cells = ws.map safe) : (rs.foldl (fun st (r : ℕ) => step quant loss (s r) st) st).cells = ws.map safe := by
  induction rs generalizing st with
  | nil => exact h
  | cons r rs ih => exact ih _ (step_cells quant loss (s r) ws st h)

theorem fold_best (quant : Weight → Weight) (loss : List Weight → ℝ) (s : ℕ → ℕ → ℝ) (rs : List ℕ) (st : State)
    (h : st.best ≠ none) : (rs.foldl (fun st (r : ℕ) => step quant loss (s r) st) st).best ≠ none := by
  induction rs generalizing st with
  | nil => exact h
  | cons r rs ih =>
    refine ih _ ?_
    obtain ⟨cells, b⟩ := st
    unfold step
    cases b with
    | none => simp
    | some b =>
      simp only
      split_ifs <;> simp

theorem cur_safe (ws : List Weight) : (ws.map safe).map Cell.cur = ws := by
  rw [List.map_map]
  exact List.map_id ws

/-! ## Theorems -/

/-- **C81.**  With parameters that are not on the CPU, whatever the weights, the quantiser, the block and its inputs, the search leaves the layers as they were
and returns the candidate, among the twenty ratios, with the least loss of the block with scaled, quantised and
unscaled weights; the first of them if there are several. -/
theorem C81_search_partial (quant : Weight → Weight) (loss : List Weight → ℝ) (n : ℕ) (h : 0 < n) (xMax wMax : ℕ → ℝ) (ws : List Weight) :
    ∃ r < 20, search false quant loss n h xMax wMax ws = some (candidateScales n h xMax wMax r, ws) ∧
      (∀ r' < 20, loss (ws.map (candidateWeight quant (candidateScales n h xMax wMax r))) ≤
        loss (ws.map (candidateWeight quant (candidateScales n h xMax wMax r')))) ∧
      ∀ r' < r, loss (ws.map (candidateWeight quant (candidateScales n h xMax wMax r))) <
        loss (ws.map (candidateWeight quant (candidateScales n h xMax wMax r'))) := by
  obtain ⟨b, e, hb⟩ := fold_safe quant loss (candidateScales n h xMax wMax) ws 20
  rcases hb with ⟨h0, _⟩ | ⟨r, hr, rfl, h1, h2⟩
  · omega
  · refine ⟨r, hr, ?_, h1, h2⟩
    unfold search
    have e' : (List.range 20).foldl (fun st (r : ℕ) => step quant loss (normalise n h (rawScale xMax wMax ((r : ℝ) / 20))) st) ⟨ws.map (save false), none⟩ = _ := e
    rw [e', Option.map_some, cur_safe]

/-- **C81, disagreement.**  With parameters on the CPU the search leaves every layer multiplied by the scales of ratio zero: what was saved is the memory of
the parameters. -/
theorem C81_cpu_weights_changed (quant : Weight → Weight) (loss : List Weight → ℝ) (n : ℕ) (h : 0 < n) (xMax wMax : ℕ → ℝ) (ws : List Weight) :
    ∃ s, search true quant loss n h xMax wMax ws = some (s, ws.map (scaledBy · (candidateScales n h xMax wMax 0))) := by
  unfold search
  have e : ∀ f : State → ℕ → State, ∀ st, (List.range 20).foldl f st = ((List.range 19).map (· + 1)).foldl f (f st 0) := by
    intro f st
    rw [show List.range 20 = 0 :: (List.range 19).map (· + 1) from by decide]
    rfl
  simp only [e]
  have hc := fold_cells quant loss (candidateScales n h xMax wMax) (ws.map (scaledBy · (candidateScales n h xMax wMax 0))) ((List.range 19).map (· + 1))
    (step quant loss (candidateScales n h xMax wMax 0) ⟨ws.map (save true), none⟩) (step_aliased quant loss _ ws none)
  have hb := fold_best quant loss (candidateScales n h xMax wMax) ((List.range 19).map (· + 1))
    (step quant loss (candidateScales n h xMax wMax 0) ⟨ws.map (save true), none⟩) (by unfold step; simp)
  obtain ⟨b, hb'⟩ := Option.ne_none_iff_exists'.mp hb
  refine ⟨b.2, ?_⟩
  have hb2 : (((List.range 19).map (· + 1)).foldl (fun st (r : ℕ) => step quant loss (normalise n h (rawScale xMax wMax ((r : ℝ) / 20))) st)
    (step quant loss (normalise n h (rawScale xMax wMax (((0 : ℕ) : ℝ) / 20))) ⟨ws.map (save true), none⟩)).best = some b := hb'
  have hc2 : (((List.range 19).map (· + 1)).foldl (fun st (r : ℕ) => step quant loss (normalise n h (rawScale xMax wMax ((r : ℝ) / 20))) st)
    (step quant loss (normalise n h (rawScale xMax wMax (((0 : ℕ) : ℝ) / 20))) ⟨ws.map (save true), none⟩)).cells =
      (ws.map (scaledBy · (candidateScales n h xMax wMax 0))).map safe := hc
  rw [hb2, hc2, cur_safe]
  rfl

/-- **C81.**  All scales are positive, and the largest times the smallest is one. -/
theorem C81_scales_normalised (n : ℕ) (h : 0 < n) (xMax wMax : ℕ → ℝ) (r : ℕ) :
    (∀ c, 0 < candidateScales n h xMax wMax r c) ∧
      ∃ lo < n, ∃ hi < n, candidateScales n h xMax wMax r hi * candidateScales n h xMax wMax r lo = 1 ∧
        ∀ c < n, candidateScales n h xMax wMax r lo ≤ candidateScales n h xMax wMax r c ∧
          candidateScales n h xMax wMax r c ≤ candidateScales n h xMax wMax r hi := by
  obtain ⟨s, hs⟩ : ∃ s, s = rawScale xMax wMax ((r : ℝ) / 20) := ⟨_, rfl⟩
  have hpos : ∀ c, 0 < s c := by
    intro c
    rw [hs]
    exact lt_of_lt_of_le (by norm_num) (le_max_right _ _)
  obtain ⟨hi, hhi, ehi⟩ := exists_mem_eq_sup' ⟨0, mem_range.mpr h⟩ s
  obtain ⟨lo, hlo, elo⟩ := exists_mem_eq_inf' ⟨0, mem_range.mpr h⟩ s
  have hP : 0 < s hi * s lo := mul_pos (hpos hi) (hpos lo)
  have hsq : 0 < Real.sqrt (s hi * s lo) := Real.sqrt_pos.mpr hP
  have hval : ∀ c, candidateScales n h xMax wMax r c = s c / Real.sqrt (s hi * s lo) := by
    intro c
    unfold candidateScales normalise
    rw [← hs, ehi, elo]
  refine ⟨fun c => by rw [hval]; exact div_pos (hpos c) hsq, lo, mem_range.mp hlo, hi, mem_range.mp hhi, ?_, ?_⟩
  · rw [hval, hval, div_mul_div_comm, Real.mul_self_sqrt hP.le, div_self hP.ne']
  · intro c hc
    rw [hval, hval, hval]
    have h1 : s lo ≤ s c := elo ▸ inf'_le s (mem_range.mpr hc)
    have h2 : s c ≤ s hi := ehi ▸ le_sup' s (mem_range.mpr hc)
    exact ⟨div_le_div_of_nonneg_right h1 hsq.le, div_le_div_of_nonneg_right h2 hsq.le⟩

theorem flat_eq (co ci : ℕ) (w : Weight) (o c : ℕ) (hc : c < ci) : |w ((o * ci + c) / ci) ((o * ci + c) % ci)| = |w o c| := by
  have h : 0 < ci := by omega
  rw [mul_comm o ci, Nat.mul_add_div h, Nat.div_eq_of_lt hc, add_zero, Nat.mul_add_mod, Nat.mod_eq_of_lt hc]

/-- **C81.**  The statistic of the weights of a feature is between zero and one; it is one exactly if in every row the weight of the feature is not zero and the largest of
its group (of its row, with group size zero). -/
theorem C81_weight_statistic (co ci g : ℕ) (hco : 0 < co) (hg : g ∣ ci) (w : Weight) (c : ℕ) (hc : c < ci) :
    0 ≤ weightScale co ci g w c ∧ weightScale co ci g w c ≤ 1 ∧
      (weightScale co ci g w c = 1 ↔ ∀ o < co, w o c ≠ 0 ∧ ∀ c' < ci, (g = 0 ∨ c' / g = c / g) → |w o c'| ≤ |w o c|) := by
  obtain ⟨size, hsize⟩ : ∃ size, size = if 0 < g then g else ci := ⟨_, rfl⟩
  have hs : 0 < size := by rw [hsize]; split_ifs <;> omega
  have hdvd : size ∣ ci := by rw [hsize]; split_ifs; exacts [hg, dvd_refl _]
  obtain ⟨m, hm⟩ := hdvd
  obtain ⟨amax, hamax⟩ : ∃ amax : ℕ → ℝ, amax = fun o =>
      (range size).sup' ⟨0, mem_range.mpr hs⟩ (fun k => |w (((o * ci + c) / size * size + k) / ci) (((o * ci + c) / size * size + k) % ci)|) := ⟨_, rfl⟩
  have hidx : ∀ o, (o * ci + c) / size * size = o * ci + c / size * size := by
    intro o
    rw [hm, show o * (size * m) = size * (o * m) by ring, Nat.mul_add_div hs]
    ring
  have hlt : ∀ k < size, c / size * size + k < ci := by
    intro k hk
    have h1 : c / size < m := by
      apply Nat.div_lt_of_lt_mul
      rw [← hm]
      exact hc
    have h2 : (c / size + 1) * size ≤ m * size := Nat.mul_le_mul_right _ h1
    rw [hm, mul_comm size m]
    have : (c / size + 1) * size = c / size * size + size := by ring
    omega
  have hval : ∀ o, amax o = (range size).sup' ⟨0, mem_range.mpr hs⟩ fun k => |w o (c / size * size + k)| := by
    intro o
    rw [hamax]
    apply sup'_congr _ rfl
    intro k hk
    rw [hidx o, add_assoc]
    exact flat_eq co ci w o _ (hlt k (mem_range.mp hk))
  have hw : weightScale co ci g w c = (∑ o ∈ range co, |w o c| / amax o) / co := by
    unfold weightScale
    simp only
    rw [← hsize]
    congr 1
    apply sum_congr rfl
    intro o _
    unfold groupAmax
    rw [dif_pos hs, flat_eq co ci w o c hc, hamax]
  have hle : ∀ o, |w o c| ≤ amax o := by
    intro o
    rw [hval o]
    have := le_sup' (fun k => |w o (c / size * size + k)|) (mem_range.mpr (Nat.mod_lt c hs))
    rwa [show c / size * size + c % size = c by rw [mul_comm]; exact Nat.div_add_mod c size] at this
  have h01 : ∀ o, 0 ≤ |w o c| / amax o ∧ |w o c| / amax o ≤ 1 := fun o =>
    ⟨div_nonneg (abs_nonneg _) ((abs_nonneg _).trans (hle o)), div_le_one_of_le₀ (hle o) ((abs_nonneg _).trans (hle o))⟩
  have hcoR : (0 : ℝ) < co := by exact_mod_cast hco
  have hsum : (∑ o ∈ range co, |w o c| / amax o) ≤ co := by
    calc _ ≤ ∑ o ∈ range co, (1 : ℝ) := sum_le_sum fun o _ => (h01 o).2
      _ = co := by simp
  rw [hw]
  refine ⟨div_nonneg (sum_nonneg fun o _ => (h01 o).1) hcoR.le, div_le_one_of_le₀ hsum hcoR.le, ?_⟩
  have hone : (∑ o ∈ range co, |w o c| / amax o) / co = 1 ↔ ∀ o < co, |w o c| / amax o = 1 := by
    rw [div_eq_one_iff_eq hcoR.ne']
    constructor
    · intro h o ho
      by_contra hne
      have : (∑ o ∈ range co, |w o c| / amax o) < ∑ o ∈ range co, (1 : ℝ) :=
        sum_lt_sum (fun o _ => (h01 o).2) ⟨o, mem_range.mpr ho, lt_of_le_of_ne (h01 o).2 hne⟩
      rw [h] at this
      simp at this
    · intro h
      rw [sum_congr rfl fun o ho => h o (mem_range.mp ho)]
      simp
  rw [hone]
  refine forall_congr' fun o => forall_congr' fun _ => ?_
  constructor
  · intro h
    have hne : amax o ≠ 0 := by
      intro h0
      rw [h0, div_zero] at h
      exact zero_ne_one h
    have heq : |w o c| = amax o := by
      rwa [div_eq_one_iff_eq hne] at h
    refine ⟨fun h0 => hne (by rw [← heq, h0, abs_zero]), ?_⟩
    intro c' hc' hgr
    have hsame : c' / size = c / size := by
      rw [hsize]
      by_cases hg0 : 0 < g
      · rw [if_pos hg0]
        rcases hgr with h | h
        · omega
        · exact h
      · rw [if_neg hg0, Nat.div_eq_of_lt hc', Nat.div_eq_of_lt hc]
    rw [heq, hval o]
    have := le_sup' (fun k => |w o (c / size * size + k)|) (mem_range.mpr (Nat.mod_lt c' hs))
    rwa [show c / size * size + c' % size = c' by rw [← hsame, mul_comm]; exact Nat.div_add_mod c' size] at this
  · rintro ⟨hne, hmax⟩
    have hpos : 0 < |w o c| := abs_pos.mpr hne
    have heq : amax o = |w o c| := by
      apply le_antisymm _ (hle o)
      rw [hval o]
      apply sup'_le
      intro k hk
      refine hmax _ (hlt k (mem_range.mp hk)) ?_
      by_cases hg0 : 0 < g
      · refine Or.inr ?_
        have : size = g := by rw [hsize, if_pos hg0]
        rw [this] at hk ⊢
        rw [mul_comm, Nat.mul_add_div hg0, Nat.div_eq_of_lt (mem_range.mp hk), add_zero]
      · exact Or.inl (by omega)
    rw [heq, div_self hpos.ne']

/-- **C81.**  The statistic of the activations of a feature is zero exactly if the feature is always zero, and is the magnitude of a feature of constant magnitude. -/
theorem C81_activation_statistic (n : ℕ) (hn : 0 < n) (x : ℕ → ℕ → ℝ) (c : ℕ) :
    (actScale n x c = 0 ↔ ∀ t < n, x t c = 0) ∧ ∀ m, (∀ t < n, |x t c| = m) → actScale n x c = m := by
  have hnR : (0 : ℝ) < n := by exact_mod_cast hn
  unfold actScale
  refine ⟨?_, ?_⟩
  · rw [div_eq_zero_iff, or_iff_left hnR.ne', sum_eq_zero_iff_of_nonneg fun t _ => abs_nonneg _]
    simp only [mem_range, abs_eq_zero]
  · intro m h
    rw [sum_congr rfl fun t ht => h t (mem_range.mp ht), sum_const, card_range, nsmul_eq_mul, mul_div_cancel_left₀ _ hnR.ne']

/-- Two features with weight statistics 1 and 1/4: on the CPU the second column ends up four times as large, relative to the first. -/
example : ∃ s w', search true id (fun _ => 0) 2 (by norm_num) (fun _ => 1) (fun c => if c = 0 then 1 else 1 / 4) [fun _ _ => 1] = some (s, [w']) ∧
    w' 0 0 = 1 / 2 ∧ w' 0 1 = 2 := by
  obtain ⟨s, hs⟩ := C81_cpu_weights_changed id (fun _ => 0) 2 (by norm_num) (fun _ => 1) (fun c => if c = 0 then 1 else 1 / 4) [fun _ _ => 1]
  refine ⟨s, _, hs, ?_, ?_⟩
  all_goals
    have e0 : rawScale (fun _ => 1) (fun c => if c = 0 then 1 else 1 / 4) (((0 : ℕ) : ℝ) / 20) = fun c => if c = 0 then 1 else 4 := by
      funext c
      unfold rawScale
      by_cases h : c = 0
      · simp [h]; norm_num
      · simp [h]; norm_num
    have e1 : (range 2).sup' ⟨0, by simp⟩ (fun c => if c = 0 then (1 : ℝ) else 4) = 4 := by
      apply le_antisymm
      · apply sup'_le
        intro c _
        split_ifs <;> norm_num
      · exact le_sup' (fun c => if c = 0 then (1 : ℝ) else 4) (show 1 ∈ range 2 by decide)
    have e2 : (range 2).inf' ⟨0, by simp⟩ (fun c => if c = 0 then (1 : ℝ) else 4) = 1 := by
      apply le_antisymm
      · exact inf'_le (fun c => if c = 0 then (1 : ℝ) else 4) (show 0 ∈ range 2 by decide)
      · apply le_inf'
        intro c _
        split_ifs <;> norm_num
    have e3 : Real.sqrt (4 * 1) = 2 := by rw [show (4 : ℝ) * 1 = 2 ^ 2 by norm_num, Real.sqrt_sq (by norm_num)]
    show 1 * candidateScales 2 _ _ _ 0 _ = _
    unfold candidateScales normalise
    rw [e0, e1, e2, e3]
    norm_num

end Brevitas.AwqSearch
