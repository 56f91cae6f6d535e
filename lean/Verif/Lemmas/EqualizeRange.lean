import Verif.Lemmas.Equalize
import Mathlib.Tactic.NormNum

/-!
How the ranges of the channels change when the weights of a region are rescaled.
-/

set_option linter.unusedSectionVars false

namespace Brevitas.Equalize

open Net

variable {K : Type*} [Field K] [LinearOrder K] [IsStrictOrderedRing K] [FloorRing K]

theorem foldl_max_mul (l : K) (hl : 0 < l) (t : List K) (a : K) :
    (t.map fun x => x * l).foldl max (a * l) = t.foldl max a * l := by
  induction t generalizing a with
  | nil => rfl
  | cons b t ih =>
    simp only [List.map_cons, List.foldl_cons]
    rw [← max_mul_of_nonneg _ _ hl.le]
    exact ih _

theorem foldl_min_mul (l : K) (hl : 0 < l) (t : List K) (a : K) :
    (t.map fun x => x * l).foldl min (a * l) = t.foldl min a * l := by
  induction t generalizing a with
  | nil => rfl
  | cons b t ih =>
    simp only [List.map_cons, List.foldl_cons]
    rw [← min_mul_of_nonneg _ _ hl.le]
    exact ih _

theorem torchMax_mul (l : K) (hl : 0 < l) (xs : List K) :
    (torchMax (xs.map fun x => x * l)).getD 0 = (torchMax xs).getD 0 * l := by
  cases xs with
  | nil => simp [torchMax]
  | cons a t => simp [torchMax, foldl_max_mul l hl]

theorem torchMin_mul (l : K) (hl : 0 < l) (xs : List K) :
    (torchMin (xs.map fun x => x * l)).getD 0 = (torchMin xs).getD 0 * l := by
  cases xs with
  | nil => simp [torchMin]
  | cons a t => simp [torchMin, foldl_min_mul l hl]

theorem torchMean_mul (l : K) (xs : List K) :
    (torchMean (xs.map fun x => x * l)).getD 0 = (torchMean xs).getD 0 * l := by
  cases xs with
  | nil => simp [torchMean]
  | cons a t =>
    simp only [List.map_cons, torchMean, Option.getD_some, List.sum_cons, List.length_cons, List.length_map]
    rw [List.sum_map_mul_right, List.map_id']
    ring

theorem channelMaxabs_mul (l : K) (hl : 0 < l) (row : List K) :
    channelMaxabs (row.map fun x => x * l) = channelMaxabs row * l := by
  unfold channelMaxabs absMax
  rw [List.map_map, ← torchMax_mul l hl, List.map_map]
  congr 3
  funext x
  simp [abs_mul, abs_of_pos hl]

theorem channelRange_mul (l : K) (hl : 0 < l) (row : List K) :
    channelRange (row.map fun x => x * l) = channelRange row * l := by
  unfold channelRange
  dsimp only
  rw [torchMax_mul l hl, torchMin_mul l hl, torchMean_mul, ← sub_mul]
  by_cases h : (torchMax row).getD 0 - (torchMin row).getD 0 = 0
  · rw [if_pos (by rw [h, zero_mul]), if_pos h, abs_mul, abs_of_pos hl]
  · rw [if_neg (mul_ne_zero h hl.ne'), if_neg h, abs_mul, abs_of_pos hl]

theorem stat_mul (k : StatKind) (l : K) (hl : 0 < l) (row : List K) :
    k.fn (row.map fun x => x * l) = k.fn row * l := by
  cases k
  · exact channelMaxabs_mul l hl row
  · exact channelRange_mul l hl row

theorem le_foldl_max (t : List K) (a : K) : a ≤ t.foldl max a := by
  induction t generalizing a with
  | nil => exact le_rfl
  | cons b t ih => exact le_trans (le_max_left a b) (ih _)

theorem mem_le_foldl_max (t : List K) (a : K) : ∀ x ∈ t, x ≤ t.foldl max a := by
  induction t generalizing a with
  | nil => simp
  | cons b t ih =>
    intro x hx
    rw [List.mem_cons] at hx
    rcases hx with rfl | hx
    · exact le_trans (le_max_right a x) (le_foldl_max t _)
    · exact ih _ x hx

theorem foldl_max_mem (t : List K) (a : K) : t.foldl max a = a ∨ t.foldl max a ∈ t := by
  induction t generalizing a with
  | nil => left; rfl
  | cons b t ih =>
    simp only [List.foldl_cons]
    rcases ih (max a b) with h | h
    · rcases max_choice a b with h' | h'
      · left; rw [h, h']
      · right; rw [h, h']; simp
    · right; simp [h]

/-- The largest absolute value of a non-empty row. -/
theorem channelMaxabs_spec (row : List K) (hrow : row ≠ []) :
    (∃ x ∈ row, |x| = channelMaxabs row) ∧ ∀ x ∈ row, |x| ≤ channelMaxabs row := by
  cases row with
  | nil => exact absurd rfl hrow
  | cons a t =>
    have e : channelMaxabs (a :: t) = (t.map fun x => |x|).foldl max |a| := by
      simp [channelMaxabs, absMax, torchMax]
    rw [e]
    constructor
    · rcases foldl_max_mem (t.map fun x => |x|) |a| with h | h
      · exact ⟨a, by simp, h.symm⟩
      · rw [List.mem_map] at h
        obtain ⟨x, hx, h⟩ := h
        exact ⟨x, by simp [hx], h⟩
    · intro x hx
      rw [List.mem_cons] at hx
      rcases hx with rfl | hx
      · exact le_foldl_max _ _
      · exact mem_le_foldl_max _ _ _ (List.mem_map.2 ⟨x, hx, rfl⟩)

theorem stat_nonneg (k : StatKind) (row : List K) : 0 ≤ k.fn row := by
  cases k
  · change 0 ≤ channelMaxabs row
    by_cases h : row = []
    · subst h
      simp [channelMaxabs, absMax, torchMax]
    · obtain ⟨⟨x, _, hx⟩, _⟩ := channelMaxabs_spec row h
      rw [← hx]
      exact abs_nonneg x
  · exact abs_nonneg _

theorem srcRow_scaleOut (inv : ℕ → K) (ix : EqIdx) (L : Layer K) (o : ℕ) :
    srcRow (scaleOut inv ix L) o = (srcRow L o).map fun x => x * inv (ix.offset + ix.start + o) := by
  unfold srcRow scaleOut
  simp only [List.map_flatMap, List.map_map]
  rfl

theorem srcRow_scaleIn_depthwise (f : ℕ → K) (ix : EqIdx) (L : Layer K) (o : ℕ)
    (h : inputAxisIsOutput L.kind = some true) :
    srcRow (scaleIn f ix L) o = (srcRow L o).map fun x => x * partialScaling f ix o := by
  unfold srcRow scaleIn
  simp only [List.map_flatMap, List.map_map, h, if_true]
  rfl

theorem sinkRow_scaleIn (f : ℕ → K) (ix : EqIdx) (L : Layer K) (i : ℕ) :
    sinkRow (scaleIn f ix L) i = (sinkRow L i).map fun x => x * partialScaling f ix i := by
  unfold sinkRow
  have hk : (scaleIn f ix L).kind = L.kind := rfl
  rw [hk]
  cases hax : inputAxisIsOutput L.kind with
  | none =>
    dsimp only
    simp only [List.map_flatMap, List.map_map]
    unfold scaleIn
    simp only [hax]
    rfl
  | some b =>
    cases b with
    | true => exact srcRow_scaleIn_depthwise f ix L i hax
    | false =>
      dsimp only
      simp only [List.map_flatMap, List.map_map]
      unfold scaleIn
      simp only [hax]
      rfl

/-- A range that is still at its initial value, or has been multiplied by `l`. -/
def RangeRel (l a a' : K) : Prop := (a = -1 ∧ a' = -1) ∨ (0 ≤ a ∧ a' = a * l)

theorem RangeRel.max {l a a' s : K} (hl : 0 < l) (h : RangeRel l a a') (hs : 0 ≤ s) :
    RangeRel l (Max.max a s) (Max.max a' (s * l)) := by
  right
  rcases h with ⟨rfl, rfl⟩ | ⟨h1, rfl⟩
  · have h1 : Max.max (-1) s = s := max_eq_right (by linarith)
    have h2 : Max.max (-1) (s * l) = s * l := max_eq_right (by nlinarith)
    rw [h1, h2]
    exact ⟨hs, rfl⟩
  · exact ⟨le_max_of_le_left h1, (max_mul_of_nonneg _ _ hl.le).symm⟩

/-- The names in the region are all different. -/
structure Distinct (r : Region) : Prop where
  srcs : (r.srcs.map Prod.fst).Nodup
  sinks : (r.sinks.map Prod.fst).Nodup
  disjoint : ∀ m, m ∈ r.srcs.map Prod.fst → m ∉ r.sinks.map Prod.fst

theorem applyFactors_src {r : Region} (hd : Distinct r) (f : ℕ → K) (store : ℕ → Layer K) (s : ℕ × EqIdx)
    (hs : s ∈ r.srcs) : applyFactors f r store s.1 = scaleOut (fun c => (f c)⁻¹) s.2 (store s.1) := by
  unfold applyFactors
  rw [(foldl_updateStore (fun ix => scaleIn f ix) r.sinks _ hd.sinks s.1).2]
  · exact (foldl_updateStore (fun ix => scaleOut (fun c => (f c)⁻¹) ix) r.srcs store hd.srcs s.1).1 s.2 hs
  · intro ix h
    exact hd.disjoint s.1 (List.mem_map.2 ⟨s, hs, rfl⟩) (List.mem_map.2 ⟨(s.1, ix), h, rfl⟩)

theorem applyFactors_sink {r : Region} (hd : Distinct r) (f : ℕ → K) (store : ℕ → Layer K) (s : ℕ × EqIdx)
    (hs : s ∈ r.sinks) : applyFactors f r store s.1 = scaleIn f s.2 (store s.1) := by
  unfold applyFactors
  rw [(foldl_updateStore (fun ix => scaleIn f ix) r.sinks _ hd.sinks s.1).1 s.2 hs]
  congr 1
  apply (foldl_updateStore (fun ix => scaleOut (fun c => (f c)⁻¹) ix) r.srcs store hd.srcs s.1).2
  intro ix h
  exact hd.disjoint s.1 (List.mem_map.2 ⟨(s.1, ix), h, rfl⟩) (List.mem_map.2 ⟨s, hs, rfl⟩)

theorem applyFactors_other {r : Region} (hd : Distinct r) (f : ℕ → K) (store : ℕ → Layer K) (m : ℕ)
    (h1 : m ∉ r.srcs.map Prod.fst) (h2 : m ∉ r.sinks.map Prod.fst) : applyFactors f r store m = store m := by
  unfold applyFactors
  rw [(foldl_updateStore (fun ix => scaleIn f ix) r.sinks _ hd.sinks m).2
    (fun ix h => h2 (List.mem_map.2 ⟨(m, ix), h, rfl⟩))]
  exact (foldl_updateStore (fun ix => scaleOut (fun c => (f c)⁻¹) ix) r.srcs store hd.srcs m).2
    (fun ix h => h1 (List.mem_map.2 ⟨(m, ix), h, rfl⟩))

/-- Without bias merging, the range of the sources is divided by the factor. -/
theorem srcsRange_applyFactors {r : Region} (hd : Distinct r) (cfg : Cfg K) (hm : cfg.mergeBias = false)
    (f : ℕ → K) (hf : ∀ c, 0 < f c) (store : ℕ → Layer K) (c : ℕ) :
    RangeRel (f c)⁻¹ (srcsRange cfg store r c) (srcsRange cfg (applyFactors f r store) r c) := by
  unfold srcsRange
  have key : ∀ (l : List (ℕ × EqIdx)), (∀ s ∈ l, s ∈ r.srcs) → ∀ acc acc' : ℕ → K, RangeRel (f c)⁻¹ (acc c) (acc' c) →
      RangeRel (f c)⁻¹ (l.foldl (srcsRangeStep cfg store) acc c)
        (l.foldl (srcsRangeStep cfg (applyFactors f r store)) acc' c) := by
    intro l
    induction l with
    | nil => intro _ acc acc' h; exact h
    | cons s l ih =>
      intro hl acc acc' h
      simp only [List.foldl_cons]
      apply ih (fun s hs => hl s (List.mem_cons_of_mem _ hs))
      unfold srcsRangeStep
      by_cases hc : s.2.offset + s.2.start ≤ c ∧ c < s.2.offset + s.2.stop
      · rw [if_pos hc, if_pos hc]
        dsimp only
        rw [hm, applyFactors_src hd f store s (hl s (by simp)), srcRow_scaleOut]
        simp only [Bool.false_eq_true, if_false]
        have he : s.2.offset + s.2.start + (c - (s.2.offset + s.2.start)) = c := by omega
        rw [he, stat_mul _ _ (inv_pos.2 (hf c))]
        exact h.max (inv_pos.2 (hf c)) (stat_nonneg _ _)
      · rw [if_neg hc, if_neg hc]
        exact h
  exact key r.srcs (fun s hs => hs) _ _ (Or.inl ⟨rfl, rfl⟩)

/-- The range of the sinks is multiplied by the factor. -/
theorem sinksRange_applyFactors {r : Region} (hd : Distinct r) (cfg : Cfg K)
    (f : ℕ → K) (hf : ∀ c, 0 < f c) (store : ℕ → Layer K) (c : ℕ) :
    RangeRel (f c) (sinksRange cfg store r c) (sinksRange cfg (applyFactors f r store) r c) := by
  unfold sinksRange
  have key : ∀ (l : List (ℕ × EqIdx)), (∀ s ∈ l, s ∈ r.sinks) → ∀ acc acc' : ℕ → K, RangeRel (f c) (acc c) (acc' c) →
      RangeRel (f c) (l.foldl (sinksRangeStep cfg store) acc c)
        (l.foldl (sinksRangeStep cfg (applyFactors f r store)) acc' c) := by
    intro l
    induction l with
    | nil => intro _ acc acc' h; exact h
    | cons s l ih =>
      intro hl acc acc' h
      simp only [List.foldl_cons]
      apply ih (fun s hs => hl s (List.mem_cons_of_mem _ hs))
      unfold sinksRangeStep
      by_cases hc : s.2.offset ≤ c ∧ c < s.2.offset + (s.2.stop - s.2.start)
      · rw [if_pos hc, if_pos hc, applyFactors_sink hd f store s (hl s (by simp)), sinkRow_scaleIn]
        have hp : partialScaling f s.2 (s.2.start + (c - s.2.offset)) = f c := by
          unfold partialScaling
          rw [if_pos (by omega)]
          congr 1
          omega
        rw [hp, stat_mul _ _ (hf c)]
        exact h.max (hf c) (stat_nonneg _ _)
      · rw [if_neg hc, if_neg hc]
        exact h
  exact key r.sinks (fun s hs => hs) _ _ (Or.inl ⟨rfl, rfl⟩)

theorem factor_pos (α srcs sinks : ℝ) : 0 < factor α srcs sinks := by
  unfold factor
  have he : (0 : ℝ) < epsilon := by unfold epsilon; norm_num
  apply div_pos
  · apply Real.rpow_pos_of_pos
    split_ifs with h
    · exact one_pos
    · push Not at h
      linarith [h.2]
  · apply Real.rpow_pos_of_pos
    split_ifs with h
    · exact one_pos
    · push Not at h
      linarith [h.1]

theorem factor_half {rs rk : ℝ} (h1 : epsilon < rs) (h2 : epsilon < rk) :
    factor (1 / 2) rs rk = Real.sqrt rs / Real.sqrt rk := by
  unfold factor
  have hn : ¬ (rk ≤ epsilon ∨ rs ≤ epsilon) := by
    push Not
    exact ⟨h2, h1⟩
  dsimp only
  rw [if_neg hn, if_neg hn, Real.sqrt_eq_rpow, Real.sqrt_eq_rpow]
  norm_num

theorem factor_degenerate (α : ℝ) {rs rk : ℝ} (h : rk ≤ epsilon ∨ rs ≤ epsilon) : factor α rs rk = 1 := by
  unfold factor
  dsimp only
  rw [if_pos h, if_pos h]
  simp

end Brevitas.Equalize
