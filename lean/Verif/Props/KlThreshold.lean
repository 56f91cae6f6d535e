import Verif.Lemmas.KlThreshold
import Verif.Lemmas.ChannelScale
import Mathlib.Tactic.IntervalCases

/-!
# C118: the threshold of least divergence
-/

namespace Brevitas.Props

open Brevitas Brevitas.Kl Brevitas.KlSpec Brevitas.ChannelScale

/-- The results of the loop. -/
theorem klThreshold_eq {nb nq : ℕ} (eps : ℝ) (xs : List ℝ) (hx : xs ≠ []) (hodd : nb % 2 = 1) (hq : 0 < nq) (hle : nq ≤ nb) :
    klThreshold nb nq eps xs = argminThreshold ((List.range' (nq / 2) (nb / 2 + 1 - nq / 2)).map fun i =>
      (maxAbs xs * ((2 * i + 1 : ℕ) : ℝ) / nb, divergence xs (binOf nb (maxAbs xs)) (nb / 2) nq eps i)) := by
  unfold klThreshold
  simp only [absMax_eq hx, Option.bind_eq_bind, Option.bind_some]
  rw [if_neg (by omega), mapM_some _ (fun i => (maxAbs xs * ((2 * i + 1 : ℕ) : ℝ) / nb, divergence xs (binOf nb (maxAbs xs)) (nb / 2) nq eps i))]
  · rfl
  · intro i hi
    rw [List.mem_range'_1] at hi
    exact candidate_eq eps _ xs hx hodd hq (by omega) hi.1

/-- C118: for an odd number of bins, at least as many as quantised ones, the statistic is the upper end of one of the symmetric ranges of bins, from the
smallest that has as many bins as there are quantised ones to the whole histogram; its divergence is least, and among the ranges of least divergence it is the
smallest. -/
theorem C118_least_divergence {nb nq : ℕ} (eps : ℝ) (xs : List ℝ) (hx : xs ≠ []) (hodd : nb % 2 = 1) (hq : 0 < nq) (hle : nq ≤ nb) :
    ∃ i, nq / 2 ≤ i ∧ i ≤ nb / 2 ∧ klThreshold nb nq eps xs = some (maxAbs xs * ((2 * i + 1 : ℕ) : ℝ) / nb) ∧
      ∀ i', nq / 2 ≤ i' → i' ≤ nb / 2 →
        divergence xs (binOf nb (maxAbs xs)) (nb / 2) nq eps i ≤ divergence xs (binOf nb (maxAbs xs)) (nb / 2) nq eps i' ∧
        (i' < i → divergence xs (binOf nb (maxAbs xs)) (nb / 2) nq eps i < divergence xs (binOf nb (maxAbs xs)) (nb / 2) nq eps i') := by
  rw [klThreshold_eq eps xs hx hodd hq hle]
  set D := divergence xs (binOf nb (maxAbs xs)) (nb / 2) nq eps with hD
  set F : ℕ → ℝ × WithTop ℝ := fun i => (maxAbs xs * ((2 * i + 1 : ℕ) : ℝ) / nb, D i) with hF
  have hlen : nb / 2 + 1 - nq / 2 = (nb / 2 - nq / 2) + 1 := by omega
  rw [hlen, List.range'_succ, List.map_cons, argminThreshold]
  have hs := argmin_spec ((List.range' (nq / 2 + 1) (nb / 2 - nq / 2)).map F) (F (nq / 2))
  set r := (open Classical in ((List.range' (nq / 2 + 1) (nb / 2 - nq / 2)).map F).foldl (fun best d => if d.2 < best.2 then d else best) (F (nq / 2))) with hr
  have hmem : ∀ i', nq / 2 < i' → i' ≤ nb / 2 → F i' ∈ (List.range' (nq / 2 + 1) (nb / 2 - nq / 2)).map F := by
    intro i' h1 h2
    exact List.mem_map_of_mem (List.mem_range'_1.2 (by omega))
  rcases hs with ⟨h1, h2⟩ | ⟨k, hk, h1, h2, h3, h4⟩
  · refine ⟨nq / 2, le_rfl, by omega, ?_, ?_⟩
    · rw [h1]
    · intro i' hi1 hi2
      refine ⟨?_, fun h => absurd h (by omega)⟩
      rcases Nat.eq_or_lt_of_le hi1 with rfl | hlt
      · exact le_rfl
      · exact h2 _ (hmem i' hlt hi2)
  · have hk' : k < nb / 2 - nq / 2 := by simpa using hk
    have hrk : r = F (nq / 2 + 1 + k) := by
      rw [h1, List.getElem_map, List.getElem_range']
      congr 1; omega
    refine ⟨nq / 2 + 1 + k, by omega, by omega, ?_, ?_⟩
    · rw [hrk]
    · have hr2 : r.2 = D (nq / 2 + 1 + k) := by rw [hrk]
      rw [hr2] at h2 h3 h4
      intro i' hi1 hi2
      constructor
      · rcases Nat.eq_or_lt_of_le hi1 with rfl | hlt
        · exact h2.le
        · exact h4 _ (hmem i' hlt hi2)
      · intro hlt
        rcases Nat.eq_or_lt_of_le hi1 with rfl | hlt'
        · exact h2
        · have := h3 (i' - (nq / 2 + 1)) (by omega)
          rw [List.getElem_map, List.getElem_range'] at this
          rwa [show nq / 2 + 1 + 1 * (i' - (nq / 2 + 1)) = i' by omega] at this

/-- C118: it never exceeds the largest absolute value and is positive unless all elements are zero. -/
theorem C118_bounds {nb nq : ℕ} (eps : ℝ) (xs : List ℝ) (hx : xs ≠ []) (hodd : nb % 2 = 1) (hq : 0 < nq) (hle : nq ≤ nb) :
    ∃ T, klThreshold nb nq eps xs = some T ∧ maxAbs xs * nq / nb ≤ T ∧ T ≤ maxAbs xs := by
  obtain ⟨i, h1, h2, h3, -⟩ := C118_least_divergence eps xs hx hodd hq hle
  have hM : 0 ≤ maxAbs xs := by
    obtain ⟨x, -, he⟩ := maxAbs_spec.2 hx
    rw [← he]; exact abs_nonneg x
  have hnb : (0 : ℝ) < nb := by exact_mod_cast (by omega : 0 < nb)
  refine ⟨_, h3, ?_, ?_⟩
  · apply div_le_div_of_nonneg_right _ hnb.le
    apply mul_le_mul_of_nonneg_left _ hM
    exact_mod_cast (by omega : nq ≤ 2 * i + 1)
  · rw [div_le_iff₀ hnb]
    apply mul_le_mul_of_nonneg_left _ hM
    exact_mod_cast (by omega : 2 * i + 1 ≤ nb)

/-- C118: exactly when the statistic is defined. With an even number of bins, or more quantised bins than bins, it raises for every tensor. -/
theorem C118_defined_iff (nb nq : ℕ) (eps : ℝ) (xs : List ℝ) :
    (klThreshold nb nq eps xs).isSome ↔ xs ≠ [] ∧ nb % 2 = 1 ∧ 0 < nq ∧ nq ≤ nb := by
  constructor
  · intro h
    have hx : xs ≠ [] := by
      rintro rfl
      simp [klThreshold, absMax, torchMax] at h
    rw [klThreshold] at h
    simp only [absMax_eq hx, Option.bind_eq_bind, Option.bind_some] at h
    by_cases h1 : nb = 0 ∨ nb / 2 + 1 < nq / 2
    · rw [if_pos h1] at h; simp at h
    rw [if_neg h1] at h
    by_cases h2 : nq / 2 ≤ nb / 2
    · have hmem : nb / 2 ∈ List.range' (nq / 2) (nb / 2 + 1 - nq / 2) := List.mem_range'_1.2 (by omega)
      have hcand : candidate nb nq eps (histc nb (maxAbs xs) xs) (histEdges nb (maxAbs xs)) (nb / 2) ≠ none := by
        intro hn
        rw [mapM_none _ _ _ hmem hn] at h
        simp at h
      have hodd : nb % 2 = 1 := by
        by_contra hev
        apply hcand
        have : (histEdges nb (maxAbs xs))[nb / 2 + nb / 2 + 1]? = none := by
          rw [List.getElem?_eq_none_iff]
          simp [histEdges]
          omega
        simp only [candidate, this, Option.bind_eq_bind, Option.bind_none]
      have hq : 0 < nq := by
        by_contra h0
        apply hcand
        have h0' : nq = 0 := by omega
        simp only [candidate, h0', if_true, Option.bind_eq_bind]
        cases (histEdges nb (maxAbs xs))[nb / 2 + nb / 2 + 1]? with
        | none => rfl
        | some t =>
          simp only [Option.bind_some]
          generalize foldOutliers _ _ _ = o
          cases o <;> rfl
      exact ⟨hx, hodd, hq, by omega⟩
    · rw [show nb / 2 + 1 - nq / 2 = 0 by omega] at h
      simp [argminThreshold] at h
  · rintro ⟨hx, hodd, hq, hle⟩
    obtain ⟨i, -, -, h, -⟩ := C118_least_divergence eps xs hx hodd hq hle
    rw [h]; rfl

/-- C118, with the default number of bins: signed quantisers of 2 to 10 bits and unsigned ones of 1 to 9 bits, and no others. -/
theorem C118_default_widths (signed : Bool) (b : ℕ) (eps : ℝ) (xs : List ℝ) (hx : xs ≠ []) :
    (klThreshold 1001 (numQuantizedBins signed b) eps xs).isSome ↔ if signed then 2 ≤ b ∧ b ≤ 10 else 1 ≤ b ∧ b ≤ 9 := by
  rw [C118_defined_iff]
  have hbig : ∀ n, 10 ≤ n → 1024 ≤ 2 ^ n := fun n hn => le_trans (by norm_num) (Nat.pow_le_pow_right (n := 2) (by norm_num) hn)
  cases signed
  · simp only [numQuantizedBins, hx, Bool.false_eq_true, if_false, ne_eq, not_false_eq_true, true_and]
    by_cases hb : b ≤ 9
    · interval_cases b <;> norm_num
    · have := hbig b (by omega)
      constructor
      · rintro ⟨-, h⟩; omega
      · rintro ⟨-, h⟩; omega
  · simp only [numQuantizedBins, hx, if_true, ne_eq, not_false_eq_true, true_and]
    by_cases hb : b ≤ 10
    · interval_cases b <;> norm_num
    · have := hbig (b - 1) (by omega)
      constructor
      · rintro ⟨-, h⟩; omega
      · rintro ⟨-, h⟩; omega

theorem maxAbs_replicate (n : ℕ) (hn : 0 < n) (c : ℝ) : maxAbs (List.replicate n c) = |c| := by
  obtain ⟨x, hx, he⟩ := (maxAbs_spec (l := List.replicate n c)).2 (by simp; omega)
  rw [← he, List.eq_of_mem_replicate hx]

theorem count_replicate {α : Type*} (n : ℕ) (c : α) (P : α → Prop) [DecidablePred P] : count (List.replicate n c) P = if P c then n else 0 := by
  unfold count
  by_cases h : P c <;> simp [h]

/-- Disagreement: when all elements are equal and positive, no range keeps anything after quantisation (its last bin gets nothing), so that the smallest
range wins: the threshold is far below the elements, and every one of them is clipped. -/
theorem C118_constant_clipped {nb nq : ℕ} (eps c : ℝ) (hc : 0 < c) (n : ℕ) (hn : 0 < n) (hodd : nb % 2 = 1) (hq : 0 < nq) (hle : nq ≤ nb) :
    klThreshold nb nq eps (List.replicate n c) = some (c * ((2 * (nq / 2) + 1 : ℕ) : ℝ) / nb) := by
  obtain ⟨i, h1, h2, h3, h4⟩ := C118_least_divergence eps (List.replicate n c) (by simp; omega) hodd hq hle
  rw [maxAbs_replicate n hn, abs_of_pos hc] at h3 h4
  have hbin : binOf nb c c = nb - 1 := by
    unfold binOf
    simp only [if_neg hc.ne']
    rw [show (c - -c) / (c - -c) = 1 from div_self (by linarith), one_mul, Nat.floor_natCast]
    omega
  have htop : ∀ i', i' ≤ nb / 2 → divergence (List.replicate n c) (binOf nb c) (nb / 2) nq eps i' = ⊤ := by
    intro i' hi'
    unfold divergence
    simp only
    rw [if_pos]
    intro k hk
    unfold quantised
    rw [if_neg]
    rintro ⟨ha, hb⟩
    unfold restricted at ha
    rw [count_replicate, hbin] at ha
    apply ha
    rw [if_neg (by omega)]
  rcases Nat.eq_or_lt_of_le h1 with he | hlt
  · rw [he]; exact h3
  · have := (h4 (nq / 2) le_rfl (by omega)).2 hlt
    rw [htop _ h2, htop _ (by omega)] at this
    exact absurd this (lt_irrefl _)

/-- … whereas with the opposite sign nothing is clipped. -/
theorem C118_sign_matters {nb nq : ℕ} (eps c : ℝ) (hc : 0 < c) (n : ℕ) (hn : 0 < n) (hodd : nb % 2 = 1) (hq : 0 < nq) (hle : nq ≤ nb) (hnb : 1 < nb) :
    klThreshold nb nq eps (List.replicate n (-c)) = some c := by
  obtain ⟨i, h1, h2, h3, h4⟩ := C118_least_divergence eps (List.replicate n (-c)) (by simp; omega) hodd hq hle
  rw [maxAbs_replicate n hn, abs_neg, abs_of_pos hc] at h3 h4
  have hbin : binOf nb c (-c) = 0 := by
    unfold binOf
    simp only [if_neg hc.ne']
    rw [show -c - -c = 0 by ring]
    simp
  have htop : ∀ i', i' < nb / 2 → divergence (List.replicate n (-c)) (binOf nb c) (nb / 2) nq eps i' = ⊤ := by
    intro i' hi'
    unfold divergence
    simp only
    rw [if_pos]
    intro k hk
    unfold quantised
    rw [if_neg]
    rintro ⟨ha, -⟩
    unfold restricted at ha
    rw [count_replicate, hbin] at ha
    apply ha
    rw [if_neg (by omega)]
  have hfin : divergence (List.replicate n (-c)) (binOf nb c) (nb / 2) nq eps (nb / 2) ≠ ⊤ := by
    unfold divergence
    simp only
    rw [if_neg]
    · exact WithTop.coe_ne_top
    · intro hall
      have h0 := hall 0 (by omega)
      have hr0 : restricted (List.replicate n (-c)) (binOf nb c) (nb / 2) (nb / 2) 0 = n := by
        unfold restricted
        rw [count_replicate, hbin, if_pos (by omega)]
      have hg0 : group (2 * (nb / 2) + 1) nq 0 = 0 := by unfold group; simp
      unfold quantised at h0
      rw [if_pos ⟨by rw [hr0]; omega, by omega⟩, hg0] at h0
      have ht : 0 < groupTotal (2 * (nb / 2) + 1) nq (restricted (List.replicate n (-c)) (binOf nb c) (nb / 2) (nb / 2)) 0 := by
        unfold groupTotal
        apply Nat.lt_of_lt_of_le (show 0 < restricted (List.replicate n (-c)) (binOf nb c) (nb / 2) (nb / 2) 0 by rw [hr0]; exact hn)
        apply List.single_le_sum (fun _ _ => Nat.zero_le _)
        apply List.mem_map_of_mem
        rw [List.mem_filter]
        exact ⟨List.mem_range.2 (by omega), by simpa using hg0⟩
      have hu : 0 < groupUsed (2 * (nb / 2) + 1) nq (restricted (List.replicate n (-c)) (binOf nb c) (nb / 2) (nb / 2)) 0 := by
        unfold groupUsed count
        apply List.length_pos_of_mem (a := 0)
        rw [List.mem_filter]
        exact ⟨List.mem_range.2 (by omega), by rw [decide_eq_true_eq]; exact ⟨hg0, by omega, by rw [hr0]; omega⟩⟩
      have : (0 : ℝ) < (groupTotal (2 * (nb / 2) + 1) nq (restricted (List.replicate n (-c)) (binOf nb c) (nb / 2) (nb / 2)) 0 : ℝ) /
        groupUsed (2 * (nb / 2) + 1) nq (restricted (List.replicate n (-c)) (binOf nb c) (nb / 2) (nb / 2)) 0 := by
        apply div_pos
        · exact_mod_cast ht
        · exact_mod_cast hu
      exact this.ne' h0
  rcases Nat.eq_or_lt_of_le h2 with he | hlt
  · rw [h3, he]
    have hnbr : (nb : ℝ) ≠ 0 := by exact_mod_cast (by omega : nb ≠ 0)
    rw [show 2 * (nb / 2) + 1 = nb by omega, mul_div_cancel_right₀ _ hnbr]
  · have := (h4 (nb / 2) (by omega) le_rfl).1
    rw [htop _ hlt] at this
    exact absurd (top_le_iff.1 this) hfin

/-- C118: what is compared is a divergence, never negative. -/
theorem C118_nonneg {α : Type*} (xs : List α) (bin : α → ℕ) (mid nq : ℕ) (eps : ℝ) (i : ℕ) : 0 ≤ divergence xs bin mid nq eps i := by
  have gibbs : ∀ (n : ℕ) (f g : ℕ → ℝ), 0 < n → 0 ≤ kl n (softmax n f) (softmax n g) := by
    intro n f g hn
    have hF := softmax_pos f hn
    have hG := softmax_pos g hn
    have hsum : ∀ f : ℕ → ℝ, ∑ k ∈ Finset.range n, softmax n f k = 1 := by
      intro f
      unfold softmax
      rw [← Finset.sum_div, div_self (softmax_pos f hn).ne']
    have hle : ∑ k ∈ Finset.range n, (softmax n f k - softmax n g k) ≤ kl n (softmax n f) (softmax n g) := by
      apply Finset.sum_le_sum
      intro k _
      have hp : 0 < softmax n f k := div_pos (Real.exp_pos _) hF
      have hq : 0 < softmax n g k := div_pos (Real.exp_pos _) hG
      have hlog := Real.log_le_sub_one_of_pos (div_pos hq hp)
      have hinv : Real.log (softmax n f k / softmax n g k) = -Real.log (softmax n g k / softmax n f k) := by
        rw [← Real.log_inv, inv_div]
      rw [hinv]
      have h1 : softmax n f k * (softmax n g k / softmax n f k) = softmax n g k := mul_div_cancel₀ _ hp.ne'
      nlinarith
    rw [Finset.sum_sub_distrib, hsum, hsum, sub_self] at hle
    exact hle
  unfold divergence
  simp only
  split_ifs
  · exact le_top
  · exact_mod_cast gibbs _ _ _ (by omega)

/-! Instances: 8-bit signed quantisation with the default bins. -/

example : numQuantizedBins true 8 = 127 ∧ (1001 : ℕ) % 2 = 1 := by decide

/-- One hundred ones are quantised with a threshold of 127/1001. -/
example : klThreshold 1001 (numQuantizedBins true 8) (1 / 10000) (List.replicate 100 1) = some (127 / 1001) := by
  have := C118_constant_clipped (nb := 1001) (nq := numQuantizedBins true 8) (1 / 10000) 1 one_pos 100 (by norm_num) (by norm_num) (by decide) (by decide)
  rw [this]
  norm_num [numQuantizedBins]

/-- Sixteen-bit quantisers raise. -/
example : klThreshold 1001 (numQuantizedBins true 16) (1 / 10000) [1, 2] = none := by
  have := (C118_default_widths true 16 (1 / 10000) [1, 2] (by simp)).not.2 (by simp)
  simpa using this

end Brevitas.Props
