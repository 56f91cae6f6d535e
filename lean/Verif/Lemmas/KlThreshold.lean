import Verif.Model.KlThreshold
import Verif.Spec.KlDivergence
import Mathlib.Tactic.Ring
import Mathlib.Tactic.Linarith
import Mathlib.Tactic.FieldSimp
import Mathlib.Tactic.Positivity
import Mathlib.Data.List.Nodup
import Mathlib.Data.List.GetD
import Mathlib.Algebra.BigOperators.Group.List.Basic

/-!
# Lemmas on the threshold of least divergence
-/

namespace Brevitas

namespace Kl

open KlSpec

theorem slice_perm (n a b : ℕ) (h : ℕ → ℕ) :
    (slice ((List.range n).map h) a b).Perm (((List.range n).filter fun k => decide (a ≤ k ∧ k < b)).map h) := by
  unfold slice
  rw [← List.map_take, ← List.map_drop]
  apply List.Perm.map
  rw [List.perm_ext_iff_of_nodup]
  · intro k
    rw [List.mem_filter, List.mem_range, decide_eq_true_eq, List.take_range, List.range_eq_range', List.drop_range', List.mem_range'_1]
    omega
  · exact (List.drop_sublist _ _).nodup ((List.take_sublist _ _).nodup List.nodup_range)
  · exact List.nodup_range.filter _

theorem slice_map_range (h : ℕ → ℕ) (n a b : ℕ) (hb : b ≤ n) : slice ((List.range n).map h) a b = (List.range (b - a)).map fun k => h (a + k) := by
  unfold slice
  apply List.ext_getElem
  · simp; omega
  · intro k h1 h2
    simp

theorem sum_filter_split (l : List ℕ) (h : ℕ → ℕ) (P Q : ℕ → Bool) (hd : ∀ k ∈ l, ¬ (P k = true ∧ Q k = true)) :
    ((l.filter fun k => P k || Q k).map h).sum = ((l.filter P).map h).sum + ((l.filter Q).map h).sum := by
  induction l with
  | nil => rfl
  | cons a l ih =>
    have ih' := ih fun k hk => hd k (List.mem_cons_of_mem _ hk)
    have ha := hd a (by simp)
    simp only [List.filter_cons]
    cases hp : P a <;> cases hq : Q a <;> simp_all <;> omega

theorem group_mem {n nq j k : ℕ} (hq : 0 < nq) (hn : nq ≤ n) (hj : j < nq) (hk : k < n) :
    (j * (n / nq) ≤ k ∧ k < spreadStop nq (n / nq) n j) ↔ (group n nq k = j ∧ k + 1 < n) := by
  have hm : 0 < n / nq := Nat.div_pos hn hq
  have hle : nq * (n / nq) ≤ n := Nat.mul_div_le n nq
  set m := n / nq with hmd
  unfold spreadStop group
  rw [← hmd]
  have hdiv : j * m ≤ k ↔ j ≤ k / m := (Nat.le_div_iff_mul_le hm).symm
  have hdiv2 : k < j * m + m ↔ k / m ≤ j := by
    rw [← Nat.succ_mul, ← Nat.div_lt_iff_lt_mul hm]; omega
  by_cases hl : j = nq - 1
  · rw [if_pos hl, hdiv]; omega
  · rw [if_neg hl, hdiv, hdiv2]
    constructor
    · rintro ⟨h1, h2⟩
      have he : k / m = j := by omega
      refine ⟨by omega, ?_⟩
      have h3 : k < (j + 1) * m := by rw [Nat.succ_mul]; exact hdiv2.2 h2
      have h4 : (j + 1) * m ≤ (nq - 1) * m := Nat.mul_le_mul_right _ (by omega)
      have h5 : (nq - 1) * m + m = nq * m := by rw [← Nat.succ_mul]; congr 1; omega
      omega
    · rintro ⟨h1, h2⟩
      omega

theorem quantizedBins_getD {n nq j : ℕ} (h : ℕ → ℕ) (hq : 0 < nq) (hn : nq ≤ n) (hj : j < nq) :
    (quantizedBins nq (n / nq) ((List.range n).map h)).getD j 0 = groupTotal n nq h j := by
  have hm : 0 < n / nq := Nat.div_pos hn hq
  have hle : nq * (n / nq) ≤ n := Nat.mul_div_le n nq
  set m := n / nq with hmd
  have hget : ((List.range nq).map fun j => (slice ((List.range n).map h) (j * m) (j * m + m)).sum).getD j 0 =
      (slice ((List.range n).map h) (j * m) (j * m + m)).sum := by
    rw [List.getD_eq_getElem _ _ (by simpa using hj), List.getElem_map, List.getElem_range]
  have hsl := (slice_perm n (j * m) (j * m + m) h).sum_eq
  have hdiv : ∀ k, j * m ≤ k ↔ j ≤ k / m := fun k => (Nat.le_div_iff_mul_le hm).symm
  have hdiv2 : ∀ k, k < j * m + m ↔ k / m ≤ j := fun k => by
    rw [← Nat.succ_mul, ← Nat.div_lt_iff_lt_mul hm]; omega
  simp only [quantizedBins, groupTotal]
  by_cases hl : j = nq - 1
  · subst hl
    rw [List.getD_eq_getElem _ _ (by simpa using hj), List.getElem_set_self, hget, hsl]
    have hdrop : (((List.range n).map h).drop (nq * m)).sum = (((List.range n).filter fun k => decide (nq * m ≤ k ∧ k < n)).map h).sum := by
      rw [← (slice_perm n (nq * m) n h).sum_eq]
      unfold slice
      rw [List.take_of_length_le (by simp)]
    rw [hdrop, ← sum_filter_split]
    · congr 2
      apply List.filter_congr
      intro k hk
      have hk' : k < n := List.mem_range.1 hk
      have h5 : (nq - 1) * m + m = nq * m := by rw [← Nat.succ_mul]; congr 1; omega
      have h6 := hdiv k
      unfold group
      rw [← hmd, ← Bool.decide_or]
      apply decide_eq_decide.2
      omega
    · intro k _
      have h5 : (nq - 1) * m + m = nq * m := by rw [← Nat.succ_mul]; congr 1; omega
      simp only [decide_eq_true_eq]
      omega
  · rw [List.getD_eq_getElem _ _ (by simpa using hj), List.getElem_set_ne (by omega), ← List.getD_eq_getElem _ 0 (by simpa using hj), hget, hsl]
    congr 2
    apply List.filter_congr
    intro k hk
    have h6 := hdiv k
    have h7 := hdiv2 k
    unfold group
    rw [← hmd]
    apply decide_eq_decide.2
    omega

theorem norm_eq {n nq j : ℕ} (h : ℕ → ℕ) (hq : 0 < nq) (hn : nq ≤ n) (hj : j < nq) :
    ((slice ((List.range n).map h) (j * (n / nq)) (spreadStop nq (n / nq) n j)).filter fun c => decide (c ≠ 0)).length = groupUsed n nq h j := by
  rw [((slice_perm n _ _ h).filter _).length_eq, List.filter_map, List.length_map, List.filter_filter]
  unfold groupUsed count
  congr 1
  apply List.filter_congr
  intro k hk
  have hk' : k < n := List.mem_range.1 hk
  have := group_mem hq hn hj hk'
  simp only [Function.comp, ← Bool.decide_and]
  apply decide_eq_decide.2
  rw [this]
  tauto

theorem mapIdx_map_range (n : ℕ) (f : ℕ → ℝ) (g : ℕ → ℝ → ℝ) : ((List.range n).map f).mapIdx g = (List.range n).map fun k => g k (f k) := by
  apply List.ext_getElem
  · simp
  · intro k h1 h2
    simp

theorem expand_eq {n nq : ℕ} (h : ℕ → ℕ) (hq : 0 < nq) (hn : nq ≤ n) :
    expand nq (n / nq) ((List.range n).map h) = (List.range n).map (quantised n nq h) := by
  have key : ∀ J, J ≤ nq → (List.range J).foldl (spreadStep nq (n / nq) ((List.range n).map h) (quantizedBins nq (n / nq) ((List.range n).map h)))
      ((List.range n).map fun _ => (0 : ℝ)) =
      (List.range n).map fun k => if group n nq k < J ∧ k + 1 < n then (groupTotal n nq h (group n nq k) : ℝ) / groupUsed n nq h (group n nq k) else 0 := by
    intro J
    induction J with
    | zero => intro _; simp
    | succ J ih =>
      intro hJ
      rw [List.range_succ, List.foldl_append, ih (by omega), List.foldl_cons, List.foldl_nil]
      unfold spreadStep
      simp only [List.length_map, List.length_range]
      rw [norm_eq h hq hn (by omega), quantizedBins_getD h hq hn (by omega)]
      by_cases h0 : groupUsed n nq h J ≠ 0
      · rw [if_pos h0, mapIdx_map_range]
        apply List.map_congr_left
        intro k hk
        have hk' : k < n := List.mem_range.1 hk
        have hg := group_mem hq hn (show J < nq by omega) hk'
        by_cases hc : group n nq k = J ∧ k + 1 < n
        · rw [if_pos (hg.2 hc), if_pos ⟨by omega, hc.2⟩, hc.1]
        · rw [if_neg (fun hh => hc (hg.1 hh))]
          by_cases hd : group n nq k < J ∧ k + 1 < n
          · rw [if_pos hd, if_pos ⟨by omega, hd.2⟩]
          · rw [if_neg hd, if_neg (by omega)]
      · rw [if_neg h0]
        push Not at h0
        apply List.map_congr_left
        intro k hk
        by_cases hc : group n nq k = J ∧ k + 1 < n
        · rw [if_neg (by omega), if_pos ⟨by omega, hc.2⟩, hc.1, h0]
          simp
        · by_cases hd : group n nq k < J ∧ k + 1 < n
          · rw [if_pos hd, if_pos ⟨by omega, hd.2⟩]
          · rw [if_neg hd, if_neg (by omega)]
  unfold expand
  simp only [List.length_map, List.length_range]
  rw [show List.replicate n (0 : ℝ) = (List.range n).map fun _ => (0 : ℝ) by simp, key nq le_rfl, mapIdx_map_range]
  apply List.map_congr_left
  intro k hk
  have hk' : k < n := List.mem_range.1 hk
  have hg : group n nq k < nq := by unfold group; omega
  rw [List.getD_eq_getElem _ _ (by simpa using hk'), List.getElem_map, List.getElem_range]
  unfold quantised
  by_cases h0 : h k = 0
  · rw [if_pos h0, if_neg (by omega)]
  · rw [if_neg h0]
    by_cases h1 : k + 1 < n
    · rw [if_pos ⟨hg, h1⟩, if_pos ⟨h0, h1⟩]
    · rw [if_neg (by omega), if_neg (by omega)]

theorem sum_map_range (n : ℕ) (f : ℕ → ℝ) : ((List.range n).map f).sum = ∑ k ∈ Finset.range n, f k := by
  induction n with
  | zero => simp
  | succ n ih => rw [List.range_succ, List.map_append, List.sum_append, ih, Finset.sum_range_succ]; simp

theorem smoothLogits_none {n : ℕ} {f : ℕ → ℝ} (eps : ℝ) (h : ∀ k, k < n → f k = 0) : smoothLogits eps ((List.range n).map f) = none := by
  have : (((List.range n).map f).filter fun v => decide (v = 0)) = (List.range n).map f := by
    rw [List.filter_eq_self]
    intro v hv
    obtain ⟨k, hk, rfl⟩ := List.mem_map.1 hv
    simpa using h k (List.mem_range.1 hk)
  simp only [smoothLogits, this, Nat.sub_self, if_true]

theorem smoothLogits_some {n : ℕ} {f : ℕ → ℝ} (eps : ℝ) (h : ∃ k, k < n ∧ f k ≠ 0) :
    ∃ c, smoothLogits eps ((List.range n).map f) = some ((List.range n).map fun k => smooth eps f k + c) := by
  obtain ⟨k, hk, hf⟩ := h
  have hlt : (((List.range n).map f).filter fun v => decide (v = 0)).length < ((List.range n).map f).length := by
    apply List.length_filter_lt_length_iff_exists.2
    exact ⟨f k, List.mem_map_of_mem (List.mem_range.2 hk), by simpa using hf⟩
  refine ⟨-(eps * ((((List.range n).map f).filter fun v => decide (v = 0)).length : ℝ) /
    ((((List.range n).map f).length - (((List.range n).map f).filter fun v => decide (v = 0)).length : ℕ) : ℝ)) *
    ((((List.range n).map f).length - (((List.range n).map f).filter fun v => decide (v = 0)).length : ℕ) : ℝ), ?_⟩
  simp only [smoothLogits]
  rw [if_neg (by omega), List.map_map]
  congr 1
  apply List.map_congr_left
  intro j _
  simp only [Function.comp, smooth]
  ring

theorem softmax_pos {n : ℕ} (f : ℕ → ℝ) (hn : 0 < n) : 0 < ∑ j ∈ Finset.range n, Real.exp (f j) :=
  Finset.sum_pos (fun _ _ => Real.exp_pos _) ⟨0, Finset.mem_range.2 hn⟩

theorem softmax_shift (n : ℕ) (f : ℕ → ℝ) (c : ℝ) : softmax n (fun k => f k + c) = softmax n f := by
  funext k
  unfold softmax
  simp only [Real.exp_add, ← Finset.sum_mul]
  rw [mul_div_mul_right _ _ (Real.exp_pos c).ne']

theorem klDivergence_eq {n : ℕ} (hn : 0 < n) (a b : ℕ → ℝ) :
    klDivergence ((List.range n).map a) ((List.range n).map b) = kl n (softmax n a) (softmax n b) := by
  have hA := softmax_pos a hn
  have hB := softmax_pos b hn
  simp only [klDivergence, List.map_map, List.zipWith_map, List.zipWith_self, kl]
  rw [← sum_map_range]
  congr 1
  apply List.map_congr_left
  intro k _
  rw [show (List.map (Real.exp ∘ a) (List.range n)).sum = ∑ j ∈ Finset.range n, Real.exp (a j) from sum_map_range n _,
    show (List.map (Real.exp ∘ b) (List.range n)).sum = ∑ j ∈ Finset.range n, Real.exp (b j) from sum_map_range n _]
  unfold softmax
  rw [Real.exp_sub, Real.exp_log hA, Real.log_div (by positivity) (by positivity), Real.log_div (by positivity) (by positivity),
    Real.log_div (by positivity) (by positivity), Real.log_exp, Real.log_exp]

theorem binOf_lt {nb : ℕ} (hnb : 0 < nb) (M x : ℝ) : binOf nb M x < nb := by
  unfold binOf
  simp only
  omega

theorem count_cons {α : Type*} (a : α) (xs : List α) (P : α → Prop) [DecidablePred P] : count (a :: xs) P = (if P a then 1 else 0) + count xs P := by
  unfold count
  by_cases h : P a
  · simp [h]; omega
  · simp [h]

theorem count_split {α : Type*} (xs : List α) (P Q R : α → Prop) [DecidablePred P] [DecidablePred Q] [DecidablePred R]
    (h : ∀ x ∈ xs, (R x ↔ P x ∨ Q x) ∧ ¬ (P x ∧ Q x)) : count xs P + count xs Q = count xs R := by
  induction xs with
  | nil => rfl
  | cons a xs ih =>
    have h1 := ih fun x hx => h x (List.mem_cons_of_mem _ hx)
    have h2 := h a (by simp)
    simp only [count_cons]
    by_cases hp : P a <;> by_cases hq : Q a <;> by_cases hr : R a <;> simp_all <;> omega

theorem count_congr {α : Type*} (xs : List α) (P Q : α → Prop) [DecidablePred P] [DecidablePred Q] (h : ∀ x ∈ xs, P x ↔ Q x) :
    count xs P = count xs Q := by
  unfold count
  congr 1
  exact List.filter_congr fun x hx => decide_eq_decide.2 (h x hx)

theorem sum_take_count {α : Type*} (xs : List α) (bin : α → ℕ) (s : ℕ) :
    ((List.range s).map fun k => count xs fun x => bin x = k).sum = count xs fun x => bin x < s := by
  induction s with
  | zero => simp [count]
  | succ s ih =>
    rw [List.range_succ, List.map_append, List.sum_append, ih]
    simp only [List.map_cons, List.map_nil, List.sum_cons, List.sum_nil, Nat.add_zero]
    exact count_split _ _ _ _ fun x _ => ⟨by omega, by omega⟩

theorem take_sum {α : Type*} (xs : List α) (bin : α → ℕ) (nb s : ℕ) (hs : s ≤ nb) :
    (((List.range nb).map fun k => count xs fun x => bin x = k).take s).sum = count xs fun x => bin x < s := by
  rw [← List.map_take, List.take_range, Nat.min_eq_left hs, sum_take_count]

theorem drop_sum {α : Type*} (xs : List α) (bin : α → ℕ) (nb s : ℕ) (hs : s ≤ nb) (hb : ∀ x ∈ xs, bin x < nb) :
    (((List.range nb).map fun k => count xs fun x => bin x = k).drop s).sum = count xs fun x => s ≤ bin x := by
  have h1 := List.sum_take_add_sum_drop ((List.range nb).map fun k => count xs fun x => bin x = k) s
  rw [take_sum xs bin nb s hs, sum_take_count] at h1
  have h2 := count_split xs (fun x => bin x < s) (fun x => s ≤ bin x) (fun x => bin x < nb) fun x hx => ⟨by have := hb x hx; omega, by omega⟩
  omega

theorem foldOutliers_eq {α : Type*} (xs : List α) (bin : α → ℕ) (mid i : ℕ) (hi : i ≤ mid) :
    foldOutliers (count xs fun x => bin x < mid - i) (count xs fun x => mid + i + 1 ≤ bin x) ((List.range (2 * i + 1)).map (restricted xs bin mid i)) =
      some ((List.range (2 * i + 1)).map (clipped xs bin mid i)) := by
  unfold foldOutliers
  rw [if_neg (by simp)]
  simp only
  congr 1
  apply List.ext_getElem
  · simp
  · intro k h1 h2
    have hk : k < 2 * i + 1 := by simpa using h2
    rw [List.getElem_map, List.getElem_range, List.getElem_set]
    simp only [List.length_set, List.length_map, List.length_range, Nat.add_sub_cancel]
    have hg : ∀ (l : List ℕ) (k : ℕ) (h : k < l.length), l.getD k 0 = l[k] := fun l k h => List.getD_eq_getElem _ _ h
    by_cases hl : 2 * i = k
    · subst hl
      rw [if_pos rfl, hg _ _ (by simp), List.getElem_set]
      by_cases h0 : 0 = 2 * i
      · rw [if_pos h0, hg _ _ (by simp), List.getElem_map, List.getElem_range]
        have hi0 : i = 0 := by omega
        subst hi0
        unfold restricted clipped
        rw [Nat.add_comm (count xs _), count_split xs _ _ (fun x => bin x ≤ mid) (by intro x _; constructor <;> simp <;> omega),
          count_split xs _ _ (fun _ => True) (by intro x _; constructor <;> simp <;> omega)]
        exact count_congr _ _ _ fun x _ => by simp
      · rw [if_neg h0, List.getElem_map, List.getElem_range]
        unfold restricted clipped
        exact count_split xs _ _ _ (by intro x _; constructor <;> omega)
    · rw [if_neg hl, List.getElem_set]
      by_cases h0 : 0 = k
      · subst h0
        rw [if_pos rfl, hg _ _ (by simp), List.getElem_map, List.getElem_range]
        unfold restricted clipped
        exact count_split xs _ _ _ (by intro x _; constructor <;> omega)
      · rw [if_neg h0, List.getElem_map, List.getElem_range]
        unfold restricted clipped
        exact count_congr _ _ _ fun x _ => by omega

theorem clipped_some {α : Type*} (xs : List α) (bin : α → ℕ) (mid i : ℕ) (hx : xs ≠ []) (hi : i ≤ mid) :
    ∃ k, k < 2 * i + 1 ∧ ((clipped xs bin mid i k : ℕ) : ℝ) ≠ 0 := by
  obtain ⟨x, hx⟩ := List.exists_mem_of_ne_nil _ hx
  refine ⟨max (mid - i) (min (mid + i) (bin x)) - (mid - i), by omega, ?_⟩
  have : 0 < clipped xs bin mid i (max (mid - i) (min (mid + i) (bin x)) - (mid - i)) := by
    unfold clipped count
    apply List.length_pos_of_mem (a := x)
    rw [List.mem_filter]
    exact ⟨hx, by simp⟩
  exact_mod_cast this.ne'

/-- The candidate of every range inside the histogram. -/
theorem candidate_eq {nb nq : ℕ} (eps M : ℝ) (xs : List ℝ) (hx : xs ≠ []) (hodd : nb % 2 = 1) (hq : 0 < nq) {i : ℕ} (hi : i ≤ nb / 2) (hqi : nq / 2 ≤ i) :
    candidate nb nq eps (histc nb M xs) (histEdges nb M) i =
      some (M * ((2 * i + 1 : ℕ) : ℝ) / nb, divergence xs (binOf nb M) (nb / 2) nq eps i) := by
  have hnb : 0 < nb := by omega
  have hnbr : (0 : ℝ) < nb := by exact_mod_cast hnb
  have hedge : (histEdges nb M)[nb / 2 + i + 1]? = some (M * ((2 * i + 1 : ℕ) : ℝ) / nb) := by
    unfold histEdges
    rw [List.getElem?_map, List.getElem?_range (by omega), Option.map_some]
    congr 1
    have h2 : (nb : ℝ) = 2 * ((nb / 2 : ℕ) : ℝ) + 1 := by exact_mod_cast (by omega : nb = 2 * (nb / 2) + 1)
    field_simp
    push_cast
    rw [h2]
    ring
  have hhist : histc nb M xs = (List.range nb).map fun k => count xs fun x => binOf nb M x = k := rfl
  have hslice : slice (histc nb M xs) (nb / 2 - i) (nb / 2 + i + 1) = (List.range (2 * i + 1)).map (restricted xs (binOf nb M) (nb / 2) i) := by
    rw [hhist, slice_map_range _ _ _ _ (by omega), show nb / 2 + i + 1 - (nb / 2 - i) = 2 * i + 1 by omega]
    rfl
  have hp : foldOutliers ((histc nb M xs).take (nb / 2 - i)).sum ((histc nb M xs).drop (nb / 2 + i + 1)).sum
      (slice (histc nb M xs) (nb / 2 - i) (nb / 2 + i + 1)) = some ((List.range (2 * i + 1)).map (clipped xs (binOf nb M) (nb / 2) i)) := by
    rw [hslice, hhist, take_sum _ _ _ _ (by omega), drop_sum _ _ _ _ (by omega) (fun x _ => binOf_lt hnb M x)]
    exact foldOutliers_eq xs (binOf nb M) (nb / 2) i hi
  unfold candidate
  simp only [hedge, hp, Option.bind_eq_bind, Option.bind_some, if_neg hq.ne', List.length_map, List.length_range]
  rw [hslice, expand_eq _ hq (by omega)]
  unfold divergence
  simp only
  by_cases h0 : ∀ k, k < 2 * i + 1 → quantised (2 * i + 1) nq (restricted xs (binOf nb M) (nb / 2) i) k = 0
  · rw [if_pos h0, smoothLogits_none eps h0]
    rfl
  · rw [if_neg h0]
    push Not at h0
    obtain ⟨c, hc⟩ := smoothLogits_some eps h0
    obtain ⟨c', hc'⟩ := smoothLogits_some eps (clipped_some xs (binOf nb M) (nb / 2) i hx hi)
    rw [hc, List.map_map]
    simp only [Function.comp_def, hc', Option.bind_some]
    rw [klDivergence_eq (by omega), softmax_shift, softmax_shift]
    rfl

theorem mapM_some {α β : Type*} (f : α → Option β) (g : α → β) (l : List α) (h : ∀ a ∈ l, f a = some (g a)) : l.mapM f = some (l.map g) := by
  induction l with
  | nil => rfl
  | cons a t ih =>
    rw [List.mapM_cons, h a (by simp), ih fun b hb => h b (List.mem_cons_of_mem _ hb)]
    rfl

theorem mapM_none {α β : Type*} (f : α → Option β) (l : List α) (a : α) (ha : a ∈ l) (h : f a = none) : l.mapM f = none := by
  induction l with
  | nil => simp at ha
  | cons b t ih =>
    rw [List.mapM_cons]
    rcases List.mem_cons.1 ha with rfl | ha
    · rw [h]; rfl
    · rw [ih ha]
      cases f b <;> rfl

theorem argmin_spec (cs : List (ℝ × WithTop ℝ)) (b : ℝ × WithTop ℝ) :
    let r := (open Classical in cs.foldl (fun best d => if d.2 < best.2 then d else best) b)
    (r = b ∧ ∀ d ∈ cs, b.2 ≤ d.2) ∨
      ∃ k, ∃ h : k < cs.length, r = cs[k] ∧ r.2 < b.2 ∧ (∀ j, ∀ hj : j < k, r.2 < (cs[j]'(by omega)).2) ∧ ∀ d ∈ cs, r.2 ≤ d.2 := by
  classical
  induction cs generalizing b with
  | nil => left; simp
  | cons c cs ih =>
    simp only [List.foldl_cons]
    by_cases hc : c.2 < b.2
    · rw [if_pos hc]
      right
      rcases ih c with ⟨h1, h2⟩ | ⟨k, hk, h1, h2, h3, h4⟩
      · refine ⟨0, by simp, ?_, ?_, ?_, ?_⟩
        · exact h1
        · rw [h1]; exact hc
        · intro j hj; omega
        · rw [h1]
          intro d hd
          rcases List.mem_cons.1 hd with rfl | hd
          · exact le_rfl
          · exact h2 d hd
      · refine ⟨k + 1, by simpa using hk, ?_, h2.trans hc, ?_, ?_⟩
        · exact h1
        · intro j hj
          cases j with
          | zero => exact h2
          | succ j => exact h3 j (by omega)
        · intro d hd
          rcases List.mem_cons.1 hd with rfl | hd
          · exact h2.le
          · exact h4 d hd
    · rw [if_neg hc]
      push Not at hc
      rcases ih b with ⟨h1, h2⟩ | ⟨k, hk, h1, h2, h3, h4⟩
      · left
        refine ⟨h1, fun d hd => ?_⟩
        rcases List.mem_cons.1 hd with rfl | hd
        · exact hc
        · exact h2 d hd
      · right
        refine ⟨k + 1, by simpa using hk, h1, h2, ?_, ?_⟩
        · intro j hj
          cases j with
          | zero => exact h2.trans_le hc
          | succ j => exact h3 j (by omega)
        · intro d hd
          rcases List.mem_cons.1 hd with rfl | hd
          · exact h2.le.trans hc
          · exact h4 d hd

end Kl

end Brevitas
