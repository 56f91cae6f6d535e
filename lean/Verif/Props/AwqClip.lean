import Verif.Model.AwqClip
import Verif.Lemmas.Ops
import Mathlib.Tactic.Linarith
import Mathlib.Tactic.NormNum
import Mathlib.Tactic.FieldSimp
import Mathlib.Data.List.Forall2

/-!
# C82 and C83: AWQ fake quantisation and clipping
-/

set_option linter.unusedSectionVars false

namespace Brevitas.AwqClip

open Finset Brevitas

variable {K : Type*} [Field K] [LinearOrder K] [IsStrictOrderedRing K] [FloorRing K]

/-! ## Specification -/

/-- A tensor of this shape can be quantised in groups of `g` elements: with a positive group size the last dimension is a multiple of it; otherwise the
tensor is a matrix and its rows are the groups. -/
def Groups (shape : List ℕ) (qGroupSize : ℤ) (g : ℕ) : Prop :=
  0 < g ∧ ((qGroupSize = g ∧ ∃ pre m, shape = pre ++ [m * g]) ∨ (qGroupSize ≤ 0 ∧ ∃ rows, shape = [rows, g]))

/-- The mean over the sampled tokens of the squared difference that replacing `w` by `q` makes to the output of a group. -/
def sampledErr (g ci tokens : ℕ) (x : ℕ → ℕ → K) (w q : ℕ → K) (j : ℕ) : K :=
  let stride := tokens / 512
  let n := (tokens + stride - 1) / stride
  (∑ t ∈ range n, (∑ i ∈ range g, x (t * stride) (j % (ci / g) * g + i) * (q (j * g + i) - w (j * g + i))) ^ 2) / n

/-- Clipping to plus or minus `c`. -/
def clip (c x : K) : K := if x < -c then -c else if c < x then c else x

/-! ## Lemmas -/

theorem group_split (g : ℕ) (hg : 0 < g) (k : ℕ) : k / g * g + k % g = k := by rw [mul_comm]; exact Nat.div_add_mod k g

theorem mem_group (g : ℕ) (hg : 0 < g) (j a : ℕ) (h : j < g) : (a * g + j) / g = a := by
  rw [mul_comm, Nat.mul_add_div hg, Nat.div_eq_of_lt h, add_zero]

theorem groupMin_eq (g : ℕ) (h : 0 < g) (w : ℕ → K) (k : ℕ) (lo : K) (hlo : IsLeast {x | ∃ j, j / g = k / g ∧ x = w j} lo) :
    groupMin g h (k / g * g) w = lo := by
  obtain ⟨⟨j, hj, e⟩, hmin⟩ := hlo
  apply le_antisymm
  · rw [e]
    have hm : j % g ∈ range g := mem_range.mpr (Nat.mod_lt _ h)
    have := inf'_le (fun i => w (k / g * g + i)) hm
    unfold groupMin
    refine this.trans (le_of_eq ?_)
    show w (k / g * g + j % g) = w j
    rw [← hj, group_split g h]
  · unfold groupMin
    apply le_inf'
    intro i hi
    exact hmin ⟨k / g * g + i, mem_group g h i _ (mem_range.mp hi), rfl⟩

theorem groupMax_eq (g : ℕ) (h : 0 < g) (w : ℕ → K) (k : ℕ) (hi : K) (hhi : IsGreatest {x | ∃ j, j / g = k / g ∧ x = w j} hi) :
    groupMax g h (k / g * g) w = hi := by
  obtain ⟨⟨j, hj, e⟩, hmax⟩ := hhi
  apply le_antisymm
  · unfold groupMax
    apply sup'_le
    intro i hi
    exact hmax ⟨k / g * g + i, mem_group g h i _ (mem_range.mp hi), rfl⟩
  · rw [e]
    have hm : j % g ∈ range g := mem_range.mpr (Nat.mod_lt _ h)
    have := le_sup' (fun i => w (k / g * g + i)) hm
    unfold groupMax
    refine le_trans (le_of_eq ?_) this
    show w j = w (k / g * g + j % g)
    rw [← hj, group_split g h]

theorem rowLength_of_groups (shape : List ℕ) (q : ℤ) (g : ℕ) (h : Groups shape q g) : rowLength shape q = some g := by
  obtain ⟨hg, ⟨rfl, pre, m, rfl⟩ | ⟨hq, rows, rfl⟩⟩ := h
  · unfold rowLength
    rw [List.getLast?_append_of_ne_nil _ (by simp)]
    simp only [List.getLast?_singleton]
    rw [if_pos (by omega), if_pos (by push_cast; exact Int.mul_emod_left _ _)]
    simp
  · unfold rowLength
    simp only [List.getLast?_cons_cons, List.getLast?_singleton]
    rw [if_neg (by omega), if_pos ⟨rfl, by omega⟩]

theorem groups_of_rowLength (shape : List ℕ) (q : ℤ) (g : ℕ) (h : rowLength shape q = some g) : Groups shape q g := by
  unfold rowLength at h
  cases e : shape.getLast? with
  | none => rw [e] at h; exact absurd h (by simp)
  | some last =>
    rw [e] at h
    dsimp only at h
    obtain ⟨pre, hpre⟩ := List.getLast?_eq_some_iff.mp e
    by_cases hq : 0 < q
    · rw [if_pos hq] at h
      by_cases hm : (last : ℤ) % q = 0
      · rw [if_pos hm] at h
        injection h with h
        have hqg : q = g := by omega
        refine ⟨by omega, Or.inl ⟨hqg, pre, last / g, ?_⟩⟩
        rw [hpre, Nat.div_mul_cancel]
        rw [hqg] at hm
        exact_mod_cast Int.dvd_of_emod_eq_zero hm
      · rw [if_neg hm] at h; exact absurd h (by simp)
    · rw [if_neg hq] at h
      by_cases hm : shape.length = 2 ∧ last ≠ 0
      · rw [if_pos hm] at h
        injection h with h
        subst h
        refine ⟨by omega, Or.inr ⟨by omega, ?_⟩⟩
        rw [hpre, List.length_append, List.length_singleton] at hm
        obtain ⟨a, ha⟩ := List.length_eq_one_iff.mp (show pre.length = 1 by omega)
        exact ⟨a, by rw [hpre, ha]; rfl⟩
      · rw [if_neg hm] at h; exact absurd h (by simp)

/-- The quantised tensor in groups of `g`. -/
def quantised (nBit g : ℕ) (h : 0 < g) (w : ℕ → K) : ℕ → K := fun k =>
  let lo := groupMin g h (k / g * g) w
  let hi := groupMax g h (k / g * g) w
  let s := groupScale nBit lo hi
  fakeQuant nBit s (groupZero nBit s lo) (w k)

theorem pseudoQuantize_eq (nBit : ℕ) (q : ℤ) (shape : List ℕ) (w : ℕ → K) (g : ℕ) (h : Groups shape q g) :
    pseudoQuantize nBit true q shape w = some (quantised nBit g h.1 w) := by
  unfold pseudoQuantize
  rw [rowLength_of_groups shape q g h]
  dsimp only
  rw [if_pos rfl, dif_pos h.1]
  rfl

theorem levels_pos (nBit : ℕ) (hn : 1 ≤ nBit) : (0 : K) < 2 ^ nBit - 1 := by
  have : (1 : K) < 2 ^ nBit := one_lt_pow₀ (by norm_num) (by omega)
  linarith

theorem groupScale_pos (nBit : ℕ) (hn : 1 ≤ nBit) (lo hi : K) : 0 < groupScale nBit lo hi :=
  div_pos (lt_of_lt_of_le (by norm_num) (le_max_right _ _)) (levels_pos nBit hn)

theorem two_pow_int (nBit : ℕ) : (0 : ℤ) ≤ 2 ^ nBit - 1 := by
  have : (1 : ℤ) ≤ 2 ^ nBit := one_le_pow₀ (by norm_num)
  linarith

/-- Rounding and clamping moves a value of a group around zero by at most half a step. -/
theorem fakeQuant_err (nBit : ℕ) (hn : 1 ≤ nBit) (lo hi x : K) (hlo : lo ≤ 0) (hhi : 0 ≤ hi) (h1 : lo ≤ x) (h2 : x ≤ hi) :
    |fakeQuant nBit (groupScale nBit lo hi) (groupZero nBit (groupScale nBit lo hi) lo) x - x| ≤ groupScale nBit lo hi / 2 := by
  obtain ⟨s, hs⟩ : ∃ s, s = groupScale nBit lo hi := ⟨_, rfl⟩
  have hspos : 0 < s := hs ▸ groupScale_pos nBit hn lo hi
  have hM := levels_pos (K := K) nBit hn
  have hrange : hi - lo ≤ (2 ^ nBit - 1) * s := by
    rw [hs]
    unfold groupScale
    rw [mul_div_cancel₀ _ hM.ne']
    exact le_max_left _ _
  rw [← hs]
  -- the zero point is not clamped
  have ha : -(2 ^ nBit - 1 : K) ≤ lo / s := by
    rw [le_div_iff₀ hspos]
    linarith
  have hb : lo / s ≤ 0 := div_nonpos_of_nonpos_of_nonneg hlo hspos.le
  have hMz : ((2 ^ nBit - 1 : ℤ) : K) = 2 ^ nBit - 1 := by push_cast; ring
  have hr1 : torchRound (lo / s) ≤ 0 := by
    have := torchRound_mono hb
    rwa [show torchRound (0 : K) = 0 from by
      have := torchRound_unique (x := (0 : K)) (n := 0) (by norm_num) (fun _ => Even.zero)
      exact this] at this
  have hr2 : -(2 ^ nBit - 1) ≤ torchRound (lo / s) := by
    have := torchRound_err (lo / s)
    rw [abs_le] at this
    have h3 : (-(2 ^ nBit - 1) : K) - 1 / 2 ≤ torchRound (lo / s) := by linarith [this.1]
    by_contra hc
    have h4 : torchRound (lo / s) + 1 ≤ -(2 ^ nBit - 1) := by omega
    have h5 : (torchRound (lo / s) : K) + 1 ≤ -(2 ^ nBit - 1) := by exact_mod_cast h4
    linarith
  have hz : groupZero nBit s lo = -torchRound (lo / s) := by
    unfold groupZero
    rw [max_eq_left (by omega), min_eq_left (by omega)]
  rw [hz]
  unfold fakeQuant
  have hx1 : lo / s ≤ x / s := div_le_div_of_nonneg_right h1 hspos.le
  have hx2 : x / s - lo / s ≤ 2 ^ nBit - 1 := by
    rw [← sub_div, div_le_iff₀ hspos]
    linarith
  have hm := torchRound_mono hx1
  have e1 := torchRound_err (x / s)
  have e2 := torchRound_err (lo / s)
  rw [abs_le] at e1 e2
  rw [max_eq_left (by omega)]
  have key : |((min (torchRound (x / s) + -torchRound (lo / s)) (2 ^ nBit - 1) - -torchRound (lo / s) : ℤ) : K) - x / s| ≤ 1 / 2 := by
    rcases le_total (torchRound (x / s) + -torchRound (lo / s)) (2 ^ nBit - 1) with h | h
    · rw [min_eq_left h, show torchRound (x / s) + -torchRound (lo / s) - -torchRound (lo / s) = torchRound (x / s) by ring]
      exact torchRound_err _
    · rw [min_eq_right h, abs_le]
      have h' : ((2 ^ nBit - 1 : ℤ) : K) ≤ ((torchRound (x / s) + -torchRound (lo / s) : ℤ) : K) := by exact_mod_cast h
      rw [hMz] at h'
      push_cast at h' ⊢
      constructor <;> linarith [e1.1, e1.2, e2.1, e2.2]
  have hd : x = x / s * s := (div_mul_cancel₀ x hspos.ne').symm
  calc _ = |(((min (torchRound (x / s) + -torchRound (lo / s)) (2 ^ nBit - 1) - -torchRound (lo / s) : ℤ) : K) - x / s) * s| := by
        rw [sub_mul, ← hd]
    _ = |((min (torchRound (x / s) + -torchRound (lo / s)) (2 ^ nBit - 1) - -torchRound (lo / s) : ℤ) : K) - x / s| * s := by rw [abs_mul, abs_of_pos hspos]
    _ ≤ 1 / 2 * s := mul_le_mul_of_nonneg_right key hspos.le
    _ = s / 2 := by ring

/-! ## C82: fake quantisation -/

/-- **C82.**  Whatever the shape, the tensor, the group size and the bit width, every element becomes one of at most `2 ^ nBit` equally spaced values of its group, among them
zero; with a group whose range includes zero no element moves by more than half the spacing.  Missing: groups of one sign. -/
theorem C82_fake_quant_partial (nBit : ℕ) (hn : 1 ≤ nBit) (q : ℤ) (shape : List ℕ) (w : ℕ → K) (g : ℕ) (hg : Groups shape q g) :
    ∃ y, pseudoQuantize nBit true q shape w = some y ∧
      ∃ z : ℕ → ℤ, (∀ a, 0 ≤ z a ∧ z a ≤ 2 ^ nBit - 1) ∧
        ∀ k lo hi, IsLeast {x | ∃ j, j / g = k / g ∧ x = w j} lo → IsGreatest {x | ∃ j, j / g = k / g ∧ x = w j} hi →
          (∃ c : ℤ, 0 ≤ c ∧ c ≤ 2 ^ nBit - 1 ∧ y k = ((c - z (k / g) : ℤ) : K) * (max (hi - lo) (1 / 100000) / (2 ^ nBit - 1))) ∧
            (lo ≤ 0 → 0 ≤ hi → |y k - w k| ≤ max (hi - lo) (1 / 100000) / (2 ^ nBit - 1) / 2) := by
  have hM := two_pow_int nBit
  refine ⟨_, pseudoQuantize_eq nBit q shape w g hg,
    fun a => groupZero nBit (groupScale nBit (groupMin g hg.1 (a * g) w) (groupMax g hg.1 (a * g) w)) (groupMin g hg.1 (a * g) w), ?_, ?_⟩
  · intro a
    unfold groupZero
    exact ⟨le_min (le_max_right _ _) hM, min_le_right _ _⟩
  · intro k lo hi hlo hhi
    have e1 := groupMin_eq g hg.1 w k lo hlo
    have e2 := groupMax_eq g hg.1 w k hi hhi
    unfold quantised
    simp only [e1, e2]
    refine ⟨⟨_, le_min (le_max_right _ _) hM, min_le_right _ _, rfl⟩, ?_⟩
    intro h1 h2
    exact fakeQuant_err nBit hn lo hi (w k) h1 h2 (hlo.2 ⟨k, rfl, rfl⟩) (hhi.2 ⟨k, rfl, rfl⟩)

/-- Two groups of two elements with two bits. -/
example : ∃ y, pseudoQuantize 2 true 2 [1, 4] (fun k => ([-1, 2, 1 / 2, 0] : List ℚ).getD k 0) = some y ∧ y 0 = -1 ∧ y 1 = 2 ∧ y 2 = 1 / 2 ∧ y 3 = 0 :=
  ⟨_, rfl, by decide +kernel, by decide +kernel, by decide +kernel, by decide +kernel⟩

/-- **C82, disagreement.**  No element of a group of positive weights becomes larger than the difference between the largest and the smallest of them (or `1e-5`): the largest
weight loses as much as the smallest weight is. -/
theorem C82_positive_group_collapses (nBit : ℕ) (hn : 1 ≤ nBit) (q : ℤ) (shape : List ℕ) (w : ℕ → K) (g : ℕ) (hg : Groups shape q g) :
    ∃ y, pseudoQuantize nBit true q shape w = some y ∧
      ∀ k lo hi, IsLeast {x | ∃ j, j / g = k / g ∧ x = w j} lo → IsGreatest {x | ∃ j, j / g = k / g ∧ x = w j} hi → 0 < lo →
        y k ≤ max (hi - lo) (1 / 100000) := by
  refine ⟨_, pseudoQuantize_eq nBit q shape w g hg, ?_⟩
  intro k lo hi hlo hhi hpos
  have e1 := groupMin_eq g hg.1 w k lo hlo
  have e2 := groupMax_eq g hg.1 w k hi hhi
  unfold quantised
  simp only [e1, e2]
  have hspos := groupScale_pos nBit hn lo hi
  have hz : groupZero nBit (groupScale nBit lo hi) lo = 0 := by
    unfold groupZero
    have : 0 ≤ torchRound (lo / groupScale nBit lo hi) := by
      have := torchRound_mono (div_pos hpos hspos).le
      rwa [torchRound_unique (x := (0 : K)) (n := 0) (by norm_num) (fun _ => Even.zero)] at this
    rw [max_eq_right (by omega), min_eq_left (two_pow_int nBit)]
  rw [hz]
  unfold fakeQuant
  have hle : ((min (max (torchRound (w k / groupScale nBit lo hi) + 0) 0) (2 ^ nBit - 1) - 0 : ℤ) : K) ≤ 2 ^ nBit - 1 := by
    have : (min (max (torchRound (w k / groupScale nBit lo hi) + 0) 0) (2 ^ nBit - 1) - 0 : ℤ) ≤ 2 ^ nBit - 1 := by
      rw [sub_zero]
      exact min_le_right _ _
    exact_mod_cast this
  refine (mul_le_mul_of_nonneg_right hle hspos.le).trans (le_of_eq ?_)
  unfold groupScale
  rw [mul_div_cancel₀ _ (levels_pos (K := K) nBit hn).ne']

/-- Weights of one become `1e-5`, with any number of bits such as eight. -/
example : ∃ y, pseudoQuantize 8 true 2 [1, 2] (fun _ => (1 : ℚ)) = some y ∧ y 0 = 1 / 100000 := ⟨_, rfl, by decide +kernel⟩

/-- **C82.**  The quantisation raises exactly without a zero point, or with a shape that does not consist of groups. -/
theorem C82_raises (nBit : ℕ) (zeroPoint : Bool) (q : ℤ) (shape : List ℕ) (w : ℕ → K) :
    pseudoQuantize nBit zeroPoint q shape w = none ↔ zeroPoint = false ∨ ∀ g, ¬ Groups shape q g := by
  cases zeroPoint with
  | false =>
    refine ⟨fun _ => Or.inl rfl, fun _ => ?_⟩
    unfold pseudoQuantize
    split <;> simp
  | true =>
    constructor
    · intro h
      refine Or.inr fun g hg => ?_
      rw [pseudoQuantize_eq nBit q shape w g hg] at h
      exact absurd h (by simp)
    · rintro (h | h)
      · exact absurd h (by simp)
      · unfold pseudoQuantize
        cases e : rowLength shape q with
        | none => rfl
        | some g => exact absurd (groups_of_rowLength shape q g e) (h g)

/-! ## C83: clipping -/

theorem clip_eq (c x : K) (hc : 0 ≤ c) : min (max x (-c)) c = clip c x := by
  unfold clip
  split_ifs with h1 h2
  · rw [max_eq_right h1.le, min_eq_left (by linarith)]
  · rw [max_eq_left (by linarith), min_eq_right h2.le]
  · rw [max_eq_left (by linarith), min_eq_left (by linarith)]

theorem orgMax_nonneg (g : ℕ) (h : 0 < g) (w : ℕ → K) (j : ℕ) : 0 ≤ orgMax g h w j := by
  unfold orgMax
  exact (abs_nonneg _).trans (le_sup' (fun i => |w (j * g + i)|) (mem_range.mpr h))

theorem le_orgMax (g : ℕ) (h : 0 < g) (w : ℕ → K) (k : ℕ) : |w k| ≤ orgMax g h w (k / g) := by
  have := le_sup' (fun i => |w (k / g * g + i)|) (mem_range.mpr (Nat.mod_lt k h))
  have e : |w (k / g * g + k % g)| = |w k| := by rw [group_split g h]
  exact e ▸ this

theorem orgMax_eq (g : ℕ) (h : 0 < g) (w : ℕ → K) (j : ℕ) (m : K) (hm : IsGreatest {x | ∃ k, k / g = j ∧ x = |w k|} m) : orgMax g h w j = m := by
  obtain ⟨⟨k, hk, e⟩, hmax⟩ := hm
  apply le_antisymm
  · apply sup'_le
    intro i hi
    exact hmax ⟨j * g + i, mem_group g h i _ (mem_range.mp hi), rfl⟩
  · rw [e, ← hk]
    exact le_orgMax g h w k

/-- Quantisation works on each group alone. -/
theorem quantised_local (nBit g : ℕ) (h : 0 < g) (w w' : ℕ → K) (a : ℕ) (e : ∀ i < g, w (a * g + i) = w' (a * g + i)) :
    ∀ i < g, quantised nBit g h w (a * g + i) = quantised nBit g h w' (a * g + i) := by
  intro i hi
  unfold quantised
  have ed : (a * g + i) / g = a := mem_group g h i a hi
  have e1 : groupMin g h (a * g) w = groupMin g h (a * g) w' := by
    unfold groupMin
    exact inf'_congr _ rfl fun i hi => e i (mem_range.mp hi)
  have e2 : groupMax g h (a * g) w = groupMax g h (a * g) w' := by
    unfold groupMax
    exact sup'_congr _ rfl fun i hi => e i (mem_range.mp hi)
  simp only [ed, e1, e2, e i hi]

theorem groupErr_eq (g ci tokens : ℕ) (x : ℕ → ℕ → K) (w q : ℕ → K) (j : ℕ) :
    groupErr g ci x (tokens / 512) ((tokens + tokens / 512 - 1) / (tokens / 512)) w q j = sampledErr g ci tokens x w q j := by
  unfold groupErr sampledErr
  simp only
  congr 1
  apply sum_congr rfl
  intro t _
  unfold groupOut
  rw [← sum_sub_distrib]
  congr 1
  apply sum_congr rfl
  intro i _
  ring

theorem sampledErr_local (g ci tokens : ℕ) (x : ℕ → ℕ → K) (w q q' : ℕ → K) (j : ℕ) (e : ∀ i < g, q (j * g + i) = q' (j * g + i)) :
    sampledErr g ci tokens x w q j = sampledErr g ci tokens x w q' j := by
  unfold sampledErr
  simp only
  congr 1
  apply sum_congr rfl
  intro t _
  congr 1
  apply sum_congr rfl
  intro i hi
  rw [e i (mem_range.mp hi)]

/-- The state of the search for one group after `m` candidates. -/
def BestBound (start : K) (b e : ℕ → K) (m : ℕ) (st : K × K) : Prop :=
  (st = (start, 1000000000) ∧ ∀ r < m, ¬ e r < 1000000000) ∨
    ∃ r < m, st = (b r, e r) ∧ e r < 1000000000 ∧ (∀ r' < m, e r ≤ e r') ∧ ∀ r' < r, e r < e r'

theorem bestBound_step (start : K) (b e : ℕ → K) (m : ℕ) (st : K × K) (h : BestBound start b e m st) :
    BestBound start b e (m + 1) (if e m < st.2 then b m else st.1, if e m < st.2 then e m else st.2) := by
  rcases h with ⟨rfl, h⟩ | ⟨r, hr, rfl, h0, h1, h2⟩
  · simp only
    by_cases hlt : e m < 1000000000
    · rw [if_pos hlt, if_pos hlt]
      refine Or.inr ⟨m, by omega, rfl, hlt, ?_, ?_⟩
      · intro r' hr'
        rcases Nat.lt_succ_iff_lt_or_eq.mp hr' with h' | rfl
        · exact hlt.le.trans (not_lt.mp (h r' h'))
        · exact le_rfl
      · exact fun r' hr' => lt_of_lt_of_le hlt (not_lt.mp (h r' hr'))
    · rw [if_neg hlt, if_neg hlt]
      refine Or.inl ⟨rfl, ?_⟩
      intro r' hr'
      rcases Nat.lt_succ_iff_lt_or_eq.mp hr' with h' | rfl
      · exact h r' h'
      · exact hlt
  · simp only
    by_cases hlt : e m < e r
    · rw [if_pos hlt, if_pos hlt]
      refine Or.inr ⟨m, by omega, rfl, hlt.trans h0, ?_, ?_⟩
      · intro r' hr'
        rcases Nat.lt_succ_iff_lt_or_eq.mp hr' with h' | rfl
        · exact hlt.le.trans (h1 r' h')
        · exact le_rfl
      · exact fun r' hr' => lt_of_lt_of_le hlt (h1 r' hr')
    · rw [if_neg hlt, if_neg hlt]
      refine Or.inr ⟨r, by omega, rfl, h0, ?_, h2⟩
      intro r' hr'
      rcases Nat.lt_succ_iff_lt_or_eq.mp hr' with h' | rfl
      · exact h1 r' h'
      · exact not_lt.mp hlt

/-- The layer clipped with the `r`th candidate and quantised. -/
def candidate (nBit g : ℕ) (h : 0 < g) (w : ℕ → K) (r : ℕ) : ℕ → K :=
  quantised nBit g h (clipGroups g (fun j => orgMax g h w j * (1 - (r : K) / 20)) w)

theorem fold_clip (nBit g ci tokens : ℕ) (h : 0 < g) (shape : List ℕ) (hs : Groups shape g g) (x : ℕ → ℕ → K) (w : ℕ → K) (m : ℕ) :
    ∃ st, (List.range m).foldl (fun st i => st.bind (clipStep nBit true g shape g ci h x (tokens / 512)
        ((tokens + tokens / 512 - 1) / (tokens / 512)) w i)) (some (orgMax g h w, fun _ => 1000000000)) = some st ∧
      ∀ j, BestBound (orgMax g h w j) (fun r => orgMax g h w j * (1 - (r : K) / 20))
        (fun r => sampledErr g ci tokens x w (candidate nBit g h w r) j) m (st.1 j, st.2 j) := by
  induction m with
  | zero => exact ⟨_, rfl, fun j => Or.inl ⟨rfl, fun r hr => absurd hr (by omega)⟩⟩
  | succ m ih =>
    obtain ⟨st, e, hst⟩ := ih
    rw [List.range_succ, List.foldl_append, e, List.foldl_cons, List.foldl_nil, Option.bind_some]
    unfold clipStep
    simp only [pseudoQuantize_eq nBit g shape _ g hs]
    refine ⟨_, rfl, ?_⟩
    intro j
    simp only [groupErr_eq]
    exact bestBound_step _ _ _ m _ (hst j)

/-- **C83.**  Whatever the layer and the calibration features (at least 512 tokens): every group is given a bound between half its largest magnitude and its largest
magnitude; clipping the layer to the bounds before quantisation makes the error of no group's sampled outputs larger; and whenever the error
for some of the ten candidates is less than `1e9`, the candidate chosen is the first with the least error. -/
theorem C83_clip_layer_partial (nBit : ℕ) (g m b tokens : ℕ) (hg : 0 < g) (hb : 0 < b) (ht : 512 ≤ tokens) (x : ℕ → ℕ → K) (w : ℕ → K) :
    ∃ bound, autoClipLayer nBit true g (256 * b) (m * g) tokens x w = some bound ∧
      ∃ clipped, pseudoQuantize nBit true g [256 * b, m * g] (fun k => clip (bound (k / g)) (w k)) = some clipped ∧
      ∃ plain, pseudoQuantize nBit true g [256 * b, m * g] w = some plain ∧
      ∀ j top, IsGreatest {x | ∃ k, k / g = j ∧ x = |w k|} top →
        ∃ r : ℕ, r < 10 ∧ bound j = top * (1 - (r : K) / 20) ∧
          sampledErr g (m * g) tokens x w clipped j ≤ sampledErr g (m * g) tokens x w plain j ∧
          ∀ e : ℕ → K, (∀ r' : ℕ, r' < 10 → ∃ y, pseudoQuantize nBit true g [256 * b, m * g] (fun k => clip (top * (1 - (r' : K) / 20)) (w k)) = some y ∧
            e r' = sampledErr g (m * g) tokens x w y j) → (∃ r' < 10, e r' < 1000000000) → ∀ r' : ℕ, r' < 10 → e r ≤ e r' ∧ (r' < r → e r < e r') := by
  have hs : Groups [256, 1, m * g / g, g] g g := ⟨hg, Or.inl ⟨rfl, [256, 1, m * g / g], 1, by simp⟩⟩
  have hs2 : Groups [256 * b, m * g] g g := ⟨hg, Or.inl ⟨rfl, [256 * b], m, rfl⟩⟩
  obtain ⟨st, e, hst⟩ := fold_clip nBit g (m * g) tokens hg [256, 1, m * g / g, g] hs x w 10
  have hpos : tokens / 512 ≠ 0 := by omega
  have hres : autoClipLayer nBit true g (256 * b) (m * g) tokens x w = some st.1 := by
    unfold autoClipLayer
    have hgg : (if (0 : ℤ) < (g : ℤ) then ((g : ℤ)).toNat else m * g) = g := by
      rw [if_pos (by exact_mod_cast hg)]
      rfl
    dsimp only
    generalize (if (0 : ℤ) < (g : ℤ) then ((g : ℤ)).toNat else m * g) = G at hgg
    subst hgg
    rw [dif_pos hg, if_pos ⟨Nat.mul_mod_left m G, hpos, by omega, by omega⟩]
    exact congrArg (Option.map Prod.fst) e
  refine ⟨st.1, hres, _, pseudoQuantize_eq nBit g _ _ g hs2, _, pseudoQuantize_eq nBit g _ _ g hs2, ?_⟩
  intro j top htop
  have etop := orgMax_eq g hg w j top htop
  have htop0 : 0 ≤ top := etop ▸ orgMax_nonneg g hg w j
  have hr20 : ∀ r : ℕ, r < 10 → (0 : K) ≤ 1 - (r : K) / 20 := by
    intro r hr
    have : (r : K) ≤ 10 := by exact_mod_cast hr.le
    linarith
  -- the error of a candidate, for the bound it stands for
  have hcand : ∀ (r : ℕ) (_ : r < 10) (bd : ℕ → K), bd j = top * (1 - (r : K) / 20) →
      sampledErr g (m * g) tokens x w (quantised nBit g hs2.1 fun k => clip (bd (k / g)) (w k)) j =
        sampledErr g (m * g) tokens x w (candidate nBit g hg w r) j := by
    intro r hr bd hbd
    refine sampledErr_local g (m * g) tokens x w _ _ j ?_
    unfold candidate
    apply quantised_local
    intro i hi
    have ej := mem_group g hg i j hi
    unfold clipGroups
    simp only [ej, hbd, etop]
    exact (clip_eq _ _ (mul_nonneg htop0 (hr20 r hr))).symm
  have hzero : sampledErr g (m * g) tokens x w (quantised nBit g hs2.1 w) j = sampledErr g (m * g) tokens x w (candidate nBit g hg w 0) j := by
    rw [← hcand 0 (by omega) (fun _ => top * (1 - ((0 : ℕ) : K) / 20)) rfl]
    refine sampledErr_local g (m * g) tokens x w _ _ j ?_
    apply quantised_local
    intro i hi
    have h1 := le_orgMax g hg w (j * g + i)
    rw [mem_group g hg i j hi, etop, abs_le] at h1
    unfold clip
    simp only [Nat.cast_zero, zero_div, sub_zero, mul_one]
    rw [if_neg (by linarith [h1.1]), if_neg (by linarith [h1.2])]
  have hE : ∀ e : ℕ → K, (∀ r' : ℕ, r' < 10 → ∃ y, pseudoQuantize nBit true g [256 * b, m * g] (fun k => clip (top * (1 - (r' : K) / 20)) (w k)) = some y ∧
            e r' = sampledErr g (m * g) tokens x w y j) → ∀ r' : ℕ, r' < 10 → e r' = sampledErr g (m * g) tokens x w (candidate nBit g hg w r') j := by
    intro e he r' hr'
    obtain ⟨y, hy, hy2⟩ := he r' hr'
    rw [pseudoQuantize_eq nBit g _ _ g hs2] at hy
    injection hy with hy
    rw [hy2, ← hy]
    exact hcand r' hr' (fun _ => top * (1 - (r' : K) / 20)) rfl
  rcases hst j with ⟨h1, h2⟩ | ⟨r, hr, h1, h0, h2, h3⟩
  · have hb0 : st.1 j = top := by
      have := congrArg Prod.fst h1
      simpa [etop] using this
    refine ⟨0, by omega, by rw [hb0]; simp, ?_, ?_⟩
    · rw [hcand 0 (by omega) st.1 (by rw [hb0]; simp), hzero]
    · rintro e he ⟨r', hr', hlt⟩
      rw [hE e he r' hr'] at hlt
      exact absurd hlt (h2 r' hr')
  · have hbr : st.1 j = top * (1 - (r : K) / 20) := by
      have := congrArg Prod.fst h1
      simpa [etop] using this
    refine ⟨r, hr, hbr, ?_, ?_⟩
    · rw [hcand r hr st.1 hbr, hzero]
      exact h2 0 (by omega)
    · intro e he _ r' hr'
      rw [hE e he r hr, hE e he r' hr']
      exact ⟨h2 r' hr', h3 r'⟩

/-- **C83.**  The search raises exactly if there are fewer than 512 tokens, the group size is not positive or does not divide the inputs, the number of
outputs is not a positive multiple of 256, or there is no zero point. -/
theorem C83_raises (nBit : ℕ) (zeroPoint : Bool) (q : ℤ) (co ci tokens : ℕ) (x : ℕ → ℕ → K) (w : ℕ → K) :
    autoClipLayer nBit zeroPoint q co ci tokens x w ≠ none ↔
      zeroPoint = true ∧ 0 < q ∧ q ∣ ci ∧ 512 ≤ tokens ∧ 256 ∣ co ∧ co ≠ 0 := by
  constructor
  · intro h
    unfold autoClipLayer at h
    simp only at h
    by_cases hg : 0 < (if 0 < q then q.toNat else ci)
    · rw [dif_pos hg] at h
      by_cases hc : ci % (if 0 < q then q.toNat else ci) = 0 ∧ tokens / 512 ≠ 0 ∧ co % 256 = 0 ∧ co ≠ 0
      · rw [if_pos hc] at h
        obtain ⟨h1, h2, h3, h4⟩ := hc
        have hpq : ∀ w' : ℕ → K, pseudoQuantize nBit zeroPoint q
            [256, 1, ci / (if 0 < q then q.toNat else ci), if 0 < q then q.toNat else ci] w' ≠ none := by
          intro w' hn
          apply h
          rw [show List.range 10 = 0 :: (List.range 9).map (· + 1) from by decide, List.foldl_cons, Option.bind_some]
          have hs : clipStep nBit zeroPoint q [256, 1, ci / (if 0 < q then q.toNat else ci), if 0 < q then q.toNat else ci]
              (if 0 < q then q.toNat else ci) ci hg x (tokens / 512) ((tokens + tokens / 512 - 1) / (tokens / 512)) w 0
              (orgMax (if 0 < q then q.toNat else ci) hg w, fun _ => 1000000000) = none := by
            have hall : ∀ w'' : ℕ → K, pseudoQuantize nBit zeroPoint q
                [256, 1, ci / (if 0 < q then q.toNat else ci), if 0 < q then q.toNat else ci] w'' = none := by
              intro w''
              rw [C82_raises] at hn ⊢
              exact hn
            unfold clipStep
            simp only [hall]
          rw [hs]
          have : ∀ (f : Option ((ℕ → K) × (ℕ → K)) → ℕ → Option ((ℕ → K) × (ℕ → K))) (_ : ∀ i, f none i = none) (l : List ℕ), l.foldl f none = none := by
            intro f hf l
            induction l with
            | nil => rfl
            | cons i l ih => rw [List.foldl_cons, hf, ih]
          rw [this _ (fun i => rfl)]
          rfl
        have hn := mt (C82_raises nBit zeroPoint q _ w).mpr (hpq w)
        push Not at hn
        obtain ⟨hz, g, hG⟩ := hn
        have hq : 0 < q := by
          obtain ⟨hg0, ⟨rfl, _⟩ | ⟨_, rows, hr⟩⟩ := hG
          · exact_mod_cast hg0
          · exact absurd (congrArg List.length hr) (by simp)
        rw [if_pos hq] at h1
        refine ⟨by simpa using hz, hq, ?_, by omega, Nat.dvd_of_mod_eq_zero h3, h4⟩
        have := Nat.dvd_of_mod_eq_zero h1
        have h5 : ((q.toNat : ℕ) : ℤ) ∣ (ci : ℤ) := by exact_mod_cast this
        rwa [Int.toNat_of_nonneg hq.le] at h5
      · rw [if_neg hc] at h; exact absurd rfl h
    · rw [dif_neg hg] at h; exact absurd rfl h
  · rintro ⟨rfl, hq, hd, ht, ⟨b, rfl⟩, hco⟩
    obtain ⟨g, rfl⟩ := Int.eq_ofNat_of_zero_le hq.le
    have hg : 0 < g := by omega
    obtain ⟨m, rfl⟩ : g ∣ ci := by exact_mod_cast hd
    obtain ⟨bound, hb, _⟩ := C83_clip_layer_partial nBit g m b tokens hg (by omega) ht x w
    rw [mul_comm g m, hb]
    simp

/-- **C83, disagreement.**  Clipping per output channel, which is documented by a group size of -1, always raises. -/
theorem C83_per_channel_raises (nBit : ℕ) (zeroPoint : Bool) (q : ℤ) (hq : q ≤ 0) (co ci tokens : ℕ) (x : ℕ → ℕ → K) (w : ℕ → K) :
    autoClipLayer nBit zeroPoint q co ci tokens x w = none := by
  by_contra h
  have := (C83_raises nBit zeroPoint q co ci tokens x w).mp h
  omega

/-- **C83.**  Clipping a block changes only the weights of layers whose names do not contain `q_` or `k_`; those are clipped to the bounds of the theorem
above. -/
theorem C83_block (nBit : ℕ) (g : ℕ) (feats : List Char → Option (ℕ × (ℕ → ℕ → K))) (ls ls' : List (Layer K))
    (h : clipBlock nBit true g feats ls = some ls') :
    List.Forall₂ (fun l l' => l'.name = l.name ∧ l'.co = l.co ∧ l'.ci = l.ci ∧
      if ['q', '_'] <:+: l.name ∨ ['k', '_'] <:+: l.name then l'.weight = l.weight
      else ∃ tokens x bound, feats l.name = some (tokens, x) ∧ autoClipLayer nBit true g l.co l.ci tokens x l.weight = some bound ∧
        ∀ k, l'.weight k = clip (bound (k / g)) (l.weight k)) ls ls' := by
  induction ls generalizing ls' with
  | nil =>
    injection h with h
    subst h
    exact List.Forall₂.nil
  | cons l ls ih =>
    unfold clipBlock at h
    by_cases hsk : ['q', '_'] <:+: l.name ∨ ['k', '_'] <:+: l.name
    · have hsk' : skipped l.name = true := by
        unfold skipped
        simpa using hsk
      rw [if_pos hsk'] at h
      obtain ⟨rest, hr, rfl⟩ := Option.map_eq_some_iff.mp h
      exact List.Forall₂.cons ⟨rfl, rfl, rfl, by rw [if_pos hsk]⟩ (ih rest hr)
    · have hsk' : ¬ skipped l.name = true := by
        unfold skipped
        simpa using hsk
      rw [if_neg hsk'] at h
      cases ef : feats l.name with
      | none => rw [ef] at h; exact absurd h (by simp)
      | some tx =>
        obtain ⟨tokens, x⟩ := tx
        rw [ef] at h
        dsimp only at h
        cases eb : autoClipLayer nBit true g l.co l.ci tokens x l.weight with
        | none => rw [eb] at h; exact absurd h (by simp)
        | some bound =>
          rw [eb] at h
          dsimp only at h
          obtain ⟨rest, hr, rfl⟩ := Option.map_eq_some_iff.mp h
          refine List.Forall₂.cons ⟨rfl, rfl, rfl, ?_⟩ (ih rest hr)
          rw [if_neg hsk]
          refine ⟨tokens, x, bound, ef, eb, ?_⟩
          intro k
          have hne : autoClipLayer nBit true (g : ℤ) l.co l.ci tokens x l.weight ≠ none := by rw [eb]; simp
          obtain ⟨_, hq, hd, ht, ⟨b, hb⟩, hco⟩ := (C83_raises nBit true g l.co l.ci tokens x l.weight).mp hne
          have hg : 0 < g := by omega
          obtain ⟨m, hm⟩ : g ∣ l.ci := by exact_mod_cast hd
          obtain ⟨bound', hb', _, _, _, _, hj⟩ := C83_clip_layer_partial nBit g m b tokens hg (by omega) ht x l.weight
          rw [← hb, mul_comm m g, ← hm, eb] at hb'
          injection hb' with hb'
          subst hb'
          obtain ⟨r, hr10, hbr, _⟩ := hj (k / g) (orgMax g hg l.weight (k / g)) ⟨by
            obtain ⟨i, hi, e⟩ := exists_mem_eq_sup' ⟨0, mem_range.mpr hg⟩ fun i => |l.weight (k / g * g + i)|
            exact ⟨k / g * g + i, mem_group g hg i _ (mem_range.mp hi), e⟩, by
            rintro y ⟨k', hk', rfl⟩
            rw [← hk']
            exact le_orgMax g hg l.weight k'⟩
          have h0 : 0 ≤ bound (k / g) := by
            rw [hbr]
            apply mul_nonneg (orgMax_nonneg g hg l.weight _)
            have : (r : K) ≤ 10 := by exact_mod_cast hr10.le
            linarith
          show clipGroups (if (0 : ℤ) < (g : ℤ) then ((g : ℤ)).toNat else l.ci) bound l.weight k = _
          rw [if_pos (by exact_mod_cast hg)]
          exact clip_eq _ _ h0

/-- A value layer is clipped, a query layer is not. -/
example : ∃ bound : ℕ → ℚ, clipBlock (K := ℚ) 4 true 2 (fun _ => some (512, fun _ _ => 1))
      [⟨['q', '_'], 256, 2, fun _ => 1⟩, ⟨['v', '_'], 256, 2, fun k => if k % 2 = 0 then 1 else -1⟩] =
    some [⟨['q', '_'], 256, 2, fun _ => 1⟩, ⟨['v', '_'], 256, 2, clipGroups 2 bound fun k => if k % 2 = 0 then 1 else -1⟩] := by
  have h : autoClipLayer (K := ℚ) 4 true 2 256 2 512 (fun _ _ => 1) (fun k => if k % 2 = 0 then 1 else -1) ≠ none :=
    (C83_raises 4 true 2 256 2 512 _ _).mpr ⟨rfl, by norm_num, ⟨1, by norm_num⟩, le_rfl, ⟨1, by norm_num⟩, by norm_num⟩
  obtain ⟨bound, hb⟩ := Option.ne_none_iff_exists'.mp h
  refine ⟨bound, ?_⟩
  unfold clipBlock
  rw [if_pos (by decide)]
  unfold clipBlock
  rw [if_neg (by decide)]
  simp only [hb]
  rfl

end Brevitas.AwqClip
