import Mathlib.Data.Rat.Floor
import Mathlib.Tactic.NormNum
import Mathlib.Tactic.Linarith
import Mathlib.Data.List.Induction
import Verif.Lemmas.Shape

/-!
# C35: group-wise reshaping, C54: flat to n-d indices
-/

set_option linter.unusedSectionVars false

namespace Brevitas.Props

open Spec

variable {K : Type*} [Field K]

/-- C35. For a non-negative group dimension (weights, and activations of convolutions) the view splits the grouped dimension of every tensor, of
any rank and sizes, into consecutive blocks of exactly `gs` elements; the tail of the last block is zero. -/
theorem C35_blocks (x : Tensor K) (pre post : List ℕ) (n gs : ℕ) (hgs : 1 ≤ gs) (hsh : x.shape = pre ++ n :: post) (hwf : x.WF) :
    ∃ y, dynamicOverSubChannelBlockView gs (pre.length : ℤ) x = some y ∧ y.shape = pre ++ ((n + gs - 1) / gs) :: gs :: post ∧
      ∀ ip b j iq, InRange pre ip → InRange post iq → b < (n + gs - 1) / gs → j < gs →
        y.at (ip ++ b :: j :: iq) = if b * gs + j < n then x.at (ip ++ (b * gs + j) :: iq) else some 0 := by
  obtain ⟨y, h1, h2, _, h3⟩ := dynamicView_spec x pre post n gs hgs hsh hwf
  exact ⟨y, h1, h2, h3⟩

/-- the hypotheses are met by a 2 × 5 matrix split in blocks of 2 along dimension 1 -/
example : (Tensor.mk [2, 5] [1, 2, 3, 4, 5, 6, 7, 8, 9, (10 : ℚ)]).shape = [2] ++ 5 :: [] ∧
    (Tensor.mk [2, 5] [1, 2, 3, 4, 5, 6, 7, 8, 9, (10 : ℚ)]).WF ∧
    dynamicOverSubChannelBlockView 2 1 (Tensor.mk [2, 5] [1, 2, 3, 4, 5, 6, 7, 8, 9, (10 : ℚ)]) =
      some ⟨[2, 3, 2], [1, 2, 3, 4, 5, 0, 6, 7, 8, 9, 10, 0]⟩ := by
  refine ⟨rfl, rfl, by decide +kernel⟩

/-- C35. The view of a weight, whose shape is computed when the layer is built, is the same as the view computed from the data. -/
theorem C35_static_agrees (x : Tensor K) (pre post : List ℕ) (n gs : ℕ) (hgs : 1 ≤ gs) (hsh : x.shape = pre ++ n :: post) (hwf : x.WF) :
    overSubChannelBlockView (expandedGroupwiseShape x.shape gs pre.length) gs (pre.length : ℤ) x =
      dynamicOverSubChannelBlockView gs (pre.length : ℤ) x := by
  obtain ⟨h1, h2, h3⟩ := torchPad_spec x pre post n gs (pre.length : ℤ) hgs hsh (Or.inl rfl)
  obtain ⟨y, hy, hys, hyd, _⟩ := view_split _ pre post ((n + gs - 1) / gs) gs h1
  obtain ⟨y', hy', hys', _, _⟩ := dynamicView_spec x pre post n gs hgs hsh hwf
  rw [overSubChannelBlockView, if_neg, hsh, expandedGroupwiseShape_eq, ← hsh, hy, hy']
  · congr 1
    have hd : y'.data = (torchPad x (padding x.shape gs (pre.length : ℤ))).data := by
      unfold dynamicOverSubChannelBlockView Tensor.view at hy'
      by_cases hc : ((pyInsert ((torchPad x (padding x.shape gs (pre.length : ℤ))).shape.set
          (pyIndex (torchPad x (padding x.shape gs (pre.length : ℤ))).shape.length (pre.length : ℤ))
          ((torchPad x (padding x.shape gs (pre.length : ℤ))).shape.getD
            (pyIndex (torchPad x (padding x.shape gs (pre.length : ℤ))).shape.length (pre.length : ℤ)) 0 / gs))
          (if (pre.length : ℤ) ≠ -1 then (pre.length : ℤ) + 1 else -1) gs).prod =
            (torchPad x (padding x.shape gs (pre.length : ℤ))).shape.prod)
      · simp only [] at hy'
        rw [if_pos hc] at hy'
        rw [← Option.some.inj hy']
      · simp only [] at hy'
        rw [if_neg hc] at hy'
        exact absurd hy' (by simp)
    have hd2 : y.data = y'.data := by rw [hyd, hd]
    have hs2 : y.shape = y'.shape := by rw [hys, hys']
    cases y; cases y'
    simp only at hd2 hs2
    rw [hd2, hs2]
  · rw [hsh, expandedGroupwiseShape_eq]; simp

example : overSubChannelBlockView (expandedGroupwiseShape [2, 5] 2 1) 2 1 (Tensor.mk [2, 5] [1, 2, 3, 4, 5, 6, 7, 8, 9, (10 : ℚ)]) =
    some ⟨[2, 3, 2], [1, 2, 3, 4, 5, 0, 6, 7, 8, 9, 10, 0]⟩ := by decide +kernel

/-- C35, the shapes derived from the weight shape: one scale per block, and the flattened shape. -/
theorem C35_declared_shapes (pre post : List ℕ) (n gs : ℕ) :
    groupScalingShape (pre ++ n :: post) gs pre.length = pre ++ ((n + gs - 1) / gs) :: 1 :: post ∧
    reshapedGroupwiseShape (pre ++ n :: post) gs pre.length = pre ++ ((n + gs - 1) / gs * gs) :: post := by
  constructor
  · rw [groupScalingShape, expandedGroupwiseShape_eq]; simp
  · rw [reshapedGroupwiseShape, expandedGroupwiseShape_eq]
    simp [List.eraseIdx_append_of_length_le, List.getD_eq_getElem?_getD]

example : groupScalingShape [2, 5] 2 1 = [2, 3, 1] ∧ reshapedGroupwiseShape [2, 5] 2 1 = [2, 6] := by decide

/-- C35. Viewing as blocks and flattening back gives the original tensor followed, along the grouped dimension, by zeros. -/
theorem C35_round_trip_padded (x : Tensor K) (pre post : List ℕ) (n gs : ℕ) (hgs : 1 ≤ gs) (hsh : x.shape = pre ++ n :: post) (hwf : x.WF) :
    ∃ z, (dynamicOverSubChannelBlockView gs (pre.length : ℤ) x).map (fun y => y.flatten2 pre.length) = some z ∧
      z.shape = pre ++ ((n + gs - 1) / gs * gs) :: post ∧ z.WF ∧
      ∀ ip k iq, InRange pre ip → InRange post iq → k < (n + gs - 1) / gs * gs →
        z.at (ip ++ k :: iq) = if k < n then x.at (ip ++ k :: iq) else some 0 := by
  classical
  obtain ⟨y, h1, h2, h3, h4⟩ := dynamicView_spec x pre post n gs hgs hsh hwf
  have hz : (y.flatten2 pre.length).shape = pre ++ ((n + gs - 1) / gs * gs) :: post := by
    simp [Tensor.flatten2, h2, List.getD_eq_getElem?_getD, List.getElem?_append_right]
  refine ⟨y.flatten2 pre.length, by rw [h1]; rfl, hz, ?_, ?_⟩
  · unfold Tensor.WF at h3 ⊢
    rw [hz]
    change y.data.length = _
    rw [h3, h2]; simp [mul_assoc]
  · intro ip k iq hip hiq hk
    have hgs0 : 0 < gs := hgs
    have hb : k / gs < (n + gs - 1) / gs := by rw [Nat.div_lt_iff_lt_mul hgs0]; exact hk
    have hj : k % gs < gs := Nat.mod_lt _ hgs0
    have e : k / gs * gs + k % gs = k := by rw [Nat.mul_comm]; exact Nat.div_add_mod k gs
    have h5 := h4 ip (k / gs) (k % gs) iq hip hiq hb hj
    rw [e] at h5
    rw [← h5, Tensor.at, Tensor.at, hz, h2, ravel_split (InRange.length hip) (InRange.length hiq), e]
    rfl

example : (dynamicOverSubChannelBlockView 2 1 (Tensor.mk [2, 3] [1, 2, 3, 4, 5, (6 : ℚ)])).map (fun y => y.flatten2 1) =
    some ⟨[2, 4], [1, 2, 3, 0, 4, 5, 6, 0]⟩ := by decide +kernel

/-- C35. When the group size divides the grouped dimension, viewing as blocks and flattening back is the identity. -/
theorem C35_round_trip (x : Tensor K) (pre post : List ℕ) (n gs : ℕ) (hgs : 1 ≤ gs) (hsh : x.shape = pre ++ n :: post) (hwf : x.WF)
    (hdvd : gs ∣ n) : (dynamicOverSubChannelBlockView gs (pre.length : ℤ) x).map (fun y => y.flatten2 pre.length) = some x := by
  obtain ⟨z, h1, h2, h3, h4⟩ := C35_round_trip_padded x pre post n gs hgs hsh hwf
  have hN : (n + gs - 1) / gs * gs = n := by
    have := padded_size n gs hgs
    rw [if_neg (by simpa using Nat.mod_eq_zero_of_dvd hdvd)] at this
    omega
  rw [hN] at h2 h4
  rw [h1]
  congr 1
  have hs : z.shape = x.shape := by rw [h2, hsh]
  have hd : z.data = x.data := by
    apply List.ext_getElem?
    intro f
    have hlen : z.data.length = x.data.length := by rw [h3, hwf, hs]
    rcases lt_or_ge f x.data.length with hf | hf
    · have hf' : f < x.shape.prod := by rw [← hwf]; exact hf
      have hin := unravel_inRange hf'
      rw [hsh] at hin
      obtain ⟨ip, rest, hip, hrest, heq⟩ := InRange_append_left hin
      cases hrest with
      | @cons _ k _ iq hk hiq =>
        have := h4 ip k iq hip hiq hk
        rw [if_pos hk, Tensor.at, Tensor.at, hs] at this
        have hr := ravel_unravel hf'
        rw [hsh, heq, ← hsh] at hr
        rw [hr] at this
        exact this
    · rw [List.getElem?_eq_none hf, List.getElem?_eq_none (by omega)]
  cases z; cases x; simp_all

example : (dynamicOverSubChannelBlockView 2 1 (Tensor.mk [2, 4] [1, 2, 3, 4, 5, 6, 7, (8 : ℚ)])).map (fun y => y.flatten2 1) =
    some ⟨[2, 4], [1, 2, 3, 4, 5, 6, 7, 8]⟩ := by decide +kernel

/-- C35, what fails: the padding is never removed, so the shape of the quantized value is the shape of the input exactly when the group size
divides the grouped dimension. -/
theorem C35_padding_kept (x : Tensor K) (pre post : List ℕ) (n gs : ℕ) (hgs : 1 ≤ gs) (hsh : x.shape = pre ++ n :: post) (hwf : x.WF) :
    ∃ z, (dynamicOverSubChannelBlockView gs (pre.length : ℤ) x).map (fun y => y.flatten2 pre.length) = some z ∧
      (z.shape = x.shape ↔ gs ∣ n) := by
  obtain ⟨z, h1, h2, _, _⟩ := C35_round_trip_padded x pre post n gs hgs hsh hwf
  refine ⟨z, h1, ?_⟩
  rw [h2, hsh]
  have hp := padded_size n gs hgs
  have hmlt : n % gs < gs := Nat.mod_lt _ (by omega)
  constructor
  · intro h
    have : (n + gs - 1) / gs * gs = n := by simpa using h
    rw [← this]; exact Nat.dvd_mul_left _ _
  · intro hdvd
    rw [if_neg (by simpa using Nat.mod_eq_zero_of_dvd hdvd)] at hp
    rw [← hp]; rfl

/-- `v` is the largest absolute value of the elements of `x` whose position along the grouped dimension lies in the same block of `size`
consecutive positions as `k` -/
def IsBlockMax [LinearOrder K] (x : Tensor K) (n size : ℕ) (ip : List ℕ) (k : ℕ) (iq : List ℕ) (v : K) : Prop :=
  (∀ k' w, k' / size = k / size → k' < n → x.at (ip ++ k' :: iq) = some w → |w| ≤ v) ∧
  ∃ k' w, k' / size = k / size ∧ k' < n ∧ x.at (ip ++ k' :: iq) = some w ∧ v = |w|

section stat
variable [LinearOrder K] [IsStrictOrderedRing K]

theorem blockMax_of_list (x : Tensor K) (n size b : ℕ) (hsize : 1 ≤ size) (ip iq : List ℕ) (k : ℕ) (hk : k < n) (hkb : k / size = b)
    (f : ℕ → Option K) (hf : ∀ j, j < size → f j = if b * size + j < n then x.at (ip ++ (b * size + j) :: iq) else some 0)
    (hx : ∀ k', k' < n → ∃ w, x.at (ip ++ k' :: iq) = some w) :
    IsBlockMax x n size ip k iq (((List.range size).map fun j => |(f j).getD 0|).foldr max 0) := by
  have hs0 : 0 < size := hsize
  obtain ⟨hub, hmem⟩ := foldr_max_zero_spec ((List.range size).map fun j => |(f j).getD 0|) (by
    intro v hv; obtain ⟨j, _, rfl⟩ := List.mem_map.mp hv; exact abs_nonneg _)
  have key : ∀ k' w, k' / size = b → k' < n → x.at (ip ++ k' :: iq) = some w →
      |w| ∈ (List.range size).map fun j => |(f j).getD 0| := by
    intro k' w h1 h2 h3
    refine List.mem_map.mpr ⟨k' % size, List.mem_range.mpr (Nat.mod_lt _ hs0), ?_⟩
    have e : b * size + k' % size = k' := by rw [← h1, Nat.mul_comm]; exact Nat.div_add_mod _ _
    rw [hf _ (Nat.mod_lt _ hs0), e, if_pos h2, h3]; rfl
  refine ⟨fun k' w h1 h2 h3 => hub _ (key k' w (by rw [h1, hkb]) h2 h3), ?_⟩
  have hne : ((List.range size).map fun j => |(f j).getD 0|) ≠ [] := by simp; omega
  obtain ⟨j, hj, hjv⟩ := List.mem_map.mp (hmem hne)
  have hj' : j < size := List.mem_range.mp hj
  by_cases hlt : b * size + j < n
  · obtain ⟨w, hw⟩ := hx _ hlt
    refine ⟨b * size + j, w, ?_, hlt, hw, ?_⟩
    · rw [hkb, Nat.mul_comm, Nat.mul_add_div hs0, Nat.div_eq_of_lt hj', add_zero]
    · rw [← hjv, hf j hj', if_pos hlt, hw]; rfl
  · -- the maximum is zero, hence every element of the block is zero
    have hv0 : ((List.range size).map fun j => |(f j).getD 0|).foldr max 0 = 0 := by
      rw [← hjv, hf j hj', if_neg hlt]; simp
    obtain ⟨w, hw⟩ := hx k hk
    refine ⟨k, w, rfl, hk, hw, ?_⟩
    have h1 := hub _ (key k w hkb hk hw)
    rw [hv0] at h1 ⊢
    exact le_antisymm (abs_nonneg _) h1

/-- C35. For a non-negative group dimension the statistic that scales an element is the largest absolute value of its own block of `gs`
consecutive elements: exactly `gs` elements share a scale. -/
theorem C35_group_shares_scale (x : Tensor K) (pre post : List ℕ) (n gs : ℕ) (hgs : 1 ≤ gs) (hsh : x.shape = pre ++ n :: post) (hwf : x.WF) :
    ∃ s, groupStat gs (pre.length : ℤ) x = some s ∧ ∀ ip k iq, InRange pre ip → InRange post iq → k < n →
      ∃ v, s.at (ip ++ k :: iq) = some v ∧ IsBlockMax x n gs ip k iq v := by
  obtain ⟨y, h1, h2, h3, h4⟩ := dynamicView_spec x pre post n gs hgs hsh hwf
  refine ⟨_, by rw [groupStat, h1]; rfl, ?_⟩
  intro ip k iq hip hiq hk
  have hne : ¬ ((pre.length : ℤ) = -1) := by omega
  have hred : statsReduceDim y.shape.length (pre.length : ℤ) = (pre ++ [(n + gs - 1) / gs]).length := by
    rw [statsReduceDim, if_neg hne]
    have : ((pre.length : ℤ) + 1) = ((pre.length + 1 : ℕ) : ℤ) := by push_cast; ring
    rw [this, pyIndex_nonneg]; simp
  simp only [hred, ne_eq, hne, not_false_eq_true, if_true, pyIndex_nonneg]
  have hgs0 : 0 < gs := hgs
  have hkN : k < (n + gs - 1) / gs * gs := by
    have := padded_size n gs hgs
    omega
  have hb : k / gs < (n + gs - 1) / gs := by rw [Nat.div_lt_iff_lt_mul hgs0]; exact hkN
  have hj : k % gs < gs := Nat.mod_lt _ hgs0
  have e : k / gs * gs + k % gs = k := by rw [Nat.mul_comm]; exact Nat.div_add_mod k gs
  have h2' : y.shape = (pre ++ [(n + gs - 1) / gs]) ++ gs :: post := by rw [h2]; simp
  have hip' : InRange (pre ++ [(n + gs - 1) / gs]) (ip ++ [k / gs]) := InRange_append hip (List.Forall₂.cons hb List.Forall₂.nil)
  have hat := amax_expand_at y (pre ++ [(n + gs - 1) / gs]) post gs h2' hip' hiq hj
  have hfl := flatten2_at ((y.amaxKeepdim (pre ++ [(n + gs - 1) / gs]).length).expandTo y.shape) pre post ((n + gs - 1) / gs) gs h2
    (b := k / gs) (j := k % gs) hip hiq
  rw [e] at hfl
  rw [hfl]
  simp only [List.append_assoc, List.singleton_append] at hat
  refine ⟨_, hat, ?_⟩
  refine blockMax_of_list x n gs (k / gs) hgs ip iq k hk rfl (fun j => y.at (ip ++ k / gs :: j :: iq)) ?_ ?_
  · intro j hj
    exact h4 ip (k / gs) j iq hip hiq hb hj
  · intro k' hk'
    exact x.at_isSome hwf (by rw [hsh]; exact InRange_append hip (List.Forall₂.cons hk' hiq))

example : groupStat 2 1 (Tensor.mk [2, 3] [1, -2, 3, 4, -5, (6 : ℚ)]) = some ⟨[2, 4], [2, 2, 3, 3, 5, 5, 6, 6]⟩ := by decide +kernel

/-- C35, the last dimension (`group_dim = -1`, the activations of linear layers): the block an element shares its scale with has as many
elements as there are groups, `⌈n / gs⌉`, instead of `gs`. -/
theorem C35_last_dim_blocks (x : Tensor K) (pre : List ℕ) (n gs : ℕ) (hgs : 1 ≤ gs) (hsh : x.shape = pre ++ [n]) (hwf : x.WF) :
    ∃ s, groupStat gs (-1) x = some s ∧ ∀ ip k, InRange pre ip → k < n →
      ∃ v, s.at (ip ++ [k]) = some v ∧ IsBlockMax x n ((n + gs - 1) / gs) ip k [] v := by
  obtain ⟨y, h1, h2, h3, h4⟩ := dynamicView_last_spec x pre n gs hgs hsh hwf
  refine ⟨_, by rw [groupStat, h1]; rfl, ?_⟩
  intro ip k hip hk
  set m := (n + gs - 1) / gs with hm
  have hkN : k < m * gs := by
    have := padded_size n gs hgs
    rw [← hm] at this
    omega
  have hm0 : 0 < m := by
    rcases Nat.eq_zero_or_pos m with h | h
    · rw [h] at hkN; omega
    · exact h
  have hred : statsReduceDim y.shape.length (-1) = (pre ++ [gs]).length := by
    rw [statsReduceDim, if_pos rfl, h2]; simp [pyIndex]; omega
  have hstart : pyIndex y.shape.length (if (-1 : ℤ) ≠ -1 then (-1 : ℤ) else -2) = pre.length := by
    rw [h2]; simp [pyIndex]
  simp only [hred, hstart]
  have hb : k / m < gs := by rw [Nat.div_lt_iff_lt_mul hm0, Nat.mul_comm]; exact hkN
  have hj : k % m < m := Nat.mod_lt _ hm0
  have e : k / m * m + k % m = k := by rw [Nat.mul_comm]; exact Nat.div_add_mod k m
  have h2' : y.shape = (pre ++ [gs]) ++ m :: [] := by rw [h2]; simp
  have hip' : InRange (pre ++ [gs]) (ip ++ [k / m]) := InRange_append hip (List.Forall₂.cons hb List.Forall₂.nil)
  have hat := amax_expand_at y (pre ++ [gs]) [] m h2' hip' List.Forall₂.nil hj
  have hfl := flatten2_at ((y.amaxKeepdim (pre ++ [gs]).length).expandTo y.shape) pre [] gs m h2 (b := k / m) (j := k % m) hip
    List.Forall₂.nil
  rw [e] at hfl
  rw [hfl]
  simp only [List.append_assoc, List.singleton_append] at hat
  refine ⟨_, hat, ?_⟩
  refine blockMax_of_list x n m (k / m) hm0 ip [] k hk rfl (fun j => y.at (ip ++ [k / m, j])) ?_ ?_
  · intro j hj
    exact h4 ip (k / m) j hip hb hj
  · intro k' hk'
    exact x.at_isSome hwf (by rw [hsh]; exact InRange_append hip (List.Forall₂.cons hk' List.Forall₂.nil))

/-- C35 for the last dimension, when the dimension is the square of the group size: then (and only by this coincidence of the two sizes) the
blocks have `gs` elements. -/
theorem C35_last_dim_partial (x : Tensor K) (pre : List ℕ) (gs : ℕ) (hgs : 1 ≤ gs) (hsh : x.shape = pre ++ [gs * gs]) (hwf : x.WF) :
    ∃ s, groupStat gs (-1) x = some s ∧ ∀ ip k, InRange pre ip → k < gs * gs →
      ∃ v, s.at (ip ++ [k]) = some v ∧ IsBlockMax x (gs * gs) gs ip k [] v := by
  have := C35_last_dim_blocks x pre (gs * gs) gs hgs hsh hwf
  have e : (gs * gs + gs - 1) / gs = gs := by
    have h := padded_size (gs * gs) gs hgs
    rw [if_neg (by simp)] at h
    exact (Nat.eq_of_mul_eq_mul_right (by omega) (by omega : gs * gs = (gs * gs + gs - 1) / gs * gs)).symm
  rwa [e] at this

/-- C35, what fails for the last dimension: with groups of 4 over 8 features, the first four features do not share a scale. -/
theorem C35_last_dim_groups_wrong :
    groupStat 4 (-1) (Tensor.mk [1, 8] [1, 2, 3, 4, 5, 6, 7, (8 : ℚ)]) = some ⟨[1, 8], [2, 2, 4, 4, 6, 6, 8, 8]⟩ ∧
    ¬ ∃ v, (Tensor.mk [1, 8] [2, 2, 4, 4, 6, 6, 8, (8 : ℚ)]).at ([0] ++ [0]) = some v ∧
      IsBlockMax (Tensor.mk [1, 8] [1, 2, 3, 4, 5, 6, 7, (8 : ℚ)]) 8 4 [0] 0 [] v := by
  refine ⟨by decide +kernel, ?_⟩
  rintro ⟨v, hv, h1, _⟩
  have hv' : v = 2 := by
    have : (Tensor.mk [1, 8] [2, 2, 4, 4, 6, 6, 8, (8 : ℚ)]).at ([0] ++ [0]) = some 2 := by decide +kernel
    rw [this] at hv
    exact (Option.some.inj hv).symm
  have := h1 3 4 (by norm_num) (by norm_num) (by decide +kernel)
  rw [hv'] at this
  norm_num at this

end stat

/-- C35. Re-expanding the flattened tensor gives back the blocks, for a non-negative group dimension. -/
theorem C35_from_expanded (x : Tensor K) (pre post : List ℕ) (n gs : ℕ) (hgs : 1 ≤ gs) (hsh : x.shape = pre ++ n :: post) (hwf : x.WF) :
    ∃ y, dynamicOverSubChannelBlockView gs (pre.length : ℤ) x = some y ∧ fromExpanded gs (pre.length : ℤ) (y.flatten2 pre.length) = some y := by
  obtain ⟨y, h1, h2, h3, h4⟩ := dynamicView_spec x pre post n gs hgs hsh hwf
  refine ⟨y, h1, ?_⟩
  have hz : (y.flatten2 pre.length).shape = pre ++ ((n + gs - 1) / gs * gs) :: post := by
    simp [Tensor.flatten2, h2, List.getD_eq_getElem?_getD, List.getElem?_append_right]
  have hg : (pre ++ ((n + gs - 1) / gs * gs) :: post).getD pre.length 0 = (n + gs - 1) / gs * gs := by
    simp [List.getD_eq_getElem?_getD]
  have hset : (pre ++ ((n + gs - 1) / gs * gs) :: post).set pre.length ((n + gs - 1) / gs * gs / gs) = pre ++ ((n + gs - 1) / gs) :: post := by
    simp [Nat.mul_div_cancel _ (show 0 < gs by omega)]
  rw [fromExpanded]
  simp only [ne_eq, show ¬ ((pre.length : ℤ) = -1) by omega, not_false_eq_true, if_true, hz, pyIndex_nonneg, hg, hset]
  rw [if_pos (Nat.mul_mod_left _ _), pyInsert_mid _ _ _ _ _ rfl, Tensor.view, if_pos (by rw [hz]; simp [mul_assoc]), ← h2]
  rfl

example : fromExpanded 2 1 (Tensor.mk [2, 4] [1, 2, 3, 0, 4, 5, 6, (0 : ℚ)]) = some ⟨[2, 2, 2], [1, 2, 3, 0, 4, 5, 6, 0]⟩ := by decide +kernel

/-- C35, what fails: re-expanding with `group_dim = -1` looks at the dimension before the last and rejects a tensor it produced. -/
theorem C35_from_expanded_last_dim_rejected :
    (dynamicOverSubChannelBlockView 4 (-1) (Tensor.mk [1, 8] [1, 2, 3, 4, 5, 6, 7, (8 : ℚ)])).map (fun y => y.flatten2 1) =
      some ⟨[1, 8], [1, 2, 3, 4, 5, 6, 7, 8]⟩ ∧
    fromExpanded 4 (-1) (Tensor.mk [1, 8] [1, 2, 3, 4, 5, 6, 7, (8 : ℚ)]) = none := by
  constructor <;> decide +kernel

/-- the loop of `gpxqIndexToNd` -/
theorem gpxq_loop (shapes : List ℕ) (index : ℕ) (acc : List ℕ) (h : index < shapes.prod) :
    (shapes.reverse.foldl (fun (acc : List ℕ × ℕ) s => (acc.1 ++ [acc.2 % s], acc.2 / s)) (acc, index)) =
      (acc ++ (unravel shapes index).reverse, 0) := by
  induction shapes using List.reverseRecOn generalizing index acc with
  | nil => simp at h; subst h; simp [unravel]
  | append_singleton ds d ih =>
    have hprod : (ds ++ [d]).prod = ds.prod * d := by simp
    rw [hprod] at h
    have hd : 0 < d := by
      rcases Nat.eq_zero_or_pos d with h0 | h0
      · rw [h0] at h; omega
      · exact h0
    have hlt : index / d < ds.prod := (Nat.div_lt_iff_lt_mul hd).mpr h
    rw [List.reverse_append, List.reverse_singleton, List.singleton_append, List.foldl_cons, ih _ _ hlt]
    have key : unravel (ds ++ [d]) index = unravel ds (index / d) ++ [index % d] := by
      have hin : InRange (ds ++ [d]) (unravel ds (index / d) ++ [index % d]) :=
        InRange_append (unravel_inRange hlt) (List.Forall₂.cons (Nat.mod_lt _ hd) List.Forall₂.nil)
      rw [← unravel_ravel hin, ravel_append (s₂ := [d]) (i₂ := [index % d]) (InRange.length (unravel_inRange hlt)) rfl, ravel_unravel hlt]
      congr 1
      simp [ravel, Nat.div_add_mod']
    rw [key]
    simp

/-- C54. The multi-index computed for a flat column index is legal, is the one at that row-major position, and it is the only such index. -/
theorem C54_row_major (shapes : List ℕ) (index : ℕ) (h : index < shapes.prod) :
    InRange shapes (gpxqIndexToNd shapes index) ∧ ravel shapes (gpxqIndexToNd shapes index) = index ∧
    ∀ idx, InRange shapes idx → ravel shapes idx = index → idx = gpxqIndexToNd shapes index := by
  have e : gpxqIndexToNd shapes index = unravel shapes index := by
    rw [gpxqIndexToNd, gpxq_loop _ _ _ h]; simp
  rw [e]
  exact ⟨unravel_inRange h, ravel_unravel h, fun idx h1 h2 => by rw [← h2, unravel_ravel h1]⟩

example : gpxqIndexToNd [3, 2, 2] 7 = [1, 1, 1] ∧ 7 < [3, 2, 2].prod := by decide

/-- C54. Slicing a convolution weight at the computed indices reads, for every output channel, the same element as column `index` of the weight
flattened to a matrix. -/
theorem C54_slice_is_column (w : Tensor K) (oc : ℕ) (shapes : List ℕ) (hsh : w.shape = oc :: shapes) (o index : ℕ)
    (h : index < shapes.prod) :
    w.at (o :: gpxqIndexToNd shapes index) = (Tensor.mk [oc, shapes.prod] w.data).at [o, index] := by
  obtain ⟨h1, h2, _⟩ := C54_row_major shapes index h
  rw [Tensor.at, Tensor.at, hsh, ravel_cons _ _ _ _ (InRange.length h1), h2]
  congr 1
  simp [ravel]

example : (Tensor.mk [2, 2, 2] [1, 2, 3, 4, 5, 6, 7, (8 : ℚ)]).at (1 :: gpxqIndexToNd [2, 2] 2) = some 7 := by decide +kernel

end Brevitas.Props
