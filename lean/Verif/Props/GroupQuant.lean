import Mathlib.Data.Rat.Floor
import Mathlib.Tactic.NormNum
import Mathlib.Tactic.Linarith
import Verif.Lemmas.GroupQuant
import Verif.Lemmas.Scaling
import Verif.Props.Shape

/-!
# C100: group-wise integer quantisation
-/

set_option linter.unusedSectionVars false

namespace Brevitas.Props

open Brevitas.Spec Brevitas.Group

variable {K : Type*} [Field K] [LinearOrder K] [IsStrictOrderedRing K] [FloorRing K]

theorem startDim_nonneg (rank p : ℕ) : startDim rank (p : ℤ) = p := by
  rw [startDim, if_pos (by omega), pyIndex_nonneg]

theorem statsReduceDim_nonneg (rank p : ℕ) : statsReduceDim rank (p : ℤ) = p + 1 := by
  rw [statsReduceDim, if_neg (by omega)]
  have : ((p : ℤ) + 1) = ((p + 1 : ℕ) : ℤ) := by push_cast; ring
  rw [this, pyIndex_nonneg]

theorem startDim_last (pre : List ℕ) (a d : ℕ) : startDim (pre ++ [a, d]).length (-1) = pre.length := by
  simp [startDim, pyIndex]

theorem statsReduceDim_last (pre : List ℕ) (a d : ℕ) : statsReduceDim (pre ++ [a, d]).length (-1) = pre.length + 1 := by
  rw [statsReduceDim, if_pos rfl]; simp [pyIndex]; omega

/-- A 4-bit signed quantiser with groups of 2 along dimension 1, scaled by the largest absolute value of the group. -/
def Sample.groupQuantizer : Quantizer ℚ :=
  ⟨⟨true, true, torchRound⟩, fun l => max ((l.map fun v => |v|).foldr max 0 / 7) (1 / 1000), .scalar 0, 4, 2, 1⟩

/-- The same quantiser for the last dimension. -/
def Sample.lastQuantizer : Quantizer ℚ := { Sample.groupQuantizer with groupDim := -1 }

/-- A 2 × 3 matrix. -/
def Sample.groupInput : Tensor ℚ := ⟨[2, 3], [1, 2, 3, 4, 5, -6]⟩

/-- C100. For a non-negative group dimension, every tensor of any rank and sizes: the value, scale and zero point of the quant tensor have the shape
of the input with the grouped dimension rounded up to a multiple of the group size; the value at each index is the input at that index (zero in the
padding) quantised with the scale and zero point of its own group, the block of `group_size` consecutive elements that contains it. -/
theorem C100_value (q : Quantizer K) (tr : Bool) (x : Tensor K) (pre post : List ℕ) (n : ℕ) (hgs : 1 ≤ q.groupSize)
    (hgd : q.groupDim = pre.length) (hsh : x.shape = pre ++ n :: post) (hwf : x.WF) :
    ∃ t v s z, quantAct q false tr x = some t ∧ t.value = some v ∧ t.scale = some s ∧ t.zeroPoint = some z ∧
      t.bitWidth = q.bitWidth ∧ t.signed = q.cfg.signed ∧
      v.shape = pre ++ ((n + q.groupSize - 1) / q.groupSize * q.groupSize) :: post ∧ v.WF ∧ s.shape = v.shape ∧
      (z.shape = [] ∨ z.shape = v.shape) ∧
      ∀ ip k iq, InRange pre ip → InRange post iq → k < (n + q.groupSize - 1) / q.groupSize * q.groupSize →
        v.at (ip ++ k :: iq) = some (q.cfg.forward (q.scaleOf (groupOf x n q.groupSize ip k iq))
          (q.zeroPoint.of (groupOf x n q.groupSize ip k iq)) q.bitWidth (element x n ip k iq)) ∧
        s.at (ip ++ k :: iq) = some (q.scaleOf (groupOf x n q.groupSize ip k iq)) ∧
        readAt z (ip ++ k :: iq) = some (q.zeroPoint.of (groupOf x n q.groupSize ip k iq)) := by
  obtain ⟨y, hy, hv⟩ := viewed_dynamic x pre post n q.groupSize hgs hsh hwf
  obtain ⟨v, s, z, h1, h2, h3, h4, h5, h6, h7, h8⟩ := quantView_spec q tr x y pre post n _ _ hv
    (by rw [hgd]; exact startDim_nonneg _ _) (by rw [hgd]; exact statsReduceDim_nonneg _ _)
  refine ⟨quantView q false tr x y, v, s, z, ?_, ?_, ?_, ?_, rfl, rfl, h2, h3, by rw [h4, h2], by rw [h2]; exact h6, h8⟩
  · rw [quantAct, hgd, hy, Option.map_some]
  · rw [QT.value, h1]; rfl
  · rw [QT.scale, h1]; rfl
  · rw [QT.zeroPoint, h1]; rfl

example : (quantAct Sample.groupQuantizer false false Sample.groupInput).bind QT.expand =
    some (⟨[2, 4], [8 / 7, 2, 3, 0, 30 / 7, 5, -6, 0]⟩, ⟨[2, 4], [2 / 7, 2 / 7, 3 / 7, 3 / 7, 5 / 7, 5 / 7, 6 / 7, 6 / 7]⟩, ⟨[], [0]⟩) := by
  decide +kernel

example : groupOf Sample.groupInput 3 2 [1] 0 [] = [4, 5] ∧ groupOf Sample.groupInput 3 2 [1] 2 [] = [-6, 0] ∧ Sample.groupInput.WF := by
  refine ⟨by decide +kernel, by decide +kernel, rfl⟩

/-- C100 for the last dimension (`group_dim = -1`): the groups are blocks of `⌈n / group_size⌉` consecutive elements, that is there are `group_size`
groups, instead of blocks of `group_size` elements. -/
theorem C100_value_last (q : Quantizer K) (tr : Bool) (x : Tensor K) (pre : List ℕ) (n : ℕ) (hgs : 1 ≤ q.groupSize)
    (hgd : q.groupDim = -1) (hsh : x.shape = pre ++ [n]) (hwf : x.WF) :
    ∃ t v s z, quantAct q false tr x = some t ∧ t.value = some v ∧ t.scale = some s ∧ t.zeroPoint = some z ∧
      v.shape = pre ++ [q.groupSize * ((n + q.groupSize - 1) / q.groupSize)] ∧ v.WF ∧ s.shape = v.shape ∧
      ∀ ip k, InRange pre ip → k < q.groupSize * ((n + q.groupSize - 1) / q.groupSize) →
        let g := groupOf x n ((n + q.groupSize - 1) / q.groupSize) ip k []
        v.at (ip ++ [k]) = some (q.cfg.forward (q.scaleOf g) (q.zeroPoint.of g) q.bitWidth (element x n ip k [])) ∧
        s.at (ip ++ [k]) = some (q.scaleOf g) ∧ readAt z (ip ++ [k]) = some (q.zeroPoint.of g) := by
  obtain ⟨y, hy, hv⟩ := viewed_last x pre n q.groupSize hgs hsh hwf
  obtain ⟨v, s, z, h1, h2, h3, h4, h5, h6, h7, h8⟩ := quantView_spec q tr x y pre [] n _ _ hv
    (by rw [hgd, hv.shape]; exact startDim_last _ _ _) (by rw [hgd, hv.shape]; exact statsReduceDim_last _ _ _)
  refine ⟨quantView q false tr x y, v, s, z, ?_, ?_, ?_, ?_, h2, h3, by rw [h4, h2], ?_⟩
  · rw [quantAct, hgd, hy, Option.map_some]
  · rw [QT.value, h1]; rfl
  · rw [QT.scale, h1]; rfl
  · rw [QT.zeroPoint, h1]; rfl
  · intro ip k hip hk
    exact h8 ip k [] hip List.Forall₂.nil hk

/-- C100, what fails for the last dimension: with groups of 4 over 8 features the first four features do not share a scale. -/
theorem C100_last_dim_groups_wrong :
    (quantAct { Sample.lastQuantizer with groupSize := 4 } false false ⟨[1, 8], [1, 2, 3, 4, 5, 6, 7, 8]⟩).bind QT.scale =
      some ⟨[1, 8], [2 / 7, 2 / 7, 4 / 7, 4 / 7, 6 / 7, 6 / 7, 8 / 7, 8 / 7]⟩ := by decide +kernel

/-- C100. A group-wise weight is quantised as an activation with the same data would be. -/
theorem C100_weight (q : Quantizer K) (tr : Bool) (x : Tensor K) (pre post : List ℕ) (n : ℕ) (hgs : 1 ≤ q.groupSize)
    (hgd : q.groupDim = pre.length) (hsh : x.shape = pre ++ n :: post) (hwf : x.WF) (enabled : Bool) :
    weightForward q enabled tr x = actForward q enabled tr (.tensor x) := by
  have h : overSubChannelBlockView (expandedGroupwiseShape x.shape q.groupSize q.groupDim.toNat) q.groupSize q.groupDim x =
      dynamicOverSubChannelBlockView q.groupSize q.groupDim x := by
    rw [hgd]
    exact C35_static_agrees x pre post n q.groupSize hgs hsh hwf
  rw [weightForward, actForward]
  simp only [Option.bind_some]
  cases enabled
  · simp only [Bool.false_eq_true, if_false, applyInputView, h]
    cases hh : (dynamicOverSubChannelBlockView q.groupSize q.groupDim x).bind fun y => flattenPair y (startDim y.shape.length q.groupDim) <;> rfl
  · simp only [if_true, quantWeight, quantAct, h]

example : weightForward Sample.groupQuantizer true false Sample.groupInput ≠ none ∧
    weightForward Sample.groupQuantizer false false Sample.groupInput = some (.tensor ⟨[2, 4], [1, 2, 3, 0, 4, 5, -6, 0]⟩) := by
  constructor <;> decide +kernel

theorem isCode_of_narrow {signed narrow : Bool} {b : ℕ} {n : ℤ} (h : _root_.Spec.IsCode signed narrow b n) : _root_.Spec.IsCode signed false b n := by
  obtain ⟨h1, h2⟩ := h
  cases signed <;> cases narrow <;> simp [_root_.Spec.IsCode, _root_.Spec.lo, _root_.Spec.hi] at * <;> omega

/-- C100. The quant tensor is valid, and `int()` returns, at each index, the code that quantising that element with the scale and zero point of its
group gives; the code is an integer of the bit width, and the value is the code minus the zero point times the scale. Provided no group has a zero
scale (what `scaling_min_val` ensures) and the tensor is not empty. -/
theorem C100_int (q : Quantizer K) (tr : Bool) (x : Tensor K) (pre post : List ℕ) (n : ℕ) (hgs : 1 ≤ q.groupSize)
    (hgd : q.groupDim = pre.length) (hsh : x.shape = pre ++ n :: post) (hwf : x.WF) (hb : 2 ≤ q.bitWidth) {atol : K} (ha : 0 < atol)
    (hne : ∃ idx, InRange x.shape idx)
    (hsc : ∀ ip k iq, InRange pre ip → InRange post iq → k < (n + q.groupSize - 1) / q.groupSize * q.groupSize →
      q.scaleOf (groupOf x n q.groupSize ip k iq) ≠ 0) :
    ∃ t v ns, quantAct q false tr x = some t ∧ t.value = some v ∧ t.isValid atol = some true ∧ t.int atol = some (v.shape, ns) ∧
      v.shape = pre ++ ((n + q.groupSize - 1) / q.groupSize * q.groupSize) :: post ∧ ns.length = v.shape.prod ∧
      ∀ ip k iq, InRange pre ip → InRange post iq → k < (n + q.groupSize - 1) / q.groupSize * q.groupSize →
        ∃ m : ℤ, ns[ravel v.shape (ip ++ k :: iq)]? = some m ∧ _root_.Spec.IsCode q.cfg.signed q.cfg.narrow q.bitWidth m ∧
          (m : K) = q.cfg.toInt (q.scaleOf (groupOf x n q.groupSize ip k iq)) (q.zeroPoint.of (groupOf x n q.groupSize ip k iq)) q.bitWidth
            (element x n ip k iq) ∧
          v.at (ip ++ k :: iq) = some (((m : K) - q.zeroPoint.of (groupOf x n q.groupSize ip k iq)) *
            q.scaleOf (groupOf x n q.groupSize ip k iq)) := by
  obtain ⟨y, hy, hv⟩ := viewed_dynamic x pre post n q.groupSize hgs hsh hwf
  obtain ⟨v, s, z, h1, h2, h3, h4, h5, h6, h7, h8⟩ := quantView_spec q tr x y pre post n _ _ hv
    (by rw [hgd]; exact startDim_nonneg _ _) (by rw [hgd]; exact statsReduceDim_nonneg _ _)
  have hb1 : 1 ≤ q.bitWidth := by omega
  -- the code of an element
  let cd : List ℕ → ℕ → List ℕ → ℤ := fun ip k iq => code q.cfg.signed q.cfg.narrow q.bitWidth
    (q.cfg.floatToInt (element x n ip k iq / q.scaleOf (groupOf x n q.groupSize ip k iq) + q.zeroPoint.of (groupOf x n q.groupSize ip k iq)))
  have hcd : ∀ ip k iq, ((cd ip k iq : ℤ) : K) = q.cfg.toInt (q.scaleOf (groupOf x n q.groupSize ip k iq))
      (q.zeroPoint.of (groupOf x n q.groupSize ip k iq)) q.bitWidth (element x n ip k iq) := fun ip k iq =>
    (toInt_eq_code q.cfg _ _ hb1 _).symm
  have hcode : ∀ ip k iq, _root_.Spec.IsCode q.cfg.signed q.cfg.narrow q.bitWidth (cd ip k iq) := fun ip k iq => code_isCode _ _ hb1 _
  have hvat : ∀ ip k iq, InRange pre ip → InRange post iq → k < (n + q.groupSize - 1) / q.groupSize * q.groupSize →
      v.at (ip ++ k :: iq) = some (((cd ip k iq : K) - q.zeroPoint.of (groupOf x n q.groupSize ip k iq)) *
        q.scaleOf (groupOf x n q.groupSize ip k iq)) := by
    intro ip k iq hip hiq hk
    rw [(h8 ip k iq hip hiq hk).1, hcd]
    rfl
  have hne' : ∃ idx, InRange v.shape idx := by
    obtain ⟨idx, hidx⟩ := hne
    rw [hsh] at hidx
    obtain ⟨ip, k, iq, a, b, c, rfl⟩ := index_split hidx
    refine ⟨ip ++ k :: iq, ?_⟩
    rw [h2]
    refine InRange_append a (List.Forall₂.cons ?_ b)
    have := padded_size n q.groupSize hgs
    omega
  obtain ⟨i1, ns, i2, i3, i4⟩ := int_of_codes (quantView q false tr x y) v s z h1 h3 (by rw [h4, h2]) h5 (by rw [h2]; exact h6) h7 hb ha hne' (by
    intro idx hidx
    rw [h2] at hidx
    obtain ⟨ip, k, iq, hip, hiq, hk, rfl⟩ := index_split hidx
    exact ⟨_, _, cd ip k iq, hsc ip k iq hip hiq hk, (h8 ip k iq hip hiq hk).2.1, (h8 ip k iq hip hiq hk).2.2, hvat ip k iq hip hiq hk,
      isCode_of_narrow (hcode ip k iq)⟩)
  refine ⟨quantView q false tr x y, v, ns, ?_, ?_, i1, i2, h2, i3, ?_⟩
  · rw [quantAct, hgd, hy, Option.map_some]
  · rw [QT.value, h1]; rfl
  · intro ip k iq hip hiq hk
    refine ⟨cd ip k iq, ?_, hcode ip k iq, hcd ip k iq, hvat ip k iq hip hiq hk⟩
    obtain ⟨sc, zp, m, j1, j2, j3, j4, j5⟩ := i4 (ip ++ k :: iq) (by rw [h2]; exact InRange_append hip (List.Forall₂.cons hk hiq))
    rw [(h8 ip k iq hip hiq hk).2.1] at j1
    rw [(h8 ip k iq hip hiq hk).2.2] at j2
    rw [hvat ip k iq hip hiq hk] at j3
    have e1 := Option.some.inj j1
    have e2 := Option.some.inj j2
    have e3 := Option.some.inj j3
    rw [← e1, ← e2] at e3
    have e4 := mul_right_cancel₀ (hsc ip k iq hip hiq hk) e3
    have e5 : ((cd ip k iq : ℤ) : K) = (m : K) := by linarith
    have e6 : cd ip k iq = m := by exact_mod_cast e5
    rw [j5, e6]

example : (quantAct Sample.groupQuantizer false false Sample.groupInput).bind (fun t => t.int (1 / 5)) =
    some ([2, 4], [4, 7, 7, 0, 6, 7, -7, 0]) := by decide +kernel

/-- an asymmetric group-wise quantiser: unsigned, zero point from the minimum of the group -/
example : (quantAct (⟨⟨false, false, torchRound⟩, fun l => max ((l.foldr max 0 - l.foldr min 0) / 15) (1 / 1000),
    .grouped (fun l => ((torchRound (-(l.foldr min 0) / max ((l.foldr max 0 - l.foldr min 0) / 15) (1 / 1000)) : ℤ) : ℚ)), 4, 2, 1⟩ : Quantizer ℚ)
    false false Sample.groupInput).bind (fun t => t.int (1 / 5)) = some ([2, 4], [8, 15, 15, 0, 12, 15, 0, 15]) := by decide +kernel

/-- C100. With a symmetric rounding quantiser, if the scale of each group of the tensor times the largest code covers the elements of the group (an
absolute-maximum scale does, see C10), quantisation moves no element by more than half the scale of its group. -/
theorem C100_half_step (q : Quantizer K) (tr : Bool) (x : Tensor K) (pre post : List ℕ) (n : ℕ) (hgs : 1 ≤ q.groupSize)
    (hgd : q.groupDim = pre.length) (hsh : x.shape = pre ++ n :: post) (hwf : x.WF) (hb : 2 ≤ q.bitWidth)
    (hr : q.cfg.floatToInt = torchRound) (hsg : q.cfg.signed = true) (hz : q.zeroPoint = .scalar 0)
    (hcov : ∀ ip k iq, InRange pre ip → InRange post iq → k < n → 0 < q.scaleOf (groupOf x n q.groupSize ip k iq) ∧
      ∀ w ∈ groupOf x n q.groupSize ip k iq, |w| ≤ q.scaleOf (groupOf x n q.groupSize ip k iq) * (2 ^ (q.bitWidth - 1) - 1)) :
    ∃ t v s, quantAct q false tr x = some t ∧ t.value = some v ∧ t.scale = some s ∧
      ∀ idx w, InRange x.shape idx → x.at idx = some w → ∃ y sc, v.at idx = some y ∧ s.at idx = some sc ∧ |y - w| ≤ sc / 2 := by
  obtain ⟨t, v, s, z, h1, h2, h3, h4, _, _, h5, h6, h7, _, h8⟩ := C100_value q tr x pre post n hgs hgd hsh hwf
  refine ⟨t, v, s, h1, h2, h3, ?_⟩
  intro idx w hidx hw
  rw [hsh] at hidx
  obtain ⟨ip, k, iq, hip, hiq, hk, rfl⟩ := index_split hidx
  have hkN : k < (n + q.groupSize - 1) / q.groupSize * q.groupSize := by
    have := padded_size n q.groupSize hgs
    omega
  obtain ⟨a1, a2, a3⟩ := h8 ip k iq hip hiq hkN
  obtain ⟨p1, p2⟩ := hcov ip k iq hip hiq hk
  have hel : element x n ip k iq = w := by rw [element, if_pos hk, hw]; rfl
  have hmem : w ∈ groupOf x n q.groupSize ip k iq := by
    rw [groupOf]
    refine List.mem_map.mpr ⟨k % q.groupSize, List.mem_range.mpr (Nat.mod_lt _ (by omega)), ?_⟩
    have e : k / q.groupSize * q.groupSize + k % q.groupSize = k := by rw [Nat.mul_comm]; exact Nat.div_add_mod _ _
    rw [e, hel]
  refine ⟨_, _, a1, a2, ?_⟩
  rw [hel, hz]
  have hw' := p2 w hmem
  set sc := q.scaleOf (groupOf x n q.groupSize ip k iq) with hscd
  have hdiv : |w / sc| ≤ 2 ^ (q.bitWidth - 1) - 1 := by
    rw [abs_div, abs_of_pos p1, div_le_iff₀ p1, mul_comm]; exact hw'
  obtain ⟨l1, l2⟩ := abs_le.mp hdiv
  refine forward_half_step_of_near q.cfg hr p1 (by omega) ?_ ?_
  · have : ((_root_.Spec.lo q.cfg.signed q.cfg.narrow q.bitWidth : ℤ) : K) ≤ -(2 ^ (q.bitWidth - 1) - 1) := by
      rw [hsg]
      have : _root_.Spec.lo true q.cfg.narrow q.bitWidth ≤ -(2 ^ (q.bitWidth - 1) - 1) := by
        cases q.cfg.narrow <;> simp [_root_.Spec.lo]
      exact_mod_cast this
    simp only [ZeroPoint.of]
    linarith
  · have : (2 ^ (q.bitWidth - 1) - 1 : K) ≤ ((_root_.Spec.hi q.cfg.signed q.cfg.narrow q.bitWidth : ℤ) : K) := by
      rw [hsg]
      have : (2 ^ (q.bitWidth - 1) - 1 : ℤ) ≤ _root_.Spec.hi true q.cfg.narrow q.bitWidth := by
        cases q.cfg.narrow <;> simp [_root_.Spec.hi]
      exact_mod_cast this
    simp only [ZeroPoint.of]
    linarith

/-- the sample scale covers a group and is positive -/
example : 0 < Sample.groupQuantizer.scaleOf [4, 5] ∧ ∀ w ∈ [(4 : ℚ), 5], |w| ≤ Sample.groupQuantizer.scaleOf [4, 5] * (2 ^ (4 - 1) - 1) := by
  decide +kernel

/-- C100. Groups are independent: two tensors of the same shape that agree on the group of an element give that element the same value, scale and
zero point, whatever the other elements are. -/
theorem C100_groups_independent (q : Quantizer K) (tr : Bool) (x x' : Tensor K) (pre post : List ℕ) (n : ℕ) (hgs : 1 ≤ q.groupSize)
    (hgd : q.groupDim = pre.length) (hsh : x.shape = pre ++ n :: post) (hwf : x.WF) (hsh' : x'.shape = pre ++ n :: post) (hwf' : x'.WF)
    (ip iq : List ℕ) (k : ℕ) (hip : InRange pre ip) (hiq : InRange post iq) (hk : k < n)
    (hag : ∀ k', k' < n → k' / q.groupSize = k / q.groupSize → x.at (ip ++ k' :: iq) = x'.at (ip ++ k' :: iq)) :
    ∃ t t' v v' s s' z z', quantAct q false tr x = some t ∧ quantAct q false tr x' = some t' ∧ t.value = some v ∧ t'.value = some v' ∧
      t.scale = some s ∧ t'.scale = some s' ∧ t.zeroPoint = some z ∧ t'.zeroPoint = some z' ∧
      v.at (ip ++ k :: iq) = v'.at (ip ++ k :: iq) ∧ s.at (ip ++ k :: iq) = s'.at (ip ++ k :: iq) ∧
      readAt z (ip ++ k :: iq) = readAt z' (ip ++ k :: iq) ∧ (v.at (ip ++ k :: iq)).isSome := by
  obtain ⟨t, v, s, z, h1, h2, h3, h4, _, _, h5, h6, h7, _, h8⟩ := C100_value q tr x pre post n hgs hgd hsh hwf
  obtain ⟨t', v', s', z', h1', h2', h3', h4', _, _, h5', h6', h7', _, h8'⟩ := C100_value q tr x' pre post n hgs hgd hsh' hwf'
  have hkN : k < (n + q.groupSize - 1) / q.groupSize * q.groupSize := by
    have := padded_size n q.groupSize hgs
    omega
  have hel : ∀ k', k' / q.groupSize = k / q.groupSize → element x n ip k' iq = element x' n ip k' iq := by
    intro k' h
    rw [element, element]
    by_cases hn : k' < n
    · rw [if_pos hn, if_pos hn, hag k' hn h]
    · rw [if_neg hn, if_neg hn]
  have hg : groupOf x n q.groupSize ip k iq = groupOf x' n q.groupSize ip k iq := by
    rw [groupOf, groupOf]
    apply List.map_congr_left
    intro j hj
    apply hel
    rw [Nat.mul_comm, Nat.mul_add_div (by omega), Nat.div_eq_of_lt (List.mem_range.mp hj), add_zero]
  obtain ⟨a1, a2, a3⟩ := h8 ip k iq hip hiq hkN
  obtain ⟨b1, b2, b3⟩ := h8' ip k iq hip hiq hkN
  refine ⟨t, t', v, v', s, s', z, z', h1, h1', h2, h2', h3, h3', h4, h4', ?_, ?_, ?_, ?_⟩
  · rw [a1, b1, hg, hel k rfl]
  · rw [a2, b2, hg]
  · rw [a3, b3, hg]
  · rw [a1]; rfl

example : ((quantAct Sample.groupQuantizer false false ⟨[2, 3], [1, 2, 3, 4, 5, -6]⟩).bind QT.value).bind (·.at [0, 1]) =
    ((quantAct Sample.groupQuantizer false false ⟨[2, 3], [1, 2, 100, 4, 50, -6]⟩).bind QT.value).bind (·.at [0, 1]) := by decide +kernel

/-- C100. With quantisation disabled, a plain tensor comes out with its elements unchanged, padded with zeros to a multiple of the group size. -/
theorem C100_disabled (q : Quantizer K) (tr : Bool) (x : Tensor K) (pre post : List ℕ) (n : ℕ) (hgs : 1 ≤ q.groupSize)
    (hgd : q.groupDim = pre.length) (hsh : x.shape = pre ++ n :: post) (hwf : x.WF) :
    ∃ u, actForward q false tr (.tensor x) = some (.tensor u) ∧
      u.shape = pre ++ ((n + q.groupSize - 1) / q.groupSize * q.groupSize) :: post ∧ u.WF ∧
      ∀ ip k iq, InRange pre ip → InRange post iq → k < (n + q.groupSize - 1) / q.groupSize * q.groupSize →
        u.at (ip ++ k :: iq) = if k < n then x.at (ip ++ k :: iq) else some 0 := by
  obtain ⟨y, hy, hv⟩ := viewed_dynamic x pre post n q.groupSize hgs hsh hwf
  obtain ⟨u, u1, u2, u3, u4⟩ := flattenPair_eq y pre post _ _ hv.shape
  refine ⟨u, ?_, u2, u3 hv.wf, ?_⟩
  · rw [actForward]
    simp only [Option.bind_some, Bool.false_eq_true, if_false, applyInputView, hgd, hy, startDim_nonneg, u1]
  · intro ip k iq hip hiq hk
    have hd : 0 < q.groupSize := hgs
    have hb : k / q.groupSize < (n + q.groupSize - 1) / q.groupSize := by rw [Nat.div_lt_iff_lt_mul hd]; exact hk
    have e : k / q.groupSize * q.groupSize + k % q.groupSize = k := by rw [Nat.mul_comm]; exact Nat.div_add_mod k _
    have U := u4 ip (k / q.groupSize) (k % q.groupSize) iq hip hiq
    rw [hv.elem ip _ _ iq hip hiq hb (Nat.mod_lt _ hd), e] at U
    rw [U, element]
    by_cases h : k < n
    · rw [if_pos h, if_pos h, at_some x hwf (by rw [hsh]; exact InRange_append hip (List.Forall₂.cons h hiq))]; rfl
    · rw [if_neg h, if_neg h]

/-- C100. With a zero zero point the padding stays zero. -/
theorem C100_padding_zero (q : Quantizer K) (tr : Bool) (x : Tensor K) (pre post : List ℕ) (n : ℕ) (hgs : 1 ≤ q.groupSize)
    (hgd : q.groupDim = pre.length) (hsh : x.shape = pre ++ n :: post) (hwf : x.WF) (hb : 1 ≤ q.bitWidth)
    (hr : Shipped q.cfg.floatToInt) (hz : q.zeroPoint = .scalar 0) :
    ∃ t v, quantAct q false tr x = some t ∧ t.value = some v ∧
      ∀ ip k iq, InRange pre ip → InRange post iq → n ≤ k → k < (n + q.groupSize - 1) / q.groupSize * q.groupSize →
        v.at (ip ++ k :: iq) = some 0 := by
  obtain ⟨t, v, s, z, h1, h2, h3, h4, _, _, h5, h6, h7, _, h8⟩ := C100_value q tr x pre post n hgs hgd hsh hwf
  refine ⟨t, v, h1, h2, ?_⟩
  intro ip k iq hip hiq hn hk
  rw [(h8 ip k iq hip hiq hk).1, element, if_neg (by omega), hz, ZeroPoint.of]
  simp only [IntQuantCfg.forward]
  rw [toInt_eq_code q.cfg _ _ hb, zero_div, zero_add]
  have h0 : q.cfg.floatToInt 0 = 0 := by
    have := hr.faithful.int 0
    simpa using this
  rw [h0, code_of_isCode]
  · simp
  · have hp : (1 : ℤ) ≤ 2 ^ (q.bitWidth - 1) := one_le_pow₀ (by norm_num)
    have hp' : (1 : ℤ) ≤ 2 ^ q.bitWidth := one_le_pow₀ (by norm_num)
    have hp2 : (2 : ℤ) ^ q.bitWidth = 2 * 2 ^ (q.bitWidth - 1) := by rw [← pow_succ']; congr 1; omega
    constructor <;> cases q.cfg.signed <;> cases q.cfg.narrow <;> simp [_root_.Spec.lo, _root_.Spec.hi] <;> omega

/-! ### What fails -/

/-- C100, what fails: while activations are calibrated (`observer_only`), the quant tensor that the group-wise activation returns cannot be read, for
any tensor: the value has not been viewed but the scale has the rank of the view. -/
theorem C100_calibration_unreadable (q : Quantizer K) (tr : Bool) (x : Tensor K) (pre post : List ℕ) (n : ℕ) (hgs : 1 ≤ q.groupSize)
    (hgd : q.groupDim = pre.length) (hsh : x.shape = pre ++ n :: post) (hwf : x.WF) :
    ∃ t, quantAct q true tr x = some t ∧ t.value = none ∧ t.scale = none := by
  obtain ⟨y, hy, hv⟩ := viewed_dynamic x pre post n q.groupSize hgs hsh hwf
  refine ⟨quantView q true tr x y, by rw [quantAct, hgd, hy, Option.map_some], ?_⟩
  have he : (quantView q true tr x y).expand = none := by
    have hrl : (reduceKeepdim q.scaleOf y (pre.length + 1)).shape.length = x.shape.length + 1 := by
      rw [reduceKeepdim]; simp [hv.shape, hsh]; omega
    have hm : expandMeta x (reduceKeepdim q.scaleOf y (pre.length + 1)) (startDim x.shape.length q.groupDim) = none := by
      rw [expandMeta, if_pos (by intro h; rw [h] at hrl; simp at hrl), if_neg]
      rw [expandable, hrl]
      simp
    have hrd : statsReduceDim y.shape.length q.groupDim = pre.length + 1 := by rw [hgd]; exact statsReduceDim_nonneg _ _
    simp only [QT.expand, quantView, hrd, if_true]
    cases flattenPair x (startDim x.shape.length q.groupDim) with
    | none => rfl
    | some u => simp only [Option.bind_some, hm, Option.bind_none]
  exact ⟨by rw [QT.value, he]; rfl, by rw [QT.scale, he]; rfl⟩

/-- C100, what fails: a disabled quantiser that is given a group-wise quant tensor returns a quant tensor that cannot be read if the grouped dimension
is the last one, since the value is flattened twice. -/
theorem C100_passthrough_unreadable (q : Quantizer K) (tr tr' : Bool) (x : Tensor K) (pre : List ℕ) (n : ℕ) (hgs : 1 ≤ q.groupSize)
    (hgd : q.groupDim = pre.length) (hsh : x.shape = pre ++ [n]) (hwf : x.WF) :
    ∃ t u, quantAct q false tr x = some t ∧ actForward q false tr' (.quant t) = some (.quant u) ∧ u.value = none := by
  obtain ⟨t, v, s, z, h1, h2, h3, h4, _, _, h5, h6, h7, _, h8⟩ := C100_value q tr x pre [] n hgs hgd hsh hwf
  obtain ⟨w, w1, w2, _⟩ := C100_disabled q tr' v pre [] _ hgs hgd h5 h6
  have ha : applyInputView q v = some w := by
    rw [actForward] at w1
    simp only [Option.bind_some, Bool.false_eq_true, if_false] at w1
    cases hh : applyInputView q v with
    | none => rw [hh] at w1; simp at w1
    | some w' => rw [hh] at w1; simp at w1; rw [w1]
  refine ⟨t, ⟨w, s, z, q.groupSize, q.groupDim, t.bitWidth, t.signed, tr'⟩, h1, ?_, ?_⟩
  · rw [actForward]
    simp only [h2, Option.bind_some, Bool.false_eq_true, if_false, ha, h3, h4, Option.map_some]
  · rw [QT.value, QT.expand]
    simp only [hgd, startDim_nonneg]
    rw [flattenPair, if_neg]
    · rfl
    · rw [w2]; simp

/-- C100, what fails: with a dimension after the grouped one, the disabled quantiser merges that dimension too: the shape of a 1 × 2 × 2 tensor becomes
1 × 4. -/
theorem C100_passthrough_reshapes :
    ((quantAct Sample.groupQuantizer false false ⟨[1, 2, 2], [1, 2, 3, 4]⟩).bind fun t => actForward Sample.groupQuantizer false false (.quant t)).bind
      (fun o => match o with | .quant t => t.value | .tensor _ => none) = some ⟨[1, 4], [6 / 7, 16 / 7, 3, 4]⟩ := by decide +kernel

/-- C100, what fails: caching the metadata of a group-wise activation in evaluation mode (the default of `cache_inference_quant_act`) always raises:
the field that is reset does not exist. Caching the whole tensor works. -/
theorem C100_metadata_cache_raises (q : Quantizer K) (x : Tensor K) (pre post : List ℕ) (n : ℕ) (hgs : 1 ≤ q.groupSize)
    (hgd : q.groupDim = pre.length) (hsh : x.shape = pre ++ n :: post) (hwf : x.WF) :
    actForwardCached q true x = .error .valueError ∧ ∃ t, quantAct q false false x = some t ∧ actForwardCached q false x = .ok t := by
  obtain ⟨t, v, s, z, h1, h2, _⟩ := C100_value q false x pre post n hgs hgd hsh hwf
  refine ⟨?_, t, h1, ?_⟩
  · rw [actForwardCached, h1]
    simp only [cachedIO, h2, if_true, setField]
    rw [if_neg (by decide)]
    rfl
  · rw [actForwardCached, h1]
    simp only [cachedIO, h2, Bool.false_eq_true, if_false]
    rfl

/-- C100, what fails: a group-wise integer quant tensor can be neither negated nor subtracted, and its absolute value raises if it is signed. -/
theorem C100_negation_raises (t u : QT K) :
    Group.neg t = .error (.attributeError "minifloat") ∧ Group.sub u t = .error (.attributeError "minifloat") ∧
    (t.signed = true → Group.abs t = .error (.attributeError "minifloat")) := by
  have h : Group.getattr "minifloat" = .error (.attributeError "minifloat") := by
    rw [Group.getattr, if_neg (by decide)]
  refine ⟨?_, ?_, ?_⟩
  · rw [Group.neg, h]; rfl
  · rw [Group.sub, Group.neg, h]; rfl
  · intro hs
    rw [Group.abs, if_pos hs, h]; rfl

end Brevitas.Props
