import Verif.Model.GroupFloat
import Verif.Props.GroupQuant
import Verif.Props.FloatPreset
import Verif.Props.Scaling

/-!
# C110, C111: group-wise minifloat quantisation and arithmetic

`element`, `groupOf` and `InRange` (`Verif.Spec`), `FormatValue` and `standardBias` of C109, `Spec.IsClosest` and `IsGreatest` of Mathlib are all that the statements use beside the model.
-/

set_option linter.unusedSectionVars false

namespace Brevitas.Props

open Brevitas.Spec Brevitas.Group FloatPreset
open Brevitas.ChannelScale (PerOutput)

section Generic

variable {K : Type*} [Field K] [LinearOrder K] [IsStrictOrderedRing K] [FloorRing K]

/-- E2M1 (values 0, 1/2, 1, 3/2, 2, 3, 4, 6) in groups of 2 along dimension 1, scaled by the largest absolute value of the group. -/
def Sample.floatGroups : GroupFloat.Quantizer ℚ :=
  ⟨⟨2, 1, 1, true, true, none, none, none, torchRound, 1 / 1000⟩, fun l => max ((l.map fun v => |v|).foldr max 0 / 6) (1 / 1000), 2, 1⟩

/-- Value, scale and zero point of the quant tensor of a viewed tensor. -/
theorem floatView_spec (q : GroupFloat.Quantizer K) (tr : Bool) (x y : Tensor K) (pre post : List ℕ) (n a d : ℕ) (hy : Viewed x y pre post n a d)
    (hst : startDim y.shape.length q.groupDim = pre.length) (hrd : statsReduceDim y.shape.length q.groupDim = pre.length + 1) :
    ∃ v s, (GroupFloat.quantView q tr y).expand = some (v, s, ⟨[], [0]⟩) ∧ v.shape = pre ++ (a * d) :: post ∧ v.WF ∧ s.shape = pre ++ (a * d) :: post ∧ s.WF ∧
      ∀ ip k iq, Spec.InRange pre ip → Spec.InRange post iq → k < a * d →
        v.at (ip ++ k :: iq) = some (q.cfg.forwardSat (q.scaleOf (groupOf x n d ip k iq)) (element x n ip k iq)) ∧
        s.at (ip ++ k :: iq) = some (q.scaleOf (groupOf x n d ip k iq)) := by
  set sc := reduceKeepdim q.scaleOf y (pre.length + 1) with hsc
  set val := GroupFloat.forwardT q.cfg sc y with hval
  have hqv : GroupFloat.quantView q tr y = ⟨val, sc, ⟨[], [0]⟩, q.groupSize, q.groupDim, q.cfg.E, q.cfg.M, q.cfg.bias, q.cfg.signed, tr⟩ := by
    simp only [GroupFloat.quantView, hrd]
    rfl
  have hvs : val.shape = y.shape := rfl
  obtain ⟨v, v1, v2, v3, v4⟩ := flattenPair_eq val pre post a d (by rw [hvs, hy.shape])
  obtain ⟨s, s1, s2, s3, s4⟩ := expandMeta_reduce q.scaleOf x y val pre post n a d hy hvs
  have hlen : pre.length + 1 = (pre ++ [a]).length := by simp
  have hys : y.shape = (pre ++ [a]) ++ d :: post := by rw [hy.shape]; simp
  have hgrp : ∀ ip b j iq, Spec.InRange pre ip → Spec.InRange post iq → b < a → j < d →
      (sc.expandTo y.shape).at (ip ++ b :: j :: iq) = some (q.scaleOf (groupOf x n d ip (b * d + j) iq)) := by
    intro ip b j iq hip hiq hb hj
    have hip' : Spec.InRange (pre ++ [a]) (ip ++ [b]) := InRange_append hip (List.Forall₂.cons hb List.Forall₂.nil)
    have := reduce_expand_at q.scaleOf y (pre ++ [a]) post d hys hip' hiq hj
    simp only [List.append_assoc, List.singleton_append] at this
    rw [hsc, hlen, this, groupOf]
    congr 2
    apply List.map_congr_left
    intro j' hj'
    have hj'' := List.mem_range.mp hj'
    rw [hy.elem ip b j' iq hip hiq hb hj'', Option.getD_some]
    have : (b * d + j) / d = b := by
      rw [Nat.mul_comm, Nat.mul_add_div (by omega), Nat.div_eq_of_lt hj, add_zero]
    rw [this]
  refine ⟨v, s, ?_, v2, v3 (zipBc_wf _ _ _ hy.wf), s2, s3, ?_⟩
  · rw [hqv, GroupFloat.QT.expand]
    simp only [hvs, hst]
    rw [v1, Option.bind_some, s1, Option.bind_some]
    rfl
  · intro ip k iq hip hiq hk
    have hd : 0 < d := by
      rcases Nat.eq_zero_or_pos d with h | h
      · rw [h] at hk; omega
      · exact h
    have hb : k / d < a := by rw [Nat.div_lt_iff_lt_mul hd]; exact hk
    have hj : k % d < d := Nat.mod_lt _ hd
    have e : k / d * d + k % d = k := by rw [Nat.mul_comm]; exact Nat.div_add_mod k d
    have V := v4 ip (k / d) (k % d) iq hip hiq
    have S := s4 ip (k / d) (k % d) iq hip hiq hb hj
    have G := hgrp ip (k / d) (k % d) iq hip hiq hb hj
    have Y := hy.elem ip (k / d) (k % d) iq hip hiq hb hj
    have F := zipBc_at (fun v s => q.cfg.forwardSat s v) y sc hy.wf (idx := ip ++ k / d :: k % d :: iq)
      (by rw [hy.shape]; exact InRange_append hip (List.Forall₂.cons hb (List.Forall₂.cons hj hiq)))
    rw [G, Y] at F
    rw [e] at V S F
    refine ⟨?_, S⟩
    rw [V, hval, GroupFloat.forwardT]
    simpa only [Option.getD_some] using F

/-- C110. For a non-negative group dimension and every tensor of any rank and sizes: value and scale of the quant tensor have the shape of the input with the grouped dimension rounded up to a
multiple of the group size, the zero point is the number 0, and the value at each index is the input at that index (zero in the padding) quantised with the scale that is made of the elements of its
own group, the block of `group_size` consecutive elements that contains it. -/
theorem C110_value (q : GroupFloat.Quantizer K) (tr : Bool) (x : Tensor K) (pre post : List ℕ) (n : ℕ) (hgs : 1 ≤ q.groupSize)
    (hgd : q.groupDim = pre.length) (hsh : x.shape = pre ++ n :: post) (hwf : x.WF) :
    ∃ t v s, GroupFloat.quantAct q tr x = some t ∧ t.value = some v ∧ t.scale = some s ∧ t.zeroPoint = some ⟨[], [0]⟩ ∧
      t.E = q.cfg.E ∧ t.M = q.cfg.M ∧ t.bias = q.cfg.bias ∧ t.signed = q.cfg.signed ∧
      v.shape = pre ++ ((n + q.groupSize - 1) / q.groupSize * q.groupSize) :: post ∧ v.WF ∧ s.shape = v.shape ∧ s.WF ∧
      ∀ ip k iq, Spec.InRange pre ip → Spec.InRange post iq → k < (n + q.groupSize - 1) / q.groupSize * q.groupSize →
        v.at (ip ++ k :: iq) = some (q.cfg.forwardSat (q.scaleOf (groupOf x n q.groupSize ip k iq)) (element x n ip k iq)) ∧
        s.at (ip ++ k :: iq) = some (q.scaleOf (groupOf x n q.groupSize ip k iq)) := by
  obtain ⟨y, hy, hv⟩ := viewed_dynamic x pre post n q.groupSize hgs hsh hwf
  obtain ⟨v, s, h1, h2, h3, h4, h5, h6⟩ := floatView_spec q tr x y pre post n _ _ hv
    (by rw [hgd]; exact startDim_nonneg _ _) (by rw [hgd]; exact statsReduceDim_nonneg _ _)
  refine ⟨GroupFloat.quantView q tr y, v, s, ?_, ?_, ?_, ?_, rfl, rfl, rfl, rfl, h2, h3, by rw [h4, h2], h5, h6⟩
  · rw [GroupFloat.quantAct, hgd, hy, Option.map_some]
  · rw [GroupFloat.QT.value, h1]; rfl
  · rw [GroupFloat.QT.scale, h1]; rfl
  · rw [GroupFloat.QT.zeroPoint, h1]; rfl

example : (GroupFloat.quantAct Sample.floatGroups false Sample.groupInput).bind GroupFloat.QT.expand =
    some (⟨[2, 4], [1, 2, 3, 0, 10 / 3, 5, -6, 0]⟩, ⟨[2, 4], [1 / 3, 1 / 3, 1 / 2, 1 / 2, 5 / 6, 5 / 6, 1, 1]⟩, ⟨[], [0]⟩) := by
  decide +kernel

/-- C110. With a format of a standard, if scales are positive (`scaling_min_val` ensures it) and the smallest normal number of the data type is less than half the smallest number of the format:
every value is a number of the format times the scale of its group, as near to the input as any such; the padding stays zero; and if the largest number of the format times the scale covers the
group, the value is within half a unit in the last place of the input. -/
theorem C110_nearest (q : GroupFloat.Quantizer K) (tr : Bool) (x : Tensor K) (pre post : List ℕ) (n : ℕ) (hgs : 1 ≤ q.groupSize)
    (hgd : q.groupDim = pre.length) (hsh : x.shape = pre ++ n :: post) (hwf : x.WF) {std : Standard} {E M : ℕ} (D : Describes q.cfg std E M)
    (hsmall : q.cfg.eps < 2 ^ (1 - standardBias std E - M) / 2) (hpos : ∀ g, 0 < q.scaleOf g) :
    ∃ t v s, GroupFloat.quantAct q tr x = some t ∧ t.value = some v ∧ t.scale = some s ∧ t.E = E ∧ t.M = M ∧ t.bias = standardBias std E ∧ t.signed = true ∧
      ∀ ip k iq, Spec.InRange pre ip → Spec.InRange post iq → k < (n + q.groupSize - 1) / q.groupSize * q.groupSize →
        ∃ y sc, v.at (ip ++ k :: iq) = some y ∧ s.at (ip ++ k :: iq) = some sc ∧ sc = q.scaleOf (groupOf x n q.groupSize ip k iq) ∧
          _root_.Spec.IsClosest (fun y => ∃ v, FormatValue std E M v ∧ y = v * sc) (element x n ip k iq) y ∧
          (n ≤ k → y = 0) ∧
          ∀ top, IsGreatest {v : K | FormatValue std E M v} top → (∀ w ∈ groupOf x n q.groupSize ip k iq, |w| ≤ top * sc) →
            |y - element x n ip k iq| ≤ max (|element x n ip k iq| / 2 ^ (M + 1)) (sc * 2 ^ (1 - standardBias std E - M) / 2) := by
  obtain ⟨t, v, s, h1, h2, h3, -, h5, h6, h7, h8, -, -, -, -, h9⟩ := C110_value q tr x pre post n hgs hgd hsh hwf
  refine ⟨t, v, s, h1, h2, h3, h5.trans D.exponent, h6.trans D.mantissa, h7.trans D.bias, h8.trans D.signed, ?_⟩
  intro ip k iq hip hiq hk
  obtain ⟨a1, a2⟩ := h9 ip k iq hip hiq hk
  have hse : SmallEps q.cfg := by
    rw [SmallEps, D.bias, D.mantissa, zpow_sub₀ (by norm_num) _ 1, zpow_one]; exact hsmall
  have hcl := C23_nearest_partial q.cfg D.ok hse (Or.inl D.round) (q.scaleOf (groupOf x n q.groupSize ip k iq)) (hpos _) (element x n ip k iq)
  have hgr : FloatGrid q.cfg (q.scaleOf (groupOf x n q.groupSize ip k iq)) = fun y => ∃ v, FormatValue std E M v ∧ y = v * q.scaleOf (groupOf x n q.groupSize ip k iq) := by
    funext y
    simp only [FloatGrid, ← D.values, eq_iff_iff]
    exact ⟨fun ⟨v, a, b, e⟩ => ⟨v, ⟨a, b⟩, e⟩, fun ⟨v, ⟨a, b⟩, e⟩ => ⟨v, a, b, e⟩⟩
  rw [hgr] at hcl
  refine ⟨_, _, a1, a2, rfl, hcl, ?_, ?_⟩
  · intro hn
    have h0 : FormatValue (K := K) std E M 0 := by
      have hE := D.ok.expWidth
      rw [D.exponent] at hE
      refine ⟨0, 0, ⟨by positivity, by positivity, fun _ => ⟨fun _ => by omega, fun _ => by omega⟩⟩, Or.inl ?_⟩
      simp [_root_.Spec.floatValue]
    have he : element x n ip k iq = 0 := by rw [element, if_neg (by omega)]
    have := hcl.2 0 ⟨0, h0, by ring⟩
    rw [he, sub_self, abs_zero, zero_sub, abs_neg] at this
    rw [he]
    exact abs_eq_zero.1 (le_antisymm this (abs_nonneg _))
  · intro top htop hcov
    have hT : top = q.cfg.maxValue := htop.unique D.top
    have hmem : element x n ip k iq ∈ groupOf x n q.groupSize ip k iq := by
      rw [groupOf]
      refine List.mem_map.mpr ⟨k % q.groupSize, List.mem_range.mpr (Nat.mod_lt _ (by omega)), ?_⟩
      have e : k / q.groupSize * q.groupSize + k % q.groupSize = k := by rw [Nat.mul_comm]; exact Nat.div_add_mod _ _
      rw [e]
    have hx := hcov _ hmem
    rw [hT] at hx
    have := C23_error_partial q.cfg D.ok hse (Or.inl D.round) _ (hpos _) (element x n ip k iq) hx (fun _ => D.signed)
    rwa [D.bias, D.mantissa] at this

/-- C110. A group-wise weight is quantised (or, disabled, viewed) as an activation with the same data would be. -/
theorem C110_weight (q : GroupFloat.Quantizer K) (tr : Bool) (x : Tensor K) (pre post : List ℕ) (n : ℕ) (hgs : 1 ≤ q.groupSize)
    (hgd : q.groupDim = pre.length) (hsh : x.shape = pre ++ n :: post) (hwf : x.WF) (enabled : Bool) :
    GroupFloat.weightForward q enabled tr x = GroupFloat.actForward q enabled tr (.tensor x) := by
  have h : overSubChannelBlockView (expandedGroupwiseShape x.shape q.groupSize q.groupDim.toNat) q.groupSize q.groupDim x =
      dynamicOverSubChannelBlockView q.groupSize q.groupDim x := by
    rw [hgd]
    exact C35_static_agrees x pre post n q.groupSize hgs hsh hwf
  rw [GroupFloat.weightForward, GroupFloat.actForward]
  simp only [Option.bind_some]
  cases enabled
  · simp only [Bool.false_eq_true, if_false, GroupFloat.applyInputView, h]
    cases hh : (dynamicOverSubChannelBlockView q.groupSize q.groupDim x).bind fun y => flattenPair y (startDim y.shape.length q.groupDim) <;> rfl
  · simp only [if_true, GroupFloat.quantWeight, GroupFloat.quantAct, h]

/-- C110. An enabled proxy quantises a plain tensor as above. -/
theorem C110_enabled (q : GroupFloat.Quantizer K) (tr : Bool) (x : Tensor K) :
    GroupFloat.actForward q true tr (.tensor x) = (GroupFloat.quantAct q tr x).map .quant := rfl

/-- C110. With quantisation disabled, a plain tensor comes out with its elements unchanged, padded with zeros to a multiple of the group size. -/
theorem C110_disabled (q : GroupFloat.Quantizer K) (tr : Bool) (x : Tensor K) (pre post : List ℕ) (n : ℕ) (hgs : 1 ≤ q.groupSize)
    (hgd : q.groupDim = pre.length) (hsh : x.shape = pre ++ n :: post) (hwf : x.WF) :
    ∃ u, GroupFloat.actForward q false tr (.tensor x) = some (.tensor u) ∧
      u.shape = pre ++ ((n + q.groupSize - 1) / q.groupSize * q.groupSize) :: post ∧ u.WF ∧
      ∀ ip k iq, Spec.InRange pre ip → Spec.InRange post iq → k < (n + q.groupSize - 1) / q.groupSize * q.groupSize →
        u.at (ip ++ k :: iq) = if k < n then x.at (ip ++ k :: iq) else some 0 := by
  obtain ⟨y, hy, hv⟩ := viewed_dynamic x pre post n q.groupSize hgs hsh hwf
  obtain ⟨u, u1, u2, u3, u4⟩ := flattenPair_eq y pre post _ _ hv.shape
  refine ⟨u, ?_, u2, u3 hv.wf, ?_⟩
  · rw [GroupFloat.actForward]
    simp only [Option.bind_some, Bool.false_eq_true, if_false, GroupFloat.applyInputView, hgd, hy, startDim_nonneg, u1]
  · intro ip k iq hip hiq hk
    have hd : 0 < q.groupSize := hgs
    have hb : k / q.groupSize < (n + q.groupSize - 1) / q.groupSize := by rw [Nat.div_lt_iff_lt_mul hd]; exact hk
    have e : k / q.groupSize * q.groupSize + k % q.groupSize = k := by rw [Nat.mul_comm]; exact Nat.div_add_mod k _
    have U := u4 ip (k / q.groupSize) (k % q.groupSize) iq hip hiq
    rw [hv.elem ip _ _ iq hip hiq hb (Nat.mod_lt _ hd), e] at U
    rw [U, element]
    by_cases h : k < n
    · rw [if_pos h, if_pos h, at_some x hwf (by rw [hsh]; exact InRange_append hip (List.Forall₂.cons h hiq))]; rfl
    · rw [if_neg h, if_neg h]

example : GroupFloat.weightForward Sample.floatGroups true false Sample.groupInput ≠ none ∧
    GroupFloat.weightForward Sample.floatGroups false false Sample.groupInput = some (.tensor ⟨[2, 4], [1, 2, 3, 0, 4, 5, -6, 0]⟩) := by
  constructor <;> decide +kernel

/-- C110. Groups are independent: two tensors of the same shape that agree on the group of an element give that element the same value and scale. -/
theorem C110_groups_independent (q : GroupFloat.Quantizer K) (tr : Bool) (x x' : Tensor K) (pre post : List ℕ) (n : ℕ) (hgs : 1 ≤ q.groupSize)
    (hgd : q.groupDim = pre.length) (hsh : x.shape = pre ++ n :: post) (hwf : x.WF) (hsh' : x'.shape = pre ++ n :: post) (hwf' : x'.WF)
    (ip iq : List ℕ) (k : ℕ) (hip : Spec.InRange pre ip) (hiq : Spec.InRange post iq) (hk : k < n)
    (hag : ∀ k', k' < n → k' / q.groupSize = k / q.groupSize → x.at (ip ++ k' :: iq) = x'.at (ip ++ k' :: iq)) :
    ∃ t t' v v' s s', GroupFloat.quantAct q tr x = some t ∧ GroupFloat.quantAct q tr x' = some t' ∧ t.value = some v ∧ t'.value = some v' ∧
      t.scale = some s ∧ t'.scale = some s' ∧ v.at (ip ++ k :: iq) = v'.at (ip ++ k :: iq) ∧ s.at (ip ++ k :: iq) = s'.at (ip ++ k :: iq) ∧
      (v.at (ip ++ k :: iq)).isSome := by
  obtain ⟨t, v, s, h1, h2, h3, -, -, -, -, -, -, -, -, -, h8⟩ := C110_value q tr x pre post n hgs hgd hsh hwf
  obtain ⟨t', v', s', h1', h2', h3', -, -, -, -, -, -, -, -, -, h8'⟩ := C110_value q tr x' pre post n hgs hgd hsh' hwf'
  have hkN : k < (n + q.groupSize - 1) / q.groupSize * q.groupSize := by
    have := padded_size n q.groupSize hgs
    omega
  have hel : ∀ k', k' / q.groupSize = k / q.groupSize → element x n ip k' iq = element x' n ip k' iq := by
    intro k' h
    rw [element, element]
    by_cases hn : k' < n
    · rw [if_pos hn, if_pos hn, hag k' hn h]
    · rw [if_neg hn, if_neg hn]
  have hg : groupOf x n q.groupSize ip k iq = groupOf x' n q.groupSize ip k iq := by
    rw [groupOf, groupOf]
    apply List.map_congr_left
    intro j hj
    apply hel
    rw [Nat.mul_comm, Nat.mul_add_div (by omega), Nat.div_eq_of_lt (List.mem_range.mp hj), add_zero]
  obtain ⟨a1, a2⟩ := h8 ip k iq hip hiq hkN
  obtain ⟨b1, b2⟩ := h8' ip k iq hip hiq hkN
  refine ⟨t, t', v, v', s, s', h1, h1', h2, h2', h3, h3', ?_, ?_, ?_⟩
  · rw [a1, b1, hg, hel k rfl]
  · rw [a2, b2, hg]
  · rw [a1]; rfl

/-- C110, what fails for the last dimension (`group_dim = -1`): with groups of 4 over 8 features the first four features do not share a scale. -/
theorem C110_last_dim_groups_wrong :
    (GroupFloat.quantAct { Sample.floatGroups with groupSize := 4, groupDim := -1 } false ⟨[1, 8], [1, 2, 3, 4, 5, 6, 7, 8]⟩).bind GroupFloat.QT.scale =
      some ⟨[1, 8], [1 / 3, 1 / 3, 2 / 3, 2 / 3, 1, 1, 4 / 3, 4 / 3]⟩ := by decide +kernel

/-- C110, what fails for quant tensors passing a disabled proxy: what comes out has no readable value. -/
theorem C110_passthrough_unreadable :
    ((GroupFloat.actForward Sample.floatGroups true false (.tensor Sample.groupInput)).bind (GroupFloat.actForward Sample.floatGroups false false)).isSome = true ∧
      ∀ t, (GroupFloat.actForward Sample.floatGroups true false (.tensor Sample.groupInput)).bind (GroupFloat.actForward Sample.floatGroups false false) = some (.quant t) →
        t.value = none := by
  constructor
  · decide +kernel
  · intro t ht
    have h : ((GroupFloat.actForward Sample.floatGroups true false (.tensor Sample.groupInput)).bind (GroupFloat.actForward Sample.floatGroups false false)).bind (fun o => match o with
      | .quant t => some t.value
      | .tensor _ => none) = some none := by decide +kernel
    rw [ht] at h
    exact Option.some.inj h

/-! ### C111: arithmetic -/

/-- C111, the part that holds: the sum, product or quotient of two group-wise quantised tensors of the same shape is, at each index, that of their values. Missing: differences, negation, absolute
values, `minifloat()` and `is_valid`, which raise (`C111_minifloat_raises`). -/
theorem C111_arithmetic_partial (op : K → K → K) (a b : GroupFloat.QT K) (v w : Tensor K) (ha : a.value = some v) (hb : b.value = some w) (hv : v.WF) (hw : w.WF) (hs : v.shape = w.shape) :
    ∃ r, GroupFloat.QT.arith op a b = some r ∧ r.shape = v.shape ∧ r.WF ∧
      ∀ idx, Spec.InRange v.shape idx → ∃ p q, v.at idx = some p ∧ w.at idx = some q ∧ r.at idx = some (op p q) := by
  refine ⟨zipBc op v w, by rw [GroupFloat.QT.arith, ha, hb]; rfl, rfl, zipBc_wf _ _ _ hv, ?_⟩
  intro idx hi
  have h1 := zipBc_at op v w hv hi
  rw [hs, expandTo_self_at w (by rw [← hs]; exact hi)] at h1
  exact ⟨_, _, at_some v hv hi, at_some w hw (by rw [← hs]; exact hi), h1⟩

/-- C111, the part that holds: the absolute value of an unsigned tensor is the tensor. -/
theorem C111_abs_unsigned_partial (t : GroupFloat.QT K) (h : t.signed = false) : t.abs = some t := by
  rw [GroupFloat.QT.abs, h]; rfl

/-- C111, what fails: `is_valid` and `minifloat()` of every group-wise minifloat tensor, and so its negation, its absolute value if it is signed, and every difference with it on the right, raise. -/
theorem C111_minifloat_raises (t : GroupFloat.QT K) : t.isValid = none ∧ t.minifloat = none ∧ t.neg = none ∧ (t.signed = true → t.abs = none) ∧ ∀ a : GroupFloat.QT K, a.sub t = none := by
  have h1 : t.isValid = none := by
    rw [GroupFloat.QT.isValid, GroupFloat.QT.preRound]
    cases t.expand <;> rfl
  have h2 : t.minifloat = none := h1
  have h3 : t.neg = none := by rw [GroupFloat.QT.neg, h2]; rfl
  refine ⟨h1, h2, h3, ?_, ?_⟩
  · intro h; rw [GroupFloat.QT.abs, h, h2]; rfl
  · intro a; rw [GroupFloat.QT.sub, h3]; rfl

example : ((GroupFloat.quantAct Sample.floatGroups false Sample.groupInput).bind fun t => t.arith (fun x y => x + y) t) =
    some ⟨[2, 4], [2, 4, 6, 0, 20 / 3, 10, -12, 0]⟩ := by decide +kernel

end Generic

/-! ### MX quantisers -/

section Real

/-- The settings of the MX quantisers describe their format. -/
theorem mx_cfg {E M : ℕ} (hE : E ≠ 0) (hM : M ≠ 0) {eps : ℝ} (he : 0 < eps) :
    ∃ c, (FloatPreset.base .ocp true (E + M + 1) E M .tensor : FloatPreset.Settings ℝ).cfg eps = some c ∧ c.eps = eps ∧ Describes c .ocp E M :=
  cfg_describes (m := 1 / 10 ^ 10) ⟨rfl, rfl, rfl, rfl, ⟨hE, hM⟩, rfl, rfl, rfl, Or.inl rfl, rfl, rfl, rfl⟩ he

/-- The peak of a group. -/
theorem groupPeak_spec {g : List ℝ} (h : g ≠ []) : IsGreatest {a | ∃ w ∈ g, a = |w|} (GroupFloat.groupPeak g) := by
  obtain ⟨m, h1, ⟨x, hx, rfl⟩, h3⟩ := absMax_spec h
  rw [GroupFloat.groupPeak, h1]
  exact ⟨⟨x, hx, rfl⟩, by rintro _ ⟨w, hw, rfl⟩; exact h3 w hw⟩

/-- C110, MX weights: an `EeMm` MX weight quantiser with groups of `size` gives every weight, of any shape, the closest number of the OCP format times the scale of its group, within half a unit in the last
place; the scale is at least the largest absolute value of the group divided by the largest number of the format, and it is the smallest power of two that is, unless that quotient is below `1e-10`. -/
theorem C110_mx_weight {E M : ℕ} (hE : E ≠ 0) (hM : M ≠ 0) {eps : ℝ} (he : 0 < eps) (hsmall : eps < 2 ^ (1 - standardBias .ocp E - M) / 2) (tr : Bool) (x : Tensor ℝ) (pre post : List ℕ)
    (n size : ℕ) (hgs : 1 ≤ size) (hsh : x.shape = pre ++ n :: post) (hwf : x.WF) :
    ∃ q t v s top, GroupFloat.mxWeight E M eps size pre.length = some q ∧ GroupFloat.weightForward q true tr x = some (.quant t) ∧ t.value = some v ∧ t.scale = some s ∧
      t.E = E ∧ t.M = M ∧ t.bias = standardBias .ocp E ∧ t.signed = true ∧ IsGreatest {v : ℝ | FormatValue .ocp E M v} top ∧
      ∀ ip k iq, Spec.InRange pre ip → Spec.InRange post iq → k < (n + size - 1) / size * size →
        ∃ y sc peak, v.at (ip ++ k :: iq) = some y ∧ s.at (ip ++ k :: iq) = some sc ∧ 0 < sc ∧ IsGreatest {a | ∃ w ∈ groupOf x n size ip k iq, a = |w|} peak ∧ peak / top ≤ sc ∧
          (1 / 10 ^ 10 ≤ peak / top → ∃ j : ℤ, sc = 2 ^ j ∧ ∀ i : ℤ, peak / top ≤ 2 ^ i → j ≤ i) ∧
          _root_.Spec.IsClosest (fun y => ∃ v, FormatValue .ocp E M v ∧ y = v * sc) (element x n ip k iq) y ∧
          |y - element x n ip k iq| ≤ max (|element x n ip k iq| / 2 ^ (M + 1)) (sc * 2 ^ (1 - standardBias .ocp E - M) / 2) := by
  obtain ⟨c, hc, hceps, D⟩ := mx_cfg hE hM he
  have hT : 0 < c.maxValue := isGreatest_pos hM D.top
  have hm : (0 : ℝ) < 1 / 10 ^ 10 := by positivity
  set f : List ℝ → ℝ := fun g => statsScaling (.powerOfTwo torchCeil) (some (1 / 10 ^ 10)) (GroupFloat.groupPeak g) c.maxValue with hf
  have hmax : ∀ v, statsScaling (.powerOfTwo torchCeil) (some (1 / 10 ^ 10)) v c.maxValue = max (statsScaling (.powerOfTwo torchCeil) none v c.maxValue) (1 / 10 ^ 10) := by
    intro v; simp only [statsScaling, restrictClamp, clampMinVal, if_neg hm.ne']; rfl
  have hpos : ∀ g, 0 < f g := fun g => by simp only [hf]; rw [hmax]; exact lt_max_of_lt_right hm
  obtain ⟨t, v, s, h1, h2, h3, h4, h5, h6, h7, h8⟩ := C110_nearest ⟨c, f, size, pre.length⟩ tr x pre post n hgs rfl hsh hwf D (by rw [hceps]; exact hsmall) hpos
  refine ⟨⟨c, f, size, pre.length⟩, t, v, s, c.maxValue, by rw [GroupFloat.mxWeight, hc]; rfl, ?_, h2, h3, h4, h5, h6, h7, D.top, ?_⟩
  · rw [C110_weight _ tr x pre post n hgs rfl hsh hwf, C110_enabled, h1]; rfl
  · intro ip k iq hip hiq hk
    obtain ⟨y, sc, a1, a2, rfl, a4, -, a6⟩ := h8 ip k iq hip hiq hk
    have hne : groupOf x n size ip k iq ≠ [] := by
      rw [groupOf]; intro h; have := congrArg List.length h; simp at this; omega
    have hpk := groupPeak_spec hne
    have hp0 : 0 ≤ GroupFloat.groupPeak (groupOf x n size ip k iq) := by
      obtain ⟨w, -, h⟩ := hpk.1; rw [h]; exact abs_nonneg _
    have hge : GroupFloat.groupPeak (groupOf x n size ip k iq) / c.maxValue ≤ f (groupOf x n size ip k iq) := by
      rcases hp0.eq_or_lt with h | h
      · rw [← h, zero_div]; exact (hpos _).le
      · simp only [hf]; rw [hmax]
        exact (C12_ceil_smallest _ _ h hT).1.trans (le_max_left _ _)
    refine ⟨y, _, _, a1, a2, hpos _, hpk, hge, ?_, a4, ?_⟩
    · intro hle
      have hpp : 0 < GroupFloat.groupPeak (groupOf x n size ip k iq) := by
        have := (div_pos_iff_of_pos_right hT).1 (hm.trans_le hle)
        exact this
      obtain ⟨c1, c2⟩ := C12_ceil_smallest _ _ hpp hT
      have hee : statsScaling (.powerOfTwo torchCeil) none (GroupFloat.groupPeak (groupOf x n size ip k iq)) c.maxValue =
          2 ^ (torchCeil (Real.logb 2 (GroupFloat.groupPeak (groupOf x n size ip k iq) / c.maxValue))) := by
        simp only [statsScaling, restrictClamp, powerOfTwo_eq _ hpp hT, clampMinVal]
      refine ⟨torchCeil (Real.logb 2 (GroupFloat.groupPeak (groupOf x n size ip k iq) / c.maxValue)), ?_, fun j hj => ?_⟩
      · simp only [hf]; rw [hmax, max_eq_left (hle.trans c1), hee]
      · have := c2 j hj
        rw [hee] at this
        exact (zpow_le_zpow_iff_right₀ (by norm_num)).1 this
    · refine a6 _ D.top fun w hw => ?_
      have h9 := hpk.2 ⟨w, hw, rfl⟩
      rw [div_le_iff₀ hT] at hge
      rw [mul_comm]; exact h9.trans hge

/-- The shipped MX quantiser: E4M3 in groups of 32, in single precision. -/
example : (0 : ℝ) < 2 ^ (-126 : ℤ) ∧ (2 : ℝ) ^ (-126 : ℤ) < 2 ^ (1 - standardBias .ocp 4 - 3) / 2 ∧ IsGreatest {v : ℝ | FormatValue .ocp 4 3 v} 448 := by
  refine ⟨by positivity, ?_, C109_tops.1⟩
  rw [show standardBias .ocp 4 = 7 from rfl]; norm_num

/-- C110, what fails for MX activations: every group whose largest absolute value is positive and at most the largest number of the format gets the scale 2, however small its elements are. -/
theorem C110_mx_act_scale_two {E M : ℕ} (hE : E ≠ 0) (hM : M ≠ 0) {eps : ℝ} (he : 0 < eps) (size : ℕ) (dim : ℤ) :
    ∃ q top, GroupFloat.mxAct E M eps size dim = some q ∧ IsGreatest {v : ℝ | FormatValue .ocp E M v} top ∧
      ∀ g : List ℝ, g ≠ [] → (∃ w ∈ g, w ≠ 0) → (∀ w ∈ g, |w| ≤ top) → q.scaleOf g = 2 := by
  obtain ⟨c, hc, -, D⟩ := mx_cfg hE hM he
  refine ⟨_, c.maxValue, by rw [GroupFloat.mxAct, hc]; rfl, D.top, ?_⟩
  intro g hg ⟨w, hw, hw0⟩ hle
  have hpk := groupPeak_spec hg
  have hp : 0 < GroupFloat.groupPeak g := (abs_pos.2 hw0).trans_le (hpk.2 ⟨w, hw, rfl⟩)
  have hp2 : GroupFloat.groupPeak g ≤ c.maxValue := by
    obtain ⟨w', hw', h⟩ := hpk.1; rw [h]; exact hle w' hw'
  have h2 := C59_mx_act_not_tight _ _ hp hp2
  have hm : (1 / 10 ^ 10 : ℝ) ≠ 0 := by positivity
  simp only [dynamicGroupScaling, restrictClamp, clampMinVal, if_neg hm] at h2 ⊢
  rw [h2]
  exact max_eq_left (by norm_num)

/-- A number of a format other than 0 is at least its smallest positive number. -/
theorem formatValue_ge {std : Standard} {E M : ℕ} (hM : M ≠ 0) {v : ℝ} (h : FormatValue std E M v) (hv : v ≠ 0) : 2 ^ (1 - standardBias std E - M) ≤ |v| := by
  have hsm : (2 : ℝ) ^ (1 - standardBias std E - M) = _root_.Spec.floatValue M (standardBias std E) 0 1 := by
    rw [_root_.Spec.floatValue, if_pos rfl, zpow_sub₀ (by norm_num), zpow_natCast]; push_cast; ring
  rw [hsm]
  obtain ⟨e, m, -, hv'⟩ := h
  have habs : |v| = _root_.Spec.floatValue M (standardBias std E) e m := by
    rcases hv' with rfl | rfl
    · exact abs_of_nonneg (floatValue_nonneg _ _ _ _)
    · rw [abs_neg]; exact abs_of_nonneg (floatValue_nonneg _ _ _ _)
  rw [habs]
  refine floatValue_le (Nat.one_lt_two_pow hM) ?_
  rcases Nat.eq_zero_or_pos e with rfl | he
  · refine Or.inr ⟨rfl, ?_⟩
    rcases Nat.eq_zero_or_pos m with rfl | hm
    · exfalso
      apply hv
      rcases hv' with rfl | rfl <;> simp [_root_.Spec.floatValue]
    · exact hm
  · exact Or.inl he

/-- C110, what fails for MX activations: a tensor of any shape all of whose elements are below the smallest positive number of the format comes out as zeros. (MX weights
with the same elements are kept: `C110_mx_weight`.) -/
theorem C110_mx_act_flushes {E M : ℕ} (hE : E ≠ 0) (hM : M ≠ 0) {eps : ℝ} (he : 0 < eps) (hsmall : eps < 2 ^ (1 - standardBias .ocp E - M) / 2) (tr : Bool) (x : Tensor ℝ) (pre post : List ℕ)
    (n size : ℕ) (hgs : 1 ≤ size) (hsh : x.shape = pre ++ n :: post) (hwf : x.WF)
    (hx : ∀ ip k iq, |element x n ip k iq| < 2 ^ (1 - standardBias .ocp E - M)) :
    ∃ q t v, GroupFloat.mxAct E M eps size pre.length = some q ∧ GroupFloat.actForward q true tr (.tensor x) = some (.quant t) ∧ t.value = some v ∧
      ∀ ip k iq, Spec.InRange pre ip → Spec.InRange post iq → k < (n + size - 1) / size * size → v.at (ip ++ k :: iq) = some 0 := by
  obtain ⟨q, top, hq, htop, h2⟩ := C110_mx_act_scale_two hE hM he size pre.length
  obtain ⟨c, hc, hceps, D⟩ := mx_cfg hE hM he
  have hq' : GroupFloat.mxAct E M eps size pre.length = some ⟨c, fun g => dynamicGroupScaling (.powerOfTwo torchCeil) (some (1 / 10 ^ 10)) (GroupFloat.groupPeak g) c.maxValue, size, pre.length⟩ := by
    rw [GroupFloat.mxAct, hc]; rfl
  rw [hq] at hq'
  obtain rfl := Option.some.inj hq'
  have hm : (0 : ℝ) < 1 / 10 ^ 10 := by positivity
  obtain ⟨t, v, s, h3, h4, -, -, -, -, -, h5⟩ := C110_nearest
    ⟨c, fun g => dynamicGroupScaling (.powerOfTwo torchCeil) (some (1 / 10 ^ 10)) (GroupFloat.groupPeak g) c.maxValue, size, pre.length⟩ tr x pre post n hgs rfl hsh hwf D (by rw [hceps]; exact hsmall)
    (fun g => hm.trans_le (clampMinVal_ge hm.ne' _))
  refine ⟨_, t, v, hq, by rw [C110_enabled, h3]; rfl, h4, ?_⟩
  intro ip k iq hip hiq hk
  obtain ⟨y, sc, a1, -, a3, ⟨⟨u, hu, rfl⟩, a4⟩, -, -⟩ := h5 ip k iq hip hiq hk
  rw [a1]
  have hne : groupOf x n size ip k iq ≠ [] := by
    rw [groupOf]; intro h; have := congrArg List.length h; simp at this; omega
  have h0 : FormatValue (K := ℝ) .ocp E M 0 := by
    refine ⟨0, 0, ⟨by positivity, by positivity, fun _ => ⟨fun _ => by omega, fun _ => by omega⟩⟩, Or.inl ?_⟩
    simp [_root_.Spec.floatValue]
  have hcl := a4 0 ⟨0, h0, by ring⟩
  rw [sub_zero] at hcl
  by_cases hz : element x n ip k iq = 0
  · rw [hz, abs_zero, zero_sub, abs_neg] at hcl
    rw [abs_eq_zero.1 (le_antisymm hcl (abs_nonneg _))]
  · have hmem : element x n ip k iq ∈ groupOf x n size ip k iq := by
      rw [groupOf]
      refine List.mem_map.mpr ⟨k % size, List.mem_range.mpr (Nat.mod_lt _ (by omega)), ?_⟩
      have e : k / size * size + k % size = k := by rw [Nat.mul_comm]; exact Nat.div_add_mod _ _
      rw [e]
    have hsm : (2 : ℝ) ^ (1 - standardBias .ocp E - M) ≤ top := by
      have h1 : FormatValue (K := ℝ) .ocp E M (_root_.Spec.floatValue M (standardBias .ocp E) 0 1) :=
        ⟨0, 1, ⟨by positivity, Nat.one_lt_two_pow hM, fun _ => ⟨fun _ => by omega, fun _ => by omega⟩⟩, Or.inl rfl⟩
      have h6 := htop.2 h1
      have hp : (0 : ℝ) < _root_.Spec.floatValue M (standardBias .ocp E) 0 1 := by
        simp only [_root_.Spec.floatValue, if_true]; positivity
      exact (formatValue_ge hM h1 hp.ne').trans (by rw [abs_of_pos hp]; exact h6)
    have hs2 := h2 _ hne ⟨_, hmem, hz⟩ (by
      intro w hw
      rw [groupOf] at hw
      obtain ⟨j, -, rfl⟩ := List.mem_map.1 hw
      exact (hx _ _ _).le.trans hsm)
    rw [a3, hs2] at hcl ⊢
    by_cases hu0 : u = 0
    · rw [hu0, zero_mul]
    · exfalso
      have h6 := formatValue_ge hM hu hu0
      have h7 := hx ip k iq
      have h8 : |u * 2| ≤ |element x n ip k iq - u * 2| + |element x n ip k iq| := by
        have := abs_sub_abs_le_abs_sub (u * 2) (element x n ip k iq)
        rw [abs_sub_comm] at this
        linarith
      rw [abs_mul, abs_two] at h8
      linarith

/-- A tensor to which the last theorem applies: one group of two elements, for E4M3. -/
example : ∀ ip k iq, |element (⟨[2], [1 / 1000, -1 / 1000]⟩ : Tensor ℝ) 2 ip k iq| < 2 ^ (1 - standardBias .ocp 4 - 3) := by
  intro ip k iq
  have h : ∀ i : ℕ, |(([1 / 1000, -1 / 1000] : List ℝ)[i]?).getD 0| < 2 ^ (1 - standardBias .ocp 4 - 3) := by
    intro i
    rw [show standardBias .ocp 4 = 7 from rfl]
    rcases i with _ | _ | i
    · norm_num [abs_of_pos]
    · norm_num [abs_div]
    · norm_num
  rw [element]
  split_ifs
  · exact h _
  · rw [abs_zero]; positivity

end Real

end Brevitas.Props
