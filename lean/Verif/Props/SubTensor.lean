import Verif.Lemmas.SubTensor
import Verif.Lemmas.QuantConv
import Verif.Props.Shape

/-!
# C102: quantising a slice of the weight gives the slice of the quantised weight
-/

set_option linter.unusedSectionVars false

namespace Brevitas.SubTensor

open NdTensor

variable {K : Type*} [Field K] [LinearOrder K] [IsStrictOrderedRing K] [FloorRing K]

/-- C102. `quant_weight()` quantises every element of the weight with the rounding, scale and zero point of that element. -/
theorem C102_whole {l : Layer K} {V : List ℕ} (hV : HasShape l V) (hq : l.quant.Allows V []) (hs : Steady l) (he : l.enabled = true) :
    ∃ out, (l.quantWeight none).1 = some out ∧ out.value.shape = V ∧
      (∀ idx, InBounds V idx → out.value.data idx = l.quant.at l.training l.weight idx) ∧
      out.scaleZp = some (l.quant.scale.eval l.weight l.weight, l.quant.zeroPoint.eval l.weight l.weight) := by
  obtain ⟨out, h1, h2, h3, h4, _⟩ := quantWeight_none hV hq hs.slicers
  refine ⟨out, h1, h2, fun idx hi => ?_, ?_⟩
  · rw [h3 idx hi, Layer.at, if_pos he]
  · rw [h4, Layer.scaleZp, if_pos he]

/-- C102. With plain rounding that is the decoupled integer quantisation (C01, C18) of each element. -/
theorem C102_whole_plain (q : Quantizer K) (training : Bool) (f : K → ℤ) (hf : q.rounding = .plain f) (w : NdTensor K) (idx : List ℕ) :
    q.at training w idx = IntQuantCfg.decoupledForward ⟨q.signed, q.narrow, f⟩
      ((q.preScale.eval w w).data (bcIndex (q.preScale.eval w w).shape idx)) ((q.preZeroPoint.eval w w).data (bcIndex (q.preZeroPoint.eval w w).shape idx))
      ((q.scale.eval w w).data (bcIndex (q.scale.eval w w).shape idx)) ((q.zeroPoint.eval w w).data (bcIndex (q.zeroPoint.eval w w).shape idx))
      q.bitWidth (w.data idx) := by
  rw [Quantizer.at, hf]
  rfl

/-- C102. `quant_weight(subtensor_slice_list=sl)` returns the slice `sl` of what `quant_weight()` returns, with the same scale and zero point. -/
theorem C102_slice {l : Layer K} {V : List ℕ} {sl : Slices} (hV : HasShape l V) (hq : l.quant.Allows V sl) (hs : Steady l) :
    ∃ full part, (l.quantWeight none).1 = some full ∧ (l.quantWeight (some sl)).1 = some part ∧
      full.value.shape = V ∧ IsSlice sl full.value part.value ∧ part.scaleZp = full.scaleZp := by
  obtain ⟨full, a1, a2, a3, a4, _⟩ := quantWeight_none hV hq hs.slicers
  obtain ⟨part, b1, b2, b3, b4, _⟩ := quantWeight_some hV hq hs
  refine ⟨full, part, a1, b1, a2, isSlice_of (by rw [b2, a2]) fun idx hi => ?_, by rw [a4, b4]⟩
  rw [b2] at hi
  rw [b3 idx hi, a2, a3 _ (shift_inBounds hi)]

/-- C102. A call leaves the layer as it was, but for the list of modules to tell about slices and the cache of the proxy: weight, modes, quantiser and the slices
pending in it are the same. -/
theorem C102_restored {l : Layer K} {V : List ℕ} {sl : Option Slices} (hV : HasShape l V) (hq : l.quant.Allows V (sl.getD [])) (hs : Steady l) :
    ∃ m c, (l.quantWeight sl).2 = { l with cachedModules := m, cachedWeight := c } ∧ Steady (l.quantWeight sl).2 := by
  cases sl with
  | none =>
    obtain ⟨_, _, _, _, _, c, h⟩ := quantWeight_none hV hq hs.slicers
    exact ⟨l.cachedModules, c, h, by rw [h]; exact ⟨hs.slicers, hs.modules⟩⟩
  | some sl =>
    rw [Option.getD_some] at hq
    obtain ⟨_, _, _, _, _, c, h⟩ := quantWeight_some hV hq hs
    exact ⟨some l.quant.slicerModules, c, h, by rw [h]; exact ⟨hs.slicers, Or.inr rfl⟩⟩

/-- The steps considered for a quantiser of weights of shape `V`: updates keep the shape, slices are allowed. -/
def Admissible (q : Quantizer K) (V : List ℕ) : Action K → Prop
  | .update w => w.shape = V
  | .call sl => q.Allows V (sl.getD [])
  | _ => True

theorem step_keeps {l : Layer K} {V : List ℕ} (hV : HasShape l V) (hs : Steady l) (a : Action K) (ha : Admissible l.quant V a) :
    HasShape (l.step a).1 V ∧ Steady (l.step a).1 ∧ (l.step a).1.quant = l.quant := by
  cases a with
  | update w => exact ⟨⟨ha, hV.orig⟩, ⟨hs.slicers, hs.modules⟩, rfl⟩
  | train on => exact ⟨⟨hV.weight, hV.orig⟩, ⟨hs.slicers, hs.modules⟩, rfl⟩
  | enable on => exact ⟨⟨hV.weight, hV.orig⟩, ⟨hs.slicers, hs.modules⟩, rfl⟩
  | keepOrig on =>
    refine ⟨⟨hV.weight, fun w hw => ?_⟩, ⟨hs.slicers, hs.modules⟩, rfl⟩
    cases on with
    | true => simp only [Layer.step, if_true, Option.some.injEq] at hw; rw [← hw]; exact hV.weight
    | false => simp [Layer.step] at hw
  | cache on => exact ⟨⟨hV.weight, hV.orig⟩, ⟨hs.slicers, hs.modules⟩, rfl⟩
  | call sl =>
    obtain ⟨m, c, h1, h2⟩ := C102_restored hV ha hs
    refine ⟨?_, h2, ?_⟩
    · rw [Layer.step, h1]; exact ⟨hV.weight, hV.orig⟩
    · rw [Layer.step, h1]

theorem run_keeps {l : Layer K} {V : List ℕ} (hV : HasShape l V) (hs : Steady l) (as : List (Action K)) (ha : ∀ a ∈ as, Admissible l.quant V a) :
    HasShape (l.run as) V ∧ Steady (l.run as) ∧ (l.run as).quant = l.quant := by
  induction as generalizing l with
  | nil => exact ⟨hV, hs, rfl⟩
  | cons a as ih =>
    obtain ⟨h1, h2, h3⟩ := step_keeps hV hs a (ha a (by simp))
    obtain ⟨g1, g2, g3⟩ := ih h1 h2 (fun b hb => by rw [h3]; exact ha b (by simp [hb]))
    exact ⟨g1, g2, g3.trans h3⟩

/-- C102. After any history of weight updates, changes of mode and calls of `quant_weight` with whatever slices, the next call with slice `sl` returns the slice `sl`
of what a layer with the same weight and modes whose weight was never sliced returns for the whole weight. -/
theorem C102_history {l : Layer K} {V : List ℕ} {sl : Slices} (hV : HasShape l V) (hs : Steady l) (as : List (Action K)) (ha : ∀ a ∈ as, Admissible l.quant V a)
    (hq : l.quant.Allows V sl) :
    ∃ full part, (Layer.quantWeight { l.run as with slicers := fun _ => [none], cachedModules := none, cachedWeight := none } none).1 = some full ∧
      ((l.run as).quantWeight (some sl)).1 = some part ∧ IsSlice sl full.value part.value ∧ part.scaleZp = full.scaleZp := by
  obtain ⟨h1, h2, h3⟩ := run_keeps hV hs as ha
  obtain ⟨full, a1, a2, a3, a4, _⟩ := quantWeight_none
    (l := { l.run as with slicers := fun _ => [none], cachedModules := none, cachedWeight := none }) (V := V) (sl := sl)
    ⟨h1.weight, h1.orig⟩ (by rw [show (Layer.quant _) = l.quant from h3]; exact hq) (fun _ _ => rfl)
  obtain ⟨part, b1, b2, b3, b4, _⟩ := quantWeight_some h1 (by rw [h3]; exact hq) h2
  refine ⟨full, part, a1, b1, isSlice_of (by rw [b2, a2]) fun idx hi => ?_, by rw [a4, b4]; rfl⟩
  rw [b2] at hi
  rw [b3 idx hi, a2, a3 _ (shift_inBounds hi)]
  rfl

/-- C102. The slicer gives the same tensor under TorchScript as in eager mode. -/
theorem C102_jit_is_eager {A : Type*} (sl : Slices) (x : NdTensor A) (h : sl.length ≤ x.shape.length) :
    ∃ u v, slicerForward true sl x = some u ∧ slicerForward false sl x = some v ∧ SameTensor u v ∧ IsSlice sl x v := by
  obtain ⟨u, a1, a2, a3⟩ := slicerForward_eq true sl x h
  obtain ⟨v, b1, b2, b3⟩ := slicerForward_eq false sl x h
  refine ⟨u, v, a1, b1, ⟨a2.trans b2.symm, fun idx hi => ?_⟩, isSlice_of b2 fun idx hi => ?_⟩
  · rw [a2] at hi
    have := hi.length.trans (cut_length _ _)
    rw [a3 idx this, b3 idx this]
  · rw [b2] at hi
    exact b3 idx (hi.length.trans (cut_length _ _))

/-! ## GPxQ -/

/-- A quantiser that may be asked for any slice which takes the first dimension whole. -/
def PerRow (q : Quantizer K) (V : List ℕ) : Prop := ∀ sl : Slices, sl.length ≤ V.length → q.Allows V (none :: sl.drop 1)

theorem span_single {n j : ℕ} (h : j < n) : span n (some ((j : ℤ), (j : ℤ) + 1)) = (j, 1) := by
  have hb : ∀ k : ℕ, k ≤ n → bound n (k : ℤ) = k := by
    intro k hk
    rw [bound, if_neg (by omega), Int.toNat_natCast]
    exact Nat.min_eq_left hk
  rw [span, hb j (by omega), show ((j : ℤ) + 1) = ((j + 1 : ℕ) : ℤ) from by push_cast; rfl, hb (j + 1) (by omega)]
  simp

/-- The slice of one column. -/
def columnSlice (nd : List ℕ) : Slices := none :: nd.map fun (j : ℕ) => some ((j : ℤ), (j : ℤ) + 1)

theorem spans_column {shapes nd : List ℕ} (h : InBounds shapes nd) : spans shapes (nd.map fun (j : ℕ) => some ((j : ℤ), (j : ℤ) + 1)) = nd.map fun j => (j, 1) := by
  unfold InBounds at h
  induction h with
  | nil => rfl
  | cons h1 _ ih => rw [List.map_cons, spans, span_single h1, ih, List.map_cons]

theorem cut_column (oc : ℕ) {shapes nd : List ℕ} (h : InBounds shapes nd) : cut (oc :: shapes) (columnSlice nd) = oc :: List.replicate nd.length 1 := by
  rw [cut, columnSlice, spans, spans_column h, List.map_cons, List.map_map]
  congr 1
  exact List.map_const' ..

theorem shift_column (oc o : ℕ) {shapes nd : List ℕ} (h : InBounds shapes nd) :
    shift (oc :: shapes) (columnSlice nd) (o :: List.replicate nd.length 0) = o :: nd := by
  rw [shift, columnSlice, spans, spans_column h, List.zipWith_cons_cons]
  congr 1
  · simp [span]
  · clear h
    induction nd with
    | nil => rfl
    | cons a as ih => simpa [List.replicate_succ] using ih

theorem inBounds_column (oc o k : ℕ) (h : o < oc) : InBounds (oc :: List.replicate k 1) (o :: List.replicate k 0) := by
  refine List.Forall₂.cons h ?_
  induction k with
  | zero => exact List.Forall₂.nil
  | succ k ih => exact List.Forall₂.cons (by omega) ih

/-- C102. GPTQ and GPFQ on a linear layer or an ungrouped convolution: the tensor they get for step `i` has, for each output channel, the element of the quantised whole
weight at that channel and at the column (in row-major order of the other dimensions) that the permutation puts at `i`. -/
theorem C102_column {l : Layer K} {kind : Kind} {oc : ℕ} {shapes : List ℕ} {groups i : ℕ} {perms : List (List ℕ)} {actOrder : Bool}
    (hk : (kind = .linear ∧ shapes.length = 1) ∨ (kind = .conv ∧ groups = 1))
    (hV : HasShape l (oc :: shapes)) (hq : PerRow l.quant (oc :: shapes)) (hs : Steady l) (hi : (perms.getD 0 []).getD i 0 < shapes.prod) :
    ∃ full q, (l.quantWeight none).1 = some full ∧ (l.getQuantWeights kind groups actOrder perms i).1 = some q ∧ q.shape = [1, oc] ∧
      ∀ o nd, o < oc → Spec.InRange shapes nd → Spec.ravel shapes nd = (perms.getD 0 []).getD i 0 → q.data [0, o] = full.value.data (o :: nd) := by
  generalize hidx : (perms.getD 0 []).getD i 0 = index at hi
  obtain ⟨hr, hrv, huniq⟩ := Props.C54_row_major shapes index hi
  have hb := (inBounds_iff_inRange shapes _).2 hr
  have hlen : (gpxqIndexToNd shapes index).length = shapes.length := hb.length
  have hallow : l.quant.Allows (oc :: shapes) (columnSlice (gpxqIndexToNd shapes index)) :=
    hq (columnSlice (gpxqIndexToNd shapes index)) (by simp [columnSlice, hlen])
  obtain ⟨full, a1, a2, a3, _, _⟩ := quantWeight_none hV hallow hs.slicers
  obtain ⟨part, b1, b2, b3, _, _⟩ := quantWeight_some hV hallow hs
  rw [cut_column oc hb] at b2 b3
  have hcond : kind = .linear ∨ (kind = .conv ∧ groups ≤ 1) := by
    rcases hk with ⟨h, _⟩ | ⟨h, h'⟩
    · exact Or.inl h
    · exact Or.inr ⟨h, h'.le⟩
  have hsl : (if kind = Kind.linear then [none, some ((index : ℤ), (index : ℤ) + 1)]
      else none :: (gpxqIndexToNd (l.weight.shape.drop 1) index).map fun (j : ℕ) => some ((j : ℤ), (j : ℤ) + 1)) = columnSlice (gpxqIndexToNd shapes index) := by
    by_cases h : kind = .linear
    · rw [if_pos h]
      rcases hk with ⟨_, h1⟩ | ⟨h1, _⟩
      · obtain ⟨n, rfl⟩ := List.length_eq_one_iff.1 h1
        rw [← huniq [index] (List.Forall₂.cons (by simpa using hi) List.Forall₂.nil) (by simp [Spec.ravel])]
        rfl
      · rw [h] at h1; cases h1
    · rw [if_neg h, hV.weight]; rfl
  have hprod : (List.replicate (gpxqIndexToNd shapes index).length 1).prod = 1 := by rw [List.prod_replicate, one_pow]
  refine ⟨full, ⟨[1, oc], fun idx => part.value.data (fromPosition part.value.shape (Spec.ravel [oc, 1] [idx.getD 1 0, 0]))⟩, a1, ?_, rfl, ?_⟩
  · have hpair : l.quantWeight (some (columnSlice (gpxqIndexToNd shapes index))) = (some part, (l.quantWeight (some (columnSlice (gpxqIndexToNd shapes index)))).2) :=
      Prod.ext b1 rfl
    simp only [Layer.getQuantWeights, if_pos hcond, hidx]
    rw [hsl, hpair]
    simp only [b2, List.getD_cons_zero, List.drop_succ_cons, List.drop_zero, hprod, NdTensor.reshape, List.prod_cons, List.prod_nil, mul_one, if_true, Option.bind_some,
      List.getD_cons_succ]
  · intro o nd ho hnd hrav
    rw [huniq nd hnd (hrav.trans rfl)]
    have e : Spec.ravel [oc, 1] [o, 0] = o := by simp [Spec.ravel]
    simp only [List.getD_cons_succ, List.getD_cons_zero, e, b2, fromPosition, hprod, Nat.div_one, Nat.mod_one, QuantConv.fromPosition_ones]
    rw [b3 _ (inBounds_column oc o _ ho), shift_column oc o hb, a3 _ (List.Forall₂.cons ho hb)]

/-- What is left of a whole tensor laid out as matrices, one for each group, when a column is taken in each. -/
theorem matrix_column {w : NdTensor K} {rows groups : ℕ} {cols : List ℕ} (hw : w.shape = rows :: cols) (hg : groups ∣ rows) :
    ∃ m u, w.reshape [rows, cols.prod] = some m ∧ m.reshape [groups, rows / groups, cols.prod] = some u ∧
      ∀ g o nd c, g < groups → o < rows / groups → Spec.InRange cols nd → Spec.ravel cols nd = c →
        u.data [g, o, c] = w.data ((g * (rows / groups) + o) :: nd) := by
  obtain ⟨k, rfl⟩ := hg
  rcases Nat.eq_zero_or_pos groups with h0 | hpos
  · subst h0
    refine ⟨_, _, by rw [NdTensor.reshape, if_pos (by rw [hw]; simp)], by rw [NdTensor.reshape, if_pos (by simp)], ?_⟩
    intro g o nd c h
    omega
  rw [Nat.mul_div_cancel_left _ hpos]
  refine ⟨⟨[groups * k, cols.prod], fun idx => w.data (fromPosition w.shape (Spec.ravel [groups * k, cols.prod] idx))⟩,
    ⟨[groups, k, cols.prod], fun idx => w.data (fromPosition w.shape (Spec.ravel [groups * k, cols.prod]
      (fromPosition [groups * k, cols.prod] (Spec.ravel [groups, k, cols.prod] idx))))⟩,
    by rw [NdTensor.reshape, if_pos (by rw [hw]; simp)], by rw [NdTensor.reshape, if_pos (by simp [mul_assoc])], ?_⟩
  intro g o nd c hg ho hnd hc
  have hlt : g * k + o < groups * k := by
    calc g * k + o < g * k + k := by omega
      _ = (g + 1) * k := by ring
      _ ≤ groups * k := Nat.mul_le_mul_right _ hg
  have hcl : c < cols.prod := by rw [← hc]; exact ravel_lt hnd
  have e1 : Spec.ravel [groups, k, cols.prod] [g, o, c] = Spec.ravel [groups * k, cols.prod] [g * k + o, c] := by
    simp only [Spec.ravel, List.zip_cons_cons, List.zip_nil_right, List.foldl_cons, List.foldl_nil]
    ring
  have hin : Spec.InRange [groups * k, cols.prod] [g * k + o, c] := List.Forall₂.cons hlt (List.Forall₂.cons hcl List.Forall₂.nil)
  simp only
  rw [e1, fromPosition_eq [groups * k, cols.prod], unravel_ravel hin, fromPosition_eq, hw]
  have e2 : Spec.ravel [groups * k, cols.prod] [g * k + o, c] = Spec.ravel (groups * k :: cols) ((g * k + o) :: nd) := by
    rw [ravel_cons _ _ cols nd (InRange.length hnd), hc]
    simp [Spec.ravel]
  rw [e2, unravel_ravel (List.Forall₂.cons hlt hnd)]

/-- C102. GPTQ and GPFQ on a grouped convolution: for step `i` the tensor has, for group `g` and the `o`-th output channel of the group, the element of the quantised whole
weight at that channel and at the column that the permutation of the group puts at `i` (column `i` itself when columns are not reordered). -/
theorem C102_grouped_column {l : Layer K} {oc : ℕ} {shapes : List ℕ} {groups i : ℕ} {perms : List (List ℕ)} {actOrder : Bool} (hg : 1 < groups) (hd : groups ∣ oc)
    (hV : HasShape l (oc :: shapes)) (hq : l.quant.Allows (oc :: shapes) []) (hs : Steady l) :
    ∃ full q, (l.quantWeight none).1 = some full ∧ (l.getQuantWeights .conv groups actOrder perms i).1 = some q ∧ q.shape = [groups, oc / groups] ∧
      ∀ g o nd, g < groups → o < oc / groups → Spec.InRange shapes nd →
        Spec.ravel shapes nd = (if actOrder then (perms.getD g []).getD i 0 else i) → q.data [g, o] = full.value.data ((g * (oc / groups) + o) :: nd) := by
  obtain ⟨full, a1, a2, _, _, _⟩ := quantWeight_none hV hq hs.slicers
  obtain ⟨m, u, e1, e2, e3⟩ := matrix_column (groups := groups) a2 hd
  have hm : m.shape = [oc, shapes.prod] := by rw [NdTensor.reshape] at e1; split_ifs at e1; cases e1; rfl
  have hu : u.shape = [groups, oc / groups, shapes.prod] := by rw [NdTensor.reshape] at e2; split_ifs at e2; cases e2; rfl
  have hpair : l.quantWeight none = (some full, (l.quantWeight none).2) := Prod.ext a1 rfl
  refine ⟨full, ⟨[groups, oc / groups], fun idx => u.data [idx.getD 0 0, idx.getD 1 0, if actOrder then (perms.getD (idx.getD 0 0) []).getD i 0 else i]⟩, a1, ?_, rfl, ?_⟩
  · rw [Layer.getQuantWeights, if_neg (by rintro (h | ⟨_, h⟩); · cases h
                                          · omega), Layer.slowColumn, hpair]
    simp only [reduceCtorEq, if_false, Option.bind_some, a2, List.getD_cons_zero, List.drop_succ_cons, List.drop_zero, e1, hm, List.getD_cons_succ, e2, Option.map_some, hu]
  · intro g o nd h1 h2 h3 h4
    exact e3 g o nd _ h1 h2 h3 h4

theorem transpose_shape {w : NdTensor K} {a b : ℕ} {ks : List ℕ} (hw : w.shape = a :: b :: ks) :
    ∃ t, w.transpose 1 0 = some t ∧ t.shape = b :: a :: ks ∧ ∀ r c kk, kk.length = ks.length → t.data (r :: c :: kk) = w.data (c :: r :: kk) := by
  have hperm := swapDims_perm (n := w.shape.length) (i := 1) (j := 0) (by rw [hw]; simp) (by rw [hw]; simp)
  have hn : w.shape.length = ks.length + 2 := by rw [hw]; rfl
  have hlen : (swapDims w.shape.length 1 0).length = w.shape.length := by simp [swapDims]
  have hget : ∀ d (h : d < (swapDims w.shape.length 1 0).length), (swapDims w.shape.length 1 0)[d] = if d = 1 then 0 else if d = 0 then 1 else d := by
    intro d h
    simp [swapDims]
  refine ⟨⟨reorder (swapDims w.shape.length 1 0) w.shape, fun idx => w.data (unorder (swapDims w.shape.length 1 0) idx)⟩, ?_, ?_, ?_⟩
  · rw [NdTensor.transpose, if_pos ⟨by omega, by omega⟩, NdTensor.permute, if_pos hperm]
  · simp only [reorder]
    apply List.ext_getElem
    · simp only [List.length_map, List.length_cons]; omega
    · intro d h1 h2
      rw [List.getElem_map, hget, hw]
      match d with
      | 0 => simp
      | 1 => simp
      | d + 2 =>
        simp only [List.length_cons] at h2
        simp [List.getD_eq_getElem?_getD, List.getElem?_eq_getElem (show d < ks.length by omega)]
  · intro r c kk hkk
    simp only [unorder]
    congr 1
    have hnd : (swapDims w.shape.length 1 0).Nodup := hperm.nodup_iff.2 List.nodup_range
    have hidx : ∀ k d (h : k < (swapDims w.shape.length 1 0).length), (swapDims w.shape.length 1 0)[k] = d → (swapDims w.shape.length 1 0).idxOf d = k := by
      intro k d h e
      rw [← e]
      exact List.Nodup.idxOf_getElem hnd k h
    apply List.ext_getElem
    · simp only [List.length_map, List.length_range, List.length_cons]; omega
    · intro d h1 h2
      rw [List.getElem_map, List.getElem_range]
      match d with
      | 0 => rw [hidx 1 0 (by omega) (by rw [hget]; simp)]; simp
      | 1 => rw [hidx 0 1 (by omega) (by rw [hget]; simp)]; simp
      | d + 2 =>
        simp only [List.length_cons] at h2
        rw [hidx (d + 2) (d + 2) (by omega) (by rw [hget]; simp)]
        simp [List.getD_eq_getElem?_getD, List.getElem?_eq_getElem (show d < kk.length by omega)]

/-- C102. GPTQ and GPFQ on an ungrouped transposed convolution, whose output channels are the second dimension of the weight: for step `i` the tensor has, for each output
channel `o`, the element of the quantised whole weight at input channel `c`, output channel `o` and kernel position `kk`, where `c` and `kk` are the column that the
permutation puts at `i`. -/
theorem C102_transposed_column {l : Layer K} {ic oc : ℕ} {ks : List ℕ} {i : ℕ} {perms : List (List ℕ)} {actOrder : Bool}
    (hV : HasShape l (ic :: oc :: ks)) (hq : l.quant.Allows (ic :: oc :: ks) []) (hs : Steady l) :
    ∃ full q, (l.quantWeight none).1 = some full ∧ (l.getQuantWeights .convTranspose 1 actOrder perms i).1 = some q ∧ q.shape = [1, oc] ∧
      ∀ o c kk, o < oc → Spec.InRange (ic :: ks) (c :: kk) →
        Spec.ravel (ic :: ks) (c :: kk) = (if actOrder then (perms.getD 0 []).getD i 0 else i) → q.data [0, o] = full.value.data (c :: o :: kk) := by
  obtain ⟨full, a1, a2, _, _, _⟩ := quantWeight_none hV hq hs.slicers
  obtain ⟨t, t1, t2, t3⟩ := transpose_shape a2
  obtain ⟨m, u, e1, e2, e3⟩ := matrix_column (groups := 1) t2 (one_dvd _)
  rw [Nat.div_one] at e2 e3
  have hm : m.shape = [oc, (ic :: ks).prod] := by rw [NdTensor.reshape] at e1; split_ifs at e1; cases e1; rfl
  have hu : u.shape = [1, oc, (ic :: ks).prod] := by rw [NdTensor.reshape] at e2; split_ifs at e2; cases e2; rfl
  have hpair : l.quantWeight none = (some full, (l.quantWeight none).2) := Prod.ext a1 rfl
  refine ⟨full, ⟨[1, oc], fun idx => u.data [idx.getD 0 0, idx.getD 1 0, if actOrder then (perms.getD (idx.getD 0 0) []).getD i 0 else i]⟩, a1, ?_, rfl, ?_⟩
  · rw [Layer.getQuantWeights, if_neg (by rintro (h | ⟨h, _⟩) <;> cases h), Layer.slowColumn, hpair]
    simp only [if_true, t1, Option.bind_some, t2, List.getD_cons_zero, List.drop_succ_cons, List.drop_zero, e1, hm, List.getD_cons_succ, Nat.div_one, e2, Option.map_some, hu]
  · intro o c kk h2 h3 h4
    have := e3 0 o (c :: kk) _ (by omega) h2 h3 h4
    rw [Nat.zero_mul, Nat.zero_add, t3 o c kk (by have := InRange.length h3; simp at this; omega)] at this
    exact this

/-! ## Concrete layers -/

/-- A 2×3 weight. -/
def Sample.weight : NdTensor ℚ := ⟨[2, 3], fun idx => (idx.getD 0 0 * 3 + idx.getD 1 0 : ℕ) * (3 / 4) - 1⟩

/-- Learned rounding of it: alternately up and down. -/
def Sample.rounding (slicer : ℕ) : Rounding ℚ := .learned ⟨[2, 3], fun idx => if (idx.getD 0 0 + idx.getD 1 0) % 2 = 0 then 1 else -1⟩ id slicer

/-- A scale for each row. -/
def Sample.scale : NdTensor ℚ := ⟨[2, 1], fun idx => if idx.getD 0 0 = 0 then 1 / 2 else 1⟩

/-- A signed 4-bit quantiser with learned rounding, a scale for each row and zero point 1. -/
def Sample.quant (slicer : ℕ) : Quantizer ℚ :=
  ⟨true, false, 4, Sample.rounding slicer, .const Sample.scale, .const ⟨[], fun _ => 1⟩, .const Sample.scale, .const ⟨[], fun _ => 1⟩⟩

/-- A layer with that weight and quantiser, in evaluation mode. -/
def Sample.layer (jit cacheOn : Bool) : Layer ℚ := ⟨Sample.weight, none, true, false, jit, Sample.quant 0, fun _ => [none], none, cacheOn, none⟩

theorem Sample.perRow (slicer : ℕ) : PerRow (Sample.quant slicer) [2, 3] := by
  intro sl hl
  have h1 : Source.Allows (.const Sample.scale) [2, 3] (none :: sl.drop 1) := by
    refine ⟨by rw [broadcasts_iff]; decide, ?_⟩
    intro d hd hne
    match d with
    | 0 => rfl
    | 1 => exact absurd rfl hne
    | d + 2 => simp only [Sample.scale, List.length_cons, List.length_nil] at hd; omega
  have h2 : Source.Allows (.const (⟨[], fun _ => 1⟩ : NdTensor ℚ)) [2, 3] (none :: sl.drop 1) := ⟨broadcasts_nil _, fun d hd => by simp at hd⟩
  refine ⟨by simp, ?_, rfl, h1, h2, h1, h2⟩
  simp only [List.length_cons, List.length_drop, List.length_nil] at hl ⊢
  omega

theorem Sample.hasShape (jit cacheOn : Bool) : HasShape (Sample.layer jit cacheOn) [2, 3] := ⟨rfl, fun w h => by simp [Sample.layer] at h⟩

theorem Sample.steady (jit cacheOn : Bool) : Steady (Sample.layer jit cacheOn) := ⟨fun _ _ => rfl, Or.inl rfl⟩

/-- The elements of a tensor in row-major order. -/
def Sample.elements (t : NdTensor ℚ) : List ℚ := (indices t.shape).map t.data

example : ((Sample.layer false false).quantWeight none).1.map (fun o => Sample.elements o.value) = some [-1 / 2, -1 / 2, 1, 1, 3, 2] ∧
    ((Sample.layer true false).quantWeight (some [none, some (1, 3)])).1.map (fun o => Sample.elements o.value) = some [-1 / 2, 1, 3, 2] ∧
    ((Sample.layer false false).quantWeight (some [none, some (-1, 7)])).1.map (fun o => Sample.elements o.value) = some [1, 2] := by decide +kernel

example : ∃ full part, ((Sample.layer true false).quantWeight none).1 = some full ∧ ((Sample.layer true false).quantWeight (some [none, some (1, 3)])).1 = some part ∧
    full.value.shape = [2, 3] ∧ IsSlice [none, some (1, 3)] full.value part.value ∧ part.scaleZp = full.scaleZp :=
  C102_slice (Sample.hasShape _ _) (Sample.perRow 0 [none, some (1, 3)] (by decide)) (Sample.steady _ _)

example : ∀ a ∈ [Action.call (some [none, some (0, 1)]), .update ⟨[2, 3], fun _ => 5⟩, .train true, .call none, .keepOrig true, .enable false, .call (some [none, some (-2, -1)])],
    Admissible (Sample.layer true true).quant [2, 3] a := by
  simp only [List.mem_cons, List.not_mem_nil, or_false, forall_eq_or_imp, forall_eq, Admissible, Option.getD_some, Option.getD_none, and_true, true_and]
  refine ⟨Sample.perRow 0 [none, some (0, 1)] (by decide), ?_, Sample.perRow 0 [none, some (-2, -1)] (by decide)⟩
  have h := Sample.perRow 0 [] (by decide)
  have hk : ∀ (t : NdTensor ℚ), Source.Allows (.const t) [2, 3] [none] → Source.Allows (.const t) [2, 3] [] := fun t h => ⟨h.1, fun _ _ _ => rfl⟩
  exact ⟨h.rank, by simp, h.rounding, hk _ h.preScale, hk _ h.preZeroPoint, hk _ h.scale, hk _ h.zeroPoint⟩

example : ((Sample.layer false false).getQuantWeights .linear 1 true [[2, 0, 1]] 0).1.map Sample.elements = some [1, 2] := by decide +kernel

/-! ## Where slicing does make a difference -/

/-- The per-row `pre_scale` of weight normalisation, `s * ‖w‖₁ / g` with `s = 1` and `g = 4` (core/scaling/pre_scaling.py:95-102). -/
def Sample.weightNorm (x : NdTensor ℚ) : NdTensor ℚ := ⟨[x.shape.getD 0 0, 1], fun idx => ((List.range (x.shape.getD 1 0)).map fun j => |x.data [idx.getD 0 0, j]|).sum / 4⟩

/-- A layer quantised with weight normalisation. -/
def Sample.a2q : Layer ℚ :=
  ⟨⟨[1, 2], fun idx => if idx.getD 1 0 = 0 then 1 else 3⟩, none, true, false, false,
    ⟨true, false, 8, .plain torchRound, .argument Sample.weightNorm, .const ⟨[], fun _ => 0⟩, .const ⟨[], fun _ => 1⟩, .const ⟨[], fun _ => 0⟩⟩, fun _ => [none], none, false, none⟩

/-- C102 (negation, for scales computed from the tensor passed). With a weight-normalising quantiser (`ParameterPreScalingWeightNorm`, A2Q) a column quantised on its own is
normalised by its own norm: the weights 1, 3 are quantised to 1, 3, but column 0 alone to 4. -/
theorem C102_weight_norm_differs : ∃ (l : Layer ℚ) (sl : Slices) (full part : Out ℚ), HasShape l [1, 2] ∧ Steady l ∧ (l.quantWeight none).1 = some full ∧
    (l.quantWeight (some sl)).1 = some part ∧ Sample.elements full.value = [1, 3] ∧ Sample.elements part.value = [4] ∧ ¬ IsSlice sl full.value part.value := by
  have h1 : (Sample.a2q.quantWeight none).1.isSome = true := by decide +kernel
  have h2 : (Sample.a2q.quantWeight (some [none, some (0, 1)])).1.isSome = true := by decide +kernel
  obtain ⟨full, h1⟩ := Option.isSome_iff_exists.1 h1
  obtain ⟨part, h2⟩ := Option.isSome_iff_exists.1 h2
  have e1 : (Sample.a2q.quantWeight none).1.map (fun o => (o.value.shape, o.value.data [0, 0], Sample.elements o.value)) = some ([1, 2], 1, [1, 3]) := by decide +kernel
  have e2 : (Sample.a2q.quantWeight (some [none, some (0, 1)])).1.map (fun o => (o.value.shape, o.value.data [0, 0], Sample.elements o.value)) = some ([1, 1], 4, [4]) := by
    decide +kernel
  rw [h1, Option.map_some, Option.some.injEq, Prod.mk.injEq, Prod.mk.injEq] at e1
  rw [h2, Option.map_some, Option.some.injEq, Prod.mk.injEq, Prod.mk.injEq] at e2
  refine ⟨Sample.a2q, [none, some (0, 1)], full, part, ⟨rfl, fun w h => by simp [Sample.a2q] at h⟩, ⟨fun _ _ => rfl, Or.inl rfl⟩, h1, h2, e1.2.2, e2.2.2, fun h => ?_⟩
  have := h.data [0, 0] [0, 0] (by rw [e2.1]; decide) (by rw [e1.1]; rfl) (by rw [e1.1]; decide)
  rw [e1.2.1, e2.2.1] at this
  norm_num at this

/-- C102 (negation, for a quantiser built again). The modules to tell about slices are looked up once. When the quantiser is built again after that (`layer.weight` assigned a
parameter, learned rounding set up, …), its learned rounding is not told, and the column asked for comes back with the shape of the whole weight. -/
theorem C102_reinit_stale : ∃ (l : Layer ℚ) (sl : Slices) (out : Out ℚ), HasShape l [2, 3] ∧ Steady l ∧ (l.quantWeight (some sl)).1.isSome = true ∧
    PerRow l.quant [2, 3] ∧ sl = [none, some (0, 1)] ∧
    (((l.quantWeight (some sl)).2.reinit (Sample.quant 1)).quantWeight (some sl)).1 = some out ∧ out.value.shape = [2, 3] := by
  have h2 : ((((Sample.layer false false).quantWeight (some [none, some (0, 1)])).2.reinit (Sample.quant 1)).quantWeight (some [none, some (0, 1)])).1.map
    (fun o => o.value.shape) = some [2, 3] := by decide +kernel
  obtain ⟨out, e1, e2⟩ := Option.map_eq_some_iff.1 h2
  exact ⟨Sample.layer false false, _, out, Sample.hasShape _ _, Sample.steady _ _, by decide +kernel, Sample.perRow 0, rfl, e1, e2⟩

/-- C102 (negation, for a call that raises). A slice the scale does not fit raises, and the slice stays set in the learned rounding: the whole weight cannot be quantised any
more. -/
theorem C102_failed_call_poisons : ∃ (l : Layer ℚ) (sl : Slices), HasShape l [3, 3] ∧ Steady l ∧ (l.quantWeight none).1.isSome = true ∧ (l.quantWeight (some sl)).1.isNone = true ∧
    ((l.quantWeight (some sl)).2.quantWeight none).1.isNone = true := by
  refine ⟨⟨⟨[3, 3], fun _ => 1⟩, none, true, false, false,
    ⟨true, false, 8, .learned ⟨[3, 3], fun _ => 1⟩ id 0, .const ⟨[3, 1], fun _ => 1⟩, .const ⟨[], fun _ => 0⟩, .const ⟨[3, 1], fun _ => 1⟩, .const ⟨[], fun _ => 0⟩⟩,
    fun _ => [none], none, false, none⟩, [some (0, 2)], ⟨rfl, fun w h => by simp at h⟩, ⟨fun _ _ => rfl, Or.inl rfl⟩, by decide +kernel, by decide +kernel, by decide +kernel⟩

/-- C102 (negation, for a slice of the dimension of the scales). Asked for one row of a weight with a scale for each row, the layer returns that row quantised with the scale of
every row in turn, in the shape of the whole weight. -/
theorem C102_row_slice_wrong : ∃ (l : Layer ℚ) (out : Out ℚ), HasShape l [2, 3] ∧ Steady l ∧ PerRow l.quant [2, 3] ∧
    (l.quantWeight (some [some (0, 1)])).1 = some out ∧ out.value.shape = [2, 3] := by
  have h2 : ((Sample.layer false false).quantWeight (some [some (0, 1)])).1.map (fun o => o.value.shape) = some [2, 3] := by decide +kernel
  obtain ⟨out, e1, e2⟩ := Option.map_eq_some_iff.1 h2
  exact ⟨Sample.layer false false, out, Sample.hasShape _ _, Sample.steady _ _, Sample.perRow 0, e1, e2⟩

/-- C102 (negation, for the cache of the quantiser). With caching on, the first tensor quantised is kept even if it is a slice, and it stays when the whole weight is quantised. -/
theorem C102_cache_holds_slice : ∃ (l : Layer ℚ) (c : NdTensor ℚ), HasShape l [2, 3] ∧ Steady l ∧ PerRow l.quant [2, 3] ∧ l.cachedWeight = none ∧
    ((l.quantWeight (some [none, some (0, 1)])).2.quantWeight none).2.cachedWeight = some c ∧ c.shape = [2, 1] := by
  have h2 : (((Sample.layer false true).quantWeight (some [none, some (0, 1)])).2.quantWeight none).2.cachedWeight.map NdTensor.shape = some [2, 1] := by decide +kernel
  obtain ⟨c, e1, e2⟩ := Option.map_eq_some_iff.1 h2
  exact ⟨Sample.layer false true, c, Sample.hasShape _ _, Sample.steady _ _, Sample.perRow 0, rfl, e1, e2⟩

/-- C102 (negation, beyond the rank). With more entries than dimensions, all `None`, eager mode raises and TorchScript does not. -/
theorem C102_jit_extra_none : ∃ (sl : Slices) (x : NdTensor ℚ), (slicerForward false sl x).isNone = true ∧ (slicerForward true sl x).isSome = true :=
  ⟨[none, none], ⟨[2], fun _ => 0⟩, by decide +kernel, by decide +kernel⟩

end Brevitas.SubTensor
