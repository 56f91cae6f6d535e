import Verif.Spec.Layer
import Verif.Props.Accum
import Verif.Props.IntQuant

/-!
# C34: quantised linear layers compute on integers
-/

set_option linter.unusedSectionVars false

namespace Brevitas.Props

open Brevitas

variable {K : Type*} [Field K] [LinearOrder K] [IsStrictOrderedRing K] [FloorRing K]

/-- the element of the output at row `r` and channel `o` is denoted by the integer `n` with the scale and zero point that the output declares
there -/
def Denotes (out : LinearOutQT K) (r o : ℕ) (n : ℤ) : Prop :=
  ∃ row v s, out.value[r]? = some row ∧ row[o]? = some v ∧ out.scale[o]? = some s ∧ v = (n - out.zeroPoint r o) * s

/-- De-quantised input rows: codes times the per-tensor scale. -/
def deqRows (si : K) (rows : List (List ℤ)) : List (List K) := rows.map fun ns => ns.map fun n : ℤ => (n : K) * si

/-- De-quantised weight rows: codes times the scale of the output channel. -/
def deqWeight (rows : List (List ℤ)) (scale : List K) : List (List K) :=
  List.zipWith (fun ms s => ms.map fun m : ℤ => (m : K) * s) rows scale

theorem dot_deq (ns ms : List ℤ) (a b : K) :
    (List.zipWith (· * ·) (ns.map fun n : ℤ => (n : K) * a) (ms.map fun m : ℤ => (m : K) * b)).sum = (Spec.dot ns ms : ℤ) * (b * a) := by
  induction ns generalizing ms with
  | nil => simp [Spec.dot]
  | cons n ns ih =>
    cases ms with
    | nil => simp [Spec.dot]
    | cons m ms =>
      simp only [Spec.dot, List.map_cons, List.zipWith_cons_cons, List.sum_cons] at ih ⊢
      rw [ih]; push_cast; ring

section

variable (rank3 : Bool) (rowsN rowsM : List (List ℤ)) (si : K) (wScale : List K) (bi bw : ℕ) (sx sw tx tw : Bool) (linearIn : ℕ)
  (bias : BiasArg K)

/-- the layer applied to exact zero-point-free quant tensors with codes `rowsN` and `rowsM` -/
def layerOn : LinearOut K :=
  quantLinear rank3 (deqRows si rowsN) si 0 bi sx tx ⟨deqWeight rowsM wScale, wScale, 0, bw, sw, tw⟩ linearIn bias

end

/-- C34, no bias: the layer returns a quant tensor whose scale is the product of the scales, whose zero point is zero and whose element at
row `r`, channel `o` is exactly the integer dot product of the codes times the scale. -/
theorem C34_no_bias (rank3 : Bool) (rowsN rowsM : List (List ℤ)) (si : K) (wScale : List K) (bi bw : ℕ) (sx sw tx tw : Bool) (linearIn : ℕ) :
    ∃ out, layerOn rank3 rowsN rowsM si wScale bi bw sx sw tx tw linearIn .none = .quant out ∧ out.signed = (sx || sw) ∧
      out.scale = wScale.map (fun s => s * si) ∧ (∀ r o, out.zeroPoint r o = 0) ∧
      maxAccBitWidthLinear bi bw [rowsM.length, linearIn] = some out.bitWidth ∧
      ∀ r o ns ms s, rowsN[r]? = some ns → rowsM[o]? = some ms → wScale[o]? = some s → Denotes out r o (Spec.dot ns ms) := by
  refine ⟨_, by rw [layerOn, quantLinear, if_neg (by simp)], rfl, rfl, fun _ _ => rfl, ?_, ?_⟩
  · simp only [maxAccBitWidthLinear_eq, Option.getD_some]
  · intro r o ns ms s hr ho hs
    refine ⟨_, ((Spec.dot ns ms : ℤ) : K) * (s * si), s * si, by simp [deqRows, hr]; rfl, ?_, by simp [hs], ?_⟩
    · simp only [BiasArg.value, linearRow, List.getElem?_map, deqWeight, List.getElem?_zipWith, ho, hs, Option.map_some, dot_deq]
    · simp

/-- C34, float bias (or a quantised bias with a different scale), two-dimensional input: the integers are those of the dot product and the bias
is carried exactly by the zero point. -/
theorem C34_bias_as_zero_point (rowsN rowsM : List (List ℤ)) (si : K) (wScale : List K) (bi bw : ℕ) (sx sw tx tw : Bool) (linearIn : ℕ)
    (bias : BiasArg K) (bv : List K)
    (hb : bias = .float bv ∨ ∃ bs bb bsg, bias = .int bv bs bb bsg ∧ allcloseList bs (biasScale wScale si) = false)
    (hsi : si ≠ 0) (hnz : ∀ s ∈ wScale, s ≠ 0) :
    ∃ out, layerOn false rowsN rowsM si wScale bi bw sx sw tx tw linearIn bias = .quant out ∧ out.scale = wScale.map (fun s => s * si) ∧
      ∀ r o ns ms s b, rowsN[r]? = some ns → rowsM[o]? = some ms → wScale[o]? = some s → bv[o]? = some b →
        Denotes out r o (Spec.dot ns ms) ∧ out.zeroPoint r o = -b / (s * si) ∧
        ∃ row, out.value[r]? = some row ∧ row[o]? = some ((Spec.dot ns ms : ℤ) * (s * si) + b) := by
  have hval : bias.value = some bv := by rcases hb with rfl | ⟨_, _, _, rfl, _⟩ <;> rfl
  refine ⟨_, by rw [layerOn, quantLinear.eq_def, if_neg (by simp)], rfl, ?_⟩
  intro r o ns ms s b hr ho hs hbo
  have hs0 : s * si ≠ 0 := mul_ne_zero (hnz s (List.mem_of_getElem? hs)) hsi
  have hrow : ((deqRows si rowsN).map fun x => linearRow x (deqWeight rowsM wScale) bias.value)[r]? =
      some (linearRow (ns.map fun n : ℤ => (n : K) * si) (deqWeight rowsM wScale) bias.value) := by
    simp [deqRows, hr]
  have helt : (linearRow (ns.map fun n : ℤ => (n : K) * si) (deqWeight rowsM wScale) bias.value)[o]? =
      some ((Spec.dot ns ms : ℤ) * (s * si) + b) := by
    simp only [hval, linearRow, List.getElem?_zipWith, deqWeight, ho, hs, hbo, dot_deq]
  have hscale : (wScale.map fun s => s * si)[o]? = some (s * si) := by simp [hs]
  have hgd : (wScale.map fun s => s * si).getD o 0 = s * si := by rw [List.getD_eq_getElem?_getD, hscale]; rfl
  have hbd : bv.getD o 0 = b := by rw [List.getD_eq_getElem?_getD, hbo]; rfl
  have hz : (match bias with
      | .none => fun _ _ => (0 : K)
      | .float b => fun r o => -(b.getD (if false = true then r else o) 0) / (wScale.map fun s => s * si).getD o 0
      | .int b s _ _ => if allcloseList s (wScale.map fun s => s * si) then fun _ _ => 0
          else fun r o => -(b.getD (if false = true then r else o) 0) / (wScale.map fun s => s * si).getD o 0) r o = -b / (s * si) := by
    rcases hb with rfl | ⟨bs, bb, bsg, rfl, hc⟩
    · simp only [Bool.false_eq_true, if_false, hgd, hbd]
    · simp only [biasScale] at hc
      simp only [hc, Bool.false_eq_true, if_false, hgd, hbd]
  refine ⟨⟨_, _, s * si, hrow, helt, hscale, ?_⟩, hz, _, hrow, helt⟩
  refine Eq.trans ?_ (congrArg (fun z : K => (((Spec.dot ns ms : ℤ) : K) - z) * (s * si)) hz.symm)
  have : -b / (s * si) * (s * si) = -b := div_mul_cancel₀ _ hs0
  change _ = (((Spec.dot ns ms : ℤ) : K) - -b / (s * si)) * (s * si)
  rw [sub_mul, this]; ring

/-- C34, quantised bias with the accumulator's scale (what a bias quantiser that takes its scale from the layer produces), any rank: the bias
codes are added to the integer dot products, the zero point stays zero. -/
theorem C34_bias_same_scale (rank3 : Bool) (rowsN rowsM : List (List ℤ)) (si : K) (wScale : List K) (bi bw : ℕ) (sx sw tx tw : Bool)
    (linearIn : ℕ) (bs : List ℤ) (bb : ℕ) (bsg : Bool) :
    ∃ out, layerOn rank3 rowsN rowsM si wScale bi bw sx sw tx tw linearIn
        (.int (List.zipWith (fun (n : ℤ) s => (n : K) * s) bs (biasScale wScale si)) (biasScale wScale si) bb bsg) = .quant out ∧
      out.signed = (sx || sw) ∧ out.scale = wScale.map (fun s => s * si) ∧ (∀ r o, out.zeroPoint r o = 0) ∧
      (∃ acc, maxAccBitWidthLinear bi bw [rowsM.length, linearIn] = some acc ∧ out.bitWidth = max bb acc + 1) ∧
      ∀ r o ns ms s b, rowsN[r]? = some ns → rowsM[o]? = some ms → wScale[o]? = some s → bs[o]? = some b →
        Denotes out r o (Spec.dot ns ms + b) := by
  have hclose : allcloseList (biasScale wScale si) (wScale.map fun s => s * si) = true := by
    rw [biasScale, allcloseList, List.all_eq_true]
    intro t ht
    rw [List.zipWith_self, List.mem_map] at ht
    obtain ⟨s, -, rfl⟩ := ht
    exact allclose_self s
  refine ⟨_, by rw [layerOn, quantLinear, if_neg (by simp)], rfl, rfl, ?_, ?_, ?_⟩
  · intro r o
    simp only [hclose, if_true]
  · refine ⟨_, maxAccBitWidthLinear_eq _ _ _ _, ?_⟩
    simp only [deqWeight, maxAccBitWidthLinear_eq, Option.getD_some]
    split_ifs <;> omega
  · intro r o ns ms s b hr ho hs hbo
    have hscale : (wScale.map fun s => s * si)[o]? = some (s * si) := by simp [hs]
    refine ⟨_, ((Spec.dot ns ms : ℤ) : K) * (s * si) + b * (s * si), s * si, by simp [deqRows, hr]; rfl, ?_, hscale, ?_⟩
    · simp only [BiasArg.value, linearRow, List.getElem?_zipWith, deqWeight, ho, hs, hbo, biasScale, hscale, dot_deq]
    · simp only [hclose, if_true]
      push_cast; ring

/-- C34: the integer of the output without bias is a code of the declared container, under the conditions of C33. -/
theorem C34_fits (nx nw : Bool) (bi bw : ℕ) (sx sw : Bool) (linearIn acc : ℕ)
    (hold : HoldsEveryDot sx nx bi sw nw bw linearIn (sx || sw) acc) (ns ms : List ℤ) (hn : ∀ n ∈ ns, Spec.IsCode sx nx bi n)
    (hm : ∀ m ∈ ms, Spec.IsCode sw nw bw m) (hlen : ns.length = linearIn) (hlen' : ms.length = linearIn) :
    Spec.IsCode (sx || sw) false acc (Spec.dot ns ms) := by
  have e : Spec.dot ns ms = ∑ i ∈ Finset.range linearIn, ns.getD i 0 * ms.getD i 0 := by
    clear hold
    subst hlen
    induction ns generalizing ms with
    | nil => simp [Spec.dot]
    | cons n ns ih =>
      cases ms with
      | nil => simp at hlen'
      | cons m ms =>
        rw [List.length_cons, Finset.sum_range_succ']
        simp only [Spec.dot, List.zipWith_cons_cons, List.sum_cons, List.getD_cons_succ, List.getD_cons_zero] at ih ⊢
        rw [ih ms (fun n h => hn n (List.mem_cons_of_mem _ h)) (fun m h => hm m (List.mem_cons_of_mem _ h)) (by simpa using hlen')]
        ring
  rw [e]
  refine hold _ (fun i => ns.getD i 0) (fun i => ms.getD i 0) (by simp) ?_ ?_
  · intro i hi
    have : i < ns.length := by rw [hlen]; exact Finset.mem_range.mp hi
    rw [List.getD_eq_getElem?_getD, List.getElem?_eq_getElem this]; exact hn _ (List.getElem_mem this)
  · intro i hi
    have : i < ms.length := by rw [hlen']; exact Finset.mem_range.mp hi
    rw [List.getD_eq_getElem?_getD, List.getElem?_eq_getElem this]; exact hm _ (List.getElem_mem this)

/-- C34: a signed accumulator plus a signed bias code fits the declared width (the wider of the two plus one). Missing: unsigned accumulators
with negative bias codes (`C34_bias_sign_ignored`). -/
theorem C34_bias_fits_partial (acc bb : ℕ) (hacc : 1 ≤ acc) (hbb : 1 ≤ bb) (n b : ℤ) (hn : Spec.IsCode true false acc n)
    (hb : Spec.IsCode true false bb b) : Spec.IsCode true false (max bb acc + 1) (n + b) := by
  have h1 : (2 : ℤ) ^ (acc - 1) ≤ 2 ^ (max bb acc - 1) := pow_le_pow_right₀ (by norm_num) (by omega)
  have h2 : (2 : ℤ) ^ (bb - 1) ≤ 2 ^ (max bb acc - 1) := pow_le_pow_right₀ (by norm_num) (by omega)
  have h3 : (2 : ℤ) ^ max bb acc = 2 * 2 ^ (max bb acc - 1) := by rw [← pow_succ']; congr 1; omega
  simp only [Spec.IsCode, Spec.lo, Spec.hi, if_true, Bool.false_eq_true, if_false, Nat.add_sub_cancel] at hn hb ⊢
  omega

/-- C34: with a non-zero input or weight zero point the layer returns the plain float output, the linear map of the de-quantised values. -/
theorem C34_zero_point_gives_plain (rank3 : Bool) (rows : List (List K)) (si zi : K) (bi : ℕ) (sx tx : Bool) (w : WeightQT K) (linearIn : ℕ)
    (bias : BiasArg K) (h : zi ≠ 0 ∨ w.zeroPoint ≠ 0) :
    quantLinear rank3 rows si zi bi sx tx w linearIn bias = .plain (rows.map fun x => linearRow x w.value bias.value) := by
  rw [quantLinear.eq_def, if_pos h]

/-- C34 fails for the sign: unsigned input, unsigned weight and a bias of -5 with the accumulator's scale: the output holds the integer -5 but
is declared unsigned. -/
theorem C34_bias_sign_ignored :
    ∃ out, layerOn (K := ℚ) false [[0]] [[1]] 1 [1] 4 4 false false false false 1 (.int [-5] [1] 8 true) = .quant out ∧
      Denotes out 0 0 (-5) ∧ out.signed = false ∧ ¬ Spec.IsCode out.signed false out.bitWidth (-5) := by
  obtain ⟨out, h1, h2, -, -, -, h6⟩ := C34_bias_same_scale (K := ℚ) false [[0]] [[1]] 1 [1] 4 4 false false false false 1 [-5] 8 true
  refine ⟨out, ?_, ?_, by simpa using h2, ?_⟩
  · rw [← h1]; norm_num [biasScale]
  · have := h6 0 0 [0] [1] 1 (-5) rfl rfl rfl rfl
    simpa [Spec.dot] using this
  · rw [h2]
    rintro ⟨h, -⟩
    simp [Spec.lo] at h

/-- C34 fails for three-dimensional inputs with a float bias: the zero point at row 0, channel 1 is computed from the bias of channel 0, so the
output does not denote the dot product (nor, here, any integer). -/
theorem C34_rank3_bias_misplaced :
    ∃ out, layerOn (K := ℚ) true [[1], [1]] [[1], [1]] 1 [1, 1] 4 4 true true false false 1 (.float [0, 1/2]) = .quant out ∧
      (∀ n, ¬ Denotes out 0 1 n) ∧ out.zeroPoint 0 1 = 0 := by
  refine ⟨_, by rw [layerOn, quantLinear, if_neg (by simp)], ?_, by simp⟩
  rintro n ⟨row, v, s, h1, h2, h3, h4⟩
  simp [deqRows, deqWeight, linearRow, BiasArg.value] at h1 h3 h4
  subst h1 h3
  simp at h2
  subst h2
  have : (2 * n : ℤ) = 3 := by
    have h5 : (2 * (n : ℚ)) = 3 := by linarith
    exact_mod_cast h5
  omega

/-- C34: end to end for a layer whose bias is quantised by the integer quantiser with the scale the layer hands to it: every output integer is
the dot product plus the code of the bias, and the bias code is the rounded, clamped quotient of bias and accumulator scale. -/
theorem C34_quantized_bias_end_to_end (c : IntQuantCfg K) (rank3 : Bool) (rowsN rowsM : List (List ℤ)) (si : K) (wScale : List K) (bi bw : ℕ)
    (sx sw tx tw : Bool) (linearIn : ℕ) (biases : List K) (bb : ℕ) (hbb : 1 ≤ bb) :
    ∃ out, layerOn rank3 rowsN rowsM si wScale bi bw sx sw tx tw linearIn
        (.int (List.zipWith (fun b s => c.forward s 0 bb b) biases (biasScale wScale si)) (biasScale wScale si) bb c.signed) = .quant out ∧
      ∀ r o ns ms s b, rowsN[r]? = some ns → rowsM[o]? = some ms → wScale[o]? = some s → biases[o]? = some b →
        ∃ q : ℤ, Spec.IsCode c.signed c.narrow bb q ∧ (q : K) = c.toInt (s * si) 0 bb b ∧ Denotes out r o (Spec.dot ns ms + q) := by
  set bs : List ℤ := List.zipWith (fun b s => code c.signed c.narrow bb (c.floatToInt (b / s + 0))) biases (biasScale wScale si) with hbs
  have e : List.zipWith (fun b s => c.forward s 0 bb b) biases (biasScale wScale si) =
      List.zipWith (fun (n : ℤ) s => (n : K) * s) bs (biasScale wScale si) := by
    apply List.ext_getElem?
    intro o
    simp only [hbs, List.getElem?_zipWith]
    cases biases[o]? with
    | none => simp
    | some b =>
      cases (biasScale wScale si)[o]? with
      | none => simp
      | some s => simp [IntQuantCfg.forward, toInt_eq_code c s 0 hbb]
  obtain ⟨out, h1, -, -, -, -, h6⟩ := C34_bias_same_scale rank3 rowsN rowsM si wScale bi bw sx sw tx tw linearIn bs bb c.signed
  refine ⟨out, by rw [e]; exact h1, ?_⟩
  intro r o ns ms s b hr ho hs hb
  have hq : bs[o]? = some (code c.signed c.narrow bb (c.floatToInt (b / (s * si) + 0))) := by
    simp [hbs, List.getElem?_zipWith, hb, biasScale, hs]
  exact ⟨_, code_isCode c.signed c.narrow hbb _, (toInt_eq_code c (s * si) 0 hbb b).symm, h6 r o ns ms s _ hr ho hs hq⟩

example : HoldsEveryDot false false 8 true true 8 784 true 26 :=
  C33_unsigned_narrow_signed 8 8 784 10 (by norm_num) (by norm_num) (by norm_num) 26 (by decide +kernel)

example : allcloseList [(2 : ℚ)] (biasScale [1] 1) = false := by decide +kernel

end Brevitas.Props
