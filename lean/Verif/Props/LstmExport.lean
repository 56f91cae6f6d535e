import Verif.Lemmas.LstmExport
import Mathlib.Algebra.Field.Rat

/-!
# C123: LSTM layers exported to ONNX

The operator written by the exporter computes what the layer computes. The axis squeezed afterwards is the wrong one: the exported layer is
the layer only when the dimension squeezed happens to be one, and is not a valid graph otherwise.
-/

set_option linter.unusedSectionVars false

namespace Brevitas.Props

open Brevitas Brevitas.Rnn Brevitas.Spec Brevitas.LstmExport

section Float
variable {K : Type*} [Field K] [DecidableEq K]

/-- The operator `LSTM` of the exported layer returns what the layer returns, with a direction axis: outputs, hidden state and cell state. For
every sequence of batches, both layouts, both directions, coupled gates or not, given states or none. -/
theorem C123_operator (l : LstmLayer K) (sigmoid tanh : K → K) (hf : l.cell.IsFloat sigmoid tanh) (g : LstmGates K) (hg : l.gates = some g)
    (hshape : ∀ q ∈ [g.i, g.f, g.c, g.o], q.wIh.length = l.hidden ∧ q.wHh.length = l.hidden ∧ ∃ b, q.bias = some b ∧ b.length = l.hidden)
    (opset : ℕ) (hop : 14 ≤ opset) (B : ℕ) (hB : 0 < B) (xs : List (List (List K))) (hx : IsSequence B xs) (st ct : Option (List (List K)))
    (hst : ∀ s ∈ st, s.length = B ∧ ∀ r ∈ s, r.length = l.hidden) (hct : ∀ s ∈ ct, s.length = B ∧ ∀ r ∈ s, r.length = l.hidden) :
    let inp := if l.batchFirst then swapDims B xs else xs
    ∃ n out h c, layerArgs opset l inp st ct = some n ∧
      (l.forward inp st ct).map (fun r => (r.1.value, r.2.1.value, r.2.2.value)) = some (out, [h], [c]) ∧
      runNode sigmoid tanh n = some
        (if l.batchFirst then out.map (fun s => s.map fun v => [v]) else out.map fun v => [v],
          if l.batchFirst then h.map (fun v => [v]) else [h], if l.batchFirst then c.map (fun v => [v]) else [c]) := by
  obtain ⟨bi, hbi⟩ := (hshape g.i (by simp)).2.2
  obtain ⟨bf, hbf⟩ := (hshape g.f (by simp)).2.2
  obtain ⟨bc, hbc⟩ := (hshape g.c (by simp)).2.2
  obtain ⟨bo, hbo⟩ := (hshape g.o (by simp)).2.2
  obtain ⟨n, outs, h, c, h1, -, -, h2, h3⟩ := node_eq hf hg
    ⟨(hshape g.i (by simp)).1, (hshape g.i (by simp)).2.1, hbi.1, hbi.2⟩ ⟨(hshape g.f (by simp)).1, (hshape g.f (by simp)).2.1, hbf.1, hbf.2⟩
    ⟨(hshape g.c (by simp)).1, (hshape g.c (by simp)).2.1, hbc.1, hbc.2⟩ ⟨(hshape g.o (by simp)).1, (hshape g.o (by simp)).2.1, hbo.1, hbo.2⟩
    hop hB hx hst hct
  refine ⟨n, _, h, c, h1, by rw [h3]; rfl, ?_⟩
  rw [h2]
  unfold putDirection
  cases l.batchFirst <;> rfl

/-- The exported layer computes what the layer computes when the dimension the exporter squeezes is one: a batch of one sample, or with
`batch_first` a sequence of one step. Missing: all the other inputs, for which it is false (`C123_axes_swapped`). -/
theorem C123_export_partial (l : LstmLayer K) (sigmoid tanh : K → K) (hf : l.cell.IsFloat sigmoid tanh) (g : LstmGates K) (hg : l.gates = some g)
    (hshape : ∀ q ∈ [g.i, g.f, g.c, g.o], q.wIh.length = l.hidden ∧ q.wHh.length = l.hidden ∧ ∃ b, q.bias = some b ∧ b.length = l.hidden)
    (opset : ℕ) (hop : 14 ≤ opset) (B : ℕ) (hB : 0 < B) (xs : List (List (List K))) (hx : IsSequence B xs) (st ct : Option (List (List K)))
    (hst : ∀ s ∈ st, s.length = B ∧ ∀ r ∈ s, r.length = l.hidden) (hct : ∀ s ∈ ct, s.length = B ∧ ∀ r ∈ s, r.length = l.hidden)
    (hone : if l.batchFirst then xs.length = 1 else B = 1) :
    let inp := if l.batchFirst then swapDims B xs else xs
    exportedForward sigmoid tanh opset l inp st ct = (l.forward inp st ct).map fun r => (r.1.value, r.2.1.value, r.2.2.value) := by
  obtain ⟨bi, hbi⟩ := (hshape g.i (by simp)).2.2
  obtain ⟨bf, hbf⟩ := (hshape g.f (by simp)).2.2
  obtain ⟨bc, hbc⟩ := (hshape g.c (by simp)).2.2
  obtain ⟨bo, hbo⟩ := (hshape g.o (by simp)).2.2
  obtain ⟨n, outs, h, c, h1, hs, hl, h2, h3⟩ := node_eq hf hg
    ⟨(hshape g.i (by simp)).1, (hshape g.i (by simp)).2.1, hbi.1, hbi.2⟩ ⟨(hshape g.f (by simp)).1, (hshape g.f (by simp)).2.1, hbf.1, hbf.2⟩
    ⟨(hshape g.c (by simp)).1, (hshape g.c (by simp)).2.1, hbc.1, hbc.2⟩ ⟨(hshape g.o (by simp)).1, (hshape g.o (by simp)).2.1, hbo.1, hbo.2⟩
    hop hB hx hst hct
  intro inp
  unfold exportedForward
  rw [float_not_quantized hf]
  simp only [inp, h1, Option.bind_some, h2, h3]
  unfold squeezed putDirection
  cases hbf : l.batchFirst with
  | true =>
    rw [hbf] at hone
    simp only [if_true] at hone ⊢
    rw [hone] at hl
    obtain ⟨o, rfl⟩ := List.length_eq_one_iff.1 hl
    have e : ((swapDims B [o]).map fun s => s.map fun v => [v]) = (swapDims B [o]).map fun s => [s] := by
      apply List.map_congr_left
      intro s hs
      unfold swapDims at hs
      rw [List.mem_map] at hs
      obtain ⟨b, -, rfl⟩ := hs
      rfl
    rw [e, squeeze₁, mapM_theOnly, squeeze₁, mapM_theOnly, squeeze₁, mapM_theOnly]
    rfl
  | false =>
    rw [hbf] at hone
    simp only [Bool.false_eq_true, if_false] at hone ⊢
    subst hone
    have e : ∀ outs : List (List (List K)), (∀ o ∈ outs, o.length = 1) → squeeze₂ (outs.map fun v => [v]) = some outs := by
      intro outs ho
      unfold squeeze₂
      induction outs with
      | nil => rfl
      | cons o outs ih =>
        obtain ⟨v, rfl⟩ := List.length_eq_one_iff.1 (ho o (by simp))
        rw [List.map_cons, List.mapM_cons, ih fun o ho' => ho o (by simp [ho'])]
        rfl
    rw [e outs hs.2]
    rfl

/-- Otherwise the exported layer squeezes a dimension that is not one: whatever the parameters and states, the graph is not valid. Without
`batch_first` the exporter squeezes the batch, with it the sequence. -/
theorem C123_axes_swapped (l : LstmLayer K) (sigmoid tanh : K → K) (hf : l.cell.IsFloat sigmoid tanh) (g : LstmGates K) (hg : l.gates = some g)
    (hshape : ∀ q ∈ [g.i, g.f, g.c, g.o], q.wIh.length = l.hidden ∧ q.wHh.length = l.hidden ∧ ∃ b, q.bias = some b ∧ b.length = l.hidden)
    (opset : ℕ) (hop : 14 ≤ opset) (B : ℕ) (hB : 0 < B) (xs : List (List (List K))) (hx : IsSequence B xs) (st ct : Option (List (List K)))
    (hst : ∀ s ∈ st, s.length = B ∧ ∀ r ∈ s, r.length = l.hidden) (hct : ∀ s ∈ ct, s.length = B ∧ ∀ r ∈ s, r.length = l.hidden)
    (hmany : if l.batchFirst then xs.length ≠ 1 else B ≠ 1) :
    let inp := if l.batchFirst then swapDims B xs else xs
    (l.forward inp st ct).isSome ∧ exportedForward sigmoid tanh opset l inp st ct = none := by
  obtain ⟨bi, hbi⟩ := (hshape g.i (by simp)).2.2
  obtain ⟨bf, hbf⟩ := (hshape g.f (by simp)).2.2
  obtain ⟨bc, hbc⟩ := (hshape g.c (by simp)).2.2
  obtain ⟨bo, hbo⟩ := (hshape g.o (by simp)).2.2
  obtain ⟨n, outs, h, c, h1, hs, hl, h2, h3⟩ := node_eq hf hg
    ⟨(hshape g.i (by simp)).1, (hshape g.i (by simp)).2.1, hbi.1, hbi.2⟩ ⟨(hshape g.f (by simp)).1, (hshape g.f (by simp)).2.1, hbf.1, hbf.2⟩
    ⟨(hshape g.c (by simp)).1, (hshape g.c (by simp)).2.1, hbc.1, hbc.2⟩ ⟨(hshape g.o (by simp)).1, (hshape g.o (by simp)).2.1, hbo.1, hbo.2⟩
    hop hB hx hst hct
  refine ⟨by rw [h3]; rfl, ?_⟩
  unfold exportedForward
  rw [float_not_quantized hf]
  simp only [h1, Option.bind_some, h2]
  unfold squeezed
  cases hbf : l.batchFirst with
  | true =>
    rw [hbf] at hmany
    simp only [if_true] at hmany ⊢
    have : squeeze₁ ((swapDims B outs).map fun s => s.map fun v => [v]) = none := by
      refine mapM_bad (x := (outs.map fun row => row.getD 0 []).map fun v => [v]) ?_ (theOnly_bad (by simpa [hl] using hmany))
      refine List.mem_map.2 ⟨_, ?_, rfl⟩
      unfold swapDims
      exact List.mem_map.2 ⟨0, List.mem_range.2 hB, rfl⟩
    rw [this]
    rfl
  | false =>
    rw [hbf] at hmany
    simp only [Bool.false_eq_true, if_false] at hmany ⊢
    have : squeeze₂ (outs.map fun v => [v]) = none := by
      obtain ⟨o, os, rfl⟩ := List.exists_cons_of_ne_nil hs.1
      refine mapM_bad (x := [o]) (by simp) ?_
      have ho := hs.2 o (by simp)
      exact mapM_bad (x := o) (by simp) (theOnly_bad (by omega))
    rw [this]
    rfl

/-- A layer built without biases computes, and its export raises. -/
theorem C123_no_bias_raises (l : LstmLayer K) (sigmoid tanh : K → K) (opset : ℕ) (hb : l.inputGate.bias = none) (inp : List (List (List K)))
    (st ct : Option (List (List K))) : exportedForward sigmoid tanh opset l inp st ct = none := by
  unfold exportedForward
  have : layerArgs opset l inp st ct = none := by
    unfold layerArgs
    cases hg : l.gates with
    | none => rfl
    | some g =>
      have hi : g.i.bias = none := by
        unfold LstmLayer.gates at hg
        rw [Option.map_eq_some_iff] at hg
        obtain ⟨f, -, rfl⟩ := hg
        simp [GateParams.fwd, hb]
      simp only [Option.bind_some, nodeArgs, hi, Option.bind_none, ite_self]
  rw [this]
  split <;> rfl

/-- A cell some of whose quantisers are enabled and some not cannot be exported. -/
theorem C123_partially_quantised_raises (c : LstmCell K) (p q : String × ActProxy K) (hp : p ∈ proxies c) (hq : q ∈ proxies c)
    (hpe : p.2.isQuantEnabled = true) (hqe : q.2.isQuantEnabled = false) : quantizedCell c = none := by
  unfold quantizedCell
  rw [if_neg, if_neg]
  · intro h
    have := List.all_eq_true.1 h p hp
    simp [hpe] at this
  · intro h
    have := List.all_eq_true.1 h q hq
    rw [hqe] at this
    exact absurd this (by decide)

end Float

/-- A layer with two units, for the examples. -/
def exampleLstm (batchFirst cifg bias : Bool) : LstmLayer ℚ :=
  let plain : ActProxy ℚ := {}
  let act : ActProxy ℚ := { act := some fun v => v / 2 }
  let gate : ℚ → GateParams ℚ := fun k =>
    { inputWeight := [[k], [1]], hiddenWeight := [[0, k], [1, 0]], bias := if bias then some [k, 3] else none }
  { cell := ⟨plain, plain, plain, plain, plain, plain, act, act, act, act, act, cifg⟩, inputGate := gate 1, forgetGate := if cifg then none else some (gate 2),
    cellGate := gate 3, outputGate := gate 4, hidden := 2, batchFirst := batchFirst, reverse := false, quantizeOutputOnly := false,
    returnQT := false }

/-- Non-vacuity: the layer meets the hypotheses, with and without coupled gates, in both layouts. -/
theorem exampleLstm_float (batchFirst cifg bias : Bool) : (exampleLstm batchFirst cifg bias).cell.IsFloat (fun v => v / 2) (fun v => v / 2) :=
  ⟨⟨rfl, rfl, rfl, rfl, rfl, rfl, rfl, rfl, rfl, rfl, rfl⟩, ⟨rfl, rfl, rfl, rfl, rfl, rfl⟩, ⟨rfl, rfl, rfl⟩, ⟨rfl, rfl⟩⟩

theorem exampleLstm_gates (batchFirst cifg : Bool) : ∃ g, (exampleLstm batchFirst cifg true).gates = some g ∧
    ∀ q ∈ [g.i, g.f, g.c, g.o], q.wIh.length = 2 ∧ q.wHh.length = 2 ∧ ∃ b, q.bias = some b ∧ b.length = 2 := by
  cases cifg
  · refine ⟨_, rfl, ?_⟩
    intro q hq
    simp only [List.mem_cons, List.not_mem_nil, or_false] at hq
    rcases hq with rfl | rfl | rfl | rfl <;> exact ⟨rfl, rfl, _, rfl, rfl⟩
  · refine ⟨_, rfl, ?_⟩
    intro q hq
    simp only [List.mem_cons, List.not_mem_nil, or_false] at hq
    rcases hq with rfl | rfl | rfl | rfl <;> exact ⟨rfl, rfl, _, rfl, rfl⟩

example : IsSequence 2 [[[1], [2]], [[3], [4]], [[5], [(6 : ℚ)]]] := ⟨by simp, by decide⟩

/-- Two samples and one step: exported with `batch_first`, not without. -/
example : let x : List (List (List ℚ)) := [[[1], [2]]]
    (exportedForward (fun v => v / 2) (fun v => v / 2) 14 (exampleLstm true false true) (swapDims 2 x) none none).isSome ∧
      exportedForward (fun v => v / 2) (fun v => v / 2) 14 (exampleLstm false false true) x none none = none := by
  constructor <;> decide +kernel

/-- One sample and two steps: exported without `batch_first`, and the values are those of the layer. -/
example : let x : List (List (List ℚ)) := [[[1]], [[2]]]
    exportedForward (fun v => v / 2) (fun v => v / 2) 14 (exampleLstm false true true) x none none =
      ((exampleLstm false true true).forward x none none).map fun r => (r.1.value, r.2.1.value, r.2.2.value) := by
  decide +kernel

/-- Without biases the layer computes. -/
example : ((exampleLstm false false false).forward [[[1]], [[2]]] none none).isSome := by decide +kernel

/-! ## Quantised cells -/

/-- The values handed to the custom operator by position land on the parameters of the same name: for every quantiser, all six of its values.
With coupled gates the cell uses the input quantisers for the forget gate, so the duplicated values are the ones of the gate. -/
theorem C123_quantised_arguments {V : Type*} (batchFirst reverse cifg : V) (isCifg : Bool) (q : String → QuantParams V)
    (hc : isCifg = true → q "forget_acc" = q "input_acc" ∧ q "forget_sigmoid" = q "input_sigmoid") :
    ("batch_first", batchFirst) ∈ bound (symbolicKwargs batchFirst reverse cifg isCifg q) ∧
      ("reverse_input", reverse) ∈ bound (symbolicKwargs batchFirst reverse cifg isCifg q) ∧
      ("cifg", cifg) ∈ bound (symbolicKwargs batchFirst reverse cifg isCifg q) ∧
      (∀ name ∈ quantizerNames,
        (name ++ "_scale", (q name).scale) ∈ bound (symbolicKwargs batchFirst reverse cifg isCifg q) ∧
        (name ++ "_zero_point", (q name).zeroPoint) ∈ bound (symbolicKwargs batchFirst reverse cifg isCifg q) ∧
        (name ++ "_bit_width", (q name).bitWidth) ∈ bound (symbolicKwargs batchFirst reverse cifg isCifg q) ∧
        (name ++ "_narrow_range", (q name).narrowRange) ∈ bound (symbolicKwargs batchFirst reverse cifg isCifg q) ∧
        (name ++ "_signed", (q name).signed) ∈ bound (symbolicKwargs batchFirst reverse cifg isCifg q) ∧
        (name ++ "_rounding_mode", (q name).roundingMode) ∈ bound (symbolicKwargs batchFirst reverse cifg isCifg q)) ∧
      ((bound (symbolicKwargs batchFirst reverse cifg isCifg q)).map Prod.fst).Nodup := by
  have key : symbolicKwargs batchFirst reverse cifg isCifg q =
      [("batch_first", batchFirst), ("reverse_input", reverse), ("cifg", cifg)] ++ quantizerNames.flatMap fun name => entries name (q name) := by
    cases isCifg
    · rfl
    · obtain ⟨h1, h2⟩ := hc rfl
      simp only [symbolicKwargs, quantizerNames, List.flatMap_cons, List.flatMap_nil, Bool.true_and]
      simp (decide := true) only [if_true, if_false]
      rw [h1, h2]
  have hb : bound (symbolicKwargs batchFirst reverse cifg isCifg q) =
      [("batch_first", batchFirst), ("reverse_input", reverse), ("cifg", cifg)] ++ quantizerNames.flatMap fun name => entries name (q name) := by
    rw [key]
    rfl
  have hmem : ∀ name ∈ quantizerNames, ∀ e ∈ entries name (q name), e ∈ bound (symbolicKwargs batchFirst reverse cifg isCifg q) := by
    intro name hn e he
    rw [hb]
    exact List.mem_append_right _ (List.mem_flatMap.2 ⟨name, hn, he⟩)
  refine ⟨by rw [hb]; simp, by rw [hb]; simp, by rw [hb]; simp, ?_, ?_⟩
  · intro name hn
    refine ⟨hmem name hn _ ?_, hmem name hn _ ?_, hmem name hn _ ?_, hmem name hn _ ?_, hmem name hn _ ?_, hmem name hn _ ?_⟩ <;> simp [entries]
  · have : (bound (symbolicKwargs batchFirst reverse cifg isCifg q)).map Prod.fst = symbolicParams := by
      rw [hb]
      rfl
    rw [this]
    decide +kernel

/-- Non-vacuity: the quantisers differ, and with coupled gates the two pairs are equal. -/
example : ∃ q : String → QuantParams ℕ, (q "forget_acc" = q "input_acc" ∧ q "forget_sigmoid" = q "input_sigmoid") ∧ q "output" ≠ q "input_acc" :=
  ⟨fun s => if s = "output" then ⟨1, 2, 3, 4, 5, 6⟩ else ⟨0, 0, 0, 0, 0, 0⟩, ⟨rfl, rfl⟩, by
    intro h
    have := congrArg QuantParams.scale h
    exact absurd this (by decide)⟩

/-- The narrow range of the output gate is written under a name that does not follow the others: the attribute that its name predicts is
missing. -/
theorem C123_attribute_name_differs : ("output_sigmoid_narrow", "output_sigmoid_narrow_range") ∉ narrowAttributes ∧
    ∀ name ∈ quantizerNames, name ≠ "output_sigmoid" → (name ++ "_narrow", name ++ "_narrow_range") ∈ narrowAttributes := by
  constructor <;> decide +kernel

end Brevitas.Props
