import Verif.Lemmas.Rnn
import Mathlib.Algebra.Order.Ring.Rat
import Mathlib.Algebra.Field.Rat

set_option linter.unusedSectionVars false

/-!
# C66: recurrent layers without quantisers
-/

namespace Brevitas.Props

open Brevitas.Rnn
open Brevitas.Spec (FloatGate elmanStep lstmStep coupledLstmStep batchStep batchStep₂ directionRun directions giveStates
  stackRun rnnRun lstmRun gateRows zeroState IsSequence vadd)

variable {K : Type*} [Field K] [DecidableEq K]

/-! ## C66: without quantisers, the network of PyTorch -/

/-- A float gate of `hidden` units: that many rows, and biases of that length. -/
def GateShape (hidden : ℕ) (g : FloatGate K) : Prop :=
  g.wIh.length = hidden ∧ g.wHh.length = hidden ∧ ∀ b ∈ g.bias, b.1.length = hidden ∧ b.2.length = hidden

/-- What a direction of a quantised stack is built from, when the parameters of a float RNN are loaded and no quantiser
is configured. -/
def loadedRnn (hidden : ℕ) (g : FloatGate K) : GateParams K × ActProxy K :=
  (loadRnnGate hidden g.wIh g.wHh g.bias, {})

/-- A `QuantRNN` without quantisers that has loaded the parameters of a float RNN. -/
def floatRnn (act : K → K) (hidden : ℕ) (batchFirst returnQT : Bool)
    (params : List (FloatGate K × Option (FloatGate K))) : List (List (RnnLayer K)) :=
  buildRnn act {} hidden batchFirst returnQT 0 (params.map fun p => (loadedRnn hidden p.1, p.2.map (loadedRnn hidden)))

/-- The layer of a quantised stack that stands for a direction of a float one. -/
def RnnFor (act : K → K) (hidden : ℕ) (l : RnnLayer K) (d : Bool × FloatGate K) : Prop :=
  l.batchFirst = false ∧ l.reverse = d.1 ∧ l.hidden = hidden ∧ l.cell = ⟨act, {}, {}⟩ ∧ Carries l.gate.fwd d.2

theorem loadRnnGate_carries {hidden : ℕ} {g : FloatGate K} (h : GateShape hidden g) :
    Carries (loadRnnGate hidden g.wIh g.wHh g.bias).fwd g := by
  obtain ⟨h1, h2, h3⟩ := h
  refine ⟨?_, ?_, ?_⟩
  · exact List.take_of_length_le (by omega)
  · exact List.take_of_length_le (by omega)
  · change (loadBias hidden g.bias).map id = _
    rw [Option.map_id, id, loadBias_eq _ _ h3]

theorem floatRnn_for (act : K → K) (hidden : ℕ) (rq : Bool) (params : List (FloatGate K × Option (FloatGate K)))
    (hs : ∀ p ∈ params, ∀ d ∈ directions p, GateShape hidden d.2) (n : ℕ) :
    List.Forall₂ (List.Forall₂ (RnnFor act hidden))
      (buildRnn act {} hidden false rq n (params.map fun p => (loadedRnn hidden p.1, p.2.map (loadedRnn hidden))))
      (params.map directions) := by
  induction params generalizing n with
  | nil => exact .nil
  | cons p params ih =>
    rw [List.map_cons, List.map_cons, buildRnn]
    refine .cons ?_ (ih (fun q hq => hs q (by simp [hq])) _)
    have hp := hs p (by simp)
    obtain ⟨f, b⟩ := p
    refine .cons ⟨rfl, rfl, rfl, rfl, loadRnnGate_carries (hp (false, f) (by simp [directions]))⟩ ?_
    cases b with
    | none => exact .nil
    | some b =>
      exact .cons ⟨rfl, rfl, rfl, rfl, loadRnnGate_carries (hp (true, b) (by simp [directions]))⟩ .nil

theorem quantizeInput_plain (qo : Bool) (inp : Tensor3 K) : maybeQuantizeInput qo ({} : ActProxy K) inp = inp := by
  have e : ({} : ActProxy K).forward = id := rfl
  unfold maybeQuantizeInput
  cases qo <;> simp [e]

theorem RnnFor.fwd {act : K → K} {hidden B : ℕ} {l : RnnLayer K} {d : Bool × FloatGate K} (h : RnnFor act hidden l d)
    {inp : Tensor3 K} (hB : IsSequence B inp) (st : Option (Batch K)) :
    ((l.forward inp st).map fun r => (r.1.value, r.2.value)) =
      some ((rnnRun act d (iniState B hidden {} st) inp).1, [(rnnRun act d (iniState B hidden {} st) inp).2]) := by
  obtain ⟨h1, h2, h3, h4, h5⟩ := h
  rw [l.forward_seq h1 inp hB st]
  have hstep : ∀ s x, l.step s x = batchStep (elmanStep act d.2) s x := by
    intro s x
    unfold RnnLayer.step
    rw [RnnCell.forwardIter_float _ _ d.2 h5 (by rw [h4]) (by rw [h4]) (by rw [h4]) (by rw [h4]), h4]
  rw [directionRun_congr _ _ _ _ _ hstep, h4, h3, h2, quantizeInput_plain]
  rfl

theorem rnnRun_isSequence {act : K → K} {hidden B : ℕ} (d : Bool × FloatGate K) (st : Option (Batch K))
    (hst : ∀ s ∈ st, s.length = B) (inp : Tensor3 K) (hB : IsSequence B inp) :
    IsSequence B (rnnRun act d (iniState B hidden {} st) inp).1 ∧
      (rnnRun act d (iniState B hidden {} st) inp).1.length = inp.length := by
  apply seq_directionRun (P := fun s => s.length = B) _ _ _ _ _ hB.1 (iniState_length hst)
  · intro s hs x hx
    unfold batchStep
    rw [List.length_zipWith, hs, hB.2 x hx, Nat.min_self]
  · intro s hs
    exact hs

theorem floatRnn_forward (act : K → K) (hidden B : ℕ) (rq : Bool) (params : List (FloatGate K × Option (FloatGate K)))
    (hne : params ≠ []) (hs : ∀ p ∈ params, ∀ d ∈ directions p, GateShape hidden d.2) (inp : Tensor3 K)
    (hB : IsSequence B inp) (hx : Option (Tensor3 K)) (st : ℕ → ℕ → Option (Batch K))
    (hst : ∀ i d, ∀ s ∈ st i d, s.length = B)
    (hat : ∀ (i : ℕ) (hi : i < params.length) (d : ℕ), d < (directions params[i]).length →
      stateAt hx (2 * i + d) = some (st i d)) :
    rnnForward (floatRnn act hidden false rq params) inp hx =
      some (stackRun (rnnRun act) (enumLayers (fun l d => iniState B hidden {} (st l d)) 0 (params.map directions)) inp)
      := by
  unfold rnnForward floatRnn
  have hrel := floatRnn_for act hidden rq params hs 0
  obtain ⟨layers, hlayers⟩ : ∃ layers, layers = buildRnn act {} hidden false rq 0
    (params.map fun p => (loadedRnn hidden p.1, p.2.map (loadedRnn hidden))) := ⟨_, rfl⟩
  rw [← hlayers] at hrel ⊢
  have hlen : layers.length = params.length := by rw [hrel.length_eq, List.length_map]
  rw [if_neg (by
    rw [List.isEmpty_iff]
    intro h0
    rw [h0] at hlen
    exact hne (List.length_eq_zero_iff.1 hlen.symm))]
  rw [layersLoop_eq _ (rnnRun act) (RnnFor act hidden) (iniState B hidden {}) (fun s => [s]) (IsSequence B)
    (stateAt hx) st layers (params.map directions) hrel 0 inp hB]
  · simp only [Option.map_some]
    congr 2
    induction (stackRun (rnnRun act) _ inp).2 with
    | nil => rfl
    | cons a as ih => simp only [List.map_cons, List.flatten_cons, ih, List.singleton_append]
  · intro x hx'
    rw [List.mem_map] at hx'
    obtain ⟨p, -, rfl⟩ := hx'
    simp [directions]
  · intro i hi d hd
    rw [Nat.zero_add]
    apply hat i (by omega)
    have := List.Forall₂.get hrel hi (by simpa [hlen] using hi)
    simp only [List.get_eq_getElem, List.getElem_map] at this
    rw [← this.length_eq]
    exact hd
  · intro x y hxy inp hinp s
    exact hxy.fwd hinp s
  · intro ss hss hne' inp hinp
    refine (seq_layerRun (rnnRun act) ss hne' inp ?_).1
    intro p hp
    obtain ⟨-, i, j, e⟩ := hss p hp
    rw [e]
    exact rnnRun_isSequence _ _ (hst i j) inp hinp

/-- A quantised RNN without quantisers, loaded from a float RNN, computes the same outputs and final states, for every
number of layers, one or two directions, with or without biases, for every sequence, batch size and activation, when
started without a state. -/
theorem C66_rnn_matches_float (act : K → K) (hidden B : ℕ) (rq : Bool)
    (params : List (FloatGate K × Option (FloatGate K))) (hne : params ≠ [])
    (hs : ∀ p ∈ params, ∀ d ∈ directions p, GateShape hidden d.2) (inp : Tensor3 K) (hB : IsSequence B inp) :
    rnnForward (floatRnn act hidden false rq params) inp none =
      some (stackRun (rnnRun act) (params.map fun p => (directions p).map fun d => (d, zeroState B hidden)) inp) := by
  rw [floatRnn_forward act hidden B rq params hne hs inp hB none (fun _ _ => none) (by simp) (by
    intro i hi d hd
    rfl), enumLayers_const]
  rw [List.map_map]
  rfl

/-- A gate of one unit with one input, and a bidirectional two-layer stack of such gates. -/
def oneGate (w u b c : ℚ) : FloatGate ℚ := ⟨[[w]], [[u]], some ([b], [c])⟩

/-- A gate of one unit with two inputs. -/
def twoGate (w w' u : ℚ) : FloatGate ℚ := ⟨[[w, w']], [[u]], none⟩

def biStack : List (FloatGate ℚ × Option (FloatGate ℚ)) :=
  [(oneGate 1 (1/2) 1 0, some (oneGate 2 1 0 (-1))), (twoGate 1 1 0, some (twoGate 1 (-1) 1))]

theorem biStack_shape : ∀ p ∈ biStack, ∀ d ∈ directions p, GateShape 1 d.2 := by
  unfold GateShape
  simp [biStack, directions, oneGate, twoGate]

-- the hypotheses are met by a bidirectional stack of two layers, with and without biases; the outputs are not zero
example : rnnForward (floatRnn (fun x : ℚ => max x 0) 1 false true biStack) [[[1]], [[-3]]] none =
    some (stackRun (rnnRun fun x : ℚ => max x 0)
      (biStack.map fun p => (directions p).map fun d => (d, zeroState 1 1)) [[[1]], [[-3]]]) :=
  C66_rnn_matches_float _ 1 1 true biStack (by decide) biStack_shape _ ⟨by decide, by decide⟩

example : rnnForward (floatRnn (fun x : ℚ => max x 0) 1 false true biStack) [[[1]], [[-3]]] none =
    some ([[[3, 1]], [[0, 0]]], [[[2 * 0]], [[1]], [[0]], [[1]]]) := by decide +kernel

theorem ini_plain (B hidden : ℕ) (s : Batch K) : iniState B hidden ({} : ActProxy K) (some s) = s := by
  have e : ({} : ActProxy K).forward = id := rfl
  unfold iniState
  simp [e]

theorem sum_two {α : Type*} (params : List (α × Option α)) (h2 : ∀ p ∈ params, (directions p).length = 2) :
    (params.map fun p => (directions p).length).sum = 2 * params.length := by
  induction params with
  | nil => rfl
  | cons p ps ih =>
    rw [List.map_cons, List.sum_cons, h2 p (by simp), ih (fun q hq => h2 q (by simp [hq])), List.length_cons]
    omega

/-- The same when the initial states are given, in the layout of PyTorch (layer by layer, and within a layer direction by
direction).  Partial: the stack must be bidirectional or have a single layer; see `C66_given_states_raise` for the other
stacks. -/
theorem C66_rnn_given_states_partial (act : K → K) (hidden B : ℕ) (rq : Bool)
    (params : List (FloatGate K × Option (FloatGate K))) (hne : params ≠ [])
    (hs : ∀ p ∈ params, ∀ d ∈ directions p, GateShape hidden d.2) (inp : Tensor3 K) (hB : IsSequence B inp)
    (hdir : (∀ p ∈ params, (directions p).length = 2) ∨ params.length = 1)
    (hx : Tensor3 K) (hlen : hx.length = (params.map fun p => (directions p).length).sum)
    (hxB : ∀ s ∈ hx, s.length = B) :
    rnnForward (floatRnn act hidden false rq params) inp (some hx) =
      some (stackRun (rnnRun act) (giveStates (params.map directions) hx) inp) := by
  rw [floatRnn_forward act hidden B rq params hne hs inp hB (some hx) (fun l d => hx[2 * l + d]?) (by
      intro i d s h
      exact hxB s (List.mem_of_getElem? h)) (by
      intro i hi d hd
      unfold stateAt
      simp only
      rw [pyIndex_nat]
      have hlt : 2 * i + d < hx.length := by
        rcases hdir with h2 | h1
        · have := sum_two params h2
          rw [h2 _ (List.getElem_mem hi)] at hd
          omega
        · match params, h1 with
          | [p], _ =>
            simp only [List.length_singleton] at hi
            have : i = 0 := by omega
            subst this
            simp only [List.getElem_cons_zero] at hd
            simp only [List.map_cons, List.map_nil, List.sum_cons, List.sum_nil] at hlen
            omega
      rw [List.getElem?_eq_getElem hlt]
      rfl)]
  congr 2
  rcases hdir with h2 | h1
  · have hl2 : hx.length = 2 * params.length := by
      rw [hlen, sum_two params h2]
    have := giveStates_two (params.map directions) (by
      intro x hx'
      rw [List.mem_map] at hx'
      obtain ⟨p, hp, rfl⟩ := hx'
      exact h2 p hp) hx 0 (fun l d => iniState B hidden {} (hx[2 * l + d]?)) (by simpa using hl2) (by
      intro i d hd _ hi
      simp only [List.length_map, Nat.zero_add] at hi
      have hlt : 2 * i + d < hx.length := by omega
      rw [List.getElem?_eq_getElem hlt, ini_plain])
    rw [← this, Nat.mul_zero, List.drop_zero]
  · obtain ⟨p, rfl⟩ := List.length_eq_one_iff.1 h1
    · simp only [List.map_cons, List.map_nil, List.sum_cons, List.sum_nil] at hlen
      symm
      apply giveStates_one
      intro d hd
      have hlt : d < hx.length := by omega
      change hx[d]? = some (iniState B hidden {} (hx[2 * 0 + d]?))
      rw [show 2 * 0 + d = d by omega, List.getElem?_eq_getElem hlt, ini_plain]

example : rnnForward (floatRnn (fun x : ℚ => max x 0) 1 false true biStack) [[[1]], [[-3]]]
      (some [[[1]], [[2]], [[3]], [[4]]]) =
    some (stackRun (rnnRun fun x : ℚ => max x 0)
      (giveStates (biStack.map directions) [[[1]], [[2]], [[3]], [[4]]]) [[[1]], [[-3]]]) :=
  C66_rnn_given_states_partial _ 1 1 true biStack (by decide) biStack_shape _ ⟨by decide, by decide⟩
    (Or.inl (by simp [biStack, directions])) _ (by simp [biStack, directions]) (by decide)

/-- Missing from the previous theorem: a stack of two or more layers with one direction rejects every state of the shape
it itself returns (one entry per layer). -/
theorem C66_given_states_raise (act : K → K) (io : ActProxy K) (hidden : ℕ) (bf rq : Bool)
    (params : List (GateParams K × ActProxy K)) (h2 : 2 ≤ params.length) (inp hx : Tensor3 K)
    (hlen : hx.length = params.length) :
    rnnForward (buildRnn act io hidden bf rq 0 (params.map fun p => (p, none))) inp (some hx) = none := by
  have key : ∀ (ps : List (GateParams K × ActProxy K)) (l : ℕ) (inp : Tensor3 K), ps ≠ [] →
      l + ps.length = params.length →
      layersLoop (fun l x s => (RnnLayer.forward l x s).map fun r => (r.1.value, r.2.value)) (stateAt (some hx)) l
        (buildRnn act io hidden bf rq l (ps.map fun p => (p, none))) inp = none := by
    intro ps
    induction ps with
    | nil => intro l inp h _; exact absurd rfl h
    | cons p ps ih =>
      intro l inp _ hl
      rw [List.map_cons, buildRnn, layersLoop]
      simp only [Option.map_none, Option.toList_none, directionsLoop, Nat.add_zero]
      by_cases hlt : 2 * l < hx.length
      · have hps : ps ≠ [] := by
          intro h0
          rw [h0] at hl
          simp only [List.length_singleton] at hl
          omega
        have := fun inp => ih (l + 1) inp hps (by simp only [List.length_cons] at hl; omega)
        cases stateAt (some hx) (2 * l) with
        | none => rfl
        | some s =>
          simp only [Option.bind_some, Option.map_some]
          cases RnnLayer.forward _ inp s with
          | none => rfl
          | some r =>
            simp only [Option.map_some, Option.bind_some, List.map_cons, List.map_nil]
            unfold catLastAll
            simp only [List.foldl_nil, Option.bind_some]
            rw [this]
            rfl
      · have : stateAt (some hx) (2 * l) = none := by
          unfold stateAt
          simp only
          rw [pyIndex_nat, List.getElem?_eq_none (by omega)]
          rfl
        rw [this]
        rfl
  unfold rnnForward
  rw [if_neg]
  · rw [key params 0 inp (by rintro rfl; simp at h2) (by omega)]
    rfl
  · cases params with
    | nil => simp at h2
    | cons p ps => simp [buildRnn]

example : rnnForward (buildRnn (fun x : ℚ => x) {} 1 false false 0
    ([(⟨[[1]], [[1]], none, id, id⟩, {}), (⟨[[1]], [[1]], none, id, id⟩, {})].map fun p => (p, none)))
    [[[1]]] (some [[[0]], [[0]]]) = none :=
  C66_given_states_raise _ _ 1 false false _ (by decide) _ _ rfl

/-! ### LSTM -/

/-- The stacked parameters of a float LSTM layer of `hidden` units. -/
def LstmShape (hidden : ℕ) (g : FloatGate K) : Prop := GateShape (4 * hidden) g

/-- The cell of a quantised LSTM without quantisers. -/
def plainLstmCell (sigmoid tanh : K → K) (cifg : Bool) : LstmCell K :=
  { outputQuant := {}, cellStateQuant := {}, inputAccQuant := {}, forgetAccQuant := {}, cellAccQuant := {},
    outputAccQuant := {}, inputSigmoidQuant := { act := some sigmoid }, forgetSigmoidQuant := { act := some sigmoid },
    cellTanhQuant := { act := some tanh }, outputSigmoidQuant := { act := some sigmoid },
    hiddenStateTanhQuant := { act := some tanh }, cifg := cifg }

/-- What a direction of a quantised LSTM is built from, when the stacked parameters of a float LSTM are loaded and no
quantiser is configured. -/
def loadedLstm (sigmoid tanh : K → K) (hidden : ℕ) (g : FloatGate K) : LstmCell K × (Fin 4 → GateParams K) :=
  (plainLstmCell sigmoid tanh false, fun i => loadLstmGate hidden i g.wIh g.wHh g.bias)

/-- A `QuantLSTM` without quantisers that has loaded the parameters of a float LSTM. -/
def floatLstm (sigmoid tanh : K → K) (hidden : ℕ) (batchFirst returnQT : Bool)
    (params : List (FloatGate K × Option (FloatGate K))) : List (List (LstmLayer K)) :=
  buildLstm {} hidden batchFirst returnQT 0
    (params.map fun p => (loadedLstm sigmoid tanh hidden p.1, p.2.map (loadedLstm sigmoid tanh hidden)))

theorem slice_eq {α : Type*} (hidden i : ℕ) (v : List α) (d : α) (h : (i + 1) * hidden ≤ v.length) :
    slice hidden i v = (List.range hidden).map fun r => v.getD (i * hidden + r) d := by
  unfold slice
  have e : (i + 1) * hidden = i * hidden + hidden := by rw [Nat.succ_mul]
  apply List.ext_getElem
  · rw [List.length_take, List.length_drop, List.length_map, List.length_range]
    omega
  · intro n h1 h2
    rw [List.length_map, List.length_range] at h2
    rw [List.getElem_take, List.getElem_drop, List.getElem_map, List.getElem_range, List.getD_eq_getElem?_getD,
      List.getElem?_eq_getElem (by omega), Option.getD_some]

theorem loadLstmGate_carries {hidden : ℕ} {g : FloatGate K} (h : LstmShape hidden g) (i : ℕ) (hi : i < 4) :
    Carries (loadLstmGate hidden i g.wIh g.wHh g.bias).fwd (gateRows hidden i g) := by
  obtain ⟨h1, h2, h3⟩ := h
  have hle : (i + 1) * hidden ≤ 4 * hidden := Nat.mul_le_mul_right _ hi
  refine ⟨?_, ?_, ?_⟩
  · exact slice_eq _ _ _ _ (by omega)
  · exact slice_eq _ _ _ _ (by omega)
  · change (loadBias hidden (g.bias.map fun b => (slice hidden i b.1, slice hidden i b.2))).map id = _
    unfold gateRows
    simp only
    rw [Option.map_id, id]
    cases hb : g.bias with
    | none => rfl
    | some b =>
      obtain ⟨hb1, hb2⟩ := h3 b (by rw [hb]; rfl)
      simp only [Option.map_some]
      rw [slice_eq hidden i b.1 0 (by omega), slice_eq hidden i b.2 0 (by omega), loadBias_eq]
      · rfl
      · intro x hx
        simp only [Option.mem_def, Option.some.injEq] at hx
        rw [← hx]
        simp

/-- The layer of a quantised LSTM that stands for a direction of a float one. -/
def LstmFor (sigmoid tanh : K → K) (hidden : ℕ) (l : LstmLayer K) (d : Bool × FloatGate K) : Prop :=
  l.batchFirst = false ∧ l.reverse = d.1 ∧ l.hidden = hidden ∧ l.cell = plainLstmCell sigmoid tanh false ∧
    ∃ g, l.gates = some g ∧ Carries g.i (gateRows hidden 0 d.2) ∧ Carries g.f (gateRows hidden 1 d.2) ∧
      Carries g.c (gateRows hidden 2 d.2) ∧ Carries g.o (gateRows hidden 3 d.2)

theorem floatLstm_for (sigmoid tanh : K → K) (hidden : ℕ) (rq : Bool)
    (params : List (FloatGate K × Option (FloatGate K)))
    (hs : ∀ p ∈ params, ∀ d ∈ directions p, LstmShape hidden d.2) (n : ℕ) :
    List.Forall₂ (List.Forall₂ (LstmFor sigmoid tanh hidden))
      (buildLstm {} hidden false rq n
        (params.map fun p => (loadedLstm sigmoid tanh hidden p.1, p.2.map (loadedLstm sigmoid tanh hidden))))
      (params.map directions) := by
  induction params generalizing n with
  | nil => exact .nil
  | cons p params ih =>
    rw [List.map_cons, List.map_cons, buildLstm]
    refine .cons ?_ (ih (fun q hq => hs q (by simp [hq])) _)
    have hp := hs p (by simp)
    obtain ⟨f, b⟩ := p
    have mk : ∀ (d : Bool × FloatGate K), LstmShape hidden d.2 → ∀ (q : Bool) (r : Bool),
        LstmFor sigmoid tanh hidden
          { cell := { plainLstmCell sigmoid tanh false with outputQuant := {} },
            inputGate := loadLstmGate hidden 0 d.2.wIh d.2.wHh d.2.bias,
            forgetGate := some (loadLstmGate hidden 1 d.2.wIh d.2.wHh d.2.bias),
            cellGate := loadLstmGate hidden 2 d.2.wIh d.2.wHh d.2.bias,
            outputGate := loadLstmGate hidden 3 d.2.wIh d.2.wHh d.2.bias,
            hidden := hidden, batchFirst := false, reverse := d.1, quantizeOutputOnly := q, returnQT := r } d := by
      intro d hd q r
      refine ⟨rfl, rfl, rfl, rfl, _, rfl, ?_, ?_, ?_, ?_⟩
      · exact loadLstmGate_carries hd 0 (by omega)
      · exact loadLstmGate_carries hd 1 (by omega)
      · exact loadLstmGate_carries hd 2 (by omega)
      · exact loadLstmGate_carries hd 3 (by omega)
    refine .cons (mk (false, f) (hp (false, f) (by simp [directions])) _ _) ?_
    cases b with
    | none => exact .nil
    | some b => exact .cons (mk (true, b) (hp (true, b) (by simp [directions])) _ _) .nil

theorem plainLstmCell_isFloat (sigmoid tanh : K → K) (cifg : Bool) :
    (plainLstmCell sigmoid tanh cifg).IsFloat sigmoid tanh :=
  ⟨⟨rfl, rfl, rfl, rfl, rfl, rfl, rfl, rfl, rfl, rfl, rfl⟩, ⟨rfl, rfl, rfl, rfl, rfl, rfl⟩, ⟨rfl, rfl, rfl⟩, ⟨rfl, rfl⟩⟩

/-- The initial states of a layer from the two optional given ones. -/
def iniPair (B hidden : ℕ) (s : Option (Batch K) × Option (Batch K)) : Batch K × Batch K :=
  (iniState B hidden {} s.1, iniState B hidden {} s.2)

theorem LstmFor.fwd {sigmoid tanh : K → K} {hidden B : ℕ} {l : LstmLayer K} {d : Bool × FloatGate K}
    (h : LstmFor sigmoid tanh hidden l d) {inp : Tensor3 K} (hB : IsSequence B inp)
    (s : Option (Batch K) × Option (Batch K)) :
    ((l.forward inp s.1 s.2).map fun r => (r.1.value, (r.2.1.value, r.2.2.value))) =
      some ((lstmRun sigmoid tanh hidden d (iniPair B hidden s) inp).1,
        ([(lstmRun sigmoid tanh hidden d (iniPair B hidden s) inp).2.1],
          [(lstmRun sigmoid tanh hidden d (iniPair B hidden s) inp).2.2])) := by
  obtain ⟨h1, h2, h3, h4, g, hg, gi, gf, gc, go⟩ := h
  rw [l.forward_seq h1 g hg inp hB]
  have hstep : ∀ s x, l.cell.step g s x = batchStep₂ (lstmStep sigmoid tanh (gateRows hidden 0 d.2)
      (gateRows hidden 1 d.2) (gateRows hidden 2 d.2) (gateRows hidden 3 d.2)) s x := by
    intro s x
    unfold LstmCell.step
    rw [h4]
    exact LstmCell.step_float _ sigmoid tanh (plainLstmCell_isFloat sigmoid tanh false) rfl g _ _ _ _ gi gf gc go s x
  rw [directionRun_congr _ _ _ _ _ hstep, h4, h3, h2]
  have e : (plainLstmCell sigmoid tanh false).outputQuant = {} := rfl
  rw [e, quantizeInput_plain]
  rfl

theorem lstmRun_isSequence {sigmoid tanh : K → K} {hidden B : ℕ} (d : Bool × FloatGate K)
    (s : Option (Batch K) × Option (Batch K)) (h1 : ∀ x ∈ s.1, x.length = B) (h2 : ∀ x ∈ s.2, x.length = B)
    (inp : Tensor3 K) (hB : IsSequence B inp) :
    IsSequence B (lstmRun sigmoid tanh hidden d (iniPair B hidden s) inp).1 ∧
      (lstmRun sigmoid tanh hidden d (iniPair B hidden s) inp).1.length = inp.length := by
  apply seq_directionRun (P := fun s => s.1.length = B ∧ s.2.length = B) _ _ _ _ _ hB.1
    ⟨iniState_length h1, iniState_length h2⟩
  · intro s hs x hx
    unfold batchStep₂
    simp only [List.unzip_eq_map, List.length_map, List.length_zipWith, List.length_zip, hs.1, hs.2, hB.2 x hx,
      Nat.min_self, and_self]
  · intro s hs
    exact hs.1

theorem floatLstm_forward (sigmoid tanh : K → K) (hidden B : ℕ) (rq : Bool)
    (params : List (FloatGate K × Option (FloatGate K)))
    (hne : params ≠ []) (hs : ∀ p ∈ params, ∀ d ∈ directions p, LstmShape hidden d.2) (inp : Tensor3 K)
    (hB : IsSequence B inp) (hx cx : Option (Tensor3 K)) (st : ℕ → ℕ → Option (Batch K) × Option (Batch K))
    (hst : ∀ i d, (∀ s ∈ (st i d).1, s.length = B) ∧ ∀ s ∈ (st i d).2, s.length = B)
    (hat : ∀ (i : ℕ) (hi : i < params.length) (d : ℕ), d < (directions params[i]).length →
      stateAt hx (2 * i + d) = some (st i d).1 ∧ stateAt cx (2 * i + d) = some (st i d).2) :
    lstmForward (floatLstm sigmoid tanh hidden false rq params) inp hx cx =
      (let r := stackRun (lstmRun sigmoid tanh hidden)
        (enumLayers (fun l d => iniPair B hidden (st l d)) 0 (params.map directions)) inp
       some (r.1, r.2.map (·.1), r.2.map (·.2))) := by
  unfold lstmForward floatLstm
  have hrel := floatLstm_for sigmoid tanh hidden rq params hs 0
  obtain ⟨layers, hlayers⟩ : ∃ layers, layers = buildLstm {} hidden false rq 0
    (params.map fun p => (loadedLstm sigmoid tanh hidden p.1, p.2.map (loadedLstm sigmoid tanh hidden))) := ⟨_, rfl⟩
  rw [← hlayers] at hrel ⊢
  have hlen : layers.length = params.length := by rw [hrel.length_eq, List.length_map]
  rw [if_neg (by
    rw [List.isEmpty_iff]
    intro h0
    rw [h0] at hlen
    exact hne (List.length_eq_zero_iff.1 hlen.symm))]
  rw [layersLoop_eq _ (lstmRun sigmoid tanh hidden) (LstmFor sigmoid tanh hidden) (iniPair B hidden)
    (fun s => ([s.1], [s.2])) (IsSequence B) _ st layers (params.map directions) hrel 0 inp hB]
  · simp only [Option.map_some]
    congr 3
    · induction (stackRun (lstmRun sigmoid tanh hidden) _ inp).2 with
      | nil => rfl
      | cons a as ih => simp only [List.map_cons, List.flatten_cons, ih, List.singleton_append]
    · induction (stackRun (lstmRun sigmoid tanh hidden) _ inp).2 with
      | nil => rfl
      | cons a as ih => simp only [List.map_cons, List.flatten_cons, ih, List.singleton_append]
  · intro x hx'
    rw [List.mem_map] at hx'
    obtain ⟨p, -, rfl⟩ := hx'
    simp [directions]
  · intro i hi d hd
    rw [Nat.zero_add]
    have h12 := hat i (by omega) d (by
      have := List.Forall₂.get hrel hi (by simpa [hlen] using hi)
      simp only [List.get_eq_getElem, List.getElem_map] at this
      rw [← this.length_eq]
      exact hd)
    simp only [h12.1, h12.2, Option.bind_some, Option.map_some]
  · intro x y hxy inp hinp s
    exact hxy.fwd hinp s
  · intro ss hss hne' inp hinp
    refine (seq_layerRun (lstmRun sigmoid tanh hidden) ss hne' inp ?_).1
    intro p hp
    obtain ⟨-, i, j, e⟩ := hss p hp
    rw [e]
    exact lstmRun_isSequence _ _ (hst i j).1 (hst i j).2 inp hinp

/-- A quantised LSTM without quantisers, loaded from the stacked parameters of a float LSTM, computes the same outputs,
final hidden states and final cell states, when started without states. -/
theorem C66_lstm_matches_float (sigmoid tanh : K → K) (hidden B : ℕ) (rq : Bool)
    (params : List (FloatGate K × Option (FloatGate K))) (hne : params ≠ [])
    (hs : ∀ p ∈ params, ∀ d ∈ directions p, LstmShape hidden d.2) (inp : Tensor3 K) (hB : IsSequence B inp) :
    lstmForward (floatLstm sigmoid tanh hidden false rq params) inp none none =
      (let r := stackRun (lstmRun sigmoid tanh hidden)
        (params.map fun p => (directions p).map fun d => (d, (zeroState B hidden, zeroState B hidden))) inp
       some (r.1, r.2.map (·.1), r.2.map (·.2))) := by
  rw [floatLstm_forward sigmoid tanh hidden B rq params hne hs inp hB none none (fun _ _ => (none, none)) (by simp) (by
    intro i hi d hd
    exact ⟨rfl, rfl⟩), enumLayers_const]
  rw [List.map_map]
  rfl

/-- Four stacked gates of one unit, with biases. -/
def lstmGate : FloatGate ℚ := ⟨[[1], [2], [3], [4]], [[1], [0], [-1], [2]], some ([1, 2, 3, 4], [0, 1, 0, 1])⟩

theorem lstmGate_shape : ∀ p ∈ [(lstmGate, some lstmGate)], ∀ d ∈ directions p, LstmShape 1 d.2 := by
  unfold LstmShape GateShape
  simp [directions, lstmGate]

example : lstmForward (floatLstm (fun x : ℚ => x / 4) (fun x => x / 2) 1 false false [(lstmGate, some lstmGate)])
      [[[1]], [[2]]] none none =
    (let r := stackRun (lstmRun (fun x : ℚ => x / 4) (fun x => x / 2) 1)
      ([(lstmGate, some lstmGate)].map fun p => (directions p).map fun d => (d, (zeroState 1 1, zeroState 1 1)))
      [[[1]], [[2]]]
     some (r.1, r.2.map (·.1), r.2.map (·.2))) :=
  C66_lstm_matches_float _ _ 1 1 false _ (by simp) lstmGate_shape _ ⟨by decide, by decide⟩

/-- The same when the initial states are given.  Partial: the stack must be bidirectional or have a single layer. -/
theorem C66_lstm_given_states_partial (sigmoid tanh : K → K) (hidden B : ℕ) (rq : Bool)
    (params : List (FloatGate K × Option (FloatGate K))) (hne : params ≠ [])
    (hs : ∀ p ∈ params, ∀ d ∈ directions p, LstmShape hidden d.2) (inp : Tensor3 K) (hB : IsSequence B inp)
    (hdir : (∀ p ∈ params, (directions p).length = 2) ∨ params.length = 1)
    (hx cx : Tensor3 K) (hlen : hx.length = (params.map fun p => (directions p).length).sum)
    (clen : cx.length = hx.length) (hxB : ∀ s ∈ hx, s.length = B) (cxB : ∀ s ∈ cx, s.length = B) :
    lstmForward (floatLstm sigmoid tanh hidden false rq params) inp (some hx) (some cx) =
      (let r := stackRun (lstmRun sigmoid tanh hidden) (giveStates (params.map directions) (hx.zip cx)) inp
       some (r.1, r.2.map (·.1), r.2.map (·.2))) := by
  have hlt : ∀ (i : ℕ) (hi : i < params.length) (d : ℕ), d < (directions params[i]).length → 2 * i + d < hx.length := by
    intro i hi d hd
    rcases hdir with h2 | h1
    · have := sum_two params h2
      rw [h2 _ (List.getElem_mem hi)] at hd
      omega
    · obtain ⟨p, rfl⟩ := List.length_eq_one_iff.1 h1
      simp only [List.length_singleton] at hi
      have : i = 0 := by omega
      subst this
      simp only [List.getElem_cons_zero] at hd
      simp only [List.map_cons, List.map_nil, List.sum_cons, List.sum_nil] at hlen
      omega
  rw [floatLstm_forward sigmoid tanh hidden B rq params hne hs inp hB (some hx) (some cx)
    (fun l d => (hx[2 * l + d]?, cx[2 * l + d]?)) (by
      intro i d
      exact ⟨fun s h => hxB s (List.mem_of_getElem? h), fun s h => cxB s (List.mem_of_getElem? h)⟩) (by
      intro i hi d hd
      have := hlt i hi d hd
      unfold stateAt
      simp only
      rw [pyIndex_nat, pyIndex_nat, List.getElem?_eq_getElem this, List.getElem?_eq_getElem (by omega)]
      exact ⟨rfl, rfl⟩)]
  have hz : ∀ n, n < hx.length → (hx.zip cx)[n]? = some (iniPair B hidden (hx[n]?, cx[n]?)) := by
    intro n hn
    rw [List.getElem?_eq_getElem (by rw [List.length_zip]; omega), List.getElem_zip, List.getElem?_eq_getElem hn,
      List.getElem?_eq_getElem (by omega)]
    unfold iniPair
    rw [ini_plain, ini_plain]
  have hgive : giveStates (params.map directions) (hx.zip cx) =
      enumLayers (fun l d => iniPair B hidden (hx[2 * l + d]?, cx[2 * l + d]?)) 0 (params.map directions) := by
    rcases hdir with h2 | h1
    · have hl2 : hx.length = 2 * params.length := by
        rw [hlen, sum_two params h2]
      have := giveStates_two (params.map directions) (by
        intro x hx'
        rw [List.mem_map] at hx'
        obtain ⟨p, hp, rfl⟩ := hx'
        exact h2 p hp) (hx.zip cx) 0 (fun l d => iniPair B hidden (hx[2 * l + d]?, cx[2 * l + d]?))
        (by simpa [clen] using hl2) (by
        intro i d hd _ hi
        simp only [List.length_map, Nat.zero_add] at hi
        exact hz _ (by omega))
      rw [← this, Nat.mul_zero, List.drop_zero]
    · obtain ⟨p, rfl⟩ := List.length_eq_one_iff.1 h1
      simp only [List.map_cons, List.map_nil, List.sum_cons, List.sum_nil] at hlen
      apply giveStates_one
      intro d hd
      change (hx.zip cx)[d]? = some (iniPair B hidden (hx[2 * 0 + d]?, cx[2 * 0 + d]?))
      rw [show 2 * 0 + d = d by omega]
      exact hz _ (by omega)
  rw [hgive]

example : lstmForward (floatLstm (fun x : ℚ => x / 4) (fun x => x / 2) 1 false false [(lstmGate, some lstmGate)])
      [[[1]], [[2]]] (some [[[1]], [[0]]]) (some [[[2]], [[3]]]) =
    (let r := stackRun (lstmRun (fun x : ℚ => x / 4) (fun x => x / 2) 1)
      (giveStates ([(lstmGate, some lstmGate)].map directions) ([[[1]], [[0]]].zip [[[2]], [[3]]])) [[[1]], [[2]]]
     some (r.1, r.2.map (·.1), r.2.map (·.2))) :=
  C66_lstm_given_states_partial _ _ 1 1 false _ (by simp) lstmGate_shape _ ⟨by decide, by decide⟩ (Or.inr rfl) _ _
    (by simp [directions]) (by decide) (by decide) (by decide)

/-- A stack of two or more LSTM layers with one direction rejects every hidden state of the shape it itself returns. -/
theorem C66_lstm_given_states_raise (io : ActProxy K) (hidden : ℕ) (bf rq : Bool)
    (params : List (LstmCell K × (Fin 4 → GateParams K))) (h2 : 2 ≤ params.length) (inp hx : Tensor3 K)
    (cx : Option (Tensor3 K)) (hlen : hx.length = params.length) :
    lstmForward (buildLstm io hidden bf rq 0 (params.map fun p => (p, none))) inp (some hx) cx = none := by
  have key : ∀ (ps : List (LstmCell K × (Fin 4 → GateParams K))) (l : ℕ) (inp : Tensor3 K), ps ≠ [] →
      l + ps.length = params.length →
      layersLoop (fun l x (s : Option (Batch K) × Option (Batch K)) =>
        (LstmLayer.forward l x s.1 s.2).map fun r => (r.1.value, (r.2.1.value, r.2.2.value)))
        (fun i => (stateAt (some hx) i).bind fun h => (stateAt cx i).map fun c => (h, c)) l
        (buildLstm io hidden bf rq l (ps.map fun p => (p, none))) inp = none := by
    intro ps
    induction ps with
    | nil => intro l inp h _; exact absurd rfl h
    | cons p ps ih =>
      intro l inp _ hl
      rw [List.map_cons, buildLstm, layersLoop]
      simp only [Option.map_none, Option.toList_none, directionsLoop, Nat.add_zero]
      by_cases hlt : 2 * l < hx.length
      · have hps : ps ≠ [] := by
          intro h0
          rw [h0] at hl
          simp only [List.length_singleton] at hl
          omega
        have := fun inp => ih (l + 1) inp hps (by simp only [List.length_cons] at hl; omega)
        cases (stateAt (some hx) (2 * l)).bind fun h => (stateAt cx (2 * l)).map fun c => (h, c) with
        | none => rfl
        | some s =>
          simp only [Option.bind_some, Option.map_some]
          cases LstmLayer.forward _ inp s.1 s.2 with
          | none => rfl
          | some r =>
            simp only [Option.map_some, Option.bind_some, List.map_cons, List.map_nil]
            unfold catLastAll
            simp only [List.foldl_nil, Option.bind_some]
            rw [this]
            rfl
      · have : stateAt (some hx) (2 * l) = none := by
          unfold stateAt
          simp only
          rw [pyIndex_nat, List.getElem?_eq_none (by omega)]
          rfl
        rw [this]
        rfl
  unfold lstmForward
  rw [if_neg]
  · rw [key params 0 inp (by rintro rfl; simp at h2) (by omega)]
    rfl
  · cases params with
    | nil => simp at h2
    | cons p ps => simp [buildLstm]

/-- With coupled input and forget gates and no quantisers, a layer runs the recurrence with `f = 1 - i`. -/
theorem C66_coupled_gates (sigmoid tanh : K → K) (hidden B : ℕ) (reverse qo rq : Bool) (gi gg go : FloatGate K)
    (hi : GateShape hidden gi) (hg : GateShape hidden gg) (ho : GateShape hidden go) (inp : Tensor3 K)
    (hB : IsSequence B inp) (st ct : Option (Batch K)) :
    let l : LstmLayer K :=
      { cell := plainLstmCell sigmoid tanh true, inputGate := loadRnnGate hidden gi.wIh gi.wHh gi.bias,
        forgetGate := none, cellGate := loadRnnGate hidden gg.wIh gg.wHh gg.bias,
        outputGate := loadRnnGate hidden go.wIh go.wHh go.bias, hidden := hidden, batchFirst := false,
        reverse := reverse, quantizeOutputOnly := qo, returnQT := rq }
    (l.forward inp st ct).map (fun r => (r.1.value, r.2.1.value, r.2.2.value)) =
      (let r := directionRun reverse (batchStep₂ (coupledLstmStep sigmoid tanh gi gg go)) Prod.fst
        (st.getD (zeroState B hidden), ct.getD (zeroState B hidden)) inp
       some (r.1, [r.2.1], [r.2.2])) := by
  intro l
  rw [l.forward_seq rfl _ rfl inp hB]
  have hstep : ∀ s x, l.cell.step ⟨l.inputGate.fwd, l.inputGate.fwd, l.cellGate.fwd, l.outputGate.fwd⟩ s x =
      batchStep₂ (coupledLstmStep sigmoid tanh gi gg go) s x := by
    intro s x
    exact LstmCell.step_coupled _ sigmoid tanh (plainLstmCell_isFloat sigmoid tanh true) rfl _ _ _ _
      (loadRnnGate_carries hi) (loadRnnGate_carries hg) (loadRnnGate_carries ho) s x
  rw [directionRun_congr _ _ _ _ _ hstep]
  have e : l.cell.outputQuant = {} := rfl
  have e2 : l.cell.cellStateQuant = {} := rfl
  rw [e, e2, quantizeInput_plain]
  have hini : ∀ s : Option (Batch K), iniState B l.hidden {} s = s.getD (zeroState B hidden) := by
    intro s
    cases s with
    | none => rfl
    | some s => exact ini_plain _ _ _
  rw [hini, hini]
  rfl

/-- A layer with coupled gates. -/
def coupledLayer : LstmLayer ℚ where
  cell := plainLstmCell (fun x => x / 2) (fun x => x / 4) true
  inputGate := loadRnnGate 1 [[1]] [[1]] none
  forgetGate := none
  cellGate := loadRnnGate 1 [[2]] [[0]] none
  outputGate := loadRnnGate 1 [[4]] [[1]] (some ([1], [1]))
  hidden := 1
  batchFirst := false
  reverse := false
  quantizeOutputOnly := false
  returnQT := true

example : (coupledLayer.forward [[[1]], [[1]]] none none).map (fun r => (r.1.value, r.2.2.value)) =
    some ([[[3/16]], [[5049/16384]]], [[[1/4 * (13/32) + 19/32 * (1/2)]]]) := by
  decide +kernel

end Brevitas.Props
