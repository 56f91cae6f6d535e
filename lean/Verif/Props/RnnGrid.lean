import Verif.Props.RnnSeq

/-!
# C68, C69, C71: quantised values of recurrent layers, shared weights, disabling quantisation
-/

set_option linter.unusedSectionVars false

namespace Brevitas.Props

open Brevitas.Rnn Brevitas.Spec

/-- Every element of a sequence (or of a stack of states). -/
def AllElems {K : Type*} (P : K → Prop) (x : Tensor3 K) : Prop := ∀ t ∈ x, ∀ r ∈ t, ∀ v ∈ r, P v

section Generic
variable {K : Type*} [Field K] [DecidableEq K]

theorem getD_elems {P : K → Prop} {o : Batch K} (h : ∀ r ∈ o, ∀ v ∈ r, P v) (b : ℕ) : ∀ v ∈ o.getD b [], P v := by
  intro v hv
  rw [List.getD_eq_getElem?_getD] at hv
  cases hb : o[b]? with
  | none => rw [hb] at hv; simp at hv
  | some r =>
    rw [hb] at hv
    exact h r (List.mem_of_getElem? hb) v hv

theorem catSeq_elems {P : K → Prop} {bf : Bool} {outs : List (Batch K)} (h : AllElems P outs) {v : Tensor3 K}
    (hv : catSeq bf outs = some v) : AllElems P v := by
  cases outs with
  | nil => simp [catSeq] at hv
  | cons o os =>
    unfold catSeq at hv
    rw [Option.some.injEq] at hv
    rw [← hv]
    cases bf with
    | false => exact h
    | true =>
      simp only [if_true]
      intro t ht r hr v hv
      rw [List.mem_map] at ht
      obtain ⟨b, -, rfl⟩ := ht
      rw [List.mem_map] at hr
      obtain ⟨o', ho', rfl⟩ := hr
      exact getD_elems (h o' ho') b v hv

theorem fast_elems {P : K → Prop} {q : ActProxy K} (hq : ∀ v, P (q.fastFn v)) (x : Batch K) :
    ∀ r ∈ (q.fast x).value, ∀ v ∈ r, P v := by
  intro r hr v hv
  rw [ActProxy.fast_value, List.mem_map] at hr
  obtain ⟨r', -, rfl⟩ := hr
  rw [List.mem_map] at hv
  obtain ⟨w, -, rfl⟩ := hv
  exact hq w

theorem packOutputs_elems {P : K → Prop} {bf rev rq : Bool} {io : ActProxy K} {outs : List (QTuple K)}
    (h : ∀ o ∈ outs, ∀ r ∈ o.value, ∀ v ∈ r, P v) {out : MaybeQT (Tensor3 K) K}
    (ho : packOutputs bf rev rq io outs = some out) : AllElems P out.value := by
  unfold packOutputs at ho
  simp only [Option.bind_eq_some_iff, Option.map_eq_some_iff] at ho
  obtain ⟨m, -, v, hv, rfl⟩ := ho
  refine catSeq_elems (P := P) ?_ hv
  intro t ht
  rw [List.mem_map] at ht
  obtain ⟨o, ho, rfl⟩ := ht
  exact h o (by cases rev <;> simpa using ho)

theorem packState_value (rq : Bool) (q : ActProxy K) (s : QTuple K) : (packState rq q s).value = [s.value] := by
  unfold packState
  split <;> rfl

theorem RnnLayer.forward_elems {P : K → Prop} (l : RnnLayer K) (hq : ∀ v, P (l.cell.outputQuant.fastFn v))
    {inp : Tensor3 K} {st : Option (Batch K)} {r : MaybeQT (Tensor3 K) K × MaybeQT (Tensor3 K) K}
    (h : l.forward inp st = some r) : AllElems P r.1.value ∧ AllElems P r.2.value := by
  unfold RnnLayer.forward RnnCell.forward at h
  simp only [cellLoop_eq, Option.bind_some, Option.bind_eq_some_iff, Option.map_eq_some_iff] at h
  obtain ⟨out, hout, last, hlast, rfl⟩ := h
  have hall : ∀ o ∈ scanOut (fun x s => l.cell.forwardIter l.gate.fwd x s) (fun t => t.value)
      (maybeQuantizeState l.batchFirst l.hidden (maybeQuantizeInput l.quantizeOutputOnly l.cell.outputQuant inp)
        l.cell.outputQuant st)
      (if l.reverse = true then
        (unbind l.batchFirst (maybeQuantizeInput l.quantizeOutputOnly l.cell.outputQuant inp)).reverse
        else unbind l.batchFirst (maybeQuantizeInput l.quantizeOutputOnly l.cell.outputQuant inp)),
      ∀ r ∈ o.value, ∀ v ∈ r, P v := by
    intro o ho
    obtain ⟨x, -, s, rfl⟩ := scanOut_mem _ _ ho
    exact fast_elems hq _
  refine ⟨packOutputs_elems hall hout, ?_⟩
  intro t ht
  simp only [packState_value, List.mem_singleton] at ht
  subst ht
  rw [pyIndex_last] at hlast
  exact hall last (List.mem_of_getLast? hlast)

theorem LstmLayer.forward_elems {P Q : K → Prop} (l : LstmLayer K) (hq : ∀ v, P (l.cell.outputQuant.fastFn v))
    (hqc : ∀ v, Q (l.cell.cellStateQuant.fastFn v)) {inp : Tensor3 K} {st ct : Option (Batch K)}
    {r : MaybeQT (Tensor3 K) K × MaybeQT (Tensor3 K) K × MaybeQT (Tensor3 K) K}
    (h : l.forward inp st ct = some r) :
    AllElems P r.1.value ∧ AllElems P r.2.1.value ∧ AllElems Q r.2.2.value := by
  unfold LstmLayer.forward LstmCell.forward at h
  simp only [cellLoop_eq, Option.bind_some, Option.bind_eq_some_iff, Option.map_eq_some_iff] at h
  obtain ⟨g, -, last, hlast, out, hout, rfl⟩ := h
  obtain ⟨outs, houts⟩ : ∃ outs, outs = scanOut (fun x s => l.cell.forwardIter g x s) (fun t => (t.1.value, t.2.value))
      (maybeQuantizeState l.batchFirst l.hidden (maybeQuantizeInput l.quantizeOutputOnly l.cell.outputQuant inp)
        l.cell.outputQuant st,
       maybeQuantizeState l.batchFirst l.hidden (maybeQuantizeInput l.quantizeOutputOnly l.cell.outputQuant inp)
        l.cell.cellStateQuant ct)
      (if l.reverse = true then
        (unbind l.batchFirst (maybeQuantizeInput l.quantizeOutputOnly l.cell.outputQuant inp)).reverse
        else unbind l.batchFirst (maybeQuantizeInput l.quantizeOutputOnly l.cell.outputQuant inp)) := ⟨_, rfl⟩
  rw [← houts] at hlast hout
  have hall : ∀ o ∈ outs, (∀ r ∈ o.1.value, ∀ v ∈ r, P v) ∧ ∀ r ∈ o.2.value, ∀ v ∈ r, Q v := by
    intro o ho
    rw [houts] at ho
    obtain ⟨x, -, s, rfl⟩ := scanOut_mem _ _ ho
    exact ⟨fast_elems hq _, fast_elems hqc _⟩
  rw [pyIndex_last] at hlast
  have hl := hall last (List.mem_of_getLast? hlast)
  refine ⟨packOutputs_elems (fun o ho => ?_) hout, ?_, ?_⟩
  · rw [List.mem_map] at ho
    obtain ⟨p, hp, rfl⟩ := ho
    exact (hall p hp).1
  · intro t ht
    simp only [packState_value, List.mem_singleton] at ht
    subst ht
    exact hl.1
  · intro t ht
    simp only [packState_value, List.mem_singleton] at ht
    subst ht
    exact hl.2

theorem catLast_elems {P : K → Prop} {x y : Tensor3 K} (hx : AllElems P x) (hy : AllElems P y) :
    AllElems P (catLast x y) := by
  intro t ht r hr v hv
  unfold catLast at ht
  obtain ⟨i, hi, rfl⟩ := List.getElem_of_mem ht
  rw [List.getElem_zipWith] at hr
  obtain ⟨j, hj, rfl⟩ := List.getElem_of_mem hr
  rw [List.getElem_zipWith, List.mem_append] at hv
  rcases hv with hv | hv
  · exact hx _ (List.getElem_mem _) _ (List.getElem_mem _) v hv
  · exact hy _ (List.getElem_mem _) _ (List.getElem_mem _) v hv

theorem layersLoop_elems {L S R : Type*} {P : K → Prop} {A : R → Prop}
    (fwd : L → Tensor3 K → S → Option (Tensor3 K × R)) (states : ℕ → Option S) (layers : List (List L))
    (hf : ∀ ds ∈ layers, ∀ d ∈ ds, ∀ x s r, fwd d x s = some r → AllElems P r.1 ∧ A r.2) (l : ℕ) (inp : Tensor3 K)
    (r : Tensor3 K × List R) (h : layersLoop fwd states l layers inp = some r) :
    (layers ≠ [] → AllElems P r.1) ∧ ∀ q ∈ r.2, A q := by
  have hdir : ∀ (dirs : List L), (∀ d ∈ dirs, ∀ x s r, fwd d x s = some r → AllElems P r.1 ∧ A r.2) →
      ∀ (l d : ℕ) (inp : Tensor3 K) rs, directionsLoop fwd states l inp d dirs = some rs →
      ∀ r ∈ rs, AllElems P r.1 ∧ A r.2 := by
    intro dirs
    induction dirs with
    | nil =>
      intro _ l d inp rs h r hr
      simp only [directionsLoop, Option.some.injEq] at h
      subst h
      simp at hr
    | cons a as ih =>
      intro hf l d inp rs h r hr
      simp only [directionsLoop, Option.bind_eq_some_iff, Option.map_eq_some_iff] at h
      obtain ⟨s, -, r', hr', rs', hrs', rfl⟩ := h
      rw [List.mem_cons] at hr
      rcases hr with rfl | hr
      · exact hf a (by simp) _ _ _ hr'
      · exact ih (fun d hd => hf d (by simp [hd])) l (d + 1) inp rs' hrs' r hr
  induction layers generalizing l inp r with
  | nil =>
    simp only [layersLoop, Option.some.injEq] at h
    subst h
    exact ⟨fun h => absurd rfl h, by simp⟩
  | cons dirs layers ih =>
    simp only [layersLoop, Option.bind_eq_some_iff, Option.map_eq_some_iff] at h
    obtain ⟨rs, hrs, out, hout, r', hr', rfl⟩ := h
    have hd := hdir dirs (hf dirs (by simp)) l 0 inp rs hrs
    have hcat : AllElems P out := by
      have : ∀ (xs : List (Tensor3 K)) (x : Tensor3 K), AllElems P x → (∀ y ∈ xs, AllElems P y) →
          AllElems P (xs.foldl catLast x) := by
        intro xs
        induction xs with
        | nil => intro x hx _; exact hx
        | cons y ys ih =>
          intro x hx hy
          exact ih _ (catLast_elems hx (hy y (by simp))) (fun z hz => hy z (by simp [hz]))
      cases rs with
      | nil => simp [catLastAll] at hout
      | cons a as =>
        simp only [List.map_cons, catLastAll, Option.some.injEq] at hout
        rw [← hout]
        refine this _ _ (hd a (by simp)).1 ?_
        intro y hy
        rw [List.mem_map] at hy
        obtain ⟨b, hb, rfl⟩ := hy
        exact (hd b (by simp [hb])).1
    obtain ⟨h1, h2⟩ := ih (fun ds hds => hf ds (by simp [hds])) (l + 1) out r' hr'
    refine ⟨fun _ => ?_, ?_⟩
    · cases layers with
      | nil =>
        simp only [layersLoop, Option.some.injEq] at hr'
        rw [← hr']
        exact hcat
      | cons a as => exact h1 (by simp)
    · intro q hq
      rw [List.mem_append, List.mem_map] at hq
      rcases hq with ⟨p, hp, rfl⟩ | hq
      · exact (hd p hp).2
      · exact h2 q hq

end Generic

section Int
variable {F : Type*} [Field F] [LinearOrder F] [IsStrictOrderedRing F] [FloorRing F]

/-! ## C68: what comes out is on the grid -/

/-- Every output and every final state of a stack whose layers share an integer output quantiser is a multiple of its
scale within its range, whatever the inputs, the weights, the other quantisers, the states, the number of layers and of
directions and the layout. -/
theorem C68_rnn_on_grid (c : IntQuantCfg F) (scale zeroPoint : F) (b : ℕ) (hb : 1 ≤ b)
    (layers : List (List (RnnLayer F)))
    (hl : ∀ ds ∈ layers, ∀ l ∈ ds, l.cell.outputQuant = intProxy c scale zeroPoint b)
    (inp : Tensor3 F) (hx : Option (Tensor3 F)) (out states : Tensor3 F)
    (h : rnnForward layers inp hx = some (out, states)) :
    AllElems (_root_.Spec.OnGrid c.signed c.narrow b scale zeroPoint) out ∧
    AllElems (_root_.Spec.OnGrid c.signed c.narrow b scale zeroPoint) states := by
  unfold rnnForward at h
  cases layers with
  | nil => simp at h
  | cons a as =>
    rw [if_neg (by simp), Option.map_eq_some_iff] at h
    obtain ⟨r, hr, e⟩ := h
    have := layersLoop_elems (P := _root_.Spec.OnGrid c.signed c.narrow b scale zeroPoint)
      (A := AllElems (_root_.Spec.OnGrid c.signed c.narrow b scale zeroPoint)) _ _ _ (by
        intro ds hds l hld x s r hr
        rw [Option.map_eq_some_iff] at hr
        obtain ⟨r', hr', rfl⟩ := hr
        exact RnnLayer.forward_elems l (fun v => by
          rw [hl ds hds l hld]
          exact C02_on_grid c scale zeroPoint b hb v) hr') 0 inp r hr
    rw [Prod.mk.injEq] at e
    rw [← e.1, ← e.2]
    refine ⟨this.1 (by simp), ?_⟩
    intro t ht
    rw [List.mem_flatten] at ht
    obtain ⟨q, hq, ht⟩ := ht
    exact this.2 q hq t ht

/-- The same for an LSTM; the cell states are on the grid of the cell state quantiser. -/
theorem C68_lstm_on_grid (c c' : IntQuantCfg F) (scale zeroPoint scale' zeroPoint' : F) (b b' : ℕ) (hb : 1 ≤ b)
    (hb' : 1 ≤ b') (layers : List (List (LstmLayer F)))
    (hl : ∀ ds ∈ layers, ∀ l ∈ ds, l.cell.outputQuant = intProxy c scale zeroPoint b ∧
      l.cell.cellStateQuant = intProxy c' scale' zeroPoint' b')
    (inp : Tensor3 F) (hx cx : Option (Tensor3 F)) (out states cells : Tensor3 F)
    (h : lstmForward layers inp hx cx = some (out, states, cells)) :
    AllElems (_root_.Spec.OnGrid c.signed c.narrow b scale zeroPoint) out ∧
    AllElems (_root_.Spec.OnGrid c.signed c.narrow b scale zeroPoint) states ∧
    AllElems (_root_.Spec.OnGrid c'.signed c'.narrow b' scale' zeroPoint') cells := by
  unfold lstmForward at h
  cases layers with
  | nil => simp at h
  | cons a as =>
    rw [if_neg (by simp), Option.map_eq_some_iff] at h
    obtain ⟨r, hr, e⟩ := h
    have := layersLoop_elems (P := _root_.Spec.OnGrid c.signed c.narrow b scale zeroPoint)
      (A := fun q : Tensor3 F × Tensor3 F => AllElems (_root_.Spec.OnGrid c.signed c.narrow b scale zeroPoint) q.1 ∧
        AllElems (_root_.Spec.OnGrid c'.signed c'.narrow b' scale' zeroPoint') q.2) _ _ _ (by
        intro ds hds l hld x s r hr
        rw [Option.map_eq_some_iff] at hr
        obtain ⟨r', hr', rfl⟩ := hr
        exact LstmLayer.forward_elems l (fun v => by
          rw [(hl ds hds l hld).1]
          exact C02_on_grid c scale zeroPoint b hb v) (fun v => by
          rw [(hl ds hds l hld).2]
          exact C02_on_grid c' scale' zeroPoint' b' hb' v) hr') 0 inp r hr
    simp only [Prod.mk.injEq] at e
    rw [← e.1, ← e.2.1, ← e.2.2]
    refine ⟨this.1 (by simp), ?_, ?_⟩
    · intro t ht
      rw [List.mem_flatten] at ht
      obtain ⟨q, hq, ht⟩ := ht
      rw [List.mem_map] at hq
      obtain ⟨p, hp, rfl⟩ := hq
      exact (this.2 p hp).1 t ht
    · intro t ht
      rw [List.mem_flatten] at ht
      obtain ⟨q, hq, ht⟩ := ht
      rw [List.mem_map] at hq
      obtain ⟨p, hp, rfl⟩ := hq
      exact (this.2 p hp).2 t ht

/-- A returned quant tensor carries the scale, zero point and bit width of the output quantiser: outputs and state of a
layer that returns quant tensors. -/
theorem C68_metadata (c : IntQuantCfg F) (scale zeroPoint : F) (b : ℕ) (l : RnnLayer F) (hbf : l.batchFirst = false)
    (hl : l.cell.outputQuant = intProxy c scale zeroPoint b) {B : ℕ} (inp : Tensor3 F) (hB : IsSequence B inp)
    (st : Option (Batch F)) :
    ∃ o s, l.forward inp st = some (o, s) ∧
      o.info = (if l.returnQT then some ⟨scale, zeroPoint, b⟩ else none) ∧ s.info = o.info := by
  refine ⟨_, _, l.forward_seq hbf inp hB st, ?_, rfl⟩
  unfold RnnLayer.info
  rw [hl]
  unfold intProxy ActProxy.isQuantEnabled
  cases l.returnQT <;> rfl

/-- Coupled gates: with a monotone sigmoid quantiser and a sigmoid between 0 and 1, the forget gate and the input gate
have the same shape, add up to the quantised one at every position, and the forget gate lies between 0 and the distance of
the quantised one and the quantised zero. -/
theorem C68_coupled_forget_gate (c : LstmCell F) (hc : c.cifg = true) (cfg : IntQuantCfg F)
    (hr : Shipped cfg.floatToInt) (scale zeroPoint : F) (hs : 0 < scale) (b : ℕ) (sigmoid : F → F)
    (hq : c.inputSigmoidQuant = intProxy cfg scale zeroPoint b (some sigmoid))
    (hsig : ∀ v, 0 ≤ sigmoid v ∧ sigmoid v ≤ 1) (g : LstmGates F) (x h : Batch F) :
    (c.forgetGate g x h).map (·.length) = (c.inputGate g x h).map (·.length) ∧
    (∀ row ∈ List.zip (c.forgetGate g x h) (c.inputGate g x h), ∀ v ∈ List.zip row.1 row.2,
      v.1 + v.2 = cfg.forward scale zeroPoint b 1) ∧
    ∀ row ∈ c.forgetGate g x h, ∀ v ∈ row,
      0 ≤ v ∧ v ≤ cfg.forward scale zeroPoint b 1 - cfg.forward scale zeroPoint b 0 := by
  have hform : c.forgetGate g x h = (c.inputGate g x h).map (·.map fun v => cfg.forward scale zeroPoint b 1 - v) := by
    unfold LstmCell.forgetGate
    rw [hc]
    simp only [if_true]
    have : c.inputSigmoidQuant.quant = some ⟨cfg.forward scale zeroPoint b, ⟨scale, zeroPoint, b⟩⟩ := by rw [hq]; rfl
    rw [this]
    simp only [sub]
    induction c.inputGate g x h with
    | nil => rfl
    | cons r rs ih =>
      simp only [List.map_cons, List.zipWith_cons_cons, ih]
      congr 1
      induction r with
      | nil => rfl
      | cons a as iha => simp only [List.map_cons, List.zipWith_cons_cons, iha]
  refine ⟨?_, ?_, ?_⟩
  · rw [hform]
    simp
  · rw [hform]
    induction c.inputGate g x h with
    | nil => simp
    | cons r rs ih =>
      intro row hrow v hv
      simp only [List.map_cons, List.zip_cons_cons, List.mem_cons] at hrow
      rcases hrow with rfl | hrow
      · simp only at hv
        clear ih
        induction r with
        | nil => simp at hv
        | cons a as iha =>
          simp only [List.map_cons, List.zip_cons_cons, List.mem_cons] at hv
          rcases hv with rfl | hv
          · simp
          · exact iha hv
      · exact ih row hrow v hv
  · have hin : ∀ row ∈ c.inputGate g x h, ∀ v ∈ row,
        cfg.forward scale zeroPoint b 0 ≤ v ∧ v ≤ cfg.forward scale zeroPoint b 1 := by
      apply fast_elems
      intro v
      have : c.inputSigmoidQuant.fastFn v = cfg.forward scale zeroPoint b (sigmoid v) := by rw [hq]; rfl
      rw [this]
      exact ⟨C05_monotone cfg hr scale zeroPoint hs b _ _ (hsig v).1, C05_monotone cfg hr scale zeroPoint hs b _ _ (hsig v).2⟩
    intro row hrow v hv
    rw [hform, List.mem_map] at hrow
    obtain ⟨r, hr', rfl⟩ := hrow
    rw [List.mem_map] at hv
    obtain ⟨w, hw, rfl⟩ := hv
    obtain ⟨h1, h2⟩ := hin r hr' w hw
    constructor <;> linarith

end Int

-- hypotheses met by stacks of one and two layers with a 4-bit quantiser
example : AllElems (_root_.Spec.OnGrid true false 4 (1/4) 0) ([[[1, 0], [7/4, 0]], [[0, 7/4], [3/2, 5/4]]] : Tensor3 ℚ) :=
  (C68_rnn_on_grid ⟨true, false, torchRound⟩ (1/4) 0 4 (by norm_num) [[fourBit]] (by simp [fourBit])
    [[[1], [2]], [[-1], [1/2]]] none _ [[[0, 7/4], [3/2, 5/4]]] (by decide +kernel)).1

example : AllElems (_root_.Spec.OnGrid true false 4 (1/2) 0) ([[[3/2]]] : Tensor3 ℚ) :=
  (C68_lstm_on_grid ⟨true, false, torchRound⟩ ⟨true, false, torchRound⟩ (1/4) 0 (1/2) 0 4 4 (by norm_num) (by norm_num)
    [[fourBitLstm]] (by simp [fourBitLstm]) [[[1]], [[3/2]]] none none [[[1/4]], [[5/4]]] [[[5/4]]] [[[3/2]]]
    (by decide +kernel)).2.2

/-- A cell with coupled gates and a 3-bit unsigned sigmoid quantiser. -/
def coupledCell : LstmCell ℚ :=
  { plainLstmCell (fun x => max 0 (min 1 x)) (fun x => x / 4) true with
    inputSigmoidQuant := intProxy ⟨false, false, torchRound⟩ (1/8) 0 3 (some fun x => max 0 (min 1 x)) }

example : coupledCell.forgetGate ⟨⟨[[1]], [[0]], none⟩, ⟨[[1]], [[0]], none⟩, ⟨[[1]], [[0]], none⟩, ⟨[[1]], [[0]], none⟩⟩
    [[1/3], [5]] [[0], [0]] = [[4/8], [0]] ∧ (∀ v : ℚ, 0 ≤ max 0 (min 1 v) ∧ max 0 (min 1 v) ≤ 1) :=
  ⟨by decide +kernel, fun v => ⟨le_max_left _ _, max_le zero_le_one (min_le_left _ _)⟩⟩

/-! ## C71: disabling quantisation -/

section Disable
variable {K : Type*} [Field K] [DecidableEq K]

/-- A proxy with its quantisation disabled or enabled. -/
def setDisabled (b : Bool) (q : ActProxy K) : ActProxy K := { q with disableQuant := b }

/-- A layer with the quantisation of all its activations disabled or enabled
(`disable_act_quantization`, graph/calibrate.py). -/
def RnnLayer.setDisabled (b : Bool) (l : RnnLayer K) : RnnLayer K :=
  { l with cell := ⟨l.cell.actFn, Props.setDisabled b l.cell.gateAccQuant, Props.setDisabled b l.cell.outputQuant⟩ }

theorem fast_setDisabled (b : Bool) (q : ActProxy K) (x : Batch K) : (setDisabled b q).fast x = q.fast x := rfl

theorem step_setDisabled (b : Bool) (l : RnnLayer K) (h x : Batch K) :
    (RnnLayer.setDisabled b l).step h x = l.step h x := rfl

/-- Disabling the quantisation of the activations of a layer that does not quantise its input (every layer of a stack but
the first) has no effect on its values, when no state is passed in: for every input the outputs and the final state are
those of the layer with quantisation enabled. -/
theorem C71_disable_has_no_effect (l : RnnLayer K) (hbf : l.batchFirst = false) (hqo : l.quantizeOutputOnly = true)
    {B : ℕ} (inp : Tensor3 K) (hB : IsSequence B inp) :
    ((RnnLayer.setDisabled true l).forward inp none).map (fun r => (r.1.value, r.2.value)) =
      ((RnnLayer.setDisabled false l).forward inp none).map (fun r => (r.1.value, r.2.value)) := by
  have hq : ∀ b, maybeQuantizeInput (RnnLayer.setDisabled b l).quantizeOutputOnly
      (RnnLayer.setDisabled b l).cell.outputQuant inp = inp := by
    intro b
    unfold maybeQuantizeInput
    have : (RnnLayer.setDisabled b l).quantizeOutputOnly = true := hqo
    rw [this]
    rfl
  rw [(RnnLayer.setDisabled true l).forward_seq hbf inp hB, (RnnLayer.setDisabled false l).forward_seq hbf inp hB,
    hq, hq]
  rfl

/-- What disabling does: the input and a state that is passed in reach the recurrence without having been quantised
(only their activation function, if any, is applied).  The recurrence itself still quantises.  The full statement, that a
layer with quantisation disabled computes the float recurrence, is false: `C71_disable_not_float`. -/
theorem C71_disable_input_partial (l : RnnLayer K) (hbf : l.batchFirst = false) (hact : l.cell.outputQuant.act = none)
    {B : ℕ} (inp : Tensor3 K) (hB : IsSequence B inp) (st : Option (Batch K)) :
    ((RnnLayer.setDisabled true l).forward inp st).map (fun r => (r.1.value, r.2.value)) =
      (let r := directionRun l.reverse l.step id (st.getD (zeroState B l.hidden)) inp
       some (r.1, [r.2])) := by
  have hf : ∀ v, (RnnLayer.setDisabled true l).cell.outputQuant.forward v = v := by
    intro v
    have : (RnnLayer.setDisabled true l).cell.outputQuant.forward v = l.cell.outputQuant.actFn v := by
      unfold ActProxy.forward
      have : (RnnLayer.setDisabled true l).cell.outputQuant.isQuantEnabled = false := by
        simp [ActProxy.isQuantEnabled, RnnLayer.setDisabled, setDisabled]
      rw [this]
      rfl
    rw [this, ActProxy.actFn_off _ hact]
  rw [(RnnLayer.setDisabled true l).forward_seq hbf inp hB]
  have h1 : maybeQuantizeInput (RnnLayer.setDisabled true l).quantizeOutputOnly
      (RnnLayer.setDisabled true l).cell.outputQuant inp = inp := by
    unfold maybeQuantizeInput
    cases (RnnLayer.setDisabled true l).quantizeOutputOnly with
    | true => rfl
    | false =>
      simp only [Bool.false_eq_true, if_false]
      conv_rhs => rw [← List.map_id inp]
      apply List.map_congr_left
      intro t _
      exact map_map_id hf t
  have h2 : iniState B (RnnLayer.setDisabled true l).hidden (RnnLayer.setDisabled true l).cell.outputQuant st =
      st.getD (zeroState B l.hidden) := by
    cases st with
    | none => rfl
    | some s => exact map_map_id hf s
  rw [h1, h2]
  rfl

end Disable

/-- A layer of 4 bits with quantisation disabled does not compute the float recurrence: input 1/3 gives 1/4. -/
theorem C71_disable_not_float :
    ∃ (l : RnnLayer ℚ) (inp : Tensor3 ℚ) (g : FloatGate ℚ) (act : ℚ → ℚ), IsSequence 1 inp ∧ l.batchFirst = false ∧
      l.cell.gateAccQuant.act = none ∧ l.cell.outputQuant.act = none ∧ l.cell.actFn = act ∧
      l.gate = loadRnnGate 1 g.wIh g.wHh g.bias ∧
      ((RnnLayer.setDisabled true l).forward inp none).map (·.1.value) ≠
        some (directionRun false (batchStep (elmanStep act g)) id (zeroState 1 1) inp).1 := by
  refine ⟨{ cell := ⟨id, {}, intProxy ⟨true, false, torchRound⟩ (1/4) 0 4⟩, gate := loadRnnGate 1 [[1]] [[0]] none
            hidden := 1, batchFirst := false, reverse := false, quantizeOutputOnly := false, returnQT := false },
    [[[1/3]]], ⟨[[1]], [[0]], none⟩, id, ⟨by simp, by simp⟩, rfl, rfl, rfl, rfl, rfl, by decide +kernel⟩

example : ((RnnLayer.setDisabled true fourBitTop).forward [[[1/3, 0]]] none).map (fun r => (r.1.value, r.2.value)) =
    ((RnnLayer.setDisabled false fourBitTop).forward [[[1/3, 0]]] none).map (fun r => (r.1.value, r.2.value)) :=
  C71_disable_has_no_effect fourBitTop rfl rfl (B := 1) _ ⟨by simp, by simp⟩

end Brevitas.Props
