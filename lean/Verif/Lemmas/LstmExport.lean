import Verif.Model.LstmExport
import Verif.Lemmas.RnnSeq

/-!
# ONNX export of LSTM layers: helper lemmas
-/

set_option linter.unusedSectionVars false

namespace Brevitas.LstmExport

open Brevitas.Rnn Brevitas.Spec

variable {K : Type*}

theorem block {α : Type*} (z : α) (H k : ℕ) (pre m post : List α) (hp : pre.length = k * H) (hm : m.length = H) :
    ((List.range H).map fun r => (pre ++ (m ++ post)).getD (k * H + r) z) = m := by
  apply List.ext_getElem
  · simp [hm]
  · intro t h1 h2
    simp only [List.getElem_map, List.getElem_range]
    rw [← hp, List.getD_append_right _ _ _ _ (by omega), Nat.add_sub_cancel_left, List.getD_append _ _ _ _ h2, List.getD_eq_getElem]

theorem mapM_theOnly {α : Type*} (s : List α) : (s.map fun v => [v]).mapM (theOnly (α := α)) = some s := by
  induction s with
  | nil => rfl
  | cons a s ih => simp [List.mapM_cons, theOnly, ih]

theorem mapM_bad {α β : Type*} {f : α → Option β} {s : List α} {x : α} (hx : x ∈ s) (hf : f x = none) : s.mapM f = none := by
  induction s with
  | nil => simp at hx
  | cons a s ih =>
    rw [List.mapM_cons]
    rcases List.mem_cons.1 hx with rfl | h
    · rw [hf]; rfl
    · rw [ih h]
      cases f a <;> rfl

theorem theOnly_bad {α : Type*} {s : List α} (h : s.length ≠ 1) : theOnly s = none := by
  match s with
  | [] => rfl
  | [a] => simp at h
  | a :: b :: s => rfl

theorem drop_put [Field K] (bf : Bool) (s : Batch K) : dropDirection bf (putDirection bf s) = some s := by
  unfold dropDirection putDirection
  cases bf
  · rfl
  · exact mapM_theOnly s

theorem permute_one (h : Batch K) : permute102 [h] = h.map fun v => [v] := by
  unfold permute102
  apply List.ext_getElem
  · simp
  · intro t h1 h2
    have : t < h.length := by simpa using h2
    simp [List.getElem?_eq_getElem this]

variable [Field K]

/-- A gate with biases and `H` rows. -/
structure Shaped (H : ℕ) (q : QuantGate K) (b : List K) : Prop where
  wIh : q.wIh.length = H
  wHh : q.wHh.length = H
  bias : q.bias = some b
  len : b.length = H

theorem carries {H k : ℕ} {q : QuantGate K} {b : List K} (h : Shaped H q b) {wp wq rp rq bp bq : List _} {p : FloatGate K}
    {z : List K} (hw : p.wIh = wp ++ (q.wIh ++ wq)) (hr : p.wHh = rp ++ (q.wHh ++ rq)) (hb : p.bias = some (bp ++ (b ++ bq), z))
    (hwl : wp.length = k * H) (hrl : rp.length = k * H) (hbl : bp.length = k * H) (hz : z = List.replicate (4 * H) 0) (hk : k < 4) :
    Carries q (gateRows H k p) := by
  refine ⟨?_, ?_, ?_⟩
  · simp only [gateRows, hw]
    rw [block _ _ _ _ _ _ hwl h.wIh]
  · simp only [gateRows, hr]
    rw [block _ _ _ _ _ _ hrl h.wHh]
  · simp only [gateRows, hb, Option.map_some, h.bias]
    rw [block _ _ _ _ _ _ hbl h.len]
    have : ((List.range H).map fun r => z.getD (k * H + r) 0) = List.replicate H 0 := by
      rw [List.eq_replicate_iff]
      refine ⟨by simp, ?_⟩
      intro v hv
      rw [List.mem_map] at hv
      obtain ⟨r, hr, rfl⟩ := hv
      rw [List.mem_range] at hr
      subst hz
      rw [List.getD_eq_getElem?_getD, List.getElem?_replicate]
      split_ifs <;> rfl
    rw [this, vadd_comm, vadd_zeros _ _ h.len]

variable [DecidableEq K]

theorem quantizeInput_float {l : LstmLayer K} {sigmoid tanh : K → K} (hf : l.cell.IsFloat sigmoid tanh) (x : Tensor3 K) :
    maybeQuantizeInput l.quantizeOutputOnly l.cell.outputQuant x = x := by
  unfold maybeQuantizeInput
  cases l.quantizeOutputOnly
  · have : ∀ b : Batch K, (b.map (·.map l.cell.outputQuant.forward)) = b := fun b =>
      map_map_id (fun v => by rw [ActProxy.forward_off _ hf.noQuant.1, ActProxy.actFn_off _ hf.noAct.1]) b
    simp only [Bool.false_eq_true, if_false, this, List.map_id']
  · rfl

theorem float_not_quantized {c : LstmCell K} {sigmoid tanh : K → K} (hf : c.IsFloat sigmoid tanh) : quantizedCell c = some false := by
  obtain ⟨n1, n2, n3, n4, n5, n6, n7, n8, n9, n10, n11⟩ := hf.noQuant
  simp [quantizedCell, proxies, ActProxy.isQuantEnabled, n1, n2, n3, n4, n5, n6, n7, n8, n9, n10, n11]

theorem swap_swap {B : ℕ} (hB : 0 < B) {x : Tensor3 K} (h : IsSequence B x) : swapDims x.length (swapDims B x) = x := by
  have := unbind_swap hB h
  unfold unbind at this
  rw [if_pos rfl] at this
  have h2 : ((swapDims B x).headD []).length = x.length := by
    unfold swapDims
    obtain ⟨n, rfl⟩ : ∃ n, B = n + 1 := ⟨B - 1, by omega⟩
    rw [List.range_succ_eq_map]
    simp
  rw [h2] at this
  exact this

/-- The state a float layer starts from. -/
theorem state_float {bf : Bool} {B H : ℕ} {x : Tensor3 K} {q : ActProxy K} (hq : q.quant = none) (ha : q.act = none)
    (hB : 0 < B) (hx : (if bf then x.length else (x.headD []).length) = B) {st : Option (Batch K)} (hst : ∀ s ∈ st, s.length = B ∧ ∀ r ∈ s, r.length = H) :
    (maybeQuantizeState bf H x q st).length = B ∧ ((maybeQuantizeState bf H x q st).headD []).length = H := by
  cases st with
  | none =>
    simp only [maybeQuantizeState, hx]
    refine ⟨by simp, ?_⟩
    obtain ⟨n, rfl⟩ : ∃ n, B = n + 1 := ⟨B - 1, by omega⟩
    simp [List.replicate_succ]
  | some s =>
    obtain ⟨h1, h2⟩ := hst s rfl
    refine ⟨by simp [maybeQuantizeState, h1], ?_⟩
    cases s with
    | nil => simp at h1; omega
    | cons a s => simp [maybeQuantizeState, h2 a (by simp)]

/-- The step of the exported operator is the step of the cell. -/
theorem node_step {l : LstmLayer K} {sigmoid tanh : K → K} (hf : l.cell.IsFloat sigmoid tanh) {g : LstmGates K} {H : ℕ}
    {bi bf bc bo : List K} (hi : Shaped H g.i bi) (hfg : Shaped H g.f bf) (hc : Shaped H g.c bc) (ho : Shaped H g.o bo)
    (p : FloatGate K) (hw : p.wIh = g.i.wIh ++ g.o.wIh ++ g.f.wIh ++ g.c.wIh) (hr : p.wHh = g.i.wHh ++ g.o.wHh ++ g.f.wHh ++ g.c.wHh)
    (hb : p.bias = some (bi ++ bo ++ bf ++ bc, List.replicate (4 * H) 0)) :
    l.cell.step g = batchStep₂ (if l.cell.cifg then
        coupledLstmStep sigmoid tanh (gateRows H 0 p) (gateRows H 3 p) (gateRows H 1 p)
      else lstmStep sigmoid tanh (gateRows H 0 p) (gateRows H 2 p) (gateRows H 3 p) (gateRows H 1 p)) := by
  have c0 : Carries g.i (gateRows H 0 p) := carries (k := 0) (wp := []) (rp := []) (bp := []) hi (by rw [hw]; simp; rfl) (by rw [hr]; simp; rfl)
    (by rw [hb]; simp; rfl) (by simp) (by simp) (by simp) rfl (by omega)
  have c1 : Carries g.o (gateRows H 1 p) := carries (k := 1) (wp := g.i.wIh) (rp := g.i.wHh) (bp := bi) ho (by rw [hw]; simp; rfl)
    (by rw [hr]; simp; rfl) (by rw [hb]; simp; rfl) (by simp [hi.wIh]) (by simp [hi.wHh]) (by simp [hi.len]) rfl (by omega)
  have c2 : Carries g.f (gateRows H 2 p) := carries (k := 2) (wp := g.i.wIh ++ g.o.wIh) (rp := g.i.wHh ++ g.o.wHh) (bp := bi ++ bo) hfg
    (by rw [hw]; simp; rfl) (by rw [hr]; simp; rfl) (by rw [hb]; simp; rfl) (by simp [hi.wIh, ho.wIh]; omega)
    (by simp [hi.wHh, ho.wHh]; omega) (by simp [hi.len, ho.len]; omega) rfl (by omega)
  have c3 : Carries g.c (gateRows H 3 p) := carries (k := 3) (wp := g.i.wIh ++ g.o.wIh ++ g.f.wIh) (rp := g.i.wHh ++ g.o.wHh ++ g.f.wHh)
    (bp := bi ++ bo ++ bf) (wq := []) (rq := []) (bq := []) hc
    (by rw [hw]; simp) (by rw [hr]; simp) (by rw [hb]; simp) (by simp [hi.wIh, ho.wIh, hfg.wIh]; omega)
    (by simp [hi.wHh, ho.wHh, hfg.wHh]; omega) (by simp [hi.len, ho.len, hfg.len]; omega) rfl (by omega)
  funext s x
  cases hcifg : l.cell.cifg with
  | true =>
    simp only [if_true]
    exact l.cell.step_coupled sigmoid tanh hf hcifg g _ _ _ c0 c3 c1 s x
  | false =>
    simp only [Bool.false_eq_true, if_false]
    exact l.cell.step_float sigmoid tanh hf hcifg g _ _ _ _ c0 c2 c3 c1 s x

/-- What the operator of the exported layer returns. -/
theorem node_eq {l : LstmLayer K} {sigmoid tanh : K → K} (hf : l.cell.IsFloat sigmoid tanh) {g : LstmGates K} (hg : l.gates = some g)
    {bi bf bc bo : List K} (hi : Shaped l.hidden g.i bi) (hfg : Shaped l.hidden g.f bf) (hc : Shaped l.hidden g.c bc)
    (ho : Shaped l.hidden g.o bo) {opset : ℕ} (hop : 14 ≤ opset) {B : ℕ} (hB : 0 < B) {xs : Tensor3 K} (hx : IsSequence B xs)
    {st ct : Option (Batch K)} (hst : ∀ s ∈ st, s.length = B ∧ ∀ r ∈ s, r.length = l.hidden)
    (hct : ∀ s ∈ ct, s.length = B ∧ ∀ r ∈ s, r.length = l.hidden) :
    ∃ n outs h c, layerArgs opset l (if l.batchFirst then swapDims B xs else xs) st ct = some n ∧
      IsSequence B outs ∧ outs.length = xs.length ∧
      runNode sigmoid tanh n = some (if l.batchFirst then (swapDims B outs).map (fun s => s.map fun v => [v]) else outs.map fun v => [v],
        putDirection l.batchFirst h, putDirection l.batchFirst c) ∧
      l.forward (if l.batchFirst then swapDims B xs else xs) st ct =
        some (⟨if l.batchFirst then swapDims B outs else outs, l.info⟩, ⟨[h], l.info⟩, ⟨[c], l.cellInfo⟩) := by
  obtain ⟨inp, hinp⟩ : ∃ inp, inp = (if l.batchFirst then swapDims B xs else xs) := ⟨_, rfl⟩
  rw [← hinp]
  have hne : xs.length ≠ 0 := fun h => hx.1 (List.eq_nil_of_length_eq_zero h)
  have hunb : unbind l.batchFirst inp = xs := by
    rw [hinp]
    cases l.batchFirst
    · rfl
    · exact unbind_swap hB hx
  have hhead : ((swapDims B xs).headD []).length = xs.length := by
    unfold swapDims
    obtain ⟨n, rfl⟩ : ∃ n, B = n + 1 := ⟨B - 1, by omega⟩
    rw [List.range_succ_eq_map]
    simp
  have hbatch : (if l.batchFirst then inp.length else (inp.headD []).length) = B := by
    rw [hinp]
    cases l.batchFirst
    · simp only [Bool.false_eq_true, if_false]
      exact head_length hx
    · simp [swapDims]
  have hseq : (if l.batchFirst then (inp.headD []).length else inp.length) = xs.length := by
    rw [hinp]
    cases l.batchFirst
    · rfl
    · simpa using hhead
  have hxs : (if l.batchFirst then swapDims xs.length inp else inp) = xs := by
    rw [hinp]
    cases l.batchFirst
    · rfl
    · exact swap_swap hB hx
  obtain ⟨h1, h2⟩ := state_float (bf := l.batchFirst) (x := inp) hf.noQuant.1 hf.noAct.1 hB hbatch hst
  obtain ⟨c1, c2⟩ := state_float (bf := l.batchFirst) (x := inp) hf.noQuant.2.1 hf.noAct.2.1 hB hbatch hct
  obtain ⟨h0, hh0⟩ : ∃ h0, h0 = maybeQuantizeState l.batchFirst l.hidden inp l.cell.outputQuant st := ⟨_, rfl⟩
  obtain ⟨c0, hc0⟩ : ∃ c0, c0 = maybeQuantizeState l.batchFirst l.hidden inp l.cell.cellStateQuant ct := ⟨_, rfl⟩
  rw [← hh0] at h1 h2
  rw [← hc0] at c1 c2
  have hrun := l.run_isSequence g (h0, c0) ⟨h1, c1⟩ xs hx
  unfold LstmLayer.run at hrun
  rw [quantizeInput_float hf] at hrun
  obtain ⟨r, hr⟩ : ∃ r, r = directionRun l.reverse (l.cell.step g) Prod.fst (h0, c0) xs := ⟨_, rfl⟩
  rw [← hr] at hrun
  have hfwd := l.forward_eq g hg inp st ct
  simp only [quantizeInput_float hf, hunb] at hfwd
  have hstart : l.start inp st ct = (h0, c0) := by
    unfold LstmLayer.start
    simp only [quantizeInput_float hf]
    rw [← hh0, ← hc0]
  rw [hstart, ← hr] at hfwd
  have hfwd := hfwd hx.1
  have hcat : catSeq l.batchFirst r.1 = some (if l.batchFirst then swapDims B r.1 else r.1) := by
    cases l.batchFirst
    · exact catSeq_false hrun.1.1
    · exact catSeq_swap hrun.1
  have hput : ∀ s : Batch K, (if l.batchFirst then permute102 [s] else [s]) = putDirection l.batchFirst s := by
    intro s
    unfold putDirection
    rw [permute_one]
  refine ⟨⟨inp, [g.i.wIh ++ g.o.wIh ++ g.f.wIh ++ g.c.wIh], [g.i.wHh ++ g.o.wHh ++ g.f.wHh ++ g.c.wHh],
    [(bi ++ bo ++ bf ++ bc) ++ List.replicate (bi ++ bo ++ bf ++ bc).length 0], List.replicate B xs.length, putDirection l.batchFirst h0,
    putDirection l.batchFirst c0, ⟨l.hidden, l.reverse, l.cell.cifg, l.batchFirst⟩⟩, r.1, r.2.1, r.2.2, ?_, hrun.1, hrun.2, ?_, ?_⟩
  · unfold layerArgs
    simp only [quantizeInput_float hf, hg, Option.bind_some, nodeArgs, ← hh0, ← hc0, hi.bias, ho.bias, hfg.bias, hc.bias, hput, hseq, h1, h2]
    rw [if_neg (by omega)]
  · unfold runNode onnxLstm
    have hl : (bi ++ bo ++ bf ++ bc).length = 4 * l.hidden := by simp [hi.len, ho.len, hfg.len, hc.len]; omega
    simp only [theOnly, Option.bind_some, hseq, hbatch, if_true, drop_put, hxs, hl]
    rw [List.take_left' hl, List.drop_left' hl]
    have hs := node_step hf hi hfg hc ho ⟨g.i.wIh ++ g.o.wIh ++ g.f.wIh ++ g.c.wIh, g.i.wHh ++ g.o.wHh ++ g.f.wHh ++ g.c.wHh,
      some (bi ++ bo ++ bf ++ bc, List.replicate (4 * l.hidden) 0)⟩ rfl rfl rfl
    rw [← hs, ← hr]
  · rw [hfwd, hcat]
    rfl

end Brevitas.LstmExport
